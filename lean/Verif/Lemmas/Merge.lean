import Verif.Model.Merge
import Verif.Props.C30

/-!
# Facts about `Key::merge`
-/
namespace OpenPGP
open Rfc KeyObj
variable {E : Type}

namespace Node

theorem same_refl (a : Node E) : a.same a = true := by simp [same]

theorem same_iff {a b : Node E} : a.same b = true ↔ a.tag = b.tag ∧ a.octets = b.octets := by simp [same]

theorem same_comm (a b : Node E) : a.same b = b.same a := by
  rw [Bool.eq_iff_iff, same_iff, same_iff]; constructor <;> (rintro ⟨h1, h2⟩; exact ⟨h1.symm, h2.symm⟩)

theorem same_trans {a b c : Node E} (h : a.same b = true) (h' : b.same c = true) : a.same c = true := by
  rw [same_iff] at *; exact ⟨h.1.trans h'.1, h.2.trans h'.2⟩

theorem same_congr {a b : Node E} (h : a.same b = true) (c : Node E) : c.same a = c.same b := by
  rw [same_iff] at h; simp [same, h.1, h.2]

end Node

namespace SigPairs

theorem mem_insert (sp : SigPairs E) (x y : Node E × Node E) : y ∈ sp.insert x ↔ y = x ∨ y ∈ sp := by
  induction sp with
  | nil => simp [insert]
  | cons z sp ih =>
    rw [insert]
    split
    · simp
    · simp only [List.mem_cons, ih]; tauto

theorem mem_insertAll (l : SigPairs E) : ∀ (sp : SigPairs E) (y : Node E × Node E), y ∈ sp.insertAll l ↔ y ∈ sp ∨ y ∈ l := by
  induction l with
  | nil => intro sp y; simp [insertAll]
  | cons x l ih =>
    intro sp y
    have := ih (sp.insert x) y
    rw [insertAll] at this
    rw [insertAll, List.foldl_cons, this, mem_insert, List.mem_cons]; tauto

theorem mem_byKey (sp : SigPairs E) (k s : Node E) : s ∈ sp.byKey k ↔ ∃ o, (o, s) ∈ sp ∧ o.same k = true := by
  simp only [byKey, List.mem_map, List.mem_filter]
  constructor
  · rintro ⟨⟨o, s'⟩, ⟨h1, h2⟩, rfl⟩; exact ⟨o, h1, h2⟩
  · rintro ⟨o, h1, h2⟩; exact ⟨(o, s), ⟨h1, h2⟩, rfl⟩

theorem byKey_congr (sp : SigPairs E) {k k' : Node E} (h : k.same k' = true) : sp.byKey k = sp.byKey k' := by
  simp only [byKey, Node.same_congr h]

end SigPairs

/-! ## The tables of `get_pkey` -/

/-- A list of blocks, each an owner followed by signatures: the pairs of owner and signature. -/
def sigPairs (gs : List (List (Node E))) : List (Node E × Node E) :=
  gs.flatMap fun g => match g with
    | [] => []
    | o :: sigs => sigs.map fun s => (o, s)

/-- The pairs of user ID and user attribute in a list of user blocks, `cur` being the user ID before. -/
def attrPairs : Option (Node E) → List (List (Node E)) → List (Node E × Node E)
  | _, [] => []
  | cur, [] :: gs => attrPairs cur gs
  | cur, (o :: _) :: gs =>
    if o.tag = 13 then attrPairs (some o) gs
    else match cur with
      | some u => (u, o) :: attrPairs cur gs
      | none => attrPairs cur gs

theorem attrPairs_cons (cur : Option (Node E)) (o : Node E) (sg : List (Node E)) (gs : List (List (Node E))) :
    attrPairs cur ((o :: sg) :: gs) = if o.tag = 13 then attrPairs (some o) gs
      else match cur with
        | some u => (u, o) :: attrPairs cur gs
        | none => attrPairs cur gs := by
  cases cur <;> rfl

/-- The user IDs of a list of user blocks. -/
def idsOf (gs : List (List (Node E))) : List (Node E) :=
  gs.flatMap fun g => match g with
    | [] => []
    | o :: _ => if o.tag = 13 then [o] else []

/-- An owner of a tag followed by signatures. -/
def BlockN (T : Nat → Prop) (P : Nat → Body E → Prop) (g : List (Node E)) : Prop :=
  ∃ o sigs, g = o :: sigs ∧ T o.tag ∧ ∀ s ∈ sigs, s.tag = 2 ∧ P o.tag s.pkt.body

theorem PKey.loop_append (key : Node E) (l : List (Node E)) : ∀ (pk : PKey E) (l' : List (Node E)),
    PKey.loop key pk (l ++ l') = (PKey.loop key pk l).bind fun pk => PKey.loop key pk l' := by
  induction l with
  | nil => intro pk l'; rfl
  | cons n l ih =>
    intro pk l'
    rw [List.cons_append, loop, loop]
    cases PKey.step key pk n <;> simp [Out.bind, Bind.bind, ih]

/-- Signatures behind the primary key. -/
theorem PKey.loop_keySigs (key : Node E) (l : List (Node E)) (hl : ∀ s ∈ l, s.tag = 2) : ∀ pk : PKey E, pk.lastUser = none →
    pk.lastSub = none → PKey.loop key pk l = .ok { pk with keySigs := pk.keySigs.insertAll (l.map fun s => (key, s)) } := by
  induction l with
  | nil => intro pk _ _; rfl
  | cons n l ih =>
    intro pk h1 h2
    have hn := hl n (by simp)
    rw [loop, step, if_pos hn, h1, h2]
    simp only [Out.ok_bind]
    rw [ih (fun s hs => hl s (by simp [hs])) _ rfl rfl]
    simp [SigPairs.insertAll]

/-- Signatures behind a user packet. -/
theorem PKey.loop_userSigs (key u : Node E) (l : List (Node E)) (hl : ∀ s ∈ l, s.tag = 2) : ∀ pk : PKey E,
    pk.lastUser = some u → pk.lastSub = none →
    PKey.loop key pk l = .ok { pk with uids := pk.uids.insertAll (l.map fun s => (u, s)) } := by
  induction l with
  | nil => intro pk _ _; rfl
  | cons n l ih =>
    intro pk h1 h2
    have hn := hl n (by simp)
    rw [loop, step, if_pos hn, h1, h2]
    simp only [Out.ok_bind]
    rw [ih (fun s hs => hl s (by simp [hs])) _ rfl rfl]
    simp [SigPairs.insertAll]

/-- Signatures behind a subkey. -/
theorem PKey.loop_subSigs (key u : Node E) (l : List (Node E)) (hl : ∀ s ∈ l, s.tag = 2) : ∀ pk : PKey E,
    pk.lastUser = none → pk.lastSub = some u →
    PKey.loop key pk l = .ok { pk with subKeys := pk.subKeys.insertAll (l.map fun s => (u, s)) } := by
  induction l with
  | nil => intro pk _ _; rfl
  | cons n l ih =>
    intro pk h1 h2
    have hn := hl n (by simp)
    rw [loop, step, if_pos hn, h1, h2]
    simp only [Out.ok_bind]
    rw [ih (fun s hs => hl s (by simp [hs])) _ rfl rfl]
    simp [SigPairs.insertAll]

/-- The user blocks. -/
theorem PKey.loop_users (key : Node E) (P : Nat → Body E → Prop) (gs : List (List (Node E)))
    (hg : ∀ g ∈ gs, BlockN (fun t => t = 13 ∨ t = 17) P g) : ∀ (pk pk' : PKey E), pk.lastSub = none →
    PKey.loop key pk gs.flatten = .ok pk' →
    pk'.keySigs = pk.keySigs ∧ pk'.subKeys = pk.subKeys ∧ pk'.lastSub = none ∧
    (∀ x, x ∈ pk'.uids ↔ x ∈ pk.uids ∨ x ∈ sigPairs gs) ∧ (∀ x, x ∈ pk'.uidAttr ↔ x ∈ pk.uidAttr ∨ x ∈ attrPairs pk.lastUid gs) ∧
    pk'.uidList = pk.uidList ++ idsOf gs := by
  induction gs with
  | nil => intro pk pk' h0 h; obtain rfl := Out.ok.inj h; simp [sigPairs, attrPairs, idsOf, h0]
  | cons g gs ih =>
    intro pk pk' h0 h
    obtain ⟨o, sigs, rfl, ht, hs⟩ := hg g (by simp)
    rw [List.flatten_cons, List.cons_append, loop] at h
    obtain ⟨pk1, h1, h⟩ := Out.bind_eq_ok.mp h
    rw [loop_append] at h
    obtain ⟨pk2, h2, h⟩ := Out.bind_eq_ok.mp h
    have ih := ih (fun g hg' => hg g (by simp [hg']))
    rw [step, if_neg (by rcases ht with h | h <;> rw [h] <;> decide)] at h1
    rcases ht with ht | ht
    · rw [if_neg (by rw [ht]; decide), if_pos ht] at h1
      obtain rfl := Out.ok.inj h1
      rw [loop_userSigs key o sigs (fun s h => (hs s h).1) _ rfl rfl] at h2
      obtain rfl := Out.ok.inj h2
      obtain ⟨a1, a2, a3, a4, a5, a6⟩ := ih _ _ rfl h
      refine ⟨a1, a2, a3, ?_, ?_, ?_⟩
      · intro x
        rw [a4]; simp only [SigPairs.mem_insertAll, sigPairs, List.flatMap_cons, List.mem_append]; tauto
      · intro x
        rw [a5]; simp only [attrPairs, if_pos ht]
      · rw [a6]; simp [idsOf, ht]
    · rw [if_pos ht] at h1
      split at h1
      · exact absurd h1 (by simp)
      · rename_i u hu
        obtain rfl := Out.ok.inj h1
        rw [loop_userSigs key o sigs (fun s h => (hs s h).1) _ rfl rfl] at h2
        obtain rfl := Out.ok.inj h2
        obtain ⟨a1, a2, a3, a4, a5, a6⟩ := ih _ _ rfl h
        have hne : ¬ o.tag = 13 := by rw [ht]; decide
        refine ⟨a1, a2, a3, ?_, ?_, ?_⟩
        · intro x
          rw [a4]; simp only [SigPairs.mem_insertAll, sigPairs, List.flatMap_cons, List.mem_append]; tauto
        · intro x
          rw [a5]; simp only [attrPairs, if_neg hne, hu, SigPairs.mem_insert, List.mem_cons]; tauto
        · rw [a6]; simp [idsOf, ht]

/-- The loop does not throw on user blocks of which the first is a user ID. -/
theorem PKey.loop_users_ok (key : Node E) (P : Nat → Body E → Prop) (gs : List (List (Node E)))
    (hg : ∀ g ∈ gs, BlockN (fun t => t = 13 ∨ t = 17) P g) : ∀ (pk : PKey E), pk.lastSub = none →
    (pk.lastUid ≠ none ∨ ∀ o sigs gs', gs = (o :: sigs) :: gs' → o.tag = 13) →
    ∃ pk', PKey.loop key pk gs.flatten = .ok pk' := by
  induction gs with
  | nil => intro pk _ _; exact ⟨pk, rfl⟩
  | cons g gs ih =>
    intro pk h0 hu
    obtain ⟨o, sigs, rfl, ht, hs⟩ := hg g (by simp)
    have ih := ih (fun g hg' => hg g (by simp [hg']))
    rw [List.flatten_cons, List.cons_append, loop, step, if_neg (by rcases ht with h | h <;> rw [h] <;> decide)]
    by_cases h13 : o.tag = 13
    · rw [if_neg (by rw [h13]; decide), if_pos h13, Out.ok_bind, loop_append,
        loop_userSigs key o sigs (fun s h => (hs s h).1) _ rfl rfl]
      exact ih _ rfl (Or.inl (by simp))
    · have h17 : o.tag = 17 := ht.resolve_left h13
      rw [if_pos h17]
      rcases hu with hu | hu
      · obtain ⟨u, hu⟩ := Option.ne_none_iff_exists'.mp hu
        rw [hu]
        simp only [Out.ok_bind]
        rw [loop_append, loop_userSigs key o sigs (fun s h => (hs s h).1) _ rfl rfl]
        exact ih _ rfl (Or.inl (by simp))
      · exact absurd (hu o sigs gs rfl) h13

/-- The subkey blocks. -/
theorem PKey.loop_subkeys (key : Node E) (P : Nat → Body E → Prop) (gs : List (List (Node E)))
    (hg : ∀ g ∈ gs, BlockN (fun t => t = 7 ∨ t = 14) P g) : ∀ pk : PKey E,
    ∃ pk', PKey.loop key pk gs.flatten = .ok pk' ∧ pk'.keySigs = pk.keySigs ∧ pk'.uids = pk.uids ∧ pk'.uidAttr = pk.uidAttr ∧
      pk'.uidList = pk.uidList ∧ ∀ x, x ∈ pk'.subKeys ↔ x ∈ pk.subKeys ∨ x ∈ sigPairs gs := by
  induction gs with
  | nil => intro pk; exact ⟨pk, rfl, rfl, rfl, rfl, rfl, by simp [sigPairs]⟩
  | cons g gs ih =>
    intro pk
    obtain ⟨o, sigs, rfl, ht, hs⟩ := hg g (by simp)
    have ih := ih (fun g hg' => hg g (by simp [hg']))
    rw [List.flatten_cons, List.cons_append, loop, step, if_neg (by rcases ht with h | h <;> rw [h] <;> decide),
      if_neg (by rcases ht with h | h <;> rw [h] <;> decide), if_neg (by rcases ht with h | h <;> rw [h] <;> decide), if_pos ht,
      Out.ok_bind, loop_append, loop_subSigs key o sigs (fun s h => (hs s h).1) _ rfl rfl]
    obtain ⟨pk', b1, b2, b3, b4, b5, b6⟩ := ih ⟨pk.keySigs, pk.uids,
      pk.subKeys.insertAll (sigs.map fun s => (o, s)), pk.uidAttr, pk.uidList, none, none, some o⟩
    refine ⟨pk', b1, b2, b3, b4, b5, ?_⟩
    intro x
    rw [b6]
    simp only [SigPairs.mem_insertAll, sigPairs, List.flatMap_cons, List.mem_append]; tauto

/-- Every user attribute is filed under a user ID when the loop does not throw. -/
theorem PKey.loop_users_attr (key : Node E) (P : Nat → Body E → Prop) (gs : List (List (Node E)))
    (hg : ∀ g ∈ gs, BlockN (fun t => t = 13 ∨ t = 17) P g) : ∀ (pk pk' : PKey E), PKey.loop key pk gs.flatten = .ok pk' →
    pk.lastSub = none → ∀ o sigs, (o :: sigs) ∈ gs → o.tag = 17 → ∃ u, (u, o) ∈ attrPairs pk.lastUid gs := by
  induction gs with
  | nil => intro pk pk' _ _ o sigs h; exact absurd h (by simp)
  | cons g gs ih =>
    intro pk pk' h h0 a asigs hmem hat
    obtain ⟨o, sigs, rfl, ht, hs⟩ := hg g (by simp)
    rw [List.flatten_cons, List.cons_append, loop] at h
    obtain ⟨pk1, h1, h⟩ := Out.bind_eq_ok.mp h
    rw [loop_append] at h
    obtain ⟨pk2, h2, h⟩ := Out.bind_eq_ok.mp h
    have ih := ih (fun g hg' => hg g (by simp [hg']))
    rw [step, if_neg (by rcases ht with h | h <;> rw [h] <;> decide)] at h1
    rcases ht with ht | ht
    · rw [if_neg (by rw [ht]; decide), if_pos ht] at h1
      obtain rfl := Out.ok.inj h1
      rw [loop_userSigs key o sigs (fun s h => (hs s h).1) _ rfl rfl] at h2
      obtain rfl := Out.ok.inj h2
      have ih := ih _ _ h rfl a asigs
      rcases List.mem_cons.mp hmem with e | hmem
      · obtain ⟨rfl, -⟩ := List.cons.inj e; omega
      · rw [attrPairs_cons, if_pos ht]; exact ih hmem hat
    · rw [if_pos ht] at h1
      split at h1
      · exact absurd h1 (by simp)
      · rename_i u hu
        obtain rfl := Out.ok.inj h1
        rw [loop_userSigs key o sigs (fun s h => (hs s h).1) _ rfl rfl] at h2
        obtain rfl := Out.ok.inj h2
        have ih := ih _ _ h rfl a asigs
        have hne : ¬ o.tag = 13 := by rw [ht]; decide
        rw [attrPairs_cons, if_neg hne, hu]
        rcases List.mem_cons.mp hmem with e | hmem
        · obtain ⟨rfl, -⟩ := List.cons.inj e; exact ⟨u, by simp⟩
        · obtain ⟨u', h'⟩ := ih hmem hat
          exact ⟨u', by simp only [hu] at h'; simp [h']⟩

theorem mem_sigPairs {gs : List (List (Node E))} {o s : Node E} :
    (o, s) ∈ sigPairs gs ↔ ∃ sigs, (o :: sigs) ∈ gs ∧ s ∈ sigs := by
  simp only [sigPairs, List.mem_flatMap]
  constructor
  · rintro ⟨g, hg, h⟩
    cases g with
    | nil => simp at h
    | cons o' sigs =>
      obtain ⟨s', hs', e⟩ := List.mem_map.mp h
      obtain ⟨rfl, rfl⟩ := Prod.mk.inj e
      exact ⟨sigs, hg, hs'⟩
  · rintro ⟨sigs, hg, hs⟩
    exact ⟨_, hg, by simp [hs]⟩

theorem mem_idsOf {gs : List (List (Node E))} {u : Node E} : u ∈ idsOf gs ↔ u.tag = 13 ∧ ∃ sigs, (u :: sigs) ∈ gs := by
  simp only [idsOf, List.mem_flatMap]
  constructor
  · rintro ⟨g, hg, h⟩
    cases g with
    | nil => simp at h
    | cons o' sigs =>
      simp only at h
      split at h
      · rename_i ht
        obtain rfl := List.mem_singleton.mp h
        exact ⟨ht, sigs, hg⟩
      · simp at h
  · rintro ⟨ht, sigs, hg⟩
    exact ⟨_, hg, by simp [ht]⟩

theorem attrPairs_mem {gs : List (List (Node E))} : ∀ {cur : Option (Node E)} {u a : Node E}, (u, a) ∈ attrPairs cur gs →
    (cur = some u ∨ u ∈ idsOf gs) ∧ a.tag ≠ 13 ∧ ∃ sigs, (a :: sigs) ∈ gs := by
  induction gs with
  | nil => intro cur u a h; simp [attrPairs] at h
  | cons g gs ih =>
    intro cur u a h
    cases g with
    | nil =>
      rw [attrPairs] at h
      obtain ⟨h1, h2, sigs, h3⟩ := ih h
      refine ⟨h1.imp_right fun h => ?_, h2, sigs, by simp [h3]⟩
      simpa [idsOf] using h
    | cons o sigs =>
      rw [attrPairs_cons] at h
      split at h
      · rename_i ht
        obtain ⟨h1, h2, sigs', h3⟩ := ih h
        refine ⟨Or.inr ?_, h2, sigs', by simp [h3]⟩
        rcases h1 with h1 | h1
        · obtain rfl := Option.some.inj h1
          exact mem_idsOf.mpr ⟨ht, sigs, by simp⟩
        · obtain ⟨x, sg, y⟩ := mem_idsOf.mp h1
          exact mem_idsOf.mpr ⟨x, sg, by simp [y]⟩
      · rename_i ht
        split at h
        · rename_i v
          rcases List.mem_cons.mp h with e | h
          · obtain ⟨rfl, rfl⟩ := Prod.mk.inj e
            exact ⟨Or.inl rfl, ht, sigs, by simp⟩
          · obtain ⟨h1, h2, sigs', h3⟩ := ih h
            refine ⟨h1.imp_right fun h => ?_, h2, sigs', by simp [h3]⟩
            obtain ⟨x, sg, y⟩ := mem_idsOf.mp h
            exact mem_idsOf.mpr ⟨x, sg, by simp [y]⟩
        · obtain ⟨h1, h2, sigs', h3⟩ := ih h
          refine ⟨h1.imp_right fun h => ?_, h2, sigs', by simp [h3]⟩
          obtain ⟨x, sg, y⟩ := mem_idsOf.mp h
          exact mem_idsOf.mpr ⟨x, sg, by simp [y]⟩

/-! ## The layout of a key as nodes -/

theorem map_eq_flatten {α β : Type} (f : α → β) (gs : List (List β)) : ∀ l : List α, l.map f = gs.flatten →
    ∃ hs : List (List α), l = hs.flatten ∧ hs.map (List.map f) = gs := by
  induction gs with
  | nil => intro l h; exact ⟨[], by simpa using h, rfl⟩
  | cons g gs ih =>
    intro l h
    rw [List.flatten_cons, List.map_eq_append_iff] at h
    obtain ⟨l1, l2, rfl, h1, h2⟩ := h
    obtain ⟨hs, rfl, h3⟩ := ih l2 h2
    exact ⟨l1 :: hs, by simp, by simp [h1, h3]⟩

theorem tag_of_sigOf {P : UInt8 → Prop} {b : Body E} (h : SigOf P b) : b.tag = 2 := by
  obtain ⟨s, rfl, -⟩ := h; rfl

theorem tag_of_userSig {isId : Bool} {b : Body E} (h : UserSig isId b) : b.tag = 2 := by
  rcases h with h | ⟨-, h⟩ <;> exact tag_of_sigOf h

/-- A key as nodes: primary key, revocations, user blocks, subkey blocks. -/
structure LayoutN (kt skt : Nat) (l : List (Node E)) (key : Node E) (revs : List (Node E)) (users subs : List (List (Node E))) :
    Prop where
  eq : l = key :: (revs ++ users.flatten ++ subs.flatten)
  key_tag : key.tag = kt
  hrevs : ∀ r ∈ revs, KeyRevocation r.pkt.body
  husers : ∀ g ∈ users, BlockN (fun t => t = 13 ∨ t = 17) (fun t => UserSig (t == 13)) g
  ids : ∃ u sigs, (u :: sigs) ∈ users ∧ u.tag = 13
  hsubs : ∀ g ∈ subs, BlockN (fun t => t = skt) (fun _ => SigOf fun _ => True) g
  bound : ∀ o sigs, (o :: sigs) ∈ subs → ∃ s ∈ sigs, SigOf (· = 0x18) s.pkt.body
  version : subs ≠ [] → ∀ k, (key.pkt.body = .publicKey k ∨ ∃ t : Tag5, key.pkt.body = .secretKey t ∧ t.key = k) → k.version ≠ 3

theorem layout_of_transferable {kt skt : Nat} {l : List (Node E)}
    (h : TransferableKey false kt skt (l.map (·.pkt.body))) : ∃ key revs users subs, LayoutN kt skt l key revs users subs := by
  obtain ⟨primary, revs, users, subs, h1, h2, h3, h4, h5, h6, h7⟩ := h
  rw [List.map_eq_cons_iff] at h1
  obtain ⟨key, r, rfl, rfl, h1⟩ := h1
  rw [List.map_eq_append_iff] at h1
  obtain ⟨r1, r2, rfl, h1, h8⟩ := h1
  rw [List.map_eq_append_iff] at h1
  obtain ⟨rv, us, rfl, h1, h9⟩ := h1
  obtain ⟨us', rfl, e9⟩ := map_eq_flatten _ _ _ h9
  obtain ⟨ss', rfl, e8⟩ := map_eq_flatten _ _ _ h8
  subst h1 e8 e9
  refine ⟨key, rv, us', ss', rfl, h2, ?_, ?_, ?_, ?_, ?_, ?_⟩
  · intro r hr; exact h3 _ (List.mem_map_of_mem hr)
  · intro g hg
    obtain ⟨b, sigs, e, hb, hs⟩ := (userBlock_iff _).mp (h4 _ (List.mem_map_of_mem hg))
    rw [List.map_eq_cons_iff] at e
    obtain ⟨o, sg, rfl, rfl, rfl⟩ := e
    refine ⟨o, sg, rfl, hb, ?_⟩
    intro s hsm
    have := hs _ (List.mem_map_of_mem hsm)
    exact ⟨tag_of_userSig this, this⟩
  · obtain ⟨g, hg, u, sigs, e⟩ := h5
    obtain ⟨g', hg', rfl⟩ := List.mem_map.mp hg
    rw [List.map_eq_cons_iff] at e
    obtain ⟨o, sg, rfl, ho, rfl⟩ := e
    exact ⟨o, sg, hg', by rw [Node.tag, ho]; rfl⟩
  · intro g hg
    obtain ⟨k, sigs, e, hk, hs, -⟩ := h6 _ (List.mem_map_of_mem hg)
    rw [List.map_eq_cons_iff] at e
    obtain ⟨o, sg, rfl, rfl, rfl⟩ := e
    refine ⟨o, sg, rfl, hk, ?_⟩
    intro s hsm
    obtain ⟨x, hx, -⟩ := hs _ (List.mem_map_of_mem hsm)
    exact ⟨tag_of_sigOf (hs _ (List.mem_map_of_mem hsm)), x, hx, trivial⟩
  · intro o sigs hg
    obtain ⟨k, sigs', e, hk, hs, s, hsm, hb⟩ := h6 _ (List.mem_map_of_mem hg)
    obtain ⟨-, rfl⟩ := List.cons.inj e
    obtain ⟨s', hs', rfl⟩ := List.mem_map.mp hsm
    exact ⟨s', hs', hb⟩
  · intro hne
    exact h7 (by simpa using hne)

theorem transferable_of_layout {kt skt : Nat} {l key revs users subs} (h : LayoutN (E := E) kt skt l key revs users subs) :
    TransferableKey false kt skt (l.map (·.pkt.body)) := by
  refine ⟨key.pkt.body, revs.map (·.pkt.body), users.map (List.map (·.pkt.body)), subs.map (List.map (·.pkt.body)), ?_, h.key_tag, ?_,
    ?_, ?_, ?_, ?_⟩
  · rw [h.eq]; simp [List.map_flatten]
  · intro r hr
    obtain ⟨x, hx, rfl⟩ := List.mem_map.mp hr
    exact h.hrevs x hx
  · intro g hg
    obtain ⟨x, hx, rfl⟩ := List.mem_map.mp hg
    obtain ⟨o, sigs, rfl, ho, hs⟩ := h.husers x hx
    refine (userBlock_iff _).mpr ⟨o.pkt.body, sigs.map (·.pkt.body), rfl, ho, ?_⟩
    intro s hsm
    obtain ⟨y, hy, rfl⟩ := List.mem_map.mp hsm
    exact (hs y hy).2
  · obtain ⟨u, sigs, hg, hu⟩ := h.ids
    obtain ⟨n, hn⟩ := userId_of_tag hu
    exact ⟨_, List.mem_map_of_mem hg, n, sigs.map (·.pkt.body), by simp [hn]⟩
  · intro g hg
    obtain ⟨x, hx, rfl⟩ := List.mem_map.mp hg
    obtain ⟨o, sigs, rfl, ho, hs⟩ := h.hsubs x hx
    refine ⟨o.pkt.body, sigs.map (·.pkt.body), rfl, ho, ?_, ?_⟩
    · intro s hsm
      obtain ⟨y, hy, rfl⟩ := List.mem_map.mp hsm
      obtain ⟨z, hz, -⟩ := (hs y hy).2
      exact ⟨z, hz, by simp⟩
    · obtain ⟨s, hs, hb⟩ := h.bound o sigs hx
      exact ⟨_, List.mem_map_of_mem hs, hb⟩
  · intro hne
    exact h.version (by simpa using hne)

/-- What the tables of `get_pkey` contain. -/
structure TablesN (key : Node E) (revs : List (Node E)) (users subs : List (List (Node E))) (pk : PKey E) : Prop where
  keySigs : ∀ x, x ∈ pk.keySigs ↔ ∃ r ∈ revs, x = (key, r)
  uids : ∀ x, x ∈ pk.uids ↔ x ∈ sigPairs users
  attrs : ∀ x, x ∈ pk.uidAttr ↔ x ∈ attrPairs none users
  filed : ∀ o sigs, (o :: sigs) ∈ users → o.tag = 17 → ∃ u, (u, o) ∈ pk.uidAttr
  ids : pk.uidList = idsOf users
  subKeys : ∀ x, x ∈ pk.subKeys ↔ x ∈ sigPairs subs

theorem tables_of_layout {kt skt : Nat} (hskt : skt = 7 ∨ skt = 14) {l key revs users subs}
    (h : LayoutN (E := E) kt skt l key revs users subs) {pk : PKey E}
    (hp : PKey.loop key .empty (revs ++ users.flatten ++ subs.flatten) = .ok pk) : TablesN key revs users subs pk := by
  rw [List.append_assoc, PKey.loop_append] at hp
  obtain ⟨p1, h1, hp'⟩ := Out.bind_eq_ok.mp hp
  rw [PKey.loop_append] at hp'
  obtain ⟨p2, h2, hp3⟩ := Out.bind_eq_ok.mp hp'
  rw [PKey.loop_keySigs key revs (fun r hr => tag_of_sigOf (h.hrevs r hr)) .empty rfl rfl] at h1
  obtain rfl := Out.ok.inj h1
  have hf := PKey.loop_users_attr key _ users h.husers _ _ h2 rfl
  obtain ⟨a1, a2, a3, a4, a5, a6⟩ := PKey.loop_users key _ users h.husers _ _ rfl h2
  obtain ⟨p3, b1, b2, b3, b4, b5, b6⟩ := PKey.loop_subkeys key (fun _ => SigOf fun _ => True) subs (fun g hg => by
    obtain ⟨o, s, e, ho, hs⟩ := h.hsubs g hg
    exact ⟨o, s, e, by simpa [ho] using hskt, hs⟩) p2
  rw [b1] at hp3
  obtain rfl := Out.ok.inj hp3
  refine ⟨?_, ?_, ?_, ?_, ?_, ?_⟩
  · intro x
    rw [b2, a1]
    simp only [SigPairs.mem_insertAll, PKey.empty, List.not_mem_nil, false_or, List.mem_map]
    constructor
    · rintro ⟨r, hr, rfl⟩; exact ⟨r, hr, rfl⟩
    · rintro ⟨r, hr, rfl⟩; exact ⟨r, hr, rfl⟩
  · intro x; rw [b3, a4]; simp [PKey.empty]
  · intro x; rw [b4, a5]; simp [PKey.empty]
  · intro o sigs hm ht
    obtain ⟨u, hu⟩ := hf o sigs hm ht
    exact ⟨u, by rw [b4, a5]; exact Or.inr hu⟩
  · rw [b5, a6]; simp [PKey.empty]
  · intro x; rw [b6, a2]; simp [PKey.empty]

theorem loop_of_layout {kt skt : Nat} (hskt : skt = 7 ∨ skt = 14) {l key revs users subs}
    (h : LayoutN (E := E) kt skt l key revs users subs) (hfirst : ∀ o sigs gs', users = (o :: sigs) :: gs' → o.tag = 13) :
    ∃ pk, PKey.loop key .empty (revs ++ users.flatten ++ subs.flatten) = .ok pk := by
  rw [List.append_assoc, PKey.loop_append, PKey.loop_keySigs key revs (fun r hr => tag_of_sigOf (h.hrevs r hr)) .empty rfl rfl]
  obtain ⟨p2, h2⟩ := PKey.loop_users_ok key _ users h.husers
    { PKey.empty with keySigs := PKey.empty.keySigs.insertAll (revs.map fun s => (key, s)) } rfl (Or.inr hfirst)
  obtain ⟨p3, b1, -⟩ := PKey.loop_subkeys key (fun _ => SigOf fun _ => True) subs (fun g hg => by
    obtain ⟨o, s, e, ho, hs⟩ := h.hsubs g hg
    exact ⟨o, s, e, by simpa [ho] using hskt, hs⟩) p2
  refine ⟨p3, ?_⟩
  change PKey.loop key _ (users.flatten ++ subs.flatten) = _
  rw [PKey.loop_append, h2]
  exact b1

/-! ## The new list -/

namespace Merge

/-- No two packets are the same. -/
def Distinct (np : List (Node E)) : Prop := np.Pairwise fun a b => a.same b = false

theorem present_iff (np : List (Node E)) (p : Node E) : present np p = true ↔ ∃ q ∈ np, q.same p = true := by
  simp [present]

theorem present_append {np : List (Node E)} (np' : List (Node E)) {p : Node E} (h : present np p = true) :
    present (np ++ np') p = true := by
  rw [present_iff] at *
  obtain ⟨q, hq, h⟩ := h
  exact ⟨q, by simp [hq], h⟩

theorem present_of_mem {np : List (Node E)} {p : Node E} (h : p ∈ np) : present np p = true :=
  (present_iff _ _).mpr ⟨p, h, p.same_refl⟩

theorem present_congr {np : List (Node E)} {p q : Node E} (h : p.same q = true) : present np p = present np q := by
  simp only [present, Node.same_congr h]

theorem distinct_snoc {np : List (Node E)} {p : Node E} (h : Distinct np) (hp : present np p ≠ true) : Distinct (np ++ [p]) := by
  rw [Distinct, List.pairwise_append]
  refine ⟨h, List.pairwise_singleton _ _, ?_⟩
  intro a ha b hb
  obtain rfl := List.mem_singleton.mp hb
  by_contra hc
  exact hp ((present_iff _ _).mpr ⟨a, ha, by simpa using hc⟩)

theorem pushAll_eq (ps : List (Node E)) : ∀ np : List (Node E), ∃ qs, pushAll np ps = np ++ qs ∧ (∀ q ∈ qs, q ∈ ps) ∧
    (∀ p ∈ ps, present (np ++ qs) p = true) ∧ (Distinct np → Distinct (np ++ qs)) := by
  induction ps with
  | nil => intro np; exact ⟨[], by simp [pushAll], by simp, by simp, by simp⟩
  | cons p ps ih =>
    intro np
    by_cases hp : present np p = true
    · obtain ⟨qs, h1, h2, h3, h4⟩ := ih np
      refine ⟨qs, by rw [← h1, pushAll, List.foldl_cons, push, if_pos hp]; rfl, fun q hq => by simp [h2 q hq], ?_, h4⟩
      intro x hx
      rcases List.mem_cons.mp hx with rfl | hx
      · exact present_append _ hp
      · exact h3 x hx
    · obtain ⟨qs, h1, h2, h3, h4⟩ := ih (np ++ [p])
      refine ⟨p :: qs, ?_, ?_, ?_, ?_⟩
      · rw [pushAll, List.foldl_cons, push, if_neg hp]; simpa [pushAll] using h1
      · intro q hq
        rcases List.mem_cons.mp hq with rfl | hq
        · simp
        · simp [h2 q hq]
      · intro x hx
        rw [show np ++ p :: qs = np ++ [p] ++ qs by simp]
        rcases List.mem_cons.mp hx with rfl | hx
        · exact present_of_mem (by simp)
        · exact h3 x hx
      · intro hd
        rw [show np ++ p :: qs = np ++ [p] ++ qs by simp]
        exact h4 (distinct_snoc hd hp)

/-- A loop whose passes append blocks: what holds for a pass holds for the loop. -/
theorem foldl_blocks {X : Type} (step : List (Node E) → X → List (Node E)) (Q : List (Node E) → Prop) (B : List (Node E) → Prop)
    (C : List (Node E) → X → Prop) (hC : ∀ np np' x, C np x → C (np ++ np') x) (l : List X)
    (hstep : ∀ np x, x ∈ l → Q np → ∃ gs : List (List (Node E)), step np x = np ++ gs.flatten ∧ (∀ g ∈ gs, B g) ∧
      Q (np ++ gs.flatten) ∧ C (np ++ gs.flatten) x) :
    ∀ np, Q np → ∃ gs : List (List (Node E)), l.foldl step np = np ++ gs.flatten ∧ (∀ g ∈ gs, B g) ∧ Q (np ++ gs.flatten) ∧
      ∀ x ∈ l, C (np ++ gs.flatten) x := by
  induction l with
  | nil => intro np hq; exact ⟨[], by simp, by simp, by simpa using hq, by simp⟩
  | cons x l ih =>
    intro np hq
    obtain ⟨gs, h1, h2, h3, h4⟩ := hstep np x (by simp) hq
    obtain ⟨gs', k1, k2, k3, k4⟩ := ih (fun np y hy => hstep np y (by simp [hy])) (np ++ gs.flatten) h3
    refine ⟨gs ++ gs', ?_, ?_, ?_, ?_⟩
    · rw [List.foldl_cons, h1, k1]; simp
    · intro g hg
      rcases List.mem_append.mp hg with hg | hg
      · exact h2 g hg
      · exact k2 g hg
    · simpa using k3
    · intro y hy
      rw [show np ++ (gs ++ gs').flatten = np ++ gs.flatten ++ gs'.flatten by simp]
      rcases List.mem_cons.mp hy with rfl | hy
      · exact hC _ _ _ h4
      · exact k4 y hy

/-- For every packet with tag `t` in the list, everything filed under it is in the list. -/
def Closed (t : Nat) (sp : SigPairs E) (np : List (Node E)) : Prop :=
  ∀ y ∈ np, y.tag = t → ∀ s ∈ sp.byKey y, present np s = true

theorem Closed.append {t : Nat} {sp : SigPairs E} {np : List (Node E)} (h : Closed t sp np) (qs : List (Node E))
    (hq : ∀ y ∈ qs, y.tag = t → ∀ s ∈ sp.byKey y, present (np ++ qs) s = true) : Closed t sp (np ++ qs) := by
  intro y hy ht s hs
  rcases List.mem_append.mp hy with hy | hy
  · exact present_append _ (h y hy ht s hs)
  · exact hq y hy ht s hs

/-- The members of a table have the tag. -/
def Values (t : Nat) (sp : SigPairs E) : Prop := ∀ x ∈ sp, x.2.tag = t

theorem Values.byKey {t : Nat} {sp : SigPairs E} (h : Values t sp) {k s : Node E} (hs : s ∈ sp.byKey k) : s.tag = t := by
  obtain ⟨o, ho, -⟩ := (SigPairs.mem_byKey _ _ _).mp hs
  exact h _ ho

/-- An attribute block as written by `merge`. -/
def AttrBlock (uids : SigPairs E) (uas : List (Node E)) (g : List (Node E)) : Prop :=
  ∃ o sigs, g = o :: sigs ∧ o ∈ uas ∧ ∀ s ∈ sigs, s ∈ uids.byKey o

theorem pushAttrs_eq (uids : SigPairs E) (hv : Values 2 uids) (uas : List (Node E))
    (np : List (Node E)) (hd : Distinct np) (hc : Closed 17 uids np) :
    ∃ gs : List (List (Node E)), pushAttrs uids np uas = np ++ gs.flatten ∧ (∀ g ∈ gs, AttrBlock uids uas g) ∧
      (Distinct (np ++ gs.flatten) ∧ Closed 17 uids (np ++ gs.flatten)) ∧ ∀ u ∈ uas, present (np ++ gs.flatten) u = true := by
  refine foldl_blocks _ (fun np => Distinct np ∧ Closed 17 uids np) _ (fun np u => present np u = true)
    (fun np np' x h => present_append _ h) uas ?_ np ⟨hd, hc⟩
  rintro np u hmem ⟨hd, hc⟩
  by_cases hp : present np u = true
  · exact ⟨[], by simp [hp], by simp, by simpa using ⟨hd, hc⟩, by simpa using hp⟩
  · obtain ⟨qs, h1, h2, h3, h4⟩ := pushAll_eq (uids.byKey u) (np ++ [u])
    refine ⟨[u :: qs], ?_, ?_, ?_, ?_⟩
    · rw [if_neg hp, h1]; simp
    · intro g hg
      obtain rfl := List.mem_singleton.mp hg
      exact ⟨u, qs, rfl, hmem, h2⟩
    · have e : np ++ [u :: qs].flatten = np ++ [u] ++ qs := by simp
      rw [e]
      refine ⟨h4 (distinct_snoc hd hp), ?_⟩
      rw [List.append_assoc]
      refine hc.append _ ?_
      intro y hy ht s hs
      rw [← List.append_assoc]
      rcases List.mem_append.mp hy with hy | hy
      · obtain rfl := List.mem_singleton.mp hy
        exact h3 s hs
      · have := hv.byKey (h2 y hy); omega
    · exact present_of_mem (by simp)

/-- A user ID with its signatures and attributes as written by `merge`. -/
def Fam (uids ua : SigPairs E) (src : List (Node E)) (g : List (Node E)) : Prop :=
  ∃ u sigs attrs, g = u :: (sigs ++ List.flatten attrs) ∧ u ∈ src ∧ u.tag = 13 ∧ (∀ s ∈ sigs, s ∈ uids.byKey u) ∧
    ∀ a ∈ attrs, AttrBlock uids (ua.byKey u) a

/-- What holds for the list while the user packets are written. -/
def UserInv (uids ua : SigPairs E) (np : List (Node E)) : Prop :=
  Distinct np ∧ Closed 17 uids np ∧ Closed 13 uids np ∧ Closed 13 ua np

/-- Writing one user ID that is not yet there, with signatures `uids.byKey u` or, when there are none, without looking. -/
theorem family_step (uids ua : SigPairs E) (hv : Values 2 uids) (ha : Values 17 ua) (src : List (Node E)) (np : List (Node E))
    (u : Node E) (hu : u ∈ src) (h13 : u.tag = 13) (hinv : UserInv uids ua np) (hp : present np u ≠ true) :
    ∃ g, pushAttrs uids (pushAll (np ++ [u]) (uids.byKey u)) (ua.byKey u) = np ++ g ∧ Fam uids ua src g ∧
      UserInv uids ua (np ++ g) ∧ present (np ++ g) u = true := by
  obtain ⟨hd, c17, c13, ca⟩ := hinv
  obtain ⟨qs, h1, h2, h3, h4⟩ := pushAll_eq (uids.byKey u) (np ++ [u])
  have hq2 : ∀ q ∈ qs, q.tag = 2 := fun q hq => hv.byKey (h2 q hq)
  have c17' : Closed 17 uids (np ++ [u] ++ qs) := by
    rw [List.append_assoc]
    refine c17.append _ ?_
    intro y hy ht
    rcases List.mem_append.mp hy with hy | hy
    · obtain rfl := List.mem_singleton.mp hy; omega
    · have := hq2 y hy; omega
  obtain ⟨gs, k1, k2, ⟨k3, k4⟩, k5⟩ := pushAttrs_eq uids hv (ua.byKey u) (np ++ [u] ++ qs)
    (h4 (distinct_snoc hd hp)) c17'
  have hattr : ∀ y ∈ gs.flatten, y.tag ≠ 13 := by
    intro y hy
    obtain ⟨g, hg, hy⟩ := List.mem_flatten.mp hy
    obtain ⟨o, sigs, rfl, ho, hs⟩ := k2 g hg
    rcases List.mem_cons.mp hy with rfl | hy
    · have := ha.byKey ho; omega
    · have := hv.byKey (hs y hy); omega
  have e : np ++ u :: (qs ++ gs.flatten) = np ++ [u] ++ qs ++ gs.flatten := by simp
  refine ⟨u :: (qs ++ gs.flatten), ?_, ⟨u, qs, gs, rfl, hu, h13, h2, k2⟩, ?_, present_of_mem (by simp)⟩
  · rw [h1, k1, e]
  · refine ⟨by rw [e]; exact k3, by rw [e]; exact k4, ?_, ?_⟩
    · refine c13.append _ ?_
      intro y hy ht s hs
      rw [e]
      rcases List.mem_cons.mp hy with rfl | hy
      · exact present_append _ (h3 s hs)
      · rcases List.mem_append.mp hy with hy | hy
        · have := hq2 y hy; omega
        · exact absurd ht (hattr y hy)
    · refine ca.append _ ?_
      intro y hy ht s hs
      rw [e]
      rcases List.mem_cons.mp hy with rfl | hy
      · exact k5 s hs
      · rcases List.mem_append.mp hy with hy | hy
        · have := hq2 y hy; omega
        · exact absurd ht (hattr y hy)

theorem byKey_nil_of {uids : SigPairs E} {u : Node E} (h : ∀ x ∈ uids, x.1.same u ≠ true) : uids.byKey u = [] := by
  rw [SigPairs.byKey, List.map_eq_nil_iff, List.filter_eq_nil_iff]
  intro x hx
  exact h x hx

/-- The user part of `merge`. -/
theorem users_eq (uids ua : SigPairs E) (hv : Values 2 uids) (ha : Values 17 ua) (ht : ∀ x ∈ uids, x.1.tag = 13 ∨ x.1.tag = 17)
    (uidList : List (Node E)) (hl : ∀ u ∈ uidList, u.tag = 13) (np : List (Node E)) (hinv : UserInv uids ua np) :
    ∃ gs : List (List (Node E)), uidList.foldl (restStep uids ua) (flatten uids ua np) = np ++ gs.flatten ∧
      (∀ g ∈ gs, Fam uids ua (uids.map (·.1) ++ uidList) g) ∧ UserInv uids ua (np ++ gs.flatten) ∧
      (∀ x ∈ uids, x.1.tag = 13 → present (np ++ gs.flatten) x.1 = true) ∧
      ∀ u ∈ uidList, present (np ++ gs.flatten) u = true := by
  have h := foldl_blocks (flattenStep uids ua) (UserInv uids ua) (Fam uids ua (uids.map (·.1) ++ uidList))
    (fun np x => x.1.tag = 13 → present np x.1 = true) (fun np np' x h h' => present_append _ (h h')) uids (by
      intro np x hx hinv
      rw [flattenStep]
      rcases ht x hx with h13 | h17
      · rw [if_neg (by omega)]
        by_cases hp : present np x.1 = true
        · exact ⟨[], by simp [hp], by simp, by simpa using hinv, by simpa using fun _ => hp⟩
        · obtain ⟨g, g1, g2, g3, g4⟩ := family_step uids ua hv ha (uids.map (·.1) ++ uidList) np x.1
            (by simp only [List.mem_append, List.mem_map]; exact Or.inl ⟨x, hx, rfl⟩) h13 hinv hp
          refine ⟨[g], ?_, by simpa using g2, by simpa using g3, by simpa using fun _ => g4⟩
          rw [if_neg hp]; simp [h13, g1]
      · exact ⟨[], by simp [h17], by simp, by simpa using hinv, fun h => by omega⟩) np hinv
  obtain ⟨gs, a1, a2, a3, a4⟩ := h
  have h' := foldl_blocks (restStep uids ua)
    (fun np => UserInv uids ua np ∧ ∀ x ∈ uids, x.1.tag = 13 → present np x.1 = true)
    (Fam uids ua (uids.map (·.1) ++ uidList)) (fun np u => present np u = true) (fun np np' x h => present_append _ h) uidList (by
      rintro np u hu ⟨hinv, hall⟩
      rw [restStep]
      by_cases hp : present np u = true
      · exact ⟨[], by simp [hp], by simp, by simpa using ⟨hinv, fun a b hx => hall (a, b) hx⟩, by simpa using hp⟩
      · have h13 := hl u hu
        obtain ⟨g, g1, g2, g3, g4⟩ := family_step uids ua hv ha (uids.map (·.1) ++ uidList) np u (by simp [hu]) h13 hinv hp
        have hnil : uids.byKey u = [] := by
          refine byKey_nil_of ?_
          intro x hx hs
          have hxt : x.1.tag = 13 := by rw [(Node.same_iff.mp hs).1]; exact h13
          exact hp (by rw [← present_congr hs]; exact hall x hx hxt)
        rw [hnil] at g1
        refine ⟨[g], ?_, by simpa using g2, ⟨by simpa using g3, ?_⟩, by simpa using g4⟩
        · rw [if_neg hp]; simpa [pushAll] using g1
        · intro x hx hxt
          exact present_append _ (hall x hx hxt)) (np ++ gs.flatten) ⟨a3, a4⟩
  obtain ⟨gs', b1, b2, ⟨b3, b5⟩, b4⟩ := h'
  have e : np ++ (gs ++ gs').flatten = np ++ gs.flatten ++ gs'.flatten := by simp
  refine ⟨gs ++ gs', ?_, ?_, by rw [e]; exact b3, by rw [e]; exact b5, by rw [e]; exact b4⟩
  · rw [flatten, a1, b1, e]
  · intro g hg
    rcases List.mem_append.mp hg with hg | hg
    · exact a2 g hg
    · exact b2 g hg

/-- A subkey block as written by `merge`; `owner y` are the owners a signature in the list may have. -/
def SubBlock (sub : SigPairs E) (g : List (Node E)) : Prop :=
  ∃ o sigs, g = o :: sigs ∧ (∃ s, (o, s) ∈ sub) ∧ ∀ s ∈ sigs, s ∈ sub.byKey o

/-- The subkey part of `merge`. `old` is what was written before. -/
theorem subkeys_eq (sub ua : SigPairs E) (t : Nat) (h7 : t ≠ 13) (h17 : t ≠ 17) (h2 : t ≠ 2) (hv : Values 2 sub)
    (ht : ∀ x ∈ sub, x.1.tag = t) (old : List (Node E)) (hd : Distinct old) (hold : ∀ y ∈ old, y.tag ≠ t) :
    ∃ gs : List (List (Node E)), flatten sub ua old = old ++ gs.flatten ∧
      (∀ g ∈ gs, SubBlock sub g) ∧
      (∀ g ∈ gs, (∀ y ∈ old, ∀ o s, g.head? = some o → s ∈ sub.byKey o → y.same s = false) →
        (∀ x ∈ sub, ∀ x' ∈ sub, x.2.same x'.2 = true → x.1.same x'.1 = true) →
        ∀ o s, g.head? = some o → s ∈ sub.byKey o → ∃ s' ∈ g.tail, s'.same s = true) ∧
      Distinct (old ++ gs.flatten) ∧ Closed t sub (old ++ gs.flatten) ∧ ∀ x ∈ sub, present (old ++ gs.flatten) x.1 = true := by
  have h := foldl_blocks (flattenStep sub ua)
    (fun np => Distinct np ∧ Closed t sub np ∧ ∀ y ∈ np, y ∈ old ∨ y.tag = t ∨ ∃ o ∈ np, y ∈ sub.byKey o)
    (fun g => SubBlock sub g ∧ ((∀ y ∈ old, ∀ o s, g.head? = some o → s ∈ sub.byKey o → y.same s = false) →
        (∀ x ∈ sub, ∀ x' ∈ sub, x.2.same x'.2 = true → x.1.same x'.1 = true) →
        ∀ o s, g.head? = some o → s ∈ sub.byKey o → ∃ s' ∈ g.tail, s'.same s = true))
    (fun np x => present np x.1 = true) (fun np np' x h => present_append _ h) sub (by
      rintro np x hx ⟨hd, hc, hm⟩
      have hxt := ht x hx
      rw [flattenStep, if_neg (by omega)]
      by_cases hp : present np x.1 = true
      · exact ⟨[], by simp [hp], by simp, by simpa using ⟨hd, hc, hm⟩, by simpa using hp⟩
      · rw [if_neg hp]
        obtain ⟨qs, k1, k2, k3, k4⟩ := pushAll_eq (sub.byKey x.1) (np ++ [x.1])
        have hq2 : ∀ q ∈ qs, q.tag = 2 := fun q hq => hv.byKey (k2 q hq)
        have e : np ++ [x.1 :: qs].flatten = np ++ [x.1] ++ qs := by simp
        refine ⟨[x.1 :: qs], ?_, ?_, ⟨?_, ?_, ?_⟩, present_of_mem (by simp)⟩
        · simp only [k1]; rw [if_neg (by omega), e]
        · intro g hg
          obtain rfl := List.mem_singleton.mp hg
          refine ⟨⟨x.1, qs, rfl, ⟨x.2, hx⟩, k2⟩, ?_⟩
          intro hno hshare o s ho hs
          obtain rfl : x.1 = o := by simpa using ho
          obtain ⟨q, hq, hqs⟩ := (present_iff _ _).mp (k3 s hs)
          have hs2 : s.tag = 2 := hv.byKey hs
          have hqt : q.tag = 2 := by rw [(Node.same_iff.mp hqs).1, hs2]
          rcases List.mem_append.mp hq with hq | hq
          · rcases List.mem_append.mp hq with hq | hq
            · exfalso
              rcases hm q hq with ho' | ho' | ⟨o', ho', hqo⟩
              · rw [hno q ho' x.1 s rfl hs] at hqs; cases hqs
              · omega
              · obtain ⟨a, ha, hao⟩ := (SigPairs.mem_byKey _ _ _).mp hqo
                obtain ⟨b, hb, hbx⟩ := (SigPairs.mem_byKey _ _ _).mp hs
                have hab := hshare (a, q) ha (b, s) hb hqs
                refine hp ((present_iff _ _).mpr ⟨o', ho', ?_⟩)
                rw [Node.same_comm] at hao
                exact Node.same_trans (Node.same_trans hao hab) hbx
            · obtain rfl := List.mem_singleton.mp hq; omega
          · exact ⟨q, hq, hqs⟩
        · rw [e]; exact k4 (distinct_snoc hd hp)
        · rw [e, List.append_assoc]
          refine hc.append _ ?_
          intro y hy hyt s hs
          rw [← List.append_assoc]
          rcases List.mem_append.mp hy with hy | hy
          · obtain rfl := List.mem_singleton.mp hy; exact k3 s hs
          · have := hq2 y hy; omega
        · rw [e]
          intro y hy
          rcases List.mem_append.mp hy with hy | hy
          · rcases List.mem_append.mp hy with hy | hy
            · rcases hm y hy with h | h | ⟨o, ho, h⟩
              · exact Or.inl h
              · exact Or.inr (Or.inl h)
              · exact Or.inr (Or.inr ⟨o, by simp [ho], h⟩)
            · obtain rfl := List.mem_singleton.mp hy; exact Or.inr (Or.inl hxt)
          · exact Or.inr (Or.inr ⟨x.1, by simp, k2 y hy⟩)) old
    ⟨hd, fun y hy hyt => absurd hyt (hold y hy), fun y hy => Or.inl hy⟩
  obtain ⟨gs, a1, a2, ⟨a3, a4, -⟩, a5⟩ := h
  exact ⟨gs, a1, fun g hg => (a2 g hg).1, fun g hg => (a2 g hg).2, a3, a4, a5⟩

/-- A user block as written by `merge`. -/
def UBlock (uids : SigPairs E) (src : List (Node E)) (g : List (Node E)) : Prop :=
  ∃ o sigs, g = o :: sigs ∧ o ∈ src ∧ (o.tag = 13 ∨ o.tag = 17) ∧ ∀ s ∈ sigs, s ∈ uids.byKey o

theorem fam_blocks {uids ua : SigPairs E} {src : List (Node E)} (ha : Values 17 ua) (src' : List (Node E))
    (hsrc : ∀ x ∈ src, x ∈ src') (hua : ∀ x ∈ ua, x.2 ∈ src') {g : List (Node E)} (h : Fam uids ua src g) :
    ∃ bs : List (List (Node E)), g = bs.flatten ∧ (∀ b ∈ bs, UBlock uids src' b) ∧ ∃ u sigs, (u :: sigs) ∈ bs ∧ u.tag = 13 := by
  obtain ⟨u, sigs, attrs, rfl, h1, h2, h3, h4⟩ := h
  refine ⟨(u :: sigs) :: attrs, by simp, ?_, u, sigs, by simp, h2⟩
  intro b hb
  rcases List.mem_cons.mp hb with rfl | hb
  · exact ⟨u, sigs, rfl, hsrc u h1, Or.inl h2, h3⟩
  · obtain ⟨o, ss, rfl, ho, hs⟩ := h4 b hb
    obtain ⟨v, hv, -⟩ := (SigPairs.mem_byKey _ _ _).mp ho
    exact ⟨o, ss, rfl, hua _ hv, Or.inr (ha _ hv), hs⟩

theorem fams_blocks {uids ua : SigPairs E} {src : List (Node E)} (ha : Values 17 ua) (src' : List (Node E))
    (hsrc : ∀ x ∈ src, x ∈ src') (hua : ∀ x ∈ ua, x.2 ∈ src') (gs : List (List (Node E))) (h : ∀ g ∈ gs, Fam uids ua src g) :
    ∃ bs : List (List (Node E)), gs.flatten = bs.flatten ∧ (∀ b ∈ bs, UBlock uids src' b) ∧
      (gs ≠ [] → ∃ u sigs, (u :: sigs) ∈ bs ∧ u.tag = 13) := by
  induction gs with
  | nil => exact ⟨[], rfl, by simp, by simp⟩
  | cons g gs ih =>
    obtain ⟨bs, h1, h2, u, sigs, h3, h4⟩ := fam_blocks ha src' hsrc hua (h g (by simp))
    obtain ⟨bs', k1, k2, -⟩ := ih (fun g hg => h g (by simp [hg]))
    refine ⟨bs ++ bs', by simp [h1, k1], ?_, fun _ => ⟨u, sigs, by simp [h3], h4⟩⟩
    intro b hb
    rcases List.mem_append.mp hb with hb | hb
    · exact h2 b hb
    · exact k2 b hb

/-- Everything about the list `merge` builds from two keys with the layouts given. -/
theorem build_facts {kt skt : Nat} (hskt : skt = 7 ∨ skt = 14) (hkt : kt = 5 ∨ kt = 6) {l key revs users subs a l' key' revs' users' subs' b}
    (h : LayoutN (E := E) kt skt l key revs users subs) (ht : TablesN key revs users subs a)
    (h' : LayoutN (E := E) kt skt l' key' revs' users' subs') (ht' : TablesN key' revs' users' subs' b)
    (hsame : key.same key' = true) (np : List (Node E))
    (hnp : np = build key (a.keySigs.insertAll b.keySigs) (a.uids.insertAll b.uids) (a.subKeys.insertAll b.subKeys)
      (a.uidAttr.insertAll b.uidAttr) (a.uidList ++ b.uidList)) :
    ∃ (R : List (Node E)) (U S : List (List (Node E))), np = key :: (R ++ U.flatten ++ S.flatten) ∧
      (∀ r ∈ R, r ∈ revs ∨ r ∈ revs') ∧
      (∀ g ∈ U, ∃ o sigs, g = o :: sigs ∧ (∃ sg, (o :: sg) ∈ users ++ users') ∧
        ∀ s ∈ sigs, ∃ o', (o', s) ∈ sigPairs (users ++ users') ∧ o'.same o = true) ∧
      (∃ u sigs, (u :: sigs) ∈ U ∧ u.tag = 13) ∧
      (∀ g ∈ S, ∃ o sigs, g = o :: sigs ∧ (∃ sg, (o :: sg) ∈ subs ++ subs') ∧
        ∀ s ∈ sigs, ∃ o', (o', s) ∈ sigPairs (subs ++ subs') ∧ o'.same o = true) ∧
      Distinct np ∧ (∀ n ∈ l ++ l', present np n = true) ∧
      ((∀ x ∈ (revs ++ revs').map (fun r => (key, r)) ++ sigPairs (users ++ users') ++ sigPairs (subs ++ subs'),
        ∀ x' ∈ sigPairs (subs ++ subs'), x.2.same x'.2 = true → x.1.same x'.1 = true) →
        ∀ o sigs, (o :: sigs) ∈ S → ∀ o' s, (o', s) ∈ sigPairs (subs ++ subs') → o'.same o = true → ∃ s' ∈ sigs, s'.same s = true) := by
  have sp_app : ∀ (x y : List (List (Node E))), sigPairs (x ++ y) = sigPairs x ++ sigPairs y := fun x y => by simp [sigPairs]
  have hK : ∀ x, x ∈ a.keySigs.insertAll b.keySigs ↔ (∃ r ∈ revs, x = (key, r)) ∨ ∃ r ∈ revs', x = (key', r) := fun x => by
    rw [SigPairs.mem_insertAll, ht.keySigs, ht'.keySigs]
  have hU : ∀ x, x ∈ a.uids.insertAll b.uids ↔ x ∈ sigPairs (users ++ users') := fun x => by
    rw [SigPairs.mem_insertAll, ht.uids, ht'.uids, sp_app, List.mem_append]
  have hS : ∀ x, x ∈ a.subKeys.insertAll b.subKeys ↔ x ∈ sigPairs (subs ++ subs') := fun x => by
    rw [SigPairs.mem_insertAll, ht.subKeys, ht'.subKeys, sp_app, List.mem_append]
  have hA : ∀ x, x ∈ a.uidAttr.insertAll b.uidAttr ↔ x ∈ attrPairs none users ∨ x ∈ attrPairs none users' := fun x => by
    rw [SigPairs.mem_insertAll, ht.attrs, ht'.attrs]
  have hI : ∀ u, u ∈ a.uidList ++ b.uidList ↔ u ∈ idsOf users ∨ u ∈ idsOf users' := fun u => by
    rw [List.mem_append, ht.ids, ht'.ids]
  have hfiled : ∀ o sigs, (o :: sigs) ∈ users ++ users' → o.tag = 17 → ∃ u, (u, o) ∈ a.uidAttr.insertAll b.uidAttr := by
    intro o sigs ho h17
    rcases List.mem_append.mp ho with ho | ho
    · obtain ⟨u, hu⟩ := ht.filed o sigs ho h17; exact ⟨u, (SigPairs.mem_insertAll _ _ _).mpr (Or.inl hu)⟩
    · obtain ⟨u, hu⟩ := ht'.filed o sigs ho h17; exact ⟨u, (SigPairs.mem_insertAll _ _ _).mpr (Or.inr hu)⟩
  have hub : ∀ g ∈ users ++ users', BlockN (fun t => t = 13 ∨ t = 17) (fun t => UserSig (t == 13)) g := by
    intro g hg; rcases List.mem_append.mp hg with hg | hg
    · exact h.husers g hg
    · exact h'.husers g hg
  have hsb : ∀ g ∈ subs ++ subs', BlockN (fun t => t = skt) (fun _ => SigOf fun _ => True) g := by
    intro g hg; rcases List.mem_append.mp hg with hg | hg
    · exact h.hsubs g hg
    · exact h'.hsubs g hg
  generalize a.keySigs.insertAll b.keySigs = K at *
  generalize a.uids.insertAll b.uids = UT at *
  generalize a.subKeys.insertAll b.subKeys = ST at *
  generalize a.uidAttr.insertAll b.uidAttr = AT at *
  generalize a.uidList ++ b.uidList = IL at *
  have vU : Values 2 UT := by
    rintro ⟨o, s⟩ hx
    obtain ⟨sigs, h1, h2⟩ := mem_sigPairs.mp ((hU _).mp hx)
    obtain ⟨o', sg, e, -, h3⟩ := hub _ h1
    obtain ⟨rfl, rfl⟩ := List.cons.inj e
    exact (h3 s h2).1
  have tU : ∀ x ∈ UT, x.1.tag = 13 ∨ x.1.tag = 17 := by
    rintro ⟨o, s⟩ hx
    obtain ⟨sigs, h1, h2⟩ := mem_sigPairs.mp ((hU _).mp hx)
    obtain ⟨o', sg, e, h4, h3⟩ := hub _ h1
    obtain ⟨rfl, rfl⟩ := List.cons.inj e
    exact h4
  have vS : Values 2 ST := by
    rintro ⟨o, s⟩ hx
    obtain ⟨sigs, h1, h2⟩ := mem_sigPairs.mp ((hS _).mp hx)
    obtain ⟨o', sg, e, -, h3⟩ := hsb _ h1
    obtain ⟨rfl, rfl⟩ := List.cons.inj e
    exact (h3 s h2).1
  have tS : ∀ x ∈ ST, x.1.tag = skt := by
    rintro ⟨o, s⟩ hx
    obtain ⟨sigs, h1, h2⟩ := mem_sigPairs.mp ((hS _).mp hx)
    obtain ⟨o', sg, e, h4, h3⟩ := hsb _ h1
    obtain ⟨rfl, rfl⟩ := List.cons.inj e
    exact h4
  have mA : ∀ u x, (u, x) ∈ AT → u ∈ IL ∧ x.tag ≠ 13 ∧ ∃ sigs, (x :: sigs) ∈ users ++ users' := by
    intro u x hx
    rcases (hA _).mp hx with hx | hx
    · obtain ⟨h1, h2, sg, h3⟩ := attrPairs_mem hx
      exact ⟨(hI u).mpr (Or.inl (h1.resolve_left (by simp))), h2, sg, by simp [h3]⟩
    · obtain ⟨h1, h2, sg, h3⟩ := attrPairs_mem hx
      exact ⟨(hI u).mpr (Or.inr (h1.resolve_left (by simp))), h2, sg, by simp [h3]⟩
  have vA : Values 17 AT := by
    rintro ⟨u, x⟩ hx
    obtain ⟨-, h1, sg, h2⟩ := mA u x hx
    obtain ⟨o', sg', e, h4, -⟩ := hub _ h2
    obtain ⟨rfl, rfl⟩ := List.cons.inj e
    exact h4.resolve_left h1
  have tI : ∀ u ∈ IL, u.tag = 13 := fun u hu => by
    rcases (hI u).mp hu with h | h <;> exact (mem_idsOf.mp h).1
  have mI : ∀ u ∈ IL, ∃ sg, (u :: sg) ∈ users ++ users' := fun u hu => by
    rcases (hI u).mp hu with h | h
    · obtain ⟨-, sg, h⟩ := mem_idsOf.mp h; exact ⟨sg, by simp [h]⟩
    · obtain ⟨-, sg, h⟩ := mem_idsOf.mp h; exact ⟨sg, by simp [h]⟩
  have hkey2 : key.tag ≠ 2 ∧ key.tag ≠ 13 ∧ key.tag ≠ 17 ∧ key.tag ≠ skt := by
    rw [h.key_tag]; rcases hkt with rfl | rfl <;> rcases hskt with rfl | rfl <;> decide
  -- the primary key and its signatures
  obtain ⟨R, r1, r2, r3, r4⟩ := pushAll_eq (K.map (·.2)) [key]
  have mR : ∀ r ∈ R, (r ∈ revs ∨ r ∈ revs') ∧ r.tag = 2 := by
    intro r hr
    obtain ⟨x, hx, rfl⟩ := List.mem_map.mp (r2 r hr)
    rcases (hK x).mp hx with ⟨r, hr', rfl⟩ | ⟨r, hr', rfl⟩
    · exact ⟨Or.inl hr', tag_of_sigOf (h.hrevs r hr')⟩
    · exact ⟨Or.inr hr', tag_of_sigOf (h'.hrevs r hr')⟩
  have hd1 : Distinct ([key] ++ R) := r4 (List.pairwise_singleton _ _)
  have tag1 : ∀ y ∈ [key] ++ R, y.tag ≠ 13 ∧ y.tag ≠ 17 ∧ y.tag ≠ skt := by
    intro y hy
    rcases List.mem_append.mp hy with hy | hy
    · obtain rfl := List.mem_singleton.mp hy; exact hkey2.2
    · have := (mR y hy).2; omega
  -- the users
  obtain ⟨gs, u1, u2, ⟨u3, u4, u5, u6⟩, u7, u8⟩ := users_eq UT AT vU vA tU IL tI ([key] ++ R)
    ⟨hd1, fun y hy e => absurd e (tag1 y hy).2.1, fun y hy e => absurd e (tag1 y hy).1, fun y hy e => absurd e (tag1 y hy).1⟩
  obtain ⟨U, e1, e2, e3⟩ := fams_blocks vA (((users ++ users').flatMap fun g => match g with | [] => [] | o :: _ => [o])) (by
      intro x hx
      rw [List.mem_flatMap]
      rcases List.mem_append.mp hx with hx | hx
      · obtain ⟨⟨o, s⟩, hy, rfl⟩ := List.mem_map.mp hx
        obtain ⟨sg, h1, -⟩ := mem_sigPairs.mp ((hU _).mp hy)
        exact ⟨_, h1, by simp⟩
      · obtain ⟨sg, h1⟩ := mI x hx
        exact ⟨_, h1, by simp⟩) (by
      rintro ⟨u, x⟩ hx
      obtain ⟨-, -, sg, h1⟩ := mA u x hx
      rw [List.mem_flatMap]
      exact ⟨_, h1, by simp⟩) gs u2
  have hUb : ∀ g ∈ U, ∃ o sigs, g = o :: sigs ∧ (∃ sg, (o :: sg) ∈ users ++ users') ∧
      ∀ s ∈ sigs, ∃ o', (o', s) ∈ sigPairs (users ++ users') ∧ o'.same o = true := by
    intro g hg
    obtain ⟨o, sigs, rfl, ho, -, hs⟩ := e2 g hg
    obtain ⟨g', hg', hm⟩ := List.mem_flatMap.mp ho
    cases g' with
    | nil => simp at hm
    | cons o' sg =>
      obtain rfl := List.mem_singleton.mp hm
      refine ⟨o, sigs, rfl, ⟨sg, hg'⟩, ?_⟩
      intro s hsm
      obtain ⟨o', h1, h2⟩ := (SigPairs.mem_byKey _ _ _).mp (hs s hsm)
      exact ⟨o', (hU _).mp h1, h2⟩
  rw [e1] at u1 u3 u4 u5 u6 u7 u8
  have tag2 : ∀ y ∈ [key] ++ R ++ U.flatten, y.tag ≠ skt := by
    intro y hy
    rcases List.mem_append.mp hy with hy | hy
    · exact (tag1 y hy).2.2
    · obtain ⟨g, hg, hy⟩ := List.mem_flatten.mp hy
      obtain ⟨o, sigs, rfl, -, ho, hs⟩ := e2 g hg
      rcases List.mem_cons.mp hy with rfl | hy
      · omega
      · have := vU.byKey (hs y hy); omega
  -- the subkeys
  obtain ⟨S, s1, s2, s3, s4, s5, s6⟩ := subkeys_eq ST AT skt (by omega) (by omega) (by omega) vS tS ([key] ++ R ++ U.flatten) u3 tag2
  have hfin : np = [key] ++ R ++ U.flatten ++ S.flatten := by
    rw [hnp, build, r1, ← s1, ← u1]
  have pres1 : ∀ n, present ([key] ++ R ++ U.flatten) n = true → present np n = true := fun n hn => by
    rw [hfin]; exact present_append _ hn
  refine ⟨R, U, S, by rw [hfin]; simp, fun r hr => (mR r hr).1, hUb, ?_, ?_, by rw [hfin]; exact s4, ?_, ?_⟩
  · refine e3 ?_
    rintro rfl
    obtain ⟨u, sg, h1, h2⟩ := h.ids
    have hu := u8 u ((hI u).mpr (Or.inl (mem_idsOf.mpr ⟨h2, sg, h1⟩)))
    obtain ⟨q, hq, hqs⟩ := (present_iff _ _).mp hu
    have hqt := (Node.same_iff.mp hqs).1
    have hU0 : U.flatten = [] := by simpa using e1.symm
    rw [hU0, List.append_nil] at hq
    have := (tag1 q hq).1
    omega
  · intro g hg
    obtain ⟨o, sigs, rfl, ⟨s, ho⟩, hs⟩ := s2 g hg
    obtain ⟨sg, h1, -⟩ := mem_sigPairs.mp ((hS _).mp ho)
    refine ⟨o, sigs, rfl, ⟨sg, h1⟩, ?_⟩
    intro s hsm
    obtain ⟨o', h1, h2⟩ := (SigPairs.mem_byKey _ _ _).mp (hs s hsm)
    exact ⟨o', (hS _).mp h1, h2⟩
  · -- every packet is there
    have hkeyp : present np key = true := pres1 _ (present_of_mem (by simp))
    have hrev : ∀ r, r ∈ revs ∨ r ∈ revs' → present np r = true := by
      intro r hr
      refine pres1 _ (present_append _ (r3 r ?_))
      rw [List.mem_map]
      rcases hr with hr | hr
      · exact ⟨(key, r), (hK _).mpr (Or.inl ⟨r, hr, rfl⟩), rfl⟩
      · exact ⟨(key', r), (hK _).mpr (Or.inr ⟨r, hr, rfl⟩), rfl⟩
    have closed_use : ∀ (t : Nat) (sp : SigPairs E) (o s : Node E) (X : List (Node E)), Closed t sp X → o.tag = t →
        present X o = true → (o, s) ∈ sp → present X s = true := by
      intro t sp o s X hc hot hp hm
      obtain ⟨q, hq, hqs⟩ := (present_iff _ _).mp hp
      refine hc q hq (by rw [(Node.same_iff.mp hqs).1, hot]) s ?_
      rw [SigPairs.byKey_congr sp hqs]
      exact (SigPairs.mem_byKey _ _ _).mpr ⟨o, hm, o.same_refl⟩
    have huser : ∀ g ∈ users ++ users', ∀ n ∈ g, present np n = true := by
      intro g hg n hn
      obtain ⟨o, sigs, rfl, ho, hs⟩ := hub g hg
      have hown : present ([key] ++ R ++ U.flatten) o = true := by
        rcases ho with ho | ho
        · refine u8 o ((hI o).mpr ?_)
          rcases List.mem_append.mp hg with hg | hg
          · exact Or.inl (mem_idsOf.mpr ⟨ho, sigs, hg⟩)
          · exact Or.inr (mem_idsOf.mpr ⟨ho, sigs, hg⟩)
        · obtain ⟨u, hu⟩ := hfiled o sigs hg ho
          have := (mA u o hu).1
          exact closed_use 13 AT u o _ u6 (tI u this) (u8 u this) hu
      rcases List.mem_cons.mp hn with rfl | hn
      · exact pres1 _ hown
      · refine pres1 _ ?_
        have hm : (o, n) ∈ UT := (hU _).mpr (mem_sigPairs.mpr ⟨sigs, hg, hn⟩)
        rcases ho with ho | ho
        · exact closed_use 13 UT o n _ u5 ho hown hm
        · exact closed_use 17 UT o n _ u4 ho hown hm
    have hsub : ∀ g ∈ subs ++ subs', ∀ n ∈ g, present np n = true := by
      intro g hg n hn
      obtain ⟨o, sigs, rfl, ho, hs⟩ := hsb g hg
      obtain ⟨s, hsm, -⟩ : ∃ s ∈ sigs, SigOf (· = 0x18) s.pkt.body := by
        rcases List.mem_append.mp hg with hg | hg
        · exact h.bound o sigs hg
        · exact h'.bound o sigs hg
      have hown : present np o = true := by
        rw [hfin]; exact s6 (o, s) ((hS _).mpr (mem_sigPairs.mpr ⟨sigs, hg, hsm⟩))
      rcases List.mem_cons.mp hn with rfl | hn
      · exact hown
      · rw [hfin] at hown ⊢
        exact closed_use skt ST o n _ s5 ho hown ((hS _).mpr (mem_sigPairs.mpr ⟨sigs, hg, hn⟩))
    intro n hn
    rcases List.mem_append.mp hn with hn | hn
    · rw [h.eq] at hn
      simp only [List.mem_cons, List.mem_append, List.mem_flatten] at hn
      rcases hn with rfl | (hn | ⟨g, hg, hn⟩) | ⟨g, hg, hn⟩
      · exact hkeyp
      · exact hrev n (Or.inl hn)
      · exact huser g (by simp [hg]) n hn
      · exact hsub g (by simp [hg]) n hn
    · rw [h'.eq] at hn
      simp only [List.mem_cons, List.mem_append, List.mem_flatten] at hn
      rcases hn with rfl | (hn | ⟨g, hg, hn⟩) | ⟨g, hg, hn⟩
      · rw [← present_congr hsame]; exact hkeyp
      · exact hrev n (Or.inr hn)
      · exact huser g (by simp [hg]) n hn
      · exact hsub g (by simp [hg]) n hn
  · intro hns o sigs hos o' s hs ho's
    have := s3 (o :: sigs) hos ?_ ?_ o s rfl ((SigPairs.mem_byKey _ _ _).mpr ⟨o', (hS _).mpr hs, ho's⟩)
    · simpa using this
    · intro y hy p q hp hq
      obtain rfl : o = p := by simpa using hp
      obtain ⟨o'', h1, h2⟩ := (SigPairs.mem_byKey _ _ _).mp hq
      have h1 := (hS _).mp h1
      have hqt : q.tag = 2 := vS.byKey hq
      have hot : o''.tag = skt := tS _ ((hS _).mpr h1)
      by_contra hc
      have hc : y.same q = true := by simpa using hc
      have hyt : y.tag = 2 := by rw [(Node.same_iff.mp hc).1, hqt]
      rcases List.mem_append.mp hy with hy | hy
      · rcases List.mem_append.mp hy with hy | hy
        · obtain rfl := List.mem_singleton.mp hy; exact hkey2.1 hyt
        · have := hns (key, y) (by
            simp only [List.mem_append, List.mem_map]
            exact Or.inl (Or.inl ⟨y, (mR y hy).1, rfl⟩)) (o'', q) h1 hc
          have := (Node.same_iff.mp this).1
          have e := hkey2.2.2.2
          simp only at this
          omega
      · obtain ⟨g, hg, hy⟩ := List.mem_flatten.mp hy
        obtain ⟨p, sg, rfl, ⟨sg', hp'⟩, hsg⟩ := hUb g hg
        have hpt : p.tag = 13 ∨ p.tag = 17 := by
          obtain ⟨p', sg'', e, hh, -⟩ := hub _ hp'
          obtain ⟨rfl, -⟩ := List.cons.inj e
          exact hh
        rcases List.mem_cons.mp hy with rfl | hy
        · omega
        · obtain ⟨p', hp1, hp2⟩ := hsg y hy
          have := hns (p', y) (by simp [hp1]) (o'', q) h1 hc
          have e1 := (Node.same_iff.mp this).1
          have e2 := (Node.same_iff.mp hp2).1
          simp only at e1
          omega
    · intro x hx x' hx' hss
      exact hns x (by simp [(hS _).mp hx]) x' ((hS _).mp hx') hss

end Merge

end OpenPGP
