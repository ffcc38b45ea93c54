import Verif.Props.C64
import Verif.Props.C30

/-!
# C64: a filled key is as meaningful as before
-/
namespace OpenPGP
open KeyObj
variable {E : Type}

/-- A packet without the values of signatures. -/
def noValues : Body E → Body E
  | .sig s => .sig { s with left16 := [], mpi := [] }
  | b => b

theorem noValues_tag (b : Body E) : (noValues b).tag = b.tag := by cases b <;> rfl
theorem noValues_key (b : Body E) : (noValues b).keyPart = b.keyPart := by cases b <;> rfl

theorem skipRevocations_noValues : ∀ l : List (Body E), skipRevocations (l.map noValues) = (skipRevocations l).map (List.map noValues)
  | [] => rfl
  | b :: r => by
    cases b with
    | sig s =>
      simp only [List.map_cons, noValues, skipRevocations]
      split
      · exact skipRevocations_noValues r
      · rfl
    | _ => rfl

theorem skipCertifications_noValues (i : Bool) : ∀ l : List (Body E), skipCertifications i (l.map noValues) = (skipCertifications i l).map (List.map noValues)
  | [] => rfl
  | b :: r => by
    cases b with
    | sig s =>
      simp only [List.map_cons, noValues, skipCertifications]
      split
      · exact skipCertifications_noValues i r
      · rfl
    | _ => rfl

theorem skipSubkeySigs_noValues (b : Bool) (l : List (Body E)) : skipSubkeySigs b (l.map noValues) = ((skipSubkeySigs b l).1, (skipSubkeySigs b l).2.map noValues) := by
  induction l generalizing b with
  | nil => rfl
  | cons x r ih =>
    cases x with
    | sig s =>
      simp only [List.map_cons, noValues, skipSubkeySigs]
      exact ih _
    | _ => rfl

theorem userLoop_noValues : ∀ (fuel : Nat) (seen : Bool) (l : List (Body E)),
    userLoop fuel seen (l.map noValues) = (userLoop fuel seen l >>= fun x => .ok (x.map fun x => (x.1, x.2.map noValues)))
  | 0, _, _ => rfl
  | fuel + 1, seen, [] => rfl
  | fuel + 1, seen, b :: r => by
    rw [List.map_cons, userLoop, userLoop.eq_def]
    simp only [noValues_tag, skipCertifications_noValues]
    split
    · rfl
    · cases h : skipCertifications (b.tag == 13) r with
      | none => rfl
      | some m =>
        cases m with
        | nil => rfl
        | cons b' r' =>
          simp only [Option.map_some, List.map_cons, noValues_tag]
          split
          · exact userLoop_noValues fuel _ (b' :: r')
          · rfl

theorem subkeyLoop_noValues (subkey : Nat) (v : UInt8) : ∀ (fuel : Nat) (l : List (Body E)), subkeyLoop subkey v fuel (l.map noValues) = subkeyLoop subkey v fuel l
  | 0, _ => rfl
  | fuel + 1, [] => rfl
  | fuel + 1, b :: r => by
    rw [List.map_cons, subkeyLoop, subkeyLoop]
    simp only [noValues_tag, skipSubkeySigs_noValues]
    split
    · rfl
    · split
      · rfl
      · cases h : skipSubkeySigs false r with
        | mk x y =>
          cases x
          · rfl
          · exact subkeyLoop_noValues subkey v fuel y

theorem meaningful_noValues (kind : KeyKind) (l : List (Body E)) : meaningfulBodies kind (l.map noValues) = meaningfulBodies kind l := by
  unfold meaningfulBodies
  cases ht : tags kind with
  | none => rfl
  | some t =>
    obtain ⟨key, subkey⟩ := t
    simp only [List.length_map]
    split
    · rfl
    · cases l with
      | nil => rfl
      | cons p r =>
        simp only [List.map_cons, noValues_tag, noValues_key, skipRevocations_noValues]
        split
        · rfl
        · cases p.keyPart with
          | none => rfl
          | some k =>
            simp only
            cases skipRevocations r with
            | none => rfl
            | some r =>
              simp only [Option.map_some, List.length_map, userLoop_noValues]
              cases userLoop (r.length + 1) false r with
              | ok x =>
                cases x with
                | none => rfl
                | some x =>
                  obtain ⟨seen, r⟩ := x
                  simp only [Option.map_some, Out.ok_bind, List.length_map, subkeyLoop_noValues]
              | _ => rfl

theorem fillSig_same {cr : Crypto} {rawE : E → Bytes} {draws : List Nat} {pass : Bytes} {body : Body E} {t : Tag5} {key user : Option (Body E)} {s s' : Tag2 E}
    (h : fillSig cr rawE draws pass body t key user s = .ok (some s')) : ∃ l m, s' = { s with left16 := l, mpi := m } := by
  have made : ∀ (input : Out Bytes), (do let d ← digestOf cr s input; let s ← refinish cr draws t pass s d; return some s : Out (Option (Tag2 E))) = .ok (some s') →
      ∃ l m, s' = { s with left16 := l, mpi := m } := by
    intro input h
    obtain ⟨d, -, h⟩ := Out.bind_eq_ok.mp h
    obtain ⟨x, hx, h⟩ := Out.bind_eq_ok.mp h
    obtain rfl := Option.some.inj (Out.ok.inj h)
    rw [refinish] at hx
    obtain ⟨l, -, hx⟩ := Out.bind_eq_ok.mp hx
    obtain ⟨pri, -, hx⟩ := Out.bind_eq_ok.mp hx
    obtain ⟨v, -, hx⟩ := Out.bind_eq_ok.mp hx
    exact ⟨_, _, (Out.ok.inj hx).symm⟩
  have same : (.ok (some s) : Out (Option (Tag2 E))) = .ok (some s') → ∃ l m, s' = { s with left16 := l, mpi := m } := by
    intro h
    exact ⟨s.left16, s.mpi, (Option.some.inj (Out.ok.inj h)).symm⟩
  unfold fillSig at h
  repeat' split at h
  all_goals first | exact made _ h | exact same h | cases h

/-- **Filling in keeps a key what it is**: the result is a meaningful secret key with the same key ID; its packets are those of the key, and its signatures those of the key but for their
values. This needs nothing of the passphrase or the algorithm. -/
theorem C64_same_key (cr : Crypto) (rawE : E → Bytes) (draws : Nat → List Nat) (k : KeyObj E) (hk : k.kind = .sec) (pass : Bytes) (k' : KeyObj E)
    (h : fillKeySigs cr rawE draws k pass = .ok (some k')) :
    k'.kind = .sec ∧ k'.meaningful = .ok true ∧ k'.keyid cr = k.keyid cr ∧ k'.packets.head? = k.packets.head? ∧
      List.Forall₂ (fun p p' => p.fmt = p'.fmt ∧ p.part = p'.part ∧ (p.body = p'.body ∨ ∃ s l m, p.body = .sig s ∧ p'.body = .sig { s with left16 := l, mpi := m })) k.packets k'.packets := by
  have hm : k.meaningful = .ok true := by
    have h := h
    rw [fillKeySigs] at h
    obtain ⟨g, hg, h⟩ := Out.bind_eq_ok.mp h
    cases g with
    | true => exact hg
    | false => cases h
  obtain ⟨p, t, ps, hps, hp, -⟩ := secret_layout hk hm
  obtain ⟨-, l, -, -, hr⟩ := fillKeySigs_eq hps hp hm h
  cases l with
  | none => cases hr
  | some l =>
    have e' : k' = { k with packets := p :: l } := Option.some.inj hr
    obtain ⟨hk', hlen, -, -, hall⟩ := fillKeySigs_ok (p := p) (t := t) hk (by rw [hps]; rfl) hp
      (fun _ _ p p' => p.fmt = p'.fmt ∧ p.part = p'.part ∧ (p.body = p'.body ∨ ∃ s l m, p.body = .sig s ∧ p'.body = .sig { s with left16 := l, mpi := m }))
      (fun _ _ p _ => ⟨rfl, rfl, .inl rfl⟩)
      (fun _ _ _ _ _ q s s' _ _ hs _ hf => by
        obtain ⟨l, m, rfl⟩ := fillSig_same hf
        exact ⟨rfl, rfl, .inr ⟨s, l, m, hs, rfl⟩⟩) h
    have hf : List.Forall₂ (fun (p p' : Pkt E) => p.fmt = p'.fmt ∧ p.part = p'.part ∧ (p.body = p'.body ∨ ∃ s l m, p.body = .sig s ∧ p'.body = .sig { s with left16 := l, mpi := m })) k.packets k'.packets := by
      rw [List.forall₂_iff_get]
      refine ⟨hlen.symm, fun i h1 h2 => ?_⟩
      obtain ⟨q', hq', hR⟩ := hall (k.packets.take i) (k.packets[i]) (k.packets.drop (i + 1)) (by rw [List.getElem_cons_drop, List.take_append_drop])
      rw [List.length_take, min_eq_left (Nat.le_of_lt h1)] at hq'
      rw [List.getElem?_eq_getElem h2] at hq'
      obtain rfl := Option.some.inj hq'
      exact hR
    have hshape : (k.packets.map (·.body)).map noValues = (k'.packets.map (·.body)).map noValues := by
      clear hall hlen h hps e' hr
      generalize k.packets = a at hf
      generalize k'.packets = b at hf
      induction hf with
      | nil => rfl
      | cons hx _ ih =>
        simp only [List.map_cons, List.cons.injEq]
        refine ⟨?_, ih⟩
        rcases hx.2.2 with hx | ⟨s, l, m, hx, hy⟩
        · rw [hx]
        · rw [hx, hy]; rfl
    have hm' : k'.meaningful = .ok true := by
      rw [KeyObj.meaningful, hk', ← meaningful_noValues, ← hshape, meaningful_noValues, ← hk]
      exact hm
    have hp' : k'.packets = p :: l := by rw [e']
    refine ⟨hk', hm', ?_, by rw [e', hps]; rfl, hf⟩
    simp only [KeyObj.keyid, hm, hm', hps, hp']

/-- Of the generated key of C45's example. -/
example : (do
    let k ← generateKey c43Crypto noE (c45Config []) 7 c45Rand [[3, 4, 5], [3, 4, 5]] c45Subs
    let r ← fillKeySigs c43Crypto noE (fun _ => [3, 4, 5]) k []
    match r with
    | some k' => k'.meaningful
    | none => return false : Out Bool) = .ok true := by
  decide +kernel

end OpenPGP
