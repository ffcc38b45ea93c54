import Verif.Model.Compare
import Verif.Props.C06Packets
import Verif.Props.C60
import Mathlib.Data.List.Forall2

/-!
# C61: comparing packets and objects
-/
namespace OpenPGP
variable {E : Type}

/-- A packet that the library reads back from its own body (C10 - C14 say which do). -/
def ReadsBack (rawE : E → Bytes) (readE : Bytes → Out E) (b : Body E) : Prop :=
  ∃ r, b.raw rawE = .ok r ∧ Body.parse readE b.tag ⟨r, 0, r.length, false⟩ = .ok b

theorem readsBack_of_okAt {n : Nat} {b : Body (SigAt n)} (h : b.okAt n 0) {r : Bytes} (hr : b.raw (rawAt n) = .ok r) : ReadsBack (rawAt n) (readSigAt n) b :=
  ⟨r, hr, Body.parse_at h hr (rest := []) (by simp) (Nat.zero_le _)⟩

/-! ## Packets -/

/-- **Packets are equal exactly if they hold the same.** For packets that the library reads back, of any two kinds, `==` never fails and is true exactly if both are of the
same kind and hold the same; the header format and partial lengths do not count. -/
theorem C61_packet (rawE : E → Bytes) (readE : Bytes → Out E) (p q : Pkt E) (hp : ReadsBack rawE readE p.body) (hq : ReadsBack rawE readE q.body) :
    (pktEq rawE p q = .ok true ↔ p.body = q.body) ∧ (pktEq rawE p q = .ok false ↔ p.body ≠ q.body) := by
  obtain ⟨x, hx, px⟩ := hp
  obtain ⟨y, hy, py⟩ := hq
  have key : ∃ r : Bool, pktEq rawE p q = .ok r ∧ (r = true ↔ p.body = q.body) := by
    rw [pktEq]
    by_cases ht : p.body.tag = q.body.tag
    · refine ⟨decide (x = y), ?_, ?_⟩
      · rw [if_pos ht, hx, hy]; rfl
      · rw [decide_eq_true_eq]
        refine ⟨fun e => ?_, fun e => ?_⟩
        · subst e
          rw [ht] at px
          exact Out.ok.inj (px.symm.trans py)
        · rw [e] at hx
          exact Out.ok.inj (hx.symm.trans hy)
    · refine ⟨false, by rw [if_neg ht], ?_⟩
      simp only [Bool.false_eq_true, false_iff]
      exact fun e => ht (by rw [e])
  obtain ⟨r, e, h⟩ := key
  rw [e]
  cases r <;> simp_all

/-- `!=` is the opposite of `==`, for all packets. -/
theorem C61_not_equal (rawE : E → Bytes) (p q : Pkt E) (r : Bool) : pktNe rawE p q = .ok r ↔ pktEq rawE p q = .ok !r := by
  rw [pktNe]
  cases pktEq rawE p q with
  | ok x => cases x <;> cases r <;> simp [Out.pure_eq]
  | _ => simp [Bind.bind, Out.bind]

/-- A version 4 key packet, a user ID and a signature are such packets. -/
example : ReadsBack (rawAt 0) (readSigAt 0) (.publicKey ⟨4, 1500000000, 1, [0xffee, 17], 0⟩) := ⟨_, rfl, by decide +kernel⟩
example : ReadsBack (rawAt 0) (readSigAt 0) (.userId [97, 98]) := ⟨_, rfl, by decide +kernel⟩
example : ReadsBack (rawAt 0) (readSigAt 0) (.sig c10Inner) := ⟨_, rfl, by decide +kernel⟩
example : pktEq (rawAt 0) ⟨.new, false, .userId [97]⟩ ⟨.old, false, .userId [97]⟩ = .ok true := by decide +kernel
example : pktEq (rawAt 0) ⟨.new, false, .userId [97]⟩ ⟨.new, false, .marker [97]⟩ = .ok false := by decide +kernel

/-- **A packet made from its body.** Constructing a packet of class `TagN` from the body of a packet gives a packet equal to it, except for public subkeys. -/
theorem C61_construct (rawE : E → Bytes) (readE : Bytes → Out E) (p : Pkt E) (r : Bytes) (hr : p.body.raw rawE = .ok r) (hp : ReadsBack rawE readE p.body) :
    ∃ q, constructFrom readE p.body.tag r = .ok q ∧ (pktEq rawE p q = .ok true ↔ p.body.tag ≠ 14) ∧ (pktEq rawE p q = .ok false ↔ p.body.tag = 14) := by
  obtain ⟨x, hx, px⟩ := hp
  obtain rfl := Out.ok.inj (hr.symm.trans hx)
  rw [constructFrom, px, Out.ok_bind]
  refine ⟨_, rfl, ?_⟩
  cases hb : p.body with
  | publicSubkey k => simp [pktEq, hb, Body.tag]
  | priv n s =>
    have : 60 + n ≠ 14 := by omega
    simp [pktEq, hb, Body.tag, Body.raw, Out.pure_eq, this]
  | _ =>
    rw [hb] at hr
    simp [pktEq, hb, Body.tag, hr, Out.pure_eq]

/-- **A public subkey made from its body is a public key.** `Tag14(data)` has tag 6, for all data: it is written as a primary key. -/
theorem C61_construct_fails (rawE : E → Bytes) (readE : Bytes → Out E) (data : Bytes) (q : Pkt E) (h : constructFrom readE 14 data = .ok q) :
    q.body.tag = 6 ∧ ∃ k, q.body = .publicKey k ∧ q.write rawE = writePacket .new 6 false k.rawCommon := by
  rw [constructFrom, Out.bind_eq_ok] at h
  obtain ⟨b, hb, h⟩ := h
  change Body.publicSubkey <$> _ = _ at hb
  rw [Functor.map] at hb
  cases hk : KeyPkt.readAt ⟨data, 0, data.length, false⟩ true with
  | ok k =>
    rw [hk] at hb
    obtain rfl := Out.ok.inj hb
    obtain rfl := Out.ok.inj h
    exact ⟨rfl, k, rfl, rfl⟩
  | _ => rw [hk] at hb; cases hb

example : constructFrom (readSigAt 0) 14 (KeyPkt.rawCommon ⟨4, 1500000000, 17, [3, 5, 7, 9], 0⟩) = .ok ⟨.new, false, .publicKey ⟨4, 1500000000, 17, [3, 5, 7, 9], 0⟩⟩ := by
  decide +kernel

/-! ## Objects -/

/-- What two equal objects have in common: no null pointers, and the same bodies at the same places. -/
def SameBodies (rawE : E → Bytes) (as bs : List (Option (Pkt E))) : Prop :=
  List.Forall₂ (fun a b => ∃ p q r, a = some p ∧ b = some q ∧ p.body.raw rawE = .ok r ∧ q.body.raw rawE = .ok r) as bs

theorem sameBodies_iff (rawE : E → Bytes) : ∀ as bs : List (Option (Pkt E)), as.length = bs.length → (sameBodies rawE as bs = .ok true ↔ SameBodies rawE as bs)
  | [], [], _ => by simp [sameBodies, SameBodies]
  | none :: as, none :: bs, _ => by simp [sameBodies, SameBodies]
  | none :: as, some b :: bs, _ => by simp [sameBodies, SameBodies]
  | some a :: as, none :: bs, _ => by simp [sameBodies, SameBodies]
  | some a :: as, some b :: bs, hl => by
    have ih := sameBodies_iff rawE as bs (by simpa using hl)
    rw [SameBodies, List.forall₂_cons, ← SameBodies, ← ih, sameBodies]
    constructor
    · intro h
      obtain ⟨x, hx, h⟩ := Out.bind_eq_ok.mp h
      obtain ⟨y, hy, h⟩ := Out.bind_eq_ok.mp h
      by_cases e : x = y
      · subst e
        simp only [ne_eq, not_true_eq_false, if_false] at h
        exact ⟨⟨a, b, x, rfl, rfl, hx, hy⟩, h⟩
      · simp only [ne_eq, e, not_false_eq_true, if_true] at h
        exact absurd (Out.ok.inj h) (by simp)
    · rintro ⟨⟨p, q, r, e1, e2, hx, hy⟩, h⟩
      obtain rfl := Option.some.inj e1
      obtain rfl := Option.some.inj e2
      rw [hx, hy]
      simpa using h

/-- **Objects are equal exactly if** they are of the same type, have the same number of packets, no null pointers, and the same bodies in the same order. -/
theorem C61_object (rawE : E → Bytes) (a b : PgpObj (Option (Pkt E))) :
    pgpEq rawE a b = .ok true ↔ a.type = b.type ∧ SameBodies rawE a.packets b.packets := by
  rw [pgpEq]
  by_cases ht : a.type = b.type
  · by_cases hl : a.packets.length = b.packets.length
    · simp only [ht, hl, ne_eq, not_true_eq_false, if_false, true_and]
      exact sameBodies_iff rawE _ _ hl
    · simp only [ht, hl, ne_eq, not_true_eq_false, not_false_eq_true, if_false, if_true, true_and]
      refine ⟨fun h => absurd (Out.ok.inj h) (by simp), fun h => absurd h.length_eq hl⟩
  · simp only [ht, ne_eq, not_false_eq_true, if_true, false_and, iff_false]
    exact fun h => absurd (Out.ok.inj h) (by simp)

/-- Equality is symmetric and transitive. -/
theorem C61_equivalence (rawE : E → Bytes) (a b c : PgpObj (Option (Pkt E))) :
    (pgpEq rawE a b = .ok true → pgpEq rawE b a = .ok true) ∧ (pgpEq rawE a b = .ok true → pgpEq rawE b c = .ok true → pgpEq rawE a c = .ok true) := by
  simp only [C61_object]
  refine ⟨fun ⟨h1, h2⟩ => ⟨h1.symm, ?_⟩, fun ⟨h1, h2⟩ ⟨h3, h4⟩ => ⟨h1.trans h3, ?_⟩⟩
  · refine List.Forall₂.flip (h2.imp ?_)
    rintro x y ⟨p, q, r, e1, e2, h1, h2⟩
    exact ⟨q, p, r, e2, e1, h2, h1⟩
  · have trans : ∀ xs ys zs : List (Option (Pkt E)), SameBodies rawE xs ys → SameBodies rawE ys zs → SameBodies rawE xs zs := by
      intro xs ys zs hxy
      induction hxy generalizing zs with
      | nil => intro h; cases h; exact .nil
      | cons hab _ ih =>
        intro h
        cases h with
        | cons hbc h =>
          refine .cons ?_ (ih _ h)
          obtain ⟨p, q, r, e1, e2, hp, hq⟩ := hab
          obtain ⟨q', s, r', e3, e4, hq', hs⟩ := hbc
          obtain rfl := Option.some.inj (e2.symm.trans e3)
          obtain rfl := Out.ok.inj (hq.symm.trans hq')
          exact ⟨p, s, r, e1, e4, hp, hs⟩
    exact trans _ _ _ h2 h4

/-- **A copy is equal to its original**, and every object to itself, if no packet pointer is null and every packet has a body. -/
theorem C61_self (rawE : E → Bytes) (a b : PgpObj (Option (Pkt E))) (ht : a.type = b.type) (hp : a.packets = b.packets)
    (h : ∀ x ∈ a.packets, ∃ p r, x = some p ∧ p.body.raw rawE = .ok r) : pgpEq rawE a b = .ok true := by
  rw [C61_object]
  refine ⟨ht, ?_⟩
  rw [← hp]
  have : ∀ l : List (Option (Pkt E)), (∀ x ∈ l, ∃ p r, x = some p ∧ p.body.raw rawE = .ok r) → SameBodies rawE l l := by
    intro l
    induction l with
    | nil => intro _; exact .nil
    | cons x l ih =>
      intro h
      obtain ⟨p, r, e, hr⟩ := h x (by simp)
      exact .cons ⟨p, p, r, e, e, hr, hr⟩ (ih fun y hy => h y (by simp [hy]))
  exact this _ h

/-- The copies of C60: whatever is in memory, the copy of an object compares equal to it, also after other things have been done with the original's packets (C60_copy_stays
gives the same values then). -/
theorem C61_copy (n : Nat) (h : Heap) (ps : List Nat) (vs : List (Pkt (SigAt n))) (hv : ps.mapM (pktAt h n) = some vs) (hr : ∀ v ∈ vs, ∃ r, v.body.raw (rawAt n) = .ok r)
    (armored : Bool) (type : Nat) (keys : List (Bytes × Bytes)) :
    ∃ ps' h' ws, clonePkts n h ps = .ok (ps', h') ∧ ps'.mapM (pktAt h' n) = some ws ∧ pgpEq (rawAt n) ⟨armored, type, keys, vs.map some⟩ ⟨armored, type, keys, ws.map some⟩ = .ok true := by
  obtain ⟨ps', h', e, hc, -⟩ := C60_copies n h ps vs hv
  refine ⟨ps', h', vs, e, hc, C61_self _ _ _ rfl rfl fun x hx => ?_⟩
  obtain ⟨v, hv, rfl⟩ := List.mem_map.mp hx
  obtain ⟨r, hr⟩ := hr v hv
  exact ⟨v, r, rfl, hr⟩

/-- **What is written and read again is equal** to the original, for the sequences of packets of C06. -/
theorem C61_reread (n : Nat) (ps : List (Pkt (SigAt n))) (hp : placed n 0 ps) (hr : ∀ p ∈ ps, ∃ r, p.body.raw (rawAt n) = .ok r) (o : PgpObj (Option (Pkt (SigAt n))))
    (ho : o.packets = ps.map some) :
    ∃ out qs, writeRaw (Pkt.write (rawAt n)) ps = .ok out ∧ readRaw (Pkt.parse (readSigAt n)) out = .ok qs ∧ pgpEq (rawAt n) o { o with packets := qs.map some } = .ok true := by
  obtain ⟨out, hw, hq⟩ := C06_packets_partial n ps hp
  refine ⟨out, ps, hw, hq, C61_self _ _ _ rfl ho fun x hx => ?_⟩
  rw [ho] at hx
  obtain ⟨v, hv, rfl⟩ := List.mem_map.mp hx
  obtain ⟨r, hr⟩ := hr v hv
  exact ⟨v, r, rfl, hr⟩

/-- **Objects whose packets are of the same kinds** and are read back: equal exactly if they are of the same type and every packet holds the same. -/
theorem C61_same_kinds (rawE : E → Bytes) (readE : Bytes → Out E) (a b : PgpObj (Option (Pkt E))) (ps qs : List (Pkt E)) (ha : a.packets = ps.map some) (hb : b.packets = qs.map some)
    (hk : ps.map (·.body.tag) = qs.map (·.body.tag)) (hp : ∀ p ∈ ps, ReadsBack rawE readE p.body) (hq : ∀ q ∈ qs, ReadsBack rawE readE q.body) :
    pgpEq rawE a b = .ok true ↔ a.type = b.type ∧ ps.map (·.body) = qs.map (·.body) := by
  rw [C61_object, ha, hb]
  refine and_congr_right fun hab => ?_
  clear hab ha hb a b
  induction ps generalizing qs with
  | nil =>
    cases qs with
    | nil => simp [SameBodies]
    | cons q qs => simp at hk
  | cons p ps ih =>
    cases qs with
    | nil => simp at hk
    | cons q qs =>
      simp only [List.map_cons, List.cons.injEq] at hk ⊢
      rw [SameBodies, List.forall₂_cons, ← SameBodies, ih qs hk.2 (fun x hx => hp x (by simp [hx])) fun x hx => hq x (by simp [hx])]
      refine and_congr_left fun _ => ?_
      have c := (C61_packet rawE readE p q (hp p (by simp)) (hq q (by simp))).1
      rw [← c, pktEq, if_pos hk.1]
      obtain ⟨x, hx, -⟩ := hp p (by simp)
      obtain ⟨y, hy, -⟩ := hq q (by simp)
      rw [hx, hy]
      simp only [Out.ok_bind, Out.pure_eq]
      constructor
      · rintro ⟨p', q', r, e1, e2, h1, h2⟩
        obtain rfl := Option.some.inj e1
        obtain rfl := Option.some.inj e2
        obtain rfl := Out.ok.inj (hx.symm.trans h1)
        obtain rfl := Out.ok.inj (hy.symm.trans h2)
        simp
      · intro h
        have h := Out.ok.inj h
        rw [decide_eq_true_eq] at h
        subst h
        exact ⟨p, q, x, rfl, rfl, hx, hy⟩

/-! ## What is not compared -/

/-- **The kinds of packets are not compared.** Objects of packets with the same bodies compare equal whatever the kinds are: a key with primary key `k` and subkey `l` is
equal to one with subkey `k` and primary key `l`, a user ID is equal to a marker, a trust packet and encrypted data; as packets they are not equal and they are not written
alike. -/
theorem C61_kinds_fails (rawE : E → Bytes) (t : Nat) :
    (∀ k l : KeyPkt, pgpEq rawE ⟨true, t, [], [some ⟨.new, false, .publicKey k⟩, some ⟨.new, false, .publicSubkey l⟩]⟩
      ⟨true, t, [], [some ⟨.new, false, .publicSubkey k⟩, some ⟨.new, false, .publicKey l⟩]⟩ = .ok true) ∧
    (∀ u : Bytes, ∀ b ∈ [Body.marker u, .trust u, .symEnc u, .mdc u, .priv 0 u], pgpEq rawE ⟨true, t, [], [some ⟨.new, false, .userId u⟩]⟩ ⟨true, t, [], [some ⟨.new, false, b⟩]⟩ = .ok true ∧
      pktEq rawE ⟨.new, false, .userId u⟩ ⟨.new, false, b⟩ = .ok false) ∧
    ∃ x y, Pkt.write rawE ⟨.new, false, .userId [97]⟩ = .ok x ∧ Pkt.write rawE ⟨.new, false, .marker [97]⟩ = .ok y ∧ x ≠ y := by
  refine ⟨fun k l => ?_, fun u b hb => ?_, ?_⟩
  · simp [pgpEq, sameBodies, Body.raw, Out.pure_eq]
  · simp only [List.mem_cons, List.not_mem_nil, or_false] at hb
    rcases hb with rfl | rfl | rfl | rfl | rfl <;> simp [pgpEq, sameBodies, Body.raw, Out.pure_eq, pktEq, Body.tag]
  · exact ⟨[0xcd, 1, 97], [0xca, 1, 97], by change writePacket .new 13 false [97] = _; decide +kernel, by change writePacket .new 10 false [97] = _; decide +kernel, by decide⟩

/-- **Armor headers, armoring, header formats and compression are not compared.** -/
theorem C61_ignored (rawE : E → Bytes) :
    (∀ (a b : PgpObj (Option (Pkt E))) (x y : Bool) (k l : List (Bytes × Bytes)), pgpEq rawE { a with armored := x, keys := k } { b with armored := y, keys := l } = pgpEq rawE a b) ∧
    (∀ (a b : Msg E) (c d : Option (Fmt × Bool × UInt8)), msgEq rawE { a with comp := c } { b with comp := d } = msgEq rawE a b) ∧
    ∀ (p : Pkt E) (r : Bytes) (f : Fmt) (x : Bool), p.body.raw rawE = .ok r → pktEq rawE p { p with fmt := f, part := x } = .ok true := by
  refine ⟨fun _ _ _ _ _ _ => rfl, fun _ _ _ _ => rfl, fun p r f x hr => ?_⟩
  simp [pktEq, hr, Out.pure_eq]

/-- **An object with a null pointer is not equal to itself.** -/
theorem C61_null_fails (rawE : E → Bytes) (a : PgpObj (Option (Pkt E))) (h : none ∈ a.packets) : pgpEq rawE a a ≠ .ok true := by
  rw [Ne, C61_object]
  rintro ⟨-, h2⟩
  have : ∀ l : List (Option (Pkt E)), none ∈ l → ¬ SameBodies rawE l l := by
    intro l
    induction l with
    | nil => intro h; cases h
    | cons x l ih =>
      intro h hs
      rw [SameBodies, List.forall₂_cons, ← SameBodies] at hs
      rcases List.mem_cons.mp h with rfl | h
      · obtain ⟨p, _, _, e, _⟩ := hs.1
        cases e
      · exact ih h hs.2
  exact this _ h h2

example : pgpEq (rawAt 0) ⟨true, 2, [], [some ⟨.new, false, .userId [97]⟩, none]⟩ ⟨true, 2, [], [some ⟨.new, false, .userId [97]⟩, none]⟩ = .ok false := by decide +kernel

/-! ## Cleartext signatures -/

/-- **Cleartext signatures are equal exactly if** headers, text and signatures are. -/
theorem C61_cleartext (rawE : E → Bytes) (a b : Cleartext (Option (Pkt E))) :
    cleartextEq rawE a b = .ok true ↔ a.headers = b.headers ∧ a.message = b.message ∧ pgpEq rawE a.sig b.sig = .ok true := by
  rw [cleartextEq]
  by_cases h1 : a.headers = b.headers
  · by_cases h2 : a.message = b.message
    · simp [h1, h2]
    · simp [h1, h2]
  · simp [h1]

example : cleartextEq (rawAt 0) ⟨[(ascii "Hash", ascii "SHA256")], [97], ⟨true, 6, [], [some ⟨.new, false, .sig c10Inner⟩]⟩⟩
    ⟨[(ascii "Hash", ascii "SHA256")], [97], ⟨false, 6, [], [some ⟨.old, false, .sig c10Inner⟩]⟩⟩ = .ok true := by decide +kernel

end OpenPGP
