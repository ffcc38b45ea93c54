import Verif.Model.List
import Verif.Props.C30
import Verif.Props.C36
import Verif.Props.C56
import Verif.Props.C62

/-!
# C63: listing keys
-/
namespace OpenPGP
variable {E : Type}

/-! ## When a key can be listed -/

/-- A signature has a creation time: version 3, or version 4 with a creation time that is not 0 among the hashed subpackets. -/
def Tag2.Timed (s : Tag2 E) : Prop := s.version = 3 ∨ s.version = 4 ∧ (Tag2.timesLoop true s.hashed (0, 0, 0)).1 ≠ 0

/-- A signature says who made it: version 3 with a key ID, or version 4 with an issuer subpacket, of at least four octets. -/
def Tag2.Named (s : Tag2 E) : Prop := ∃ id, s.getKeyid = .ok id ∧ 4 ≤ id.length

/-- What list_keys can print: keys of known algorithms with a number and a key ID, signatures with a creation time and an issuer. -/
def Listable (cr : Crypto) : Body E → Prop
  | .sig s => s.Timed ∧ s.Named
  | b => ∀ k, b.keyPart = some k → k.mpi ≠ [] ∧ k.pka ∈ [1, 2, 3, 16, 17] ∧ ∃ id, k.keyid cr = .ok id

theorem timesLoop_creation (l : List (Sub E)) (t : Nat × Nat × Nat) : (Tag2.timesLoop false l t).1 = t.1 := by
  induction l generalizing t with
  | nil => rfl
  | cons s l ih =>
    rw [Tag2.timesLoop, List.foldl_cons, ← Tag2.timesLoop, ih]
    cases s.body <;> rfl

theorem Tag2.timed_iff (s : Tag2 E) : (∃ t, s.getTimes = .ok t) ↔ s.Timed := by
  rw [Tag2.getTimes, Tag2.Timed]
  by_cases h3 : s.version = 3
  · simp [h3]
  · rw [if_neg h3]
    by_cases h4 : s.version = 4
    · rw [if_pos h4]
      dsimp only
      rw [timesLoop_creation]
      by_cases h0 : (Tag2.timesLoop true s.hashed (0, 0, 0)).1 = 0
      · simp [h0, h3]
      · simp [h0, h4]
    · simp [h3, h4]

theorem pkaShort_iff (p : UInt8) : (∃ c, pkaShort p = .ok c) ↔ p ∈ [1, 2, 3, 16, 17] := by
  have : ∀ k : Fin 256, (match pkaShort (UInt8.ofNat k.val) with | .ok _ => true | _ => false) = decide (UInt8.ofNat k.val ∈ [1, 2, 3, 16, 17]) := by decide +kernel
  have := this ⟨p.toNat, p.toNat_lt⟩
  simp only [UInt8.ofNat_toNat] at this
  cases h : pkaShort p with
  | ok c => rw [h] at this; simpa using this
  | _ => rw [h] at this; simpa using this

theorem listKeyPkt_iff (cr : Crypto) (hcr : cr.Ok) (date : Nat → Bytes) (indent name : Bytes) (k : KeyPkt) :
    (∃ l, listKeyPkt cr date indent name k = .ok l) ↔ k.mpi ≠ [] ∧ k.pka ∈ [1, 2, 3, 16, 17] ∧ ∃ id, k.keyid cr = .ok id := by
  rw [← pkaShort_iff]
  constructor
  · rintro ⟨l, h⟩
    obtain ⟨n, hn, h⟩ := Out.bind_eq_ok.mp h
    obtain ⟨c, hc, h⟩ := Out.bind_eq_ok.mp h
    obtain ⟨id, hid, h⟩ := Out.bind_eq_ok.mp h
    refine ⟨?_, ⟨c, hc⟩, id, hid⟩
    intro h0
    rw [h0] at hn
    cases hn
  · rintro ⟨hm, ⟨c, hc⟩, id, hid⟩
    cases hk : k.mpi with
    | nil => exact absurd hk hm
    | cons n ms =>
      have h8 := keyid_length cr hcr hid
      simp only [listKeyPkt, bind_ok_iff, Out.pure_eq, ok_exists, and_true]
      exact ⟨n, by rw [hk]; rfl, c, hc, id, hid, (substr_iff _ _ _).mpr (by omega)⟩

theorem listSig_iff (date : Nat → Bytes) (indent : Bytes) (s : Tag2 E) : (∃ l, listSig date indent s = .ok l) ↔ s.Timed ∧ s.Named := by
  rw [← Tag2.timed_iff]
  constructor
  · rintro ⟨l, h⟩
    obtain ⟨t, ht, h⟩ := Out.bind_eq_ok.mp h
    obtain ⟨id, hid, h⟩ := Out.bind_eq_ok.mp h
    obtain ⟨x, hx, h⟩ := Out.bind_eq_ok.mp h
    refine ⟨⟨t, ht⟩, id, hid, ?_⟩
    rw [substr] at hx
    split at hx
    · cases hx
    · omega
  · rintro ⟨⟨t, ht⟩, id, hid, h4⟩
    simp only [listSig, bind_ok_iff, Out.pure_eq, ok_exists, and_true]
    exact ⟨t, ht, id, hid, (substr_iff _ _ _).mpr h4⟩

theorem listPacket_iff (cr : Crypto) (hcr : cr.Ok) (date : Nat → Bytes) (indent : Bytes) (b : Body E) : (∃ l, listPacket cr date indent b = .ok l) ↔ Listable cr b := by
  have key : ∀ (name : Bytes) (f : Bytes → Bytes) (k : KeyPkt), (∃ l, (do let l ← listKeyPkt cr date indent name k; return f l : Out Bytes) = .ok l) ↔
      k.mpi ≠ [] ∧ k.pka ∈ [1, 2, 3, 16, 17] ∧ ∃ id, k.keyid cr = .ok id := by
    intro name f k
    rw [← listKeyPkt_iff cr hcr date indent name]
    constructor
    · rintro ⟨l, h⟩
      obtain ⟨a, ha, -⟩ := Out.bind_eq_ok.mp h
      exact ⟨a, ha⟩
    · rintro ⟨l, h⟩
      exact ⟨f l, by rw [h]; rfl⟩
  cases b with
  | sig s => exact listSig_iff date indent s
  | secretKey t => exact (key _ (· ++ [10]) t.key).trans (by simp [Listable, Body.keyPart])
  | publicKey k => exact (key _ (· ++ [10]) k).trans (by simp [Listable, Body.keyPart])
  | secretSubkey t => exact (key _ ([10] ++ · ++ [10]) t.key).trans (by simp [Listable, Body.keyPart])
  | publicSubkey k => exact (key _ ([10] ++ · ++ [10]) k).trans (by simp [Listable, Body.keyPart])
  | _ => simp [listPacket, Listable, Body.keyPart]

/-- **Which keys can be listed.** A meaningful key is listed exactly if all its packets can be. -/
theorem C63_iff (cr : Crypto) (hcr : cr.Ok) (date : Nat → Bytes) (k : KeyObj E) (hm : k.meaningful = .ok true) (indents size : Nat) :
    (∃ t, listKeys cr date k indents size = .ok t) ↔ ∀ p ∈ k.packets, Listable cr p.body := by
  rw [listKeys, hm]
  simp only [Out.ok_bind, Bool.not_true, Bool.false_eq_true, if_false]
  generalize k.packets = ps
  induction ps with
  | nil => simp [listPackets]
  | cons p ps ih =>
    rw [List.forall_mem_cons, ← listPacket_iff cr hcr date (List.replicate (indents * size) 32), ← ih]
    constructor
    · rintro ⟨t, h⟩
      obtain ⟨a, ha, h⟩ := Out.bind_eq_ok.mp h
      obtain ⟨b, hb, h⟩ := Out.bind_eq_ok.mp h
      exact ⟨⟨a, ha⟩, b, hb⟩
    · rintro ⟨⟨a, ha⟩, b, hb⟩
      exact ⟨a ++ b, by rw [listPackets, ha, hb]; rfl⟩

/-- A key that is not meaningful is listed as nothing. -/
theorem C63_not_meaningful (cr : Crypto) (date : Nat → Bytes) (k : KeyObj E) (hm : k.meaningful = .ok false) (indents size : Nat) : listKeys cr date k indents size = .ok [] := by
  rw [listKeys, hm]
  rfl

/-! ## What the list says -/

/-- What stands in the list for a packet, without indentation. -/
inductive Entry (cr : Crypto) (date : Nat → Bytes) : Body E → Bytes → Prop
  /-- sec, pub, ssb or sub, size, letter, the last four octets of the key ID, and the day of creation -/
  | key (b : Body E) (k : KeyPkt) (lead name : Bytes) (n : Nat) (ms : List Nat) (letter : UInt8) (id : Bytes) (hb : b.keyPart = some k) (hm : k.mpi = n :: ms)
      (hname : (b.tag, lead, name) ∈ [(5, [], ascii "sec"), (6, [], ascii "pub"), (7, [10], ascii "ssb"), (14, [10], ascii "sub")])
      (hl : (k.pka, letter) ∈ [(1, 82), (2, 82), (3, 82), (16, 103), (17, 68)]) (hid : k.keyid cr = .ok id) :
      Entry cr date b (lead ++ name ++ ascii "  " ++ padded 4 (dec (bitsize n)) ++ [letter] ++ ascii "/" ++ hexlify (id.drop 4) ++ ascii " " ++ date k.time ++ [10])
  | uid (u : Bytes) : Entry cr date (.userId u) (ascii "\nuid " ++ u ++ [10])
  | attr (as : List Attr) : Entry cr date (.userAttr as) ((as.flatMap fun a => ascii "\natt  att  [jpeg image of size " ++ dec a.image.length ++ ascii "]") ++ [10])
  /-- revok, sbind or sig, four octets of the issuer, and the days of creation and, if there are any, of the ends -/
  | sig (s : Tag2 E) (what id : Bytes) (c x y : Nat) (hid : s.getKeyid = .ok id) (ht : s.getTimes = .ok (c, x, y))
      (hw : what = if s.type ∈ [0x20, 0x28, 0x30] then ascii "revok" else if s.type = 0x18 then ascii "sbind" else ascii " sig ") :
      Entry cr date (.sig s) (ascii "sig " ++ what ++ ascii "  " ++ hexlify ((id.drop 4).take 4) ++ (if c = 0 then [] else ascii " " ++ date c) ++ ascii " " ++
        (if x = 0 then List.replicate 10 32 else date x ++ ascii " ") ++ (if y = 0 then List.replicate 9 32 else date y) ++ [10])

theorem listKeyPkt_entry (cr : Crypto) (hcr : cr.Ok) (date : Nat → Bytes) (name : Bytes) (k : KeyPkt) (l : Bytes) (h : listKeyPkt cr date [] name k = .ok l) :
    ∃ n ms letter id, k.mpi = n :: ms ∧ (k.pka, letter) ∈ ([(1, 82), (2, 82), (3, 82), (16, 103), (17, 68)] : List (UInt8 × UInt8)) ∧ k.keyid cr = .ok id ∧
      l = name ++ ascii "  " ++ padded 4 (dec (bitsize n)) ++ [letter] ++ ascii "/" ++ hexlify (id.drop 4) ++ ascii " " ++ date k.time := by
  obtain ⟨n, hn, h⟩ := Out.bind_eq_ok.mp h
  obtain ⟨c, hc, h⟩ := Out.bind_eq_ok.mp h
  obtain ⟨id, hid, h⟩ := Out.bind_eq_ok.mp h
  obtain ⟨x, hx, h⟩ := Out.bind_eq_ok.mp h
  obtain rfl := Out.ok.inj h
  have h8 := keyid_length cr hcr hid
  rw [substr, if_neg (by omega)] at hx
  obtain rfl := Out.ok.inj hx
  cases hk : k.mpi with
  | nil => rw [hk] at hn; cases hn
  | cons m ms =>
    rw [hk] at hn
    obtain rfl := Out.ok.inj hn
    refine ⟨m, ms, c, id, rfl, ?_, hid, ?_⟩
    · rw [pkaShort] at hc
      split at hc
      · rename_i hr
        obtain rfl := Out.ok.inj hc
        simp only [isRSA, Bool.or_eq_true, beq_iff_eq] at hr
        rcases hr with (hr | hr) | hr <;> simp [hr]
      · split at hc
        · rename_i hr
          obtain rfl := Out.ok.inj hc
          simp [hr]
        · split at hc
          · rename_i hr
            obtain rfl := Out.ok.inj hc
            simp [hr]
          · cases hc
    · rw [List.take_of_length_le (by simp [h8])]
      simp

theorem meaningful_tags (k : KeyObj E) (hm : k.meaningful = .ok true) : ∀ p ∈ k.packets, p.body.tag ∈ [2, 5, 6, 7, 13, 14, 17] := by
  obtain ⟨kind, ps⟩ := k
  rw [KeyObj.meaningful] at hm
  cases ht : KeyObj.tags kind with
  | none =>
    rw [KeyObj.meaningfulBodies, ht] at hm
    cases hm
  | some x =>
    obtain ⟨key, subkey⟩ := x
    rw [C30_meaningful_iff kind key subkey ht] at hm
    obtain ⟨p, revs, users, subs, he, hp, hr, hu, -, hs, -⟩ := hm
    have hks : key ∈ [5, 6] ∧ subkey ∈ [7, 14] := by
      cases kind <;> simp [KeyObj.tags] at ht <;> obtain ⟨rfl, rfl⟩ := ht <;> simp
    intro q hq
    have hq : q.body ∈ p :: (revs ++ users.flatten ++ subs.flatten) := he ▸ List.mem_map_of_mem hq
    rcases List.mem_cons.mp hq with h | h
    · rw [h, hp]
      have := hks.1
      simp at this
      rcases this with rfl | rfl <;> simp
    · rcases List.mem_append.mp h with h | h
      · rcases List.mem_append.mp h with h | h
        · obtain ⟨s, hs, -⟩ := hr _ h
          rw [hs]; simp [Body.tag]
        · obtain ⟨g, hg, h⟩ := List.mem_flatten.mp h
          have hb := hu g hg
          cases hb with
          | id u sigs hsig =>
            rcases List.mem_cons.mp h with h | h
            · rw [h]; simp [Body.tag]
            · rcases hsig _ h with ⟨s, hs, -⟩ | ⟨s, hs, -⟩ <;> rw [hs] <;> simp [Body.tag]
          | «attribute» l sigs hsig =>
            rcases List.mem_cons.mp h with h | h
            · rw [h]; simp [Body.tag]
            · obtain ⟨s, hs, -⟩ := hsig _ h
              rw [hs]; simp [Body.tag]
      · obtain ⟨g, hg, h⟩ := List.mem_flatten.mp h
        obtain ⟨b, sigs, rfl, hb, hsig, -⟩ := hs g hg
        rcases List.mem_cons.mp h with h | h
        · rw [h, hb]
          have := hks.2
          simp at this
          rcases this with rfl | rfl <;> simp
        · obtain ⟨s, hs, -⟩ := hsig _ h
          rw [hs]; simp [Body.tag]

/-- **One entry for each packet, in order.** -/
theorem C63_entries (cr : Crypto) (hcr : cr.Ok) (date : Nat → Bytes) (k : KeyObj E) (hm : k.meaningful = .ok true) (t : Bytes) (h : listKeys cr date k 0 4 = .ok t) :
    ∃ es, List.Forall₂ (fun p e => Entry cr date (Pkt.body p) e) k.packets es ∧ t = es.flatten := by
  have hk := meaningful_tags k hm
  rw [listKeys, hm] at h
  simp only [Out.ok_bind, Bool.not_true, Bool.false_eq_true, if_false, Nat.zero_mul, List.replicate_zero] at h
  generalize k.packets = ps at h hk
  induction ps generalizing t with
  | nil => obtain rfl := Out.ok.inj h; exact ⟨[], .nil, rfl⟩
  | cons p ps ih =>
    obtain ⟨a, ha, h⟩ := Out.bind_eq_ok.mp h
    obtain ⟨b, hb, h⟩ := Out.bind_eq_ok.mp h
    obtain rfl := Out.ok.inj h
    obtain ⟨es, h1, rfl⟩ := ih b hb fun q hq => hk q (by simp [hq])
    refine ⟨a :: es, .cons ?_ h1, rfl⟩
    have hp := hk p (by simp)
    generalize p.body = body at ha hp
    cases body with
    | secretKey x =>
      obtain ⟨l, hl, ha⟩ := Out.bind_eq_ok.mp ha
      obtain rfl := Out.ok.inj ha
      obtain ⟨n, ms, c, id, h1, h2, h3, rfl⟩ := listKeyPkt_entry cr hcr date _ _ _ hl
      exact .key _ x.key [] (ascii "sec") n ms c id rfl h1 (by simp [Body.tag]) h2 h3
    | publicKey x =>
      obtain ⟨l, hl, ha⟩ := Out.bind_eq_ok.mp ha
      obtain rfl := Out.ok.inj ha
      obtain ⟨n, ms, c, id, h1, h2, h3, rfl⟩ := listKeyPkt_entry cr hcr date _ _ _ hl
      exact .key _ x [] (ascii "pub") n ms c id rfl h1 (by simp [Body.tag]) h2 h3
    | secretSubkey x =>
      obtain ⟨l, hl, ha⟩ := Out.bind_eq_ok.mp ha
      obtain rfl := Out.ok.inj ha
      obtain ⟨n, ms, c, id, h1, h2, h3, rfl⟩ := listKeyPkt_entry cr hcr date _ _ _ hl
      simpa [keyTypeName] using Entry.key (E := E) (cr := cr) (date := date) (.secretSubkey x) x.key [10] (ascii "ssb") n ms c id rfl h1 (by simp [Body.tag]) h2 h3
    | publicSubkey x =>
      obtain ⟨l, hl, ha⟩ := Out.bind_eq_ok.mp ha
      obtain rfl := Out.ok.inj ha
      obtain ⟨n, ms, c, id, h1, h2, h3, rfl⟩ := listKeyPkt_entry cr hcr date _ _ _ hl
      simpa [keyTypeName] using Entry.key (E := E) (cr := cr) (date := date) (.publicSubkey x) x [10] (ascii "sub") n ms c id rfl h1 (by simp [Body.tag]) h2 h3
    | userId u => obtain rfl := Out.ok.inj ha; exact .uid u
    | userAttr as => obtain rfl := Out.ok.inj ha; exact .attr as
    | sig s =>
      obtain ⟨⟨c, x, y⟩, ht, ha⟩ := Out.bind_eq_ok.mp ha
      obtain ⟨id, hid, ha⟩ := Out.bind_eq_ok.mp ha
      obtain ⟨sh, hsh, ha⟩ := Out.bind_eq_ok.mp ha
      obtain rfl := Out.ok.inj ha
      have hsh' : sh = (id.drop 4).take 4 := by
        rw [substr] at hsh
        split at hsh
        · cases hsh
        · exact (Out.ok.inj hsh).symm
      have := Entry.sig (cr := cr) (date := date) s (if isRevocationType s.type then ascii "revok" else if s.type = 0x18 then ascii "sbind" else ascii " sig ") id c x y hid ht
        (by congr 1; simp [isRevocationType, or_assoc])
      subst hsh'
      convert this using 1
      have h1 : ascii " " = [32] := by decide +kernel
      by_cases hc : c = 0 <;> by_cases hx : x = 0 <;> by_cases hy : y = 0 <;> simp [hc, hx, hy, padded, h1, List.replicate]
    | priv n x => simp [Body.tag] at hp; omega
    | _ => simp [Body.tag] at hp

/-! ## What goes wrong -/

/-- **Failure: one signature without an issuer.** A meaningful key with a signature (for instance a certification by a stranger) that does not name its issuer in a subpacket of
type 16 is not listed at all, and neither is one with a signature without a creation time. -/
theorem C63_issuer_fails (cr : Crypto) (hcr : cr.Ok) (date : Nat → Bytes) (k : KeyObj E) (hm : k.meaningful = .ok true) (indents size : Nat) (p : Pkt E) (hp : p ∈ k.packets) (s : Tag2 E)
    (hs : p.body = .sig s) (h4 : s.version = 4) (hi : (∀ x ∈ s.hashed ++ s.unhashed, x.body.type ≠ 16) ∨ ∀ x ∈ s.hashed, x.body.type ≠ 2) (t : Bytes) :
    listKeys cr date k indents size ≠ .ok t := by
  intro h
  have hl := (C63_iff cr hcr date k hm indents size).mp ⟨t, h⟩ p hp
  rw [hs] at hl
  obtain ⟨htime, id, hid, hlen⟩ := hl
  rcases hi with hi | hi
  · have none : ∀ l : List (Sub E), (∀ x ∈ l, x.body.type ≠ 16) → Tag2.firstIssuer l = none := by
      intro l
      induction l with
      | nil => intro _; rfl
      | cons x l ih =>
        intro hx
        have h1 := hx x (by simp)
        rw [Tag2.firstIssuer]
        split
        · rename_i hb
          rw [hb] at h1
          exact absurd rfl h1
        · exact ih fun y hy => hx y (by simp [hy])
    rw [Tag2.getKeyid, if_neg (by rw [h4]; decide), if_pos h4, none _ fun x hx => hi x (by simp [hx]), none _ fun x hx => hi x (by simp [hx])] at hid
    obtain rfl := Out.ok.inj hid
    exact absurd hlen (by simp)
  · rcases htime with h3 | ⟨-, h⟩
    · rw [h4] at h3
      exact absurd h3 (by decide)
    · have zero : ∀ (l : List (Sub E)) (t : Nat × Nat × Nat), (∀ x ∈ l, x.body.type ≠ 2) → (Tag2.timesLoop true l t).1 = t.1 := by
        intro l
        induction l with
        | nil => intro t _; rfl
        | cons x l ih =>
          intro t hx
          have h1 := hx x (by simp)
          rw [Tag2.timesLoop, List.foldl_cons, ← Tag2.timesLoop, ih _ fun y hy => hx y (by simp [hy])]
          revert h1
          cases x.body <;> simp [SubBody.type]
      exact h (zero _ _ hi)

/-- The same packets, except that the algorithms, the numbers and the check octets of signatures may be others. -/
def SameButProof (p q : Pkt E) : Prop :=
  p = q ∨ ∃ s s' : Tag2 E, p.body = .sig s ∧ q.body = .sig s' ∧ s' = { s with pka := s'.pka, hash := s'.hash, mpi := s'.mpi, left16 := s'.left16 }

/-- **Failure: nothing is checked.** Keys that differ only in what makes signatures good are listed alike: `revok` stands behind a key, user ID or subkey whoever wrote the
revocation. -/
theorem C63_unverified_fails (cr : Crypto) (date : Nat → Bytes) (k k' : KeyObj E) (hm : k.meaningful = .ok true) (hm' : k'.meaningful = .ok true)
    (h : List.Forall₂ SameButProof k.packets k'.packets) (indents size : Nat) : listKeys cr date k indents size = listKeys cr date k' indents size := by
  rw [listKeys, listKeys, hm, hm']
  simp only [Out.ok_bind, Bool.not_true, Bool.false_eq_true, if_false]
  generalize k.packets = ps at h
  generalize k'.packets = qs at h
  induction h with
  | nil => rfl
  | @cons p q ps qs hpq _ ih =>
    rw [listPackets, listPackets, ih]
    rcases hpq with rfl | ⟨s, s', hp, hq, he⟩
    · rfl
    · rw [hp, hq, he]
      rfl

/-- **Failure: user IDs can pass for others.** A list with two user IDs in a row can be had from one user ID with line feeds in it. -/
theorem C63_forged_fails (cr : Crypto) (date : Nat → Bytes) (indent a b : Bytes) (fmt : Fmt) (rest : List (Pkt E)) :
    ∃ u, listPackets cr date indent (⟨fmt, false, .userId u⟩ :: rest) = listPackets cr date indent (⟨fmt, false, .userId a⟩ :: ⟨fmt, false, .userId b⟩ :: rest) := by
  refine ⟨a ++ [10, 10] ++ indent ++ ascii "uid " ++ b, ?_⟩
  simp only [listPackets, listPacket, Out.ok_bind]
  cases listPackets cr date indent rest with
  | ok t => simp [Out.ok_bind]
  | _ => rfl

/-! ## Cleartext signatures -/

/-- **Failure: the last line of the message and the title of the signature are one line**, for a message of one line. -/
theorem C63_cleartext_fails (f : Pkt E → Out (List Act)) (hs : List (Bytes × Bytes)) (m : Bytes) (sig : PgpObj (Pkt E)) (h10 : (10 : UInt8) ∉ m) (h45 : m.head? ≠ some 45) (hne : m ≠ [])
    (t : Bytes) (h : showCleartext f ⟨hs, m, sig⟩ 0 4 = .ok t) : ∃ rest, t = ascii "Message:\n" ++ m ++ ascii "Signature:\n" ++ rest := by
  obtain ⟨s, -, h⟩ := Out.bind_eq_ok.mp h
  obtain rfl := Out.ok.inj h
  refine ⟨s.1, ?_⟩
  have hd : dashEscape m = m := by
    rw [dashEscape_eq, getlines_last h10 hne]
    simp [escapeLine, if_neg h45, joinLines]
  simp [hd]

/-! ## Examples -/

/-- A certification with a creation time and an issuer. -/
def c63Sig (t : UInt8) : Tag2 Empty := ⟨4, t, 1, 8, [5], [0, 0], 0, [], [⟨false, .sigTime 1500000000⟩], [⟨false, .issuer [1, 2, 3, 4, 5, 6, 7, 8]⟩]⟩

/-- A version 3 public key with a user ID, a certification and its revocation. -/
def c63Key (sig : UInt8 → Tag2 Empty) : KeyObj Empty :=
  ⟨.pub, [⟨.old, false, .publicKey ⟨3, 1500000000, 1, [0xffeeddccbbaa99887766, 17], 0⟩⟩, ⟨.new, false, .userId (ascii "Al")⟩, ⟨.new, false, .sig (sig 0x13)⟩, ⟨.new, false, .sig (sig 0x30)⟩]⟩

/-- It is meaningful and listed. -/
example : (c63Key c63Sig).meaningful = .ok true ∧ listKeys demoCrypto (fun _ => ascii "DATE") (c63Key c63Sig) 0 4 =
    .ok (ascii "pub    80R/99887766 DATE\n\nuid Al\nsig  sig   05060708 DATE                    \nsig revok  05060708 DATE                    \n") := by decide +kernel

/-- Without an issuer it is meaningful and not listed. -/
example : (c63Key c30Sig).meaningful = .ok true ∧ (∀ x ∈ (c30Sig 0x13).hashed ++ (c30Sig 0x13).unhashed, x.body.type ≠ 16) ∧
    listKeys demoCrypto (fun _ => []) (c63Key c30Sig) 0 4 = .throw := by decide +kernel

/-- A revocation by somebody else, with other numbers. -/
example : (c63Key fun t => { c63Sig t with mpi := [7] }).meaningful = .ok true ∧ List.Forall₂ SameButProof (c63Key c63Sig).packets (c63Key fun t => { c63Sig t with mpi := [7] }).packets :=
  ⟨by decide +kernel, .cons (.inl rfl) (.cons (.inl rfl) (.cons (.inr ⟨_, _, rfl, rfl, rfl⟩) (.cons (.inr ⟨_, _, rfl, rfl, rfl⟩) .nil)))⟩

/-- A cleartext signature that is shown. -/
example : showCleartext (fun _ : Pkt Empty => .ok []) ⟨[], ascii "hi", ⟨true, 5, [], []⟩⟩ 0 4 = .ok (ascii "Message:\nhiSignature:\n") := by decide +kernel

end OpenPGP

namespace OpenPGP.Cli
open OpenPGP Commands
variable {E : Type}

/-- `list KEY-FILE` prints the list of the key in the file. -/
theorem C63_list_command (e : Env E) (l : Line) (hl : l.fits [] []) (hd : [45, 45] ∉ l.verbatim.getD []) (name : Bytes) (hw : l.words.take 1 = [name]) (f : Bytes)
    (hf : e.files name = some f) (out : Bytes) :
    main (ordered e) (ascii "list" :: l.spell) = .ok ⟨0, out⟩ ↔ ∃ hs k, keyOf e.readE f = .ok (hs, k) ∧ listKeys e.cr e.date k 0 4 = .ok out := by
  obtain ⟨p, ht, hr⟩ := C56_command e (Commands.list e) (by simp [ordered]) l hl hd (show 1 ≤ _ from words_le hw rfl)
  have a0 : p.arg "key-file" = .ok name := arg_ok ((ht.word 0 (show 0 < 1 by decide)).trans (words_get hw 0 (by decide)))
  refine ((hr ⟨0, out⟩).trans ends_iff).trans ?_
  simp only [Commands.list, a0, Out.ok_bind, hf]
  rw [ends_bind]
  constructor
  · rintro ⟨⟨hs, k⟩, hk, h⟩
    obtain ⟨b, -, h⟩ := ends_bind.mp h
    obtain ⟨t, ht, h⟩ := ends_bind.mp h
    obtain ⟨c, -, h⟩ := h
    have : t = out := (congrArg Ran.out (Out.ok.inj h))
    exact ⟨hs, k, hk, this ▸ ht⟩
  · rintro ⟨hs, k, hk, ht⟩
    refine ⟨⟨hs, k⟩, hk, ends_bind.mpr ?_⟩
    have : ∃ b, k.meaningful = .ok b := by
      rw [listKeys] at ht
      obtain ⟨b, hb, -⟩ := Out.bind_eq_ok.mp ht
      exact ⟨b, hb⟩
    obtain ⟨b, hb⟩ := this
    exact ⟨b, hb, ends_bind.mpr ⟨out, ht, 0, by decide, rfl⟩⟩

/-- `show FILE` prints what the packets in the file show. -/
theorem C63_show_command (e : Env E) (l : Line) (hl : l.fits [] []) (hd : [45, 45] ∉ l.verbatim.getD []) (name : Bytes) (hw : l.words.take 1 = [name]) (f : Bytes)
    (hf : e.files name = some f) (out : Bytes) :
    main (ordered e) (ascii "show" :: l.spell) = .ok ⟨0, out⟩ ↔ ∃ o files, pgpRead (Pkt.parse e.readE) .fresh f = .ok o ∧ showText (showPkt e) o.packets 0 4 = .ok (out, files) := by
  obtain ⟨p, ht, hr⟩ := C56_command e (Commands.show e) (by simp [ordered]) l hl hd (show 1 ≤ _ from words_le hw rfl)
  have a0 : p.arg "file" = .ok name := arg_ok ((ht.word 0 (show 0 < 1 by decide)).trans (words_get hw 0 (by decide)))
  refine ((hr ⟨0, out⟩).trans ends_iff).trans ?_
  simp only [Commands.show, a0, Out.ok_bind, hf]
  rw [ends_bind]
  constructor
  · rintro ⟨o, ho, h⟩
    obtain ⟨⟨t, fs⟩, ht, c, -, h⟩ := ends_bind.mp h
    have : t = out := (congrArg Ran.out (Out.ok.inj h))
    exact ⟨o, fs, ho, this ▸ ht⟩
  · rintro ⟨o, fs, ho, ht⟩
    exact ⟨o, ho, ends_bind.mpr ⟨_, ht, 0, by decide, rfl⟩⟩

/-- The other commands report a file that cannot be opened and end with -1. -/
theorem C63_missing (e : Env E) (m : Module) (hm : m = Commands.list e ∨ m = Commands.show e) (l : Line) (hl : l.fits [] []) (hd : [45, 45] ∉ l.verbatim.getD [])
    (name : Bytes) (hw : l.words.take 1 = [name]) (hf : e.files name = none) : main (ordered e) (m.name :: l.spell) = .ok ⟨-1, []⟩ := by
  rcases hm with rfl | rfl
  · obtain ⟨p, ht, hr⟩ := C56_command e (Commands.list e) (by simp [ordered]) l hl hd (show 1 ≤ _ from words_le hw rfl)
    have a0 : p.arg "key-file" = .ok name := arg_ok ((ht.word 0 (show 0 < 1 by decide)).trans (words_get hw 0 (by decide)))
    refine (hr _).mpr ⟨-1, [], ?_, rfl⟩
    simp only [Commands.list, a0, Out.ok_bind, hf]
    rfl
  · obtain ⟨p, ht, hr⟩ := C56_command e (Commands.show e) (by simp [ordered]) l hl hd (show 1 ≤ _ from words_le hw rfl)
    have a0 : p.arg "file" = .ok name := arg_ok ((ht.word 0 (show 0 < 1 by decide)).trans (words_get hw 0 (by decide)))
    refine (hr _).mpr ⟨-1, [], ?_, rfl⟩
    simp only [Commands.show, a0, Out.ok_bind, hf]
    rfl

/-- **Failure: `show-cleartext-signature` of a file that cannot be opened** never ends as a command does, because the message about it asks for an argument under a wrong name. -/
theorem C63_missing_cleartext_fails (e : Env E) (l : Line) (hl : l.fits [] []) (hd : [45, 45] ∉ l.verbatim.getD []) (name : Bytes) (hw : l.words.take 1 = [name])
    (hf : e.files name = none) (r : Ran) : main (ordered e) (ascii "show-cleartext-signature" :: l.spell) ≠ .ok r := by
  have hm : showCleartextSignature e ∈ ordered e := by simp [ordered]
  obtain ⟨-, hn, hta⟩ := C56_table e
  obtain ⟨hc, hh⟩ := hta _ hm
  obtain ⟨p, h1, h2, -, -, h5, -⟩ := C55_reads (showCleartextSignature e) hc l hl hd (show 1 ≤ _ from words_le hw rfl)
  have hno : p.args (ascii "filename") = none := h5 _ (show _ ∉ [ascii "file"] by decide) (by simp [showCleartextSignature])
  have a0 : p.arg "file" = .ok name := arg_ok ((h2 0 (show 0 < 1 by decide)).trans (words_get hw 0 (by decide)))
  intro h
  rw [show ascii "show-cleartext-signature" = (showCleartextSignature e).name from rfl, C55_dispatch (ordered e) hn _ hm hh, Module.call, h1] at h
  obtain ⟨⟨c, o⟩, h, -⟩ := Out.bind_eq_ok.mp h
  simp only [showCleartextSignature, a0, Out.ok_bind, hf] at h
  obtain ⟨v, hv, -⟩ := Out.bind_eq_ok.mp h
  rw [Parsed.arg, hno] at hv
  exact absurd hv (by simp)

end OpenPGP.Cli
