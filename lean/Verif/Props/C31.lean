import Verif.Props.C30
import Verif.Props.C12

/-!
# C31: exporting the public key drops every secret and keeps the identity
-/
namespace OpenPGP
open Rfc KeyObj

/-- A key packet (of version 2, 3 or 4) with the fields its octets can carry: the MPIs of its algorithm, each of at most 65528
bits, and a 32-bit time. Nothing is asked of the expiry of versions 2 and 3. -/
def KeyPkt.Sound (k : KeyPkt) : Prop :=
  k.wfV4 ∨ (k.version < 4 ∧ k.mpi.length = 2 ∧ k.time < 2 ^ 32 ∧ ∀ a ∈ k.mpi, bitsize a ≤ 65528)

/-- A secret key packet that can be written: its key fields are sound, and if the usage octet announces an S2K specifier there
is one. IV, specifier and secret octets are arbitrary. -/
def Tag5.Sound (t : Tag5) : Prop := t.key.Sound ∧ (Tag5.hasS2K t.s2kCon = true → t.s2k ≠ none)

/-- The same public key: all fields agree, the expiry of old keys excepted. -/
def KeyPkt.SamePublic (k k' : KeyPkt) : Prop :=
  k'.version = k.version ∧ k'.time = k.time ∧ k'.pka = k.pka ∧ k'.mpi = k.mpi ∧ (k.version = 4 → k' = k)

theorem KeyPkt.SamePublic.identity {k k' : KeyPkt} (h : k.SamePublic k') (cr : Crypto) :
    k'.fingerprint cr = k.fingerprint cr ∧ k'.keyid cr = k.keyid cr := by
  obtain ⟨h1, h2, h3, h4, h5⟩ := h
  by_cases hv : k.version = 4
  · rw [h5 hv]; exact ⟨rfl, rfl⟩
  · constructor
    · rw [KeyPkt.fingerprint, KeyPkt.fingerprint, h1, h4]
      simp only [if_neg hv]
    · rw [KeyPkt.keyid, KeyPkt.keyid, h1, h4]
      simp only [if_neg hv]

/-- What `get_public_ptr` makes of the key fields. -/
def KeyPkt.reread (k : KeyPkt) : KeyPkt :=
  if k.version < 4 then { k with expire := KeyPkt.expireOf (UInt8.ofNat (k.expire / 256)) (UInt8.ofNat k.expire) } else k

theorem KeyPkt.samePublic_reread (k : KeyPkt) : k.SamePublic k.reread := by
  rw [KeyPkt.reread]
  split
  · rename_i h
    exact ⟨rfl, rfl, rfl, rfl, fun h4 => absurd h (by rw [h4]; decide)⟩
  · exact ⟨rfl, rfl, rfl, rfl, fun _ => rfl⟩

theorem Tag5.raw_of_sound {t : Tag5} (h : t.Sound) : ∃ rest, t.raw = .ok (t.key.rawCommon ++ rest) := by
  have : ∃ mid, protectionOctets t = .ok mid := by
    rw [protectionOctets]
    split
    · rename_i hs
      cases he : t.s2k with
      | none => exact absurd he (h.2 hs)
      | some s => exact ⟨_, rfl⟩
    · exact ⟨_, rfl⟩
  obtain ⟨mid, hm⟩ := this
  refine ⟨[t.s2kCon] ++ mid ++ (if t.s2kCon ≠ 0 then t.iv else []) ++ t.secret, ?_⟩
  rw [raw, hm, Out.ok_bind]; simp

/-- The public packet has the key fields of the secret one, whatever its secret part. -/
theorem Tag5.getPublic_eq {t : Tag5} (h : t.Sound) : t.getPublic = .ok t.key.reread := by
  obtain ⟨rest, hr⟩ := raw_of_sound h
  have hne : (t.key.rawCommon ++ rest).length ≠ 0 := by
    have := KeyPkt.rawCommon_ne_nil t.key
    rw [List.length_append]; omega
  rw [getPublic, hr, Out.ok_bind, KeyPkt.readAt, tagRead, if_neg hne]
  have hd : (t.key.rawCommon ++ rest).drop 0 = t.key.rawCommon ++ rest := rfl
  rcases h.1 with hk | ⟨h1, h2, h3, h4⟩
  · rw [KeyPkt.readCommon_v4 t.key hk hd, KeyPkt.reread, if_neg (by rw [hk.1]; decide)]
    simp
  · rw [KeyPkt.readCommon_old t.key h1 h2 h3 h4 hd, KeyPkt.reread, if_pos h1]
    simp

section
variable {E : Type}

/-- The packet `q` of the public key that stands for the packet `p` of the secret key. -/
inductive PublicOf : Pkt E → Pkt E → Prop
  | primary {f g : Fmt} {a b : Bool} {t : Tag5} {k : KeyPkt} (h : t.key.SamePublic k) :
      PublicOf ⟨f, a, .secretKey t⟩ ⟨g, b, .publicKey k⟩
  | subkey {f g : Fmt} {a b : Bool} {t : Tag5} {k : KeyPkt} (h : t.key.SamePublic k) :
      PublicOf ⟨f, a, .secretSubkey t⟩ ⟨g, b, .publicSubkey k⟩
  | copy {p : Pkt E} (h : p.body.secretPart = none) : PublicOf p p

/-- Every secret key packet of the key is sound. -/
def KeyObj.Sound (k : KeyObj E) : Prop := ∀ p ∈ k.packets, ∀ t, p.body.secretPart = some t → t.Sound

/-- The packet made by the conversion. -/
def publicPkt (p : Pkt E) : Pkt E :=
  match p.body with
  | .secretKey t => ⟨.new, false, .publicKey t.key.reread⟩
  | .secretSubkey t => ⟨.new, false, .publicSubkey t.key.reread⟩
  | _ => p

theorem publicPacket_eq (p : Pkt E) (h : ∀ t, p.body.secretPart = some t → t.Sound) : publicPacket p = .ok (publicPkt p) := by
  obtain ⟨f, a, b⟩ := p
  cases b <;> first
    | rfl
    | (rw [publicPacket]; simp only [Tag5.getPublic_eq (h _ rfl), publicPkt]; rfl)

theorem publicPackets_eq (l : List (Pkt E)) (h : ∀ p ∈ l, ∀ t, p.body.secretPart = some t → t.Sound) :
    publicPackets l = .ok (l.map publicPkt) := by
  induction l with
  | nil => rfl
  | cons p l ih =>
    rw [publicPackets, publicPacket_eq p (h p (by simp)), Out.ok_bind, ih fun q hq => h q (by simp [hq]), Out.ok_bind]
    rfl

theorem getPublic_eq (k : KeyObj E) (h : k.Sound) : k.getPublic = .ok ⟨.pub, k.packets.map publicPkt⟩ := by
  rw [KeyObj.getPublic, publicPackets_eq _ h]; rfl

theorem publicOf_publicPkt (p : Pkt E) : PublicOf p (publicPkt p) := by
  obtain ⟨f, a, b⟩ := p
  cases b <;> first
    | exact .primary (KeyPkt.samePublic_reread _)
    | exact .subkey (KeyPkt.samePublic_reread _)
    | exact .copy rfl

/-- The export succeeds; each packet of the public key stands for the packet at the same place of the secret key: a public
packet with the same version, time, algorithm and numbers for a secret one, the packet itself for every other one. -/
theorem C31_packets (k : KeyObj E) (h : k.Sound) :
    ∃ pub, k.getPublic = .ok pub ∧ pub.kind = .pub ∧ List.Forall₂ PublicOf k.packets pub.packets := by
  refine ⟨_, getPublic_eq k h, rfl, ?_⟩
  dsimp only
  induction k.packets with
  | nil => exact .nil
  | cons p l ih => exact .cons (publicOf_publicPkt p) ih

theorem publicPacket_noSecret {p q : Pkt E} (h : publicPacket p = .ok q) : q.body.secretPart = none := by
  obtain ⟨f, a, b⟩ := p
  cases b <;> rw [publicPacket] at h
  case secretKey t =>
    obtain ⟨k, -, h⟩ := Out.bind_eq_ok.mp h
    obtain rfl := Out.ok.inj h; rfl
  case secretSubkey t =>
    obtain ⟨k, -, h⟩ := Out.bind_eq_ok.mp h
    obtain rfl := Out.ok.inj h; rfl
  all_goals (obtain rfl := Out.ok.inj h; rfl)

/-- Whatever the secret key contains, even unsound packets: a public key that comes out has no secret key packet. -/
theorem C31_no_secret_packets (k pub : KeyObj E) (h : k.getPublic = .ok pub) :
    pub.kind = .pub ∧ ∀ p ∈ pub.packets, p.body.tag ≠ 5 ∧ p.body.tag ≠ 7 := by
  obtain ⟨ps, h1, h2⟩ := Out.bind_eq_ok.mp h
  obtain rfl := Out.ok.inj h2
  refine ⟨rfl, ?_⟩
  have key : ∀ l ps : List (Pkt E), publicPackets l = .ok ps → ∀ p ∈ ps, p.body.secretPart = none := by
    intro l
    induction l with
    | nil => intro ps h p hp; obtain rfl := Out.ok.inj h; simp at hp
    | cons a l ih =>
      intro ps h p hp
      obtain ⟨q, hq, h⟩ := Out.bind_eq_ok.mp h
      obtain ⟨qs, hqs, h⟩ := Out.bind_eq_ok.mp h
      obtain rfl := Out.ok.inj h
      rcases List.mem_cons.mp hp with rfl | hp
      · exact publicPacket_noSecret hq
      · exact ih qs hqs p hp
  intro p hp
  have := key _ _ h1 p hp
  obtain ⟨f, a, b⟩ := p
  cases b <;> first
    | (exfalso; simp [Body.secretPart] at this; done)
    | (simp only [Body.tag]; omega)

/-- User IDs, attributes, signatures and all other packets that are not secret keys: the same ones in the same order. -/
theorem C31_others_kept (k : KeyObj E) (h : k.Sound) :
    ∃ pub, k.getPublic = .ok pub ∧ pub.packets.length = k.packets.length ∧
      pub.packets.filter (fun p => p.body.keyPart.isNone) = k.packets.filter (fun p => p.body.keyPart.isNone) := by
  refine ⟨_, getPublic_eq k h, by simp, ?_⟩
  rw [List.filter_map]
  have e : ((fun p : Pkt E => p.body.keyPart.isNone) ∘ publicPkt) = fun p : Pkt E => p.body.keyPart.isNone := by
    funext p
    obtain ⟨f, a, b⟩ := p
    cases b <;> rfl
  rw [e]
  have : ∀ l : List (Pkt E), (∀ p ∈ l, publicPkt p = p) → l.map publicPkt = l := by
    intro l hl
    conv_rhs => rw [← List.map_id l]
    exact List.map_congr_left hl
  apply this
  intro p hp
  have hp := (List.mem_filter.mp hp).2
  obtain ⟨f, a, b⟩ := p
  cases b <;> first
    | rfl
    | (exfalso; simp [Body.keyPart] at hp)

/-- Every key packet keeps its fingerprint and key ID. -/
theorem C31_identity (cr : Crypto) (k : KeyObj E) (h : k.Sound) :
    ∃ pub, k.getPublic = .ok pub ∧
      pub.packets.map (fun p => p.body.keyPart.map (·.fingerprint cr)) =
        k.packets.map (fun p => p.body.keyPart.map (·.fingerprint cr)) ∧
      pub.packets.map (fun p => p.body.keyPart.map (·.keyid cr)) = k.packets.map (fun p => p.body.keyPart.map (·.keyid cr)) := by
  refine ⟨_, getPublic_eq k h, ?_, ?_⟩
  · rw [List.map_map]
    apply List.map_congr_left
    intro p _
    obtain ⟨f, a, b⟩ := p
    cases b <;> first | rfl | exact congrArg some ((KeyPkt.samePublic_reread _).identity cr).1
  · rw [List.map_map]
    apply List.map_congr_left
    intro p _
    obtain ⟨f, a, b⟩ := p
    cases b <;> first | rfl | exact congrArg some ((KeyPkt.samePublic_reread _).identity cr).2

/-- The same packet but for the secret part: usage octet, cipher, specifier, IV and secret octets may differ. -/
inductive SameButSecret : Pkt E → Pkt E → Prop
  | primary {f g : Fmt} {a b : Bool} {t t' : Tag5} (h : t.key = t'.key) : SameButSecret ⟨f, a, .secretKey t⟩ ⟨g, b, .secretKey t'⟩
  | subkey {f g : Fmt} {a b : Bool} {t t' : Tag5} (h : t.key = t'.key) :
      SameButSecret ⟨f, a, .secretSubkey t⟩ ⟨g, b, .secretSubkey t'⟩
  | same (p : Pkt E) : SameButSecret p p

/-- Nothing of the secrets reaches the public key: two secret keys that differ only in the secret parts of their packets give
the same public key (so also the same octets). -/
theorem C31_secrets_do_not_matter (k k' : KeyObj E) (h : k.Sound) (h' : k'.Sound)
    (hs : List.Forall₂ SameButSecret k.packets k'.packets) : k.getPublic = k'.getPublic := by
  rw [getPublic_eq k h, getPublic_eq k' h']
  congr 2
  clear h h'
  generalize k.packets = l at hs
  generalize k'.packets = l' at hs
  induction hs with
  | nil => rfl
  | cons hd _ ih =>
    rw [List.map_cons, List.map_cons, ih]
    congr 1
    cases hd with
    | primary h => simp [publicPkt, h]
    | subkey h => simp [publicPkt, h]
    | same => rfl

/-- The body of the public packet. -/
def publicBody : Body E → Body E
  | .secretKey t => .publicKey t.key.reread
  | .secretSubkey t => .publicSubkey t.key.reread
  | b => b

theorem map_publicBody (l : List (Pkt E)) : (l.map publicPkt).map (·.body) = (l.map (·.body)).map publicBody := by
  rw [List.map_map, List.map_map]
  apply List.map_congr_left
  intro p _
  obtain ⟨f, a, b⟩ := p
  cases b <;> rfl

theorem sigOf_publicBody {P : UInt8 → Prop} {b : Body E} (h : SigOf P b) : SigOf P (publicBody b) := by
  obtain ⟨s, rfl, hs⟩ := h
  exact ⟨s, rfl, hs⟩

/-- The public key exported from a well-formed secret key is a well-formed public key. -/
theorem C31_meaningful (k : KeyObj E) (h : k.Sound) (hk : k.kind = .sec) (hm : k.meaningful = .ok true) :
    ∃ pub, k.getPublic = .ok pub ∧ pub.meaningful = .ok true := by
  refine ⟨_, getPublic_eq k h, ?_⟩
  rw [KeyObj.meaningful, hk, C30_meaningful_iff .sec 5 7 rfl] at hm
  rw [KeyObj.meaningful, C30_meaningful_iff .pub 6 14 rfl, map_publicBody]
  obtain ⟨p, revs, users, gs, e, hp, hrev, hu, ⟨g0, hg0, hid⟩, hg, hv⟩ := hm
  obtain ⟨kp, -, hk2⟩ := keyPart_of_tag (Or.inl rfl) hp
  obtain ⟨t, rfl, rfl⟩ : ∃ t, p = .secretKey t ∧ t.key = kp := by
    rcases hk2 with rfl | h2
    · exact absurd hp (by simp [Body.tag])
    · exact h2
  refine ⟨publicBody (.secretKey t), revs.map publicBody, users.map (·.map publicBody), gs.map (·.map publicBody), ?_, rfl, ?_,
    ?_, ?_, ?_, ?_⟩
  · rw [e]; simp [List.map_flatten]
  · intro r hr
    obtain ⟨r, hr', rfl⟩ := List.mem_map.mp hr
    exact sigOf_publicBody (hrev r hr')
  · intro g hg'
    obtain ⟨g, hg1, rfl⟩ := List.mem_map.mp hg'
    rcases hu g hg1 with ⟨u, sigs, h1⟩ | ⟨u, sigs, h1⟩
    · refine .id u (sigs.map publicBody) ?_
      intro s hs
      obtain ⟨s, hs1, rfl⟩ := List.mem_map.mp hs
      exact (h1 s hs1).imp sigOf_publicBody sigOf_publicBody
    · refine .attribute u (sigs.map publicBody) ?_
      intro s hs
      obtain ⟨s, hs1, rfl⟩ := List.mem_map.mp hs
      exact sigOf_publicBody (h1 s hs1)
  · obtain ⟨u, sigs, rfl⟩ := hid
    exact ⟨_, List.mem_map.mpr ⟨_, hg0, rfl⟩, u, sigs.map publicBody, rfl⟩
  · intro g hg'
    obtain ⟨g, hg1, rfl⟩ := List.mem_map.mp hg'
    obtain ⟨b, sigs, rfl, hb, h1, s, hs, h2⟩ := hg g hg1
    refine ⟨publicBody b, sigs.map publicBody, rfl, ?_, ?_, publicBody s, List.mem_map.mpr ⟨s, hs, rfl⟩, sigOf_publicBody h2⟩
    · cases b <;> first
        | rfl
        | (exfalso; simp [Body.tag] at hb; done)
        | (exfalso; simp only [Body.tag] at hb; omega)
    · intro s hs
      obtain ⟨s, hs1, rfl⟩ := List.mem_map.mp hs
      exact sigOf_publicBody (h1 s hs1)
  · intro hne k' hk'
    obtain rfl : k' = t.key.reread := by
      rcases hk' with e | ⟨t', e, -⟩
      · exact (Body.publicKey.inj e).symm
      · simp [publicBody] at e
    have := hv (by simpa using hne) t.key (Or.inr ⟨t, rfl, rfl⟩)
    rw [(KeyPkt.samePublic_reread t.key).1]
    exact this

end

theorem readMPIs_length (data : Bytes) (n : Nat) : ∀ (pos : Nat) (l : List Nat) (p : Nat), readMPIs data n pos = .ok (l, p) →
    l.length = n := by
  induction n with
  | zero => intro pos l p h; obtain ⟨rfl, -⟩ := Prod.mk.inj (Out.ok.inj h); rfl
  | succ n ih =>
    intro pos l p h
    obtain ⟨⟨a, p1⟩, -, h⟩ := Out.bind_eq_ok.mp h
    obtain ⟨⟨l1, p2⟩, h1, h⟩ := Out.bind_eq_ok.mp h
    obtain ⟨rfl, -⟩ := Prod.mk.inj (Out.ok.inj h)
    rw [List.length_cons, ih _ _ _ h1]

/-- The hypothesis is met by everything the parser makes of versions up to 4, if no number in it has more than 65528 bits. -/
theorem C31_parsed_sound (span : Span) (t : Tag5) (h : Tag5.readAt span = .ok t) (hl : span.length ≠ 0) (hv : t.key.version ≤ 4)
    (hb : ∀ a ∈ t.key.mpi, bitsize a ≤ 65528) : t.Sound := by
  rw [Tag5.readAt, tagRead, if_neg hl] at h
  obtain ⟨⟨t', p⟩, h1, h⟩ := Out.bind_eq_ok.mp h
  dsimp only at h
  have : t' = t := by
    split at h
    · exact absurd h (by simp)
    · exact Out.ok.inj h
  subst this
  obtain ⟨⟨k, p1⟩, hk, h1⟩ := Out.bind_eq_ok.mp h1
  obtain ⟨con, -, h1⟩ := Out.bind_eq_ok.mp h1
  obtain ⟨⟨sym, s2k, p2⟩, hp, h1⟩ := Out.bind_eq_ok.mp h1
  obtain ⟨iv, -, h1⟩ := Out.bind_eq_ok.mp h1
  obtain ⟨sec, -, h1⟩ := Out.bind_eq_ok.mp h1
  obtain ⟨rfl, -⟩ := Prod.mk.inj (Out.ok.inj h1)
  constructor
  · obtain ⟨v, -, hk⟩ := Out.bind_eq_ok.mp hk
    obtain ⟨ti, -, hk⟩ := Out.bind_eq_ok.mp hk
    dsimp only at hk
    have ht : toint256 ti % 2 ^ 32 < 2 ^ 32 := Nat.mod_lt _ (by decide)
    split at hk
    · rename_i hv3
      obtain ⟨a, -, hk⟩ := Out.bind_eq_ok.mp hk
      obtain ⟨b, -, hk⟩ := Out.bind_eq_ok.mp hk
      obtain ⟨pka, -, hk⟩ := Out.bind_eq_ok.mp hk
      obtain ⟨⟨mpi, p3⟩, hm, hk⟩ := Out.bind_eq_ok.mp hk
      obtain ⟨rfl, -⟩ := Prod.mk.inj (Out.ok.inj hk)
      exact Or.inr ⟨hv3, readMPIs_length _ _ _ _ _ hm, ht, hb⟩
    · split at hk
      · rename_i hv4
        obtain ⟨pka, -, hk⟩ := Out.bind_eq_ok.mp hk
        cases hc : KeyPkt.mpiCount pka with
        | none => rw [hc] at hk; exact absurd hk (by simp)
        | some n =>
          rw [hc] at hk
          obtain ⟨⟨mpi, p3⟩, hm, hk⟩ := Out.bind_eq_ok.mp hk
          obtain ⟨rfl, -⟩ := Prod.mk.inj (Out.ok.inj hk)
          refine Or.inl ⟨hv4, ?_, ht, hb, rfl⟩
          rw [readMPIs_length _ _ _ _ _ hm]
          exact hc
      · rename_i h3 h4
        obtain ⟨rfl, -⟩ := Prod.mk.inj (Out.ok.inj hk)
        exfalso
        have hv : v.toNat ≤ 4 := UInt8.le_iff_toNat_le.mp hv
        have h3 : ¬ v.toNat < 4 := fun h => h3 (UInt8.lt_iff_toNat_lt.mpr h)
        exact h4 (UInt8.toNat_inj.mp (by change v.toNat = 4; omega))
  · intro hs
    rw [Tag5.readProtection] at hp
    simp only at hs
    rw [if_pos hs] at hp
    obtain ⟨sy, -, hp⟩ := Out.bind_eq_ok.mp hp
    obtain ⟨⟨s, p3⟩, -, hp⟩ := Out.bind_eq_ok.mp hp
    obtain ⟨-, hp⟩ := Prod.mk.inj (Out.ok.inj hp)
    obtain ⟨rfl, -⟩ := Prod.mk.inj hp
    simp

/-- A secret key with a user ID, a certification and a bound subkey. -/
def c31Key : KeyObj Empty :=
  ⟨.sec, [⟨.old, false, .secretKey c12Key⟩, ⟨.new, false, .userId [97]⟩, ⟨.new, false, .sig (c30Sig 0x13)⟩,
    ⟨.new, false, .secretSubkey c12Key⟩, ⟨.new, false, .sig (c30Sig 0x18)⟩]⟩

theorem c31Key_sound : c31Key.Sound := by
  have h : c12Key.Sound := ⟨Or.inl ⟨rfl, by decide, by decide, by decide, rfl⟩, by decide⟩
  intro p hp t ht
  simp only [c31Key, List.mem_cons, List.not_mem_nil, or_false] at hp
  rcases hp with rfl | rfl | rfl | rfl | rfl <;> simp [Body.secretPart] at ht <;> subst ht <;> exact h

example : c31Key.Sound ∧ c31Key.kind = .sec ∧ c31Key.meaningful = .ok true := ⟨c31Key_sound, rfl, by decide +kernel⟩
example : List.Forall₂ SameButSecret c31Key.packets
    [⟨.old, false, .secretKey { c12Key with secret := [], iv := [] }⟩, ⟨.new, false, .userId [97]⟩, ⟨.new, false, .sig (c30Sig 0x13)⟩,
    ⟨.new, false, .secretSubkey { c12Key with secret := [9] }⟩, ⟨.new, false, .sig (c30Sig 0x18)⟩] := by
  exact .cons (.primary rfl) (.cons (.same _) (.cons (.same _) (.cons (.subkey rfl) (.cons (.same _) .nil))))

end OpenPGP
