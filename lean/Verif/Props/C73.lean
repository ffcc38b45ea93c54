import Verif.Model.Classes
import Verif.Spec.Classes
import Verif.Props.C29
import Verif.Props.C30
import Verif.Props.CliDemo

/-!
# C73: what the constructors accept

An object of a class can be made from octets exactly when they hold what the class is for.
-/
namespace OpenPGP
open Cli
open Rfc
variable {E : Type}

/-- The packets of a key have two packets at least. -/
theorem transferable_length {strict : Bool} {key subkey : Nat} {l : List (Body E)} (h : TransferableKey strict key subkey l) :
    ∃ p q r, l = p :: q :: r ∧ p.tag = key := by
  obtain ⟨p, revs, users, subs, rfl, hp, -, hu, ⟨g, hg, u, sigs, rfl⟩, -, -⟩ := h
  have hne : (revs ++ users.flatten ++ subs.flatten) ≠ [] := by
    intro he
    have : (Body.userId u : Body E) ∈ revs ++ users.flatten ++ subs.flatten := by
      simp only [List.mem_append, List.mem_flatten]
      exact Or.inl (Or.inr ⟨_, hg, by simp⟩)
    rw [he] at this
    cases this
  obtain ⟨q, r, hqr⟩ := List.exists_cons_of_ne_nil hne
  exact ⟨p, q, r, by rw [hqr], hp⟩

/-- A key can be made from octets exactly when they are armored as a key of its kind, or not armored, and the packets are laid out as RFC 4880 wants it for
a key of this kind; the key then has these packets and armor headers. -/
theorem C73_key_iff (readE : Bytes → Out E) (data : Bytes) (hs : List (Bytes × Bytes)) (k : KeyObj E) :
    keyOf readE data = .ok (hs, k) ↔ ∃ o, pgpRead (Pkt.parse readE) .fresh data = .ok o ∧ hs = o.keys ∧ k.packets = o.packets ∧
      ((k.kind = .pub ∧ (o.type = 2 ∨ o.type = 0) ∧ TransferableKey false 6 14 (o.packets.map (·.body))) ∨
       (k.kind = .sec ∧ (o.type = 3 ∨ o.type = 0) ∧ TransferableKey false 5 7 (o.packets.map (·.body)))) := by
  have hpub := fun l => C30_meaningful_iff (E := E) .pub 6 14 rfl l
  have hsec := fun l => C30_meaningful_iff (E := E) .sec 5 7 rfl l
  constructor
  · intro h
    rw [keyOf] at h
    obtain ⟨o, h1, h⟩ := Out.bind_eq_ok.mp h
    obtain ⟨kind, h2, h⟩ := Out.bind_eq_ok.mp h
    obtain ⟨good, h3, h⟩ := Out.bind_eq_ok.mp h
    cases good with
    | false => simp at h
    | true =>
      simp only [Bool.not_true, Bool.false_eq_true, if_false, Out.pure_eq, Out.ok.injEq, Prod.mk.injEq] at h
      obtain ⟨rfl, rfl⟩ := h
      refine ⟨o, h1, rfl, rfl, ?_⟩
      simp only [KeyObj.meaningful] at h3
      by_cases h0 : o.type = 0
      · rw [if_pos h0] at h2
        split at h2
        · cases h2
        · split at h2
          · rename_i p ps hp
            split at h2
            · cases h2
              exact Or.inl ⟨rfl, Or.inr h0, (hpub _).mp h3⟩
            · split at h2
              · cases h2
                exact Or.inr ⟨rfl, Or.inr h0, (hsec _).mp h3⟩
              · cases h2
          · cases h2
      · rw [if_neg h0] at h2
        split at h2
        · cases h2
          exact Or.inl ⟨rfl, Or.inl ‹_›, (hpub _).mp h3⟩
        · split at h2
          · cases h2
            exact Or.inr ⟨rfl, Or.inl ‹_›, (hsec _).mp h3⟩
          · cases h2
            rw [C30_other_types] at h3
            cases h3
  · rintro ⟨o, h1, rfl, hp, hk⟩
    obtain ⟨kind, packets⟩ := k
    simp only at hp hk
    subst hp
    rw [keyOf, h1, Out.ok_bind]
    rcases hk with ⟨rfl, ht, hl⟩ | ⟨rfl, ht, hl⟩
    · refine Out.bind_eq_ok.mpr ⟨.pub, ?_, ?_⟩
      · rcases ht with ht | ht
        · rw [if_neg (by omega), if_pos ht]
        · obtain ⟨p, q, r, he, hp⟩ := transferable_length hl
          rw [if_pos ht]
          rcases hps : o.packets with _ | ⟨x, _ | ⟨y, ps⟩⟩
          · rw [hps] at he; simp at he
          · rw [hps] at he; simp at he
          · rw [hps] at he
            simp only [List.map_cons, List.cons.injEq] at he
            rw [if_neg (by simp)]
            simp only
            rw [he.1, if_pos hp]
      · have hm : (⟨.pub, o.packets⟩ : KeyObj E).meaningful = .ok true := (hpub _).mpr hl
        rw [hm, Out.ok_bind]
        rfl
    · refine Out.bind_eq_ok.mpr ⟨.sec, ?_, ?_⟩
      · rcases ht with ht | ht
        · rw [if_neg (by omega), if_neg (by omega), if_pos ht]
        · obtain ⟨p, q, r, he, hp⟩ := transferable_length hl
          rw [if_pos ht]
          rcases hps : o.packets with _ | ⟨x, _ | ⟨y, ps⟩⟩
          · rw [hps] at he; simp at he
          · rw [hps] at he; simp at he
          · rw [hps] at he
            simp only [List.map_cons, List.cons.injEq] at he
            rw [if_neg (by simp)]
            simp only
            rw [he.1, if_neg (by omega), if_pos hp]
      · have hm : (⟨.sec, o.packets⟩ : KeyObj E).meaningful = .ok true := (hsec _).mpr hl
        rw [hm, Out.ok_bind]
        rfl

/-- The class of the object is not looked at: whatever is a secret key makes a `PublicKey` object that has the secret packets, and which is written out with
them and with the header of a secret key. Only a later `meaningful` says no. -/
theorem C73_public_fails (readE : Bytes → Out E) (rawE : E → Bytes) (data : Bytes) (hs : List (Bytes × Bytes)) (k : KeyObj E) (mode : ArmorMode)
    (h : secretKeyOf readE data = .ok (hs, k)) (hk : k.kind = .sec) :
    publicKeyOf readE data = .ok (hs, k) ∧ (∃ p ∈ k.packets, ∃ t, p.body = .secretKey t) ∧ publicMeaningful k = .ok false ∧
      writeKey rawE hs k mode = writeObj rawE ⟨true, 3, hs, k.packets⟩ mode := by
  refine ⟨h, ?_, ?_, ?_⟩
  · obtain ⟨o, -, -, hp, h | ⟨-, -, hl⟩⟩ := (C73_key_iff readE data hs k).mp h
    · rw [hk] at h; exact absurd h.1 (by decide)
    · obtain ⟨b, q, r, he, ht⟩ := transferable_length hl
      rcases hps : o.packets with _ | ⟨x, ps⟩
      · rw [hps] at he; simp at he
      · rw [hps] at he
        simp only [List.map_cons, List.cons.injEq] at he
        refine ⟨x, by rw [hp, hps]; simp, ?_⟩
        rw [← he.1] at ht
        cases hb : x.body <;> rw [hb] at ht <;> simp [Body.tag] at ht
        · exact ⟨_, rfl⟩
        · omega
  · rw [publicMeaningful, if_pos (by rw [hk]; decide)]
  · rw [writeKey, hk]; rfl

/-- A public key makes a `SecretKey` object as well. -/
theorem C73_secret_fails (readE : Bytes → Out E) (data : Bytes) (hs : List (Bytes × Bytes)) (k : KeyObj E)
    (h : publicKeyOf readE data = .ok (hs, k)) (hk : k.kind = .pub) :
    secretKeyOf readE data = .ok (hs, k) ∧ secretMeaningful k = .ok false := by
  refine ⟨h, ?_⟩
  rw [secretMeaningful, if_pos (by rw [hk]; decide)]

/-- With objects of the right kind, `meaningful` of the classes is the layout of RFC 4880, and nothing else. -/
theorem C73_meaningful_iff (k : KeyObj E) :
    (publicMeaningful k = .ok true ↔ k.kind = .pub ∧ TransferableKey false 6 14 (k.packets.map (·.body))) ∧
    (secretMeaningful k = .ok true ↔ k.kind = .sec ∧ TransferableKey false 5 7 (k.packets.map (·.body))) := by
  obtain ⟨kind, ps⟩ := k
  constructor
  · rw [publicMeaningful, ← C30_meaningful_iff .pub 6 14 rfl]
    cases kind <;> simp [KeyObj.meaningful]
  · rw [secretMeaningful, ← C30_meaningful_iff .sec 5 7 rfl]
    cases kind <;> simp [KeyObj.meaningful]

/-! ## Messages -/

/-- What `readLoop` returns is what is behind the layers. -/
theorem readLoop_unwraps (z : Zip) (readE : Bytes → Out E) (depth : Nat) : ∀ comp data m, Msg.readLoop z readE depth comp data = .ok m →
    ∃ ps, readRaw (Pkt.parse readE) data = .ok ps ∧
      Unwraps (fun d ps => readRaw (Pkt.parse readE) d = .ok ps) (fun alg d x => decompress z alg d = .ok x) comp ps m.comp m.packets := by
  induction depth with
  | zero => intro comp data m h; simp [Msg.readLoop] at h
  | succ depth ih =>
    intro comp data m h
    rw [Msg.readLoop] at h
    obtain ⟨ps, h1, h⟩ := Out.bind_eq_ok.mp h
    obtain ⟨good, h2, h⟩ := Out.bind_eq_ok.mp h
    refine ⟨ps, h1, ?_⟩
    cases good with
    | false => simp at h
    | true =>
      simp only [Bool.not_true, Bool.false_eq_true, if_false] at h
      split at h
      · rename_i fmt part alg d
        obtain ⟨x, h3, h⟩ := Out.bind_eq_ok.mp h
        obtain ⟨inner, h4, h5⟩ := ih _ _ _ h
        exact .layer _ _ _ _ _ _ _ _ _ h3 h4 h5
      · rename_i hne
        cases h
        exact .plain _ _ ((C29_meaningful_iff _).mp h2) (by rintro ⟨fmt, part, alg, d, rfl⟩; exact hne _ _ _ _ rfl)

theorem unwraps_readLoop (z : Zip) (readE : Bytes → Out E) {comp comp' : Option (Fmt × Bool × UInt8)} {ps ps' : List (Pkt E)}
    (h : Unwraps (fun d ps => readRaw (Pkt.parse readE) d = .ok ps) (fun alg d x => decompress z alg d = .ok x) comp ps comp' ps') :
    ∃ depth, ∀ data, readRaw (Pkt.parse readE) data = .ok ps → Msg.readLoop z readE depth comp data = .ok ⟨comp', ps'⟩ := by
  induction h with
  | plain comp ps hm hp =>
    refine ⟨1, fun data hd => ?_⟩
    rw [Msg.readLoop, hd, Out.ok_bind, (C29_meaningful_iff _).mpr hm, Out.ok_bind]
    simp only [Bool.not_true, Bool.false_eq_true, if_false]
    split
    · exact absurd ⟨_, _, _, _, rfl⟩ hp
    · rfl
  | layer comp comp' fmt part alg d x inner ps h1 h2 h3 ih =>
    obtain ⟨depth, ih⟩ := ih
    refine ⟨depth + 1, fun data hd => ?_⟩
    rw [Msg.readLoop, hd, Out.ok_bind]
    have hm : messageMeaningful (([⟨fmt, part, .compressed alg d⟩] : List (Pkt E)).map (·.body.tag)) = .ok true := by
      change messageMeaningful [8] = .ok true; decide +kernel
    rw [hm, Out.ok_bind]
    simp only [Bool.not_true, Bool.false_eq_true, if_false]
    rw [h1, Out.ok_bind]
    exact ih _ h2

/-- A message can be made from octets exactly when their packets are a message of RFC 4880, 11.3, behind all layers of compression; it has the packets behind
them, and the innermost layer. The armor may be of any type. -/
theorem C73_message_iff (z : Zip) (readE : Bytes → Out E) (data : Bytes) (m : Msg E) :
    (∃ depth, Msg.ofString z readE depth data = .ok m) ↔ ∃ o, pgpRead (Pkt.parse readE) .fresh data = .ok o ∧
      Unwraps (fun d ps => readRaw (Pkt.parse readE) d = .ok ps) (fun alg d x => decompress z alg d = .ok x) none o.packets m.comp m.packets := by
  constructor
  · rintro ⟨depth, h⟩
    rw [Msg.ofString] at h
    obtain ⟨o, h1, h⟩ := Out.bind_eq_ok.mp h
    obtain ⟨good, h2, h⟩ := Out.bind_eq_ok.mp h
    refine ⟨o, h1, ?_⟩
    cases good with
    | false => simp at h
    | true =>
      simp only [Bool.not_true, Bool.false_eq_true, if_false] at h
      split at h
      · rename_i fmt part alg d hp
        obtain ⟨x, h3, h⟩ := Out.bind_eq_ok.mp h
        obtain ⟨inner, h4, h5⟩ := readLoop_unwraps z readE depth _ _ _ h
        rw [hp]
        exact .layer _ _ _ _ _ _ _ _ _ h3 h4 h5
      · rename_i hne
        cases h
        exact .plain _ _ ((C29_meaningful_iff _).mp h2) (by rintro ⟨fmt, part, alg, d, hp⟩; exact hne _ _ _ _ hp)
  · rintro ⟨o, h1, h⟩
    obtain ⟨comp, packets⟩ := m
    simp only at h
    generalize hc : (none : Option (Fmt × Bool × UInt8)) = c at h
    generalize hps : o.packets = ps at h
    cases h with
    | plain _ _ hm hp =>
      refine ⟨0, ?_⟩
      rw [Msg.ofString, h1, Out.ok_bind, hps, (C29_meaningful_iff _).mpr hm, Out.ok_bind]
      simp only [Bool.not_true, Bool.false_eq_true, if_false]
      split
      · exact absurd ⟨_, _, _, _, rfl⟩ hp
      · rw [← hc]
    | layer _ _ fmt part alg d x inner _ h2 h3 h4 =>
      obtain ⟨depth, hd⟩ := unwraps_readLoop z readE h4
      refine ⟨depth, ?_⟩
      rw [Msg.ofString, h1, Out.ok_bind, hps]
      have hm : messageMeaningful (([⟨fmt, part, .compressed alg d⟩] : List (Pkt E)).map (·.body.tag)) = .ok true := by
        change messageMeaningful [8] = .ok true; decide +kernel
      rw [hm, Out.ok_bind]
      simp only [Bool.not_true, Bool.false_eq_true, if_false]
      rw [h2, Out.ok_bind]
      exact hd _ h3

/-- From an object already read, there is no check, unless the packets are compressed: any packets make a message. -/
theorem C73_message_of_object_fails (z : Zip) (readE : Bytes → Out E) (depth : Nat) (o : PgpObj (Pkt E)) (h : ¬ Packed o.packets) :
    Msg.ofPgp z readE depth o = .ok ⟨none, o.packets⟩ := by
  rw [Msg.ofPgp]
  split
  · rename_i hp; exact absurd ⟨_, _, _, _, hp⟩ h
  · rfl

/-- … and compressed packets are unpacked and checked as when they come from octets. -/
theorem C73_message_of_packed (z : Zip) (readE : Bytes → Out E) (o : PgpObj (Pkt E)) (h : Packed o.packets) (m : Msg E) :
    (∃ depth, Msg.ofPgp z readE depth o = .ok m) ↔
      Unwraps (fun d ps => readRaw (Pkt.parse readE) d = .ok ps) (fun alg d x => decompress z alg d = .ok x) none o.packets m.comp m.packets := by
  obtain ⟨fmt, part, alg, d, hp⟩ := h
  obtain ⟨comp, packets⟩ := m
  have he : ∀ depth, Msg.ofPgp z readE depth o = (decompress z alg d).bind fun x => Msg.readLoop z readE depth (some (fmt, part, alg)) x := by
    intro depth; rw [Msg.ofPgp, hp]; rfl
  simp only [he, hp]
  constructor
  · rintro ⟨depth, h⟩
    obtain ⟨x, h3, h⟩ := Out.bind_eq_ok.mp h
    obtain ⟨inner, h4, h5⟩ := readLoop_unwraps z readE depth _ _ _ h
    exact .layer _ _ _ _ _ _ _ _ _ h3 h4 h5
  · intro h
    cases h with
    | plain _ _ _ hn => exact absurd ⟨_, _, _, _, rfl⟩ hn
    | layer _ _ _ _ _ _ x inner _ h2 h3 h4 =>
      obtain ⟨depth, hd⟩ := unwraps_readLoop z readE h4
      exact ⟨depth, by rw [h2]; exact hd _ h3⟩

/-! ## Signatures and certificates -/

/-- Every packet whatsoever makes a detached signature, if it is alone. -/
theorem C73_detached (readE : Bytes → Out E) (data : Bytes) (s : PgpObj (Pkt E)) :
    detachedFrom readE data = .ok s ↔ ∃ o p, pgpRead (Pkt.parse readE) .fresh data = .ok o ∧ o.packets = [p] ∧ s = { o with type := 6 } := by
  rw [detachedFrom]
  constructor
  · intro h
    obtain ⟨o, h1, h⟩ := Out.bind_eq_ok.mp h
    split at h
    · cases h
    · rename_i hl
      cases h
      obtain ⟨p, hp⟩ := List.length_eq_one_iff.mp (not_not.mp hl)
      exact ⟨o, p, h1, hp, rfl⟩
  · rintro ⟨o, p, h1, hp, rfl⟩
    rw [h1, Out.ok_bind, if_neg (by simp [hp])]
    rfl

/-- So a secret key, alone, is taken for a detached signature: the packet may be of any kind. -/
theorem C73_detached_fails (readE : Bytes → Out E) (data : Bytes) (o : PgpObj (Pkt E)) (p : Pkt E) (ho : pgpRead (Pkt.parse readE) .fresh data = .ok o)
    (hp : o.packets = [p]) : detachedFrom readE data = .ok { o with type := 6 } :=
  (C73_detached readE data _).mpr ⟨o, p, ho, hp, rfl⟩

/-- A revocation certificate is one signature that revokes something, under any armor. -/
theorem C73_revocation_iff (readE : Bytes → Out E) (data : Bytes) (c : PgpObj (Pkt E)) :
    revocationFrom readE data = .ok c ↔
      ∃ o p, pgpRead (Pkt.parse readE) .fresh data = .ok o ∧ o.packets = [p] ∧ RevocationSig p.body ∧ c = { o with type := 2 } := by
  rw [revocationFrom]
  constructor
  · intro h
    obtain ⟨o, h1, h⟩ := Out.bind_eq_ok.mp h
    split at h
    · cases h
    · rename_i hl
      cases h
      rw [revocationPacket] at hl
      simp only [ne_eq, not_true, if_false] at hl
      split at hl
      · rename_i f g s hp
        split at hl
        · rename_i hs
          exact ⟨o, _, h1, hp, ⟨s, rfl, hs⟩, rfl⟩
        · exact absurd rfl hl
      · exact absurd rfl hl
  · rintro ⟨o, ⟨f, g, b⟩, h1, hp, ⟨s, hb, hs⟩, rfl⟩
    simp only at hb
    subst hb
    rw [h1, Out.ok_bind]
    rw [revocationPacket]
    simp [hp, hs]

/-! ## Examples -/

/-- The files of the demonstration: a public and a secret key, and the secret one as a public key. -/
example : ∃ k : KeyObj _, publicKeyOf demo.readE demoSecFile = .ok ([], k) ∧ k.kind = .sec := ⟨demoSec, demo_sec.2, by decide +kernel⟩
example : ∃ k : KeyObj _, secretKeyOf demo.readE demoPubFile = .ok ([], k) ∧ k.kind = .pub := ⟨demoPub, demo_pub.2, by decide +kernel⟩

/-- A literal packet is a message, and alone it makes a detached signature, too; it makes no revocation certificate and no key. -/
def literalFile : Bytes := [0xcb, 7, 0x62, 0, 0, 0, 0, 0, 0x78]
example : ∃ m : Msg _, (∃ depth, Msg.ofString demo.z demo.readE depth literalFile = .ok m) ∧ m.packets.map (·.body.tag) = [11] :=
  ⟨⟨none, [⟨.new, false, .literal ⟨0x62, [], 0, [0x78]⟩⟩]⟩, ⟨0, by decide +kernel⟩, by decide +kernel⟩
/-- The literal packet in a compressed one (algorithm 0) in an object. -/
example : ∃ o : PgpObj (Pkt _), Packed o.packets ∧
    Msg.ofPgp demo.z demo.readE 1 o = .ok ⟨some (.new, false, 0), [⟨.new, false, .literal ⟨0x62, [], 0, [0x78]⟩⟩]⟩ :=
  ⟨⟨false, 0, [], [⟨.new, false, .compressed 0 literalFile⟩]⟩, ⟨_, _, _, _, rfl⟩, by decide +kernel⟩
example : ∃ o : PgpObj _, detachedFrom demo.readE literalFile = .ok o ∧ o.packets.map (·.body.tag) = [11] :=
  ⟨⟨false, 6, [], [⟨.new, false, .literal ⟨0x62, [], 0, [0x78]⟩⟩]⟩, by decide +kernel, by decide +kernel⟩
example : revocationFrom demo.readE literalFile = .throw ∧ keyOf demo.readE literalFile = .throw := by decide +kernel

end OpenPGP
