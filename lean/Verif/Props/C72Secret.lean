import Verif.Props.C72
import Verif.Lemmas.Tag5
import Verif.Props.C12

/-!
# C72: secret keys on elliptic curves
-/
namespace OpenPGP
open Rfc6637

/-- The octets of a secret key packet (RFC 4880, 5.5.3): the public part, the S2K usage, for usages 254 and 255 cipher and specifier, for all but usage 0 an
initialisation vector, the secret octets. -/
inductive SecretBody (k : EcKey) (secret : Bytes) : UInt8 → UInt8 → Option S2K → Bytes → Bytes → Prop
  | clear : SecretBody k secret 0 0 none [] (k.body ++ ([0] ++ ([] ++ secret)))
  | cipher (sym : UInt8) (iv : Bytes) (h0 : sym ≠ 0 ∧ sym ≠ 254 ∧ sym ≠ 255) (hiv : blockLen sym = some iv.length) :
      SecretBody k secret sym sym none iv (k.body ++ ([sym] ++ (iv ++ secret)))
  | s2k (con sym : UInt8) (s : S2K) (iv : Bytes) (hc : con = 254 ∨ con = 255) (hs : s.wf) (hiv : blockLen sym = some iv.length) :
      SecretBody k secret con sym (some s) iv (k.body ++ ([con] ++ ([sym] ++ (s.raw ++ (iv ++ secret)))))

/-- A secret key on a curve is read wherever it is: its public part is the key, and all the rest is as it stands. -/
theorem C72_secret_read (k : EcKey) (hk : k.Fits) (secret : Bytes) (con sym : UInt8) (s : Option S2K) (iv body : Bytes)
    (hb : SecretBody k secret con sym s iv body) {data : Bytes} {pos : Nat} {rest : Bytes} (hd : data.drop pos = body ++ rest) (part : Bool) :
    ∃ g, GpgSec.readAt ⟨data, pos, body.length, part⟩ = .ok ⟨g, con, sym, s, iv, secret⟩ ∧ EcMembers g k := by
  suffices h : ∃ g, GpgSec.actualRead data pos body.length = .ok (⟨g, con, sym, s, iv, secret⟩, pos + body.length) ∧ EcMembers g k by
    obtain ⟨g, h1, h2⟩ := h
    refine ⟨g, ?_, h2⟩
    rw [GpgSec.readAt, tagRead, if_neg (by cases hb <;> simp [EcKey.body])]
    simp only
    rw [h1]
    simp
  have hp : pos ≤ data.length := by
    by_contra hcon'
    rw [List.drop_eq_nil_of_le (by omega)] at hd
    have := congrArg List.length hd
    cases hb <;> simp [EcKey.body] at this
  cases hb with
  | clear =>
    simp only [List.append_assoc] at hd
    obtain ⟨g, hg, hm⟩ := C72_read k hk hd
    refine ⟨g, ?_, hm⟩
    have hd1 := drop_add_of hd
    have hp1 := le_of_drop hp hd
    have hd2 := drop_field hd1 (n := 1) rfl
    have hp2 : pos + k.body.length + 1 ≤ data.length := le_of_drop hp1 hd1
    simp only [List.nil_append] at hd2
    rw [GpgSec.actualRead, hg, Out.ok_bind]
    dsimp only
    rw [charAt_drop hd1, Out.ok_bind, Tag5.readProtection, if_neg (by decide), Out.ok_bind]
    dsimp only
    rw [Tag5.readIV, if_neg (by decide), Out.ok_bind, List.length_nil, Nat.add_zero]
    rw [substr_drop hp2 hd2 (by simp only [List.length_append, List.length_singleton, List.length_nil]; rw [subSz, if_pos (by omega)]; omega),
      Out.ok_bind]
    rfl
  | cipher _ _ h0 hiv =>
    simp only [List.append_assoc] at hd
    obtain ⟨g, hg, hm⟩ := C72_read k hk hd
    refine ⟨g, ?_, hm⟩
    have hd1 := drop_add_of hd
    have hp1 := le_of_drop hp hd
    have hd2 := drop_field hd1 (n := 1) rfl
    have hp2 : pos + k.body.length + 1 ≤ data.length := le_of_drop hp1 hd1
    have hd3 := drop_add_of hd2
    have hp3 := le_of_drop hp2 hd2
    rw [GpgSec.actualRead, hg, Out.ok_bind]
    dsimp only
    rw [charAt_drop hd1, Out.ok_bind, Tag5.readProtection, if_neg (by simp [Tag5.hasS2K, h0.2.1, h0.2.2]), Out.ok_bind]
    dsimp only
    rw [Tag5.readIV, if_pos h0.1, hiv, mapAt, Out.ok_bind, substr_drop hp2 hd2 rfl, Out.ok_bind]
    rw [substr_drop hp3 hd3 (by simp only [List.length_append, List.length_singleton]; rw [subSz, if_pos (by omega)]; omega), Out.ok_bind]
    rfl
  | s2k _ _ s _ hc hs hiv =>
    simp only [List.append_assoc] at hd
    obtain ⟨g, hg, hm⟩ := C72_read k hk hd
    refine ⟨g, ?_, hm⟩
    have hcon : con ≠ 0 := by rcases hc with rfl | rfl <;> decide
    have hc' : Tag5.hasS2K con = true := by rcases hc with rfl | rfl <;> decide
    have hd1 := drop_add_of hd
    have hp1 := le_of_drop hp hd
    have hd2 := drop_field hd1 (n := 1) rfl
    have hp2 : pos + k.body.length + 1 ≤ data.length := le_of_drop hp1 hd1
    have hd3 := drop_field hd2 (n := 1) rfl
    have hp3 := le_of_drop hp2 hd2
    have hd4 := drop_add_of hd3
    have hp4 := le_of_drop hp3 hd3
    have hd5 := drop_add_of hd4
    have hp5 := le_of_drop hp4 hd4
    simp only [List.length_singleton] at hp3 hp4 hp5
    rw [GpgSec.actualRead, hg, Out.ok_bind]
    dsimp only
    rw [charAt_drop hd1, Out.ok_bind, Tag5.readProtection, if_pos hc', charAt_drop hd2, Out.ok_bind, S2K.read_at s hs hd3,
      Out.ok_bind]
    dsimp only
    rw [Out.pure_eq, Out.ok_bind]
    dsimp only
    rw [Tag5.readIV, if_pos hcon, hiv, mapAt, Out.ok_bind, substr_drop hp4 hd4 rfl, Out.ok_bind]
    rw [substr_drop hp5 hd5 (by simp only [List.length_append, List.length_singleton]; rw [subSz, if_pos (by omega)]; omega), Out.ok_bind]
    rfl

/-- It is written back with the same octets, if the curve is one of the table … -/
theorem C72_secret_write (k : EcKey) (hc : k.curve ∈ curves.map oid) (g : GpgKey) (hg : EcMembers g k) (secret : Bytes) (con sym : UInt8)
    (s : Option S2K) (iv body : Bytes) (hb : SecretBody k secret con sym s iv body) : GpgSec.raw ⟨g, con, sym, s, iv, secret⟩ = .ok body := by
  rw [GpgSec.raw]
  dsimp only
  rw [C72_write g k hg hc, Out.ok_bind]
  cases hb with
  | clear => simp [Tag5.hasS2K]
  | cipher _ _ h0 hiv => simp [Tag5.hasS2K, h0]
  | s2k _ _ s _ hc hs hiv =>
    have hcon : con ≠ 0 := by rcases hc with rfl | rfl <;> decide
    have hc' : Tag5.hasS2K con = true := by rcases hc with rfl | rfl <;> decide
    simp [hc', hcon]

/-- … and its public part is the public key, with nothing of the secret. -/
theorem C72_secret_public (k : EcKey) (hk : k.Fits) (hc : k.curve ∈ curves.map oid) (g : GpgKey) (hg : EcMembers g k) (secret : Bytes)
    (con sym : UInt8) (s : Option S2K) (iv body : Bytes) (hb : SecretBody k secret con sym s iv body) :
    ∃ g', GpgSec.getPublic ⟨g, con, sym, s, iv, secret⟩ = .ok g' ∧ EcMembers g' k ∧ g'.rawCommon = .ok k.body := by
  obtain ⟨rest, hr⟩ : ∃ rest, body = k.body ++ rest := by cases hb <;> exact ⟨_, rfl⟩
  obtain ⟨g', h1, h2⟩ := C72_read (data := body) (pos := 0) (rest := rest) k hk (by simp [hr])
  refine ⟨g', ?_, h2, C72_write g' k h2 hc⟩
  rw [GpgSec.getPublic, C72_secret_write k hc g hg secret con sym s iv body hb, Out.ok_bind, tagRead,
    if_neg (by simp [hr, EcKey.body])]
  simp only
  rw [h1]
  rfl

/-- An unprotected secret number is recovered. -/
theorem C72_secret_number (cr : Crypto) (g : GpgKey) (x : Nat) (hx : bitsize x ≤ 65528) (pass : Bytes) :
    GpgSec.decryptSecretKeys cr ⟨g, 0, 0, none, [], mpiOctets x ++ be 2 (octetSum (mpiOctets x))⟩ pass = .ok [x] := by
  rw [GpgSec.decryptSecretKeys, Tag5.decryptSecretKeys, Tag5.plainSecret, if_neg (by simp), Out.ok_bind]
  have h := Tag5.checkAndParse_eq cr ⟨g.key, 0, 0, none, [], mpiOctets x ++ be 2 (octetSum (mpiOctets x))⟩ (mpiOctets x)
    (be 2 (octetSum (mpiOctets x))) (by simp [Tag5.hashSize])
  rw [h]
  have hr := readAllMPIs_write [x] (by simpa using hx)
  have hw : writeMPIs [x] = mpiOctets x := by simp [writeMPIs]
  rw [hw] at hr
  rw [Tag5.decryptChecksum, if_neg (by simp), Out.ok_bind, if_neg (by simp), hr]

/-! ## Examples -/

example : SecretBody edKey [0, 1, 1, 0, 2] 0 0 none [] (edKey.body ++ ([0] ++ ([] ++ [0, 1, 1, 0, 2]))) := .clear
example : ∃ body, SecretBody dhKey [9, 9] 254 7 (some (.iterated 8 [1, 2, 3, 4, 5, 6, 7, 8] 96)) (List.replicate 16 5) body :=
  ⟨_, .s2k 254 7 _ _ (Or.inl rfl) rfl (by decide)⟩
example : mpiOctets 5 ++ be 2 (octetSum (mpiOctets 5)) = [0, 3, 5, 0, 8] := by decide +kernel

end OpenPGP
