import Verif.Model.S2K

/-!
# RFC 4880, 3.7.1: which octets a string-to-key function hashes
-/
namespace OpenPGP

/-- The first `n` octets of `l` repeated without end. -/
def firstOfRepeated (n : Nat) (l : Bytes) : Bytes := ((List.replicate n l).flatten).take n

/-- Count of an iterated specifier (3.7.1.3): `(16 + (c & 15)) << ((c >> 4) + 6)`. -/
def rfcCount (c : UInt8) : Nat := (16 + c.toNat % 16) * 2 ^ (c.toNat / 16 + 6)

/-- Input of hash context `i`: `i` zero octets, then the passphrase, preceded by the salt, repeated up to the count
(but at least once in full). -/
def s2kInput (s : S2K) (pass : Bytes) (i : Nat) : Bytes :=
  List.replicate i 0 ++
  match s with
  | .simple _ => pass
  | .salted _ salt => salt ++ pass
  | .iterated _ salt c => firstOfRepeated (max (rfcCount c) (salt ++ pass).length) (salt ++ pass)

/-- The key material of the first `n` contexts. -/
def s2kStream (cr : Crypto) (s : S2K) (pass : Bytes) (n : Nat) : Bytes :=
  (List.range n).flatMap fun i => cr.hash s.hash (s2kInput s pass i)

/-- Salts have eight octets. -/
def S2K.wf : S2K → Prop
  | .simple _ => True
  | .salted _ salt => salt.length = 8
  | .iterated _ salt _ => salt.length = 8

end OpenPGP
