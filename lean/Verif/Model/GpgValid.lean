import Verif.Model.Gpg
import Verif.Model.Valid

/-!
# `valid` in the build with `GPG_COMPATIBLE`

Validity of the packets whose checks the option changes. Signatures are those without the subpacket the option adds.
-/
namespace OpenPGP

/-- `Tag6::actual_valid` (Tag6.cpp:6-51): the names are those of that build, the numbers of MPIs are not. -/
def GpgKey.valid (mpis : Bool) (g : GpgKey) : Status :=
  if g.key.version = 3 then
    if !isRSA g.key.pka then .pkaCannotBeUsed
    else if mpis ∧ g.key.mpi.length ≠ 2 then .mpiCount
    else .success
  else if g.key.version = 4 then
    if !gpgNamed g.key.pka then .publicKeyAlgorithm
    else if mpis ∧ ¬ ((isRSA g.key.pka ∧ g.key.mpi.length = 2) ∨ (g.key.pka = 17 ∧ g.key.mpi.length = 4) ∨ (g.key.pka = 16 ∧ g.key.mpi.length = 3)) then .mpiCount
    else .success
  else .version

/-- `Tag1::actual_valid` (Tag1.cpp:37-79). -/
def Tag1.gpgValid (mpis : Bool) (t : Tag1) : Status :=
  if t.version ≠ 3 then .version
  else if t.keyid.length ≠ 8 then .length
  else if !gpgNamed t.pka then .publicKeyAlgorithm
  else if !gpgCanEncrypt t.pka then .pkaCannotBeUsed
  else if mpis ∧ t.mpi.length ≠ (if t.pka = 16 then 2 else 1) then .mpiCount
  else .success

/-- `Tag2::actual_valid` (Tag2.cpp:287-354). -/
def Tag2.gpgValid {E : Type} (regexOk : Bytes → Bool) (validE : E → Out Status) (mpis : Bool) (s : Tag2 E) : Out Status :=
  if s.version ≠ 3 ∧ s.version ≠ 4 then .ok .version
  else if !sigTypeNamed s.type then .ok .signatureType
  else if !gpgNamed s.pka then .ok .publicKeyAlgorithm
  else if !gpgCanSign s.pka then .ok .pkaCannotBeUsed
  else if !hashNamed s.hash then .ok .hashAlgorithm
  else do
    let a ← (if s.version = 4 then subsValid regexOk validE s.hashed else .ok .success)
    if a ≠ .success then return a
    else do
      let b ← (if s.version = 4 then subsValid regexOk validE s.unhashed else .ok .success)
      if b ≠ .success then return b
      else if s.left16.length ≠ 2 then return .left16
      else if mpis ∧ s.mpi.length ≠ (if s.pka = 17 ∨ s.pka = 19 ∨ s.pka = 22 then 2 else 1) then return .mpiCount
      else return .success

end OpenPGP
