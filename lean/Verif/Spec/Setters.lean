import Verif.Base

/-!
# The last value that was set
-/
namespace OpenPGP

/-- The value the last of the calls gave that sets this field at all; `first` if there is none. -/
def lastSet {C α : Type} (value : C → Option α) (first : α) (calls : List C) : α := (calls.reverse.findSome? value).getD first

end OpenPGP
