import Verif.Basic
/-!
# Specification: the length of a text (C100)
-/
namespace Pgfe.Spec

/-- The number of characters before the first NUL; of all characters if there is none. -/
def textLen (t : List Byte) : Nat := (t.takeWhile (· != 0#8)).length

end Pgfe.Spec
