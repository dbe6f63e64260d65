import Verif.Basic
/-!
# Specification: texts that change while they are read (C101)

`m t i` is the character at index `i` of an array of `n + 1` characters when it is looked at for the `t`-th time.
-/
namespace Pgfe.Spec.Torn

/-- The last character of the array is always NUL: whoever changes the text leaves its end alone. -/
def Ends (n : Nat) (m : Nat → Nat → Byte) : Prop := ∀ t, m t n = 0#8

/-- Moreover no other character is ever NUL: the characters change, but the text keeps its length. -/
def Steady (n : Nat) (m : Nat → Nat → Byte) : Prop := Ends n m ∧ ∀ t i, i < n → m t i ≠ 0#8

/-- A text that does not change. -/
def still (text : List Byte) : Nat → Nat → Byte := fun _ i => text.getD i 0#8

end Pgfe.Spec.Torn
