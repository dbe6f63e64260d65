import Verif.Basic
/-!
# Hexadecimal numerals: an elementary specification
-/
namespace Pgfe.Spec

/-- Position of a character in a string, if it occurs. -/
def posIn (alphabet : String) (c : Byte) : Option Nat := (str alphabet).idxOf? c

/-- Value of a hexadecimal digit of either case; `none` for any other character. -/
def digit (c : Byte) : Option Nat :=
  match posIn "0123456789abcdef" c with
  | some v => some v
  | none => posIn "0123456789ABCDEF" c

def isDigit (c : Byte) : Bool := (digit c).isSome

/-- The number denoted by a big-endian digit string; characters that are not digits do not count. -/
def numeral (s : List Byte) : Nat := (s.filterMap digit).foldl (fun acc d => 16 * acc + d) 0

/-- Big-endian representation of a number on `k` bytes. -/
def beBytes (k n : Nat) : List Byte :=
  (List.range k).map (fun i => BitVec.ofNat 8 (n / 256 ^ (k - 1 - i) % 256))

/-- The lower-case two-digit text of a byte string. -/
def hexText (x : List Byte) : List Byte :=
  x.flatMap (fun b => [(str "0123456789abcdef").getD (b.toNat / 16) 0#8,
                       (str "0123456789abcdef").getD (b.toNat % 16) 0#8])

/-- A text without NUL stored in memory: the characters, a NUL, anything. -/
def CString (s buf : List Byte) : Prop := 0#8 ∉ s ∧ ∃ rest, buf = s ++ 0#8 :: rest

/-- Text after an optional prefix "any character, then x or X". -/
def dropPrefix (s : List Byte) : List Byte :=
  match s with
  | c :: d :: r => if d = 0x78#8 ∨ d = 0x58#8 then r else c :: d :: r
  | s => s

end Pgfe.Spec

namespace Pgfe.Spec

/-- The hexadecimal digits of a text, in order. -/
def digitsOf (s : List Byte) : List Byte := s.filter isDigit

/-- 1 if the text ends with h or H, else 0. -/
def trailingH (s : List Byte) : Nat :=
  match s.getLast? with
  | some c => if c = 0x68#8 ∨ c = 0x48#8 then 1 else 0
  | none => 0

/-- Number of characters of a text that are neither digits nor a final h/H. -/
def separators (s : List Byte) : Nat := s.length - (digitsOf s).length - trailingH s

end Pgfe.Spec
