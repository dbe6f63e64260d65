import Verif.Model.Hex
/-!
# Model of `src/core/sequential_data.cpp`, `include/libpgfe/sequential_data.hpp`

A `SequentialData` is a `std::basic_string<uint8_t>`; its value is a `List Byte`.  The members of
`std::basic_string` it uses are external (C++ standard library) and modelled from the standard.
-/
namespace Pgfe.Model

/-- `basic_string::npos`. -/
def npos : Nat := 2 ^ 64 - 1

/-- The character set denoted by a `const pgfe_encode_t *` argument of `find_first_not_of` /
`find_last_not_of`: the characters before the first zero element (`traits::length`). -/
def charSet (p : List Byte) : List Byte := p.takeWhile (· != 0#8)

/-- `basic_string::find_first_not_of(const charT *)`. -/
def findFirstNotOf (s set : List Byte) : Nat := (s.findIdx? (fun c => !set.contains c)).getD npos

/-- `basic_string::find_last_not_of(const charT *)`. -/
def findLastNotOf (s set : List Byte) : Nat :=
  match s.reverse.findIdx? (fun c => !set.contains c) with
  | some i => s.length - 1 - i
  | none => npos

/-- `basic_string::erase(pos, n)`: throws `out_of_range` if `pos > size()`. -/
def eraseAt (s : List Byte) (pos n : Nat) : C (List Byte) :=
  if s.length < pos then .error .thrown else .ok (s.take pos ++ s.drop (pos + n))

/-- The member `ws`, include/libpgfe/sequential_data.hpp:29. -/
def sdWs : List Byte := [0#8]

/-- `SequentialData::trim_left_`, src/core/sequential_data.cpp:74-76. -/
def trimLeft (s : List Byte) : C (List Byte) := eraseAt s 0 (findFirstNotOf s (charSet sdWs))

/-- `SequentialData::trim_right_`, src/core/sequential_data.cpp:78-80 (`npos + 1` wraps to 0). -/
def trimRight (s : List Byte) : C (List Byte) :=
  eraseAt s ((findLastNotOf s (charSet sdWs) + 1) % 2 ^ 64) s.length

/-- `SequentialData::trim_`, src/core/sequential_data.cpp:69-72; `trim`, lines 51-55, applies it to
a copy. -/
def trim (s : List Byte) : C (List Byte) := do trimRight (← trimLeft s)

/-- `SequentialData::to_str`, src/core/sequential_data.cpp:30-32 (the argument is ignored). -/
def sdToStr (s : List Byte) (_autoHex : Bool) : List Byte := s.take s.length

/-- `SequentialData::hex_str`, src/core/sequential_data.cpp:34-40; `garbage` supplies the initial
contents of the array `hex_str`; the result is the text before the first NUL. -/
def sdHexStr (garbage s : List Byte) : C (List Byte) := do
  let arr := garbage.take (s.length * 2 + 1)
  let (_, arr) ← hashToHexString s s.length arr
  let n ← strlen arr
  rds arr 0 n

/-- `SequentialData(std::string)`, src/core/sequential_data.cpp:27-28. -/
def sdOfString (s : List Byte) : List Byte := s.take s.length

/-- `SequentialData::trim_left` and `trim_right`, src/core/sequential_data.cpp:57-67: a copy, trimmed; returns the
result and what the object itself is afterwards. -/
def trimLeftCopy (s : List Byte) : C (List Byte × List Byte) := do
  let t ← trimLeft s
  .ok (t, s)
@[inherit_doc trimLeftCopy] def trimRightCopy (s : List Byte) : C (List Byte × List Byte) := do
  let t ← trimRight s
  .ok (t, s)
/-- `SequentialData::trim`, src/core/sequential_data.cpp:51-55. -/
def trimCopy (s : List Byte) : C (List Byte × List Byte) := do
  let t ← trim s
  .ok (t, s)

/-- The ways to construct a `SequentialData`, src/core/sequential_data.cpp:15-28: from nothing, a copy, a pointer to
an object, an object to be moved from, a pointer with a length, a C string, a `std::string`; and
`utils::to_sequential_data`, src/core/utils.cpp:17-27, from the last three. -/
inductive SdArg where
  | empty
  | copy (s : List Byte)
  | ptr (s : List Byte)
  | move (s : List Byte)
  | seq (mem : List Byte) (size : Nat)
  | cs (mem : List Byte)
  | str (s : List Byte)
  | toSeq (mem : List Byte) (size : Nat)
  | toCs (mem : List Byte)
  | toStr (s : List Byte)

/-- The constructors, src/core/sequential_data.cpp:15-28, src/core/utils.cpp:17-27: the value of the new object, and for
a construction from another object what that object is afterwards (the constructor of line 21 initialises its
base with an lvalue: it copies). -/
def sdConstruct : SdArg → C (List Byte × Option (List Byte))
  | .empty => .ok ([], none)
  | .copy s | .ptr s | .move s => .ok (s, some s)
  | .seq m n | .toSeq m n => do
    let x ← rds m 0 n
    .ok (x, none)
  | .cs m | .toCs m => do
    let n ← strlen m
    let x ← rds m 0 n
    .ok (x, none)
  | .str s | .toStr s => do
    let x ← rds (s ++ [0#8]) 0 s.length
    .ok (x, none)

/-- `to_pgfe_seq()` and `to_pgfe_seq(size_t &)`, src/core/sequential_data.cpp:42-49: the memory the pointer points to
(`c_str()`: the elements and a zero element) and the length. -/
def toPgfeSeq (s : List Byte) : List Byte × Nat := (s ++ [0#8], s.length)

/-- `sequential_data::from_hex_string(std::string &)`, src/core/utils.cpp:39-41. -/
def fromHexStringS (garbage s : List Byte) : C (List Byte) := fromHexString garbage (s ++ [0#8])

end Pgfe.Model
