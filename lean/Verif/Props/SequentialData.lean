import Verif.Model.SequentialData
import Verif.Props.Hex
/-!
# C51, C52, C69: `SequentialData`; C01 for `pgfe_print_hash`
-/
namespace Pgfe.Props
open Pgfe.Model Pgfe.Spec Pgfe.Proofs

/-- What trimming should do: drop leading / trailing zero bytes. -/
def specTrimLeft (s : List Byte) : List Byte := s.dropWhile (· == 0#8)
def specTrimRight (s : List Byte) : List Byte := (s.reverse.dropWhile (· == 0#8)).reverse

theorem charSet_ws : charSet sdWs = [] := by decide

theorem C51_trimLeft_id (s : List Byte) : trimLeft s = .ok s := by
  unfold trimLeft findFirstNotOf
  rw [charSet_ws]
  cases s with
  | nil => simp [eraseAt]
  | cons c s => simp [eraseAt, List.findIdx?_cons]

theorem C51_trimRight_id (s : List Byte) (hs : s.length < 2 ^ 64 - 1) : trimRight s = .ok s := by
  unfold trimRight findLastNotOf
  rw [charSet_ws]
  rcases List.eq_nil_or_concat s with rfl | ⟨t, c, rfl⟩
  · simp [eraseAt, npos]
  · simp at hs
    have : (t.length + 1) % 2 ^ 64 = t.length + 1 := Nat.mod_eq_of_lt (by omega)
    simp [eraseAt, List.findIdx?_cons, this, List.take_of_length_le]

/-- **C51, exact.** `trim` never removes anything. -/
theorem C51_trim_id (s : List Byte) (hs : s.length < 2 ^ 64 - 1) : trim s = .ok s := by
  unfold trim
  rw [C51_trimLeft_id, bind_ok, C51_trimRight_id s hs]

/-- **C51 (partial).** The full claim (`trim s = specTrimRight (specTrimLeft s)` for every `s`) is
false of the code, see `C51_counterexample`; it holds exactly for data that have nothing to trim. -/
theorem C51_trim_partial (s : List Byte) (hs : s.length < 2 ^ 64 - 1) :
    trim s = .ok (specTrimRight (specTrimLeft s)) ↔
      s = specTrimRight (specTrimLeft s) := by
  rw [C51_trim_id s hs]
  constructor
  · intro h; exact Except.ok.inj h
  · intro h; exact congrArg _ h

theorem C51_counterexample : trim [0#8, 1#8, 0#8] = .ok [0#8, 1#8, 0#8] ∧
    specTrimRight (specTrimLeft [0#8, 1#8, 0#8]) = [1#8] := by decide +kernel

/-- **C52, hex.** Converting to hex text and parsing it gives back the bytes (non-empty data), for
all contents of the uninitialised arrays involved. -/
theorem C52_hex_round_trip (x g1 g2 : List Byte) (hx : x ≠ []) (h1 : 2 * x.length + 1 ≤ g1.length)
    (h2 : x.length + 1 ≤ g2.length) :
    ∃ text, sdHexStr g1 x = .ok text ∧ fromHexString g2 (text ++ [0#8]) = .ok x := by
  have hz := nozero_of_digits (hexText_digits x)
  have hne : hexText x ≠ [] := by
    intro h
    have := congrArg List.length h
    rw [hexText_length] at this
    cases x with
    | nil => exact hx rfl
    | cons => simp at this
  refine ⟨hexText x, ?_, ?_⟩
  · unfold sdHexStr
    have := hashToHex_ok x [] (g1.take (x.length * 2 + 1)) (by rw [List.length_take]; omega)
    rw [List.append_nil] at this
    dsimp only
    rw [this, bind_ok]
    dsimp only
    rw [strlen_cstr _ _ hz, bind_ok, rds_ok (by simp)]
    simp
  · unfold fromHexString
    rw [strlen_cstr _ _ hz, bind_ok]
    have hl := hexText_length x
    dsimp only
    have hrt := C01_round_trip x (hexText x) [] (g2.take ((hexText x).length / 2
      + (hexText x).length % 2 + 1)) hx (2 * x.length)
      ⟨List.replicate (2 * x.length + 1) 0#8, by simp, by
        have := hashToHex_ok x [] (List.replicate (2 * x.length + 1) 0#8) (by simp)
        rw [List.append_nil] at this
        rw [this]; simp, hl⟩ (by rw [List.length_take]; omega)
    rw [hrt, bind_ok]
    dsimp only
    have hg : x.length < (g2.take ((hexText x).length / 2
      + (hexText x).length % 2 + 1)).length := by rw [List.length_take]; omega
    generalize g2.take ((hexText x).length / 2 + (hexText x).length % 2 + 1) = g at *
    rw [List.drop_eq_getElem_cons hg, wr_append, bind_ok, rds_ok (by simp)]
    simp

/-- **C52, raw.** The raw text conversion round-trips for every content, including NUL bytes. -/
theorem C52_str_round_trip (x : List Byte) (b : Bool) : sdOfString (sdToStr x b) = x := by
  simp [sdOfString, sdToStr]

example : ∃ text, sdHexStr (List.replicate 9 7#8) (str "\x00Hi") = .ok text ∧ text = str "004869" :=
  ⟨_, by decide +kernel, rfl⟩

/-- **C51.** The trimming functions that return a copy leave the object as it is (and, like those in place, remove
nothing). -/
theorem C51_copies (s : List Byte) (hs : s.length < 2 ^ 64 - 1) :
    trimLeftCopy s = .ok (s, s) ∧ trimRightCopy s = .ok (s, s) ∧ trimCopy s = .ok (s, s) := by
  rw [trimLeftCopy, trimRightCopy, trimCopy, C51_trimLeft_id, C51_trimRight_id s hs, C51_trim_id s hs]
  exact ⟨rfl, rfl, rfl⟩

/-- **C52, `std::string`.** The same with the text as `std::string`. -/
theorem C52_hex_string (x g1 g2 : List Byte) (hx : x ≠ []) (h1 : 2 * x.length + 1 ≤ g1.length)
    (h2 : x.length + 1 ≤ g2.length) :
    ∃ text, sdHexStr g1 x = .ok text ∧ fromHexStringS g2 text = .ok x :=
  C52_hex_round_trip x g1 g2 hx h1 h2

/-! ## C69 -/

/-- The bytes an argument of a constructor stands for. -/
def SdArg.bytes : SdArg → List Byte
  | .empty => []
  | .copy s | .ptr s | .move s | .str s | .toStr s => s
  | .seq m n | .toSeq m n => m.take n
  | .cs m | .toCs m => m.takeWhile (fun b => b ≠ 0#8)

/-- Arrays are long enough, C strings are terminated. -/
def SdArg.ok : SdArg → Prop
  | .seq m n | .toSeq m n => n ≤ m.length
  | .cs m | .toCs m => 0#8 ∈ m
  | _ => True

/-- The object from which an object is constructed. -/
def SdArg.source : SdArg → Option (List Byte)
  | .copy s | .ptr s | .move s => some s
  | _ => none

/-- **C69.** Every way to make a `SequentialData` gives exactly the bytes of the argument, zero bytes included (C strings
end at the first); the object it was made from, also one it was moved from, is unchanged; `to_pgfe_seq` gives
these bytes and their number back, and all text conversions start from them. -/
theorem C69 (arg : SdArg) (hok : SdArg.ok arg) : ∃ x, sdConstruct arg = .ok (x, SdArg.source arg) ∧ x = SdArg.bytes arg ∧
    (toPgfeSeq x).2 = x.length ∧ (toPgfeSeq x).1.take (toPgfeSeq x).2 = SdArg.bytes arg ∧
    sdConstruct (.seq (toPgfeSeq x).1 (toPgfeSeq x).2) = .ok (x, none) := by
  have hseq : ∀ (m : List Byte) (n : Nat), n ≤ m.length →
      (do let x ← rds m 0 n
          (.ok (x, none) : C (List Byte × Option (List Byte)))) = .ok (m.take n, none) := by
    intro m n hn
    rw [rds_ok (by omega), bind_ok, List.drop_zero]
  have hcs : ∀ (m : List Byte), 0#8 ∈ m →
      (do let n ← strlen m
          let x ← rds m 0 n
          (.ok (x, none) : C (List Byte × Option (List Byte)))) = .ok (m.takeWhile (fun b => b ≠ 0#8), none) := by
    intro m hm
    obtain ⟨q1, q2, q3⟩ := strlen_take m hm
    rw [q1, bind_ok, hseq m _ q2, q3]
  have hstr : ∀ s : List Byte, (do let x ← rds (s ++ [0#8]) 0 s.length
                                   (.ok (x, none) : C (List Byte × Option (List Byte)))) = .ok (s, none) := by
    intro s
    rw [hseq _ _ (by simp), List.take_left' rfl]
  have h : sdConstruct arg = .ok (SdArg.bytes arg, SdArg.source arg) := by
    cases arg with
    | empty => rfl
    | copy s => rfl
    | ptr s => rfl
    | move s => rfl
    | seq m n => exact hseq m n hok
    | cs m => exact hcs m hok
    | str s => exact hstr s
    | toSeq m n => exact hseq m n hok
    | toCs m => exact hcs m hok
    | toStr s => exact hstr s
  exact ⟨_, h, rfl, rfl, List.take_left' rfl, hstr _⟩

/-- For example from the C string "ab" in a larger array. -/
example : SdArg.ok (.toCs [0x61#8, 0x62#8, 0#8, 0x63#8]) ∧
    sdConstruct (.toCs [0x61#8, 0x62#8, 0#8, 0x63#8]) = .ok ([0x61#8, 0x62#8], none) :=
  ⟨by show 0#8 ∈ [0x61#8, 0x62#8, 0#8, 0x63#8]; decide, by decide⟩

/-- **C01, printing.** `pgfe_print_hash` prints the same text `pgfe_hash_to_hex_string` writes. -/
theorem C01_print (x junk : List Byte) : printHash (x ++ junk) x.length = .ok (hexText x) := by
  rw [printHash]
  obtain ⟨s, h1, h2⟩ := forN_inv (fun i (s : List Byte) => s = hexText (x.take i)) x.length
    (fun i stdout => do
      let b ← rd (x ++ junk) i
      .ok (stdout ++ [hexChar (b >>> 4), hexChar (b &&& 0xF#8)])) [] (by simp [hexText])
    (by
      intro i s hi hs
      refine ⟨_, by rw [rd_ok (by simp; omega), bind_ok], ?_⟩
      rw [hs, List.take_add_one, hexText, hexText, List.flatMap_append, List.getElem?_eq_getElem hi,
        List.getElem_append_left hi, (hexChar_spec x[i]).1, (hexChar_spec x[i]).2]
      simp)
  rw [h1, h2, List.take_length]

end Pgfe.Props
