import Verif.Spec.Base
/-! Bit lists and the numbers they denote. -/
namespace Pgfe.Proofs
open Pgfe.Spec

/-- The `w` low binary digits of `v`, most significant first. -/
def natBits (w v : Nat) : List Bool := (List.range w).map (fun t => v.testBit (w - 1 - t))

@[simp] theorem natBits_length (w v : Nat) : (natBits w v).length = w := by simp [natBits]

theorem foldl_bits (l : List Bool) (a : Nat) :
    l.foldl (fun a b => 2 * a + b.toNat) a = a * 2 ^ l.length + ofBits l := by
  induction l generalizing a with
  | nil => simp [ofBits]
  | cons b l ih =>
    simp only [List.foldl_cons, ofBits, List.length_cons]
    rw [ih, ih (2 * 0 + b.toNat), Nat.pow_succ, Nat.add_mul, Nat.mul_zero, Nat.zero_add]
    have : 2 * a * 2 ^ l.length = a * (2 ^ l.length * 2) := by
      rw [Nat.mul_comm 2 a, Nat.mul_assoc, Nat.mul_comm 2]
    omega

theorem ofBits_append (l m : List Bool) : ofBits (l ++ m) = ofBits l * 2 ^ m.length + ofBits m := by
  simp only [ofBits, List.foldl_append]
  rw [foldl_bits]; rfl

theorem ofBits_cons (b : Bool) (m : List Bool) :
    ofBits (b :: m) = b.toNat * 2 ^ m.length + ofBits m := by
  have := ofBits_append [b] m
  simpa [ofBits] using this

theorem ofBits_lt (l : List Bool) : ofBits l < 2 ^ l.length := by
  induction l with
  | nil => simp [ofBits]
  | cons b l ih =>
    rw [ofBits_cons, List.length_cons, Nat.pow_succ]
    cases b <;> simp <;> omega

theorem testBit_ofBits (l : List Bool) (i : Nat) :
    (ofBits l).testBit i = l.reverse.getD i false := by
  induction l generalizing i with
  | nil => simp [ofBits]
  | cons b l ih =>
    rw [ofBits_cons]
    have hlt := ofBits_lt l
    by_cases hi : i < l.length
    · rw [Nat.mul_comm, Nat.testBit_two_pow_mul_add _ hlt, if_pos hi, ih]
      simp [List.getElem?_append, hi]
    · rw [Nat.mul_comm, Nat.testBit_two_pow_mul_add _ hlt, if_neg hi]
      by_cases he : i = l.length
      · subst he
        simp
        cases b <;> simp
      · have : 0 < i - l.length := by omega
        obtain ⟨k, hk⟩ : ∃ k, i - l.length = k + 1 := ⟨i - l.length - 1, by omega⟩
        rw [hk]
        simp [List.getElem?_append, hi, hk]
        cases b <;> simp [Nat.testBit_succ]

theorem natBits_ofBits (l : List Bool) : natBits l.length (ofBits l) = l := by
  apply List.ext_getElem
  · simp
  · intro i h1 h2
    simp only [natBits, List.getElem_map, List.getElem_range]
    rw [testBit_ofBits]
    have : l.length - 1 - i < l.length := by omega
    simp [this]
    congr 1
    omega

theorem ofBits_natBits (w v : Nat) : ofBits (natBits w v) = v % 2 ^ w := by
  apply Nat.eq_of_testBit_eq
  intro i
  rw [testBit_ofBits, Nat.testBit_mod_two_pow]
  by_cases hi : i < w
  · simp [natBits, hi]
    congr 1
    omega
  · simp [natBits, hi]

theorem bitsOfByte_eq (b : Byte) : bitsOfByte b = natBits 8 b.toNat := by
  apply List.ext_getElem
  · simp [bitsOfByte]
  · intro i h1 h2
    have hi : i < 8 := by simpa using h2
    simp [bitsOfByte, natBits, BitVec.getMsbD, BitVec.getLsbD, hi]

@[simp] theorem bitsOfByte_length (b : Byte) : (bitsOfByte b).length = 8 := by simp [bitsOfByte]

theorem bitsOf_length (x : List Byte) : (bitsOf x).length = 8 * x.length := by
  induction x with
  | nil => rfl
  | cons b x ih =>
    have : bitsOf (b :: x) = bitsOfByte b ++ bitsOf x := rfl
    rw [this, List.length_append, ih, bitsOfByte_length, List.length_cons]; omega

theorem bitsOf_append (x y : List Byte) : bitsOf (x ++ y) = bitsOf x ++ bitsOf y := by
  simp [bitsOf]

theorem slice_eq (l : List Bool) (s n : Nat) (h : s + n ≤ l.length) :
    slice l s n = (l.drop s).take n := by
  apply List.ext_getElem
  · simp [slice]; omega
  · intro i h1 h2
    have hi : i < n := by simpa [slice] using h1
    have : s + i < l.length := by omega
    simp [slice, this]

@[simp] theorem slice_length (l : List Bool) (s n : Nat) : (slice l s n).length = n := by
  simp [slice]

theorem slice_append_right (l m : List Bool) (s n : Nat) (h : l.length ≤ s) :
    slice (l ++ m) s n = slice m (s - l.length) n := by
  unfold slice
  apply List.map_congr_left
  intro t ht
  have : l.length ≤ s + t := by omega
  simp only [List.getD_eq_getElem?_getD, List.getElem?_append_right this]
  congr 2; omega

theorem slice_append_left (l m : List Bool) (s n : Nat) (h : s + n ≤ l.length) :
    slice (l ++ m) s n = slice l s n := by
  unfold slice
  apply List.map_congr_left
  intro t ht
  have ht := List.mem_range.mp ht
  have : s + t < l.length := by omega
  simp [List.getElem?_append, this]

/-- Appending zero bits changes no slice. -/
theorem slice_zeros (l : List Bool) (k s n : Nat) :
    slice (l ++ List.replicate k false) s n = slice l s n := by
  unfold slice
  apply List.map_congr_left
  intro t _
  simp only [List.getD_eq_getElem?_getD, List.getElem?_append]
  split
  · rfl
  · rename_i h
    rw [List.getElem?_replicate]
    rw [List.getElem?_eq_none (by omega)]
    split <;> rfl

/-- Cutting a list into pieces of length `w` and joining them. -/
theorem flatten_slices (w : Nat) (k : Nat) (l : List Bool) (h : l.length = k * w) :
    ((List.range k).map (fun j => slice l (j * w) w)).flatten = l := by
  induction k generalizing l with
  | zero => simp at h; subst h; rfl
  | succ k ih =>
    rw [List.range_succ_eq_map, List.map_cons, List.map_map, List.flatten_cons]
    have hw : w ≤ l.length := by rw [h, Nat.succ_mul]; omega
    have h2 : ((List.range k).map ((fun j => slice l (j * w) w) ∘ Nat.succ))
        = (List.range k).map (fun j => slice (l.drop w) (j * w) w) := by
      apply List.map_congr_left
      intro j _
      simp only [Function.comp]
      conv => lhs; rw [← List.take_append_drop w l]
      rw [slice_append_right _ _ _ _ (by rw [List.length_take, Nat.succ_mul]; omega)]
      congr 1
      rw [List.length_take, Nat.succ_mul]; omega
    rw [h2, ih (l.drop w) (by rw [List.length_drop, h, Nat.succ_mul]; omega)]
    rw [Nat.zero_mul, slice_eq _ _ _ (by omega)]
    simp

end Pgfe.Proofs
