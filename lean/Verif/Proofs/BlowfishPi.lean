import Verif.Proofs.Pi
import Mathlib.Algebra.Order.Floor.Semifield
import Verif.Model.BlowfishTables
import Verif.Spec.BlowfishPi
/-!
# The tables of Blowfish are the digits of π
-/
namespace Pgfe.Proofs.Bf
open Pgfe.Model

/-- The initial table of the model as one list. -/
def tab : List W32 := bfP0 ++ bfS0.flatten

/-- The digits of a number in base 2^32. -/
def digits (n : Nat) (l : List W32) : Nat := l.foldl (fun n w => n * 2 ^ 32 + w.toNat) n

/-- The comparison of the sums with the table. -/
def check (s t : Nat × Nat) (p : Nat) : Bool :=
  (p * 2 ^ 64 + 16 * s.2 + 16 * 3601 + 4 * t.1 + 4 * 1059 ≤ 16 * s.1 + 4 * t.2) &&
  (16 * s.1 + 16 * 3601 + 4 * t.2 + 4 * 1059 < (p + 1) * 2 ^ 64 + 16 * s.2 + 4 * t.1)

theorem check_true : check (Pi.s5 33408 3600) (Pi.s239 33408 1058) (digits 3 tab) = true := by
  decide +kernel

theorem tab_length : tab.length = 1042 := by decide +kernel

theorem pi_digits : (digits 3 tab : ℝ) ≤ Real.pi * 2 ^ 33344 ∧ Real.pi * 2 ^ 33344 < digits 3 tab + 1 := by
  have hc := check_true
  have h5 : (2 : Nat) ^ 33408 ≤ 5 ^ (4 * 3600 + 1) * (4 * 3600 + 1) := by decide +kernel
  have h239 : (2 : Nat) ^ 33408 ≤ 239 ^ (4 * 1058 + 1) * (4 * 1058 + 1) := by decide +kernel
  obtain ⟨lo, hi⟩ := Pi.pi_bounds 33408 3600 1058 h5 h239
  generalize Pi.s5 33408 3600 = s at *
  generalize Pi.s239 33408 1058 = t at *
  generalize digits 3 tab = p at *
  simp only [check, Bool.and_eq_true, decide_eq_true_eq] at hc
  obtain ⟨c1, c2⟩ := hc
  have c1' : ((p * 2 ^ 64 + 16 * s.2 + 16 * 3601 + 4 * t.1 + 4 * 1059 : Nat) : ℝ) ≤
    ((16 * s.1 + 4 * t.2 : Nat) : ℝ) := by exact_mod_cast c1
  have c2' : ((16 * s.1 + 16 * 3601 + 4 * t.2 + 4 * 1059 : Nat) : ℝ) <
    (((p + 1) * 2 ^ 64 + 16 * s.2 + 4 * t.1 : Nat) : ℝ) := by exact_mod_cast c2
  push_cast at c1' c2' lo hi
  have e : (2 : ℝ) ^ 33408 = 2 ^ 33344 * 2 ^ 64 := by rw [← pow_add]
  rw [e] at lo hi
  generalize (2 : ℝ) ^ 33344 = X at *
  have h64 : (0 : ℝ) < 2 ^ 64 := by positivity
  rw [show (2 : ℝ) ^ 64 = 18446744073709551616 by norm_num] at lo hi h64
  constructor
  · have : (p : ℝ) * 18446744073709551616 ≤ (Real.pi * X) * 18446744073709551616 := by linarith
    exact le_of_mul_le_mul_right this h64
  · have : (Real.pi * X) * 18446744073709551616 < ((p : ℝ) + 1) * 18446744073709551616 := by linarith
    exact lt_of_mul_lt_mul_right this h64.le

theorem digits_lt (l : List W32) : digits 0 l < 2 ^ (32 * l.length) := by
  have main : ∀ (l : List W32) (n k : Nat), n < 2 ^ k → digits n l < 2 ^ (k + 32 * l.length) := by
    intro l
    induction l with
    | nil => intro n k h; simpa [digits] using h
    | cons w l ih =>
      intro n k h
      have hw := w.isLt
      have h1 : n * 2 ^ 32 + w.toNat < 2 ^ (k + 32) := by rw [pow_add]; nlinarith
      have := ih _ _ h1
      show digits (n * 2 ^ 32 + w.toNat) l < _
      rw [List.length_cons, show k + 32 * (l.length + 1) = k + 32 + 32 * l.length by ring]
      exact this
  simpa using main l 0 0 (by norm_num)

theorem digits_split (l : List W32) : ∀ n, digits n l = n * 2 ^ (32 * l.length) + digits 0 l := by
  induction l with
  | nil => intro n; simp [digits]
  | cons w l ih =>
    intro n
    show digits (n * 2 ^ 32 + w.toNat) l = _ + digits (0 * 2 ^ 32 + w.toNat) l
    rw [ih, ih (0 * 2 ^ 32 + w.toNat), List.length_cons, show 32 * (l.length + 1) = 32 + 32 * l.length by ring, pow_add]
    ring

theorem digits_append (l m : List W32) (n : Nat) : digits n (l ++ m) = digits (digits n l) m := by
  simp [digits, List.foldl_append]

theorem digits_word (l : List W32) (n k : Nat) (hk : k < l.length) :
    BitVec.ofNat 32 (digits n l / 2 ^ (32 * (l.length - (k + 1)))) = l[k] := by
  have e : l = l.take (k + 1) ++ l.drop (k + 1) := (List.take_append_drop _ _).symm
  have e1 : digits n l = digits n (l.take (k + 1)) * 2 ^ (32 * (l.length - (k + 1))) + digits 0 (l.drop (k + 1)) := by
    conv => lhs; rw [e]
    rw [digits_append, digits_split, List.length_drop]
  have hlt := digits_lt (l.drop (k + 1))
  rw [List.length_drop] at hlt
  have hpos : 0 < 2 ^ (32 * (l.length - (k + 1))) := by positivity
  rw [e1, Nat.add_comm, Nat.add_mul_div_right _ _ hpos, Nat.div_eq_of_lt hlt, Nat.zero_add,
    List.take_succ_eq_append_getElem hk, digits_append]
  show BitVec.ofNat 32 (digits n (l.take k) * 2 ^ 32 + (l[k]).toNat) = l[k]
  apply BitVec.eq_of_toNat_eq
  rw [BitVec.toNat_ofNat]
  have := (l[k]).isLt
  omega

theorem pi_floor (k : Nat) (hk : k < 1042) :
    ⌊Real.pi * 2 ^ (32 * (k + 1))⌋₊ = digits 3 tab / 2 ^ (32 * (1042 - (k + 1))) := by
  obtain ⟨lo, hi⟩ := pi_digits
  have hf : ⌊Real.pi * 2 ^ 33344⌋₊ = digits 3 tab := by
    rw [Nat.floor_eq_iff (by positivity)]
    exact ⟨lo, hi⟩
  have e : Real.pi * 2 ^ (32 * (k + 1)) = Real.pi * 2 ^ 33344 / ((2 ^ (32 * (1042 - (k + 1))) : Nat) : ℝ) := by
    rw [Nat.cast_pow, Nat.cast_ofNat]
    rw [show 33344 = 32 * (k + 1) + 32 * (1042 - (k + 1)) by omega, pow_add, ← mul_assoc,
      mul_div_cancel_right₀ _ (by positivity)]
  rw [e, Nat.floor_div_natCast, hf]

/-- The initial table of the model is the sequence of digits of π. -/
theorem tab_pi : tab = Pgfe.Spec.Blowfish.piTable := by
  apply List.ext_getElem
  · rw [tab_length]; simp [Pgfe.Spec.Blowfish.piTable]
  · intro k h1 h2
    rw [tab_length] at h1
    have h3 : k < tab.length := by rw [tab_length]; exact h1
    have := digits_word tab 3 k h3
    simp only [Pgfe.Spec.Blowfish.piTable, List.getElem_map, List.getElem_range, Pgfe.Spec.Blowfish.piWord]
    rw [pi_floor k h1, ← this, tab_length]

end Pgfe.Proofs.Bf
