import Verif.Model.Double
import Verif.Props.BaseObject
import Mathlib.Tactic.Linarith
import Mathlib.Tactic.Ring
import Mathlib.Tactic.FieldSimp
import Mathlib.Tactic.NormNum
import Mathlib.Tactic.Positivity
namespace Pgfe.Proofs
open Pgfe.Model Pgfe.Spec Pgfe.Props

theorem roundEven_near (q : ℚ) : |(roundEven q : ℚ) - q| ≤ 1 / 2 := by
  have h1 := Int.floor_le q
  have h2 := Int.lt_floor_add_one q
  rw [roundEven]
  split
  · rw [abs_le]; constructor <;> linarith
  · split
    · push_cast; rw [abs_le]; constructor <;> linarith
    · split
      · rw [abs_le]; constructor <;> linarith
      · push_cast; rw [abs_le]; constructor <;> linarith

/-- Relative error of one rounding. -/
theorem dbl_near (q : ℚ) (h : 0 ≤ q) : |dbl q - q| ≤ q / 2 ^ 53 := by
  rw [dbl]
  split
  · next h0 => rw [h0]; simp
  · next h0 =>
    have hp : 0 < q := lt_of_le_of_ne h (Ne.symm h0)
    have h1 : (2 : ℚ) ^ Int.log 2 q ≤ q := by
      have := Int.zpow_log_le_self (b := 2) (r := q) (by norm_num) hp
      simpa using this
    have hu : (0 : ℚ) < (2 : ℚ) ^ (Int.log 2 q - 52) := zpow_pos (by norm_num) _
    have e : (2 : ℚ) ^ (Int.log 2 q - 52) = (2 : ℚ) ^ Int.log 2 q / 2 ^ 52 := by
      rw [zpow_sub₀ (by norm_num)]; norm_cast
    generalize hw : (2 : ℚ) ^ (Int.log 2 q - 52) = u at *
    have h2 := roundEven_near (q / u)
    have h3 : (roundEven (q / u) : ℚ) * u - q = (roundEven (q / u) - q / u) * u := by
      field_simp
    rw [h3, abs_mul, abs_of_pos hu]
    have h4 := mul_le_mul_of_nonneg_right h2 (le_of_lt hu)
    have h5 : u ≤ q / 2 ^ 52 := by
      rw [e]; gcongr
    have : q / 2 ^ 53 = q / 2 ^ 52 / 2 := by ring
    rw [this]
    linarith

theorem dbl_ge (q : ℚ) (h : 0 ≤ q) : q * (1 - 1 / 2 ^ 53) ≤ dbl q := by
  have := (abs_le.mp (dbl_near q h)).1
  have e : q * (1 - 1 / 2 ^ 53) = q - q / 2 ^ 53 := by ring
  rw [e]; linarith

theorem dbl_le (q : ℚ) (h : 0 ≤ q) : dbl q ≤ q * (1 + 1 / 2 ^ 53) := by
  have := (abs_le.mp (dbl_near q h)).2
  have e : q * (1 + 1 / 2 ^ 53) = q + q / 2 ^ 53 := by ring
  rw [e]; linarith

theorem dbl_nonneg (q : ℚ) (h : 0 ≤ q) : 0 ≤ dbl q :=
  le_trans (mul_nonneg h (by norm_num)) (dbl_ge q h)

/-- `(n ⊗ r) ⊗ 1.2` is at least 1.19 n r, for `r` rounded from `p`. -/
theorem estimate_ge (p : ℚ) (hp : 0 ≤ p) (r : ℚ) (hr : p * (1 - 1 / 2 ^ 50) ≤ r) (n : Nat) :
    (n : ℚ) * p * (119 / 100) ≤ ((⌈dbl (dbl (dbl n * r) * spaceMultiple)⌉.toNat : ℕ) : ℚ) := by
  have hn : (0 : ℚ) ≤ n := Nat.cast_nonneg n
  have hr0 : 0 ≤ r := le_trans (mul_nonneg hp (by norm_num)) hr
  have h1 := dbl_ge n hn
  have h1' := dbl_nonneg n hn
  have h2 := dbl_ge (dbl n * r) (mul_nonneg h1' hr0)
  have h2' := dbl_nonneg (dbl n * r) (mul_nonneg h1' hr0)
  have h3 : (12 / 10 : ℚ) * (1 - 1 / 2 ^ 53) ≤ spaceMultiple := dbl_ge _ (by norm_num)
  have h3' : 0 ≤ spaceMultiple := dbl_nonneg _ (by norm_num)
  have h4 := dbl_ge (dbl (dbl n * r) * spaceMultiple) (mul_nonneg h2' h3')
  have c : dbl (dbl (dbl n * r) * spaceMultiple) ≤ ((⌈dbl (dbl (dbl n * r) * spaceMultiple)⌉.toNat : ℕ) : ℚ) := by
    refine le_trans (Int.le_ceil _) ?_
    exact_mod_cast Int.self_le_toNat _
  refine le_trans ?_ c
  refine le_trans ?_ h4
  have a1 : (n : ℚ) * (1 - 1 / 2 ^ 53) * (p * (1 - 1 / 2 ^ 50)) ≤ dbl n * r :=
    mul_le_mul h1 hr (mul_nonneg hp (by norm_num)) h1'
  have a2 : (n : ℚ) * (1 - 1 / 2 ^ 53) * (p * (1 - 1 / 2 ^ 50)) * (1 - 1 / 2 ^ 53) ≤ dbl (dbl n * r) :=
    le_trans (mul_le_mul_of_nonneg_right a1 (by norm_num)) h2
  have a3 : (n : ℚ) * (1 - 1 / 2 ^ 53) * (p * (1 - 1 / 2 ^ 50)) * (1 - 1 / 2 ^ 53) * (12 / 10 * (1 - 1 / 2 ^ 53))
      ≤ dbl (dbl n * r) * spaceMultiple :=
    mul_le_mul a2 h3 (by norm_num) h2'
  refine le_trans ?_ (mul_le_mul_of_nonneg_right a3 (by norm_num))
  have hnp : 0 ≤ (n : ℚ) * p := mul_nonneg hn hp
  have e : (n : ℚ) * (1 - 1 / 2 ^ 53) * (p * (1 - 1 / 2 ^ 50)) * (1 - 1 / 2 ^ 53) * (12 / 10 * (1 - 1 / 2 ^ 53)) *
      (1 - 1 / 2 ^ 53) = (n * p) * ((1 - 1 / 2 ^ 53) ^ 4 * (1 - 1 / 2 ^ 50) * (12 / 10)) := by ring
  rw [e]
  exact mul_le_mul_of_nonneg_left (by norm_num) hnp

theorem ratio_ge (x y : ℚ) (hx : 0 ≤ x) (hy : 0 < y) : x / y * (1 - 1 / 2 ^ 50) ≤ dbl (dbl x / dbl y) := by
  have hy1 : 0 < dbl y := lt_of_lt_of_le (mul_pos hy (by norm_num)) (dbl_ge y (le_of_lt hy))
  have h1 := dbl_ge (dbl x / dbl y) (div_nonneg (dbl_nonneg x hx) (le_of_lt hy1))
  refine le_trans ?_ h1
  have h2 : x * (1 - 1 / 2 ^ 53) / (y * (1 + 1 / 2 ^ 53)) ≤ dbl x / dbl y :=
    div_le_div₀ (dbl_nonneg x hx) (dbl_ge x hx) hy1 (dbl_le y (le_of_lt hy))
  refine le_trans ?_ (mul_le_mul_of_nonneg_right h2 (by norm_num))
  have e : x * (1 - 1 / 2 ^ 53) / (y * (1 + 1 / 2 ^ 53)) * (1 - 1 / 2 ^ 53)
      = x / y * ((1 - 1 / 2 ^ 53) / (1 + 1 / 2 ^ 53) * (1 - 1 / 2 ^ 53)) := by
    field_simp
  rw [e]
  exact mul_le_mul_of_nonneg_left (by norm_num) (div_nonneg hx (le_of_lt hy))

theorem bitszOf_eq (al : BaseAlg) : bitszOf al = (specOf al).bits := by cases al <;> rfl

/-- The double-precision size estimates are large enough, for every length. -/
theorem libBase_good (al : BaseAlg) : GoodEstimates (libBase al) := by
  have hb : (0 : ℚ) < ((specOf al).bits : ℚ) := by exact_mod_cast (good al).bits_pos
  constructor
  · intro n
    have h := estimate_ge (8 / ((specOf al).bits : ℚ)) (by positivity) _
      (ratio_ge 8 ((specOf al).bits : ℚ) (by norm_num) hb) n
    have e : (⌈dbl (dbl (dbl n * dbl (dbl 8 / dbl ((specOf al).bits : ℚ))) * spaceMultiple)⌉.toNat) = (libBase al).encEst n := by
      show _ = encEstimate (bitszOf al) n
      rw [bitszOf_eq, encEstimate]
    rw [e] at h
    have h' : (88 : ℚ) * n ≤ 10 * ((specOf al).bits : ℚ) * (((libBase al).encEst n : ℚ) + 1) := by
      have := mul_le_mul_of_nonneg_left h (le_of_lt hb)
      have e2 : ((specOf al).bits : ℚ) * (n * (8 / ((specOf al).bits : ℚ)) * (119 / 100)) = n * (952 / 100) := by
        field_simp; ring
      rw [e2] at this
      have hn : (0 : ℚ) ≤ n := Nat.cast_nonneg n
      nlinarith
    exact_mod_cast h'
  · intro n
    have h := estimate_ge (((specOf al).bits : ℚ) / 8) (by positivity) _
      (ratio_ge ((specOf al).bits : ℚ) 8 (le_of_lt hb) (by norm_num)) n
    have e : (⌈dbl (dbl (dbl n * dbl (dbl ((specOf al).bits : ℚ) / dbl 8)) * spaceMultiple)⌉.toNat) = (libBase al).decEst n := by
      show _ = decEstimate (bitszOf al) n
      rw [bitszOf_eq, decEstimate]
    rw [e] at h
    have h' : (11 : ℚ) * ((specOf al).bits : ℚ) * n ≤ 80 * (((libBase al).decEst n : ℚ) + 1) := by
      have hn : (0 : ℚ) ≤ (n : ℚ) * ((specOf al).bits : ℚ) := by positivity
      nlinarith
    exact_mod_cast h'

end Pgfe.Proofs
