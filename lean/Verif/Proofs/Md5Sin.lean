import Verif.Spec.Md5
import Mathlib.Analysis.Complex.Exponential
import Mathlib.Analysis.SpecialFunctions.Trigonometric.Basic
import Mathlib.Tactic.NormNum.BigOperators
import Mathlib.Tactic.NormNum.NatFactorial
/-!
# The table T of RFC 1321 is the integer part of 2^32 |sin i|

`sin 1` and `cos 1` are enclosed by partial sums of the exponential series at the imaginary unit, and
`sin (k+1)`, `cos (k+1)` by the addition formulas in 260-bit fixed-point arithmetic, whose error bound
grows by a factor of 5 at each step.
-/
namespace Pgfe.Proofs.Md5Sin
open Finset
set_option exponentiation.threshold 600

/-! ## sin 1 and cos 1 -/

theorem exp_split (n : Nat) :
    (∑ m ∈ range (2 * n), Complex.I ^ m / (m.factorial : ℂ)) =
      (((∑ j ∈ range n, (-1 : ℝ) ^ j / ((2 * j).factorial : ℝ) : ℝ) : ℂ)) +
      (((∑ j ∈ range n, (-1 : ℝ) ^ j / ((2 * j + 1).factorial : ℝ) : ℝ) : ℂ)) * Complex.I := by
  induction n with
  | zero => simp
  | succ n ih =>
    rw [show 2 * (n + 1) = 2 * n + 1 + 1 from by ring, sum_range_succ, sum_range_succ, ih,
      sum_range_succ, sum_range_succ, pow_succ, pow_mul, Complex.I_sq]
    push_cast
    ring

theorem sums_close (n : Nat) (hn : 0 < n) :
    |Real.cos 1 - ∑ j ∈ range n, (-1 : ℝ) ^ j / ((2 * j).factorial : ℝ)| ≤
      ((2 * n).succ : ℝ) * ((2 * n).factorial * (2 * n : Nat) : ℝ)⁻¹ ∧
    |Real.sin 1 - ∑ j ∈ range n, (-1 : ℝ) ^ j / ((2 * j + 1).factorial : ℝ)| ≤
      ((2 * n).succ : ℝ) * ((2 * n).factorial * (2 * n : Nat) : ℝ)⁻¹ := by
  have h := Complex.exp_bound (x := Complex.I) (by simp) (n := 2 * n) (by omega)
  rw [exp_split, Complex.norm_I, one_pow, one_mul] at h
  have e : Complex.exp Complex.I = (Real.cos 1 : ℂ) + (Real.sin 1 : ℂ) * Complex.I := by
    have := Complex.exp_mul_I 1
    simpa using this
  rw [e] at h
  generalize (∑ j ∈ range n, (-1 : ℝ) ^ j / ((2 * j).factorial : ℝ) : ℝ) = a at h ⊢
  generalize (∑ j ∈ range n, (-1 : ℝ) ^ j / ((2 * j + 1).factorial : ℝ) : ℝ) = b at h ⊢
  have h1 := Complex.abs_re_le_norm ((Real.cos 1 : ℂ) + (Real.sin 1 : ℂ) * Complex.I -
    ((a : ℂ) + (b : ℂ) * Complex.I))
  have h2 := Complex.abs_im_le_norm ((Real.cos 1 : ℂ) + (Real.sin 1 : ℂ) * Complex.I -
    ((a : ℂ) + (b : ℂ) * Complex.I))
  simp only [Complex.sub_re, Complex.add_re, Complex.mul_re, Complex.ofReal_re, Complex.I_re,
    Complex.ofReal_im, Complex.I_im, Complex.sub_im, Complex.add_im, Complex.mul_im, mul_zero, zero_mul,
    mul_one, sub_zero, add_zero, zero_add] at h1 h2
  exact ⟨h1.trans h, h2.trans h⟩

def S1 : Int := 1558970933815812686000498235244762024591141708057282977364505732996180151147487
def C1 : Int := 1001003725059381504462937115094305460836693737271615326414532175944630037016489

theorem one_close : |2 ^ 260 * Real.sin 1 - (S1 : ℝ)| ≤ 2 ^ 40 ∧
    |2 ^ 260 * Real.cos 1 - (C1 : ℝ)| ≤ 2 ^ 40 := by
  obtain ⟨hc, hs⟩ := sums_close 30 (by norm_num)
  have eb : (((2 * 30 : Nat).succ : ℝ) * ((2 * 30 : Nat).factorial * (2 * 30 : Nat) : ℝ)⁻¹) ≤ 1 / 2 ^ 230 := by
    norm_num [Nat.factorial]
  have es : |2 ^ 260 * (∑ j ∈ range 30, (-1 : ℝ) ^ j / ((2 * j + 1).factorial : ℝ)) - (S1 : ℝ)| ≤ 2 ^ 39 := by
    rw [abs_le]
    simp only [sum_range_succ, sum_range_zero, S1]
    norm_num [Nat.factorial]
  have ec : |2 ^ 260 * (∑ j ∈ range 30, (-1 : ℝ) ^ j / ((2 * j).factorial : ℝ)) - (C1 : ℝ)| ≤ 2 ^ 39 := by
    rw [abs_le]
    simp only [sum_range_succ, sum_range_zero, C1]
    norm_num [Nat.factorial]
  generalize (∑ j ∈ range 30, (-1 : ℝ) ^ j / ((2 * j).factorial : ℝ) : ℝ) = a at hc ec
  generalize (∑ j ∈ range 30, (-1 : ℝ) ^ j / ((2 * j + 1).factorial : ℝ) : ℝ) = b at hs es
  have hc := hc.trans eb
  have hs := hs.trans eb
  have w : (2:ℝ) ^ 260 * (1 / 2 ^ 230) + 2 ^ 39 ≤ 2 ^ 40 := by norm_num
  have close (u v z : ℝ) (h1 : |u - v| ≤ 1 / 2 ^ 230) (h2 : |2 ^ 260 * v - z| ≤ 2 ^ 39) :
      |2 ^ 260 * u - z| ≤ 2 ^ 40 := by
    have e : 2 ^ 260 * u - z = 2 ^ 260 * (u - v) + (2 ^ 260 * v - z) := by ring
    rw [e]
    refine (abs_add_le _ _).trans (le_trans (add_le_add ?_ h2) w)
    rw [abs_mul, abs_of_pos (show (0:ℝ) < 2 ^ 260 by norm_num)]
    exact mul_le_mul_of_nonneg_left h1 (by norm_num)
  exact ⟨close _ _ _ hs es, close _ _ _ hc ec⟩

/-! ## The next angle -/

/-- `s` and `c` are within `e` of 2^260 sin x and 2^260 cos x. -/
def Near (x : ℝ) (s c e : Int) : Prop :=
  |2 ^ 260 * Real.sin x - (s : ℝ)| ≤ (e : ℝ) ∧ |2 ^ 260 * Real.cos x - (c : ℝ)| ≤ (e : ℝ)

theorem floor_near (a : Int) : |((a / 2 ^ 260 : Int) : ℝ) - (a : ℝ) / 2 ^ 260| ≤ 1 := by
  have h1 : (2 ^ 260 : Int) * (a / 2 ^ 260) + a % 2 ^ 260 = a := Int.mul_ediv_add_emod a (2 ^ 260)
  have h2 : 0 ≤ a % 2 ^ 260 := Int.emod_nonneg _ (by norm_num)
  have h3 : a % 2 ^ 260 < 2 ^ 260 := Int.emod_lt_of_pos _ (by norm_num)
  have h1' : ((2:ℝ) ^ 260) * ((a / 2 ^ 260 : Int) : ℝ) + ((a % 2 ^ 260 : Int) : ℝ) = (a : ℝ) := by exact_mod_cast h1
  have h2' : (0:ℝ) ≤ ((a % 2 ^ 260 : Int) : ℝ) := by exact_mod_cast h2
  have h3' : ((a % 2 ^ 260 : Int) : ℝ) < 2 ^ 260 := by exact_mod_cast h3
  generalize ((a / 2 ^ 260 : Int) : ℝ) = q at *
  generalize ((a % 2 ^ 260 : Int) : ℝ) = r at *
  rw [← h1', abs_le]
  have p : (0:ℝ) < 2 ^ 260 := by norm_num
  have : (2 ^ 260 * q + r) / 2 ^ 260 = q + r / 2 ^ 260 := by field_simp
  rw [this]
  have : r / 2 ^ 260 < 1 := by rw [div_lt_one p]; exact h3'
  have : 0 ≤ r / 2 ^ 260 := by positivity
  constructor <;> linarith

theorem prod_near (u v a b e : ℝ) (hv : |v| ≤ 1) (hu : |u| ≤ 1) (ha : |2 ^ 260 * u - a| ≤ e)
    (hb : |2 ^ 260 * v - b| ≤ 2 ^ 40) (he : 2 ^ 40 ≤ e) :
    |2 ^ 260 * (u * v) - a * b / 2 ^ 260| ≤ 2 * e + e / 2 ^ 220 := by
  have p : (0:ℝ) < 2 ^ 260 := by norm_num
  obtain ⟨x, hx⟩ : ∃ x, x = 2 ^ 260 * u - a := ⟨_, rfl⟩
  obtain ⟨y, hy⟩ : ∃ y, y = 2 ^ 260 * v - b := ⟨_, rfl⟩
  have ea : a = 2 ^ 260 * u - x := by rw [hx]; ring
  have eb : b = 2 ^ 260 * v - y := by rw [hy]; ring
  rw [← hx] at ha
  rw [← hy] at hb
  have : 2 ^ 260 * (u * v) - a * b / 2 ^ 260 = u * y + v * x - x * y / 2 ^ 260 := by
    rw [ea, eb]; field_simp; ring
  rw [this]
  have h1 : |u * y| ≤ e := by
    rw [abs_mul]
    nlinarith [abs_nonneg u, abs_nonneg y]
  have h2 : |v * x| ≤ e := by
    rw [abs_mul]
    nlinarith [abs_nonneg v, abs_nonneg x]
  have h3 : |x * y / 2 ^ 260| ≤ e / 2 ^ 220 := by
    rw [abs_div, abs_mul, abs_of_pos p, div_le_div_iff₀ p (by norm_num)]
    have : |x| * |y| ≤ e * 2 ^ 40 := mul_le_mul ha hb (abs_nonneg _) (le_trans (by norm_num) he)
    calc |x| * |y| * 2 ^ 220 ≤ e * 2 ^ 40 * 2 ^ 220 := by nlinarith
      _ = e * 2 ^ 260 := by ring
  rw [abs_le] at *
  constructor <;> linarith

theorem near_succ (x : ℝ) (s c e : Int) (he : 2 ^ 40 ≤ e) (h : Near x s c e) :
    Near (x + 1) ((s * C1 + c * S1) / 2 ^ 260) ((c * C1 - s * S1) / 2 ^ 260) (5 * e) := by
  obtain ⟨hs, hc⟩ := h
  have he' : (2:ℝ) ^ 40 ≤ (e : ℝ) := by exact_mod_cast he
  have a1 := Real.abs_sin_le_one x
  have a2 := Real.abs_cos_le_one x
  have a3 := Real.abs_sin_le_one 1
  have a4 := Real.abs_cos_le_one 1
  have q1 := prod_near _ _ _ _ _ a4 a1 hs one_close.2 he'
  have q2 := prod_near _ _ _ _ _ a3 a2 hc one_close.1 he'
  have q3 := prod_near _ _ _ _ _ a4 a2 hc one_close.2 he'
  have q4 := prod_near _ _ _ _ _ a3 a1 hs one_close.1 he'
  have f1 := floor_near (s * C1 + c * S1)
  have f2 := floor_near (c * C1 - s * S1)
  have d1 : ((s * C1 + c * S1 : Int) : ℝ) / 2 ^ 260 = (s : ℝ) * C1 / 2 ^ 260 + (c : ℝ) * S1 / 2 ^ 260 := by
    push_cast; ring
  have d2 : ((c * C1 - s * S1 : Int) : ℝ) / 2 ^ 260 = (c : ℝ) * C1 / 2 ^ 260 - (s : ℝ) * S1 / 2 ^ 260 := by
    push_cast; ring
  rw [d1] at f1
  rw [d2] at f2
  have w : (e : ℝ) / 2 ^ 220 ≤ e / 8 := div_le_div_of_nonneg_left (le_trans (by norm_num) he') (by norm_num) (by norm_num)
  have w2 : (1 : ℝ) ≤ e / 8 := by
    have : (8 : ℝ) ≤ 2 ^ 40 := by norm_num
    linarith
  unfold Near
  rw [Real.sin_add, Real.cos_add, show ((5 * e : Int) : ℝ) = 5 * (e : ℝ) from by push_cast; rfl]
  generalize (((s * C1 + c * S1) / 2 ^ 260 : Int) : ℝ) = A at *
  generalize (((c * C1 - s * S1) / 2 ^ 260 : Int) : ℝ) = B at *
  generalize (s : ℝ) * C1 / 2 ^ 260 = p1 at *
  generalize (c : ℝ) * S1 / 2 ^ 260 = p2 at *
  generalize (c : ℝ) * C1 / 2 ^ 260 = p3 at *
  generalize (s : ℝ) * S1 / 2 ^ 260 = p4 at *
  simp only [abs_le] at q1 q2 q3 q4 f1 f2 ⊢
  refine ⟨⟨?_, ?_⟩, ?_, ?_⟩ <;> linarith

/-! ## The table -/

/-- Checks each entry of a table against the enclosure of the angle, moving on by 1 each time. -/
def check : List Nat → Int → Int → Int → Bool
  | [], _, _, _ => true
  | t :: l, s, c, e =>
    decide ((t : Int) * 2 ^ 228 + e ≤ |s|) && decide (|s| + e < ((t : Int) + 1) * 2 ^ 228)
      && check l ((s * C1 + c * S1) / 2 ^ 260) ((c * C1 - s * S1) / 2 ^ 260) (5 * e)

theorem check_floor (l : List Nat) (x : ℝ) (s c e : Int) (he : 2 ^ 40 ≤ e) (h : Near x s c e)
    (hk : check l s c e = true) (i : Nat) (hi : i < l.length) :
    l.getD i 0 = ⌊2 ^ 32 * |Real.sin (x + i)|⌋₊ := by
  induction l generalizing x s c e i with
  | nil => simp at hi
  | cons t l ih =>
    simp only [check, Bool.and_eq_true, decide_eq_true_eq] at hk
    obtain ⟨⟨h1, h2⟩, h3⟩ := hk
    cases i with
    | zero =>
      rw [List.getD_cons_zero, Nat.cast_zero, add_zero]
      symm
      rw [Nat.floor_eq_iff (by positivity)]
      have h1' : (t : ℝ) * 2 ^ 228 + e ≤ |(s : ℝ)| := by exact_mod_cast h1
      have h2' : |(s : ℝ)| + e < ((t : ℝ) + 1) * 2 ^ 228 := by exact_mod_cast h2
      have := (abs_abs_sub_abs_le (2 ^ 260 * Real.sin x) (s : ℝ)).trans h.1
      rw [abs_mul, abs_of_pos (show (0:ℝ) < 2 ^ 260 by norm_num), abs_le] at this
      have e1 : (2:ℝ) ^ 260 * |Real.sin x| = 2 ^ 228 * (2 ^ 32 * |Real.sin x|) := by ring
      rw [e1] at this
      generalize 2 ^ 32 * |Real.sin x| = y at *
      have p : (0:ℝ) < 2 ^ 228 := by norm_num
      constructor
      · by_contra hc
        have : 2 ^ 228 * y < 2 ^ 228 * t := by nlinarith
        linarith
      · by_contra hc
        have : 2 ^ 228 * ((t : ℝ) + 1) ≤ 2 ^ 228 * y := by nlinarith
        linarith
    | succ i =>
      rw [List.getD_cons_succ]
      have := ih (x + 1) _ _ (5 * e) (by omega) (near_succ x s c e he h) h3 i (by simpa using hi)
      rw [this]
      push_cast
      rw [add_assoc, add_comm (1:ℝ)]

theorem table_checks : check (Spec.Md5.T.map BitVec.toNat) S1 C1 (2 ^ 40) = true := by
  decide +kernel

theorem table (i : Nat) (hi : i < 64) :
    (Spec.Md5.T.getD i 0).toNat = ⌊2 ^ 32 * |Real.sin ((i : ℝ) + 1)|⌋₊ := by
  have h := check_floor (Spec.Md5.T.map BitVec.toNat) 1 S1 C1 (2 ^ 40) (le_refl _)
    ⟨one_close.1.trans (by norm_num), one_close.2.trans (by norm_num)⟩ table_checks i (by simpa [Spec.Md5.T] using hi)
  rw [add_comm, ← h]
  have hl : i < Spec.Md5.T.length := by simpa [Spec.Md5.T] using hi
  rw [List.getD_eq_getElem?_getD, List.getD_eq_getElem?_getD, List.getElem?_map,
    List.getElem?_eq_getElem hl]
  rfl

end Pgfe.Proofs.Md5Sin
