import Mathlib.Analysis.SpecialFunctions.Trigonometric.Arctan
import Mathlib.Analysis.SpecialFunctions.Complex.Arctan
import Mathlib.Analysis.SpecificLimits.Normed
/-!
# Bounds for π by Machin's formula

`π = 16 arctan (1/5) - 4 arctan (1/239)`, with the alternating series of the arctangent evaluated in fixed-point
arithmetic by the kernel.
-/
namespace Pgfe.Proofs.Pi
open Finset Filter Topology

/-- Evaluate `x` before it is substituted. -/
def seq {α : Type} (x : Nat) (f : Nat → α) : α := Nat.rec (motive := fun _ => α) (f 0) (fun n _ => f (n + 1)) x

theorem seq_eq {α : Type} (x : Nat) (f : Nat → α) : seq x f = f x := by cases x <;> rfl

/-- `n` pairs of terms of the series. -/
def loop (m2 : Nat) (n : Nat) : Nat → Nat → Nat → Nat → Nat × Nat :=
  Nat.rec (motive := fun _ => Nat → Nat → Nat → Nat → Nat × Nat) (fun _ _ a b => (a, b))
    (fun _ ih p k a b =>
      seq (p / m2) fun q => seq (a + p / k) fun a => seq (k + 2) fun k => seq (b + q / k) fun b =>
      seq (q / m2) fun p => seq (k + 2) fun k => ih p k a b) n

theorem loop_succ (m2 n p k a b : Nat) : loop m2 (n + 1) p k a b =
    loop m2 n (p / m2 / m2) (k + 2 + 2) (a + p / k) (b + p / m2 / (k + 2)) := by
  show (seq (p / m2) fun q => seq (a + p / k) fun a => seq (k + 2) fun k => seq (b + q / k) fun b =>
      seq (q / m2) fun p => seq (k + 2) fun k => loop m2 n p k a b) = _
  simp only [seq_eq]

theorem loop_eq (m B : Nat) : ∀ n k a b, loop (m * m) n (2 ^ B / m ^ k) k a b =
    (a + ∑ i ∈ range n, 2 ^ B / (m ^ (k + 4 * i) * (k + 4 * i)),
     b + ∑ i ∈ range n, 2 ^ B / (m ^ (k + 4 * i + 2) * (k + 4 * i + 2))) := by
  intro n
  induction n with
  | zero => intro k a b; simp [loop]
  | succ n ih =>
    intro k a b
    have e1 : 2 ^ B / m ^ k / (m * m) = 2 ^ B / m ^ (k + 2) := by
      rw [Nat.div_div_eq_div_mul, pow_add]; ring_nf
    have e2 : 2 ^ B / m ^ (k + 2) / (m * m) = 2 ^ B / m ^ (k + 4) := by
      rw [Nat.div_div_eq_div_mul, show k + 4 = k + 2 + 2 by omega, pow_add _ (k + 2) 2]; ring_nf
    rw [loop_succ, e1, e2, show k + 2 + 2 = k + 4 by omega, ih]
    rw [sum_range_succ', sum_range_succ' _ n, Nat.div_div_eq_div_mul, Nat.div_div_eq_div_mul]
    have e3 : ∀ i, k + 4 + 4 * i = k + 4 * (i + 1) := by intro i; omega
    simp only [e3, Nat.mul_zero, Nat.add_zero]
    ext1
    · dsimp only; omega
    · dsimp only; omega

/-- The absolute value of term `j` of the series at `1/m`. -/
noncomputable def f (m : Nat) (j : Nat) : ℝ := ((m : ℝ)⁻¹) ^ (2 * j + 1) / (2 * j + 1)

theorem f_antitone (m : Nat) (hm : 1 ≤ m) : Antitone (f m) := by
  apply antitone_nat_of_succ_le
  intro n
  have h0 : (0 : ℝ) ≤ (m : ℝ)⁻¹ := by positivity
  have h1 : ((m : ℝ)⁻¹) ≤ 1 := by
    apply inv_le_one_of_one_le₀; exact_mod_cast hm
  unfold f
  apply div_le_div₀
  · positivity
  · exact pow_le_pow_of_le_one h0 h1 (by omega)
  · positivity
  · push_cast; linarith

theorem f_tendsto (m : Nat) (hm : 2 ≤ m) :
    Tendsto (fun n ↦ ∑ i ∈ range n, (-1) ^ i * f m i) atTop (𝓝 (Real.arctan (m : ℝ)⁻¹)) := by
  have h1 : ‖((m : ℝ)⁻¹)‖ < 1 := by
    rw [norm_inv, Real.norm_natCast]
    apply inv_lt_one_of_one_lt₀
    have : (2 : ℝ) ≤ m := by exact_mod_cast hm
    linarith
  have h := (Real.hasSum_arctan h1).tendsto_sum_nat
  refine h.congr ?_
  intro n
  apply sum_congr rfl
  intro i _
  unfold f
  push_cast
  ring

theorem f_div (m B j : Nat) (hm : 1 ≤ m) :
    ((2 ^ B / (m ^ (2 * j + 1) * (2 * j + 1)) : Nat) : ℝ) ≤ 2 ^ B * f m j ∧
    2 ^ B * f m j ≤ ((2 ^ B / (m ^ (2 * j + 1) * (2 * j + 1)) : Nat) : ℝ) + 1 := by
  have hpos : 0 < m ^ (2 * j + 1) * (2 * j + 1) := by positivity
  have e : 2 ^ B * f m j = ((2 ^ B : Nat) : ℝ) / ((m ^ (2 * j + 1) * (2 * j + 1) : Nat) : ℝ) := by
    unfold f; push_cast
    rw [inv_pow, div_eq_mul_inv, div_eq_mul_inv, mul_inv]
  rw [e]
  constructor
  · exact Nat.cast_div_le
  · rw [div_le_iff₀ (by exact_mod_cast hpos)]
    have := Nat.lt_div_mul_add (a := 2 ^ B) hpos
    have h2 : 2 ^ B ≤ (2 ^ B / (m ^ (2 * j + 1) * (2 * j + 1)) + 1) * (m ^ (2 * j + 1) * (2 * j + 1)) := by
      rw [Nat.add_mul, Nat.one_mul]; omega
    exact_mod_cast h2

theorem sum_pairs (g : Nat → ℝ) (N : Nat) :
    ∑ i ∈ range (2 * N), (-1) ^ i * g i = ∑ i ∈ range N, g (2 * i) - ∑ i ∈ range N, g (2 * i + 1) := by
  induction N with
  | zero => simp
  | succ N ih =>
    rw [show 2 * (N + 1) = 2 * N + 1 + 1 by ring, sum_range_succ, sum_range_succ, ih, sum_range_succ, sum_range_succ,
      pow_succ, pow_mul]
    norm_num
    ring

/-- The fixed-point value of `arctan (1/m)` is exact up to `N + 1` units. -/
theorem arctan_bounds (m B N : Nat) (hm : 2 ≤ m) (hN : 2 ^ B ≤ m ^ (4 * N + 1) * (4 * N + 1)) :
    ((loop (m * m) N (2 ^ B / m) 1 0 0).1 : ℝ) - (loop (m * m) N (2 ^ B / m) 1 0 0).2 - (N + 1) ≤
      2 ^ B * Real.arctan (m : ℝ)⁻¹ ∧
    2 ^ B * Real.arctan (m : ℝ)⁻¹ ≤
      ((loop (m * m) N (2 ^ B / m) 1 0 0).1 : ℝ) - (loop (m * m) N (2 ^ B / m) 1 0 0).2 + (N + 1) := by
  have hl := loop_eq m B N 1 0 0
  rw [pow_one] at hl
  rw [hl]
  dsimp only
  have lo := (f_antitone m (by omega)).alternating_series_le_tendsto (f_tendsto m hm) N
  have hi := (f_antitone m (by omega)).tendsto_le_alternating_series (f_tendsto m hm) N
  rw [sum_range_succ, pow_mul] at hi
  norm_num at hi
  rw [sum_pairs] at lo hi
  have h2B : (0 : ℝ) < 2 ^ B := by positivity
  have lo' := mul_le_mul_of_nonneg_left lo h2B.le
  have hi' := mul_le_mul_of_nonneg_left hi h2B.le
  rw [mul_sub, mul_sum, mul_sum] at lo'
  rw [mul_add, mul_sub, mul_sum, mul_sum] at hi'
  have hlast : 2 ^ B * f m (2 * N) ≤ 1 := by
    unfold f
    have hpos : (0 : ℝ) < m ^ (4 * N + 1) * (4 * N + 1) := by
      have : (0 : ℝ) < m := by exact_mod_cast (by omega : 0 < m)
      positivity
    have e : 2 ^ B * (((m : ℝ)⁻¹) ^ (2 * (2 * N) + 1) / (2 * ((2 * N : Nat) : ℝ) + 1)) =
        (2 : ℝ) ^ B / (m ^ (4 * N + 1) * (4 * N + 1)) := by
      push_cast
      rw [inv_pow, div_eq_mul_inv, div_eq_mul_inv, mul_inv, show 2 * (2 * N) + 1 = 4 * N + 1 by ring]
      ring
    rw [e, div_le_one hpos]
    exact_mod_cast hN
  have s1 : ∑ i ∈ range N, ((2 ^ B / (m ^ (1 + 4 * i) * (1 + 4 * i)) : Nat) : ℝ) ≤ ∑ i ∈ range N, 2 ^ B * f m (2 * i) := by
    apply sum_le_sum
    intro i _
    have := (f_div m B (2 * i) (by omega)).1
    rwa [show 2 * (2 * i) + 1 = 1 + 4 * i by ring] at this
  have s2 : ∑ i ∈ range N, 2 ^ B * f m (2 * i) ≤
      ∑ i ∈ range N, ((2 ^ B / (m ^ (1 + 4 * i) * (1 + 4 * i)) : Nat) : ℝ) + N := by
    have : ∑ i ∈ range N, 2 ^ B * f m (2 * i) ≤
        ∑ i ∈ range N, (((2 ^ B / (m ^ (1 + 4 * i) * (1 + 4 * i)) : Nat) : ℝ) + 1) := by
      apply sum_le_sum
      intro i _
      have := (f_div m B (2 * i) (by omega)).2
      rwa [show 2 * (2 * i) + 1 = 1 + 4 * i by ring] at this
    rw [sum_add_distrib] at this
    simpa using this
  have s3 : ∑ i ∈ range N, ((2 ^ B / (m ^ (1 + 4 * i + 2) * (1 + 4 * i + 2)) : Nat) : ℝ) ≤
      ∑ i ∈ range N, 2 ^ B * f m (2 * i + 1) := by
    apply sum_le_sum
    intro i _
    have := (f_div m B (2 * i + 1) (by omega)).1
    rwa [show 2 * (2 * i + 1) + 1 = 1 + 4 * i + 2 by ring] at this
  have s4 : ∑ i ∈ range N, 2 ^ B * f m (2 * i + 1) ≤
      ∑ i ∈ range N, ((2 ^ B / (m ^ (1 + 4 * i + 2) * (1 + 4 * i + 2)) : Nat) : ℝ) + N := by
    have : ∑ i ∈ range N, 2 ^ B * f m (2 * i + 1) ≤
        ∑ i ∈ range N, (((2 ^ B / (m ^ (1 + 4 * i + 2) * (1 + 4 * i + 2)) : Nat) : ℝ) + 1) := by
      apply sum_le_sum
      intro i _
      have := (f_div m B (2 * i + 1) (by omega)).2
      rwa [show 2 * (2 * i + 1) + 1 = 1 + 4 * i + 2 by ring] at this
    rw [sum_add_distrib] at this
    simpa using this
  rw [Nat.zero_add, Nat.zero_add]
  push_cast at s1 s2 s3 s4 ⊢
  constructor <;> linarith

/-- The sums for 1/5. -/
def s5 (B N : Nat) : Nat × Nat := loop 25 N (2 ^ B / 5) 1 0 0
/-- The sums for 1/239. -/
def s239 (B N : Nat) : Nat × Nat := loop 57121 N (2 ^ B / 239) 1 0 0

theorem pi_bounds (B N M : Nat) (h5 : 2 ^ B ≤ 5 ^ (4 * N + 1) * (4 * N + 1))
    (h239 : 2 ^ B ≤ 239 ^ (4 * M + 1) * (4 * M + 1)) :
    16 * (((s5 B N).1 : ℝ) - (s5 B N).2 - (N + 1)) - 4 * (((s239 B M).1 : ℝ) - (s239 B M).2 + (M + 1)) ≤
      2 ^ B * Real.pi ∧
    2 ^ B * Real.pi ≤
      16 * (((s5 B N).1 : ℝ) - (s5 B N).2 + (N + 1)) - 4 * (((s239 B M).1 : ℝ) - (s239 B M).2 - (M + 1)) := by
  obtain ⟨a1, a2⟩ := arctan_bounds 5 B N (by omega) h5
  obtain ⟨b1, b2⟩ := arctan_bounds 239 B M (by omega) h239
  have hpi : Real.pi = 16 * Real.arctan ((5 : Nat) : ℝ)⁻¹ - 4 * Real.arctan ((239 : Nat) : ℝ)⁻¹ := by
    have := Real.four_mul_arctan_inv_5_sub_arctan_inv_239
    push_cast
    linarith
  have e5 : loop (5 * 5) N (2 ^ B / 5) 1 0 0 = s5 B N := rfl
  have e239 : loop (239 * 239) M (2 ^ B / 239) 1 0 0 = s239 B M := rfl
  rw [e5] at a1 a2
  rw [e239] at b1 b2
  rw [hpi]
  constructor <;> nlinarith

end Pgfe.Proofs.Pi
