import Verif.Proofs.KeccakSponge
import Verif.Proofs.Collision
import Verif.Spec.SpongeCollision
import Mathlib.Data.Fintype.EquivFin
import Mathlib.Data.Fintype.Vector
import Mathlib.Tactic.NormNum
/-!
# KECCAK-f is a permutation, and the padding of the sponge is injective
-/
namespace Pgfe.Proofs.KInj
open Pgfe.Spec.Keccak Pgfe.Proofs.Keccak

theorem xor_zero : ∀ a b : Bool, (a ^^ b) = false → a = b := by decide
theorem xor_cancel : ∀ a b c : Bool, (a ^^ c) = (b ^^ c) → a = b := by decide

/-! ## The five step mappings are injective -/

/-- The column parities of a difference: if they satisfy the equation `P = X P + Y P` of theta's kernel, where `X`
and `Y` are shifts, then also with the shifts applied `2^k` times. -/
theorem shift_pow (P : Nat → Nat → Bool) (hx : ∀ x z, P (x + 5) z = P x z)
    (h : ∀ x z, P x z = (P (x + 4) z ^^ P (x + 1) (z + 63))) :
    ∀ k x z, P x z = (P (x + 4 * 2 ^ k) z ^^ P (x + 2 ^ k) (z + 63 * 2 ^ k)) := by
  intro k
  induction k with
  | zero => intro x z; simpa using h x z
  | succ k ih =>
    intro x z
    have px (n x z : Nat) : P (x + 5 * n) z = P x z := by
      induction n with
      | zero => rfl
      | succ n ih => rw [show x + 5 * (n + 1) = x + 5 * n + 5 by omega, hx, ih]
    have h1 := ih (x + 4 * 2 ^ k) z
    have h2 := ih (x + 2 ^ k) (z + 63 * 2 ^ k)
    have e1 : P (x + 4 * 2 ^ k + 2 ^ k) (z + 63 * 2 ^ k) = P x (z + 63 * 2 ^ k) := by
      rw [show x + 4 * 2 ^ k + 2 ^ k = x + 5 * 2 ^ k by omega, px]
    have e2 : P (x + 2 ^ k + 4 * 2 ^ k) (z + 63 * 2 ^ k) = P x (z + 63 * 2 ^ k) := by
      rw [show x + 2 ^ k + 4 * 2 ^ k = x + 5 * 2 ^ k by omega, px]
    rw [e1] at h1
    rw [e2] at h2
    rw [ih x z, h1, h2, show x + 4 * 2 ^ k + 4 * 2 ^ k = x + 4 * 2 ^ (k + 1) by omega,
      show x + 2 ^ k + 2 ^ k = x + 2 ^ (k + 1) by omega,
      show z + 63 * 2 ^ k + 63 * 2 ^ k = z + 63 * 2 ^ (k + 1) by omega]
    cases P x (z + 63 * 2 ^ k) <;> cases P (x + 4 * 2 ^ (k + 1)) z <;> cases P (x + 2 ^ (k + 1)) (z + 63 * 2 ^ (k + 1)) <;> rfl

theorem kernel_zero (P : Nat → Nat → Bool) (hx : ∀ x z, P (x + 5) z = P x z) (hz : ∀ x z, P x (z + 64) = P x z)
    (h : ∀ x z, P x z = (P (x + 4) z ^^ P (x + 1) (z + 63))) (x z : Nat) : P x z = false := by
  have px (n x z : Nat) : P (x + 5 * n) z = P x z := by
    induction n with
    | zero => rfl
    | succ n ih => rw [show x + 5 * (n + 1) = x + 5 * n + 5 by omega, hx, ih]
  have pz (n x z : Nat) : P x (z + 64 * n) = P x z := by
    induction n with
    | zero => rfl
    | succ n ih => rw [show z + 64 * (n + 1) = z + 64 * n + 64 by omega, hz, ih]
  have h6 (x : Nat) : P x z = (P (x + 1) z ^^ P (x + 4) z) := by
    have := shift_pow P hx h 6 x z
    rw [show x + 4 * 2 ^ 6 = x + 1 + 5 * 51 by omega, show x + 2 ^ 6 = x + 4 + 5 * 12 by omega,
      show z + 63 * 2 ^ 6 = z + 64 * 63 by omega, px, px, pz] at this
    exact this
  have a0 := h6 x
  have a1 := h6 (x + 1)
  have a2 := h6 (x + 2)
  have a3 := h6 (x + 3)
  have a4 := h6 (x + 4)
  have b0 := hx x z
  have b1 := hx (x + 1) z
  have b2 := hx (x + 2) z
  have b3 := hx (x + 3) z
  simp only [Nat.add_assoc] at a0 a1 a2 a3 a4 b0 b1 b2 b3
  norm_num at a0 a1 a2 a3 a4 b0 b1 b2 b3
  rw [b0] at a1 a4
  rw [b1] at a2
  rw [b2] at a3
  rw [b3] at a4
  revert a0 a1 a2 a3 a4
  cases P x z <;> cases P (x + 1) z <;> cases P (x + 2) z <;> cases P (x + 3) z <;> cases P (x + 4) z <;> simp

theorem theta_inj {A B : StateArray} (h : Agree (theta A) (theta B)) : Agree A B := by
  have hc : ∀ x z, (thetaC A (x % 5) (z % 64) ^^ thetaC B (x % 5) (z % 64)) = false := by
    refine kernel_zero (fun x z => thetaC A (x % 5) (z % 64) ^^ thetaC B (x % 5) (z % 64)) ?_ ?_ ?_
    · intro x z; simp
    · intro x z; simp
    · intro x z
      have q : ∀ y < 5, (A (x % 5) y (z % 64) ^^ thetaD A (x % 5) (z % 64)) = (B (x % 5) y (z % 64) ^^ thetaD B (x % 5) (z % 64)) :=
        fun y hy => h (x % 5) y (z % 64) (Nat.mod_lt _ (by decide)) hy (Nat.mod_lt _ (by decide))
      have d (A : StateArray) : thetaD A (x % 5) (z % 64) = (thetaC A ((x + 4) % 5) (z % 64) ^^ thetaC A ((x + 1) % 5) ((z + 63) % 64)) := by
        rw [thetaD, show (x % 5 + 4) % 5 = (x + 4) % 5 by omega, show (x % 5 + 1) % 5 = (x + 1) % 5 by omega,
          show (z % 64 + 63) % 64 = (z + 63) % 64 by omega]
      have q0 := q 0 (by decide)
      have q1 := q 1 (by decide)
      have q2 := q 2 (by decide)
      have q3 := q 3 (by decide)
      have q4 := q 4 (by decide)
      have key : (thetaC A (x % 5) (z % 64) ^^ thetaC B (x % 5) (z % 64)) = (thetaD A (x % 5) (z % 64) ^^ thetaD B (x % 5) (z % 64)) := by
        rw [thetaC, thetaC]
        revert q0 q1 q2 q3 q4
        generalize thetaD A (x % 5) (z % 64) = dA
        generalize thetaD B (x % 5) (z % 64) = dB
        have e (a b : Bool) : (a ^^ dA) = (b ^^ dB) → b = (a ^^ (dA ^^ dB)) := by cases a <;> cases b <;> cases dA <;> cases dB <;> simp
        intro q0 q1 q2 q3 q4
        rw [e _ _ q0, e _ _ q1, e _ _ q2, e _ _ q3, e _ _ q4]
        generalize A (x % 5) 0 (z % 64) = a0
        generalize A (x % 5) 1 (z % 64) = a1
        generalize A (x % 5) 2 (z % 64) = a2
        generalize A (x % 5) 3 (z % 64) = a3
        generalize A (x % 5) 4 (z % 64) = a4
        generalize (dA ^^ dB) = t
        cases a0 <;> cases a1 <;> cases a2 <;> cases a3 <;> cases a4 <;> cases t <;> rfl
      show (thetaC A (x % 5) (z % 64) ^^ thetaC B (x % 5) (z % 64)) = _
      rw [key, d, d]
      generalize thetaC A ((x + 4) % 5) (z % 64) = a
      generalize thetaC B ((x + 4) % 5) (z % 64) = b
      generalize thetaC A ((x + 1) % 5) ((z + 63) % 64) = c
      generalize thetaC B ((x + 1) % 5) ((z + 63) % 64) = d
      cases a <;> cases b <;> cases c <;> cases d <;> rfl
  have hc' : ∀ x z, x < 5 → z < 64 → thetaC A x z = thetaC B x z := by
    intro x z hx hz
    have := hc x z
    rw [Nat.mod_eq_of_lt hx, Nat.mod_eq_of_lt hz] at this
    exact xor_zero _ _ this
  intro x y z hx hy hz
  have e := h x y z hx hy hz
  rw [theta, theta, thetaD, thetaD, hc' _ _ (Nat.mod_lt _ (by decide)) hz,
    hc' _ _ (Nat.mod_lt _ (by decide)) (Nat.mod_lt _ (by decide))] at e
  exact xor_cancel _ _ _ e

theorem rho_inj {A B : StateArray} (h : Agree (rho A) (rho B)) : Agree A B := by
  intro x y z hx hy hz
  cases hf : (List.range 24).find? (fun t => rhoPos t == (x, y)) with
  | none =>
    have := h x y z hx hy hz
    rw [rho, rho, hf] at this
    exact this
  | some t =>
    have ht : t < 24 := List.mem_range.1 (List.mem_of_find?_eq_some hf)
    have := h x y ((z + (t + 1) * (t + 2) / 2) % 64) hx hy (Nat.mod_lt _ (by decide))
    rw [rho, rho, hf] at this
    have b : (t + 1) * (t + 2) / 2 ≤ 300 := by
      have : (t + 1) * (t + 2) ≤ 24 * 25 := Nat.mul_le_mul (by omega) (by omega)
      omega
    have e : ((z + (t + 1) * (t + 2) / 2) % 64 + 5 * 64 - (t + 1) * (t + 2) / 2) % 64 = z := by omega
    simp only [e] at this
    exact this

theorem pi_inj {A B : StateArray} (h : Agree (Pgfe.Spec.Keccak.pi A) (Pgfe.Spec.Keccak.pi B)) : Agree A B := by
  intro x y z hx hy hz
  have := h y ((2 * (x + 5 - y)) % 5) z hy (Nat.mod_lt _ (by decide)) hz
  rw [Pgfe.Spec.Keccak.pi, Pgfe.Spec.Keccak.pi, show (y + 3 * ((2 * (x + 5 - y)) % 5)) % 5 = x by omega] at this
  exact this

theorem chi_row : ∀ a0 a1 a2 a3 a4 b0 b1 b2 b3 b4 : Bool,
    (a0 ^^ ((a1 ^^ true) && a2)) = (b0 ^^ ((b1 ^^ true) && b2)) → (a1 ^^ ((a2 ^^ true) && a3)) = (b1 ^^ ((b2 ^^ true) && b3)) →
    (a2 ^^ ((a3 ^^ true) && a4)) = (b2 ^^ ((b3 ^^ true) && b4)) → (a3 ^^ ((a4 ^^ true) && a0)) = (b3 ^^ ((b4 ^^ true) && b0)) →
    (a4 ^^ ((a0 ^^ true) && a1)) = (b4 ^^ ((b0 ^^ true) && b1)) → a0 = b0 ∧ a1 = b1 ∧ a2 = b2 ∧ a3 = b3 ∧ a4 = b4 := by
  decide +kernel

theorem chi_inj {A B : StateArray} (h : Agree (chi A) (chi B)) : Agree A B := by
  intro x y z hx hy hz
  obtain ⟨h0, h1, h2, h3, h4⟩ := chi_row _ _ _ _ _ _ _ _ _ _ (h 0 y z (by decide) hy hz) (h 1 y z (by decide) hy hz)
    (h 2 y z (by decide) hy hz) (h 3 y z (by decide) hy hz) (h 4 y z (by decide) hy hz)
  match x, hx with
  | 0, _ => exact h0
  | 1, _ => exact h1
  | 2, _ => exact h2
  | 3, _ => exact h3
  | 4, _ => exact h4

theorem iota_inj (i : Nat) {A B : StateArray} (h : Agree (iota i A) (iota i B)) : Agree A B := by
  intro x y z hx hy hz
  have := h x y z hx hy hz
  rw [iota, iota] at this
  split at this
  · exact xor_cancel _ _ _ this
  · exact this

theorem rounds_inj (l : List Nat) : ∀ {A B : StateArray}, Agree (l.foldl rnd A) (l.foldl rnd B) → Agree A B := by
  induction l with
  | nil => exact fun h => h
  | cons i l ih => exact fun h => theta_inj (rho_inj (pi_inj (chi_inj (iota_inj i (ih h)))))

theorem keccakF_inj {S T : List Bool} (hS : S.length = 1600) (hT : T.length = 1600) (h : keccakF S = keccakF T) : S = T := by
  have hA : Agree (arrayOf S) (arrayOf T) := by
    apply rounds_inj (List.range 24)
    intro x y z hx hy hz
    rw [← arrayOf_stringOf ((List.range 24).foldl rnd (arrayOf S)) x y z hx hy hz, ← arrayOf_stringOf ((List.range 24).foldl rnd (arrayOf T)) x y z hx hy hz]
    rw [keccakF, keccakF] at h
    rw [h]
  apply List.ext_getElem (by omega)
  intro i h1 h2
  have := hA (i / 64 % 5) (i / 64 / 5) (i % 64) (Nat.mod_lt _ (by decide)) (by omega) (Nat.mod_lt _ (by decide))
  rw [arrayOf, arrayOf, show 64 * (5 * (i / 64 / 5) + i / 64 % 5) + i % 64 = i by omega] at this
  simpa [h1, h2] using this

/-! ## The padding -/

theorem bitsOf_inj {m n : List Byte} (h : bitsOf m = bitsOf n) : m = n := by
  rw [← bytesOf_bitsOf m, h, bytesOf_bitsOf]

theorem strip (j k : Nat) (a b : List Bool) (h : a ++ true :: List.replicate j false = b ++ true :: List.replicate k false) :
    a = b := by
  induction j generalizing k with
  | zero =>
    cases k with
    | zero => exact List.append_cancel_right h
    | succ k =>
      rw [List.replicate_succ', ← List.cons_append, ← List.append_assoc] at h
      have := congrArg List.getLast? h
      rw [List.getLast?_concat, show List.replicate 0 false = [] from rfl, List.getLast?_concat] at this
      cases this
  | succ j ih =>
    cases k with
    | zero =>
      rw [List.replicate_succ', ← List.cons_append, ← List.append_assoc] at h
      have := congrArg List.getLast? h
      rw [List.getLast?_concat, show List.replicate 0 false = [] from rfl, List.getLast?_concat] at this
      cases this
    | succ k =>
      rw [List.replicate_succ', List.replicate_succ', ← List.cons_append, ← List.cons_append,
        ← List.append_assoc, ← List.append_assoc] at h
      exact ih k (List.append_cancel_right h)

theorem pad_inj (r : Nat) (a b : List Bool) (h : a ++ pad10star1 r a.length = b ++ pad10star1 r b.length) : a = b := by
  rw [pad10star1, pad10star1, ← List.append_assoc, ← List.append_assoc] at h
  exact strip _ _ _ _ (List.append_cancel_right h)

/-! ## The sponge -/
open Pgfe.Spec

theorem zip_zero (l : List Bool) : List.zipWith (· ^^ ·) l (List.replicate l.length false) = l := by
  induction l with
  | nil => rfl
  | cons x l ih => rw [List.length_cons, List.replicate_succ, List.zipWith_cons_cons, ih, Bool.xor_false]

theorem zip_cancel (l a b : List Bool) (ha : a.length = l.length) (hb : b.length = l.length)
    (h : List.zipWith (· ^^ ·) l a = List.zipWith (· ^^ ·) l b) : a = b := by
  induction l generalizing a b with
  | nil => rw [List.length_eq_zero_iff.1 ha, List.length_eq_zero_iff.1 hb]
  | cons x l ih =>
    cases a with
    | nil => cases ha
    | cons y a =>
      cases b with
      | nil => cases hb
      | cons z b =>
        rw [List.zipWith_cons_cons, List.zipWith_cons_cons, List.cons.injEq] at h
        rw [ih a b (by simpa using ha) (by simpa using hb) h.2]
        congr 1
        have := h.1
        revert this
        cases x <;> cases y <;> cases z <;> decide

theorem state_snoc (r : Nat) (q : List (List Bool)) (b : List Bool) :
    stateAfter r (q ++ [b]) = absorbBlock r (stateAfter r q) b := by
  unfold stateAfter
  generalize List.replicate 1600 false = z
  rw [List.foldl_append, List.foldl_cons, List.foldl_nil]

theorem state_length (r : Nat) (l : List (List Bool)) : (stateAfter r l).length = 1600 := by
  rcases List.eq_nil_or_concat l with rfl | ⟨q, b, rfl⟩
  · unfold stateAfter
    rw [List.foldl_nil, List.length_replicate]
  · rw [List.concat_eq_append, state_snoc, absorbBlock, keccakF, stringOf_length]

theorem inner (r : Nat) (hr : r ≤ 1600) (l₁ l₂ : List (List Bool)) (b₁ : ∀ b ∈ l₁, b.length = r) (b₂ : ∀ b ∈ l₂, b.length = r)
    (n₁ : l₁ ≠ []) (n₂ : l₂ ≠ []) (hne : l₁ ≠ l₂) (h : stateAfter r l₁ = stateAfter r l₂) : InnerCollision r l₁ l₂ := by
  rcases List.eq_nil_or_concat l₁ with rfl | ⟨q₁, x₁, rfl⟩
  · exact absurd rfl n₁
  rcases List.eq_nil_or_concat l₂ with rfl | ⟨q₂, x₂, rfl⟩
  · exact absurd rfl n₂
  rw [List.concat_eq_append] at b₁ hne h ⊢
  rw [List.concat_eq_append] at b₂ hne h ⊢
  have l₁ := b₁ x₁ (by simp)
  have l₂ := b₂ x₂ (by simp)
  have s₁ := state_length r q₁
  have s₂ := state_length r q₂
  have e : List.zipWith (· ^^ ·) (stateAfter r q₁) (x₁ ++ List.replicate (1600 - r) false)
      = List.zipWith (· ^^ ·) (stateAfter r q₂) (x₂ ++ List.replicate (1600 - r) false) := by
    rw [state_snoc, state_snoc] at h
    apply keccakF_inj _ _ h
    · rw [List.length_zipWith, List.length_append, List.length_replicate, s₁, l₁]; omega
    · rw [List.length_zipWith, List.length_append, List.length_replicate, s₂, l₂]; omega
  by_cases hq : q₁ = q₂
  · subst hq
    exfalso
    have := zip_cancel _ _ _ (by rw [s₁, List.length_append, List.length_replicate, l₁]; omega)
      (by rw [s₁, List.length_append, List.length_replicate, l₂]; omega) e
    exact hne (by rw [List.append_cancel_right this])
  · refine ⟨q₁, q₂, List.prefix_append _ _, List.prefix_append _ _, hq, ?_⟩
    have d := congrArg (List.drop r) e
    rw [List.drop_zipWith, List.drop_zipWith, List.drop_left' l₁, List.drop_left' l₂] at d
    have z (S : List Bool) (hS : S.length = 1600) :
        List.zipWith (· ^^ ·) (S.drop r) (List.replicate (1600 - r) false) = S.drop r := by
      have := zip_zero (S.drop r)
      rw [List.length_drop, hS] at this
      exact this
    rw [z _ s₁, z _ s₂] at d
    exact d

theorem flatten_bitBlocks (r k : Nat) (hr : 0 < r) (p : List Bool) (h : p.length = k * r) : (bitBlocks r p).flatten = p := by
  apply List.ext_getElem?
  intro i
  have hk : p.length / r = k := by rw [h, Nat.mul_div_cancel _ hr]
  have hlen : ∀ x ∈ List.range k, ((p.drop (x * r)).take r).length = r := by
    intro x hx
    rw [List.length_take, List.length_drop, h]
    have := List.mem_range.1 hx
    have : (x + 1) * r ≤ k * r := Nat.mul_le_mul_right _ this
    rw [Nat.succ_mul] at this
    omega
  rw [bitBlocks, hk, ← List.flatMap_def, Pgfe.Proofs.Sha.flatMap_getElem? _ r _ hlen i hr]
  by_cases hi : i < p.length
  · have hd : i / r < k := by rw [← hk]; exact Nat.div_lt_div_of_lt_of_dvd ⟨k, by rw [h, Nat.mul_comm]⟩ hi
    have hm := Nat.mod_lt i hr
    rw [List.getElem?_range hd, Option.bind_some, List.getElem?_take, if_pos hm, List.getElem?_drop]
    congr 1
    rw [Nat.mul_comm]; exact Nat.div_add_mod i r
  · rw [List.getElem?_eq_none (Nat.le_of_not_lt hi)]
    have hd : ¬ i / r < k := by
      rw [h] at hi
      intro hd
      exact hi ((Nat.div_lt_iff_lt_mul hr).1 hd)
    rw [List.getElem?_eq_none (by simpa using hd), Option.bind_none]

end Pgfe.Proofs.KInj
