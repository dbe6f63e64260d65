import Verif.Model.Keccak
import Verif.Spec.Keccak
import Verif.Proofs.ShaBlock
/-!
# The permutation is KECCAK-f[1600]
-/
namespace Pgfe.Proofs.Keccak
open Pgfe.Model Pgfe.Spec.Keccak
open Pgfe.Proofs.Sha (clshift_eq)

/-- The state array a list of 25 lanes represents. -/
def bitAt (A : List W64) : StateArray := fun x y z => (A.getD (5 * x + y) 0#64).getLsbD z

/-- 25 lanes given by a function. -/
def lst (f : Nat → W64) : List W64 := (List.range 25).map f

theorem lst_length (f : Nat → W64) : (lst f).length = 25 := by simp [lst]

theorem lst_eta (A : List W64) (h : A.length = 25) : A = lst (fun i => A.getD i 0#64) := by
  apply List.ext_getElem (by simp [lst, h])
  intro i h1 h2
  simp [lst, h1]

theorem lst_congr {f g : Nat → W64} (h : ∀ i, i < 25 → f i = g i) : lst f = lst g := by
  apply List.map_congr_left
  intro i hi
  exact h i (List.mem_range.1 hi)

theorem lst_getD (f : Nat → W64) (i : Nat) (h : i < 25) : (lst f).getD i 0#64 = f i := by
  simp [lst, h]

theorem rd_lst (f : Nat → W64) (i : Nat) (h : i < 25) : rd (lst f) i = .ok (f i) := by
  rw [rd_ok (by rw [lst_length]; exact h)]
  simp [lst]

theorem wr_lst (f : Nat → W64) (i : Nat) (v : W64) (h : i < 25) :
    wr (lst f) i v = .ok (lst (fun j => if j = i then v else f j)) := by
  rw [wr_ok _ (by rw [lst_length]; exact h)]
  congr 1
  apply List.ext_getElem (by simp [lst])
  intro j h1 h2
  by_cases e : j = i
  · subst e; simp [lst]
  · simp [lst, e, List.getElem_set_ne (Ne.symm e)]

theorem ite_iff {α : Type} {p q : Prop} [Decidable p] [Decidable q] {a b : α} (h : p ↔ q) :
    (if p then a else b) = if q then a else b := by
  by_cases hp : p
  · rw [if_pos hp, if_pos (h.1 hp)]
  · rw [if_neg hp, if_neg (fun hq => hp (h.2 hq))]

theorem forN_iter {σ : Type} (g : Nat → σ) (n : Nat) (f : Nat → σ → C σ)
    (h : ∀ i, i < n → f i (g i) = .ok (g (i + 1))) : forN n f (g 0) = .ok (g n) := by
  induction n with
  | zero => rfl
  | succ n ih => rw [forN, ih (fun i hi => h i (by omega)), bind_ok, h n (by omega)]

/-- The same with start and end states only equal to the first and last of the sequence. -/
theorem forN_iter' {σ : Type} (g : Nat → σ) (n : Nat) (f : Nat → σ → C σ) (s t : σ) (h0 : s = g 0)
    (h1 : t = g n) (h : ∀ i, i < n → f i (g i) = .ok (g (i + 1))) : forN n f s = .ok t := by
  subst h0 h1; exact forN_iter g n f h

theorem forN_fill (n : Nat) (v : Nat → W64) (f : Nat → List W64 → C (List W64))
    (h : ∀ j cs, j < n → f j cs = .ok (cs ++ [v j])) : forN n f [] = .ok ((List.range n).map v) := by
  obtain ⟨s, h1, h2⟩ := forN_inv (fun j (cs : List W64) => cs = (List.range j).map v) n f [] rfl (by
    intro j cs hj e
    subst e
    exact ⟨_, h j _ hj, by simp [List.range_succ]⟩)
  rw [h1, h2]

theorem rd_range (n : Nat) (v : Nat → W64) (i : Nat) (h : i < n) : rd ((List.range n).map v) i = .ok (v i) := by
  rw [rd_ok (by simpa using h)]; simp

/-! ## Theta -/

def cpar (f : Nat → W64) (x : Nat) : W64 :=
  f (5 * x + 0) ^^^ f (5 * x + 1) ^^^ f (5 * x + 2) ^^^ f (5 * x + 3) ^^^ f (5 * x + 4)

def dpar (f : Nat → W64) (x : Nat) : W64 := cpar f ((x + 4) % 5) ^^^ clshift (cpar f ((x + 1) % 5)) 1

def thetaF (f : Nat → W64) (i : Nat) : W64 := f i ^^^ dpar f (i / 5)

theorem theta_lst (f : Nat → W64) : keccakTheta (lst f) = .ok (lst (thetaF f)) := by
  rw [keccakTheta]
  rw [forN_fill 5 (cpar f) _ (by
    intro x cs hx
    simp only [laneRd]
    rw [rd_lst _ _ (by omega), bind_ok, rd_lst _ _ (by omega), bind_ok, rd_lst _ _ (by omega), bind_ok,
      rd_lst _ _ (by omega), bind_ok, rd_lst _ _ (by omega), bind_ok]
    rfl), bind_ok]
  apply forN_iter' (fun x => lst (fun i => if i / 5 < x then thetaF f i else f i))
  · apply lst_congr; intro i hi; rw [if_neg (by omega)]
  · apply lst_congr; intro i hi; rw [if_pos (by omega)]
  · intro x hx
    rw [rd_range 5 _ _ (by omega), bind_ok, rd_range 5 _ _ (by omega), bind_ok]
    dsimp only
    apply forN_iter' (fun y => lst (fun i => if i < 5 * x + y then thetaF f i else f i))
    · apply lst_congr; intro i hi; apply ite_iff; omega
    · apply lst_congr; intro i hi; apply ite_iff; omega
    · intro y hy
      rw [laneRd, rd_lst _ _ (by omega), bind_ok, laneWr, wr_lst _ _ _ (by omega)]
      congr 1
      apply lst_congr
      intro i hi
      by_cases e : i = 5 * x + y
      · rw [if_pos e, if_neg (by omega), if_pos (by omega)]
        rw [thetaF, dpar, show i / 5 = x by omega, e]
      · rw [if_neg e]
        apply ite_iff
        omega

/-! ## Rho and pi -/

def pdst (k : Nat) : Nat := 5 * (keccakPiln.getD k 0 % 5) + keccakPiln.getD k 0 / 5
def psrc (k : Nat) : Nat := if k = 0 then 5 else pdst (k - 1)

theorem pdst_fresh : ∀ k < 24, ∀ j < k, pdst j ≠ pdst k := by decide
theorem pdst_lt : ∀ k < 24, pdst k < 25 := by decide

/-- The state after `n` steps of the loop. -/
def rhoPiF (f : Nat → W64) (n : Nat) (i : Nat) : W64 :=
  match (List.range n).find? (fun k => pdst k == i) with
  | some k => clshift (f (psrc k)) (keccakR.getD k 0)
  | none => f i

theorem rhoPi_lst (f : Nat → W64) : keccakRhoPi (lst f) = .ok (lst (rhoPiF f 24)) := by
  rw [keccakRhoPi, laneRd, rd_lst _ _ (by decide), bind_ok]
  obtain ⟨s, h1, h2⟩ := forN_inv
    (fun n (s : List W64 × W64) => s = (lst (rhoPiF f n), f (psrc n))) 24
    (fun x (s : List W64 × W64) => do
      let j ← rd keccakPiln x
      let c0 ← laneRd s.1 (j % 5) (j / 5)
      let rx ← rd keccakR x
      let A ← laneWr s.1 (j % 5) (j / 5) (clshift s.2 rx)
      .ok (A, c0)) (lst f, f (5 * 1 + 0)) rfl (by
    intro n s hn hs
    subst hs
    have hp : rd keccakPiln n = .ok (keccakPiln.getD n 0) := by
      rw [rd_ok (by exact hn), List.getD_eq_getElem?_getD, List.getElem?_eq_getElem (by exact hn)]; rfl
    have hr : rd keccakR n = .ok (keccakR.getD n 0) := by
      rw [rd_ok (by exact hn), List.getD_eq_getElem?_getD, List.getElem?_eq_getElem (by exact hn)]; rfl
    have hd := pdst_lt n hn
    have e : 5 * (keccakPiln.getD n 0 % 5) + keccakPiln.getD n 0 / 5 = pdst n := rfl
    rw [hp, bind_ok, laneRd, e, rd_lst _ _ hd, bind_ok, hr, bind_ok, laneWr, e, wr_lst _ _ _ hd, bind_ok]
    refine ⟨_, rfl, ?_⟩
    congr 1
    · apply lst_congr
      intro i hi
      rw [rhoPiF, rhoPiF, List.range_succ, List.find?_append]
      by_cases ei : i = pdst n
      · subst ei
        have : (List.range n).find? (fun k => pdst k == pdst n) = none := by
          rw [List.find?_eq_none]
          intro k hk
          have := pdst_fresh n hn k (List.mem_range.1 hk)
          simpa using this
        rw [this, if_pos rfl]
        simp
      · rw [if_neg ei]
        have : ([n].find? (fun k => pdst k == i)) = none := by
          simp only [List.find?_cons, List.find?_nil]
          rw [show (pdst n == i) = false by simpa using Ne.symm ei]
        rw [this]
        simp
    · rw [rhoPiF]
      have : (List.range n).find? (fun k => pdst k == pdst n) = none := by
        rw [List.find?_eq_none]
        intro k hk
        have := pdst_fresh n hn k (List.mem_range.1 hk)
        simpa using this
      rw [this]
      rfl)
  rw [h1, h2]
  rfl

/-! ## Chi and iota -/

def chiF (f : Nat → W64) (i : Nat) : W64 :=
  f i ^^^ (~~~f (5 * ((i / 5 + 1) % 5) + i % 5) &&& f (5 * ((i / 5 + 2) % 5) + i % 5))

theorem chi_lst (f : Nat → W64) : keccakChi (lst f) = .ok (lst (chiF f)) := by
  rw [keccakChi]
  apply forN_iter' (fun y => lst (fun i => if i % 5 < y then chiF f i else f i))
  · apply lst_congr; intro i hi; rw [if_neg (by omega)]
  · apply lst_congr; intro i hi; rw [if_pos (by omega)]
  · intro y hy
    rw [forN_fill 5 (fun x => f (5 * x + y)) _ (by
      intro x cs hx
      rw [laneRd, rd_lst _ _ (by omega), bind_ok, if_neg (by omega)]), bind_ok]
    apply forN_iter'
      (fun x => lst (fun i => if i % 5 < y ∨ (i % 5 = y ∧ i / 5 < x) then chiF f i else f i))
    · apply lst_congr; intro i hi; apply ite_iff; omega
    · apply lst_congr; intro i hi; apply ite_iff; omega
    · intro x hx
      rw [laneRd, rd_lst _ _ (by omega), bind_ok, rd_range 5 _ _ (by omega), bind_ok,
        rd_range 5 _ _ (by omega), bind_ok, laneWr, wr_lst _ _ _ (by omega), if_neg (by omega)]
      congr 1
      apply lst_congr
      intro i hi
      by_cases e : i = 5 * x + y
      · rw [if_pos e, if_pos (by omega), chiF, show i / 5 = x by omega, show i % 5 = y by omega, e]
      · rw [if_neg e]
        apply ite_iff
        omega

theorem iota_lst (f : Nat → W64) (rc : W64) :
    keccakIota (lst f) rc = .ok (lst (fun i => if i = 0 then f 0 ^^^ rc else f i)) := by
  rw [keccakIota, laneRd, rd_lst _ _ (by decide), bind_ok, laneWr, wr_lst _ _ _ (by decide)]

/-- One round. -/
def roundF (f : Nat → W64) (rc : W64) : Nat → W64 :=
  fun i => if i = 0 then chiF (rhoPiF (thetaF f) 24) 0 ^^^ rc else chiF (rhoPiF (thetaF f) 24) i

theorem transform_lst (f : Nat → W64) (rc : W64) : keccakTransform (lst f) rc = .ok (lst (roundF f rc)) := by
  rw [keccakTransform, theta_lst, bind_ok, rhoPi_lst, bind_ok, chi_lst, bind_ok, iota_lst]
  rfl

/-! ## Bits -/

theorem rot_bit (v : W64) (k z : Nat) (hk : k < 64) (hz : z < 64) :
    (clshift v k).getLsbD z = v.getLsbD ((z + (64 - k)) % 64) := by
  rw [clshift_eq _ _ hk, BitVec.getLsbD_rotateLeft, Nat.mod_eq_of_lt hk]
  by_cases h : z < k
  · simp only [h, decide_true, cond_true]
    congr 1; omega
  · simp only [h, decide_false, cond_false, hz, decide_true, Bool.true_and]
    congr 1; omega

/-- Agreement of two state arrays. -/
def Agree (A B : StateArray) : Prop := ∀ x y z, x < 5 → y < 5 → z < 64 → A x y z = B x y z

theorem bitAt_lst (f : Nat → W64) (x y z : Nat) (hx : x < 5) (hy : y < 5) :
    bitAt (lst f) x y z = (f (5 * x + y)).getLsbD z := by
  rw [bitAt, lst_getD _ _ (by omega)]

/-- The lanes `f` represent the state array `A`. -/
def Rep (f : Nat → W64) (A : StateArray) : Prop :=
  ∀ x y z, x < 5 → y < 5 → z < 64 → (f (5 * x + y)).getLsbD z = A x y z

theorem cpar_rep {f A} (h : Rep f A) (x z : Nat) (hx : x < 5) (hz : z < 64) :
    (cpar f x).getLsbD z = thetaC A x z := by
  simp only [cpar, thetaC, BitVec.getLsbD_xor]
  rw [h x 0 z hx (by decide) hz, h x 1 z hx (by decide) hz, h x 2 z hx (by decide) hz,
    h x 3 z hx (by decide) hz, h x 4 z hx (by decide) hz]

theorem theta_rep {f A} (h : Rep f A) : Rep (thetaF f) (theta A) := by
  intro x y z hx hy hz
  rw [thetaF, theta, thetaD, dpar, show (5 * x + y) / 5 = x by omega, BitVec.getLsbD_xor, BitVec.getLsbD_xor,
    rot_bit _ _ _ (by decide) hz, h x y z hx hy hz, cpar_rep h _ _ (by omega) hz,
    cpar_rep h _ _ (by omega) (by omega)]

/-- What the tables say about rho and pi, for every lane. -/
def tabOK (x y : Nat) : Bool :=
  match (List.range 24).find? (fun k => pdst k == 5 * x + y),
      (List.range 24).find? (fun t => rhoPos t == ((x + 3 * y) % 5, x)) with
    | some k, some t => decide (psrc k = 5 * ((x + 3 * y) % 5) + x ∧
        keccakR.getD k 0 < 64 ∧ keccakR.getD k 0 = (t + 1) * (t + 2) / 2 % 64 ∧ (t + 1) * (t + 2) / 2 ≤ 320)
    | none, none => decide (5 * x + y = 5 * ((x + 3 * y) % 5) + x)
    | _, _ => false

theorem rhoPi_tab : ∀ x < 5, ∀ y < 5, tabOK x y = true := by decide +kernel

theorem rhoPi_rep {f A} (h : Rep f A) : Rep (rhoPiF f 24) (pi (rho A)) := by
  intro x y z hx hy hz
  have ht := rhoPi_tab x hx y hy
  rw [rhoPiF, pi, rho]
  rw [tabOK] at ht
  split at ht
  · rename_i k t e1 e2
    rw [e1, e2]
    dsimp only
    obtain ⟨h1, h2, h3, h4⟩ := of_decide_eq_true ht
    rw [rot_bit _ _ _ h2 hz, h1, h _ _ _ (by omega) hx (by omega)]
    congr 1
    rw [h3]
    generalize (t + 1) * (t + 2) / 2 = q at *
    omega
  · rename_i e1 e2
    rw [e1, e2]
    dsimp only
    rw [of_decide_eq_true ht, h _ _ _ (by omega) hx hz]
  · exact absurd ht (by decide)

theorem chi_rep {f A} (h : Rep f A) : Rep (chiF f) (chi A) := by
  intro x y z hx hy hz
  rw [chiF, chi, show (5 * x + y) / 5 = x by omega, show (5 * x + y) % 5 = y by omega,
    BitVec.getLsbD_xor, BitVec.getLsbD_and, BitVec.getLsbD_not, h _ _ _ hx hy hz,
    h _ _ _ (by omega) hy hz, h _ _ _ (by omega) hy hz]
  simp [hz]

theorem rc_ok : ∀ i < 24, ∀ z < 64, (keccakRC.getD i 0#64).getLsbD z = rcBit i z := by decide +kernel

theorem round_rep {f A} (h : Rep f A) (i : Nat) (hi : i < 24) :
    Rep (roundF f (keccakRC.getD i 0#64)) (rnd A i) := by
  have h := chi_rep (rhoPi_rep (theta_rep h))
  intro x y z hx hy hz
  rw [roundF, rnd, iota]
  by_cases e : x = 0 ∧ y = 0
  · obtain ⟨rfl, rfl⟩ := e
    rw [if_pos (by decide), if_pos ⟨rfl, rfl⟩, BitVec.getLsbD_xor, rc_ok i hi z hz]
    rw [← h 0 0 z (by decide) (by decide) hz]
  · rw [if_neg (by omega), if_neg e, h x y z hx hy hz]

/-- The permutation on lanes. -/
def permF (f : Nat → W64) : Nat → W64 :=
  (List.range 24).foldl (fun f i => roundF f (keccakRC.getD i 0#64)) f

theorem perm_lst (f : Nat → W64) : keccakPermutation (lst f) 24 = .ok (lst (permF f)) := by
  rw [keccakPermutation]
  apply forN_iter' (fun n => lst ((List.range n).foldl (fun f i => roundF f (keccakRC.getD i 0#64)) f))
  · rfl
  · rfl
  · intro i hi
    have hr : rd keccakRC i = .ok (keccakRC.getD i 0#64) := by
      rw [rd_ok (by exact hi), List.getD_eq_getElem?_getD, List.getElem?_eq_getElem (by exact hi)]; rfl
    rw [hr, bind_ok, transform_lst, List.range_succ, List.foldl_append]
    rfl

theorem perm_rep {f A} (h : Rep f A) : Rep (permF f) ((List.range 24).foldl rnd A) := by
  rw [permF]
  have : ∀ n, n ≤ 24 → Rep ((List.range n).foldl (fun f i => roundF f (keccakRC.getD i 0#64)) f)
      ((List.range n).foldl rnd A) := by
    intro n
    induction n with
    | zero => intro _; exact h
    | succ n ih =>
      intro hn
      rw [List.range_succ, List.foldl_append, List.foldl_append]
      exact round_rep (ih (by omega)) n (by omega)
  exact this 24 (Nat.le_refl _)

end Pgfe.Proofs.Keccak
