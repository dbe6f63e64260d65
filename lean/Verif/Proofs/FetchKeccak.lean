import Verif.Proofs.Fetch
/-!
# Reads of the input: KECCAK
-/
namespace Pgfe.Proofs.Fetch
open Pgfe.Model Pgfe.Spec
open Pgfe.Proofs.Work (KFit ok_pure br_ok res_last partial_run partial_sizes Sizes)

section
variable {b : Arr} (hb : Foreign b)
include hb

theorem laneRd_q (A : List W64) (x y : Nat) : Quiet b (Tr.laneRd A x y) := Quiet.rd (by qne) _ _
theorem laneWr_q (A : List W64) (x y : Nat) (v : W64) : Quiet b (Tr.laneWr A x y v) := Quiet.wr (by qne) _ _ _
theorem theta_q (A : List W64) : Quiet b (Tr.keccakTheta A) := by
  unfold Tr.keccakTheta
  repeat first | with_reducible exact laneRd_q hb _ _ _ | with_reducible exact laneWr_q hb _ _ _ _ | qt
theorem rhoPi_q (A : List W64) : Quiet b (Tr.keccakRhoPi A) := by
  unfold Tr.keccakRhoPi
  repeat first | with_reducible exact laneRd_q hb _ _ _ | with_reducible exact laneWr_q hb _ _ _ _ | qt
theorem chi_q (A : List W64) : Quiet b (Tr.keccakChi A) := by
  unfold Tr.keccakChi
  repeat first | with_reducible exact laneRd_q hb _ _ _ | with_reducible exact laneWr_q hb _ _ _ _ | qt
theorem iota_q (A : List W64) (rc : W64) : Quiet b (Tr.keccakIota A rc) := by
  unfold Tr.keccakIota
  repeat first | with_reducible exact laneRd_q hb _ _ _ | with_reducible exact laneWr_q hb _ _ _ _ | qt
theorem transform_q (A : List W64) (rc : W64) : Quiet b (Tr.keccakTransform A rc) := by
  unfold Tr.keccakTransform
  repeat first | with_reducible exact theta_q hb _ | with_reducible exact rhoPi_q hb _ | with_reducible exact chi_q hb _ |
    with_reducible exact iota_q hb _ _ | qt
theorem permutation_q (A : List W64) (nr : Nat) : Quiet b (Tr.keccakPermutation A nr) := by
  unfold Tr.keccakPermutation
  repeat first | with_reducible exact transform_q hb _ _ | qt
theorem seqToState_q (a : Arr) (h : a ≠ b) (m : List Byte) (off : Nat) (A : List W64) (n : Nat) : Quiet b (Tr.seqToState a m off A n) := by
  unfold Tr.seqToState
  repeat first | with_reducible exact laneRd_q hb _ _ _ | with_reducible exact laneWr_q hb _ _ _ _ | qt
theorem absorb1_q (a : Arr) (h : a ≠ b) (st : List W64) (m : List Byte) (off lc nr : Nat) : Quiet b (Tr.keccakAbsorb1 a st m off lc nr) := by
  unfold Tr.keccakAbsorb1
  repeat first | with_reducible exact seqToState_q hb _ h _ _ _ _ | with_reducible exact permutation_q hb _ _ | qt
theorem absorbQueue_q (c : KeccakCtx) : Quiet b (Tr.keccakAbsorbQueue c) := by
  have h : Arr.queue ≠ b := by qne
  unfold Tr.keccakAbsorbQueue
  repeat first | with_reducible exact absorb1_q hb _ h _ _ _ _ _ | qt
end

theorem partial_key (c : KeccakCtx) (x : List Byte) (bitLen i : Nat) : Quiet .key (Tr.keccakPartial c x bitLen i) := by
  have hk : Foreign .key := .inr rfl
  unfold Tr.keccakPartial
  dsimp only
  repeat first | with_reducible exact absorbQueue_q hk _ | qt

theorem whole_key (c : KeccakCtx) (x : List Byte) (i k : Nat) : Quiet .key (Tr.keccakWhole c x i k) := by
  have hk : Foreign .key := .inr rfl
  have h : Arr.input ≠ .key := by decide
  unfold Tr.keccakWhole
  repeat first | with_reducible exact absorb1_q hk _ h _ _ _ _ _ | qt

theorem absorbLoop_key (x : List Byte) (bitLen : Nat) : ∀ (k : Nat) (c : KeccakCtx) (i : Nat), bitLen - i = k →
    Quiet .key (Tr.keccakAbsorbLoop c x bitLen i) := by
  intro k
  induction k using Nat.strongRecOn with
  | _ k ih =>
    intro c i hk
    rw [Tr.keccakAbsorbLoop]
    refine Quiet.seq (Quiet.br _) (fun _ _ => ?_)
    split
    · iterate 3 refine Quiet.seq (Quiet.br _) (fun _ _ => ?_)
      split
      · refine Quiet.seq (whole_key _ _ _ _) (fun _ _ => ?_)
        split
        · exact ih _ (by omega) _ _ rfl
        · exact Quiet.fail _
      · refine Quiet.seq (partial_key _ _ _ _) (fun _ _ => ?_)
        split
        · exact ih _ (by omega) _ _ rfl
        · exact Quiet.fail _
    · exact Quiet.ret _

theorem keccakUpdate_key (c : KeccakCtx) (x : List Byte) (n : Nat) : Quiet .key (Tr.keccakUpdate c (some x) n) := by
  unfold Tr.keccakUpdate Tr.keccakAbsorb
  dsimp only
  refine Quiet.seq (Quiet.br _) (fun _ _ => ?_)
  split
  · exact Quiet.ret _
  · exact absorbLoop_key _ _ _ _ _ rfl

theorem seqToState_adv {L : Nat} (x : List Byte) (off : Nat) (A : List W64) (lc : Nat) (h1 : 1 ≤ lc) (h25 : lc ≤ 25) (l : off + lc * 8 ≤ L) :
    Adv L (Tr.seqToState .input x off A (lc * 8)) off (fun _ e => e = off + lc * 8) := by
  unfold Tr.seqToState
  refine Adv.seq (Adv.iter (I := fun k (s : List W64 × Bool) e => (s.2 = true → e = off + lc * 8) ∧ (s.2 = false → e = off + 8 * k ∧ k < lc)) 25
    (fun k s e hk le hI => ?_) (A, false) (by omega) ⟨(fun h => nomatch h), (fun _ => ⟨by omega, by omega⟩)⟩) (fun s e le hs => ?_)
  · obtain ⟨A, stop⟩ := s
    dsimp only at hI ⊢
    cases stop with
    | true =>
      rw [if_pos rfl]
      exact Adv.done _ le ⟨hI.1, fun h => by cases h⟩
    | false =>
      rw [if_neg (by decide)]
      obtain ⟨he, hlt⟩ := hI.2 rfl
      subst he
      refine Adv.seq (Adv.rds x _ (by omega)) (fun src e le ⟨_, he⟩ => ?_)
      subst he
      refine Adv.next (laneRd_q (.inl rfl) _ _ _) le (fun _ _ => ?_)
      refine Adv.next (laneWr_q (.inl rfl) _ _ _ _) le (fun _ _ => ?_)
      refine Adv.next (Quiet.br _) le (fun stop hst => ?_)
      have hst := br_ok hst
      refine Adv.done _ le ⟨fun h => ?_, fun h => ?_⟩
      · dsimp only at h
        rw [h] at hst
        have := of_decide_eq_true hst.symm
        omega
      · dsimp only at h
        rw [h] at hst
        have := of_decide_eq_false hst.symm
        omega
  · obtain ⟨A, stop⟩ := s
    dsimp only at hs
    refine Adv.done _ le ?_
    cases stop with
    | true => exact hs.1 rfl
    | false => have := (hs.2 rfl).2; omega

theorem whole_adv {L r : Nat} (hr : r ≤ 1600) (hr64 : r % 64 = 0) (hr0 : 0 < r) (c : KeccakCtx) (hc : c.rate = r) (x : List Byte) (off k : Nat)
    (l : off + k * (r / 8) ≤ L) : Adv L (Tr.keccakWhole c x off k) off (fun _ e => e = off + k * (r / 8)) := by
  unfold Tr.keccakWhole
  rw [hc]
  refine Adv.forN (I := fun j (_ : List W64) e => e = off + j * (r / 8)) k (fun j s e hj le he => ?_) _ (by omega) (by omega)
  subst he
  unfold Tr.keccakAbsorb1
  have h1 : off + (j + 1) * (r / 8) ≤ off + k * (r / 8) := Nat.add_le_add_left (Nat.mul_le_mul_right _ hj) _
  have h2 : (j + 1) * (r / 8) = j * (r / 8) + r / 8 := Nat.succ_mul _ _
  have h3 : r / 64 * 8 = r / 8 := by omega
  refine Adv.seq (seqToState_adv x _ _ _ (by omega) (by omega) (by omega)) (fun A e le he => ?_)
  refine Adv.mono (Adv.quiet (permutation_q (.inl rfl) _ _) le) (fun _ e' _ ⟨_, he'⟩ => ?_)
  omega

/-- What the absorbing loop keeps: whole bytes, and the phase. -/
def Bytes (sq : Bool) (c : KeccakCtx) : Prop := c.inqueueBits % 8 = 0 ∧ c.squeezing = sq

section
variable {r o : Nat} {sq : Bool} (hr : r ≤ 1600) (hr64 : r % 64 = 0) (hr0 : 0 < r)
include hr hr64 hr0

theorem partial_adv (c : KeccakCtx) (x : List Byte) (bitLen i : Nat) (h : KFit r o c) (hB : Bytes sq c) (hi : i < bitLen)
    (h8 : bitLen % 8 = 0) (hi8 : i % 8 = 0) :
    Adv (bitLen / 8) (Tr.keccakPartial c x bitLen i) (i / 8)
      (fun s e => KFit r o s.1 ∧ Bytes sq s.1 ∧ s.2 % 8 = 0 ∧ s.2 ≤ bitLen ∧ e = s.2 / 8) := by
  have hrun := partial_run (Q := 11700) hr (by omega) (by omega) (by have := Nat.mul_le_mul_left 11700 hr0; omega) c x bitLen i h hi
    (.inr ⟨by omega, hB.1⟩)
  refine Adv.mono (P := fun s e => Bytes sq s.1 ∧ s.2 % 8 = 0 ∧ e = s.2 / 8) ?_
    (fun s e hs ⟨h1, h2, h3⟩ => ⟨(hrun.2 s hs).1.1, h1, h2, (hrun.2 s hs).1.2.2.2, h3⟩)
  clear hrun
  have hrate := h.rate
  have hinq := h.inq
  obtain ⟨hB1, hB2⟩ := hB
  have l0 : i / 8 ≤ bitLen / 8 := by omega
  unfold Tr.keccakPartial
  rw [hrate]
  refine Adv.next (Quiet.br _) l0 (fun cut hcut => ?_)
  have hcut := br_ok hcut
  subst hcut
  extract_lets p1 pb pB i1
  obtain ⟨k1, -, k3, -, -, -⟩ := partial_sizes hr (by omega) (by omega) hi hinq (.inr ⟨by omega, hB1⟩) (p1 := p1) rfl
  have hp8 : p1 % 8 = 0 := by
    show (if decide (((bitLen - i) % 2 ^ 32 + c.inqueueBits) % 2 ^ 32 > r) = true then (r + 2 ^ 32 - c.inqueueBits) % 2 ^ 32 else (bitLen - i) % 2 ^ 32) % 8 = 0
    split <;> omega
  have hpb : pb = 0 := hp8
  have hpB : pB = p1 := by show p1 - p1 % 8 = p1; omega
  have hi1 : i1 = i + pB := rfl
  clear_value i1 pB pb p1
  subst hpb hpB
  refine Adv.seq (Adv.rds x _ (by omega)) (fun src e le ⟨_, he⟩ => ?_)
  refine Adv.next (Quiet.wrs (by decide) _ _ _) le (fun q _ => ?_)
  extract_lets c1
  have hc1 : Bytes sq c1 := ⟨by show (c.inqueueBits + pB) % 2 ^ 32 % 8 = 0; omega, hB2⟩
  clear_value c1
  refine Adv.next (Quiet.br _) le (fun full _ => ?_)
  refine Adv.seq (P := fun (c2 : KeccakCtx) e' => Bytes sq c2 ∧ e' = e) ?_ (fun c2 e' le' ⟨hc2, he'⟩ => ?_)
  · cases full with
    | true =>
      rw [if_pos rfl]
      refine Adv.mono (Adv.quiet (absorbQueue_q (.inl rfl) c1) le) (fun c2 e' hc2 ⟨_, he'⟩ => ⟨?_, he'⟩)
      unfold Tr.keccakAbsorbQueue at hc2
      obtain ⟨A, _, hc2⟩ := res_last hc2
      rw [← ok_pure hc2]
      exact ⟨rfl, hc1.2⟩
    | false =>
      rw [if_neg (by decide)]
      exact Adv.done _ le ⟨hc1, rfl⟩
  · refine Adv.next (Quiet.br _) le' (fun odd hodd => ?_)
    have hodd := br_ok hodd
    have : odd = false := hodd
    subst this
    rw [if_neg (by decide)]
    exact Adv.done _ le' ⟨hc2, by dsimp only; omega, by dsimp only; omega⟩

theorem absorbLoop_adv (x : List Byte) (bitLen : Nat) (h8 : bitLen % 8 = 0) : ∀ (k : Nat) (c : KeccakCtx) (i : Nat), bitLen - i = k →
    KFit r o c → Bytes sq c → i % 8 = 0 → i ≤ bitLen →
    Adv (bitLen / 8) (Tr.keccakAbsorbLoop c x bitLen i) (i / 8) (fun c' e => Bytes sq c' ∧ e = bitLen / 8) := by
  intro k
  induction k using Nat.strongRecOn with
  | _ k ih =>
    intro c i hk h hB hi8 hle
    have l0 : i / 8 ≤ bitLen / 8 := by omega
    rw [Tr.keccakAbsorbLoop]
    refine Adv.next (Quiet.br _) l0 (fun _ _ => ?_)
    split
    · rename_i hlt
      iterate 3 refine Adv.next (Quiet.br _) l0 (fun _ _ => ?_)
      split
      · rename_i hw
        have hrate := h.rate
        generalize hn : (bitLen - i) / c.rate = n
        have hnr : n * c.rate ≤ bitLen - i := by rw [← hn]; exact Nat.div_mul_le_self _ _
        have hn8 : n * (r / 8) * 8 = n * c.rate := by
          rw [Nat.mul_assoc, hrate, show r / 8 * 8 = r by omega]
        refine Adv.seq (whole_adv hr hr64 hr0 c h.rate x (i / 8) n (by omega)) (fun st e le he => ?_)
        split
        · have := ih (bitLen - (i + n * c.rate)) (by omega) { c with state := st } (i + n * c.rate) rfl
            ⟨h.rate, h.nr, h.inq, h.sq, h.ap, h.out⟩ ⟨hB.1, hB.2⟩ (by omega) (by omega)
          rw [show (i + n * c.rate) / 8 = e by omega] at this
          exact this
        · exact Adv.fail _ le
      · refine Adv.seq (partial_adv hr hr64 hr0 c x bitLen i h hB hlt h8 hi8) (fun s e le ⟨f1, f2, f3, f4, f5⟩ => ?_)
        subst f5
        split
        · exact ih (bitLen - s.2) (by omega) s.1 s.2 rfl f1 f2 f3 f4
        · exact Adv.fail _ le
    · exact Adv.done _ l0 ⟨hB, by omega⟩

theorem keccakUpdate_adv (c : KeccakCtx) (x : List Byte) (h : KFit r o c) :
    Adv x.length (Tr.keccakUpdate c (some x) x.length) 0
      (fun c' e => Bytes false c → x.length < 2 ^ 61 → e = x.length ∧ Bytes false c') := by
  unfold Tr.keccakUpdate Tr.keccakAbsorb
  dsimp only
  refine Adv.next (Quiet.br _) (Nat.zero_le _) (fun refuse hre => ?_)
  have hre := br_ok hre
  cases refuse with
  | true =>
    rw [if_pos rfl]
    have hre := of_decide_eq_true hre.symm
    refine Adv.done _ (Nat.zero_le _) (fun hB _ => ?_)
    rcases hre with hre | hre
    · exact absurd hB.1 hre
    · rw [hB.2] at hre; cases hre
  | false =>
    rw [if_neg (by decide)]
    have hre := of_decide_eq_false hre.symm
    have hsq : c.squeezing = false := by
      cases hs : c.squeezing with
      | false => rfl
      | true => exact absurd (.inr hs) hre
    have hB : Bytes false c := ⟨by omega, hsq⟩
    have hl : x.length * 8 % 2 ^ 64 / 8 ≤ x.length := by omega
    obtain ⟨a1, e, a2, a3, a4, a5⟩ := absorbLoop_adv hr hr64 hr0 x (x.length * 8 % 2 ^ 64) (by omega) _ c 0 rfl h hB rfl (Nat.zero_le _)
    refine ⟨a1, e, a2, by omega, a4, fun c' hc' _ hx => ?_⟩
    obtain ⟨f1, f2⟩ := a5 c' hc'
    exact ⟨by omega, f1⟩
end

end Pgfe.Proofs.Fetch
