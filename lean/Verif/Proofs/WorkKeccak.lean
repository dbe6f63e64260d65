import Verif.Proofs.WorkMd5
/-!
# Upper bounds for the work of the traced functions: KECCAK
-/
namespace Pgfe.Proofs.Work
open Pgfe.Model Pgfe.Spec
open Pgfe.Proofs.Trace (res_bind)

theorem laneRd_bd (A : List W64) (x y : Nat) : Bd (Tr.laneRd A x y) 1 := Bd.rd _ _ _
theorem laneWr_bd (A : List W64) (x y : Nat) (v : W64) : Bd (Tr.laneWr A x y v) 1 := Bd.wr _ _ _ _

/-- One access to a lane. -/
macro "ln1" : tactic => `(tactic| refine Bd.next (laneRd_bd _ _ _) (by omega) (fun _ => ?_))

theorem theta_bd (A : List W64) : Bd (Tr.keccakTheta A) 132 := by
  unfold Tr.keccakTheta
  refine Bd.next (Bd.forN 5 _ (b := 6) (fun i s => ?_)) (by omega) (fun cs => Bd.mono (Bd.forN 5 _ (b := 18) (fun x s => ?_)) (by omega))
  · iterate 5 ln1
    bd1
  · bd1
    bd1
    refine Bd.mono (Bd.forN 5 _ (b := 2) (fun y s => ?_)) (by omega)
    ln1
    exact Bd.mono (laneWr_bd _ _ _ _) (by omega)

theorem rhoPi_bd (A : List W64) : Bd (Tr.keccakRhoPi A) 122 := by
  unfold Tr.keccakRhoPi
  ln1
  refine Bd.next (Bd.forN 24 _ (b := 4) (fun x s => ?_)) (by omega) (fun _ => Bd.done _ _)
  bd1
  ln1
  bd1
  refine Bd.next (laneWr_bd _ _ _ _) (by omega) (fun _ => Bd.done _ _)

theorem chi_bd (A : List W64) : Bd (Tr.keccakChi A) 216 := by
  unfold Tr.keccakChi
  refine Bd.mono (Bd.forN 5 _ (b := 42) (fun y s => ?_)) (by omega)
  refine Bd.next (Bd.forN 5 _ (b := 2) (fun x cs => ?_)) (by omega) (fun cs => Bd.mono (Bd.forN 5 _ (b := 4) (fun x s => ?_)) (by omega))
  · ln1
    bd1
  · ln1
    bd1
    bd1
    exact Bd.mono (laneWr_bd _ _ _ _) (by omega)

theorem iota_bd (A : List W64) (rc : W64) : Bd (Tr.keccakIota A rc) 2 := by
  unfold Tr.keccakIota
  ln1
  exact Bd.mono (laneWr_bd _ _ _ _) (by omega)

theorem transform_bd (A : List W64) (rc : W64) : Bd (Tr.keccakTransform A rc) 472 := by
  unfold Tr.keccakTransform
  refine Bd.next (theta_bd _) (by omega) (fun _ => ?_)
  refine Bd.next (rhoPi_bd _) (by omega) (fun _ => ?_)
  refine Bd.next (chi_bd _) (by omega) (fun _ => ?_)
  exact Bd.mono (iota_bd _ _) (by omega)

theorem permutation_bd (A : List W64) : Bd (Tr.keccakPermutation A 24) 11377 := by
  unfold Tr.keccakPermutation
  refine Bd.mono (Bd.forN 24 _ (b := 473) (fun y s => ?_)) (by omega)
  bd1
  exact Bd.mono (transform_bd _ _) (by omega)

theorem seqToState_bd (a : Arr) (m : List Byte) (off : Nat) (A : List W64) (n : Nat) : Bd (Tr.seqToState a m off A n) 275 := by
  unfold Tr.seqToState
  refine Bd.next (Bd.iter (b := 11) (fun k s => ?_) 25 _) (by omega) (fun _ => Bd.done _ _)
  split
  · exact Bd.done _ _
  · refine Bd.next (Bd.rds _ _ _ _) (by omega) (fun _ => ?_)
    ln1
    refine Bd.next (laneWr_bd _ _ _ _) (by omega) (fun _ => ?_)
    bd1
    exact Bd.done _ _

theorem stateToSeq_bd (A : List W64) (o : List Byte) (n : Nat) : Bd (Tr.stateToSeq A o n) 250 := by
  unfold Tr.stateToSeq
  refine Bd.next (Bd.iter (b := 10) (fun k s => ?_) 25 _) (by omega) (fun _ => Bd.done _ _)
  split
  · exact Bd.done _ _
  · ln1
    refine Bd.next (Bd.wrs _ _ _ _) (by show max 1 8 ≤ _; omega) (fun _ => ?_)
    refine Bd.next (Bd.br _) (by show 1 ≤ 10 - 1 - max 1 8; omega) (fun _ => Bd.done _ _)

theorem absorb1_bd (a : Arr) (st : List W64) (m : List Byte) (off lc : Nat) : Bd (Tr.keccakAbsorb1 a st m off lc 24) 11652 := by
  unfold Tr.keccakAbsorb1
  refine Bd.next (seqToState_bd _ _ _ _ _) (by omega) (fun _ => ?_)
  exact Bd.mono (permutation_bd _) (by omega)

theorem orBit_bd (q : List Byte) (i k : Nat) : Bd (Tr.orBit q i k) 2 := by
  unfold Tr.orBit
  repeat bd1


/-- The next call costs `n` of the remaining `B`. -/
theorem Run.next {α β : Type} {m : T α} {k : α → T β} {n B : Nat} {Q : β → Prop} {φ : β → Nat} (h : Bd m n) (l : n ≤ B)
    (g : ∀ a, m.res = .ok a → Run (k a) Q φ (B - n)) : Run (m >>= k) Q φ B :=
  Run.mono (Run.bd h g) (by omega)

theorem Run.done {α : Type} {P : α → Prop} {φ : α → Nat} {B : Nat} (a : α) (h : P a) (l : φ a ≤ B) : Run (pure a : T α) P φ B :=
  Run.mono (Run.ret a h) l

theorem Run.weaken {α : Type} {m : T α} {P P' : α → Prop} {φ φ' : α → Nat} {B : Nat} (h : Run m P φ B)
    (g : ∀ a, P a → P' a ∧ φ' a ≤ φ a) : Run m P' φ' B :=
  ⟨h.1, fun a ha => ⟨(g a (h.2 a ha).1).1, Nat.le_trans (Nat.add_le_add_left (g a (h.2 a ha).1).2 _) (h.2 a ha).2⟩⟩

theorem br_ok {c b : Bool} (h : (T.br c).res = .ok b) : b = c := by injection h with h; exact h.symm

/-- What holds of a KECCAK context between calls: the rate, the number of rounds, and the sizes. -/
structure KFit (r o : Nat) (c : KeccakCtx) : Prop where
  rate : c.rate = r
  nr : c.nr = 24
  inq : c.inqueueBits ≤ r
  sq : c.squeezable ≤ r
  ap : c.apLen ≤ 8
  out : c.outLength ≤ o

theorem absorbQueue_run {r o : Nat} (c : KeccakCtx) (h : KFit r o c) (B : Nat) (l : 11652 ≤ B) :
    Run (Tr.keccakAbsorbQueue c) (fun c' => KFit r o c' ∧ c'.inqueueBits = 0) (fun _ => B - 11652) B := by
  unfold Tr.keccakAbsorbQueue
  have e : ∀ n, n = 24 → Run (do
      let A ← Tr.keccakAbsorb1 .queue c.state c.dataQueue 0 (c.rate / 64) n
      pure { c with state := A, inqueueBits := 0 })
      (fun c' => KFit r o c' ∧ c'.inqueueBits = 0) (fun _ => B - 11652) B := by
    intro n hn
    subst hn
    refine Run.next (absorb1_bd _ _ _ _ _) l (fun A _ => ?_)
    exact Run.done _ ⟨⟨h.rate, h.nr, Nat.zero_le _, h.sq, h.ap, h.out⟩, rfl⟩ (Nat.le_refl _)
  exact e _ h.nr

/-- Whether the input is counted in bytes, or is the suffix. -/
def Sizes (bitLen i inq : Nat) : Prop := bitLen ≤ 8 ∨ (bitLen - i) % 8 = 0 ∧ inq % 8 = 0

/-- How many bits a step of the absorbing loop moves: the arithmetic of src/hashes/keccak-backend.c:185-204. -/
theorem partial_sizes {r bitLen i inq : Nat} (hr : r ≤ 1600) (hr8 : r % 8 = 0) (h8 : 8 ≤ r) (hi : i < bitLen) (hin : inq ≤ r) (hs : Sizes bitLen i inq)
    {p1 : Nat} (hp : p1 = if decide (((bitLen - i) % 2 ^ 32 + inq) % 2 ^ 32 > r) = true then (r + 2 ^ 32 - inq) % 2 ^ 32 else (bitLen - i) % 2 ^ 32) :
    p1 ≤ bitLen - i ∧ Sizes bitLen (i + p1) ((inq + p1) % 2 ^ 32) ∧ (inq + p1) % 2 ^ 32 ≤ r ∧
      (inq + (p1 - p1 % 8)) % 2 ^ 32 ≤ r ∧ ((inq + (p1 - p1 % 8)) % 2 ^ 32 + p1 % 8) % 2 ^ 32 = (inq + p1) % 2 ^ 32 ∧
      ((inq + (p1 - p1 % 8)) % 2 ^ 32 = r → p1 % 8 = 0) := by
  unfold Sizes at hs ⊢
  by_cases hc : ((bitLen - i) % 2 ^ 32 + inq) % 2 ^ 32 > r
  · rw [decide_eq_true hc, if_pos rfl] at hp
    omega
  · rw [decide_eq_false hc, if_neg (by decide)] at hp
    omega

/-- The potential of the absorbing loop. -/
def kPot (Q inq rest : Nat) : Nat := Q * inq + (Q * rest + 12 * rest)

theorem kPot_step {Q inq inq' rest rest' d : Nat} (h1 : inq' ≤ inq + d) (h2 : rest' + d = rest) :
    kPot Q inq' rest' + 12 * d ≤ kPot Q inq rest := by
  unfold kPot
  subst h2
  have := Nat.mul_le_mul_left Q h1
  rw [Nat.mul_add] at this ⊢
  omega

section
variable {r o Q : Nat} (hr : r ≤ 1600) (hr8 : r % 8 = 0) (h8 : 8 ≤ r) (hQ : 11700 ≤ Q * r)
include hr hr8 h8 hQ

theorem partial_run (c : KeccakCtx) (x : List Byte) (bitLen i : Nat) (h : KFit r o c) (hi : i < bitLen)
    (hs : Sizes bitLen i c.inqueueBits) :
    Run (Tr.keccakPartial c x bitLen i) (fun s => KFit r o s.1 ∧ Sizes bitLen s.2 s.1.inqueueBits ∧ i ≤ s.2 ∧ s.2 ≤ bitLen)
      (fun s => kPot Q s.1.inqueueBits (bitLen - s.2) + if i < s.2 then 10 else 1)
      (kPot Q c.inqueueBits (bitLen - i) + 6) := by
  have hrate := h.rate
  have hinq := h.inq
  unfold Tr.keccakPartial
  rw [hrate]
  refine Run.next (Bd.br _) (by omega) (fun cut hcut => ?_)
  have hcut := br_ok hcut
  subst hcut
  extract_lets p1 pb pB i1
  obtain ⟨k1, k2, k3, k4, k5, k6⟩ := partial_sizes hr hr8 h8 hi hinq hs (p1 := p1) rfl
  have hpb : pb = p1 % 8 := rfl
  have hi1 : i1 = i + pB := rfl
  have hpB : pB = p1 - p1 % 8 := rfl
  rw [← hpB] at k4 k5 k6
  rw [← hpb] at k5 k6
  clear_value i1 pB pb p1
  have hst : kPot Q ((c.inqueueBits + p1) % 2 ^ 32) (bitLen - (i + p1)) + 12 * p1 ≤ kPot Q c.inqueueBits (bitLen - i) :=
    kPot_step (by omega) (by omega)
  generalize hG : kPot Q c.inqueueBits (bitLen - i) = G at hst ⊢
  have hle : 12 * p1 ≤ G := by omega
  have hm : p1 = pB + pb := by omega
  refine Run.next (Bd.rds _ _ _ _) (by omega) (fun src hsrc => ?_)
  have hsl := rds_length hsrc
  refine Run.next (Bd.wrs _ _ _ _) (by rw [hsl]; omega) (fun q hq => ?_)
  rw [hsl]
  extract_lets c1
  have hf1 : KFit r o c1 := ⟨rfl, h.nr, k4, h.sq, h.ap, h.out⟩
  have hc1 : c1.inqueueBits = (c.inqueueBits + pB) % 2 ^ 32 := rfl
  clear_value c1
  refine Run.next (Bd.br _) (by omega) (fun full hfull => ?_)
  have hfull := br_ok hfull
  rw [hf1.rate] at hfull
  by_cases hF : c1.inqueueBits = r
  · rw [decide_eq_true hF] at hfull
    subst hfull
    have hpb0 : pb = 0 := k6 (by omega)
    rw [if_pos rfl]
    have hG2 : kPot Q 0 (bitLen - (i + p1)) + 12 * p1 + 11700 ≤ G := by
      have e1 : (c.inqueueBits + p1) % 2 ^ 32 = r := by omega
      rw [e1] at hst
      unfold kPot at hst ⊢
      omega
    refine Run.seq (absorbQueue_run c1 hf1 _ (by omega)) (fun c2 ⟨hc2, hc2'⟩ => ?_)
    refine Run.next (Bd.br _) (by omega) (fun odd hodd => ?_)
    have hodd := br_ok hodd
    rw [decide_eq_false (by omega)] at hodd
    subst hodd
    rw [if_neg (by decide)]
    refine Run.done _ ⟨hc2, ?_, ?_⟩ ?_
    · dsimp only; rw [hc2']
      rcases k2 with k2 | ⟨k2, _⟩
      · exact .inl k2
      · exact .inr ⟨by rw [hi1]; omega, rfl⟩
    · dsimp only; omega
    · dsimp only
      have : pB = p1 := by omega
      rw [hc2', hi1, this]
      split <;> omega
  · rw [decide_eq_false hF] at hfull
    subst hfull
    rw [if_neg (by decide)]
    refine Run.next (Bd.ret _) (by omega) (fun c2 hc2 => ?_)
    have hc2 := ok_pure hc2
    subst hc2
    refine Run.next (Bd.br _) (by omega) (fun odd hodd => ?_)
    have hodd := br_ok hodd
    by_cases hpb0 : pb = 0
    · rw [decide_eq_false (by omega)] at hodd
      subst hodd
      rw [if_neg (by decide)]
      have e1 : pB = p1 := by omega
      subst e1
      refine Run.done _ ⟨hf1, ?_, ?_⟩ ?_
      · dsimp only; rw [hc1, hi1]; exact k2
      · dsimp only; omega
      · dsimp only
        rw [hc1, hi1]
        split <;> omega
    · rw [decide_eq_true (by omega)] at hodd
      subst hodd
      rw [if_pos rfl]
      refine Run.next (Bd.rd _ _ _) (by omega) (fun b _ => ?_)
      refine Run.next (Bd.wr _ _ _ _) (by omega) (fun q2 _ => ?_)
      have e1 : (c1.inqueueBits + pb) % 2 ^ 32 = (c.inqueueBits + p1) % 2 ^ 32 := by rw [hc1]; exact k5
      have e2 : i1 + pb = i + p1 := by omega
      rw [e1, e2]
      refine Run.done _ ⟨⟨hf1.rate, hf1.nr, k3, hf1.sq, hf1.ap, hf1.out⟩, k2, ?_⟩ ?_
      · dsimp only; omega
      · dsimp only
        rw [if_pos (by omega)]
        omega

theorem absorbLoop_run (bitLen : Nat) (x : List Byte) : ∀ (n : Nat) (c : KeccakCtx) (i : Nat), bitLen - i = n → KFit r o c →
    Sizes bitLen i c.inqueueBits → Run (Tr.keccakAbsorbLoop c x bitLen i) (KFit r o) (fun c => Q * c.inqueueBits)
      (kPot Q c.inqueueBits (bitLen - i) + 10) := by
  intro n
  induction n using Nat.strongRecOn with
  | _ n ih =>
    intro c i hn h hs
    rw [Tr.keccakAbsorbLoop]
    refine Run.next (Bd.br _) (by omega) (fun _ _ => ?_)
    split
    · rename_i hi
      refine Run.next (Bd.br _) (by omega) (fun _ _ => ?_)
      refine Run.next (Bd.br _) (by omega) (fun _ _ => ?_)
      refine Run.next (Bd.br _) (by omega) (fun _ _ => ?_)
      split
      · rename_i hw
        have hwh : Bd (Tr.keccakWhole c x (i / 8) ((bitLen - i) / c.rate)) ((bitLen - i) / r * (1 + 11652) + 1) := by
          unfold Tr.keccakWhole
          rw [h.rate, h.nr]
          exact Bd.forN _ _ (fun j s => absorb1_bd _ _ _ _ _)
        rw [h.rate]
        generalize hk : (bitLen - i) / r = k
        rw [h.rate, hk] at hwh
        have hkr : k * r ≤ bitLen - i := by rw [← hk]; exact Nat.div_mul_le_self _ _
        have hkQ : 11700 * k ≤ Q * (k * r) := by
          have := Nat.mul_le_mul_right k hQ
          rw [Nat.mul_assoc, Nat.mul_comm r k] at this
          exact this
        have hst : kPot Q c.inqueueBits (bitLen - (i + k * r)) + Q * (k * r) ≤ kPot Q c.inqueueBits (bitLen - i) := by
          unfold kPot
          have e : bitLen - i = (bitLen - (i + k * r)) + k * r := by omega
          rw [e, Nat.mul_add]
          omega
        refine Run.next hwh (by omega) (fun st _ => ?_)
        split
        · rename_i hpos
          have hk1 : 1 ≤ k := by
            rcases Nat.eq_zero_or_pos k with hz | hz
            · rw [hz, Nat.zero_mul] at hpos; omega
            · exact hz
          refine Run.mono (ih (bitLen - (i + k * r)) (by omega) { c with state := st, rate := r } (i + k * r) rfl
            ⟨rfl, h.nr, h.inq, h.sq, h.ap, h.out⟩ ?_) ?_
          · rcases hs with hs | ⟨h1, h2⟩
            · exact .inl hs
            · refine .inr ⟨?_, h2⟩
              have : k * r % 8 = 0 := by rw [Nat.mul_mod, hr8, Nat.mul_zero]
              omega
          · dsimp only; omega
        · exact Run.fail _ _
      · refine Run.seq (Run.mono (partial_run hr hr8 h8 hQ c x bitLen i h hi hs) (by omega)) (fun s hs2 => ?_)
        obtain ⟨f1, f2, f3, f4⟩ := hs2
        split
        · rename_i hlt
          exact ih (bitLen - s.2) (by omega) s.1 s.2 rfl f1 f2
        · exact Run.fail _ _
    · refine Run.done _ h ?_
      unfold kPot
      omega

theorem absorb_run (c : KeccakCtx) (x : List Byte) (bitLen : Nat) (h : KFit r o c) (hb : bitLen ≤ 8 ∨ bitLen % 8 = 0) :
    Run (Tr.keccakAbsorb c x bitLen) (KFit r o) (fun c => Q * c.inqueueBits) (Q * c.inqueueBits + ((Q + 12) * bitLen + 11)) := by
  unfold Tr.keccakAbsorb
  refine Run.next (Bd.br _) (by omega) (fun refuse hre => ?_)
  have hre := br_ok hre
  cases refuse with
  | true => rw [if_pos rfl]; exact Run.done _ h (by omega)
  | false =>
    rw [if_neg (by decide)]
    have hre := of_decide_eq_false hre.symm
    refine Run.mono (absorbLoop_run hr hr8 h8 hQ bitLen x _ c 0 rfl h ?_) ?_
    · rcases hb with hb | hb
      · exact .inl hb
      · exact .inr ⟨by omega, by omega⟩
    · unfold kPot
      rw [Nat.sub_zero, Nat.add_mul]
      omega

omit hQ h8 in
theorem padding_run (c : KeccakCtx) (h : KFit r o c) (B : Nat) :
    Run (Tr.keccakPadding c) (fun c' => KFit r o c' ∧ c'.inqueueBits = 0) (fun _ => B) (23759 + B) := by
  have hin := h.inq
  unfold Tr.keccakPadding
  rw [h.rate]
  refine Run.next (Bd.br _) (by omega) (fun last hl => ?_)
  refine Run.seq (P := KFit r o) (ψ := fun _ => 2 + 11652 + 250 + B) ?_ (fun e he => ?_)
  · cases last with
    | true =>
      rw [if_pos rfl]
      refine Run.next (orBit_bd _ _ _) (by omega) (fun q _ => ?_)
      refine Run.seq (absorbQueue_run (r := r) (o := o) { c with dataQueue := q, rate := r }
        ⟨rfl, h.nr, h.inq, h.sq, h.ap, h.out⟩ (23759 + B - 1 - 2) (by omega)) (fun e ⟨he, _⟩ => ?_)
      refine Run.next (Bd.wrs _ _ _ _) (by rw [List.length_replicate, he.rate]; omega) (fun q _ => ?_)
      rw [List.length_replicate]
      refine Run.done _ ⟨he.rate, he.nr, he.inq, he.sq, he.ap, he.out⟩ ?_
      rw [he.rate]; omega
    | false =>
      rw [if_neg (by decide)]
      refine Run.next (Bd.wrs _ _ _ _) (by rw [List.length_replicate]; omega) (fun q _ => ?_)
      rw [List.length_replicate]
      refine Run.next (orBit_bd _ _ _) (by omega) (fun q _ => ?_)
      exact Run.done _ ⟨rfl, h.nr, h.inq, h.sq, h.ap, h.out⟩ (by omega)
  · refine Run.next (orBit_bd _ _ _) (by omega) (fun q _ => ?_)
    refine Run.seq (absorbQueue_run (r := r) (o := o) { e with dataQueue := q }
        ⟨he.rate, he.nr, he.inq, he.sq, he.ap, he.out⟩ (2 + 11652 + 250 + B - 2) (by omega)) (fun e2 ⟨he2, hz⟩ => ?_)
    refine Run.next (stateToSeq_bd _ _ _) (by omega) (fun q _ => ?_)
    exact Run.done _ ⟨⟨he2.rate, he2.nr, he2.inq, Nat.le_of_eq he2.rate, he2.ap, he2.out⟩, hz⟩ (by omega)

theorem squeezeLoop_run (bitLen : Nat) : ∀ (n : Nat) (c : KeccakCtx) (x : List Byte) (i B : Nat), bitLen - i = n → KFit r o c →
    Run (Tr.keccakSqueezeLoop c x bitLen i) (fun s => KFit r o s.1 ∧ s.1.inqueueBits = c.inqueueBits) (fun _ => B)
      (B + (Q * (r - c.squeezable) + (Q * (bitLen - i) + 6 * (bitLen - i)) + 6)) := by
  intro n
  induction n using Nat.strongRecOn with
  | _ n ih =>
    intro c x i B hn h
    rw [Tr.keccakSqueezeLoop]
    refine Run.next (Bd.br _) (by omega) (fun _ _ => ?_)
    split
    · rename_i hi
      refine Run.seq (P := fun (s : KeccakCtx × List Byte × Nat) => KFit r o s.1 ∧ s.1.inqueueBits = c.inqueueBits ∧ i ≤ s.2.2 ∧ s.2.2 ≤ bitLen)
        (ψ := fun s => B + (if i < s.2.2 then Q * (r - s.1.squeezable) + (Q * (bitLen - s.2.2) + 6 * (bitLen - s.2.2)) + 6 else 0)) ?_ (fun s ⟨f1, f2, f3, f4⟩ => ?_)
      · unfold Tr.keccakSqueezeStep
        refine Run.seq (P := fun (e : KeccakCtx) => KFit r o e ∧ e.inqueueBits = c.inqueueBits)
          (ψ := fun e => B + (Q * (r - e.squeezable) + (Q * (bitLen - i) + 6 * (bitLen - i)) + 4)) ?_ (fun e ⟨he, hei⟩ => ?_)
        · unfold Tr.keccakRefill
          refine Run.next (Bd.br _) (by omega) (fun emp hemp => ?_)
          have hemp := br_ok hemp
          cases emp with
          | true =>
            rw [if_pos rfl]
            have hz : c.squeezable = 0 := of_decide_eq_true hemp.symm
            rw [h.nr, h.rate, hz, Nat.sub_zero]
            refine Run.next (permutation_bd _) (by omega) (fun A _ => ?_)
            refine Run.next (stateToSeq_bd _ _ _) (by omega) (fun q _ => ?_)
            refine Run.done _ ⟨⟨rfl, rfl, h.inq, Nat.le_refl _, h.ap, h.out⟩, rfl⟩ ?_
            dsimp only
            rw [Nat.sub_self, Nat.mul_zero]
            omega
          | false =>
            rw [if_neg (by decide)]
            exact Run.done _ ⟨h, rfl⟩ (by omega)
        · refine Run.next (Bd.br _) (by omega) (fun _ _ => ?_)
          have hsq := he.sq
          have hnl : squeezeChunk e.squeezable bitLen i ≤ e.squeezable ∧ squeezeChunk e.squeezable bitLen i ≤ bitLen - i := by
            unfold squeezeChunk
            split <;> omega
          dsimp only
          generalize squeezeChunk e.squeezable bitLen i = k at hnl ⊢
          have hst : Q * (r - (e.squeezable - k)) + (Q * (bitLen - (i + k)) + 6 * (bitLen - (i + k))) + 6 * k =
              Q * (r - e.squeezable) + (Q * (bitLen - i) + 6 * (bitLen - i)) := by
            have e1 : r - (e.squeezable - k) = (r - e.squeezable) + k := by omega
            have e2 : bitLen - i = (bitLen - (i + k)) + k := by omega
            rw [e1, e2, Nat.mul_add, Nat.mul_add]
            omega
          have hcp : Bd (Tr.keccakSqueezeCopy e x i k) (2 * max 1 (k / 8)) := by
            unfold Tr.keccakSqueezeCopy
            refine Run.toBd (P := fun _ => True) (φ := fun _ => 0) ?_
            refine Run.next (Bd.rds _ _ _ _) (by omega) (fun src hsrc => ?_)
            have hw : Bd (T.wrs .output x (i / 8) src) (2 * max 1 (k / 8) - max 1 (k / 8)) :=
              Bd.mono (Bd.wrs _ _ _ _) (by rw [rds_length hsrc]; omega)
            exact ⟨hw, fun _ _ => ⟨trivial, hw⟩⟩
          refine Run.next hcp (by omega) (fun out _ => ?_)
          refine Run.done _ ⟨⟨he.rate, he.nr, he.inq, by dsimp only; omega, he.ap, he.out⟩, hei, by dsimp only; omega, by dsimp only; omega⟩ ?_
          dsimp only
          split <;> omega
      · split
        · rename_i hlt
          have r1 := ih (bitLen - s.2.2) (by omega) s.1 s.2.1 s.2.2 B rfl f1
          exact Run.weaken r1 (fun a ⟨g1, g2⟩ => ⟨⟨g1, g2.trans f2⟩, Nat.le_refl _⟩)
        · exact Run.fail _ _
    · exact Run.done _ ⟨h, rfl⟩ (by omega)

theorem squeeze_run (c : KeccakCtx) (x : List Byte) (h : KFit r o c) :
    Run (Tr.keccakSqueeze c x) (fun s => KFit r o s.1) (fun s => Q * s.1.inqueueBits)
      (Q * c.inqueueBits + (23874 + 8 * Q + (Q * r + (Q + 6) * o))) := by
  unfold Tr.keccakSqueeze
  refine Run.next (Bd.br _) (by omega) (fun add _ => ?_)
  refine Run.seq (P := KFit r o) (ψ := fun e => Q * e.inqueueBits + (23766 + (Q * r + (Q + 6) * o))) ?_ (fun e he => ?_)
  · cases add with
    | true =>
      rw [if_pos rfl]
      have hap := h.ap
      have r1 := absorb_run hr hr8 h8 hQ c [c.ap] c.apLen h (.inl h.ap)
      refine Run.seq (P := KFit r o) (ψ := fun e => Q * e.inqueueBits + (23766 + (Q * r + (Q + 6) * o))) ?_ (fun e he => ?_)
      · have hm : (Q + 12) * c.apLen ≤ (Q + 12) * 8 := Nat.mul_le_mul_left _ hap
        refine ⟨Nat.le_trans r1.1 (by omega), fun a ha => ⟨(r1.2 a ha).1, ?_⟩⟩
        have := (r1.2 a ha).2
        dsimp only at this ⊢
        omega
      · exact Run.done _ ⟨he.rate, he.nr, he.inq, he.sq, he.ap, he.out⟩ (Nat.le_refl _)
    | false =>
      rw [if_neg (by decide)]
      exact Run.done _ h (by omega)
  · refine Run.next (Bd.br _) (by omega) (fun pad _ => ?_)
    refine Run.seq (P := KFit r o) (ψ := fun e => Q * e.inqueueBits + (6 + (Q * r + (Q + 6) * o))) ?_ (fun e he => ?_)
    · cases pad with
      | true =>
        rw [if_pos rfl]
        refine Run.mono (Run.weaken (padding_run hr hr8 e he (6 + (Q * r + (Q + 6) * o))) (fun a ⟨g1, g2⟩ => ⟨g1, ?_⟩)) ?_
        · rw [g2, Nat.mul_zero]; omega
        · omega
      | false =>
        rw [if_neg (by decide)]
        exact Run.done _ he (by omega)
    · refine Run.mono (Run.weaken (squeezeLoop_run hr hr8 h8 hQ e.outLength _ e x 0 (Q * e.inqueueBits) rfl he)
        (fun a ⟨g1, g2⟩ => ⟨g1, ?_⟩)) ?_
      · rw [g2]; exact Nat.le_refl _
      · have h1 : Q * (r - e.squeezable) ≤ Q * r := Nat.mul_le_mul_left _ (Nat.sub_le _ _)
        have h2 : (Q + 6) * e.outLength ≤ (Q + 6) * o := Nat.mul_le_mul_left _ he.out
        rw [Nat.sub_zero]
        rw [Nat.add_mul] at h2
        omega
end

end Pgfe.Proofs.Work
