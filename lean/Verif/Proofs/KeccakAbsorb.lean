import Verif.Proofs.KeccakSponge
/-!
# Absorbing
-/
namespace Pgfe.Proofs.Keccak
open Pgfe.Model Pgfe.Spec.Keccak
open Pgfe.Spec.Sha (blocks)
open Pgfe.Proofs.Sha

/-- An absorbing context: lanes `f`, queued bytes `t`; `n` lanes per block. -/
structure Abs (n : Nat) (ap : Byte) (al o : Nat) (c : KeccakCtx) (f : Nat → W64) (t : List Byte) : Prop where
  n0 : 0 < n
  n24 : n ≤ 24
  st : c.state = lst f
  ql : c.dataQueue.length = 192
  rate : c.rate = 64 * n
  nr : c.nr = 24
  inq : c.inqueueBits = 8 * t.length
  tl : t.length < 8 * n
  q : c.dataQueue.take t.length = t
  sq : c.squeezing = false
  ap : c.ap = ap
  al : c.apLen = al
  aa : c.apAdded = false
  ol : c.outLength = o

variable {n : Nat} {ap : Byte} {al o : Nat} {c : KeccakCtx} {f : Nat → W64} {t : List Byte}

/-- The number of bits the partial step takes. -/
def pbits (c : KeccakCtx) (bitLen i : Nat) : Nat :=
  if ((bitLen - i) % 2 ^ 32 + c.inqueueBits) % 2 ^ 32 > c.rate
    then (c.rate + 2 ^ 32 - c.inqueueBits) % 2 ^ 32 else (bitLen - i) % 2 ^ 32

theorem absorbQueue_ok (q : List Byte) (hq : q.length = 192) (h : Abs n ap al o c f t) (k : Nat) :
    keccakAbsorbQueue { c with dataQueue := q, inqueueBits := k }
      = .ok { c with dataQueue := q, inqueueBits := 0, state := lst (absF f (q.take (8 * n))) } := by
  have := h.n0; have := h.n24
  rw [keccakAbsorbQueue]
  dsimp only
  rw [h.st, h.rate, h.nr, show 64 * n / 64 = n by omega,
    absorb1_ok _ _ _ _ (by omega) (by omega) (by rw [hq]; omega), bind_ok, List.drop_zero]

theorem take_splice (q : List Byte) (t src : List Byte) (h : q.take t.length = t) :
    (splice q t.length src).take (t.length + src.length) = t ++ src := by
  rw [splice, h, List.take_append_of_le_length (by simp), List.take_of_length_le (by simp)]

/-- The partial step takes `p` bytes that do not complete the block. -/
theorem partial_small (h : Abs n ap al o c f t) (input : List Byte) (bitLen j p : Nat)
    (hp : pbits c bitLen (8 * j) = 8 * p) (hi : j + p ≤ input.length) (hs : t.length + p < 8 * n) :
    ∃ c', keccakPartial c input bitLen (8 * j) = .ok (c', 8 * (j + p)) ∧
      Abs n ap al o c' f (t ++ (input.drop j).take p) := by
  have h0 := h.n0; have h24 := h.n24
  have hl : ((input.drop j).take p).length = p := by rw [List.length_take, List.length_drop]; omega
  rw [pbits] at hp
  rw [keccakPartial]
  dsimp only
  rw [hp, show 8 * p % 8 = 0 by omega, show 8 * p - 0 = 8 * p from rfl, show 8 * p / 8 = p by omega,
    show 8 * j / 8 = j by omega, rds_ok hi, bind_ok, h.inq, show 8 * t.length / 8 = t.length by omega,
    wrs_ok (by rw [hl, h.ql]; omega), bind_ok, Nat.mod_eq_of_lt (by omega : 8 * t.length + 8 * p < 2 ^ 32),
    if_neg (by rw [h.rate]; omega), bind_ok, if_neg (by decide)]
  refine ⟨_, by rw [show 8 * j + 8 * p = 8 * (j + p) by omega], ?_⟩
  have hsl := splice_length (b := c.dataQueue) (i := t.length) (src := (input.drop j).take p)
    (by rw [hl, h.ql]; omega)
  have hts := take_splice c.dataQueue t ((input.drop j).take p) h.q
  constructor
  · exact h0
  · exact h24
  · exact h.st
  · dsimp only; rw [hsl, h.ql]
  · exact h.rate
  · exact h.nr
  · dsimp only; rw [List.length_append, hl]; omega
  · rw [List.length_append, hl]; exact hs
  · dsimp only; rw [List.length_append, hts]
  · exact h.sq
  · exact h.ap
  · exact h.al
  · exact h.aa
  · exact h.ol

/-- The partial step takes `p` bytes that complete the block. -/
theorem partial_fill (h : Abs n ap al o c f t) (input : List Byte) (bitLen j p : Nat)
    (hp : pbits c bitLen (8 * j) = 8 * p) (hi : j + p ≤ input.length) (hs : t.length + p = 8 * n) :
    ∃ c', keccakPartial c input bitLen (8 * j) = .ok (c', 8 * (j + p)) ∧
      Abs n ap al o c' (absF f (t ++ (input.drop j).take p)) [] := by
  have h0 := h.n0; have h24 := h.n24
  have hl : ((input.drop j).take p).length = p := by rw [List.length_take, List.length_drop]; omega
  have hsl := splice_length (b := c.dataQueue) (i := t.length) (src := (input.drop j).take p)
    (by rw [hl, h.ql]; omega)
  have hts := take_splice c.dataQueue t ((input.drop j).take p) h.q
  rw [hl, hs] at hts
  rw [pbits] at hp
  rw [keccakPartial]
  dsimp only
  rw [hp, show 8 * p % 8 = 0 by omega, show 8 * p - 0 = 8 * p from rfl, show 8 * p / 8 = p by omega,
    show 8 * j / 8 = j by omega, rds_ok hi, bind_ok, h.inq, show 8 * t.length / 8 = t.length by omega,
    wrs_ok (by rw [hl, h.ql]; omega), bind_ok, Nat.mod_eq_of_lt (by omega : 8 * t.length + 8 * p < 2 ^ 32),
    if_pos (by rw [h.rate]; omega), absorbQueue_ok _ (by rw [hsl, h.ql]) h, bind_ok, if_neg (by decide), hts]
  refine ⟨_, by rw [show 8 * j + 8 * p = 8 * (j + p) by omega], ?_⟩
  constructor
  · exact h0
  · exact h24
  · rfl
  · dsimp only; rw [hsl, h.ql]
  · exact h.rate
  · exact h.nr
  · rfl
  · simp only [List.length_nil]; omega
  · simp
  · exact h.sq
  · exact h.ap
  · exact h.al
  · exact h.aa
  · exact h.ol

theorem loop_done (input : List Byte) (bitLen i : Nat) (h : bitLen ≤ i) :
    keccakAbsorbLoop c input bitLen i = .ok c := by
  rw [keccakAbsorbLoop, dif_neg (by omega)]

theorem loop_small (h : Abs n ap al o c f t) (input : List Byte) (L j : Nat) (hj : j ≤ L)
    (hL : L ≤ input.length) (hs : t.length + (L - j) < 8 * n) :
    ∃ c', keccakAbsorbLoop c input (8 * L) (8 * j) = .ok c' ∧
      Abs n ap al o c' f (t ++ (input.drop j).take (L - j)) := by
  have h0 := h.n0; have h24 := h.n24
  by_cases e : j = L
  · subst e
    refine ⟨c, loop_done _ _ _ (Nat.le_refl _), ?_⟩
    rw [Nat.sub_self, List.take_zero, List.append_nil]; exact h
  · have hp : pbits c (8 * L) (8 * j) = 8 * (L - j) := by
      rw [pbits, h.inq, h.rate, Nat.mod_eq_of_lt (by omega : 8 * L - 8 * j < 2 ^ 32), if_neg (by omega)]
      omega
    obtain ⟨c', h1, h2⟩ := partial_small h input (8 * L) j (L - j) hp (by omega) hs
    refine ⟨c', ?_, h2⟩
    rw [keccakAbsorbLoop, dif_pos (by omega), if_neg (by rw [h.rate]; omega), h1]
    dsimp only
    rw [dif_pos (by omega), loop_done _ _ _ (by omega)]

theorem whole_ok (h : Abs n ap al o c f t) (input : List Byte) (j k : Nat)
    (hi : j + k * (8 * n) ≤ input.length) :
    keccakWhole c input j k = .ok (lst ((blocks (8 * n) ((input.drop j).take (k * (8 * n)))).foldl absF f)) := by
  have h0 := h.n0; have h24 := h.n24
  induction k with
  | zero =>
    rw [keccakWhole, forN, h.st, Nat.zero_mul, List.take_zero, blocks_small _ _ (by simp; omega)]
    rfl
  | succ k ih =>
    rw [Nat.add_mul, Nat.one_mul] at hi ⊢
    have ih := ih (by omega)
    rw [keccakWhole] at ih ⊢
    rw [forN, ih, bind_ok, h.rate, h.nr, show 64 * n / 8 = 8 * n by omega, show 64 * n / 64 = n by omega,
      absorb1_ok _ _ _ _ h0 (by omega) (by omega)]
    congr 2
    rw [List.take_add, blocks_append _ (by omega) _ _ (by
        rw [List.length_take, List.length_drop, Nat.min_eq_left (by omega), Nat.mul_mod_left]),
      List.drop_drop, blocks_one _ (by omega) ((input.drop (j + k * (8 * n))).take (8 * n))
        (by rw [List.length_take, List.length_drop]; omega),
      List.foldl_append, List.foldl_cons, List.foldl_nil]

theorem loop_empty (h : Abs n ap al o c f []) (input : List Byte) (L j : Nat) (hj : j ≤ L)
    (hL : L ≤ input.length) :
    ∃ c', keccakAbsorbLoop c input (8 * L) (8 * j) = .ok c' ∧
      Abs n ap al o c' ((blocks (8 * n) ((input.drop j).take (L - j))).foldl absF f)
        (tail (8 * n) ((input.drop j).take (L - j))) := by
  have h0 := h.n0; have h24 := h.n24
  have hl : ((input.drop j).take (L - j)).length = L - j := by rw [List.length_take, List.length_drop]; omega
  by_cases e : L - j < 8 * n
  · obtain ⟨c', h1, h2⟩ := loop_small h input L j hj hL (by simpa using e)
    refine ⟨c', h1, ?_⟩
    rw [blocks_small _ _ (by omega), tail_small _ _ (by omega)]
    simpa using h2
  · have hq : (8 * L - 8 * j) / (64 * n) = (L - j) / (8 * n) := by
      rw [show 8 * L - 8 * j = 8 * (L - j) by omega, show 64 * n = 8 * (8 * n) by omega,
        Nat.mul_div_mul_left _ _ (by decide : 0 < 8)]
    have hdm := Nat.div_add_mod (L - j) (8 * n)
    have hml := Nat.mod_lt (L - j) (by omega : 0 < 8 * n)
    have hpos : 0 < (L - j) / (8 * n) := Nat.div_pos (by omega) (by omega)
    have hc : 8 * n * ((L - j) / (8 * n)) = (L - j) / (8 * n) * (8 * n) := Nat.mul_comm ..
    have h64 : (L - j) / (8 * n) * (64 * n) = 8 * ((L - j) / (8 * n) * (8 * n)) := by
      rw [show 64 * n = 8 * (8 * n) by omega, Nat.mul_left_comm]
    rw [keccakAbsorbLoop, dif_pos (by omega),
      if_pos ⟨by rw [h.inq]; rfl, by rw [h.rate]; omega, by rw [h.rate]; omega⟩,
      show (8 * L - 8 * j) / c.rate = (L - j) / (8 * n) by rw [h.rate, hq],
      show (L - j) / (8 * n) * c.rate = (L - j) / (8 * n) * (64 * n) by rw [h.rate],
      show 8 * j / 8 = j by omega, whole_ok h input j _ (by omega)]
    dsimp only
    have hpm : 0 < (L - j) / (8 * n) * (64 * n) := Nat.mul_pos hpos (by omega)
    rw [dif_pos hpm, h64]
    generalize hQ : (L - j) / (8 * n) * (8 * n) = Q at *
    have hA : Abs n ap al o { c with state := lst ((blocks (8 * n) ((input.drop j).take Q)).foldl absF f) }
        ((blocks (8 * n) ((input.drop j).take Q)).foldl absF f) [] :=
      ⟨h0, h24, rfl, h.ql, h.rate, h.nr, h.inq, h.tl, h.q, h.sq, h.ap, h.al, h.aa, h.ol⟩
    obtain ⟨c', h1, h2⟩ := loop_small hA input L (j + Q) (by omega) hL (by simp only [List.length_nil]; omega)
    rw [show 8 * j + 8 * Q = 8 * (j + Q) by omega]
    refine ⟨c', h1, ?_⟩
    have es : (input.drop j).take (L - j)
        = (input.drop j).take Q ++ (input.drop (j + Q)).take (L - (j + Q)) := by
      rw [← List.drop_drop, ← List.take_add]
      congr 1; omega
    have hl2 : ((input.drop j).take Q).length = Q := by rw [List.length_take, List.length_drop]; omega
    have hl3 : ((input.drop (j + Q)).take (L - (j + Q))).length < 8 * n := by
      rw [List.length_take, List.length_drop]; omega
    have hQ0 : Q % (8 * n) = 0 := by rw [← hQ]; exact Nat.mul_mod_left ..
    rw [es, blocks_append _ (by omega) _ _ (by rw [hl2]; exact hQ0),
      tail_append _ (by omega) _ _ (by rw [hl2]; exact hQ0), blocks_small _ _ hl3, tail_small _ _ hl3,
      List.append_nil]
    simpa using h2

/-- When an update of `L` bytes with `u` bytes in the queue is processed correctly. -/
def Good (n u L : Nat) : Prop :=
  u = 0 ∨ (8 * L % 2 ^ 32 + 8 * u < 2 ^ 32 ∧ (8 * L < 2 ^ 32 ∨ 64 * n ≤ 8 * L % 2 ^ 32 + 8 * u))

theorem loop_ok (h : Abs n ap al o c f t) (input : List Byte) (L : Nat)
    (hL : L ≤ input.length) (hg : Good n t.length L) :
    ∃ c', keccakAbsorbLoop c input (8 * L) 0 = .ok c' ∧
      Abs n ap al o c' ((blocks (8 * n) (t ++ input.take L)).foldl absF f) (tail (8 * n) (t ++ input.take L)) := by
  have h0 := h.n0; have h24 := h.n24; have htl := h.tl
  have hlL : (input.take L).length = L := by rw [List.length_take]; omega
  by_cases e0 : t.length = 0
  · have : t = [] := List.length_eq_zero_iff.1 e0
    subst this
    obtain ⟨c', h1, h2⟩ := loop_empty h input L 0 (Nat.zero_le _) hL
    exact ⟨c', h1, by simpa using h2⟩
  rcases hg with hg | ⟨hg1, hg2⟩
  · exact absurd hg e0
  by_cases es : t.length + L < 8 * n
  · obtain ⟨c', h1, h2⟩ := loop_small h input L 0 (Nat.zero_le _) hL (by omega)
    refine ⟨c', h1, ?_⟩
    rw [Nat.sub_zero, List.drop_zero] at h2
    rw [blocks_small _ _ (by rw [List.length_append]; omega),
      tail_small _ _ (by rw [List.length_append]; omega)]
    exact h2
  · have hp : pbits c (8 * L) (8 * 0) = 8 * (8 * n - t.length) := by
      rw [pbits, h.inq, h.rate, Nat.mul_zero, Nat.sub_zero, Nat.mod_eq_of_lt hg1]
      split
      · rw [show 64 * n + 2 ^ 32 - 8 * t.length = 8 * (8 * n - t.length) + 2 ^ 32 by omega,
          Nat.add_mod_right, Nat.mod_eq_of_lt (by omega)]
      · omega
    obtain ⟨c1, h1, h2⟩ := partial_fill h input (8 * L) 0 (8 * n - t.length) hp (by omega) (by omega)
    obtain ⟨c', h3, h4⟩ := loop_empty h2 input L (0 + (8 * n - t.length)) (by omega) hL
    refine ⟨c', ?_, ?_⟩
    · have h1 : keccakPartial c input (8 * L) 0 = .ok (c1, 8 * (0 + (8 * n - t.length))) := h1
      rw [keccakAbsorbLoop, dif_pos (by omega), if_neg (by rw [h.inq]; omega), h1]
      dsimp only
      rw [dif_pos (by omega), h3]
    · rw [Nat.zero_add] at h4
      have ei : input.take L = input.take (8 * n - t.length) ++
          (input.drop (8 * n - t.length)).take (L - (8 * n - t.length)) := by
        rw [← List.take_add]; congr 1; omega
      have hl2 : (t ++ input.take (8 * n - t.length)).length = 8 * n := by
        rw [List.length_append, List.length_take]; omega
      rw [ei, ← List.append_assoc, blocks_append _ (by omega) _ _ (by rw [hl2, Nat.mod_self]),
        tail_append _ (by omega) _ _ (by rw [hl2, Nat.mod_self]), blocks_one _ (by omega) _ hl2]
      rw [List.drop_zero] at h4
      exact h4

/-- Otherwise the call never returns or writes outside the queue. -/
theorem loop_bad (h : Abs n ap al o c f t) (input : List Byte) (L : Nat)
    (hL : L ≤ input.length) (hg : ¬ Good n t.length L) :
    (8 * L % 2 ^ 32 + 8 * t.length < 2 ^ 32 ∧ keccakAbsorbLoop c input (8 * L) 0 = .error .diverge) ∨
    (2 ^ 32 ≤ 8 * L % 2 ^ 32 + 8 * t.length ∧ keccakAbsorbLoop c input (8 * L) 0 = .error .oobWrite) := by
  have h0 := h.n0; have h24 := h.n24; have htl := h.tl
  have hg' : t.length ≠ 0 ∧ (8 * L % 2 ^ 32 + 8 * t.length < 2 ^ 32 →
      (2 ^ 32 ≤ 8 * L ∧ 8 * L % 2 ^ 32 + 8 * t.length < 64 * n)) := by
    rw [Good] at hg; omega
  obtain ⟨ht0, hg'⟩ := hg'
  have hpos : 0 < 8 * L := by omega
  by_cases hw : 8 * L % 2 ^ 32 + 8 * t.length < 2 ^ 32
  · refine Or.inl ⟨hw, ?_⟩
    obtain ⟨hg1, hg2⟩ := hg' hw
    have hp : pbits c (8 * L) (8 * 0) = 8 * (8 * L % 2 ^ 32 / 8) := by
      rw [pbits, h.inq, h.rate, Nat.mul_zero, Nat.sub_zero, Nat.mod_eq_of_lt hw, if_neg (by omega)]
      omega
    obtain ⟨c1, h1, h2⟩ := partial_small h input (8 * L) 0 _ hp (by omega) (by omega)
    have h1 : keccakPartial c input (8 * L) 0 = .ok (c1, 8 * (0 + 8 * L % 2 ^ 32 / 8)) := h1
    rw [keccakAbsorbLoop, dif_pos hpos, if_neg (by rw [h.inq]; omega), h1]
    dsimp only
    by_cases hz : 8 * L % 2 ^ 32 = 0
    · rw [dif_neg (by omega)]
    · rw [dif_pos (by omega)]
      have hp2 : pbits c1 (8 * L) (8 * (0 + 8 * L % 2 ^ 32 / 8)) = 8 * 0 := by
        rw [pbits, h2.inq, h2.rate]
        have htl2 := h2.tl
        have : (8 * L - 8 * (0 + 8 * L % 2 ^ 32 / 8)) % 2 ^ 32 = 0 := by omega
        rw [this, Nat.mod_eq_of_lt (by omega), if_neg (by omega)]
      obtain ⟨c2, h3, h4⟩ := partial_small h2 input (8 * L) _ 0 hp2 (by omega) (by have := h2.tl; omega)
      have hne : c1.inqueueBits ≠ 0 := by rw [h2.inq, List.length_append]; omega
      rw [keccakAbsorbLoop, dif_pos (by omega), if_neg (fun hh => hne hh.1), h3]
      dsimp only
      rw [dif_neg (by omega)]
  · refine Or.inr ⟨by omega, ?_⟩
    have hp : pbits c (8 * L) 0 = 8 * (8 * L % 2 ^ 32 / 8) := by
      rw [pbits, h.inq, h.rate, Nat.sub_zero, if_neg (by omega)]
      omega
    rw [pbits] at hp
    have hP : keccakPartial c input (8 * L) 0 = .error .oobWrite := by
      rw [keccakPartial]
      dsimp only
      generalize hpp : 8 * L % 2 ^ 32 / 8 = p at *
      rw [hp, show 8 * p % 8 = 0 by omega, show 8 * p - 0 = 8 * p from rfl, show 8 * p / 8 = p by omega,
        show 0 / 8 = 0 from rfl, rds_ok (by omega), bind_ok, h.inq, wrs, if_neg (by
          rw [List.length_take, List.drop_zero, h.ql]; omega)]
      rfl
    rw [keccakAbsorbLoop, dif_pos hpos, if_neg (by rw [h.inq]; omega), hP]

end Pgfe.Proofs.Keccak
