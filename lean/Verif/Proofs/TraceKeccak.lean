import Verif.Proofs.TraceSame
/-!
# Two runs of MD5 or KECCAK with the same trace
-/
namespace Pgfe.Proofs.Trace
open Pgfe.Model

/-! ## MD5 -/

/-- The contexts differ at most in the contents of `state` and `block`. -/
structure Md5Like (c c' : Md5Ctx) : Prop where
  state : L c.state c'.state
  block : L c.block c'.block
  len : c.blockLen = c'.blockLen

theorem md5Offset_same {c c' : Md5Ctx} (h : Md5Like c c') : md5Offset c = md5Offset c' := by
  unfold md5Offset; rw [h.len]

theorem md5Step_same {x x' b b' : List W32} (hx : L x x') (hb : L b b') (r i : Nat) :
    Same L (Tr.md5Step x r i b) (Tr.md5Step x' r i b') := by
  unfold Tr.md5Step
  refine Same.seq (Same.refl (T.sw r)) (fun r r' e => ?_)
  subst e
  rd! hb
  rd! hb
  rd! hb
  rd! hb
  refine Same.seq (Same.refl _) (fun k k' e => ?_)
  subst e
  rd! hx
  refine Same.seq (Same.refl _) (fun _ _ _ => ?_)
  refine Same.seq (Same.refl _) (fun _ _ _ => ?_)
  cases md5Fun r with
  | none => exact Same.ret hb
  | some f => exact Same.wr _ _ _ _ hb

theorem md5Decode_same {x x' : List Byte} (hx : L x x') (n : Nat) : Same L (Tr.md5Decode x n) (Tr.md5Decode x' n) := by
  unfold Tr.md5Decode
  refine Same.forN _ rfl (fun i s s' hs => ?_)
  rd! hx
  rd! hx
  rd! hx
  rd! hx
  exact Same.push _ _ _ hs

theorem md5Encode_same (a d : Arr) {x x' : List W32} (hx : L x x') (n : Nat) {o o' : List Byte} (ho : L o o') :
    Same L (Tr.md5Encode a d x n o) (Tr.md5Encode a d x' n o') := by
  unfold Tr.md5Encode
  refine Same.forN _ ho (fun i s s' hs => ?_)
  rd! hx
  wr! hs
  wr! hs
  wr! hs
  exact Same.wr _ _ _ _ hs

theorem md5Transform_same {s s' : List W32} (hs : L s s') {b b' : List Byte} (hb : L b b') :
    Same L (Tr.md5Transform s b) (Tr.md5Transform s' b') := by
  unfold Tr.md5Transform
  rd! hs
  rd! hs
  rd! hs
  rd! hs
  refine Same.seq (md5Decode_same hb 64) (fun x x' hx => ?_)
  refine Same.seq (Same.forN (R := L) 4 rfl (fun r s s' hs => Same.forN 16 hs (fun i s s' hs => md5Step_same hx hs r i)))
    (fun u u' hu => ?_)
  rd! hu
  refine Same.seq (addAt_same hs _ _ _) (fun _ _ hs => ?_)
  rd! hu
  refine Same.seq (addAt_same hs _ _ _) (fun _ _ hs => ?_)
  rd! hu
  refine Same.seq (addAt_same hs _ _ _) (fun _ _ hs => ?_)
  rd! hu
  exact addAt_same hs _ _ _

theorem md5Init_same {c c' : Md5Ctx} (hs : L c.state c'.state) (hb : L c.block c'.block) :
    Same Md5Like (Tr.md5Init c) (Tr.md5Init c') :=
  Same.seq (Same.wrs _ _ hs rfl) (fun _ _ h => Same.ret ⟨h, hb, rfl⟩)

theorem md5Loop_same {x x' : List Byte} (hx : L x x') (n k : Nat) (l : Option (Nat × Nat)) {c c' : Md5Ctx}
    (h : Md5Like c c') :
    Same (fun r r' => Md5Like r.1 r'.1 ∧ r.2 = r'.2) (Tr.md5Loop x n c k l) (Tr.md5Loop x' n c' k l) := by
  induction hk : n - k using Nat.strongRecOn generalizing c c' k l with
  | _ m ih =>
    rw [Tr.md5Loop, Tr.md5Loop, md5Offset_same h]
    have ho := md5Offset_lt c'
    refine Same.br rfl ?_
    by_cases h1 : k < n
    · rw [dif_pos h1, dif_pos h1]
      refine Same.br rfl ?_
      by_cases h2 : n - k < 64 - md5Offset c'
      · rw [if_pos h2, if_pos h2]; exact Same.ret ⟨h, rfl⟩
      · rw [if_neg h2, if_neg h2]
        refine Same.seq (Same.rds _ _ _ hx) (fun _ _ hs => ?_)
        refine Same.seq (Same.wrs _ _ h.block hs) (fun _ _ hb => ?_)
        refine Same.seq (md5Transform_same h.state hb) (fun _ _ hs => ?_)
        exact ih _ (by omega) _ _ ⟨hs, hb, by show _ = _; rw [h.len]⟩ rfl
    · rw [dif_neg h1, dif_neg h1]; exact Same.ret ⟨h, rfl⟩

theorem md5Finish_same {x x' : List Byte} (hx : L x x') (n k : Nat) (l : Option (Nat × Nat)) {c c' : Md5Ctx}
    (h : Md5Like c c') : Same Md5Like (Tr.md5Finish x n c k l) (Tr.md5Finish x' n c' k l) := by
  cases l with
  | none => exact Same.fail _
  | some p =>
    obtain ⟨o, r⟩ := p
    simp only [Tr.md5Finish]
    refine Same.br rfl ?_
    refine Same.seq (R := fun r r' => Md5Like r.1 r'.1 ∧ r.2 = r'.2) ?_ (fun r r' hr => ?_)
    · split
      · refine Same.seq (Same.rds _ _ _ hx) (fun _ _ hs => ?_)
        refine Same.seq (Same.wrs _ _ h.block hs) (fun _ _ hb => ?_)
        exact Same.ret ⟨⟨h.state, hb, by show _ = _; rw [h.len]⟩, rfl⟩
      · exact Same.ret ⟨h, rfl⟩
    · obtain ⟨hc, he⟩ := hr
      rw [he]
      refine Same.br rfl ?_
      split
      · exact Same.seq (md5Transform_same hc.state hc.block) (fun _ _ hs => Same.ret ⟨hs, hc.block, hc.len⟩)
      · exact Same.ret hc

theorem md5Update_same {x x' : List Byte} (hx : L x x') (n : Nat) {c c' : Md5Ctx} (h : Md5Like c c') :
    Same Md5Like (Tr.md5Update c (some x) n) (Tr.md5Update c' (some x') n) := by
  simp only [Tr.md5Update]
  refine Same.br rfl (Same.seq (md5Loop_same hx n 0 none h) (fun r r' hr => ?_))
  rw [hr.2]
  exact md5Finish_same hx n _ _ hr.1

theorem md5Digest_same {c c' : Md5Ctx} (h : Md5Like c c') {o o' : List Byte} (ho : L o o') :
    Same (Both Md5Like) (Tr.md5Digest c o) (Tr.md5Digest c' o') := by
  unfold Tr.md5Digest
  rw [h.len]
  refine Same.seq (md5Encode_same _ _ rfl 8 rfl) (fun k k' hk => ?_)
  refine Same.br rfl ?_
  refine Same.seq (md5Update_same rfl _ h) (fun c c' h => ?_)
  refine Same.seq (md5Update_same hk _ h) (fun c c' h => ?_)
  exact Same.seq (md5Encode_same _ _ h.state 16 ho) (fun _ _ ho => Same.ret ⟨h, ho⟩)

/-! ## KECCAK -/

/-- The contexts differ at most in the contents of `state` and `dataQueue`. -/
structure KLike (c c' : KeccakCtx) : Prop where
  state : L c.state c'.state
  queue : L c.dataQueue c'.dataQueue
  eq : { c with state := c'.state, dataQueue := c'.dataQueue } = c'

theorem keccakTheta_same {A A' : List W64} (h : L A A') : Same L (Tr.keccakTheta A) (Tr.keccakTheta A') := by
  unfold Tr.keccakTheta Tr.laneRd Tr.laneWr
  refine Same.seq (Same.forN 5 (R := L) rfl (fun x s s' hs => ?_)) (fun cs cs' hc => Same.forN 5 h (fun x A A' h => ?_))
  · rd! h
    rd! h
    rd! h
    rd! h
    rd! h
    exact Same.push _ _ _ hs
  · rd! hc
    rd! hc
    refine Same.forN 5 h (fun y A A' h => ?_)
    rd! h
    exact Same.wr _ _ _ _ h

theorem keccakRhoPi_same {A A' : List W64} (h : L A A') : Same L (Tr.keccakRhoPi A) (Tr.keccakRhoPi A') := by
  unfold Tr.keccakRhoPi Tr.laneRd Tr.laneWr
  rd! h
  refine Same.seq (Same.forN 24 (R := fun s s' => L s.1 s'.1) h (fun x s s' hs => ?_)) (fun s s' hs => Same.ret hs)
  refine Same.seq (Same.refl _) (fun j j' e => ?_)
  subst e
  rd! hs
  rd! rfl
  exact Same.seq (Same.wr _ _ _ _ hs) (fun _ _ h => Same.ret h)

theorem keccakChi_same {A A' : List W64} (h : L A A') : Same L (Tr.keccakChi A) (Tr.keccakChi A') := by
  unfold Tr.keccakChi Tr.laneRd Tr.laneWr
  refine Same.forN 5 h (fun y A A' h => ?_)
  refine Same.seq (Same.forN 5 (R := L) rfl (fun x s s' hs => ?_)) (fun cs cs' hc => Same.forN 5 h (fun x A A' h => ?_))
  · rd! h
    exact Same.push _ _ _ hs
  · rd! h
    rd! hc
    rd! hc
    exact Same.wr _ _ _ _ h

theorem keccakTransform_same {A A' : List W64} (h : L A A') (rc rc' : W64) :
    Same L (Tr.keccakTransform A rc) (Tr.keccakTransform A' rc') := by
  unfold Tr.keccakTransform
  refine Same.seq (keccakTheta_same h) (fun A A' h => ?_)
  refine Same.seq (keccakRhoPi_same h) (fun A A' h => ?_)
  refine Same.seq (keccakChi_same h) (fun A A' h => ?_)
  unfold Tr.keccakIota Tr.laneRd Tr.laneWr
  rd! h
  exact Same.wr _ _ _ _ h

theorem seqToState_same (a : Arr) {m m' : List Byte} (hm : L m m') (off n : Nat) {A A' : List W64} (h : L A A') :
    Same L (Tr.seqToState a m off A n) (Tr.seqToState a m' off A' n) := by
  unfold Tr.seqToState Tr.laneRd Tr.laneWr
  refine Same.seq (Same.iter 25 (R := fun s s' => L s.1 s'.1 ∧ s.2 = s'.2) ⟨h, rfl⟩ (fun k s s' hs => ?_))
    (fun s s' hs => Same.ret hs.1)
  rw [hs.2]
  by_cases h2 : s'.2 = true
  · rw [if_pos h2, if_pos h2]; exact Same.ret hs
  · rw [if_neg h2, if_neg h2]
    refine Same.seq (Same.rds _ _ _ hm) (fun _ _ _ => ?_)
    rd! hs.1
    refine Same.seq (Same.wr _ _ _ _ hs.1) (fun _ _ h => ?_)
    exact Same.br rfl (Same.ret ⟨h, rfl⟩)

theorem keccakPermutation_same (n : Nat) {A A' : List W64} (h : L A A') :
    Same L (Tr.keccakPermutation A n) (Tr.keccakPermutation A' n) := by
  unfold Tr.keccakPermutation
  refine Same.forN n h (fun i A A' h => ?_)
  rd! rfl
  exact keccakTransform_same h _ _

theorem bytesLE64_length (a : W64) : (bytesLE64 a).length = 8 := by
  simp [bytesLE64]

theorem stateToSeq_same (n : Nat) {A A' : List W64} (h : L A A') {o o' : List Byte} (ho : L o o') :
    Same L (Tr.stateToSeq A o n) (Tr.stateToSeq A' o' n) := by
  unfold Tr.stateToSeq Tr.laneRd
  refine Same.seq (Same.iter 25 (R := fun s s' => L s.1 s'.1 ∧ s.2 = s'.2) ⟨ho, rfl⟩ (fun k s s' hs => ?_))
    (fun s s' hs => Same.ret hs.1)
  rw [hs.2]
  by_cases h2 : s'.2 = true
  · rw [if_pos h2, if_pos h2]; exact Same.ret hs
  · rw [if_neg h2, if_neg h2]
    rd! h
    refine Same.seq (Same.wrs _ _ hs.1 (by show _ = _; rw [bytesLE64_length, bytesLE64_length])) (fun _ _ h => ?_)
    exact Same.br rfl (Same.ret ⟨h, rfl⟩)

theorem keccakAbsorb1_same (a : Arr) {m m' : List Byte} (hm : L m m') (off l nr : Nat) {A A' : List W64} (h : L A A') :
    Same L (Tr.keccakAbsorb1 a A m off l nr) (Tr.keccakAbsorb1 a A' m' off l nr) :=
  Same.seq (seqToState_same a hm off _ h) (fun _ _ h => keccakPermutation_same nr h)

/-- A new state and queue, and the same change of the other members. -/
theorem KLike.mk' {S S' : List W64} {q q' : List Byte} (hs : L S S') (hq : L q q') {r cap inq ol nr : Nat} {sq : Bool}
    {sz : Nat} {ap : Byte} {al : Nat} {ad : Bool} :
    KLike ⟨S, q, r, cap, inq, ol, nr, sq, sz, ap, al, ad⟩ ⟨S', q', r, cap, inq, ol, nr, sq, sz, ap, al, ad⟩ :=
  ⟨hs, hq, rfl⟩

/-- Take two like contexts apart. -/
@[elab_as_elim]
theorem KLike.both {P : KeccakCtx → KeccakCtx → Prop} {c c' : KeccakCtx} (h : KLike c c')
    (k : ∀ (S S' : List W64) (q q' : List Byte) (_ : L S S') (_ : L q q')
      (r cap inq ol nr : Nat) (sq : Bool) (sz : Nat) (ap : Byte) (al : Nat) (ad : Bool),
      P ⟨S, q, r, cap, inq, ol, nr, sq, sz, ap, al, ad⟩ ⟨S', q', r, cap, inq, ol, nr, sq, sz, ap, al, ad⟩) : P c c' := by
  obtain ⟨hs, hq, he⟩ := h
  rw [← he]
  exact k _ _ _ _ hs hq _ _ _ _ _ _ _ _ _ _

set_option hygiene false in
/-- Take two like contexts apart, with fixed names. -/
macro "kl!" h:ident : tactic =>
  `(tactic| refine KLike.both $h (fun S S' q q' hs hq r cap inq ol nr sq sz ap al ad => ?_))

theorem keccakAbsorbQueue_same {c c' : KeccakCtx} (h : KLike c c') :
    Same KLike (Tr.keccakAbsorbQueue c) (Tr.keccakAbsorbQueue c') := by
  kl! h
  unfold Tr.keccakAbsorbQueue
  exact Same.seq (keccakAbsorb1_same _ hq _ _ _ hs) (fun _ _ hs => Same.ret (KLike.mk' hs hq))

theorem orBit_same {q q' : List Byte} (h : L q q') (i k : Nat) : Same L (Tr.orBit q i k) (Tr.orBit q' i k) := by
  unfold Tr.orBit
  rd! h
  exact Same.wr _ _ _ _ h

theorem keccakPadding_same {c c' : KeccakCtx} (h : KLike c c') : Same KLike (Tr.keccakPadding c) (Tr.keccakPadding c') := by
  kl! h
  unfold Tr.keccakPadding
  refine Same.br rfl ?_
  refine Same.seq (R := KLike) ?_ (fun c c' h => ?_)
  · split
    · refine Same.seq (orBit_same hq _ _) (fun _ _ hq => ?_)
      refine Same.seq (keccakAbsorbQueue_same (KLike.mk' hs hq)) (fun c c' h => ?_)
      kl! h
      exact Same.seq (Same.wrs _ _ hq rfl) (fun _ _ hq => Same.ret (KLike.mk' hs hq))
    · refine Same.seq (Same.wrs _ _ hq rfl) (fun _ _ hq => ?_)
      exact Same.seq (orBit_same hq _ _) (fun _ _ hq => Same.ret (KLike.mk' hs hq))
  · kl! h
    refine Same.seq (orBit_same hq _ _) (fun _ _ hq => ?_)
    refine Same.seq (keccakAbsorbQueue_same (KLike.mk' hs hq)) (fun c c' h => ?_)
    kl! h
    exact Same.seq (stateToSeq_same _ hs hq) (fun _ _ hq => Same.ret (KLike.mk' hs hq))

theorem keccakWhole_same {c c' : KeccakCtx} (h : KLike c c') {x x' : List Byte} (hx : L x x') (off n : Nat) :
    Same L (Tr.keccakWhole c x off n) (Tr.keccakWhole c' x' off n) := by
  kl! h
  unfold Tr.keccakWhole
  exact Same.forN n hs (fun i _ _ hs => keccakAbsorb1_same _ hx _ _ _ hs)

theorem keccakPartial_same {c c' : KeccakCtx} (h : KLike c c') {x x' : List Byte} (hx : L x x') (n i : Nat) :
    Same (fun r r' => KLike r.1 r'.1 ∧ r.2 = r'.2) (Tr.keccakPartial c x n i) (Tr.keccakPartial c' x' n i) := by
  kl! h
  unfold Tr.keccakPartial
  refine Same.br rfl ?_
  dsimp only
  generalize (if decide ((((n - i) % 2 ^ 32) + inq) % 2 ^ 32 > r) = true then (r + 2 ^ 32 - inq) % 2 ^ 32
    else (n - i) % 2 ^ 32) = p
  refine Same.seq (Same.rds _ _ _ hx) (fun _ _ hsrc => ?_)
  refine Same.seq (Same.wrs _ _ hq hsrc) (fun q q' hq => ?_)
  refine Same.br rfl ?_
  refine Same.seq (R := KLike) ?_ (fun c c' h => ?_)
  · split
    · exact keccakAbsorbQueue_same (KLike.mk' hs hq)
    · exact Same.ret (KLike.mk' hs hq)
  · kl! h
    refine Same.br rfl ?_
    split
    · rd! hx
      exact Same.seq (Same.wr _ _ _ _ hq) (fun _ _ hq => Same.ret ⟨KLike.mk' hs hq, rfl⟩)
    · exact Same.ret ⟨KLike.mk' hs hq, rfl⟩

theorem keccakAbsorbLoop_same {x x' : List Byte} (hx : L x x') (n i : Nat) {c c' : KeccakCtx} (h : KLike c c') :
    Same KLike (Tr.keccakAbsorbLoop c x n i) (Tr.keccakAbsorbLoop c' x' n i) := by
  induction hk : n - i using Nat.strongRecOn generalizing c c' i with
  | _ m ih =>
    kl! h
    rw [Tr.keccakAbsorbLoop, Tr.keccakAbsorbLoop]
    refine Same.br rfl ?_
    by_cases h1 : i < n
    · rw [dif_pos h1, dif_pos h1]
      dsimp only
      refine Same.br rfl (Same.br rfl (Same.br rfl ?_))
      split
      · refine Same.seq (keccakWhole_same (KLike.mk' hs hq) hx _ _) (fun S S' hs => ?_)
        split
        · exact ih _ (by omega) _ (KLike.mk' hs hq) rfl
        · exact Same.fail _
      · refine Same.seq (keccakPartial_same (KLike.mk' hs hq) hx n i) (fun r r' hrr => ?_)
        rw [hrr.2]
        split
        · exact ih _ (by omega) _ hrr.1 rfl
        · exact Same.fail _
    · rw [dif_neg h1, dif_neg h1]
      exact Same.ret (KLike.mk' hs hq)

theorem keccakAbsorb_same {x x' : List Byte} (hx : L x x') (n : Nat) {c c' : KeccakCtx} (h : KLike c c') :
    Same KLike (Tr.keccakAbsorb c x n) (Tr.keccakAbsorb c' x' n) := by
  kl! h
  unfold Tr.keccakAbsorb
  refine Same.br rfl ?_
  split
  · exact Same.ret (KLike.mk' hs hq)
  · exact keccakAbsorbLoop_same hx n 0 (KLike.mk' hs hq)

theorem keccakRefill_same {c c' : KeccakCtx} (h : KLike c c') : Same KLike (Tr.keccakRefill c) (Tr.keccakRefill c') := by
  kl! h
  unfold Tr.keccakRefill
  refine Same.br rfl ?_
  split
  · refine Same.seq (keccakPermutation_same _ hs) (fun _ _ hs => ?_)
    exact Same.seq (stateToSeq_same _ hs hq) (fun _ _ hq => Same.ret (KLike.mk' hs hq))
  · exact Same.ret (KLike.mk' hs hq)

theorem keccakSqueezeCopy_same {c c' : KeccakCtx} (h : KLike c c') {o o' : List Byte} (ho : L o o') (i n : Nat) :
    Same L (Tr.keccakSqueezeCopy c o i n) (Tr.keccakSqueezeCopy c' o' i n) := by
  kl! h
  unfold Tr.keccakSqueezeCopy
  dsimp only
  generalize (r + 2 ^ 32 - sz) % 2 ^ 32 / 8 = k
  exact Same.seq (Same.rds _ _ _ hq) (fun _ _ hs => Same.wrs _ _ ho hs)

theorem keccakSqueezeStep_same {c c' : KeccakCtx} (h : KLike c c') {o o' : List Byte} (ho : L o o') (n i : Nat) :
    Same (fun r r' => KLike r.1 r'.1 ∧ L r.2.1 r'.2.1 ∧ r.2.2 = r'.2.2) (Tr.keccakSqueezeStep c o n i)
      (Tr.keccakSqueezeStep c' o' n i) := by
  unfold Tr.keccakSqueezeStep
  refine Same.seq (keccakRefill_same h) (fun c c' h => ?_)
  kl! h
  dsimp only
  generalize squeezeChunk sz n i = k
  refine Same.br rfl ?_
  exact Same.seq (keccakSqueezeCopy_same (KLike.mk' hs hq) ho i k) (fun _ _ ho => Same.ret ⟨KLike.mk' hs hq, ho, rfl⟩)

theorem keccakSqueezeLoop_same {c c' : KeccakCtx} (h : KLike c c') {o o' : List Byte} (ho : L o o') (n i : Nat) :
    Same (Both KLike) (Tr.keccakSqueezeLoop c o n i) (Tr.keccakSqueezeLoop c' o' n i) := by
  induction hk : n - i using Nat.strongRecOn generalizing c c' o o' i with
  | _ m ih =>
    rw [Tr.keccakSqueezeLoop, Tr.keccakSqueezeLoop]
    refine Same.br rfl ?_
    by_cases h1 : i < n
    · rw [dif_pos h1, dif_pos h1]
      refine Same.seq (keccakSqueezeStep_same h ho n i) (fun r r' hr => ?_)
      rw [hr.2.2]
      split
      · exact ih _ (by omega) hr.1 hr.2.1 _ rfl
      · exact Same.fail _
    · rw [dif_neg h1, dif_neg h1]
      exact Same.ret ⟨h, ho⟩

theorem keccakSqueeze_same {c c' : KeccakCtx} (h : KLike c c') {o o' : List Byte} (ho : L o o') :
    Same (Both KLike) (Tr.keccakSqueeze c o) (Tr.keccakSqueeze c' o') := by
  kl! h
  unfold Tr.keccakSqueeze
  refine Same.br rfl ?_
  refine Same.seq (R := KLike) ?_ (fun c c' h => ?_)
  · split
    · refine Same.seq (keccakAbsorb_same rfl _ (KLike.mk' hs hq)) (fun c c' h => Same.ret ?_)
      kl! h
      exact KLike.mk' hs hq
    · exact Same.ret (KLike.mk' hs hq)
  · have hsq : c.squeezing = c'.squeezing := by
      kl! h
      rfl
    rw [hsq]
    refine Same.br rfl ?_
    refine Same.seq (R := KLike) ?_ (fun c c' h => ?_)
    · split
      · exact keccakPadding_same h
      · exact Same.ret h
    · kl! h
      exact keccakSqueezeLoop_same (KLike.mk' hs hq) ho _ 0

theorem keccakUpdate_same {x x' : List Byte} (hx : L x x') (n : Nat) {c c' : KeccakCtx} (h : KLike c c') :
    Same KLike (Tr.keccakUpdate c (some x) n) (Tr.keccakUpdate c' (some x') n) := keccakAbsorb_same hx _ h

theorem shakeDigest_same (bits : Nat) {c c' : KeccakCtx} (h : KLike c c') {o o' : List Byte} (ho : L o o') :
    Same (Both KLike) (Tr.shakeDigest bits c o) (Tr.shakeDigest bits c' o') := by
  kl! h
  unfold Tr.shakeDigest
  exact keccakSqueeze_same (KLike.mk' hs hq) ho

end Pgfe.Proofs.Trace
