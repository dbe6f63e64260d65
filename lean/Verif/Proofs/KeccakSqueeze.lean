import Verif.Proofs.KeccakAbsorb
/-!
# Padding and squeezing
-/
namespace Pgfe.Proofs.Keccak
open Pgfe.Model Pgfe.Spec.Keccak
open Pgfe.Spec.Sha (blocks)
open Pgfe.Proofs.Sha

variable {n : Nat} {ap : Byte} {al o : Nat} {c : KeccakCtx} {f : Nat → W64} {t : List Byte}

/-- The suffix bits and the first bit of the padding as a byte. -/
def dsep (ap : Byte) (al : Nat) : Byte := (ap &&& BitVec.ofNat 8 (2 ^ al - 1)) ||| 1#8 <<< al

/-- A squeezing context: lanes `g`, `s` bits left in the queue. -/
structure Sq (n o : Nat) (c : KeccakCtx) (g : Nat → W64) (s : Nat) : Prop where
  n0 : 0 < n
  n24 : n ≤ 24
  st : c.state = lst g
  ql : c.dataQueue.length = 192
  rate : c.rate = 64 * n
  nr : c.nr = 24
  q : c.dataQueue.take (8 * n) = (stBytes g).take (8 * n)
  sq : c.squeezing = true
  sz : c.squeezable = s
  sle : s ≤ 64 * n
  aa : c.apAdded = true
  ol : c.outLength = o

theorem suffix_ok (h : Abs n ap al o c f t) (h1 : 0 < al) (h4 : al ≤ 4) :
    ∃ x r, c.dataQueue = t ++ x :: r ∧ keccakAbsorb c [c.ap] c.apLen
      = .ok { c with dataQueue := t ++ (ap &&& BitVec.ofNat 8 (2 ^ al - 1)) :: r,
                     inqueueBits := 8 * t.length + al } := by
  have h0 := h.n0; have h24 := h.n24; have htl := h.tl
  obtain ⟨x, r, hq⟩ : ∃ x r, c.dataQueue = t ++ x :: r := by
    have e := List.take_append_drop t.length c.dataQueue
    rw [h.q] at e
    cases hd : c.dataQueue.drop t.length with
    | nil =>
      have := List.length_drop (i := t.length) (l := c.dataQueue)
      rw [hd, h.ql] at this
      simp at this
      omega
    | cons x r => exact ⟨x, r, by rw [← e, hd]⟩
  refine ⟨x, r, hq, ?_⟩
  rw [keccakAbsorb, if_neg (by rw [h.inq, h.sq]; simp), h.ap, h.al]
  have hP : keccakPartial c [ap] al 0 = .ok ({ c with
      dataQueue := t ++ (ap &&& BitVec.ofNat 8 (2 ^ al - 1)) :: r, inqueueBits := 8 * t.length + al }, al) := by
    have e0 : (al - 0) % 2 ^ 32 = al := by omega
    rw [keccakPartial]
    dsimp only
    rw [e0, if_neg (by rw [h.inq, h.rate]; omega), show al % 8 = al by omega, Nat.sub_self,
      show 0 / 8 = 0 from rfl, rds_ok (by simp), bind_ok, List.take_zero]
    rw [wrs_ok (by rw [h.inq, h.ql, List.length_nil]; omega), bind_ok]
    have es : splice c.dataQueue (c.inqueueBits / 8) [] = c.dataQueue := by
      rw [splice, List.append_nil, List.length_nil, Nat.add_zero, List.take_append_drop]
    rw [es, show (c.inqueueBits + 0) % 2 ^ 32 = c.inqueueBits by rw [h.inq]; omega,
      if_neg (by rw [h.inq, h.rate]; omega), bind_ok, if_pos (by omega)]
    dsimp only
    rw [show rd [ap] 0 = .ok ap from rfl, bind_ok, h.inq,
      show 8 * t.length / 8 = t.length by omega, hq, wr_append, bind_ok,
      show (8 * t.length + al) % 2 ^ 32 = 8 * t.length + al by omega, Nat.zero_add]
  rw [keccakAbsorbLoop, dif_pos h1, if_neg (by rw [h.rate]; omega), hP]
  dsimp only
  rw [dif_pos h1, loop_done _ _ _ (Nat.le_refl _), h.ap, h.al]

theorem orBit_append (p r : List Byte) (x : Byte) (k : Nat) :
    orBit (p ++ x :: r) p.length k = .ok (p ++ (x ||| 1#8 <<< k) :: r) := by
  rw [orBit, rd_append, bind_ok, wr_append]

theorem pad_queue (t r : List Byte) (x : Byte) (N : Nat) (h : t.length < N)
    (hr : N ≤ t.length + 1 + r.length) (k : Nat) :
    ∃ q, (do
      let q ← wrs (t ++ x :: r) (t.length + 1) (List.replicate (N - (t.length + 1)) 0#8)
      let q ← orBit q t.length k
      orBit q (N - 1) 7) = .ok q ∧ q.length = t.length + 1 + r.length ∧
      q.take N = t ++ padTail (N - t.length) (x ||| 1#8 <<< k) := by
  have hlen : (t ++ x :: r).length = t.length + 1 + r.length := by simp; omega
  rw [wrs_ok (by rw [hlen, List.length_replicate]; omega), bind_ok, splice]
  have e1 : (t ++ x :: r).take (t.length + 1) = t ++ [x] := by
    rw [List.take_append, List.take_of_length_le (by omega)]; simp
  have e2 : (t ++ x :: r).drop (t.length + 1 + (N - (t.length + 1))) = r.drop (N - (t.length + 1)) := by
    rw [List.drop_append, List.drop_of_length_le (by omega), List.nil_append,
      show t.length + 1 + (N - (t.length + 1)) - t.length = (N - (t.length + 1)) + 1 by omega]
    rfl
  rw [List.length_replicate, e1, e2]
  have e3 : t ++ [x] ++ List.replicate (N - (t.length + 1)) 0#8 ++ r.drop (N - (t.length + 1))
      = t ++ x :: (List.replicate (N - (t.length + 1)) 0#8 ++ r.drop (N - (t.length + 1))) := by simp
  rw [e3, orBit_append, bind_ok]
  have hdl : (r.drop (N - (t.length + 1))).length = r.length - (N - (t.length + 1)) := List.length_drop ..
  by_cases hq : N - t.length = 1
  · have ez : N - (t.length + 1) = 0 := by omega
    rw [ez, show N - 1 = t.length by omega, orBit_append]
    refine ⟨_, rfl, by simp; omega, ?_⟩
    rw [hq, padTail, if_pos rfl, show N = t.length + 1 by omega]
    rw [List.take_append, List.take_of_length_le (by omega), Nat.add_sub_cancel_left]
    rfl
  · have ez : N - (t.length + 1) = (N - t.length - 2) + 1 := by omega
    have e4 : t ++ (x ||| 1#8 <<< k) :: (List.replicate (N - (t.length + 1)) 0#8 ++ r.drop (N - (t.length + 1)))
        = (t ++ (x ||| 1#8 <<< k) :: List.replicate (N - t.length - 2) 0#8)
          ++ 0#8 :: r.drop (N - (t.length + 1)) := by
      rw [show List.replicate (N - (t.length + 1)) 0#8
          = List.replicate (N - t.length - 2) 0#8 ++ [0#8] by rw [ez, List.replicate_succ']]
      simp
    have e5 : N - 1 = (t ++ (x ||| 1#8 <<< k) :: List.replicate (N - t.length - 2) 0#8).length := by
      simp; omega
    rw [e4, e5, orBit_append]
    refine ⟨_, rfl, by simp; omega, ?_⟩
    rw [padTail, if_neg hq, show 0#8 ||| 1#8 <<< 7 = 0x80#8 by decide]
    have e6 : (t ++ (x ||| 1#8 <<< k) :: List.replicate (N - t.length - 2) 0#8) ++ 0x80#8 :: r.drop (N - (t.length + 1))
        = (t ++ ((x ||| 1#8 <<< k) :: List.replicate (N - t.length - 2) 0#8 ++ [0x80#8]))
          ++ r.drop (N - (t.length + 1)) := by simp
    rw [e6, List.take_append_of_le_length (by simp; omega), List.take_of_length_le (by simp; omega)]

theorem padding_ok (h : Abs n ap al o c f t) (h1 : 0 < al) (h4 : al ≤ 4) (x : Byte) (r : List Byte)
    (hq : (t ++ x :: r).length = 192) :
    ∃ c', keccakPadding { c with dataQueue := t ++ x :: r, inqueueBits := 8 * t.length + al, apAdded := true }
      = .ok c' ∧ Sq n o c' (absF f (t ++ padTail (8 * n - t.length) (x ||| 1#8 <<< al))) (64 * n) := by
  have h0 := h.n0; have h24 := h.n24; have htl := h.tl
  rw [List.length_append, List.length_cons] at hq
  obtain ⟨q, e, hql, htake⟩ := pad_queue t r x (8 * n) htl (by omega) al
  rw [keccakPadding]
  dsimp only
  rw [if_neg (by rw [h.rate]; omega), h.rate, show 64 * n / 8 = 8 * n by omega,
    show (8 * t.length + al + 7) / 8 = t.length + 1 by omega,
    show (8 * n + 2 ^ 64 - (t.length + 1)) % 2 ^ 64 = 8 * n - (t.length + 1) by omega,
    show (8 * t.length + al) / 8 = t.length by omega, show (8 * t.length + al) % 8 = al by omega]
  cases e1 : wrs (t ++ x :: r) (t.length + 1) (List.replicate (8 * n - (t.length + 1)) 0#8) with
  | error u => rw [e1] at e; cases e
  | ok q1 =>
    rw [e1, bind_ok] at e
    rw [bind_ok]
    cases e2 : orBit q1 t.length al with
    | error u => rw [e2] at e; cases e
    | ok q2 =>
      rw [e2, bind_ok] at e
      rw [bind_ok, bind_ok]
      dsimp only
      rw [show (64 * n - 1) / 8 = 8 * n - 1 by omega, show (64 * n - 1) % 8 = 7 by omega, e, bind_ok]
      have ha := absorbQueue_ok q (by omega) h (8 * t.length + al)
      rw [keccakAbsorbQueue] at ha ⊢
      dsimp only at ha ⊢
      rw [h.rate] at ha
      cases e3 : keccakAbsorb1 c.state q 0 (64 * n / 64) c.nr with
      | error u => rw [e3] at ha; cases ha
      | ok A =>
        rw [e3, bind_ok] at ha
        rw [bind_ok, bind_ok]
        have hA : A = lst (absF f (q.take (8 * n))) := by
          have ha := Except.ok.inj ha
          have := congrArg KeccakCtx.state ha
          exact this
        dsimp only
        rw [hA, htake, show 64 * n / 64 = n by omega, stateToSeq_ok _ _ _ h0 (by omega) (by omega), bind_ok]
        have hsl := stBytes_length (absF f (t ++ padTail (8 * n - t.length) (x ||| 1#8 <<< al)))
        refine ⟨_, rfl, ?_⟩
        constructor
        · exact h0
        · exact h24
        · rfl
        · dsimp only
          rw [List.length_append, List.length_take, List.length_drop]; omega
        · rfl
        · exact h.nr
        · dsimp only
          rw [List.take_append_of_le_length (by rw [List.length_take]; omega), List.take_take, Nat.min_self]
        · rfl
        · rfl
        · exact Nat.le_refl _
        · rfl
        · exact h.ol

/-! ## Squeezing -/

/-- One iteration of the squeezing loop, up to the write. -/
theorem squeezeStep_eq {g : Nat → W64} {s : Nat} (h : Sq n o c g s) (out : List Byte) (bitLen i : Nat)
    (hi : i < bitLen) (g' : Nat → W64) (s' k : Nat)
    (hg : g' = if s = 0 then permF g else g) (hs : s' = if s = 0 then 64 * n else s)
    (hk : k = min s' (bitLen - i)) :
    ∃ c', keccakSqueezeStep c out bitLen i
      = (wrs out (i / 8) (((stBytes g').drop ((64 * n - s') / 8)).take (k / 8)) >>= fun o => .ok (c', o, i + k)) ∧
      (((stBytes g').drop ((64 * n - s') / 8)).take (k / 8)).length = k / 8 ∧
      Sq n o c' g' (s' - k) := by
  have h0 := h.n0; have h24 := h.n24; have hsle := h.sle
  have hs'le : s' ≤ 64 * n := by rw [hs]; split <;> omega
  have hs'0 : 0 < s' := by rw [hs]; split <;> omega
  have hR : ∃ c1, keccakRefill c = .ok c1 ∧ Sq n o c1 g' s' := by
    rw [keccakRefill, h.sz]
    by_cases e : s = 0
    · rw [if_pos e] at hg hs ⊢
      rw [h.st, h.nr, perm_lst, bind_ok, h.rate, show 64 * n / 64 = n by omega,
        stateToSeq_ok _ _ _ h0 (by omega) (by rw [h.ql]; omega), bind_ok]
      have hsl := stBytes_length (permF g)
      refine ⟨_, rfl, ?_⟩
      subst hg hs
      constructor
      · exact h0
      · exact h24
      · rfl
      · dsimp only
        rw [List.length_append, List.length_take, List.length_drop, h.ql]; omega
      · rfl
      · rfl
      · dsimp only
        rw [List.take_append_of_le_length (by rw [List.length_take]; omega), List.take_take, Nat.min_self]
      · exact h.sq
      · rfl
      · exact Nat.le_refl _
      · exact h.aa
      · exact h.ol
    · rw [if_neg e] at hg hs ⊢
      subst hg hs
      exact ⟨c, rfl, h⟩
  obtain ⟨c1, e1, h1⟩ := hR
  rw [keccakSqueezeStep, e1, bind_ok]
  dsimp only
  have hch : squeezeChunk c1.squeezable bitLen i = k := by
    rw [squeezeChunk, h1.sz, hk]
    split
    · rw [Nat.mod_eq_of_lt (by omega)]; omega
    · omega
  have hmod : (c1.rate + 2 ^ 32 - c1.squeezable) % 2 ^ 32 = 64 * n - s' := by
    rw [h1.rate, h1.sz]; omega
  have hsl := stBytes_length g'
  have hsrc : (c1.dataQueue.drop ((64 * n - s') / 8)).take (k / 8)
      = ((stBytes g').drop ((64 * n - s') / 8)).take (k / 8) := by
    have key : ∀ (l : List Byte), ((l.drop ((64 * n - s') / 8)).take (k / 8))
        = (((l.take (8 * n)).drop ((64 * n - s') / 8)).take (k / 8)) := by
      intro l
      rw [List.drop_take, List.take_take, Nat.min_eq_left (by omega)]
    rw [key c1.dataQueue, h1.q, ← key]
  rw [hch, keccakSqueezeCopy, hmod, rds_ok (by rw [h1.ql]; omega), bind_ok, hsrc]
  refine ⟨_, rfl, by rw [List.length_take, List.length_drop]; omega, ?_⟩
  exact ⟨h0, h24, h1.st, h1.ql, h1.rate, h1.nr, h1.q, h1.sq, by dsimp only; rw [h1.sz], by omega, h1.aa, h1.ol⟩

/-- One iteration of the squeezing loop. -/
theorem squeezeStep_ok {g : Nat → W64} {s : Nat} (h : Sq n o c g s) (out : List Byte) (bitLen i : Nat)
    (hi : i < bitLen) (ho : bitLen / 8 ≤ out.length) (g' : Nat → W64) (s' k : Nat)
    (hg : g' = if s = 0 then permF g else g) (hs : s' = if s = 0 then 64 * n else s)
    (hk : k = min s' (bitLen - i)) :
    ∃ c', keccakSqueezeStep c out bitLen i
      = .ok (c', splice out (i / 8) (((stBytes g').drop ((64 * n - s') / 8)).take (k / 8)), i + k) ∧
      Sq n o c' g' (s' - k) := by
  obtain ⟨c', e, hl, hq⟩ := squeezeStep_eq h out bitLen i hi g' s' k hg hs hk
  refine ⟨c', ?_, hq⟩
  rw [e, wrs_ok (by omega), bind_ok]

/-- The squeezing loop is always safe and touches only the first `bitLen / 8` bytes. -/
theorem squeezeLoop_safe (bitLen : Nat) (hb : bitLen < 2 ^ 32) :
    ∀ (i : Nat) (c : KeccakCtx) (g : Nat → W64) (s : Nat) (out : List Byte), Sq n o c g s →
    bitLen / 8 ≤ out.length →
    ∃ c' out' g' s', keccakSqueezeLoop c out bitLen i = .ok (c', out') ∧ Sq n o c' g' s' ∧
      out'.length = out.length ∧ out'.drop (bitLen / 8) = out.drop (bitLen / 8) := by
  intro i
  induction hm : bitLen - i using Nat.strongRecOn generalizing i with
  | _ m ih =>
    intro c g s out h ho
    have h0 := h.n0
    have hsle := h.sle
    rw [keccakSqueezeLoop]
    by_cases hi : i < bitLen
    · obtain ⟨c1, e1, h1⟩ := squeezeStep_ok h out bitLen i hi ho _ _ _ rfl rfl rfl
      generalize hs' : (if s = 0 then 64 * n else s) = s' at *
      have hs'0 : 0 < s' := by rw [← hs']; split <;> omega
      have hs'le : s' ≤ 64 * n := by rw [← hs']; split <;> omega
      generalize hg' : (if s = 0 then permF g else g) = g' at *
      rw [dif_pos hi, e1]
      dsimp only
      rw [dif_pos (by omega)]
      have hsl := stBytes_length g'
      have h24 := h.n24
      have hsrc : (((stBytes g').drop ((64 * n - s') / 8)).take (min s' (bitLen - i) / 8)).length
          = min s' (bitLen - i) / 8 := by rw [List.length_take, List.length_drop]; omega
      obtain ⟨c2, out2, g2, s2, e2, h2, h3, h4⟩ := ih (bitLen - (i + min s' (bitLen - i))) (by omega)
        (i + min s' (bitLen - i)) rfl c1 g' _
        (splice out (i / 8) (((stBytes g').drop ((64 * n - s') / 8)).take (min s' (bitLen - i) / 8))) h1
        (by rw [splice_length (by rw [hsrc]; omega)]; exact ho)
      refine ⟨c2, out2, g2, s2, e2, h2, ?_, ?_⟩
      · rw [h3, splice_length (by rw [hsrc]; omega)]
      · rw [h4, splice, hsrc, List.drop_append, List.drop_of_length_le (by
          rw [List.length_append, List.length_take, hsrc]; omega), List.nil_append, List.drop_drop,
          List.length_append, List.length_take, hsrc]
        congr 1
        omega
    · rw [dif_neg hi]
      exact ⟨c, out, g, s, rfl, h, rfl, rfl⟩

/-- A piece of the output stream. -/
def piece (rb : Nat) (F : Nat → W64) (pos k : Nat) : List Byte := (List.range k).map (fun i => strm rb F (pos + i))

theorem piece_length (rb : Nat) (F : Nat → W64) (pos k : Nat) : (piece rb F pos k).length = k := by simp [piece]

theorem piece_add (rb : Nat) (F : Nat → W64) (pos a b : Nat) :
    piece rb F pos (a + b) = piece rb F pos a ++ piece rb F (pos + a) b := by
  rw [piece, List.range_add, List.map_append, List.map_map]
  congr 1
  apply List.map_congr_left
  intro i _
  simp only [Function.comp_def]
  rw [Nat.add_assoc]

theorem piece_block (rb : Nat) (hrb : 0 < rb) (h200 : rb ≤ 200) (F : Nat → W64) (k off m : Nat)
    (h : off + m ≤ rb) :
    ((stBytes (perms k F)).drop off).take m = piece rb F (k * rb + off) m := by
  have hsl := stBytes_length (perms k F)
  apply List.ext_getElem (by rw [piece_length, List.length_take, List.length_drop]; omega)
  intro i h1 h2
  rw [piece_length] at h2
  simp only [piece, List.getElem_map, List.getElem_range, strm]
  have e1 : (k * rb + off + i) / rb = k := by
    rw [Nat.add_assoc, Nat.add_comm, Nat.add_mul_div_right _ _ hrb, Nat.div_eq_of_lt (by omega)]; omega
  have e2 : (k * rb + off + i) % rb = off + i := by
    rw [Nat.add_assoc, Nat.add_comm, Nat.add_mul_mod_self_right, Nat.mod_eq_of_lt (by omega)]
  rw [e1, e2, List.getElem_take, List.getElem_drop, List.getD_eq_getElem?_getD,
    List.getElem?_eq_getElem (by omega)]
  rfl

/-- The context has delivered exactly `pos` bytes of the stream of `F`. -/
def At (n o : Nat) (F : Nat → W64) (pos : Nat) (c : KeccakCtx) : Prop :=
  ∃ k off, off ≤ 8 * n ∧ pos = k * (8 * n) + off ∧ Sq n o c (perms k F) (8 * (8 * n - off))

theorem splice_pieces (out a b : List Byte) (j : Nat) (h : j + a.length + b.length ≤ out.length) :
    (splice out j a).take (j + a.length) ++ b ++ (splice out j a).drop (j + a.length + b.length)
      = out.take j ++ (a ++ b) ++ out.drop (j + (a ++ b).length) := by
  have hl : (out.take j).length = j := by rw [List.length_take]; omega
  rw [splice]
  rw [List.take_append_of_le_length (by simp; omega), List.take_of_length_le (by simp; omega)]
  rw [List.drop_append, List.drop_of_length_le (by simp; omega), List.nil_append, List.drop_drop,
    List.length_append, List.length_append, hl]
  rw [show j + a.length + (j + a.length + b.length - (j + a.length)) = j + (a.length + b.length) by omega]
  simp only [List.append_assoc]

theorem squeezeLoop_ok (F : Nat → W64) (bitLen : Nat) (hb : bitLen < 2 ^ 32) :
    ∀ (j pos : Nat) (c : KeccakCtx) (out : List Byte), At n o F pos c → 8 * j ≤ bitLen →
    bitLen / 8 ≤ out.length →
    ∃ c', keccakSqueezeLoop c out bitLen (8 * j)
        = .ok (c', out.take j ++ piece (8 * n) F pos (bitLen / 8 - j) ++ out.drop (bitLen / 8)) ∧
      (bitLen % 8 = 0 → At n o F (pos + (bitLen / 8 - j)) c') ∧ ∃ g s, Sq n o c' g s := by
  intro j
  induction hm : bitLen - 8 * j using Nat.strongRecOn generalizing j with
  | _ m ih =>
    intro pos c out hA hj ho
    obtain ⟨k, off, hoff, hpos, h⟩ := hA
    have h0 := h.n0; have h24 := h.n24
    rw [keccakSqueezeLoop]
    by_cases hi : 8 * j < bitLen
    · -- normalise to a position inside a block
      obtain ⟨k', off', hlt, hpos', hg, hs⟩ : ∃ k' off', off' < 8 * n ∧ pos = k' * (8 * n) + off' ∧
          perms k' F = (if 8 * (8 * n - off) = 0 then permF (perms k F) else perms k F) ∧
          8 * (8 * n - off') = (if 8 * (8 * n - off) = 0 then 64 * n else 8 * (8 * n - off)) := by
        by_cases e : off = 8 * n
        · refine ⟨k + 1, 0, by omega, by rw [hpos, e, Nat.add_mul]; omega, ?_, ?_⟩
          · rw [if_pos (by omega)]; rfl
          · rw [if_pos (by omega)]; omega
        · exact ⟨k, off, by omega, hpos, by rw [if_neg (by omega)], by rw [if_neg (by omega)]⟩
      obtain ⟨c1, e1, h1⟩ := squeezeStep_ok h out bitLen (8 * j) hi ho _ _ _ hg hs rfl
      rw [dif_pos hi, e1]
      dsimp only
      rw [dif_pos (by omega)]
      rw [show 8 * j / 8 = j by omega, show (64 * n - 8 * (8 * n - off')) / 8 = off' by omega]
      rw [piece_block (8 * n) (by omega) (by omega) F k' off' _ (by omega), ← hpos']
      by_cases hlast : bitLen - 8 * j ≤ 8 * (8 * n - off')
      · -- the last chunk
        rw [Nat.min_eq_right hlast] at h1 ⊢
        rw [keccakSqueezeLoop, dif_neg (by omega)]
        have e3 : (bitLen - 8 * j) / 8 = bitLen / 8 - j := by omega
        refine ⟨c1, ?_, ?_, _, _, h1⟩
        · rw [e3, splice, piece_length, show j + (bitLen / 8 - j) = bitLen / 8 by omega]
        · intro hal
          refine ⟨k', off' + (bitLen / 8 - j), by omega, by omega, ?_⟩
          rw [show 8 * (8 * n - (off' + (bitLen / 8 - j))) = 8 * (8 * n - off') - (bitLen - 8 * j) by omega]
          exact h1
      · rw [Nat.min_eq_left (by omega)] at h1 ⊢
        rw [show 8 * (8 * n - off') / 8 = 8 * n - off' by omega,
          show 8 * j + 8 * (8 * n - off') = 8 * (j + (8 * n - off')) by omega]
        have hA1 : At n o F (pos + (8 * n - off')) c1 := by
          refine ⟨k', 8 * n, Nat.le_refl _, by omega, ?_⟩
          rw [show 8 * (8 * n - 8 * n) = 8 * (8 * n - off') - 8 * (8 * n - off') by omega]
          exact h1
        have hpl := piece_length (8 * n) F pos (8 * n - off')
        obtain ⟨c2, e2, a2, q2⟩ := ih (bitLen - 8 * (j + (8 * n - off'))) (by omega) (j + (8 * n - off')) rfl
          (pos + (8 * n - off')) c1 (splice out j (piece (8 * n) F pos (8 * n - off'))) hA1 (by omega)
          (by rw [splice_length (by rw [hpl]; omega)]; exact ho)
        refine ⟨c2, ?_, ?_, q2⟩
        · rw [e2]
          congr 2
          have hpl2 := piece_length (8 * n) F (pos + (8 * n - off')) (bitLen / 8 - (j + (8 * n - off')))
          have := splice_pieces out (piece (8 * n) F pos (8 * n - off'))
            (piece (8 * n) F (pos + (8 * n - off')) (bitLen / 8 - (j + (8 * n - off')))) j
            (by rw [hpl, hpl2]; omega)
          rw [← piece_add, piece_length, piece_length, piece_length] at this
          rw [show 8 * n - off' + (bitLen / 8 - (j + (8 * n - off'))) = bitLen / 8 - j by omega,
            show j + (8 * n - off') + (bitLen / 8 - (j + (8 * n - off'))) = bitLen / 8 by omega,
            show j + (bitLen / 8 - j) = bitLen / 8 by omega] at this
          exact this
        · intro hal
          have := a2 hal
          rw [show pos + (8 * n - off') + (bitLen / 8 - (j + (8 * n - off'))) = pos + (bitLen / 8 - j) by omega] at this
          exact this
    · rw [dif_neg hi]
      have e : bitLen / 8 - j = 0 := by omega
      have e' : bitLen / 8 = j := by omega
      refine ⟨c, ?_, ?_, _, _, h⟩
      · rw [e, e', piece, List.range_zero, List.map_nil, List.append_nil, List.take_append_drop]
      · intro _
        rw [e]
        exact ⟨k, off, hoff, hpos, h⟩

/-- The end of `digest` on an absorbing context. -/
theorem squeeze_abs (h : Abs n ap al o c f t) (h1 : 0 < al) (h4 : al ≤ 4) (bits : Nat) (hb : bits < 2 ^ 32)
    (out : List Byte) (ho : bits / 8 ≤ out.length) :
    ∃ c', keccakSqueeze { c with outLength := bits } out
        = .ok (c', piece (8 * n) (absF f (t ++ padTail (8 * n - t.length) (dsep ap al))) 0 (bits / 8)
            ++ out.drop (bits / 8)) ∧
      (bits % 8 = 0 → At n bits (absF f (t ++ padTail (8 * n - t.length) (dsep ap al))) (bits / 8) c') ∧
      ∃ g s, Sq n bits c' g s := by
  have h' : Abs n ap al bits { c with outLength := bits } f t :=
    ⟨h.n0, h.n24, h.st, h.ql, h.rate, h.nr, h.inq, h.tl, h.q, h.sq, h.ap, h.al, h.aa, rfl⟩
  obtain ⟨x, r, hq, hs⟩ := suffix_ok h' h1 h4
  rw [keccakSqueeze]
  dsimp only at hs ⊢
  rw [if_pos ⟨by rw [h.al]; omega, by rw [h.aa]; decide⟩, hs, bind_ok, bind_ok]
  dsimp only
  have hql : (t ++ (ap &&& BitVec.ofNat 8 (2 ^ al - 1)) :: r).length = 192 := by
    have := h.ql
    have hq : c.dataQueue = t ++ x :: r := hq
    rw [hq] at this
    simpa using this
  obtain ⟨c1, e1, s1⟩ := padding_ok h' h1 h4 (ap &&& BitVec.ofNat 8 (2 ^ al - 1)) r hql
  rw [if_pos (by rw [h.sq]; decide), e1, bind_ok]
  have hA : At n bits (absF f (t ++ padTail (8 * n - t.length) (dsep ap al))) 0 c1 := by
    refine ⟨0, 0, Nat.zero_le _, by omega, ?_⟩
    rw [show 8 * (8 * n - 0) = 64 * n by omega]
    exact s1
  rw [s1.ol]
  obtain ⟨c2, e2, a2, q2⟩ := squeezeLoop_ok _ bits hb 0 0 c1 out hA (Nat.zero_le _) ho
  rw [Nat.sub_zero] at e2 a2
  refine ⟨c2, ?_, ?_, q2⟩
  · rw [Nat.mul_zero] at e2; rw [e2]; simp
  · intro hal; have := a2 hal; rw [Nat.zero_add] at this; exact this

/-- ... and on a squeezing one. -/
theorem squeeze_at {F : Nat → W64} {pos : Nat} (h : At n o F pos c) (bits : Nat) (hb : bits < 2 ^ 32)
    (out : List Byte) (ho : bits / 8 ≤ out.length) :
    ∃ c', keccakSqueeze { c with outLength := bits } out
        = .ok (c', piece (8 * n) F pos (bits / 8) ++ out.drop (bits / 8)) ∧
      (bits % 8 = 0 → At n bits F (pos + bits / 8) c') := by
  obtain ⟨k, off, hoff, hpos, hs⟩ := h
  have hA : At n bits F pos { c with outLength := bits } :=
    ⟨k, off, hoff, hpos, hs.n0, hs.n24, hs.st, hs.ql, hs.rate, hs.nr, hs.q, hs.sq, hs.sz, hs.sle, hs.aa, rfl⟩
  rw [keccakSqueeze]
  dsimp only
  rw [if_neg (by rw [hs.aa]; simp), bind_ok]
  dsimp only
  rw [if_neg (by rw [hs.sq]; simp), bind_ok]
  obtain ⟨c2, e2, a2, _⟩ := squeezeLoop_ok F bits hb 0 pos _ out hA (Nat.zero_le _) ho
  rw [Nat.sub_zero] at e2 a2
  refine ⟨c2, ?_, a2⟩
  rw [Nat.mul_zero] at e2; rw [e2]; simp

theorem squeeze_safe {g : Nat → W64} {s : Nat} (hs : Sq n o c g s) (bits : Nat) (hb : bits < 2 ^ 32)
    (out : List Byte) (ho : bits / 8 ≤ out.length) :
    ∃ c' out' g' s', keccakSqueeze { c with outLength := bits } out = .ok (c', out') ∧ Sq n bits c' g' s' ∧
      out'.length = out.length ∧ out'.drop (bits / 8) = out.drop (bits / 8) := by
  have hA : Sq n bits { c with outLength := bits } g s :=
    ⟨hs.n0, hs.n24, hs.st, hs.ql, hs.rate, hs.nr, hs.q, hs.sq, hs.sz, hs.sle, hs.aa, rfl⟩
  rw [keccakSqueeze]
  dsimp only
  rw [if_neg (by rw [hs.aa]; simp), bind_ok]
  dsimp only
  rw [if_neg (by rw [hs.sq]; simp), bind_ok]
  exact squeezeLoop_safe bits hb 0 _ g s out hA ho

end Pgfe.Proofs.Keccak
