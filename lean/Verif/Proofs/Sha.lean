import Verif.Model.Sha
import Verif.Spec.Sha
import Verif.Proofs.Hash
/-!
# The Merkle-Damgård layer of the SHA-1/SHA-2 code
-/
namespace Pgfe.Proofs.Sha
open Pgfe.Model Pgfe.Proofs.Hash
open Pgfe.Spec.Sha (natOfBytes bytesOfNat bytesOfWord blocks padZeros pad)

/-! ## Lists -/

/-- A loop that writes `v i` at `i`. -/
theorem forN_wr {α : Type} (n : Nat) (v : Nat → α) (out : List α) (hn : n ≤ out.length)
    (f : Nat → List α → C (List α)) (hf : ∀ i o, i < n → f i o = wr o i (v i)) :
    forN n f out = .ok ((List.range n).map v ++ out.drop n) := by
  obtain ⟨o, h1, h2⟩ := forN_inv (fun i o => o = (List.range i).map v ++ out.drop i) n f out
    (by simp) (by
      intro i o hi ho
      refine ⟨_, ?_, rfl⟩
      rw [hf i o hi, ho]
      obtain ⟨x, y, h⟩ : ∃ x y, out.drop i = x :: y := by
        cases h : out.drop i with
        | nil => have := congrArg List.length h; simp at this; omega
        | cons x y => exact ⟨x, y, rfl⟩
      rw [h]
      have e : wr ((List.range i).map v ++ x :: y) i (v i) = .ok ((List.range i).map v ++ v i :: y) := by
        have := wr_append ((List.range i).map v) y x (v i)
        rwa [List.length_map, List.length_range] at this
      rw [e, List.range_succ, List.map_append]
      have : out.drop (i + 1) = y := by
        rw [← List.drop_drop, h]; rfl
      rw [this]; simp)
  rw [h1, h2]

theorem flatMap_getElem? {α β : Type} (f : α → List β) (k : Nat) (l : List α)
    (h : ∀ x ∈ l, (f x).length = k) (i : Nat) (hk : 0 < k) :
    (l.flatMap f)[i]? = (l[i / k]?).bind (fun x => (f x)[i % k]?) := by
  induction l generalizing i with
  | nil => simp
  | cons x l ih =>
    have hx := h x (List.mem_cons_self ..)
    rw [List.flatMap_cons]
    by_cases hi : i < k
    · rw [List.getElem?_append_left (by omega), Nat.div_eq_of_lt hi, Nat.mod_eq_of_lt hi]
      simp
    · rw [List.getElem?_append_right (by omega), hx, ih (fun y hy => h y (List.mem_cons_of_mem _ hy))]
      obtain ⟨j, rfl⟩ : ∃ j, i = j + k := ⟨i - k, by omega⟩
      rw [Nat.add_sub_cancel, Nat.add_div_right _ hk, Nat.add_mod_right]
      simp

theorem byteAt_eq {w : Nat} (x : BitVec w) (j : Nat) :
    byteAt x (8 * j) = BitVec.ofNat 8 (x.toNat / 256 ^ j) := by
  apply BitVec.eq_of_toNat_eq
  simp [byteAt, Nat.shiftRight_eq_div_pow, Nat.pow_mul]

theorem bytesOfWord_length {w : Nat} (x : BitVec w) : (bytesOfWord x).length = w / 8 := by
  simp [bytesOfWord, bytesOfNat]

theorem bytesOfWord_getElem? {w : Nat} (x : BitVec w) (j : Nat) (hj : j < w / 8) :
    (bytesOfWord x)[j]? = some (byteAt x (8 * (w / 8 - 1 - j))) := by
  simp [bytesOfWord, bytesOfNat, hj, byteAt_eq]

theorem flatMap_bytes_length {w : Nat} (s : List (BitVec w)) :
    (s.flatMap bytesOfWord).length = s.length * (w / 8) := by
  induction s with
  | nil => simp
  | cons x s ih => simp only [List.flatMap_cons, List.length_append, ih, bytesOfWord_length, List.length_cons]; rw [Nat.succ_mul]; omega

/-- The output loop of the digest functions. -/
theorem output_ok {w : Nat} (k : Nat) (hk : w / 8 = k) (hk0 : 0 < k) (n : Nat)
    (state : List (BitVec w)) (out : List Byte)
    (hn : n ≤ state.length * k) (ho : n ≤ out.length) (f : Nat → List Byte → C (List Byte))
    (hf : ∀ i o, f i o = (rd state (i / k) >>= fun s => wr o i (byteAt s (8 * (k - 1 - i % k))))) :
    forN n f out = .ok ((state.flatMap bytesOfWord).take n ++ out.drop n) := by
  have e : (state.flatMap bytesOfWord).take n
      = (List.range n).map (fun i => ((state.flatMap bytesOfWord)[i]?).getD 0) := by
    apply List.ext_getElem?
    intro i
    have hl := flatMap_bytes_length state
    rw [hk] at hl
    by_cases hi : i < n
    · rw [List.getElem?_take_of_lt hi, List.getElem?_map, List.getElem?_range hi]
      have : i < (state.flatMap bytesOfWord).length := by omega
      rw [List.getElem?_eq_getElem this, Option.map_some, List.getElem?_eq_getElem this]
      rfl
    · rw [List.getElem?_eq_none (by rw [List.length_take]; omega),
        List.getElem?_eq_none (by simp; omega)]
  rw [e]
  apply forN_wr n _ out ho
  intro i o hi
  rw [hf, flatMap_getElem? bytesOfWord k state (fun x _ => by rw [bytesOfWord_length, hk]) i hk0]
  have h1 : i / k < state.length := by
    rw [Nat.div_lt_iff_lt_mul hk0]; omega
  have h2 : i % k < w / 8 := by rw [hk]; exact Nat.mod_lt _ hk0
  rw [rd_ok h1, bind_ok, List.getElem?_eq_getElem h1, Option.bind_some, bytesOfWord_getElem? _ _ h2,
    hk]
  rfl

theorem output32_ok (n : Nat) (state : List W32) (out : List Byte)
    (hn : n ≤ state.length * 4) (ho : n ≤ out.length) :
    shaOutput32 n state out = .ok ((state.flatMap bytesOfWord).take n ++ out.drop n) := by
  apply output_ok 4 rfl (by decide) n state out hn ho
  intro i o
  have h1 : i >>> 2 = i / 4 := by rw [Nat.shiftRight_eq_div_pow]
  have h2 : i &&& 3 = i % 4 := Nat.and_two_pow_sub_one_eq_mod i 2
  rw [h1, h2]

theorem output64_ok (n : Nat) (state : List W64) (out : List Byte)
    (hn : n ≤ state.length * 8) (ho : n ≤ out.length) :
    shaOutput64 n state out = .ok ((state.flatMap bytesOfWord).take n ++ out.drop n) := by
  apply output_ok 8 rfl (by decide) n state out hn ho
  intro i o
  have h1 : i >>> 3 = i / 8 := by rw [Nat.shiftRight_eq_div_pow]
  rw [h1]

/-! ## Blocks -/

theorem blocks_append (bs : Nat) (hb : 0 < bs) (a b : List Byte) (h : a.length % bs = 0) :
    blocks bs (a ++ b) = blocks bs a ++ blocks bs b := by
  obtain ⟨q, hq⟩ : ∃ q, a.length = q * bs :=
    ⟨a.length / bs, by rw [Nat.div_mul_cancel (Nat.dvd_of_mod_eq_zero h)]⟩
  simp only [blocks, List.length_append, hq]
  rw [Nat.add_comm (q * bs), Nat.add_mul_div_right _ _ hb, Nat.add_comm _ q, List.range_add,
    List.map_append, Nat.mul_div_cancel _ hb]
  congr 1
  · apply List.map_congr_left
    intro i hi
    have hi := List.mem_range.1 hi
    have : (i + 1) * bs ≤ q * bs := Nat.mul_le_mul_right _ hi
    rw [Nat.succ_mul] at this
    rw [List.drop_append_of_le_length (by omega), List.take_append_of_le_length (by
      rw [List.length_drop]; omega)]
  · rw [List.map_map]
    apply List.map_congr_left
    intro i _
    simp only [Function.comp_def]
    rw [Nat.add_mul, ← hq, ← List.drop_drop, List.drop_left]

theorem blocks_small (bs : Nat) (l : List Byte) (h : l.length < bs) : blocks bs l = [] := by
  simp [blocks, Nat.div_eq_of_lt h]

theorem blocks_one (bs : Nat) (hb : 0 < bs) (l : List Byte) (h : l.length = bs) :
    blocks bs l = [l] := by
  have e : l.length / bs = 1 := by rw [h, Nat.div_self hb]
  rw [blocks, e]
  show [(l.drop (0 * bs)).take bs] = [l]
  rw [Nat.zero_mul, List.drop_zero, List.take_of_length_le (Nat.le_of_eq h)]

/-- The bytes after the last full block. -/
def tail (bs : Nat) (m : List Byte) : List Byte := m.drop (m.length / bs * bs)

theorem tail_length (bs : Nat) (m : List Byte) : (tail bs m).length = m.length % bs := by
  have h := Nat.div_add_mod m.length bs
  have h2 : bs * (m.length / bs) = m.length / bs * bs := Nat.mul_comm ..
  have h3 := List.length_drop (i := m.length / bs * bs) (l := m)
  rw [tail, h3]
  omega

theorem split_tail (bs : Nat) (m : List Byte) :
    ∃ p, m = p ++ tail bs m ∧ p.length % bs = 0 := by
  refine ⟨m.take (m.length / bs * bs), ?_, ?_⟩
  · rw [tail, List.take_append_drop]
  · rw [List.length_take, Nat.min_eq_left (Nat.div_mul_le_self ..), Nat.mul_mod_left]

theorem blocks_tail (bs : Nat) (hb : 0 < bs) (m x : List Byte) :
    blocks bs (m ++ x) = blocks bs m ++ blocks bs (tail bs m ++ x) := by
  obtain ⟨p, hp, h0⟩ := split_tail bs m
  have ht : (tail bs m).length < bs := by rw [tail_length]; exact Nat.mod_lt _ hb
  conv => lhs; rw [hp]
  conv => rhs; lhs; rw [hp]
  rw [List.append_assoc, blocks_append bs hb _ _ h0, blocks_append bs hb _ _ h0, blocks_small bs _ ht,
    List.append_nil]

theorem tail_append (bs : Nat) (hb : 0 < bs) (p x : List Byte) (h : p.length % bs = 0) :
    tail bs (p ++ x) = tail bs x := by
  obtain ⟨q, hq⟩ : ∃ q, p.length = q * bs :=
    ⟨p.length / bs, by rw [Nat.div_mul_cancel (Nat.dvd_of_mod_eq_zero h)]⟩
  rw [tail, List.length_append, hq, Nat.add_comm (q * bs), Nat.add_mul_div_right _ _ hb, Nat.add_mul,
    Nat.add_comm, ← hq, ← List.drop_drop, List.drop_left, tail]

theorem tail_small (bs : Nat) (x : List Byte) (h : x.length < bs) : tail bs x = x := by
  simp [tail, Nat.div_eq_of_lt h]

/-! ## One absorbed byte -/

/-- A member of the family: `process` is the compression function of the code, `compress` what it
computes. -/
structure Fam (w : Nat) where
  bs : Nat
  ns : Nat
  process : ShaCtx w → C (ShaCtx w)
  compress : List (BitVec w) → List Byte → List (BitVec w)
  hw : 8 ≤ w
  hbs : bs = 2 * w
  hproc : ∀ ctx : ShaCtx w, ctx.state.length = ns → ctx.block.length = bs →
    process ctx = .ok { ctx with state := compress ctx.state ctx.block, index := 0 }
  hlen : ∀ s b, s.length = ns → b.length = bs → (compress s b).length = ns

namespace Fam
variable {w : Nat} (F : Fam w)

/-- The arrays of the context have their declared sizes. -/
def WF (c : ShaCtx w) : Prop := c.state.length = F.ns ∧ c.block.length = F.bs

/-- The bit count. -/
def val (c : ShaCtx w) : Nat := c.lenHigh.toNat * 2 ^ w + c.lenLow.toNat

theorem bs_pos : 0 < F.bs := by have := F.hw; have := F.hbs; omega

theorem process_mk (s : List (BitVec w)) (lo hi : BitVec w) (i : Nat) (b : List Byte)
    (h1 : s.length = F.ns) (h2 : b.length = F.bs) :
    F.process ⟨s, lo, hi, i, b⟩ = .ok ⟨F.compress s b, lo, hi, 0, b⟩ := F.hproc ⟨s, lo, hi, i, b⟩ h1 h2

/-- Absorbing one byte. -/
def push (c : ShaCtx w) (b : Byte) : ShaCtx w :=
  let blk := c.block.set c.index b
  let lo := c.lenLow + 8#w
  let hi := if lo < c.lenLow then c.lenHigh + 1#w else c.lenHigh
  if c.index + 1 = F.bs then ⟨F.compress c.state blk, lo, hi, 0, blk⟩
  else ⟨c.state, lo, hi, c.index + 1, blk⟩

theorem val_lt (c : ShaCtx w) : val c < 2 ^ (2 * w) := by
  have h1 := c.lenHigh.isLt
  have h2 := c.lenLow.isLt
  have : 2 ^ (2 * w) = 2 ^ w * 2 ^ w := by rw [Nat.two_mul, Nat.pow_add]
  rw [this, val]
  calc c.lenHigh.toNat * 2 ^ w + c.lenLow.toNat < c.lenHigh.toNat * 2 ^ w + 2 ^ w := by omega
    _ = (c.lenHigh.toNat + 1) * 2 ^ w := by rw [Nat.succ_mul]
    _ ≤ 2 ^ w * 2 ^ w := Nat.mul_le_mul_right _ h1

/-- How the two length words count. -/
theorem count_ok {w : Nat} (hw : 8 ≤ w) (lo hi : BitVec w)
    (h : hi.toNat * 2 ^ w + lo.toNat + 8 < 2 ^ (2 * w)) :
    let lo' := lo + 8#w
    let hi' := if lo' < lo then hi + 1#w else hi
    hi'.toNat * 2 ^ w + lo'.toNat = hi.toNat * 2 ^ w + lo.toNat + 8 ∧
    ¬ (lo' < lo ∧ hi' = 0#w) := by
  dsimp only
  have hp : 2 ^ 8 ≤ 2 ^ w := Nat.pow_le_pow_right (by decide) hw
  have h2 : 2 ^ (2 * w) = 2 ^ w * 2 ^ w := by rw [Nat.two_mul, Nat.pow_add]
  have h8 : (8#w).toNat = 8 := by rw [BitVec.toNat_ofNat]; exact Nat.mod_eq_of_lt (by omega)
  have h1w : (1#w).toNat = 1 := by rw [BitVec.toNat_ofNat]; exact Nat.mod_eq_of_lt (by omega)
  have hl := lo.isLt
  have hh := hi.isLt
  have hadd : (lo + 8#w).toNat = (lo.toNat + 8) % 2 ^ w := by rw [BitVec.toNat_add, h8]
  rw [h2] at h
  by_cases hc : lo.toNat + 8 < 2 ^ w
  · rw [Nat.mod_eq_of_lt hc] at hadd
    have hnl : ¬ (lo + 8#w < lo) := by rw [BitVec.lt_def, hadd]; omega
    rw [if_neg hnl, hadd]
    exact ⟨by omega, fun x => hnl x.1⟩
  · have hm : (lo.toNat + 8) % 2 ^ w = lo.toNat + 8 - 2 ^ w := by
      rw [Nat.mod_eq_sub_mod (by omega), Nat.mod_eq_of_lt (by omega)]
    rw [hm] at hadd
    have hlt : lo + 8#w < lo := by rw [BitVec.lt_def, hadd]; omega
    rw [if_pos hlt]
    have hhi : hi.toNat + 1 < 2 ^ w := by
      apply Nat.lt_of_mul_lt_mul_right (a := 2 ^ w)
      rw [Nat.succ_mul]; omega
    have hadd2 : (hi + 1#w).toNat = hi.toNat + 1 := by
      rw [BitVec.toNat_add, h1w, Nat.mod_eq_of_lt hhi]
    refine ⟨by rw [hadd2, hadd, Nat.succ_mul]; omega, ?_⟩
    rintro ⟨_, he⟩
    rw [he] at hadd2
    simp at hadd2

theorem body_ok (c : ShaCtx w) (hc : F.WF c) (hi : c.index < F.bs)
    (hv : val c + 8 < 2 ^ (2 * w)) (input : List Byte) (i : Nat) (hil : i < input.length)
    (hov : i + 1 < 2 ^ 31) :
    shaUpdateBody F.process F.bs input i (c, false) = .ok (F.push c input[i], false) := by
  obtain ⟨h1, h2⟩ := count_ok F.hw c.lenLow c.lenHigh hv
  rw [shaUpdateBody]
  rw [rd_ok hil, bind_ok, wr_ok _ (by rw [hc.2]; exact hi), bind_ok]
  dsimp only
  by_cases hlt : c.lenLow + 8#w < c.lenLow
  · rw [if_pos hlt] at h2
    have hne : ¬ (c.lenHigh + 1#w = 0#w) := fun e => h2 ⟨hlt, e⟩
    simp only [hlt, decide_true, if_true, Bool.true_and, beq_eq_false_iff_ne.2 hne, Bool.not_false]
    by_cases hb : c.index + 1 = F.bs
    · rw [if_pos (by simpa using hb), F.process_mk _ _ _ _ _ hc.1 (by simpa using hc.2)]
      simp only [bind_ok, push, hb, hlt, if_true, if_pos hov]
    · rw [if_neg (by simpa using hb)]
      simp only [bind_ok, push, hb, hlt, if_true, if_false, if_pos hov]
  · simp only [hlt, decide_false, Bool.false_and, Bool.not_false, Bool.true_and, Bool.false_eq_true,
      if_false]
    by_cases hb : c.index + 1 = F.bs
    · rw [if_pos (by simpa using hb), F.process_mk _ _ _ _ _ hc.1 (by simpa using hc.2)]
      simp only [bind_ok, push, hb, hlt, if_true, if_false, if_pos hov]
    · rw [if_neg (by simpa using hb)]
      simp only [bind_ok, push, hb, hlt, if_false, if_pos hov]

theorem push_wf (c : ShaCtx w) (hc : F.WF c) (b : Byte) : F.WF (F.push c b) := by
  unfold push
  dsimp only
  split
  · exact ⟨F.hlen _ _ hc.1 (by rw [List.length_set]; exact hc.2), by rw [List.length_set]; exact hc.2⟩
  · exact ⟨hc.1, by rw [List.length_set]; exact hc.2⟩

theorem push_index (c : ShaCtx w) (b : Byte) (h : c.index < F.bs) : (F.push c b).index < F.bs := by
  have := F.bs_pos
  unfold push
  dsimp only
  split <;> dsimp only <;> omega

theorem push_val (c : ShaCtx w) (b : Byte) (hv : val c + 8 < 2 ^ (2 * w)) :
    val (F.push c b) = val c + 8 := by
  obtain ⟨h1, _⟩ := count_ok F.hw c.lenLow c.lenHigh hv
  have e1 : (F.push c b).lenLow = c.lenLow + 8#w := by unfold push; dsimp only; split <;> rfl
  have e2 : (F.push c b).lenHigh = if c.lenLow + 8#w < c.lenLow then c.lenHigh + 1#w else c.lenHigh := by
    unfold push; dsimp only; split <;> rfl
  rw [val, e1, e2, h1, val]

theorem foldl_push (l : List Byte) : ∀ c : ShaCtx w, F.WF c → c.index < F.bs →
    val c + 8 * l.length < 2 ^ (2 * w) →
    F.WF (l.foldl F.push c) ∧ (l.foldl F.push c).index < F.bs ∧
      val (l.foldl F.push c) = val c + 8 * l.length := by
  induction l with
  | nil => intro c h1 h2 _; exact ⟨h1, h2, by simp⟩
  | cons b l ih =>
    intro c h1 h2 h3
    rw [List.length_cons] at h3
    have hv := F.push_val c b (by omega)
    obtain ⟨a, b', c'⟩ := ih (F.push c b) (F.push_wf c h1 b) (F.push_index c b h2) (by omega)
    exact ⟨a, b', by rw [List.foldl_cons, c', hv, List.length_cons]; omega⟩

/-- The update function absorbs byte after byte. -/
theorem update_ok (c : ShaCtx w) (hc : F.WF c) (hi : c.index < F.bs) (input : List Byte) (n : Nat)
    (hn : n ≤ input.length) (hn31 : n < 2 ^ 31) (hv : val c + 8 * n < 2 ^ (2 * w)) :
    shaUpdate F.process F.bs c (some input) n = .ok ((input.take n).foldl F.push c) := by
  obtain ⟨s, h1, h2⟩ := forN_inv (fun i s => s = ((input.take i).foldl F.push c, false)) n
    (shaUpdateBody F.process F.bs input) (c, false) (by simp) (by
      intro i s hin hs
      refine ⟨_, ?_, rfl⟩
      have hl : (input.take i).length = i := by rw [List.length_take]; omega
      obtain ⟨a, b, v⟩ := F.foldl_push (input.take i) c hc hi (by rw [hl]; omega)
      rw [hs, F.body_ok _ a b (by rw [v, hl]; omega) input i (by omega) (by omega)]
      rw [List.take_add_one, List.foldl_append, List.getElem?_eq_getElem (by omega)]
      rfl)
  rw [shaUpdate, h1, bind_ok, h2]

/-- Updates of 2^31 bytes or more overflow the loop counter. -/
theorem update_overflow (c : ShaCtx w) (hc : F.WF c) (hi : c.index < F.bs) (input : List Byte)
    (n : Nat) (hn : n ≤ input.length) (hn31 : 2 ^ 31 ≤ n) (hv : val c + 8 * n < 2 ^ (2 * w)) :
    shaUpdate F.process F.bs c (some input) n = .error .intOverflow := by
  have key : ∀ j, j ≤ 2 ^ 31 - 1 → forN j (shaUpdateBody F.process F.bs input) (c, false)
      = .ok ((input.take j).foldl F.push c, false) := by
    intro j
    induction j with
    | zero => intro _; rfl
    | succ j ih =>
      intro hj
      have hl : (input.take j).length = j := by rw [List.length_take]; omega
      obtain ⟨a, b, v⟩ := F.foldl_push (input.take j) c hc hi (by rw [hl]; omega)
      rw [forN, ih (by omega), bind_ok, F.body_ok _ a b (by rw [v, hl]; omega) input j (by omega) (by omega),
        List.take_add_one, List.foldl_append, List.getElem?_eq_getElem (by omega)]
      rfl
  rw [shaUpdate]
  rw [forN_err n _ (c, false) .intOverflow (2 ^ 31 - 1) (by omega)]
  · rfl
  · rw [key _ (Nat.le_refl _), bind_ok]
    have hl : (input.take (2 ^ 31 - 1)).length = 2 ^ 31 - 1 := by rw [List.length_take]; omega
    obtain ⟨a, b, v⟩ := F.foldl_push (input.take (2 ^ 31 - 1)) c hc hi (by rw [hl]; omega)
    generalize (input.take (2 ^ 31 - 1)).foldl F.push c = d at a b v
    have hvd : val d + 8 < 2 ^ (2 * w) := by rw [v, hl]; omega
    rw [shaUpdateBody]
    rw [rd_ok (by omega), bind_ok, wr_ok _ (by rw [a.2]; exact b), bind_ok]
    dsimp only
    have hf : ∀ (P : Prop) [Decidable P] (x : C (ShaCtx w)) (y : C (ShaCtx w)) (k : ShaCtx w → C (ShaCtx w × Bool)),
        (∃ z, x = .ok z) → (∃ z, y = .ok z) → (∀ z, k z = .error .intOverflow) →
        ((if P then x else y) >>= k) = .error .intOverflow := by
      rintro P _ x y k ⟨z, rfl⟩ ⟨z', rfl⟩ hk
      split <;> simp [hk]
    apply hf
    · refine ⟨_, F.hproc _ ?_ ?_⟩
      · split <;> exact a.1
      · split <;> (simp only [List.length_set]; exact a.2)
    · exact ⟨_, rfl⟩
    · intro z; rw [if_neg (by decide)]

/-! ## The context invariant -/

/-- The context after absorbing exactly `m`. -/
def Inv (h0 : List (BitVec w)) (m : List Byte) (c : ShaCtx w) : Prop :=
  F.WF c ∧ c.index = m.length % F.bs ∧ c.state = (blocks F.bs m).foldl F.compress h0 ∧
  c.block.take c.index = tail F.bs m ∧ val c = 8 * m.length

theorem push_inv (h0 : List (BitVec w)) (m : List Byte) (c : ShaCtx w) (b : Byte)
    (h : F.Inv h0 m c) (ht : 8 * (m.length + 1) < 2 ^ (2 * w)) :
    F.Inv h0 (m ++ [b]) (F.push c b) := by
  obtain ⟨hw, hi, hs, hb, hv⟩ := h
  have hp := F.bs_pos
  have hlt : c.index < F.bs := by rw [hi]; exact Nat.mod_lt _ hp
  have htl := tail_length F.bs m
  have hvv := F.push_val c b (by omega)
  have hset : (c.block.set c.index b).take (c.index + 1) = tail F.bs m ++ [b] := by
    have hil : c.index < c.block.length := by rw [hw.2]; exact hlt
    rw [List.take_add_one, List.take_set_of_le (Nat.le_refl _), hb, List.getElem?_set_self hil]
    rfl
  have hbl := blocks_tail F.bs hp m [b]
  obtain ⟨p, hpe, hp0⟩ := split_tail F.bs m
  have htm : tail F.bs (m ++ [b]) = tail F.bs (tail F.bs m ++ [b]) := by
    conv => lhs; rw [hpe]
    rw [List.append_assoc, tail_append _ hp _ _ hp0]
  have hmod : (m ++ [b]).length % F.bs = if c.index + 1 = F.bs then 0 else c.index + 1 := by
    rw [List.length_append, List.length_singleton, Nat.add_mod, ← hi]
    have e1 : 1 % F.bs = 1 := Nat.mod_eq_of_lt (by have := F.hw; have := F.hbs; omega)
    rw [e1]
    split
    · next e => rw [e]; exact Nat.mod_self _
    · exact Nat.mod_eq_of_lt (by omega)
  refine ⟨F.push_wf c hw b, ?_, ?_, ?_, ?_⟩
  · rw [hmod]
    unfold push; dsimp only
    split <;> rfl
  · rw [hbl, List.foldl_append, ← hs]
    unfold push; dsimp only
    split
    · next e =>
      have hl : (tail F.bs m ++ [b]).length = F.bs := by simp [htl, ← hi, e]
      rw [blocks_one _ hp _ hl]
      have : c.block.set c.index b = tail F.bs m ++ [b] := by
        rw [← hset, e, List.take_of_length_le]
        rw [List.length_set, hw.2]; exact Nat.le_refl _
      rw [this]; rfl
    · next e =>
      rw [blocks_small _ _ (by simp [htl, ← hi]; omega)]; rfl
  · rw [htm]
    unfold push; dsimp only
    split
    · next e =>
      have hl : (tail F.bs m ++ [b]).length = F.bs := by simp [htl, ← hi, e]
      dsimp only
      rw [List.take_zero, tail, hl, Nat.div_self hp, Nat.one_mul, List.drop_of_length_le (Nat.le_of_eq hl)]
    · next e =>
      dsimp only
      have hl : (tail F.bs m ++ [b]).length < F.bs := by simp [htl, ← hi]; omega
      rw [hset, tail_small _ _ hl]
  · rw [hvv, hv, List.length_append, List.length_singleton]; omega

theorem foldl_inv (h0 : List (BitVec w)) (l : List Byte) : ∀ (m : List Byte) (c : ShaCtx w),
    F.Inv h0 m c → 8 * (m.length + l.length) < 2 ^ (2 * w) → F.Inv h0 (m ++ l) (l.foldl F.push c) := by
  induction l with
  | nil => intro m c h _; simpa using h
  | cons b l ih =>
    intro m c h ht
    rw [List.length_cons] at ht
    have := ih (m ++ [b]) (F.push c b) (F.push_inv h0 m c b h (by omega))
      (by rw [List.length_append, List.length_singleton]; omega)
    rw [List.append_assoc] at this
    exact this

/-! ## Padding -/

/-- The big-endian length field. -/
def lenField (c : ShaCtx w) : List Byte := bytesOfWord c.lenHigh ++ bytesOfWord c.lenLow

/-- The blocks the library's padding forms from the bytes `t` in the block buffer: if the length field
does not fit behind `t` and the byte 0x80, the second block starts with the bytes of the first one
instead of zeros. -/
def libPad (bs thr : Nat) (t len : List Byte) : List (List Byte) :=
  if t.length + 1 ≤ thr then [t ++ [0x80#8] ++ List.replicate (thr - t.length - 1) 0#8 ++ len]
  else [t ++ [0x80#8] ++ List.replicate (bs - t.length - 1) 0#8, t.take thr ++ len]

theorem lenField_length (hw8 : w % 8 = 0) (c : ShaCtx w) : (lenField c).length = w / 4 := by
  simp only [lenField, List.length_append, bytesOfWord_length]; omega

/-- What a padding function must do: process the blocks of `libPad`; the last of them stays in the block buffer. -/
def PadOK (padding : ShaCtx w → C (ShaCtx w)) : Prop :=
  ∀ c, F.WF c → c.index < F.bs →
    ∃ blk, blk.length = F.bs ∧
    (libPad F.bs (F.bs - w / 4) (c.block.take c.index) (lenField c)).getLast? = some blk ∧
    padding c = .ok { c with
      state := (libPad F.bs (F.bs - w / 4) (c.block.take c.index) (lenField c)).foldl F.compress c.state
      block := blk, index := 0 }

end Fam
end Pgfe.Proofs.Sha
