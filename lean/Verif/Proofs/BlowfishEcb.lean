import Verif.Proofs.Blowfish
/-!
# Blowfish: whole messages
-/
namespace Pgfe.Proofs.Bf
open Pgfe Pgfe.Model
open Pgfe.Spec

/-! ## Words and bytes -/

theorem word_toNat (b0 b1 b2 b3 : Byte) :
    (Blowfish.word [b0, b1, b2, b3]).toNat = b0.toNat * 2 ^ 24 + b1.toNat * 2 ^ 16 + b2.toNat * 2 ^ 8 + b3.toNat := by
  have h0 := b0.isLt; have h1 := b1.isLt; have h2 := b2.isLt; have h3 := b3.isLt
  simp only [Blowfish.word, List.foldl, BitVec.toNat_add, BitVec.toNat_mul, BitVec.toNat_setWidth,
    BitVec.toNat_ofNat]
  omega

theorem ofLe4_word (b0 b1 b2 b3 : Byte) : Bf.ofLe4 [b3, b2, b1, b0] = Blowfish.word [b0, b1, b2, b3] := by
  apply BitVec.eq_of_getElem_eq
  intro i hi
  simp only [Bf.ofLe4, Blowfish.word, List.foldl, ← shl_or, List.getD, List.getElem?_cons_zero,
    List.getElem?_cons_succ, Option.getD_some]
  simp only [BitVec.getElem_or, BitVec.getElem_shiftLeft, BitVec.getElem_setWidth, BitVec.getElem_zero]
  have hz : ∀ (b : Byte) j, 8 ≤ j → b.getLsbD j = false := fun b j h => BitVec.getLsbD_of_ge b j h
  rcases Nat.lt_or_ge i 8 with h | h
  · simp [h, show i < 16 by omega, show i < 24 by omega]
  rcases Nat.lt_or_ge i 16 with h' | h'
  · simp [h', show ¬ i < 8 by omega, show i < 24 by omega, show i - 8 < 8 by omega, hz _ i h]
  rcases Nat.lt_or_ge i 24 with h'' | h''
  · simp [h'', show ¬ i < 8 by omega, show ¬ i < 16 by omega, show ¬ i - 8 < 8 by omega,
      hz _ i h, hz _ (i - 8) (by omega), show i - 8 - 8 = i - 16 by omega]
    omega
  · simp [show ¬ i < 8 by omega, show ¬ i < 16 by omega, show ¬ i < 24 by omega, show ¬ i - 8 < 8 by omega,
      show ¬ i - 8 - 8 < 8 by omega, hz _ i h, hz _ (i - 8) (by omega), show i - 8 - 8 - 8 = i - 24 by omega,
      hz _ (i - 8 - 8) (by omega), hz _ (i - 16) (by omega)]

theorem le4_rev (w : W32) : Bf.le4 w = (Blowfish.bytes w).reverse := by
  simp [Bf.le4, Blowfish.bytes, List.range_succ]

theorem bytes_word (b0 b1 b2 b3 : Byte) : Blowfish.bytes (Blowfish.word [b0, b1, b2, b3]) = [b0, b1, b2, b3] := by
  have h := word_toNat b0 b1 b2 b3
  have h0 := b0.isLt; have h1 := b1.isLt; have h2 := b2.isLt; have h3 := b3.isLt
  simp only [Blowfish.bytes, List.cons.injEq, and_true]
  refine ⟨?_, ?_, ?_, ?_⟩ <;> apply BitVec.eq_of_toNat_eq <;>
    simp only [BitVec.toNat_setWidth, BitVec.toNat_ushiftRight, Nat.shiftRight_eq_div_pow, h] <;> omega

theorem word_bytes (w : W32) : Blowfish.word (Blowfish.bytes w) = w := by
  apply BitVec.eq_of_toNat_eq
  have hw := w.isLt
  rw [Blowfish.bytes, word_toNat]
  simp only [BitVec.toNat_setWidth, BitVec.toNat_ushiftRight, Nat.shiftRight_eq_div_pow]
  omega

/-- A list of eight bytes. -/
theorem eight {b : List Byte} (h : b.length = 8) :
    ∃ b0 b1 b2 b3 b4 b5 b6 b7, b = [b0, b1, b2, b3, b4, b5, b6, b7] := by
  match b, h with
  | [b0, b1, b2, b3, b4, b5, b6, b7], _ => exact ⟨b0, b1, b2, b3, b4, b5, b6, b7, rfl⟩

theorem onBlock_length (g : W32 × W32 → W32 × W32) (b : List Byte) : (Blowfish.onBlock g b).length = 8 := rfl

theorem onBytes_eq (f : BfUnit → C BfUnit) (g : W32 × W32 → W32 × W32) (hf : ∀ u, f u = .ok (un (g (pr u))))
    (b : List Byte) (hb : b.length = 8) :
    Bf.onBytes f b.reverse = .ok (Blowfish.onBlock g b).reverse := by
  obtain ⟨b0, b1, b2, b3, b4, b5, b6, b7, rfl⟩ := eight hb
  rw [Bf.onBytes, hf, bind_ok]
  show Except.ok (Bf.le4 (g (Bf.ofLe4 [b3, b2, b1, b0], Bf.ofLe4 [b7, b6, b5, b4])).2 ++
    Bf.le4 (g (Bf.ofLe4 [b3, b2, b1, b0], Bf.ofLe4 [b7, b6, b5, b4])).1) = _
  rw [ofLe4_word, ofLe4_word, le4_rev, le4_rev, ← List.reverse_append]
  rfl

theorem onBlock_comp (g g' : W32 × W32 → W32 × W32) (b : List Byte) :
    Blowfish.onBlock g' (Blowfish.onBlock g b) = Blowfish.onBlock (fun x => g' (g x)) b := by
  have e : ∀ y : W32 × W32, Blowfish.onBlock g' (Blowfish.bytes y.1 ++ Blowfish.bytes y.2) =
      Blowfish.bytes (g' y).1 ++ Blowfish.bytes (g' y).2 := by
    intro y
    have e1 : (Blowfish.bytes y.1 ++ Blowfish.bytes y.2).take 4 = Blowfish.bytes y.1 := rfl
    have e2 : ((Blowfish.bytes y.1 ++ Blowfish.bytes y.2).drop 4).take 4 = Blowfish.bytes y.2 := rfl
    rw [Blowfish.onBlock, e1, e2, word_bytes, word_bytes]
  exact e (g (Blowfish.word (b.take 4), Blowfish.word ((b.drop 4).take 4)))

theorem onBlock_id (g : W32 × W32 → W32 × W32) (hg : ∀ x, g x = x) (b : List Byte) (hb : b.length = 8) :
    Blowfish.onBlock g b = b := by
  obtain ⟨b0, b1, b2, b3, b4, b5, b6, b7, rfl⟩ := eight hb
  rw [Blowfish.onBlock, hg]
  show Blowfish.bytes (Blowfish.word [b0, b1, b2, b3]) ++ Blowfish.bytes (Blowfish.word [b4, b5, b6, b7]) = _
  rw [bytes_word, bytes_word]
  rfl

/-! ## One block -/

theorem copyOut_eq (Y output : List Byte) (m : Nat) (hY : Y.length = 8) (ho : 8 * m + 8 ≤ output.length) :
    Bf.copyOut Y.reverse output (8 * m) = .ok (splice output (8 * m) Y) := by
  have main : ∀ n, n ≤ 8 → forN n (fun t output => do
      let b ← rd Y.reverse (7 - (8 * m + t) % 8)
      wr output (8 * m + t) b) output =
      .ok (output.take (8 * m) ++ Y.take n ++ output.drop (8 * m + n)) := by
    intro n
    induction n with
    | zero => intro _; simp [forN]
    | succ n ih =>
      intro hn
      rw [forN, ih (by omega), bind_ok]
      have e1 : (8 * m + n) % 8 = n := by omega
      have hY' : n < Y.length := by omega
      rw [e1, rd_ok (by simp; omega), bind_ok]
      have e2 : Y.reverse[7 - n]'(by simp; omega) = Y[n] := by
        rw [List.getElem_reverse]
        simp only [hY]
        congr 1; omega
      rw [e2, List.drop_eq_getElem_cons (i := 8 * m + n) (by omega)]
      have hl : (output.take (8 * m) ++ Y.take n).length = 8 * m + n := by simp; omega
      have hw := wr_append (output.take (8 * m) ++ Y.take n) (output.drop (8 * m + n + 1))
        (output[8 * m + n]'(by omega)) Y[n]
      rw [hl] at hw
      rw [hw, List.take_succ_eq_append_getElem hY', ← List.append_assoc, List.append_assoc _ [Y[n]],
        List.singleton_append, Nat.add_assoc]
  rw [Bf.copyOut, main 8 (by omega), splice, hY, List.take_of_length_le (l := Y) (by omega)]

/-- The body of the main loop. -/
def body (f : BfUnit → C BfUnit) (input : Option (List Byte)) (i : Nat) (s : List Byte × List Byte) :
    C (List Byte × List Byte) := do
  let b ← rd (input.getD s.2) i
  let unp ← wr s.1 (7 - i % 8) b
  if i % 8 = 7 then do
    let unp ← Bf.onBytes f unp
    let output ← Bf.copyOut unp s.2 (i - 7)
    .ok (unp, output)
  else .ok (unp, s.2)

theorem fill (f : BfUnit → C BfUnit) (input : Option (List Byte)) (m : Nat) (unp out blk : List Byte)
    (hu : unp.length = 8) (hr : ∀ t, t < blk.length → rd (input.getD out) (8 * m + t) = .ok (blk.getD t 0#8)) :
    ∀ n, n ≤ blk.length → n ≤ 7 → forN n (fun i => body f input (8 * m + i)) (unp, out) =
      .ok (unp.take (8 - n) ++ (blk.take n).reverse, out) := by
  intro n
  induction n with
  | zero => intro _ _; simp [forN, List.take_of_length_le (Nat.le_of_eq hu)]
  | succ n ih =>
    intro hn h7
    rw [forN, ih (by omega) (by omega), bind_ok, body]
    dsimp only
    rw [hr n (by omega), bind_ok, show (8 * m + n) % 8 = n by omega]
    have e1 : unp.take (8 - n) = unp.take (7 - n) ++ [unp[7 - n]'(by omega)] := by
      rw [show 8 - n = (7 - n) + 1 by omega, List.take_succ_eq_append_getElem (by omega)]
    have hl : (unp.take (7 - n)).length = 7 - n := by simp; omega
    have hw := wr_append (unp.take (7 - n)) (blk.take n).reverse (unp[7 - n]'(by omega)) (blk.getD n 0#8)
    rw [hl] at hw
    rw [e1, List.append_assoc, List.singleton_append, hw, bind_ok, if_neg (by omega)]
    have e2 : blk.getD n 0#8 = blk[n]'(by omega) := by simp [List.getD, show n < blk.length by omega]
    rw [e2, List.take_succ_eq_append_getElem (show n < blk.length by omega), List.reverse_append,
      show 8 - (n + 1) = 7 - n by omega]
    rfl

theorem block_eq (f : BfUnit → C BfUnit) (g : W32 × W32 → W32 × W32) (hf : ∀ u, f u = .ok (un (g (pr u))))
    (input : Option (List Byte)) (m : Nat) (unp out blk : List Byte) (hu : unp.length = 8) (hb : blk.length = 8)
    (ho : 8 * m + 8 ≤ out.length)
    (hr : ∀ t, t < 8 → rd (input.getD out) (8 * m + t) = .ok (blk.getD t 0#8)) :
    forN 8 (fun i => body f input (8 * m + i)) (unp, out) =
      .ok ((Blowfish.onBlock g blk).reverse, splice out (8 * m) (Blowfish.onBlock g blk)) := by
  rw [forN, fill f input m unp out blk hu (fun t ht => hr t (by omega)) 7 (by omega) (by omega), bind_ok, body]
  dsimp only
  rw [hr 7 (by omega), bind_ok, show (8 * m + 7) % 8 = 7 by omega]
  simp only [if_true]
  obtain ⟨b0, b1, b2, b3, b4, b5, b6, b7, rfl⟩ := eight hb
  obtain ⟨u0, u1, u2, u3, u4, u5, u6, u7, rfl⟩ := eight hu
  have hw : wr (List.take (8 - 7) [u0, u1, u2, u3, u4, u5, u6, u7] ++
      (List.take 7 [b0, b1, b2, b3, b4, b5, b6, b7]).reverse) (7 - 7)
      ([b0, b1, b2, b3, b4, b5, b6, b7].getD 7 0#8) = .ok [b0, b1, b2, b3, b4, b5, b6, b7].reverse := rfl
  rw [hw, bind_ok, onBytes_eq f g hf _ rfl, bind_ok, show 8 * m + 7 - 7 = 8 * m by omega,
    copyOut_eq _ _ _ (onBlock_length _ _) ho, bind_ok]

/-- The first `m` blocks of the result. -/
def pre (g : W32 × W32 → W32 × W32) (x : List Byte) (m : Nat) : List Byte :=
  (List.range m).flatMap (fun i => Blowfish.onBlock g (((Blowfish.pad x).drop (8 * i)).take 8))

theorem pre_succ (g : W32 × W32 → W32 × W32) (x : List Byte) (m : Nat) :
    pre g x (m + 1) = pre g x m ++ Blowfish.onBlock g (((Blowfish.pad x).drop (8 * m)).take 8) := by
  simp [pre, List.range_succ]

theorem pre_length (g : W32 × W32 → W32 × W32) (x : List Byte) (m : Nat) : (pre g x m).length = 8 * m := by
  induction m with
  | zero => rfl
  | succ m ih => rw [pre_succ, List.length_append, ih, onBlock_length]; omega

theorem pad_length (x : List Byte) : (Blowfish.pad x).length = 8 * Blowfish.blocks x.length := by
  simp [Blowfish.pad, Blowfish.blocks]; omega

theorem pad_getD (x : List Byte) (i : Nat) (h : i < x.length) : (Blowfish.pad x).getD i 0#8 = x.getD i 0#8 := by
  rw [Blowfish.pad, getD_append_l _ _ _ _ h]

theorem blk_getD (y : List Byte) (k t : Nat) (ht : t < 8) : ((y.drop k).take 8).getD t 0#8 = y.getD (k + t) 0#8 := by
  simp [List.getD, ht]

/-- The source of the bytes, seen after `m` blocks. -/
theorem src_getD (input : Option (List Byte)) (E output : List Byte) (k : Nat) (hE : E.length = k)
    (length : Nat) (hi : length ≤ (input.getD output).length) (i : Nat) (hk : k ≤ i) (hl : i < length) :
    rd (input.getD (E ++ output.drop k)) i = .ok (((input.getD output).take length).getD i 0#8) := by
  have h2 : ((input.getD output).take length).getD i 0#8 = (input.getD output).getD i 0#8 := by
    simp [List.getD, hl]
  rw [h2]
  cases input with
  | some inp =>
    have hi' : length ≤ inp.length := hi
    exact rd_getD inp i 0#8 (by omega)
  | none =>
    have hi' : length ≤ output.length := hi
    show rd (E ++ output.drop k) i = .ok (output.getD i 0#8)
    rw [rd_getD _ i 0#8 (by simp; omega), getD_append_r _ _ _ _ (by omega), hE]
    simp only [List.getD, List.getElem?_drop]
    rw [show k + (i - k) = i by omega]

theorem splice_tail (E output Y : List Byte) (k : Nat) (hE : E.length = k) (hY : Y.length = 8) :
    splice (E ++ output.drop k) k Y = E ++ Y ++ output.drop (k + 8) := by
  subst hE
  have e : (E ++ output.drop E.length).drop (E.length + 8) = output.drop (E.length + 8) := by
    rw [← List.drop_drop, List.drop_left' rfl, List.drop_drop]
  rw [splice, hY, List.take_left' rfl, e]

theorem blocks_eq (f : BfUnit → C BfUnit) (g : W32 × W32 → W32 × W32) (hf : ∀ u, f u = .ok (un (g (pr u))))
    (input : Option (List Byte)) (unp output : List Byte) (length : Nat) (hu : unp.length = 8)
    (hi : length ≤ (input.getD output).length) (ho : 8 * (length / 8) ≤ output.length) :
    ∀ m, 8 * m ≤ length → ∃ unp', forN (8 * m) (body f input) (unp, output) =
      .ok (unp', pre g ((input.getD output).take length) m ++ output.drop (8 * m)) ∧ unp'.length = 8 := by
  intro m
  induction m with
  | zero => intro _; exact ⟨unp, rfl, hu⟩
  | succ m ih =>
    intro hm
    have hx : ((input.getD output).take length).length = length := by simp; omega
    obtain ⟨unp', e, hl⟩ := ih (by omega)
    have hbl : (((Blowfish.pad ((input.getD output).take length)).drop (8 * m)).take 8).length = 8 := by
      simp only [List.length_take, List.length_drop, pad_length, hx]
      rw [Blowfish.blocks]
      have : 8 * (m + 1) ≤ length := hm
      rw [List.length_take] at hx
      omega
    have hb8 : 8 * m + 8 ≤ output.length := by
      omega
    rw [show 8 * (m + 1) = 8 * m + 8 by omega, forN_add, e, bind_ok]
    refine ⟨(Blowfish.onBlock g (((Blowfish.pad ((input.getD output).take length)).drop (8 * m)).take 8)).reverse,
      ?_, ?_⟩
    · rw [block_eq f g hf input m unp' _ _ hl hbl ?_ ?_]
      · rw [pre_succ]
        rw [splice_tail _ _ _ _ (pre_length _ _ _) (onBlock_length _ _)]
      · rw [List.length_append, pre_length, List.length_drop]; omega
      · intro t ht
        rw [src_getD input _ output (8 * m) (pre_length _ _ _) length hi (8 * m + t) (by omega) (by omega),
          blk_getD _ _ _ ht, pad_getD _ _ (by omega)]
    · rw [List.length_reverse, onBlock_length]

/-- The whole function. -/
theorem generic_eq (f : BfUnit → C BfUnit) (g : W32 × W32 → W32 × W32) (hf : ∀ u, f u = .ok (un (g (pr u))))
    (input : Option (List Byte)) (unp output : List Byte) (length : Nat) (hu : unp.length = 8)
    (hi : length ≤ (input.getD output).length) (ho : 8 * Blowfish.blocks length ≤ output.length) :
    Bf.generic f unp input length output =
      .ok (8 * Blowfish.blocks length,
        Blowfish.ecb g ((input.getD output).take length) ++ output.drop (8 * Blowfish.blocks length)) := by
  have hx : ((input.getD output).take length).length = length := by simp; omega
  obtain ⟨unp', e, hl⟩ := blocks_eq f g hf input unp output length hu hi (by rw [Blowfish.blocks] at ho; omega) (length / 8)
    (by omega)
  have hecb : Blowfish.ecb g ((input.getD output).take length) =
      pre g ((input.getD output).take length) (Blowfish.blocks length) := by
    rw [Blowfish.ecb, hx, pre]
  show (forN length (body f input) (unp, output) >>= _) = _
  rcases Nat.eq_zero_or_pos (length % 8) with h0 | hpos
  · have hb : Blowfish.blocks length = length / 8 := by rw [Blowfish.blocks]; omega
    have hlen : 8 * (length / 8) = length := by omega
    rw [hlen] at e
    rw [e, bind_ok, if_neg (by omega), hecb, hb, hlen]
  · have hb : Blowfish.blocks length = length / 8 + 1 := by rw [Blowfish.blocks]; omega
    generalize hq : length / 8 = m at *
    generalize hr : length % 8 = r at *
    have hlen : length = 8 * m + r := by omega
    have hr8 : r < 8 := by omega
    have hblk : (((input.getD output).take length).drop (8 * m)).length = r := by
      rw [List.length_drop, hx]; omega
    have hfill := fill f input m unp' (pre g ((input.getD output).take length) m ++ output.drop (8 * m))
      (((input.getD output).take length).drop (8 * m)) hl (by
        intro t ht
        rw [hblk] at ht
        rw [src_getD input _ output (8 * m) (pre_length _ _ _) length hi (8 * m + t) (by omega) (by omega)]
        simp only [List.getD, List.getElem?_drop]) r (by omega) (by omega)
    have hloop : forN length (body f input) (unp, output) =
        .ok (unp'.take (8 - r) ++ (((input.getD output).take length).drop (8 * m)).reverse,
          pre g ((input.getD output).take length) m ++ output.drop (8 * m)) := by
      rw [show forN length (body f input) (unp, output) = forN (8 * m + r) (body f input) (unp, output) by
        rw [← hlen]]
      rw [forN_add, e, bind_ok, hfill,
        List.take_of_length_le (l := ((input.getD output).take length).drop (8 * m)) (Nat.le_of_eq hblk)]
    rw [hloop, bind_ok, if_pos (by omega)]
    dsimp only
    have hw : wrs (unp'.take (8 - r) ++ (((input.getD output).take length).drop (8 * m)).reverse) 0
        (List.replicate (8 - r) 0#8) =
        .ok (((Blowfish.pad ((input.getD output).take length)).drop (8 * m)).take 8).reverse := by
      rw [wrs_ok (by simp; omega), splice]
      have e1 : ((Blowfish.pad ((input.getD output).take length)).drop (8 * m)).take 8 =
          ((input.getD output).take length).drop (8 * m) ++ List.replicate (8 - r) 0#8 := by
        have hrep : 8 * (m + 1) - length = 8 - r := by omega
        rw [Blowfish.pad, hx, hb, hrep, List.drop_append_of_le_length (by omega)]
        apply List.take_of_length_le
        rw [List.length_append, hblk, List.length_replicate]; omega
      rw [e1, List.reverse_append, List.reverse_replicate, List.take_zero, List.nil_append, List.length_replicate,
        Nat.zero_add]
      have hu8 : (unp'.take (8 - r)).length = 8 - r := by simp [hl]
      rw [List.drop_left' hu8]
    have hbl : (((Blowfish.pad ((input.getD output).take length)).drop (8 * m)).take 8).length = 8 := by
      rw [List.length_take, List.length_drop, pad_length, hx, hb]; omega
    rw [hw, bind_ok, onBytes_eq f g hf _ hbl, bind_ok]
    rw [show length + (8 - r) - 8 = 8 * m by omega, copyOut_eq _ _ _ (onBlock_length _ _) (by
      rw [List.length_append, pre_length, List.length_drop]; omega), bind_ok, hecb, hb, pre_succ]
    rw [show length + (8 - r) = 8 * (m + 1) by omega]
    rw [splice_tail _ _ _ _ (pre_length _ _ _) (onBlock_length _ _), show 8 * (m + 1) = 8 * m + 8 by omega]

/-- The last block does not fit. -/
theorem copyOut_overflow (Y output : List Byte) (m : Nat) (hY : Y.length = 8) (h0 : 8 * m ≤ output.length)
    (ho : output.length < 8 * m + 8) :
    Bf.copyOut Y output (8 * m) = .error .oobWrite := by
  obtain ⟨r, hr⟩ : ∃ r, output.length = 8 * m + r := ⟨output.length - 8 * m, by omega⟩
  refine forN_err 8 _ output .oobWrite r (by omega) ?_
  obtain ⟨o, h1, h2⟩ := forN_inv (fun _ o => o.length = output.length) r (fun t output => do
      let b ← rd Y (7 - (8 * m + t) % 8)
      wr output (8 * m + t) b) output rfl (by
    intro i o hi hl
    rw [rd_ok (by omega), bind_ok, wr_ok _ (by omega)]
    exact ⟨_, rfl, by rw [List.length_set, hl]⟩)
  rw [h1, bind_ok, rd_ok (by omega), bind_ok, wr, if_neg (by omega)]

theorem generic_overflow (f : BfUnit → C BfUnit) (g : W32 × W32 → W32 × W32) (hf : ∀ u, f u = .ok (un (g (pr u))))
    (input : Option (List Byte)) (unp output : List Byte) (length : Nat) (hu : unp.length = 8)
    (hi : length ≤ (input.getD output).length) (h0 : 8 * (length / 8) ≤ output.length)
    (ho : output.length < 8 * Blowfish.blocks length) :
    Bf.generic f unp input length output = .error .oobWrite := by
  have hx : ((input.getD output).take length).length = length := by simp; omega
  have hpos : 0 < length % 8 := by rw [Blowfish.blocks] at ho; omega
  have ho' : output.length < 8 * (length / 8) + 8 := by rw [Blowfish.blocks] at ho; omega
  obtain ⟨unp', e, hl⟩ := blocks_eq f g hf input unp output length hu hi h0 (length / 8) (by omega)
  show (forN length (body f input) (unp, output) >>= _) = _
  generalize hq : length / 8 = m at *
  generalize hr : length % 8 = r at *
  have hlen : length = 8 * m + r := by omega
  have hr8 : r < 8 := by omega
  have hblk : (((input.getD output).take length).drop (8 * m)).length = r := by
    rw [List.length_drop, hx]; omega
  have hfill := fill f input m unp' (pre g ((input.getD output).take length) m ++ output.drop (8 * m))
    (((input.getD output).take length).drop (8 * m)) hl (by
      intro t ht
      rw [hblk] at ht
      rw [src_getD input _ output (8 * m) (pre_length _ _ _) length hi (8 * m + t) (by omega) (by omega)]
      simp only [List.getD, List.getElem?_drop]) r (by omega) (by omega)
  have hloop : forN length (body f input) (unp, output) =
      .ok (unp'.take (8 - r) ++ (((input.getD output).take length).drop (8 * m)).reverse,
        pre g ((input.getD output).take length) m ++ output.drop (8 * m)) := by
    rw [show forN length (body f input) (unp, output) = forN (8 * m + r) (body f input) (unp, output) by
      rw [← hlen]]
    rw [forN_add, e, bind_ok, hfill,
      List.take_of_length_le (l := ((input.getD output).take length).drop (8 * m)) (Nat.le_of_eq hblk)]
  rw [hloop, bind_ok, if_pos (by omega)]
  dsimp only
  rw [wrs_ok (by simp; omega), bind_ok]
  have hsl : (splice (unp'.take (8 - r) ++ (((input.getD output).take length).drop (8 * m)).reverse) 0
      (List.replicate (8 - r) 0#8)).length = 8 := by
    rw [splice_length (by simp; omega), List.length_append, List.length_reverse, hblk, List.length_take, hl]; omega
  have hrr := onBytes_eq f g hf (splice (unp'.take (8 - r) ++ (((input.getD output).take length).drop (8 * m)).reverse) 0
      (List.replicate (8 - r) 0#8)).reverse (by rw [List.length_reverse, hsl])
  rw [List.reverse_reverse] at hrr
  rw [hrr, bind_ok, show length + (8 - r) - 8 = 8 * m by omega,
    copyOut_overflow _ _ _ (by rw [List.length_reverse, onBlock_length])
      (by rw [List.length_append, pre_length, List.length_drop]; omega)
      (by rw [List.length_append, pre_length, List.length_drop]; omega)]
  rfl

/-! ## Facts about whole blocks -/

theorem ecb_length (g : W32 × W32 → W32 × W32) (x : List Byte) :
    (Blowfish.ecb g x).length = 8 * Blowfish.blocks x.length := pre_length g x _

theorem pad_of_blocks (x : List Byte) (h : x.length % 8 = 0) : Blowfish.pad x = x := by
  have : 8 * Blowfish.blocks x.length - x.length = 0 := by rw [Blowfish.blocks]; omega
  rw [Blowfish.pad, this]; simp

theorem pre_block (g : W32 × W32 → W32 × W32) (x : List Byte) (n i : Nat) (h : i < n) :
    ((pre g x n).drop (8 * i)).take 8 = Blowfish.onBlock g (((Blowfish.pad x).drop (8 * i)).take 8) := by
  obtain ⟨k, rfl⟩ : ∃ k, n = (i + 1) + k := ⟨n - (i + 1), by omega⟩
  have : pre g x (i + 1 + k) = pre g x i ++ (Blowfish.onBlock g (((Blowfish.pad x).drop (8 * i)).take 8) ++
      (List.range k).flatMap (fun j => Blowfish.onBlock g (((Blowfish.pad x).drop (8 * (i + 1 + j))).take 8))) := by
    rw [pre, List.range_add, List.flatMap_append, List.flatMap_map]
    show pre g x (i + 1) ++ _ = _
    rw [pre_succ, List.append_assoc]
  rw [this, List.drop_left' (pre_length _ _ _), List.take_left' (onBlock_length _ _)]

theorem ecb_comp (g g' : W32 × W32 → W32 × W32) (x : List Byte) :
    Blowfish.ecb g' (Blowfish.ecb g x) = Blowfish.ecb (fun y => g' (g y)) x := by
  have hl := ecb_length g x
  have hb : Blowfish.blocks (Blowfish.ecb g x).length = Blowfish.blocks x.length := by
    rw [hl, Blowfish.blocks]; omega
  have hp : Blowfish.pad (Blowfish.ecb g x) = Blowfish.ecb g x := pad_of_blocks _ (by rw [hl]; omega)
  show (List.range (Blowfish.blocks (Blowfish.ecb g x).length)).flatMap _ = (List.range (Blowfish.blocks x.length)).flatMap _
  rw [hb, hp]
  rw [List.flatMap_def, List.flatMap_def]
  congr 1
  apply List.map_congr_left
  intro i hi
  have hi' : i < Blowfish.blocks x.length := by simpa using hi
  have := pre_block g x (Blowfish.blocks x.length) i hi'
  show Blowfish.onBlock g' (((pre g x (Blowfish.blocks x.length)).drop (8 * i)).take 8) = _
  rw [this, onBlock_comp]

theorem pre_id (g : W32 × W32 → W32 × W32) (hg : ∀ x, g x = x) (x : List Byte) :
    ∀ n, n ≤ Blowfish.blocks x.length → pre g x n = (Blowfish.pad x).take (8 * n) := by
  intro n
  induction n with
  | zero => intro _; rfl
  | succ n ih =>
    intro hn
    rw [pre_succ, ih (by omega), onBlock_id g hg _ (by
      rw [List.length_take, List.length_drop, pad_length]; omega)]
    rw [show 8 * (n + 1) = 8 * n + 8 by omega, List.take_add]

theorem ecb_id (g : W32 × W32 → W32 × W32) (hg : ∀ x, g x = x) (x : List Byte) :
    Blowfish.ecb g x = Blowfish.pad x := by
  show pre g x _ = _
  rw [pre_id g hg x _ (Nat.le_refl _), List.take_of_length_le (by rw [pad_length]; exact Nat.le_refl _)]

end Pgfe.Proofs.Bf
