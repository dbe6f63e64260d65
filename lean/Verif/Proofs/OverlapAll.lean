import Verif.Proofs.Overlap
import Verif.Spec.Overlap
/-!
# Blowfish on one array, for every position of input and output
-/
namespace Pgfe.Proofs.Overlap
open Pgfe Pgfe.Model Pgfe.Spec Pgfe.Proofs.Bf

theorem copyOutMem_eq (Y mem : List Byte) (op m : Nat) (hY : Y.length = 8) (ho : op + 8 * m + 8 ≤ mem.length) :
    Bf.copyOutMem Y.reverse mem op (8 * m) = .ok (splice mem (op + 8 * m) Y) := by
  have hA : (mem.take op).length = op := by rw [List.length_take]; omega
  have h := copyOut_same (mem.take op) Y.reverse (mem.drop op) (8 * m)
  rw [copyOut_eq Y _ m hY (by rw [List.length_drop]; omega), List.take_append_drop, hA] at h
  rcases h with ⟨e, _, h2⟩ | ⟨s, t, h1, h2, h3, _⟩
  · cases h2
  · rw [h1]
    rw [Except.ok.injEq] at h2
    rw [h3, ← h2, splice, splice, hY, List.drop_drop, ← List.append_assoc, ← List.append_assoc, ← Nat.add_assoc]
    congr 3
    rw [List.take_add]

/-- The body of the main loop. -/
def bodyM (f : BfUnit → C BfUnit) (ip op : Nat) (i : Nat) (s : List Byte × List Byte) :
    C (List Byte × List Byte) := do
  let b ← rd s.2 (ip + i)
  let unp ← wr s.1 (7 - i % 8) b
  if i % 8 = 7 then do
    let unp ← Bf.onBytes f unp
    let mem ← Bf.copyOutMem unp s.2 op (i - 7)
    .ok (unp, mem)
  else .ok (unp, s.2)

theorem fillM (f : BfUnit → C BfUnit) (ip op m : Nat) (unp mem blk : List Byte)
    (hu : unp.length = 8) (hr : ∀ t, t < blk.length → rd mem (ip + (8 * m + t)) = .ok (blk.getD t 0#8)) :
    ∀ n, n ≤ blk.length → n ≤ 7 → forN n (fun i => bodyM f ip op (8 * m + i)) (unp, mem) =
      .ok (unp.take (8 - n) ++ (blk.take n).reverse, mem) := by
  intro n
  induction n with
  | zero => intro _ _; simp [forN, List.take_of_length_le (Nat.le_of_eq hu)]
  | succ n ih =>
    intro hn h7
    rw [forN, ih (by omega) (by omega), bind_ok, bodyM]
    dsimp only
    rw [hr n (by omega), bind_ok, show (8 * m + n) % 8 = n by omega]
    have e1 : unp.take (8 - n) = unp.take (7 - n) ++ [unp[7 - n]'(by omega)] := by
      rw [show 8 - n = (7 - n) + 1 by omega, List.take_succ_eq_append_getElem (by omega)]
    have hl : (unp.take (7 - n)).length = 7 - n := by simp; omega
    have hw := wr_append (unp.take (7 - n)) (blk.take n).reverse (unp[7 - n]'(by omega)) (blk.getD n 0#8)
    rw [hl] at hw
    rw [e1, List.append_assoc, List.singleton_append, hw, bind_ok, if_neg (by omega)]
    have e2 : blk.getD n 0#8 = blk[n]'(by omega) := by simp [List.getD, show n < blk.length by omega]
    rw [e2, List.take_succ_eq_append_getElem (show n < blk.length by omega), List.reverse_append,
      show 8 - (n + 1) = 7 - n by omega]
    rfl

theorem blockM (f : BfUnit → C BfUnit) (g : W32 × W32 → W32 × W32) (hf : ∀ u, f u = .ok (un (g (pr u))))
    (ip op m : Nat) (unp mem blk : List Byte) (hu : unp.length = 8) (hb : blk.length = 8)
    (ho : op + 8 * m + 8 ≤ mem.length)
    (hr : ∀ t, t < 8 → rd mem (ip + (8 * m + t)) = .ok (blk.getD t 0#8)) :
    forN 8 (fun i => bodyM f ip op (8 * m + i)) (unp, mem) =
      .ok ((Blowfish.onBlock g blk).reverse, splice mem (op + 8 * m) (Blowfish.onBlock g blk)) := by
  rw [forN, fillM f ip op m unp mem blk hu (fun t ht => hr t (by omega)) 7 (by omega) (by omega), bind_ok, bodyM]
  dsimp only
  rw [hr 7 (by omega), bind_ok, show (8 * m + 7) % 8 = 7 by omega]
  simp only [if_true]
  obtain ⟨b0, b1, b2, b3, b4, b5, b6, b7, rfl⟩ := eight hb
  obtain ⟨u0, u1, u2, u3, u4, u5, u6, u7, rfl⟩ := eight hu
  have hw : wr (List.take (8 - 7) [u0, u1, u2, u3, u4, u5, u6, u7] ++
      (List.take 7 [b0, b1, b2, b3, b4, b5, b6, b7]).reverse) (7 - 7)
      ([b0, b1, b2, b3, b4, b5, b6, b7].getD 7 0#8) = .ok [b0, b1, b2, b3, b4, b5, b6, b7].reverse := rfl
  rw [hw, bind_ok, onBytes_eq f g hf _ rfl, bind_ok, show 8 * m + 7 - 7 = 8 * m by omega,
    copyOutMem_eq _ _ _ _ (onBlock_length _ _) ho, bind_ok]

theorem seq_succ (g : W32 × W32 → W32 × W32) (ip n op : Nat) (mem : List Byte) (m : Nat) :
    Blowfish.moveBlocks g ip n op mem (m + 1) = Blowfish.moveBlock g ip n op (Blowfish.moveBlocks g ip n op mem m) m := by
  rw [Blowfish.moveBlocks, List.range_succ, List.foldl_append]; rfl

theorem seq_length (g : W32 × W32 → W32 × W32) (ip n op : Nat) (mem : List Byte) : ∀ m, op + 8 * m ≤ mem.length →
    (Blowfish.moveBlocks g ip n op mem m).length = mem.length := by
  intro m
  induction m with
  | zero => intro _; rfl
  | succ m ih =>
    intro h
    have := ih (by omega)
    rw [seq_succ, Blowfish.moveBlock, splice_length]
    · exact this
    · rw [onBlock_length, this]; omega

theorem rdM (mem : List Byte) (ip k r t : Nat) (h : ip + k + r ≤ mem.length) (ht : t < r) :
    rd mem (ip + (k + t)) = .ok (((mem.drop (ip + k)).take r).getD t 0#8) := by
  rw [rd_getD _ _ 0#8 (by omega)]
  simp only [List.getD, List.getElem?_take, ht, if_true, List.getElem?_drop]
  rw [Nat.add_assoc]

theorem blocksM (f : BfUnit → C BfUnit) (g : W32 × W32 → W32 × W32) (hf : ∀ u, f u = .ok (un (g (pr u))))
    (unp mem : List Byte) (ip n op : Nat) (hu : unp.length = 8) (hi : ip + n ≤ mem.length)
    (ho : op + 8 * (n / 8) ≤ mem.length) :
    ∀ m, 8 * m ≤ n → ∃ unp', forN (8 * m) (bodyM f ip op) (unp, mem) = .ok (unp', Blowfish.moveBlocks g ip n op mem m) ∧
      unp'.length = 8 := by
  intro m
  induction m with
  | zero => intro _; exact ⟨unp, rfl, hu⟩
  | succ m ih =>
    intro hm
    obtain ⟨unp', e, hl⟩ := ih (by omega)
    have hs := seq_length g ip n op mem m (by omega)
    rw [show 8 * (m + 1) = 8 * m + 8 by omega, forN_add, e, bind_ok, seq_succ]
    generalize Blowfish.moveBlocks g ip n op mem m = M at *
    have hmin : min 8 (n - 8 * m) = 8 := by omega
    have hb : ((M.drop (ip + 8 * m)).take 8).length = 8 := by rw [List.length_take, List.length_drop]; omega
    refine ⟨(Blowfish.onBlock g ((M.drop (ip + 8 * m)).take 8)).reverse, ?_, by rw [List.length_reverse, onBlock_length]⟩
    rw [blockM f g hf ip op m unp' M _ hl hb (by omega) (fun t ht => rdM M ip (8 * m) 8 t (by omega) ht), Blowfish.moveBlock, hmin,
      pad_of_blocks _ (by rw [hb])]

/-- The function on one array, wherever input and output are in it. -/
theorem genericM (f : BfUnit → C BfUnit) (g : W32 × W32 → W32 × W32) (hf : ∀ u, f u = .ok (un (g (pr u))))
    (unp mem : List Byte) (ip n op : Nat) (hu : unp.length = 8) (hi : ip + n ≤ mem.length)
    (ho : op + 8 * Blowfish.blocks n ≤ mem.length) :
    Bf.genericMem f unp mem ip n op = .ok (8 * Blowfish.blocks n, Blowfish.moveBlocks g ip n op mem (Blowfish.blocks n)) := by
  have hbl : Blowfish.blocks n = (n + 7) / 8 := rfl
  obtain ⟨unp', e, hl⟩ := blocksM f g hf unp mem ip n op hu hi (by omega) (n / 8) (by omega)
  show (forN n (bodyM f ip op) (unp, mem) >>= _) = _
  rcases Nat.eq_zero_or_pos (n % 8) with h0 | hpos
  · have hb : Blowfish.blocks n = n / 8 := by omega
    have hlen : 8 * (n / 8) = n := by omega
    rw [hlen] at e
    rw [e, bind_ok, if_neg (by omega), hb, hlen]
  · have hb : Blowfish.blocks n = n / 8 + 1 := by omega
    have hs := seq_length g ip n op mem (n / 8) (by omega)
    rw [hb, seq_succ]
    rw [hb] at ho
    clear hb hbl
    generalize Blowfish.moveBlocks g ip n op mem (n / 8) = M at *
    generalize hq : n / 8 = m at *
    generalize hr : n % 8 = r at *
    have hlen : n = 8 * m + r := by omega
    have hr8 : r < 8 := by omega
    have hblk : ((M.drop (ip + 8 * m)).take r).length = r := by rw [List.length_take, List.length_drop]; omega
    have hfill := fillM f ip op m unp' M ((M.drop (ip + 8 * m)).take r) hl
      (fun t ht => rdM M ip (8 * m) r t (by omega) (by omega)) r (by omega) (by omega)
    have hloop : forN n (bodyM f ip op) (unp, mem) =
        .ok (unp'.take (8 - r) ++ ((M.drop (ip + 8 * m)).take r).reverse, M) := by
      rw [hlen, forN_add, e, bind_ok, hfill,
        List.take_of_length_le (l := (M.drop (ip + 8 * m)).take r) (Nat.le_of_eq hblk)]
    rw [hloop, bind_ok, if_pos (by omega)]
    dsimp only
    have hpad : Blowfish.pad ((M.drop (ip + 8 * m)).take r)
        = (M.drop (ip + 8 * m)).take r ++ List.replicate (8 - r) 0#8 := by
      rw [Blowfish.pad, hblk, Blowfish.blocks, show 8 * ((r + 7) / 8) - r = 8 - r by omega]
    have hw : wrs (unp'.take (8 - r) ++ ((M.drop (ip + 8 * m)).take r).reverse) 0
        (List.replicate (8 - r) 0#8) = .ok (Blowfish.pad ((M.drop (ip + 8 * m)).take r)).reverse := by
      rw [wrs_ok (by rw [List.length_append, List.length_replicate, List.length_take]; omega), splice, hpad,
        List.reverse_append, List.reverse_replicate, List.take_zero, List.nil_append, List.length_replicate,
        Nat.zero_add, List.drop_left' (by rw [List.length_take]; omega)]
    have hp8 : (Blowfish.pad ((M.drop (ip + 8 * m)).take r)).length = 8 := by
      rw [hpad, List.length_append, hblk, List.length_replicate]; omega
    rw [hw, bind_ok, onBytes_eq f g hf _ hp8, bind_ok, show n + (8 - r) - 8 = 8 * m by omega,
      copyOutMem_eq _ _ _ _ (onBlock_length _ _) (by omega), bind_ok, Blowfish.moveBlock, show min 8 (n - 8 * m) = r by omega,
      show n + (8 - r) = 8 * (m + 1) by omega]

/-- `out` is the first `m` blocks, the output `d` blocks behind the input. -/
theorem shifted (g : W32 × W32 → W32 × W32) (mem : List Byte) (ip k d : Nat) (hd : 0 < d)
    (ho : ip + 8 * d + 8 * k ≤ mem.length) : ∀ m, m ≤ k → ∃ out : List Byte,
    Blowfish.moveBlocks g ip (8 * k) (ip + 8 * d) mem m
      = mem.take (ip + 8 * d) ++ out ++ mem.drop (ip + 8 * d + 8 * m) ∧ out.length = 8 * m ∧
    ∀ j, j < m → (out.drop (8 * j)).take 8
      = Blowfish.onBlock g (if j < d then (mem.drop (ip + 8 * j)).take 8 else (out.drop (8 * (j - d))).take 8) := by
  intro m
  induction m with
  | zero => intro _; exact ⟨[], by simp [Blowfish.moveBlocks], rfl, fun j hj => absurd hj (Nat.not_lt_zero _)⟩
  | succ m ih =>
    intro hm
    obtain ⟨out, e, hl, hj⟩ := ih (by omega)
    have hA : (mem.take (ip + 8 * d)).length = ip + 8 * d := by rw [List.length_take]; omega
    have hAo : (mem.take (ip + 8 * d) ++ out).length = ip + 8 * d + 8 * m := by rw [List.length_append, hA, hl]
    have hblk : (((mem.take (ip + 8 * d) ++ out ++ mem.drop (ip + 8 * d + 8 * m)).drop (ip + 8 * m)).take 8)
        = if m < d then (mem.drop (ip + 8 * m)).take 8 else (out.drop (8 * (m - d))).take 8 := by
      by_cases h : m < d
      · rw [if_pos h, List.append_assoc, List.drop_append_of_le_length (by omega), List.take_append_of_le_length
          (by rw [List.length_drop]; omega), List.drop_take, List.take_take, show min 8 (ip + 8 * d - (ip + 8 * m)) = 8 by omega]
      · rw [if_neg h, List.drop_append_of_le_length (by omega), List.take_append_of_le_length
          (by rw [List.length_drop]; omega), List.drop_append, List.drop_of_length_le (by omega), List.nil_append, hA,
          show ip + 8 * m - (ip + 8 * d) = 8 * (m - d) by omega]
    have hb8 : (((mem.take (ip + 8 * d) ++ out ++ mem.drop (ip + 8 * d + 8 * m)).drop (ip + 8 * m)).take 8).length = 8 := by
      rw [List.length_take, List.length_drop, List.length_append, hAo, List.length_drop]; omega
    have htail : (mem.take (ip + 8 * d) ++ out ++ mem.drop (ip + 8 * d + 8 * m)).drop (ip + 8 * d + 8 * m + 8)
        = mem.drop (ip + 8 * d + 8 * m + 8) := by
      rw [← List.drop_drop, List.drop_left' hAo, List.drop_drop]
    refine ⟨out ++ Blowfish.onBlock g (if m < d then (mem.drop (ip + 8 * m)).take 8 else (out.drop (8 * (m - d))).take 8),
      ?_, ?_, ?_⟩
    · rw [seq_succ, e, Blowfish.moveBlock, show min 8 (8 * k - 8 * m) = 8 by omega, pad_of_blocks _ (by rw [hb8]), hblk,
        splice, onBlock_length, List.take_left' hAo, htail,
        List.append_assoc (mem.take (ip + 8 * d)), show ip + 8 * d + 8 * m + 8 = ip + 8 * d + 8 * (m + 1) by omega]
    · rw [List.length_append, hl, onBlock_length]; omega
    · intro j hjm
      rcases Nat.lt_or_ge j m with h | h
      · rw [List.drop_append_of_le_length (by omega), List.take_append_of_le_length (by rw [List.length_drop]; omega), hj j h,
          List.drop_append_of_le_length (by omega), List.take_append_of_le_length (l₁ := out.drop (8 * (j - d)))
          (by rw [List.length_drop]; omega)]
      · have : j = m := by omega
        subst this
        rw [List.drop_left' hl, List.take_of_length_le (Nat.le_of_eq (onBlock_length _ _))]
        by_cases hjd : j < d
        · rw [if_pos hjd, if_pos hjd]
        · rw [if_neg hjd, if_neg hjd, List.drop_append_of_le_length (by omega), List.take_append_of_le_length (l₁ := out.drop (8 * (j - d)))
            (by rw [List.length_drop]; omega)]

end Pgfe.Proofs.Overlap
