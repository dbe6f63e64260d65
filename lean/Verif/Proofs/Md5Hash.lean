import Verif.Proofs.Md5
/-!
# MD5 as a correct hash implementation
-/
namespace Pgfe.Proofs.Md5
open Pgfe.Model Pgfe.Proofs.Hash Pgfe.Proofs.Sha
open Pgfe.Spec.Md5 (bytesLE natLE V4 X step compress T fn)
open Pgfe.Spec.Sha (blocks padZeros)

theorem bytesLE_add (a b x : Nat) : bytesLE (a + b) x = bytesLE a x ++ bytesLE b (x / 256 ^ a) := by
  rw [bytesLE, List.range_add, List.map_append, List.map_map]
  congr 1
  apply List.map_congr_left
  intro i _
  simp only [Function.comp_def]
  rw [Nat.pow_add, Nat.div_div_eq_div_mul]

theorem bytesLE_mod (n x : Nat) : bytesLE n (x % 256 ^ n) = bytesLE n x := by
  apply List.map_congr_left
  intro i hi
  have hi := List.mem_range.1 hi
  apply BitVec.eq_of_toNat_eq
  simp only [BitVec.toNat_ofNat]
  obtain ⟨k, rfl⟩ : ∃ k, n = i + (1 + k) := ⟨n - i - 1, by omega⟩
  rw [Nat.pow_add, Nat.mod_mul_right_div_self, Nat.pow_add]
  exact Nat.mod_mul_right_mod ..

theorem count_ok (l : W64) :
    [(l <<< 3).setWidth 32, (l >>> 29).setWidth 32].flatMap (fun (w : W32) => bytesLE 4 w.toNat)
      = bytesLE 8 (8 * l.toNat % 2 ^ 64) := by
  have e1 : ((l <<< 3).setWidth 32).toNat = (8 * l.toNat % 2 ^ 64) % 256 ^ 4 := by
    rw [BitVec.toNat_setWidth, BitVec.toNat_shiftLeft, Nat.shiftLeft_eq, Nat.mul_comm]
  have e2 : ((l >>> 29).setWidth 32).toNat = (8 * l.toNat % 2 ^ 64) / 256 ^ 4 := by
    rw [BitVec.toNat_setWidth, BitVec.toNat_ushiftRight, Nat.shiftRight_eq_div_pow]
    have := l.isLt
    omega
  rw [List.flatMap_cons, List.flatMap_cons, List.flatMap_nil, List.append_nil, e1, e2,
    bytesLE_mod, show (8 : Nat) = 4 + 4 from rfl, bytesLE_add]

theorem tail_tail (m x : List Byte) : tail 64 (m ++ x) = tail 64 (tail 64 m ++ x) := by
  obtain ⟨p, hp, h0⟩ := split_tail 64 m
  conv => lhs; rw [hp, List.append_assoc]
  exact tail_append 64 (by decide) _ _ h0

/-- The bytes that `pgfe_md5_digest` appends. -/
def padBytes (i : Nat) : List Byte := 0x80#8 :: List.replicate ((if i < 56 then 56 - i else 120 - i) - 1) 0#8

theorem padding_take (n : Nat) (h0 : 0 < n) (h : n ≤ 64) :
    md5Padding.take n = 0x80#8 :: List.replicate (n - 1) 0#8 := by
  have e : md5Padding = 0x80#8 :: List.replicate 63 0#8 := rfl
  obtain ⟨k, rfl⟩ : ∃ k, n = k + 1 := ⟨n - 1, by omega⟩
  rw [e, List.take_succ_cons, List.take_replicate, Nat.min_eq_left (by omega), Nat.add_sub_cancel]

/-- The state after digest. -/
def final (s : List W32) (l : W64) (t : List Byte) : List W32 :=
  (blocks 64 (t ++ (padBytes (l.toNat % 64) ++ bytesLE 8 (8 * l.toNat % 2 ^ 64)))).foldl comp s

theorem fold_len (bs : List (List Byte)) (s : List W32) (h : s.length = 4) : (bs.foldl comp s).length = 4 := by
  induction bs generalizing s with
  | nil => exact h
  | cons b bs ih => exact ih _ rfl

theorem digest_ok {c s l t} (h : Abs c s l t) (out : List Byte) (ho : 16 ≤ out.length) :
    ∃ c', md5Digest c out = .ok (c', (final s l t).flatMap (fun w => bytesLE 4 w.toNat) ++ out.drop 16) ∧
      Abs c' (final s l t)
        (l + BitVec.ofNat 64 (padBytes (l.toNat % 64)).length + BitVec.ofNat 64 8)
        (tail 64 (t ++ (padBytes (l.toNat % 64) ++ bytesLE 8 (8 * l.toNat % 2 ^ 64)))) := by
  have hi : (c.blockLen &&& 0x3F#64).toNat = l.toNat % 64 := by
    rw [h.hl, BitVec.toNat_and]; exact Nat.and_two_pow_sub_one_eq_mod _ 6
  rw [md5Digest]
  dsimp only
  have e1 := encode_ok [(c.blockLen <<< 3).setWidth 32, (c.blockLen >>> 29).setWidth 32] 2 rfl
    (List.replicate 8 0#8) (by decide)
  rw [h.hl, count_ok] at e1
  have e1 : md5Encode [(l <<< 3).setWidth 32, (l >>> 29).setWidth 32] 8 (List.replicate 8 0#8)
    = .ok (bytesLE 8 (8 * l.toNat % 2 ^ 64)) := by rw [e1]; simp
  have hbl : (bytesLE 8 (8 * l.toNat % 2 ^ 64)).length = 8 := by simp [bytesLE]
  rw [hi, h.hl, e1, bind_ok]
  have hlt : l.toNat % 64 < 64 := Nat.mod_lt _ (by decide)
  have hpl : md5Padding.length = 64 := rfl
  have hpb : md5Padding.take (if l.toNat % 64 < 56 then 56 - l.toNat % 64 else 120 - l.toNat % 64)
      = padBytes (l.toNat % 64) := by
    rw [padBytes]
    apply padding_take
    · split <;> omega
    · split <;> omega
  have hpbl : (padBytes (l.toNat % 64)).length
      = (if l.toNat % 64 < 56 then 56 - l.toNat % 64 else 120 - l.toNat % 64) := by
    rw [padBytes, List.length_cons, List.length_replicate]
    split <;> omega
  obtain ⟨c1, u1, a1⟩ := update_ok h md5Padding
    (if l.toNat % 64 < 56 then 56 - l.toNat % 64 else 120 - l.toNat % 64)
    (by rw [hpl]; split <;> omega) (by split <;> omega)
  rw [u1, bind_ok]
  rw [hpb] at a1
  obtain ⟨c2, u2, a2⟩ := update_ok a1 (bytesLE 8 (8 * l.toNat % 2 ^ 64)) 8 (by rw [hbl]; exact Nat.le_refl _) (by decide)
  rw [u2, bind_ok]
  have htk : (bytesLE 8 (8 * l.toNat % 2 ^ 64)).take 8 = bytesLE 8 (8 * l.toNat % 2 ^ 64) :=
    List.take_of_length_le (by rw [hbl]; exact Nat.le_refl _)
  have ef : (blocks 64 (tail 64 (t ++ padBytes (l.toNat % 64)) ++ (bytesLE 8 (8 * l.toNat % 2 ^ 64)).take 8)).foldl comp
      ((blocks 64 (t ++ padBytes (l.toNat % 64))).foldl comp s) = final s l t := by
    rw [htk, final, ← List.foldl_append, ← blocks_tail 64 (by decide), List.append_assoc]
  rw [ef, htk, ← tail_tail, List.append_assoc, ← hpbl] at a2
  have e3 := encode_ok (final s l t) 4 (fold_len _ _ h.hs4) out ho
  rw [a2.hs, e3, bind_ok]
  exact ⟨c2, rfl, a2⟩

def Inv (m : List Byte) (c : Md5Ctx) : Prop :=
  Abs c ((blocks 64 m).foldl comp md5H0) (BitVec.ofNat 64 m.length) (tail 64 m)

def WF (c : Md5Ctx) : Prop := c.state.length = 4 ∧ c.block.length = 64

theorem Abs.wf {c s l t} (h : Abs c s l t) : WF c := ⟨by rw [h.hs]; exact h.hs4, h.hb⟩
theorem WF.abs {c} (h : WF c) : Abs c c.state c.blockLen (c.block.take (c.blockLen.toNat % 64)) :=
  ⟨rfl, rfl, h.2, rfl, h.1⟩

theorem toV4_words4 (v : V4) : toV4 (words4 v) = v := rfl

theorem fold_comp (l : List (List Byte)) (v : V4) :
    l.foldl comp (words4 v) = words4 (l.foldl compress v) := by
  induction l generalizing v with
  | nil => rfl
  | cons b l ih => rw [List.foldl_cons, List.foldl_cons, comp, toV4_words4, ih]

theorem bytes4 (v : V4) : (words4 v).flatMap (fun w => bytesLE 4 w.toNat) = v.bytes := by
  simp [words4, V4.bytes]

theorem H0_eq : md5H0 = words4 Pgfe.Spec.Md5.H0 := by decide

theorem final_eq (m : List Byte) :
    (final ((blocks 64 m).foldl comp md5H0) (BitVec.ofNat 64 m.length) (tail 64 m)).flatMap
      (fun w => bytesLE 4 w.toNat) = Pgfe.Spec.Md5.md5 m := by
  rw [final, ← List.foldl_append, ← blocks_tail 64 (by decide), H0_eq, fold_comp, bytes4, Pgfe.Spec.Md5.md5]
  have e : m ++ (padBytes ((BitVec.ofNat 64 m.length).toNat % 64) ++
      bytesLE 8 (8 * (BitVec.ofNat 64 m.length).toNat % 2 ^ 64)) = Pgfe.Spec.Md5.pad m := by
    have h1 : (BitVec.ofNat 64 m.length).toNat % 64 = m.length % 64 := by
      rw [BitVec.toNat_ofNat]; omega
    have h2 : 8 * (BitVec.ofNat 64 m.length).toNat % 2 ^ 64 = 8 * m.length % 2 ^ 64 := by
      rw [BitVec.toNat_ofNat]; omega
    rw [h1, h2, Pgfe.Spec.Md5.pad, padBytes]
    have h3 : padZeros 64 8 m.length = (if m.length % 64 < 56 then 56 - m.length % 64 else 120 - m.length % 64) - 1 := by
      rw [padZeros]; split <;> omega
    rw [h3]
    simp
  rw [e]

theorem md5_length (m : List Byte) : (Pgfe.Spec.Md5.md5 m).length = 16 := by
  simp [Pgfe.Spec.Md5.md5, V4.bytes, bytesLE]

/-- The library's MD5 implements RFC 1321. -/
def hashOK : HashOK md5Impl Pgfe.Spec.Md5.md5 where
  WF := WF
  Inv := Inv
  Safe := fun _ c => WF c
  ds := 16
  okUpd := fun n => 0 < n
  okTot := fun _ => True
  tot_mono := fun _ _ _ _ => trivial
  tot_zero := trivial
  wf := fun _ _ h => h
  safe := fun _ _ h => h.wf
  init_ok := by
    intro g hg
    refine ⟨⟨md5H0, 0#64, g.block⟩, ?_, rfl, rfl, hg.2, ?_, rfl⟩
    · show md5Init g = _
      rw [md5Init]
      dsimp only
      have hl : md5H0.length = 4 := rfl
      rw [wrs_ok (by rw [hg.1, hl]; decide), bind_ok, splice]
      have : g.state.drop (0 + md5H0.length) = [] := List.drop_of_length_le (by rw [hg.1, hl]; decide)
      rw [this]
      simp
    · simp [tail]
  update_ok := by
    intro m c inp n h hu hn _
    obtain ⟨c', h1, h2⟩ := update_ok h inp n hn hu
    refine ⟨c', h1, ?_⟩
    have hl : (inp.take n).length = n := by rw [List.length_take]; omega
    rw [Inv, blocks_tail 64 (by decide), List.foldl_append, tail_tail, List.length_append, hl, ofNat_add']
    exact h2
  digest_ok := by
    intro m c out h _ ho
    obtain ⟨c', h1, h2⟩ := digest_ok h out ho
    rw [final_eq] at h1
    exact ⟨c', h1, h2.wf⟩
  safe_update := by
    intro k c inp n h hu hn _
    obtain ⟨c', h1, h2⟩ := update_ok (WF.abs h) inp n hn hu
    exact ⟨c', h1, h2.wf⟩
  safe_digest := by
    intro k c out h _ ho
    obtain ⟨c', h1, h2⟩ := digest_ok (WF.abs h) out ho
    exact ⟨c', _, h1, by rw [flat_len]; rw [h2.hs4], h2.wf⟩
  len := md5_length
  Rel := fun c₁ c₂ => ∃ s l t, Abs c₁ s l t ∧ Abs c₂ s l t
  rel_init := by
    intro g₁ g₂ c₁ c₂ h₁ h₂ e₁ e₂
    have key : ∀ g, WF g → md5Init g = .ok ⟨md5H0, 0#64, g.block⟩ := by
      intro g hg
      rw [md5Init]
      dsimp only
      have hl : md5H0.length = 4 := rfl
      rw [wrs_ok (by rw [hg.1, hl]; decide), bind_ok, splice]
      have : g.state.drop (0 + md5H0.length) = [] := List.drop_of_length_le (by rw [hg.1, hl]; decide)
      rw [this]
      simp
    have e₁ : md5Init g₁ = .ok c₁ := e₁
    have e₂ : md5Init g₂ = .ok c₂ := e₂
    rw [key g₁ h₁] at e₁
    rw [key g₂ h₂] at e₂
    cases e₁; cases e₂
    exact ⟨md5H0, 0#64, [], ⟨rfl, rfl, h₁.2, rfl, rfl⟩, ⟨rfl, rfl, h₂.2, rfl, rfl⟩⟩
  rel_update := by
    intro k c₁ c₂ inp n c₁' c₂' _ _ h hu hn _ e₁ e₂
    obtain ⟨s, l, t, a, b⟩ := h
    obtain ⟨d₁, x1, y1⟩ := update_ok a inp n hn hu
    obtain ⟨d₂, x2, y2⟩ := update_ok b inp n hn hu
    have e₁ : md5Update c₁ (some inp) n = .ok c₁' := e₁
    have e₂ : md5Update c₂ (some inp) n = .ok c₂' := e₂
    rw [x1] at e₁
    rw [x2] at e₂
    cases e₁; cases e₂
    exact ⟨_, _, _, y1, y2⟩
  rel_digest := by
    intro k c₁ c₂ out c₁' c₂' o₁ o₂ _ _ h _ ho e₁ e₂
    obtain ⟨s, l, t, a, b⟩ := h
    obtain ⟨d₁, x1, y1⟩ := digest_ok a out ho
    obtain ⟨d₂, x2, y2⟩ := digest_ok b out ho
    have e₁ : md5Digest c₁ out = .ok (c₁', o₁) := e₁
    have e₂ : md5Digest c₂ out = .ok (c₂', o₂) := e₂
    rw [x1] at e₁
    rw [x2] at e₂
    cases e₁; cases e₂
    exact ⟨rfl, _, _, _, y1, y2⟩

end Pgfe.Proofs.Md5
