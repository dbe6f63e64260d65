import Verif.Proofs.TextMask
import Verif.Proofs.BaseEncode
/-!
# What the encoders' decisions reveal of a partial group
-/
namespace Pgfe.Proofs.TextTrace
open Pgfe Pgfe.Model Pgfe.Spec Pgfe.Proofs.Trace Pgfe.Spec.TextClass

/-- The trace of the padding loop, without the letters, tells the number of zero letters it replaces, and only that. -/
theorem padLoop_mask (al : List Byte) (n : Nat) (z p : Byte) (hz : rd al 0 = .ok z) (hp : rd al n = .ok p) (l : List Byte) :
    ∀ l' : List Byte, l.length = l'.length →
    ((Tr.Text.padLoop al n l).tr.map anyLetter = (Tr.Text.padLoop al n l').tr.map anyLetter ↔
      (l.takeWhile (· == z)).length = (l'.takeWhile (· == z)).length) := by
  have key : ∀ c r, (Tr.Text.padLoop al n (c :: r)).tr.map anyLetter =
      [.br true, .rd .ws r.length 1, .rd .K 0 1, .br (decide (c ≠ z))] ++
        (if c = z then [.rd .K 0 1, .wr .ws r.length 1] ++ (Tr.Text.padLoop al n r).tr.map anyLetter else []) := by
    intro c r
    have hr := padLoop_res al n z p hz hp r
    have hzt : (T.rd .K al 0).res = .ok z := hz
    have hpt : (T.rd .K al n).res = .ok p := hp
    rw [Tr.Text.padLoop, br_bind, pre_tr, ok_bindT (m := ⟨.ok c, _⟩) rfl, pre_tr, ok_bindT hzt, pre_tr, br_bind, pre_tr]
    by_cases h : c = z
    · simp only [h, ne_eq, not_true_eq_false, decide_false, Bool.false_eq_true, if_false, if_true]
      rw [ok_bindT hpt, pre_tr, ok_bindT (m := ⟨.ok p, _⟩) rfl, pre_tr, ok_bindT hr, pre_tr]
      have hq : ∀ v : List Byte, (pure v : T (List Byte)).tr = [] := fun _ => rfl
      rw [hq, List.append_nil]
      simp only [T.rd, List.map_append, List.append_assoc]
      rfl
    · simp only [h, ne_eq, not_false_eq_true, decide_true, if_false, if_true]
      rfl
  induction l with
  | nil =>
    intro l' hl
    cases l' with
    | nil => exact ⟨fun _ => rfl, fun _ => rfl⟩
    | cons _ _ => exact absurd hl (by simp)
  | cons c r ih =>
    intro l' hl
    cases l' with
    | nil => exact absurd hl (by simp)
    | cons c' r' =>
      have hl' : r.length = r'.length := by simpa using hl
      rw [key, key, hl']
      by_cases h : c = z <;> by_cases h' : c' = z
      · simp only [h, h', if_true, List.append_cancel_left_eq, ih r' hl', List.takeWhile_cons, beq_self_eq_true, List.length_cons,
          Nat.add_right_cancel_iff]
      · simp [h, h']
      · simp [h, h']
      · simp [h, h']

theorem count_padLoop (z p : Byte) (l : List Byte) (h : p ∉ l) : (padLoop z p l).count p = (l.takeWhile (· == z)).length := by
  rw [padLoop_eq, List.count_append, List.count_replicate_self,
    List.count_eq_zero.mpr (fun hm => h ((List.dropWhile_sublist _).subset hm)), Nat.add_zero]

theorem letter_ne_pad (a : BaseAlg) (d : Nat) (hd : d < 2 ^ (specOf a).bits) : (specOf a).alphabet.getD d 0#8 ≠ padChar := by
  cases a
  · exact (by decide +kernel : ∀ d : Fin 16, rfcBase16.alphabet.getD d.1 0#8 ≠ padChar) ⟨d, hd⟩
  · exact (by decide +kernel : ∀ d : Fin 32, rfcBase32.alphabet.getD d.1 0#8 ≠ padChar) ⟨d, hd⟩
  · exact (by decide +kernel : ∀ d : Fin 32, rfcBase32Hex.alphabet.getD d.1 0#8 ≠ padChar) ⟨d, hd⟩
  · exact (by decide +kernel : ∀ d : Fin 64, rfcBase64.alphabet.getD d.1 0#8 ≠ padChar) ⟨d, hd⟩
  · exact (by decide +kernel : ∀ d : Fin 64, rfcBase64Url.alphabet.getD d.1 0#8 ≠ padChar) ⟨d, hd⟩

theorem letters_no_pad (a : BaseAlg) (x : List Byte) :
    padChar ∉ ((specOf a).digits x).map (fun d => (specOf a).alphabet.getD d 0#8) := by
  intro h
  obtain ⟨d, hd, e⟩ := List.mem_map.mp h
  exact letter_ne_pad a d (digits_lt_pow x d hd) e

theorem encode_no_pad (a : BaseAlg) (w : List Byte) (hw : w.length % (specOf a).unit = 0) :
    ((specOf a).encode w).count padChar = 0 := by
  have hB := good a
  obtain ⟨q, hq⟩ := Nat.dvd_of_mod_eq_zero hw
  have hl : ((specOf a).digits w).length = (specOf a).chars * q := by
    rw [digits_length, hq, ← Nat.mul_assoc, ← hB.eq, Nat.mul_right_comm, Nat.add_sub_assoc hB.bits_pos, Nat.add_comm,
      Nat.add_mul_div_right _ _ hB.bits_pos, Nat.div_eq_of_lt (by have := hB.bits_pos; omega), Nat.zero_add]
  unfold BaseSpec.encode
  rw [hl, Nat.mul_mod_right, Nat.sub_zero, Nat.mod_self, List.replicate_zero, List.append_nil]
  exact List.count_eq_zero.mpr (letters_no_pad a w)

/-- The last, partial, group. -/
theorem unittostr_pad (a : BaseAlg) (ha : a ≠ .base16) (S S' : Slack) (hR : Roomy S) (hR' : Roomy S')
    (hS1 : L S.behindUnit S'.behindUnit) (hS2 : L S.behindSplit S'.behindSplit)
    {g g' u u' : List Byte} (hg : L g g') (hgl : a.params.chunkCount ≤ g.length)
    (hu : u.length = a.params.unitSize) (hu' : u'.length = a.params.unitSize) (sp : Nat) (out out' o o' : List Byte)
    (h : (Tr.Text.unittostr S a.params g a.alphabet u true out sp).res = .ok o)
    (h' : (Tr.Text.unittostr S' a.params g' a.alphabet u' true out' sp).res = .ok o') :
    ∃ w w' : List Byte, w.length = a.params.chunkCount ∧ w'.length = a.params.chunkCount ∧
      wrs out sp w = .ok o ∧ wrs out' sp w' = .ok o' ∧
      ((Tr.Text.unittostr S a.params g a.alphabet u true out sp).tr.map anyLetter =
        (Tr.Text.unittostr S' a.params g' a.alphabet u' true out' sp).tr.map anyLetter ↔
          w.count padChar = w'.count padChar) := by
  have hgl' : a.params.chunkCount ≤ g'.length := hg ▸ hgl
  have hz : rd a.alphabet 0 = .ok (specOf a).zeroChar := by cases a <;> decide +kernel
  have hpad : rd a.alphabet a.params.alphabetSize = .ok padChar := by
    cases a <;> first | exact absurd rfl ha | decide +kernel
  have dl : ∀ u : List Byte, u.length = a.params.unitSize → ((specOf a).digits u).length = a.params.chunkCount := by
    intro u hu
    rw [digits_unit_length (good a) u (by rw [hu, (params_eq a).2.1]), (params_eq a).1]
  rw [unittostr_split] at h h' ⊢
  rw [unittostr_split]
  have hsame := transform_same (x := u ++ S.behindUnit) (x' := u' ++ S'.behindUnit)
    (by unfold L at *; rw [List.length_append, List.length_append, hu, hu', hS1]) a.params.unitSize a.params.bitSize
    (3 * (a.params.unitSize + 2)) 0 (a.params.bitSize % 8) 0 0 (o := g.take a.params.chunkCount ++ S.behindSplit)
    (o' := g'.take a.params.chunkCount ++ S'.behindSplit)
    (by unfold L at *; rw [List.length_append, List.length_append, List.length_take, List.length_take, hg, hS2])
  obtain ⟨r, hr, h⟩ := bind_okE h
  obtain ⟨r', hr', h'⟩ := bind_okE h'
  obtain ⟨v, hv, h⟩ := bind_okE h
  obtain ⟨v', hv', h'⟩ := bind_okE h'
  -- the letters
  have letters : ∀ (S : Slack) (g u : List Byte) (r : Nat × List Byte) (v : List Byte), Roomy S → a.params.chunkCount ≤ g.length →
      u.length = a.params.unitSize →
      (Tr.Text.transform (u ++ S.behindUnit) a.params.unitSize a.params.bitSize
        (g.take a.params.chunkCount ++ S.behindSplit)).res = .ok r →
      (Tr.Text.lookups a.alphabet (r.2.take a.params.chunkCount) 0).res = .ok v →
      padChar ∉ v ∧ v.length = a.params.chunkCount := by
    intro S g u r v hR hgl hu hr hv
    obtain ⟨n, split, ht, hs⟩ := transform_ok a u (g.take a.params.chunkCount) S.behindUnit S.behindSplit hu
      (by rw [List.length_take]; omega) hR.1 hR.2
    rw [transform_res, ht] at hr
    cases hr
    rw [lookups_res, hs, mapM_map, mapM_ok _ _ _ (fun d hd => Proofs.alphabet_rd a d (digits_lt_pow u d hd))] at hv
    cases hv
    exact ⟨letters_no_pad a u, by rw [List.length_map, dl u hu]⟩
  obtain ⟨np, vl⟩ := letters S g u r v hR hgl hu hr hv
  obtain ⟨np', vl'⟩ := letters S' g' u' r' v' hR' hgl' hu' hr' hv'
  have hl : L r.2 r'.2 := by
    have := hsame.res
    change Out _ (Tr.Text.transform _ _ _ _).res (Tr.Text.transform _ _ _ _).res at this
    rw [hr, hr'] at this
    exact this
  have hl' : (r.2.take a.params.chunkCount).length = (r'.2.take a.params.chunkCount).length := by
    rw [List.length_take, List.length_take, show r.2.length = r'.2.length from hl]
  rw [ok_bindT hr, ok_bindT hr', ok_bindT hv, ok_bindT hv', pre_tr, pre_tr, pre_tr, pre_tr,
    show (Tr.Text.transform _ _ _ _).tr = (Tr.Text.transform _ _ _ _).tr from hsame.tr, List.map_append, List.map_append,
    List.map_append, List.map_append, lookups_mask a.alphabet _ _ 0 v v' hl' hv hv', List.append_cancel_left_eq,
    List.append_cancel_left_eq]
  -- the padding
  have fin : ∀ (v out o : List Byte), v.length = a.params.chunkCount → (finish a true out sp v).res = .ok o →
      wrs out sp (padLoop (specOf a).zeroChar padChar v.reverse).reverse = .ok o ∧
      (finish a true out sp v).tr.map anyLetter = [.br true] ++
        (Tr.Text.padLoop a.alphabet a.params.alphabetSize v.reverse).tr.map anyLetter ++
        [.rd .ws 0 a.params.chunkCount, .wr .output sp a.params.chunkCount] := by
    intro v out o vl h
    have hpl := padLoop_res a.alphabet a.params.alphabetSize _ _ hz hpad v.reverse
    constructor
    · unfold finish at h
      simp only [res_bind, res_br, bind_ok, if_true, hpl, res_pure, res_wrs] at h
      exact h
    · unfold finish
      rw [br_bind]
      simp only [if_true]
      rw [bind_assocT, ok_bindT hpl, pure_bindT]
      have hlen : (padLoop (specOf a).zeroChar padChar v.reverse).reverse.length = a.params.chunkCount := by
        rw [List.length_reverse, padLoop_length, List.length_reverse, vl]
      generalize (padLoop (specOf a).zeroChar padChar v.reverse).reverse = w at hlen
      rw [← hlen, pre_tr, pre_tr, List.map_append, List.map_append, List.append_assoc]
      rfl
  obtain ⟨f1, f2⟩ := fin v out o vl h
  obtain ⟨f1', f2'⟩ := fin v' out' o' vl' h'
  refine ⟨_, _, ?_, ?_, f1, f1', ?_⟩
  · rw [List.length_reverse, padLoop_length, List.length_reverse, vl]
  · rw [List.length_reverse, padLoop_length, List.length_reverse, vl']
  · rw [f2, f2', List.append_cancel_right_eq, List.append_cancel_left_eq,
      padLoop_mask _ _ _ _ hz hpad _ _ (by rw [List.length_reverse, List.length_reverse, vl, vl']), List.count_reverse, List.count_reverse,
      count_padLoop _ _ _ (by rw [List.mem_reverse]; exact np), count_padLoop _ _ _ (by rw [List.mem_reverse]; exact np')]

/-- The text `libEncode` writes has as many `=` as its last, partial, group. -/
theorem count_libEncode (a : BaseAlg) (x : List Byte) (s w : List Byte) (hx : x.length % (specOf a).unit ≠ 0)
    (hw : w.length = (specOf a).chars) (h : (specOf a).libEncode x = s ++ w) :
    ((specOf a).libEncode x).count padChar = w.count padChar := by
  have hB := good a
  have hd := Nat.div_add_mod x.length (specOf a).unit
  have hm := Nat.mod_lt x.length hB.unit_pos
  rw [Nat.mul_comm] at hd
  unfold BaseSpec.libEncode at h ⊢
  rw [if_neg hx] at h ⊢
  obtain ⟨_, e⟩ := List.append_inj' h (by rw [hw, libLast_length hB _ (by rw [List.length_drop]; omega)])
  rw [List.count_append, e, encode_no_pad a _ (by
    rw [List.length_take, Nat.min_eq_left (by omega), Nat.mul_mod_left]), Nat.zero_add]

theorem count_libEncode_zero (a : BaseAlg) (x : List Byte) (hx : x.length % (specOf a).unit = 0) :
    ((specOf a).libEncode x).count padChar = 0 := by
  have hd := Nat.div_add_mod x.length (specOf a).unit
  rw [Nat.mul_comm] at hd
  unfold BaseSpec.libEncode
  rw [if_pos hx, List.append_nil, encode_no_pad a _ (by
    rw [List.length_take, Nat.min_eq_left (by omega), Nat.mul_mod_left])]

theorem encode_pad (a : BaseAlg) (S S' : Slack) (hR : Roomy S) (hR' : Roomy S')
    (hS1 : L S.behindUnit S'.behindUnit) (hS2 : L S.behindSplit S'.behindSplit)
    {g g' : List Byte} (hg : L g g') (hgl : a.params.chunkCount ≤ g.length) (y y' x x' : List Byte) (hx : x.length = x'.length)
    (out out' : List Byte) (m m' : Nat) (o o' : List Byte)
    (h : (Tr.Text.encode a S g y x.length out).res = .ok (m, o)) (h' : (Tr.Text.encode a S' g' y' x.length out').res = .ok (m', o'))
    (e : o.take m = (specOf a).libEncode x) (e' : o'.take m' = (specOf a).libEncode x') :
    (Tr.Text.encode a S g y x.length out).tr.map anyLetter = (Tr.Text.encode a S' g' y' x.length out').tr.map anyLetter ↔
      (o.take m).count padChar = (o'.take m').count padChar := by
  have ht : ∀ {b c : List Byte} {i : Nat} {v : Byte}, wr b i v = .ok c → c.take i = b.take i := by
    intro b c i v h
    unfold wr at h
    split at h
    · cases h; rw [List.take_set_of_le (Nat.le_refl _)]
    · cases h
  obtain ⟨p1, p2, p3⟩ := params_eq a
  have hpos := (good a).unit_pos
  by_cases hm : x.length % (specOf a).unit = 0
  · rw [e, e', count_libEncode_zero a x hm, count_libEncode_zero a x' (hx ▸ hm)]
    exact iff_of_true (encode_mask a S S' hS1 hS2 hg _ _ _ (by rw [p2]; exact hm) _ _ _ _ h h') rfl
  have hd := Nat.div_add_mod x.length (specOf a).unit
  have hml := Nat.mod_lt x.length hpos
  have ha : a ≠ .base16 := by
    rintro rfl
    exact hm (by rw [show (specOf .base16).unit = 1 by decide, Nat.mod_one])
  rw [Nat.mul_comm] at hd
  have hk : (x.length + a.params.unitSize - 1) / a.params.unitSize = x.length / (specOf a).unit + 1 := by
    rw [p2]
    conv => lhs; rw [← hd]
    rw [show x.length / (specOf a).unit * (specOf a).unit + x.length % (specOf a).unit + (specOf a).unit - 1 =
      (x.length % (specOf a).unit - 1) + (x.length / (specOf a).unit + 1) * (specOf a).unit by
        rw [Nat.succ_mul]; omega, Nat.add_mul_div_right _ _ hpos, Nat.div_eq_of_lt (by omega), Nat.zero_add]
  rw [encode_split] at h h' ⊢
  rw [encode_split]
  unfold T.forN at h h' ⊢
  rw [hk] at h h' ⊢
  rw [bind_assocT] at h h' ⊢
  rw [bind_assocT]
  obtain ⟨s, hs, h⟩ := bind_okE h
  obtain ⟨s', hs', h'⟩ := bind_okE h'
  rw [ok_bindT hs, ok_bindT hs', pre_tr, pre_tr]
  rw [T.iter] at hs hs' ⊢
  rw [T.iter]
  obtain ⟨r, hr, hs⟩ := bind_okE hs
  obtain ⟨r', hr', hs'⟩ := bind_okE hs'
  obtain ⟨i1, i2⟩ := eiter_mask a S S' hS1 hS2 hg y y' x.length out out' _ r r' (by rw [p2]; omega) hr hr'
  rw [ok_bindT hr, ok_bindT hr', pre_tr, pre_tr]
  rw [br_bind, pre_res] at hs hs'
  obtain ⟨u, o1, ul, uo, rfl, ue⟩ := eunit _ _ _ _ _ _ _ _ hs
  obtain ⟨u', o1', ul', uo', rfl, ue'⟩ := eunit _ _ _ _ _ _ _ _ hs'
  have hp : x.length - x.length / (specOf a).unit * a.params.unitSize < a.params.unitSize := by rw [p2]; omega
  rw [decide_eq_true hp] at uo uo' ue ue'
  rw [if_pos hp] at ue ue'
  rw [← i1] at uo' ue'
  obtain ⟨w, w', wl, wl', w1, w1', key⟩ := unittostr_pad a ha S S' hR hR' hS1 hS2 hg hgl ul ul' r.1 _ _ _ _ uo uo'
  rw [br_bind, pre_bind, pre_res, pure_bindT] at h h'
  obtain ⟨c, hc, h⟩ := bind_okE h
  obtain ⟨c', hc', h'⟩ := bind_okE h'
  cases h
  cases h'
  rw [res_wr] at hc hc'
  have t1 : o.take (r.1 + a.params.chunkCount) = r.2.take r.1 ++ w := by
    rw [ht hc]; rw [← wl]; exact wrs_take w1
  have t2 : o'.take (r'.1 + a.params.chunkCount) = r'.2.take r.1 ++ w' := by
    rw [ht hc']; rw [← wl', ← i1]; exact wrs_take w1'
  dsimp only at e e' ⊢
  rw [e, e', count_libEncode a x _ w hm (by rw [wl, p1]) (e.symm.trans t1),
    count_libEncode a x' _ w' (hx ▸ hm) (by rw [wl', p1]) (e'.symm.trans t2), ← key]
  have tail : ∀ (b c : List Byte) (i : Nat), wr b i 0#8 = .ok c →
      ((T.br false >>= fun _ => pure (i, b) : T (Nat × List Byte)) >>= fun s => T.wr .output s.2 s.1 0#8 >>= fun c => pure (s.1, c)).tr =
        [.br false, .wr .output i 1] := fun b c i h => by
    rw [br_bind, pre_bind, pre_tr, pure_bindT, ok_bindT (show (T.wr .output b i 0#8).res = .ok c from h)]
    rfl
  rw [show ((T.br false >>= fun _ => pure (r.1 + a.params.chunkCount, o1) : T (Nat × List Byte)) >>= fun s =>
      T.wr .output s.2 s.1 0#8 >>= fun c => pure (s.1, c)).tr = _ from tail _ _ _ hc,
    show ((T.br false >>= fun _ => pure (r'.1 + a.params.chunkCount, o1') : T (Nat × List Byte)) >>= fun s =>
      T.wr .output s.2 s.1 0#8 >>= fun c => pure (s.1, c)).tr = _ from tail _ _ _ hc', ← i1]
  rw [br_bind, br_bind, pre_tr, pre_tr, ue, ue']
  simp only [List.map_append, i2, List.append_cancel_left_eq, List.append_cancel_right_eq]

end Pgfe.Proofs.TextTrace
