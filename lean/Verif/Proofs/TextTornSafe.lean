import Verif.Proofs.TextTorn
/-!
# Texts that change while they are read: bounds, and overruns
-/
namespace Pgfe.Proofs.Torn
open Pgfe Pgfe.Model Pgfe.Spec.Torn

theorem wr_keep {out o : List Byte} {i : Nat} {v : Byte} (h : wr out i v = .ok o) :
    o.length = out.length ∧ ∀ k, i < k → o.drop k = out.drop k := by
  unfold wr at h
  split at h
  · cases h
    refine ⟨List.length_set, fun k hk => ?_⟩
    rw [List.drop_set_of_lt hk]
  · cases h

/-! ### Characters that become NUL do not hurt -/

theorem strlen_ends {n : Nat} {m : Model.Torn.Mem} (hm : Ends n m) (fuel : Nat) : ∀ (sp t : Nat), sp ≤ n → n + 1 ≤ fuel + sp →
    ∃ len t', Model.Torn.strlen n m fuel sp t = .ok (len, t') ∧ sp ≤ len ∧ len ≤ n ∧ (m t sp ≠ 0#8 → sp < len) := by
  induction fuel with
  | zero => intro sp t h h'; omega
  | succ f ih =>
    intro sp t hsp h
    rw [Model.Torn.strlen, peek_ok hsp, bind_ok]
    split
    · rename_i hc
      exact ⟨sp, t + 1, rfl, Nat.le_refl _, hsp, fun hh => absurd hc hh⟩
    · rename_i hc
      have hn : sp ≠ n := fun hh => hc (hh ▸ hm t)
      obtain ⟨len, t', e, h1, h2, _⟩ := ih (sp + 1) (t + 1) (by omega) (by omega)
      exact ⟨len, t', e, by omega, h2, fun _ => by omega⟩

theorem strlen_steady {n : Nat} {m : Model.Torn.Mem} (hm : Steady n m) (fuel : Nat) : ∀ (sp t : Nat), sp ≤ n → n + 1 ≤ fuel + sp →
    ∃ t', Model.Torn.strlen n m fuel sp t = .ok (n, t') := by
  induction fuel with
  | zero => intro sp t h h'; omega
  | succ f ih =>
    intro sp t hsp h
    rw [Model.Torn.strlen, peek_ok hsp, bind_ok]
    split
    · rename_i hc
      by_cases hn : sp = n
      · exact ⟨t + 1, by rw [hn]⟩
      · exact absurd hc (hm.2 t sp (by omega))
    · rename_i hc
      have hn : sp ≠ n := fun hh => hc (hh ▸ hm.1 t)
      exact ih (sp + 1) (t + 1) (by omega) (by omega)

theorem hexLoop_ends {n : Nat} {m : Model.Torn.Mem} (hm : Ends n m) (fuel : Nat) :
    ∀ (sp : Nat) (odd : Bool) (hexu : Byte) (op : Nat) (out : List Byte) (t : Nat), sp ≤ n → n + 1 ≤ fuel + sp →
    op + (n - sp + odd.toNat) / 2 ≤ out.length →
    ∃ op' out' t', Model.Torn.hexLoop n m fuel sp odd hexu op out t = .ok (op', out', t') ∧
      op' ≤ op + (n - sp + odd.toNat) / 2 ∧ out'.length = out.length ∧ op ≤ op' ∧ out'.drop op' = out.drop op' := by
  induction fuel with
  | zero => intro sp odd hexu op out t h h'; omega
  | succ f ih =>
    intro sp odd hexu op out t hsp h ho
    rw [Model.Torn.hexLoop, peek_ok hsp, bind_ok, peek_ok hsp, bind_ok]
    split
    · exact ⟨op, out, t + 1, rfl, by omega, rfl, Nat.le_refl _, rfl⟩
    · rename_i hc
      have hn : sp ≠ n := fun hh => hc (hh ▸ hm t)
      dsimp only
      split
      · obtain ⟨op', out', t', e, h1, h2, h3, h4⟩ := ih (sp + 1) odd hexu op out (t + 2) (by omega) (by omega) (by omega)
        exact ⟨op', out', t', e, by omega, h2, h3, h4⟩
      · cases odd with
        | true =>
          rw [if_pos rfl]
          rw [Bool.toNat_true] at ho ⊢
          rw [wr_ok _ (by omega), bind_ok]
          obtain ⟨op', out', t', e, h1, h2, h3, h4⟩ := ih (sp + 1) false 0 (op + 1) (out.set op (hexu ||| ch2hex (m (t + 1) sp))) (t + 2)
            (by omega) (by omega) (by rw [List.length_set, Bool.toNat_false]; omega)
          rw [Bool.toNat_false] at h1
          refine ⟨op', out', t', e, by omega, by rw [h2, List.length_set], by omega, ?_⟩
          rw [h4, List.drop_set_of_lt (by omega)]
        | false =>
          rw [if_neg (by decide)]
          rw [Bool.toNat_false] at ho ⊢
          obtain ⟨op', out', t', e, h1, h2, h3, h4⟩ := ih (sp + 1) true ((hexu ||| ch2hex (m (t + 1) sp)) <<< 4) op out (t + 2)
            (by omega) (by omega) (by rw [Bool.toNat_true]; omega)
          rw [Bool.toNat_true] at h1
          exact ⟨op', out', t', e, by omega, h2, h3, h4⟩

theorem hex_ends {n : Nat} {m : Model.Torn.Mem} (hm : Ends n m) (t : Nat) (h0 : m t 0 ≠ 0#8) (out : List Byte)
    (ho : (n + 1) / 2 ≤ out.length) :
    ∃ k o t', Model.Torn.hexStringToHash n m out t = .ok (k, o, t') ∧ k ≤ (n + 1) / 2 ∧ o.length = out.length ∧
      o.drop k = out.drop k := by
  obtain ⟨len, t1, e, _, l2, l3⟩ := strlen_ends hm (n + 2) 0 t (by omega) (by omega)
  have l3 := l3 h0
  unfold Model.Torn.hexStringToHash
  rw [e, bind_ok]
  dsimp only
  rw [peek_ok (by omega), bind_ok]
  have hp : ∃ off len', (if 2 ≤ len ∧ (m t1 1 = 120#8 ∨ m t1 1 = 88#8) then (2, len - 2) else (0, len)) = (off, len') ∧
      off + len' = len ∧ off ≤ n := by
    split
    · rename_i hc; exact ⟨2, len - 2, rfl, by omega, by omega⟩
    · exact ⟨0, len, rfl, by omega, by omega⟩
  obtain ⟨off, len', hp, q1, q2⟩ := hp
  rw [hp]
  dsimp only
  rw [q1, if_neg (by omega), peek_ok (by omega), bind_ok]
  obtain ⟨op', out', t', e, h1, h2, h3, h4⟩ := hexLoop_ends hm (n + 2) off
    ((if m (t1 + 1) (len - 1) = 104#8 ∨ m (t1 + 1) (len - 1) = 72#8 then len' - 1 else len') % 2 == 1) 0 0 out (t1 + 2) q2 (by omega)
    (by
      have := Bool.toNat_le ((if m (t1 + 1) (len - 1) = 104#8 ∨ m (t1 + 1) (len - 1) = 72#8 then len' - 1 else len') % 2 == 1)
      omega)
  refine ⟨op', out', t', e, ?_, h2, h4⟩
  have := Bool.toNat_le ((if m (t1 + 1) (len - 1) = 104#8 ∨ m (t1 + 1) (len - 1) = 72#8 then len' - 1 else len') % 2 == 1)
  omega

theorem isPrefix_ok {n sp : Nat} (hsp : sp ≤ n) (m : Model.Torn.Mem) (flag : Int) (t : Nat) :
    ∃ b t', Model.Torn.isPrefix n m sp flag t = .ok (b, t') := by
  unfold Model.Torn.isPrefix
  split
  · rw [peek_ok hsp, bind_ok]
    split
    · exact ⟨_, _, rfl⟩
    · rw [peek_ok hsp, bind_ok]; exact ⟨_, _, rfl⟩
  · exact ⟨_, _, rfl⟩

theorem cleanLoop_ends {n : Nat} {m : Model.Torn.Mem} (hm : Ends n m) (fuel : Nat) :
    ∀ (sp : Nat) (flag : Int) (op : Nat) (out : List Byte) (t : Nat), sp ≤ n → n + 1 ≤ fuel + sp → op + (n - sp) ≤ out.length →
    ∃ op' out' t', Model.Torn.cleanLoop n m fuel sp flag op out t = .ok (op', out', t') ∧
      op' ≤ op + (n - sp) ∧ out'.length = out.length ∧ ∀ k, op + (n - sp) ≤ k → out'.drop k = out.drop k := by
  induction fuel with
  | zero => intro sp flag op out t h h'; omega
  | succ f ih =>
    intro sp flag op out t hsp h ho
    rw [Model.Torn.cleanLoop, peek_ok hsp, bind_ok]
    split
    · exact ⟨op, out, t + 1, rfl, by omega, rfl, fun _ _ => rfl⟩
    · rename_i hc
      have hn : sp ≠ n := fun hh => hc (hh ▸ hm t)
      obtain ⟨b, t1, hb⟩ := isPrefix_ok hsp m flag (t + 1)
      dsimp only
      rw [hb, bind_ok]
      dsimp only
      split
      · obtain ⟨op', out', t', e, h1, h2, h3⟩ := ih (sp + 1) (if flag < 2 then flag + 1 else flag) 0 out t1 (by omega) (by omega) (by omega)
        exact ⟨op', out', t', e, by omega, h2, fun k hk => h3 k (by omega)⟩
      · rw [peek_ok hsp, bind_ok, peek_ok hsp, bind_ok]
        split
        · obtain ⟨op', out', t', e, h1, h2, h3⟩ := ih (sp + 1) (if flag < 2 then flag + 1 else flag) op out (t1 + 1) (by omega) (by omega) (by omega)
          exact ⟨op', out', t', e, by omega, h2, fun k hk => h3 k (by omega)⟩
        · rw [wr_ok _ (by omega), bind_ok]
          obtain ⟨op', out', t', e, h1, h2, h3⟩ := ih (sp + 1) (if flag < 2 then flag + 1 else flag) (op + 1) (out.set op (m (t1 + 1) sp))
            (t1 + 2) (by omega) (by omega) (by rw [List.length_set]; omega)
          refine ⟨op', out', t', e, by omega, by rw [h2, List.length_set], fun k hk => ?_⟩
          rw [h3 k (by omega), List.drop_set_of_lt (by omega)]

theorem clean_ends {n : Nat} {m : Model.Torn.Mem} (hm : Ends n m) (t : Nat) (out : List Byte) (ho : n + 1 ≤ out.length) :
    ∃ k o t', Model.Torn.hashStringClean n m out t = .ok (k, o, t') ∧ k ≤ n ∧ o.length = out.length ∧
      o.drop (n + 1) = out.drop (n + 1) ∧ o[k]? = some 0#8 := by
  obtain ⟨op, out', t', e, h1, h2, h3⟩ := cleanLoop_ends hm (n + 2) 0 (-1) 0 out t (by omega) (by omega) (by omega)
  unfold Model.Torn.hashStringClean
  rw [e, bind_ok]
  dsimp only
  rw [wr_ok _ (by omega), bind_ok]
  refine ⟨op, _, t', rfl, by omega, by rw [List.length_set, h2], ?_, ?_⟩
  · rw [List.drop_set_of_lt (by omega), h3 _ (by omega)]
  · rw [List.getElem?_set_self (by omega)]

theorem strlen_le : ∀ (l : List Byte) (k : Nat), l[k]? = some 0#8 → ∃ j, strlen l = .ok j ∧ j ≤ k := by
  intro l
  induction l with
  | nil => intro k h; cases h
  | cons c r ih =>
    intro k h
    rw [strlen]
    split
    · exact ⟨0, rfl, by omega⟩
    · rename_i hc
      cases k with
      | zero => exact absurd (by simpa using h) hc
      | succ k =>
        obtain ⟨j, e, hj⟩ := ih k (by simpa using h)
        rw [e]
        exact ⟨j + 1, rfl, by omega⟩

/-! ### Texts that keep their length -/

theorem hashLength_steady {n : Nat} {m : Model.Torn.Mem} (hm : Steady n m) (garbage : List Byte) (hg : n + 1 ≤ garbage.length) :
    ∃ v, Model.Torn.hashLength garbage n m = .ok v ∧ v ≤ (n + 1) / 2 := by
  obtain ⟨t, e⟩ := strlen_steady hm (n + 2) 0 0 (by omega) (by omega)
  unfold Model.Torn.hashLength
  rw [e, bind_ok]
  dsimp only
  obtain ⟨k, o, t', e, h1, _, _, h4⟩ := clean_ends hm.1 t (garbage.take (n + 1)) (by rw [List.length_take]; omega)
  obtain ⟨j, ej, hj⟩ := strlen_le o k h4
  rw [e, bind_ok]
  dsimp only
  rw [ej, bind_ok]
  exact ⟨_, rfl, by omega⟩

theorem fromHexString_steady {n : Nat} {m : Model.Torn.Mem} (hm : Steady n m) (hn : 0 < n) (garbage : List Byte)
    (hg : (n + 1) / 2 + 1 ≤ garbage.length) :
    ∃ v, Model.Torn.fromHexString garbage n m = .ok v ∧ v.length ≤ (n + 1) / 2 := by
  obtain ⟨t, e⟩ := strlen_steady hm (n + 2) 0 0 (by omega) (by omega)
  unfold Model.Torn.fromHexString
  rw [e, bind_ok]
  dsimp only
  have hl : (garbage.take (n / 2 + n % 2 + 1)).length = (n + 1) / 2 + 1 := by rw [List.length_take]; omega
  obtain ⟨k, o, t', e, h1, h2, _⟩ := hex_ends hm.1 t (hm.2 t 0 hn) (garbage.take (n / 2 + n % 2 + 1)) (by omega)
  rw [e, bind_ok]
  dsimp only
  rw [wr_ok _ (by omega), bind_ok, rds_ok (by rw [List.length_set]; omega)]
  exact ⟨_, rfl, by rw [List.length_take]; omega⟩

theorem decGroup_steady (P : BaseParams) (func : Byte → Byte) {n : Nat} {m : Model.Torn.Mem} (hm : Steady n m) (fuel : Nat) :
    ∀ (sp i : Nat) (u : W64) (t : Nat), sp ≤ n → n + 1 ≤ fuel + sp → i ≤ P.chunkCount →
    ∃ sp' i' u' t', Model.Torn.decGroup P func n m fuel sp i u t = .ok (sp', i', u', t') ∧ sp ≤ sp' ∧ sp' ≤ n ∧
      i' ≤ i + (sp' - sp) ∧ (sp' = n ∨ i' = P.chunkCount) := by
  induction fuel with
  | zero => intro sp i u t h h'; omega
  | succ f ih =>
    intro sp i u t hsp h hi
    rw [Model.Torn.decGroup, peek_ok hsp, bind_ok, peek_ok hsp, bind_ok]
    split
    · rename_i hc
      refine ⟨sp, i, u, t + 1, rfl, Nat.le_refl _, hsp, by omega, ?_⟩
      rcases hc with hc | hc
      · by_cases hn : sp = n
        · exact .inl hn
        · exact absurd hc (hm.2 t sp (by omega))
      · exact .inr (by omega)
    · rename_i hc
      have hn : sp ≠ n := fun hh => hc (.inl (hh ▸ hm.1 t))
      have hi' : i < P.chunkCount := Classical.byContradiction fun hh => hc (.inr hh)
      dsimp only
      split
      · obtain ⟨sp', i', u', t', e, h1, h2, h3, h4⟩ := ih (sp + 1) i u (t + 2) (by omega) (by omega) hi
        exact ⟨sp', i', u', t', e, by omega, h2, by omega, h4⟩
      · obtain ⟨sp', i', u', t', e, h1, h2, h3, h4⟩ := ih (sp + 1) (i + 1)
          ((u <<< P.bitSize) ||| (func (m (t + 1) sp) &&& mkmask P.bitSize).setWidth 64) (t + 2) (by omega) (by omega) hi'
        exact ⟨sp', i', u', t', e, by omega, h2, by omega, h4⟩

theorem ceil_step (c n sp sp' : Nat) (hc : 0 < c) (h1 : sp' ≤ n) (h2 : sp < n) (h : sp' = n ∨ sp + c ≤ sp') :
    (n - sp' + c - 1) / c + 1 ≤ (n - sp + c - 1) / c := by
  rcases h with h | h
  · subst h
    rw [Nat.sub_self, Nat.div_eq_of_lt (by omega), show sp' - sp + c - 1 = (sp' - sp - 1) + c by omega, Nat.add_div_right _ hc]
    exact Nat.add_le_add_right (Nat.zero_le _) 1
  · rw [← Nat.add_div_right _ hc]
    exact Nat.div_le_div_right (by omega)

theorem unitBytes_length (P : BaseParams) (u : W64) : (unitBytes P u).length = P.unitSize := by
  unfold unitBytes; rw [List.length_map, List.length_range]

theorem decLoop_steady (P : BaseParams) (hP : 0 < P.chunkCount) (func : Byte → Byte) {n : Nat} {m : Model.Torn.Mem}
    (hm : Steady n m) (fuel : Nat) :
    ∀ (sp : Nat) (u : W64) (op : Nat) (out : List Byte) (oUnit : Option (List Byte)) (t : Nat), sp ≤ n → n + 1 ≤ fuel + sp →
    op + P.unitSize * ((n - sp + P.chunkCount - 1) / P.chunkCount) ≤ out.length →
    ∃ op' out' oUnit' t', Model.Torn.decLoop P func n m fuel sp u op out oUnit t = .ok (op', out', oUnit', t') ∧
      op ≤ op' ∧ op' ≤ op + P.unitSize * ((n - sp + P.chunkCount - 1) / P.chunkCount) ∧ out'.length = out.length ∧
      out'.drop op' = out.drop op' ∧
      (oUnit' = oUnit ∧ sp = n ∨ ∃ un, oUnit' = some un ∧ un.length = P.unitSize ∧ op + P.unitSize ≤ op') := by
  induction fuel with
  | zero => intro sp u op out oUnit t h h'; omega
  | succ f ih =>
    intro sp u op out oUnit t hsp h ho
    rw [Model.Torn.decLoop, peek_ok hsp, bind_ok]
    split
    · rename_i hc
      refine ⟨op, out, oUnit, t + 1, rfl, Nat.le_refl _, Nat.le_add_right _ _, rfl, rfl, .inl ⟨rfl, ?_⟩⟩
      exact Classical.byContradiction fun hn => hm.2 t sp (by omega) hc
    · rename_i hc
      have hn : sp ≠ n := fun hh => hc (hh ▸ hm.1 t)
      obtain ⟨sp', i', u', t', e, h1, h2, h3, h4⟩ := decGroup_steady P func hm (n + 2) sp 0 u (t + 1) hsp (by omega) (by omega)
      have mono := (decGroup_mono P func n m (n + 2) sp 0 u (t + 1) _ e).2.2 (hm.2 _ _ (by omega)) hP
      dsimp only at mono
      have hk := Nat.mul_le_mul_left P.unitSize (ceil_step P.chunkCount n sp sp' hP h2 (by omega) (by omega))
      rw [Nat.mul_succ] at hk
      rw [e, bind_ok]
      dsimp only
      rw [peek_ok h2, bind_ok]
      generalize (if m t' sp' = 0#8 ∧ i' < P.chunkCount then u' <<< (P.bitSize * (P.chunkCount - i')) else u') = v
      have hul := unitBytes_length P v
      rw [wrs_ok (by omega), bind_ok]
      have hsl : (splice out op (unitBytes P v)).length = out.length := splice_length (by omega)
      obtain ⟨op', out', oUnit', t'', e', g1, g2, g3, g4, g5⟩ := ih sp' v (op + P.unitSize) (splice out op (unitBytes P v))
        (some (unitBytes P v)) (t' + 1) h2 (by omega) (by omega)
      refine ⟨op', out', oUnit', t'', e', by omega, by omega, by omega, ?_, .inr ?_⟩
      · rw [g4]
        unfold splice
        rw [List.drop_append, List.drop_eq_nil_of_le (by
          rw [List.length_append, List.length_take, hul]; omega), List.nil_append, List.drop_drop, List.length_append,
          List.length_take, hul]
        congr 1
        omega
      · rcases g5 with ⟨g5, _⟩ | ⟨un, g5, g6, g7⟩
        · exact ⟨_, g5, hul, by omega⟩
        · exact ⟨un, g5, g6, by omega⟩

theorem countLoop_ok (out un : List Byte) (op : Nat) : ∀ (k i : Nat), op + i + k ≤ out.length → i + k ≤ un.length →
    ∃ j, countLoop out un op k i = .ok j ∧ j ≤ i + k := by
  intro k
  induction k with
  | zero => intro i _ _; exact ⟨i, rfl, by omega⟩
  | succ k ih =>
    intro i h1 h2
    rw [countLoop, rd_ok (by omega), bind_ok, rd_ok (by omega), bind_ok]
    split
    · obtain ⟨j, e, hj⟩ := ih (i + 1) (by omega) (by omega)
      exact ⟨j, e, by omega⟩
    · exact ⟨i, rfl, by omega⟩

theorem decode_steady (a : BaseAlg) {n : Nat} {m : Model.Torn.Mem} (hm : Steady n m) (hn : 0 < n) (out : List Byte)
    (ho : a.params.unitSize * ((n + a.params.chunkCount - 1) / a.params.chunkCount) + 1 ≤ out.length) :
    ∃ k o, Model.Torn.decode a n m out = .ok (k, o) ∧ o.length = out.length ∧
      k ≤ a.params.unitSize * ((n + a.params.chunkCount - 1) / a.params.chunkCount) ∧
      o.drop (a.params.unitSize * ((n + a.params.chunkCount - 1) / a.params.chunkCount) + 1) =
        out.drop (a.params.unitSize * ((n + a.params.chunkCount - 1) / a.params.chunkCount) + 1) := by
  have hP : 0 < a.params.chunkCount := by cases a <;> decide
  obtain ⟨op, out', oUnit, t, e, h1, h2, h3, h4, h5⟩ := decLoop_steady a.params hP a.charFn hm (n + out.length + 3) 0 0#64 0 out none 0
    (by omega) (by omega) (by rw [Nat.sub_zero]; omega)
  rw [Nat.sub_zero, Nat.zero_add] at h2
  unfold Model.Torn.decode Model.Torn.decodeBase
  rw [e, bind_ok]
  dsimp only
  rcases h5 with ⟨_, h5⟩ | ⟨un, rfl, h6, h7⟩
  · omega
  · dsimp only
    obtain ⟨j, ej, hj⟩ := countLoop_ok out' un (op - a.params.unitSize) a.params.unitSize 0 (by omega) (by omega)
    rw [ej, bind_ok, wr_ok _ (by omega), bind_ok]
    refine ⟨_, _, rfl, by rw [List.length_set, h3], by omega, ?_⟩
    rw [List.drop_set_of_lt (by omega)]
    have := congrArg (List.drop (a.params.unitSize * ((n + a.params.chunkCount - 1) / a.params.chunkCount) + 1 - op)) h4
    rw [List.drop_drop, List.drop_drop, Nat.add_sub_cancel' (by omega)] at this
    exact this

/-! ### The decoders: a write behind the output is all that can go wrong -/

theorem decGroup_ends (P : BaseParams) (func : Byte → Byte) {n : Nat} {m : Model.Torn.Mem} (hm : Ends n m) (fuel : Nat) :
    ∀ (sp i : Nat) (u : W64) (t : Nat), sp ≤ n → n + 1 ≤ fuel + sp →
    ∃ r, Model.Torn.decGroup P func n m fuel sp i u t = .ok r := by
  induction fuel with
  | zero => intro sp i u t h h'; omega
  | succ f ih =>
    intro sp i u t hsp h
    rw [Model.Torn.decGroup, peek_ok hsp, bind_ok, peek_ok hsp, bind_ok]
    split
    · exact ⟨_, rfl⟩
    · rename_i hc
      have hn : sp ≠ n := fun hh => hc (.inl (hh ▸ hm t))
      dsimp only
      split
      · exact ih _ _ _ _ (by omega) (by omega)
      · exact ih _ _ _ _ (by omega) (by omega)

theorem decLoop_ends (P : BaseParams) (hP : 0 < P.unitSize) (func : Byte → Byte) {n : Nat} {m : Model.Torn.Mem} (hm : Ends n m)
    (fuel : Nat) : ∀ (sp : Nat) (u : W64) (op : Nat) (out : List Byte) (oUnit : Option (List Byte)) (t : Nat), sp ≤ n →
    op ≤ out.length → out.length < fuel + op →
    Model.Torn.decLoop P func n m fuel sp u op out oUnit t = .error .oobWrite ∨
    ∃ op' out' oUnit' t', Model.Torn.decLoop P func n m fuel sp u op out oUnit t = .ok (op', out', oUnit', t') ∧
      op ≤ op' ∧ op' ≤ out.length ∧ out'.length = out.length ∧
      (oUnit' = oUnit ∧ m t sp = 0#8 ∨ ∃ un, oUnit' = some un ∧ un.length = P.unitSize ∧ op + P.unitSize ≤ op') := by
  induction fuel with
  | zero => intro sp u op out oUnit t _ h h'; omega
  | succ f ih =>
    intro sp u op out oUnit t hsp ho h
    rw [Model.Torn.decLoop, peek_ok hsp, bind_ok]
    split
    · rename_i hc
      exact .inr ⟨op, out, oUnit, t + 1, rfl, Nat.le_refl _, ho, rfl, .inl ⟨rfl, hc⟩⟩
    · obtain ⟨⟨sp', i', u', t'⟩, e⟩ := decGroup_ends P func hm (n + 2) sp 0 u (t + 1) hsp (by omega)
      have h2 := (decGroup_mono P func n m (n + 2) sp 0 u (t + 1) _ e).2.1
      dsimp only at h2
      rw [e, bind_ok]
      dsimp only
      rw [peek_ok h2, bind_ok]
      generalize (if m t' sp' = 0#8 ∧ i' < P.chunkCount then u' <<< (P.bitSize * (P.chunkCount - i')) else u') = v
      have hul := unitBytes_length P v
      by_cases hr : op + P.unitSize ≤ out.length
      · rw [wrs_ok (by omega), bind_ok]
        have hsl : (splice out op (unitBytes P v)).length = out.length := splice_length (by omega)
        rcases ih sp' v (op + P.unitSize) (splice out op (unitBytes P v)) (some (unitBytes P v)) (t' + 1) h2 (by omega) (by omega) with
          g | ⟨op', out', oUnit', t'', e', g1, g2, g3, g5⟩
        · exact .inl g
        · refine .inr ⟨op', out', oUnit', t'', e', by omega, by omega, by omega, .inr ?_⟩
          rcases g5 with ⟨g5, _⟩ | ⟨un, g5, g6, g7⟩
          · exact ⟨_, g5, hul, by omega⟩
          · exact ⟨un, g5, g6, by omega⟩
      · left
        have : wrs out op (unitBytes P v) = .error .oobWrite := by
          unfold wrs
          rw [if_neg (by omega)]
        rw [this]
        rfl

theorem decode_ends (a : BaseAlg) {n : Nat} {m : Model.Torn.Mem} (hm : Ends n m) (h0 : m 0 0 ≠ 0#8) (out : List Byte) :
    Model.Torn.decode a n m out = .error .oobWrite ∨
      ∃ k o, Model.Torn.decode a n m out = .ok (k, o) ∧ k < out.length ∧ o.length = out.length := by
  have hP : 0 < a.params.unitSize := by cases a <;> decide
  unfold Model.Torn.decode Model.Torn.decodeBase
  rcases decLoop_ends a.params hP a.charFn hm (n + out.length + 3) 0 0#64 0 out none 0 (by omega) (by omega) (by omega) with
    e | ⟨op, out', oUnit, t, e, h1, h2, h3, h5⟩
  · rw [e]; exact .inl rfl
  · rw [e, bind_ok]
    dsimp only
    rcases h5 with ⟨_, h5⟩ | ⟨un, rfl, h6, h7⟩
    · exact absurd h5 h0
    · dsimp only
      obtain ⟨j, ej, hj⟩ := countLoop_ok out' un (op - a.params.unitSize) a.params.unitSize 0 (by omega) (by omega)
      rw [ej, bind_ok]
      by_cases hr : op - a.params.unitSize + j < out'.length
      · rw [wr_ok _ hr, bind_ok]
        exact .inr ⟨_, _, rfl, by omega, by rw [List.length_set, h3]⟩
      · left
        have : wr out' (op - a.params.unitSize + j) 0#8 = .error .oobWrite := by
          unfold wr
          rw [if_neg hr]
        rw [this]
        rfl

/-! ### Overruns -/

/-- The first character is NUL at two of three reads. -/
def blink : Model.Torn.Mem := fun t i => if i = 0 ∧ t % 3 = 0 then 0x41#8 else 0#8

theorem decLoop_blink (P : BaseParams) (hP : 0 < P.unitSize) (func : Byte → Byte) (n : Nat) (fuel : Nat) :
    ∀ (u : W64) (op : Nat) (out : List Byte) (oUnit : Option (List Byte)) (t : Nat), t % 3 = 0 → op ≤ out.length → out.length < fuel + op →
    Model.Torn.decLoop P func n blink fuel 0 u op out oUnit t = .error .oobWrite := by
  induction fuel with
  | zero => intro u op out oUnit t _ h h'; omega
  | succ f ih =>
    intro u op out oUnit t ht h h'
    have b0 : blink t 0 = 0x41#8 := if_pos ⟨rfl, ht⟩
    have b1 : blink (t + 1) 0 = 0#8 := if_neg (by omega)
    have b2 : blink (t + 1 + 1) 0 = 0#8 := if_neg (by omega)
    rw [Model.Torn.decLoop, peek_ok (Nat.zero_le _), bind_ok, b0, if_neg (by decide), Model.Torn.decGroup, peek_ok (Nat.zero_le _), bind_ok, b1,
      if_pos (.inl rfl), bind_ok]
    dsimp only
    rw [peek_ok (Nat.zero_le _), bind_ok]
    generalize (if blink (t + 1 + 1) 0 = 0#8 ∧ 0 < P.chunkCount then u <<< (P.bitSize * (P.chunkCount - 0)) else u) = v
    have hul := unitBytes_length P v
    by_cases hr : op + P.unitSize ≤ out.length
    · rw [wrs_ok (by omega), bind_ok]
      exact ih v (op + P.unitSize) _ _ (t + 1 + 1 + 1) (by omega) (by rw [splice_length (by omega)]; exact hr)
        (by rw [splice_length (by omega)]; omega)
    · have : wrs out op (unitBytes P v) = .error .oobWrite := by
        unfold wrs
        rw [if_neg (by omega)]
      rw [this]
      rfl

theorem decode_blink (a : BaseAlg) (n : Nat) (out : List Byte) : Model.Torn.decode a n blink out = .error .oobWrite := by
  have hP : 0 < a.params.unitSize := by cases a <;> decide
  unfold Model.Torn.decode Model.Torn.decodeBase
  rw [decLoop_blink a.params hP a.charFn n _ 0#64 0 out none 0 rfl (by omega) (by omega)]
  rfl

/-- The text `1`, which after two reads is a text of `n` digits. -/
def grow (n : Nat) : Model.Torn.Mem := fun t i => if i = n then 0#8 else if t < 2 ∧ i ≠ 0 then 0#8 else 0x31#8

theorem grow_late {n t i : Nat} (ht : 2 ≤ t) (hi : i < n) : grow n t i = 0x31#8 := by
  unfold grow
  rw [if_neg (by omega), if_neg (by omega)]

theorem strlen_grow (n : Nat) (hn : 2 ≤ n) : Model.Torn.strlen n (grow n) (n + 2) 0 0 = .ok (1, 2) := by
  have g0 : grow n 0 0 = 0x31#8 := by
    unfold grow; rw [if_neg (by omega), if_neg (by omega)]
  have g1 : grow n 1 1 = 0#8 := by
    unfold grow; rw [if_neg (by omega), if_pos (by omega)]
  rw [Model.Torn.strlen, peek_ok (by omega), bind_ok, g0, if_neg (by decide), Model.Torn.strlen, peek_ok (by omega), bind_ok, g1,
    if_pos rfl]

theorem cleanLoop_grow (n : Nat) (fuel : Nat) : ∀ (sp : Nat) (flag : Int) (op : Nat) (out : List Byte) (t : Nat), 2 ≤ t → sp ≤ n → n + 1 ≤ fuel + sp →
    op ≤ out.length → out.length < op + (n - sp) → Model.Torn.cleanLoop n (grow n) fuel sp flag op out t = .error .oobWrite := by
  induction fuel with
  | zero => intro sp flag op out t _ h h'; omega
  | succ f ih =>
    intro sp flag op out t ht hsp h ho ho'
    obtain ⟨t1, ht1, hb⟩ : ∃ t1, 2 ≤ t1 ∧ Model.Torn.isPrefix n (grow n) sp flag (t + 1) = .ok (false, t1) := by
      unfold Model.Torn.isPrefix
      split
      · rw [peek_ok hsp, bind_ok, peek_ok hsp, bind_ok, grow_late (by omega) (by omega), if_neg (by decide),
          grow_late (by omega) (by omega)]
        exact ⟨_, by omega, rfl⟩
      · exact ⟨_, by omega, rfl⟩
    rw [Model.Torn.cleanLoop, peek_ok hsp, bind_ok, grow_late ht (by omega), if_neg (by decide)]
    dsimp only
    rw [hb, bind_ok]
    dsimp only
    rw [if_neg (by decide), peek_ok hsp, bind_ok, peek_ok hsp, bind_ok, grow_late ht1 (by omega), if_neg (by decide)]
    by_cases hr : op < out.length
    · rw [wr_ok _ hr, bind_ok]
      exact ih _ _ _ _ _ (by omega) (by omega) (by omega) (by rw [List.length_set]; omega) (by rw [List.length_set]; omega)
    · have : wr out op (grow n (t1 + 1) sp) = .error .oobWrite := by
        unfold wr
        rw [if_neg hr]
      rw [this]
      rfl

theorem hashLength_grow (n : Nat) (hn : 3 ≤ n) (garbage : List Byte) :
    Model.Torn.hashLength garbage n (grow n) = .error .oobWrite := by
  unfold Model.Torn.hashLength Model.Torn.hashStringClean
  rw [strlen_grow n (by omega), bind_ok]
  dsimp only
  rw [cleanLoop_grow n (n + 2) 0 (-1) 0 _ 2 (by omega) (by omega) (by omega) (by omega) (by rw [List.length_take]; omega)]
  rfl

theorem strlen_grow_late (n : Nat) (fuel : Nat) : ∀ (sp t : Nat), 2 ≤ t → sp ≤ n → n + 1 ≤ fuel + sp →
    ∃ t', 2 ≤ t' ∧ Model.Torn.strlen n (grow n) fuel sp t = .ok (n, t') := by
  induction fuel with
  | zero => intro sp t _ h h'; omega
  | succ f ih =>
    intro sp t ht hsp h
    rw [Model.Torn.strlen, peek_ok hsp, bind_ok]
    by_cases hn : sp = n
    · subst hn
      exact ⟨t + 1, by omega, by rw [show grow sp t sp = 0#8 from if_pos rfl, if_pos rfl]⟩
    · rw [grow_late ht (by omega), if_neg (by decide)]
      exact ih _ _ (by omega) (by omega) (by omega)

theorem hexLoop_grow (n : Nat) (fuel : Nat) : ∀ (sp : Nat) (odd : Bool) (hexu : Byte) (op : Nat) (out : List Byte) (t : Nat), 2 ≤ t → sp ≤ n →
    n + 1 ≤ fuel + sp → op ≤ out.length → out.length < op + (n - sp + odd.toNat) / 2 →
    Model.Torn.hexLoop n (grow n) fuel sp odd hexu op out t = .error .oobWrite := by
  induction fuel with
  | zero => intro sp odd hexu op out t _ h h'; omega
  | succ f ih =>
    intro sp odd hexu op out t ht hsp h ho ho'
    have hb := Bool.toNat_le odd
    rw [Model.Torn.hexLoop, peek_ok hsp, bind_ok, peek_ok hsp, bind_ok, grow_late ht (by omega), if_neg (by decide),
      grow_late (by omega) (by omega)]
    dsimp only
    rw [if_neg (by decide)]
    cases odd with
    | true =>
      rw [Bool.toNat_true] at ho'
      rw [if_pos rfl]
      by_cases hr : op < out.length
      · rw [wr_ok _ hr, bind_ok]
        exact ih _ _ _ _ _ _ (by omega) (by omega) (by omega) (by rw [List.length_set]; omega)
          (by rw [List.length_set, Bool.toNat_false]; omega)
      · have : wr out op (hexu ||| ch2hex 0x31#8) = .error .oobWrite := by
          unfold wr
          rw [if_neg hr]
        rw [this]
        rfl
    | false =>
      rw [Bool.toNat_false] at ho'
      rw [if_neg (by decide)]
      exact ih _ _ _ _ _ _ (by omega) (by omega) (by omega) (by omega) (by rw [Bool.toNat_true]; omega)

theorem fromHexString_grow (n : Nat) (hn : 5 ≤ n) (garbage : List Byte) :
    Model.Torn.fromHexString garbage n (grow n) = .error .oobWrite := by
  unfold Model.Torn.fromHexString Model.Torn.hexStringToHash
  rw [strlen_grow n (by omega), bind_ok]
  dsimp only
  obtain ⟨t, ht, e⟩ := strlen_grow_late n (n + 2) 0 2 (by omega) (by omega) (by omega)
  rw [e, bind_ok]
  dsimp only
  rw [peek_ok (by omega), bind_ok, grow_late ht (by omega),
    if_neg (c := 2 ≤ n ∧ (0x31#8 = 0x78#8 ∨ 0x31#8 = 0x58#8)) (fun h => absurd h.2 (by decide))]
  dsimp only
  rw [if_neg (by omega), peek_ok (by omega), bind_ok, grow_late (by omega) (by omega),
    if_neg (c := 0x31#8 = 0x68#8 ∨ 0x31#8 = 0x48#8) (by decide),
    hexLoop_grow n (n + 2) 0 _ 0 0 _ (t + 2) (by omega) (by omega) (by omega) (by omega) (by
      rw [List.length_take]
      by_cases hp : n % 2 = 1
      · rw [hp, show ((1 : Nat) == 1) = true from rfl, Bool.toNat_true]; omega
      · rw [show (n % 2 == 1) = false by simp [hp], Bool.toNat_false]; omega)]
  rfl

end Pgfe.Proofs.Torn
