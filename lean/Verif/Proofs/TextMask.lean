import Verif.Proofs.TextHex
/-!
# The encoders' traces, without the letters looked up
-/
namespace Pgfe.Proofs.TextTrace
open Pgfe Pgfe.Model Pgfe.Proofs.Trace Pgfe.Spec.TextClass

theorem lookups_mask (al : List Byte) (s : List Byte) : ∀ (s' : List Byte) (i : Nat) (u u' : List Byte),
    s.length = s'.length → (Tr.Text.lookups al s i).res = .ok u → (Tr.Text.lookups al s' i).res = .ok u' →
    (Tr.Text.lookups al s i).tr.map anyLetter = (Tr.Text.lookups al s' i).tr.map anyLetter := by
  induction s with
  | nil =>
    intro s' i u u' hl h h'
    cases s' with
    | nil => rfl
    | cons _ _ => exact absurd hl (by simp)
  | cons v s ih =>
    intro s' i u u' hl h h'
    cases s' with
    | nil => exact absurd hl (by simp)
    | cons v' s' =>
      rw [Tr.Text.lookups, br_bind, pre_res] at h h'
      obtain ⟨_, h1, h⟩ := bind_okE h
      obtain ⟨_, h1', h'⟩ := bind_okE h'
      cases h1
      cases h1'
      obtain ⟨c, hc, h⟩ := bind_okE h
      obtain ⟨c', hc', h'⟩ := bind_okE h'
      obtain ⟨_, h2, h⟩ := bind_okE h
      obtain ⟨_, h2', h'⟩ := bind_okE h'
      cases h2
      cases h2'
      obtain ⟨r, hr, h⟩ := bind_okE h
      obtain ⟨r', hr', h'⟩ := bind_okE h'
      rw [Tr.Text.lookups, Tr.Text.lookups, br_bind, br_bind, ok_bindT (m := ⟨.ok v, _⟩) rfl,
        ok_bindT (m := ⟨.ok v', _⟩) rfl, ok_bindT hc, ok_bindT hc', ok_bindT (m := ⟨.ok c, _⟩) rfl,
        ok_bindT (m := ⟨.ok c', _⟩) rfl, ok_bindT hr, ok_bindT hr']
      have hp : ∀ z : List Byte, (pure z : T (List Byte)).tr = [] := fun _ => rfl
      simp only [pre_tr, T.rd, hp, List.append_nil, List.map_append, ih s' (i + 1) r r' (by simpa using hl) hr hr']
      rfl

theorem unittostr_mask (a : BaseAlg) (S S' : Slack) (hS1 : L S.behindUnit S'.behindUnit) (hS2 : L S.behindSplit S'.behindSplit)
    {g g' u u' : List Byte} (hg : L g g') (hu : L u u') (sp : Nat) (out out' o o' : List Byte)
    (h : (Tr.Text.unittostr S a.params g a.alphabet u false out sp).res = .ok o)
    (h' : (Tr.Text.unittostr S' a.params g' a.alphabet u' false out' sp).res = .ok o') :
    (Tr.Text.unittostr S a.params g a.alphabet u false out sp).tr.map anyLetter =
      (Tr.Text.unittostr S' a.params g' a.alphabet u' false out' sp).tr.map anyLetter := by
  rw [unittostr_split] at h h' ⊢
  rw [unittostr_split]
  have hsame := transform_same (x := u ++ S.behindUnit) (x' := u' ++ S'.behindUnit)
    (by unfold L at *; rw [List.length_append, List.length_append, hu, hS1]) a.params.unitSize a.params.bitSize
    (3 * (a.params.unitSize + 2)) 0 (a.params.bitSize % 8) 0 0 (o := g.take a.params.chunkCount ++ S.behindSplit)
    (o' := g'.take a.params.chunkCount ++ S'.behindSplit)
    (by unfold L at *; rw [List.length_append, List.length_append, List.length_take, List.length_take, hg, hS2])
  obtain ⟨r, hr, h⟩ := bind_okE h
  obtain ⟨r', hr', h'⟩ := bind_okE h'
  obtain ⟨v, hv, h⟩ := bind_okE h
  obtain ⟨v', hv', h'⟩ := bind_okE h'
  have hl : L r.2 r'.2 := by
    have := hsame.res
    change Out _ (Tr.Text.transform _ _ _ _).res (Tr.Text.transform _ _ _ _).res at this
    rw [hr, hr'] at this
    exact this
  have hl' : (r.2.take a.params.chunkCount).length = (r'.2.take a.params.chunkCount).length := by
    rw [List.length_take, List.length_take, show r.2.length = r'.2.length from hl]
  rw [ok_bindT hr, ok_bindT hr', ok_bindT hv, ok_bindT hv', pre_tr, pre_tr, pre_tr, pre_tr,
    show (Tr.Text.transform _ _ _ _).tr = (Tr.Text.transform _ _ _ _).tr from hsame.tr, List.map_append, List.map_append,
    List.map_append, List.map_append, lookups_mask a.alphabet _ _ 0 v v' hl' hv hv']
  have hvl : v.length = v'.length := by rw [lookups_length _ _ _ _ hv, lookups_length _ _ _ _ hv', hl']
  have hf : ∀ (out v : List Byte), (finish a false out sp v).tr = [.br false, .rd .ws 0 v.length, .wr .output sp v.length] :=
    fun _ _ => rfl
  rw [hf, hf, hvl]

theorem eiter_mask (a : BaseAlg) (S S' : Slack) (hS1 : L S.behindUnit S'.behindUnit) (hS2 : L S.behindSplit S'.behindSplit)
    {g g' : List Byte} (hg : L g g') (x x' : List Byte) (n : Nat) (out out' : List Byte) :
    ∀ (k : Nat) (s s' : Nat × List Byte), k * a.params.unitSize ≤ n →
    (T.iter k (fun i s => do let _ ← T.br true; ebody a S g x n i s) (0, out)).res = .ok s →
    (T.iter k (fun i s => do let _ ← T.br true; ebody a S' g' x' n i s) (0, out')).res = .ok s' →
    s.1 = s'.1 ∧ (T.iter k (fun i s => do let _ ← T.br true; ebody a S g x n i s) (0, out)).tr.map anyLetter =
    (T.iter k (fun i s => do let _ ← T.br true; ebody a S' g' x' n i s) (0, out')).tr.map anyLetter := by
  intro k
  induction k with
  | zero =>
    intro s s' _ h h'
    cases h
    cases h'
    exact ⟨rfl, rfl⟩
  | succ k ih =>
    intro s s' hk h h'
    rw [Nat.succ_mul] at hk
    rw [T.iter] at h h' ⊢
    rw [T.iter]
    obtain ⟨r, hr, h⟩ := bind_okE h
    obtain ⟨r', hr', h'⟩ := bind_okE h'
    rw [ok_bindT hr, ok_bindT hr', pre_tr, pre_tr, List.map_append, List.map_append]
    rw [br_bind, pre_res] at h h'
    obtain ⟨i1, i2⟩ := ih r r' (by omega) hr hr'
    rw [br_bind, br_bind, pre_tr, pre_tr, i2, List.map_append, List.map_append]
    obtain ⟨u, o, ul, uo, rfl, ue⟩ := eunit _ _ _ _ _ _ _ _ h
    obtain ⟨u', o', ul', uo', rfl, ue'⟩ := eunit _ _ _ _ _ _ _ _ h'
    have hp : decide (n - k * a.params.unitSize < a.params.unitSize) = false := decide_eq_false (by omega)
    rw [hp] at uo uo' ue ue'
    rw [ue, ue', ← i1, List.map_append, List.map_append,
      unittostr_mask a S S' hS1 hS2 hg (ul.trans ul'.symm) r.1 _ _ o o' uo (by rw [i1]; exact uo')]
    exact ⟨rfl, rfl⟩

theorem encode_mask (a : BaseAlg) (S S' : Slack) (hS1 : L S.behindUnit S'.behindUnit) (hS2 : L S.behindSplit S'.behindSplit)
    {g g' : List Byte} (hg : L g g') (x x' : List Byte) (n : Nat) (hn : n % a.params.unitSize = 0) (out out' : List Byte)
    (r r' : Nat × List Byte)
    (h : (Tr.Text.encode a S g x n out).res = .ok r) (h' : (Tr.Text.encode a S' g' x' n out').res = .ok r') :
    (Tr.Text.encode a S g x n out).tr.map anyLetter = (Tr.Text.encode a S' g' x' n out').tr.map anyLetter := by
  have hu : 0 < a.params.unitSize := by cases a <;> decide
  have hk : (n + a.params.unitSize - 1) / a.params.unitSize * a.params.unitSize ≤ n := by
    obtain ⟨q, rfl⟩ := Nat.dvd_of_mod_eq_zero hn
    rw [show a.params.unitSize * q + a.params.unitSize - 1 = a.params.unitSize * q + (a.params.unitSize - 1) by omega,
      Nat.mul_add_div hu, Nat.div_eq_of_lt (by omega), Nat.add_zero, Nat.mul_comm]
  rw [encode_split] at h h' ⊢
  rw [encode_split]
  unfold T.forN at h h' ⊢
  rw [bind_assocT] at h h' ⊢
  rw [bind_assocT]
  obtain ⟨s, hs, h⟩ := bind_okE h
  obtain ⟨s', hs', h'⟩ := bind_okE h'
  rw [ok_bindT hs, ok_bindT hs', pre_tr, pre_tr]
  obtain ⟨i1, i2⟩ := eiter_mask a S S' hS1 hS2 hg x x' n out out' _ s s' hk hs hs'
  rw [br_bind, pre_bind, pre_res, pure_bindT] at h h'
  obtain ⟨c, hc, h⟩ := bind_okE h
  obtain ⟨c', hc', h'⟩ := bind_okE h'
  rw [List.map_append, List.map_append, i2, br_bind, pre_bind, br_bind, pre_bind, pure_bindT, pure_bindT, ok_bindT hc, ok_bindT hc']
  show _ ++ List.map anyLetter ([.br false] ++ ([.wr .output s.1 1] ++ [])) = _
  rw [i1]
  rfl

end Pgfe.Proofs.TextTrace
