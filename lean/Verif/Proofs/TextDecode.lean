import Verif.Proofs.TextLeak
/-!
# The whole trace of a decoder that returns
-/
namespace Pgfe.Proofs.TextTrace
open Pgfe Pgfe.Model Pgfe.Proofs.Trace Pgfe.Spec.TextClass

/-- A computation after some events. -/
def pre {α : Type} (e : List Event) (m : T α) : T α := ⟨m.res, e ++ m.tr⟩

variable {α β γ : Type}

theorem br_bind (b : Bool) (k : Bool → T α) : (T.br b >>= k) = pre [.br b] (k b) := rfl
theorem peek_bind (sp : Nat) (c : Byte) (r : List Byte) (k : Byte → T α) :
    (Tr.Text.peek sp (c :: r) >>= k) = pre [.rd .input sp 1] (k c) := rfl
theorem pure_bindT (a : β) (k : β → T α) : (pure a >>= k) = k a := rfl
theorem ok_bindT {m : T β} {a : β} (h : m.res = .ok a) (k : β → T α) : (m >>= k) = pre m.tr (k a) := by
  show T.bind m k = _
  unfold T.bind pre
  rw [h]
theorem err_bindT {m : T β} {e : UB} (h : m.res = .error e) (k : β → T α) : (m >>= k) = ⟨.error e, m.tr⟩ := by
  show T.bind m k = _
  unfold T.bind
  rw [h]
theorem pre_bind (e : List Event) (m : T β) (k : β → T α) : (pre e m >>= k) = pre e (m >>= k) := by
  cases h : m.res with
  | ok a =>
    rw [ok_bindT (m := pre e m) h, ok_bindT h]
    show (⟨(k a).res, (e ++ m.tr) ++ (k a).tr⟩ : T α) = ⟨(k a).res, e ++ (m.tr ++ (k a).tr)⟩
    rw [List.append_assoc]
  | error x => rw [err_bindT (m := pre e m) h, err_bindT h]; rfl
theorem bind_assocT (m : T γ) (f : γ → T β) (k : β → T α) : ((m >>= f) >>= k) = m >>= fun a => f a >>= k := by
  cases h : m.res with
  | ok a => rw [ok_bindT h, pre_bind, ok_bindT h]
  | error x => rw [err_bindT h, err_bindT h, err_bindT rfl]
theorem pre_res (e : List Event) (m : T α) : (pre e m).res = m.res := rfl
theorem pre_tr (e : List Event) (m : T α) : (pre e m).tr = e ++ m.tr := rfl

/-- What is known of the result of the outer loop. -/
def Fin' (a : BaseAlg) (t : List Byte) (i op : Nat) (r : Nat × List Byte × Option (List Byte)) : Prop :=
  r.1 = opEnd a t i op ∧ a.params.unitSize ≤ r.1 ∧ ∃ unit, r.2.2 = some unit ∧
    rds r.2.1 (r.1 - a.params.unitSize) a.params.unitSize = .ok unit ∧ unit.length = a.params.unitSize

theorem wrs_read {b s : List Byte} {i : Nat} {o : List Byte} (h : wrs b i s = .ok o) : rds o i s.length = .ok s := by
  unfold wrs at h
  split at h
  · rename_i hl
    cases h
    rw [rds_ok (by rw [splice_length hl]; exact hl)]
    unfold splice
    rw [List.append_assoc, List.drop_append_of_le_length (by rw [List.length_take]; omega),
      List.drop_eq_nil_of_le (by rw [List.length_take]; omega), List.nil_append, List.take_left']
    rfl
  · cases h

theorem unitPart (P : BaseParams) (u : W64) (op : Nat) (out : List Byte) (k : List Byte → List Byte → T α) (r : α)
    (h : (do let unit ← Tr.Text.unitBytes P u
             let src ← T.rds .unit unit 0 P.unitSize
             let out ← T.wrs .output out op src
             k unit out : T α).res = .ok r) :
    ∃ o, wrs out op (unitBytes P u) = .ok o ∧ (do
      let unit ← Tr.Text.unitBytes P u
      let src ← T.rds .unit unit 0 P.unitSize
      let out ← T.wrs .output out op src
      k unit out : T α) = pre (unitTr P op) (k (unitBytes P u) o) := by
  rw [ok_bindT (unitBytes_res P u)] at h ⊢
  have h1 : (T.rds .unit (unitBytes P u) 0 P.unitSize).res = .ok (unitBytes P u) := rds_all (unitBytes_length P u)
  rw [ok_bindT h1] at h ⊢
  rw [pre_res, pre_res, res_bind, res_wrs] at h
  cases ho : wrs out op (unitBytes P u) with
  | error e => rw [ho] at h; cases h
  | ok o =>
    refine ⟨o, rfl, ?_⟩
    have h2 : (T.wrs .output out op (unitBytes P u)).res = .ok o := ho
    rw [ok_bindT h2]
    show (⟨_, _ ++ (_ ++ (_ ++ _))⟩ : T α) = ⟨_, _⟩
    congr 1
    rw [unitTr, unitBytes_tr P u 0#64]
    show _ = _ ++ [Event.rd Arr.unit 0 P.unitSize, Event.wr Arr.output op P.unitSize] ++ _
    rw [List.append_assoc]
    show _ ++ ([Event.rd Arr.unit 0 P.unitSize] ++ ([Event.wr Arr.output op (unitBytes P u).length] ++ _)) = _
    rw [unitBytes_length]
    rfl

theorem cc_pos (a : BaseAlg) : 0 < a.params.chunkCount := by cases a <;> decide

/-- One character that belongs to the current group. -/
theorem group_step (a : BaseAlg) (c : Byte) (r : List Byte) (hc : c ≠ 0#8) (sp i : Nat) (u : W64)
    (hi : i < a.params.chunkCount) : ∃ u', Tr.Text.decGroup a.params (Tr.Text.charFn a) (c :: r) sp i u =
    pre [.rd .input sp 1, .br true, .br true, .rd .input sp 1] (pre (ctr a c)
      (Tr.Text.decGroup a.params (Tr.Text.charFn a) r (sp + 1) (if unk a c then i else i + 1) u')) := by
  refine ⟨if unk a c then u else (u <<< a.params.bitSize) ||| (a.charFn c &&& mkmask a.params.bitSize).setWidth 64, ?_⟩
  rw [Tr.Text.decGroup]
  simp only [peek_bind, br_bind, hc, ne_eq, not_false_eq_true, decide_true, if_true, hi]
  rw [ok_bindT (charFn_res a c)]
  rw [show decide (a.charFn c &&& 0xC0#8 = unknownCode) = unk a c from rfl, ctr]
  cases hu : unk a c
  · simp only [Bool.false_eq_true, if_false, pre, List.append_assoc, List.cons_append, List.nil_append]
  · simp only [if_true, pre, List.append_assoc, List.cons_append, List.nil_append]

theorem run (a : BaseAlg) (t : List Byte) (h0 : ∀ c ∈ t, c ≠ 0#8) : ∀ (sp i : Nat) (u : W64) (op : Nat) (out : List Byte)
    (fuel : Nat) (r : Nat × List Byte × Option (List Byte)), t.length + 1 ≤ fuel →
    (Tr.Text.decGroup a.params (Tr.Text.charFn a) (t ++ [0#8]) sp i u >>=
      Tr.Text.afterGroup a.params (Tr.Text.decLoop a.params (Tr.Text.charFn a) fuel) op out).res = .ok r →
    (Tr.Text.decGroup a.params (Tr.Text.charFn a) (t ++ [0#8]) sp i u >>=
      Tr.Text.afterGroup a.params (Tr.Text.decLoop a.params (Tr.Text.charFn a) fuel) op out).tr = G a t sp i op ∧
    Fin' a t i op r := by
  induction t with
  | nil =>
    intro sp i u op out fuel r hf h
    obtain ⟨fuel, rfl⟩ : ∃ k, fuel = k + 1 := ⟨fuel - 1, by simp at hf; omega⟩
    have e1 : Tr.Text.decGroup a.params (Tr.Text.charFn a) ([] ++ [0#8]) sp i u =
        pre [.rd .input sp 1] (pre [.br false] (pure ([0#8], sp, i, u))) := by
      rw [List.nil_append, Tr.Text.decGroup]
      rfl
    rw [e1, pre_bind, pre_bind, pure_bindT, Tr.Text.afterGroup] at h ⊢
    simp only [peek_bind, br_bind, decide_true, if_true] at h ⊢
    simp only [pre_res] at h
    obtain ⟨o, ho, e⟩ := unitPart _ _ _ _ _ _ h
    rw [e] at h ⊢
    have e2 : ∀ (v : W64) (x : Option (List Byte)), Tr.Text.decLoop a.params (Tr.Text.charFn a) (fuel + 1) [0#8] sp v (op + a.params.unitSize) o x =
        pre [.rd .input sp 1] (pre [.br false] (pure (op + a.params.unitSize, o, x))) := by
      intro v x
      rw [Tr.Text.decLoop]
      rfl
    rw [e2] at h ⊢
    simp only [pre_res, res_pure] at h
    cases h
    refine ⟨?_, rfl, Nat.le_add_left _ _, _, rfl, ?_, unitBytes_length _ _⟩
    · rw [G]
      simp only [pre_tr, List.cons_append, List.nil_append, List.cons.injEq, true_and]
      rfl
    · have := wrs_read ho
      rw [unitBytes_length] at this
      show rds o (op + a.params.unitSize - a.params.unitSize) _ = _
      rw [Nat.add_sub_cancel]
      exact this
  | cons c t ih =>
    intro sp i u op out fuel r hf h
    have hc : c ≠ 0#8 := h0 c List.mem_cons_self
    have ht : ∀ c ∈ t, c ≠ 0#8 := fun c h => h0 c (List.mem_cons_of_mem _ h)
    rw [List.length_cons] at hf
    by_cases hi : i < a.params.chunkCount
    · obtain ⟨u', e⟩ := group_step a c (t ++ [0#8]) hc sp i u hi
      rw [List.cons_append, e, pre_bind, pre_bind] at h ⊢
      obtain ⟨h1, h2⟩ := ih ht _ _ _ _ _ fuel r (by omega) h
      refine ⟨?_, ?_⟩
      · rw [G, if_pos hi, pre_tr, pre_tr, h1]
      · unfold Fin' at h2 ⊢
        rw [opEnd, if_pos hi]
        exact h2
    · obtain ⟨fuel, rfl⟩ : ∃ k, fuel = k + 1 := ⟨fuel - 1, by omega⟩
      have e1 : Tr.Text.decGroup a.params (Tr.Text.charFn a) (c :: t ++ [0#8]) sp i u =
          pre [.rd .input sp 1, .br true, .br false] (pure (c :: t ++ [0#8], sp, i, u)) := by
        rw [List.cons_append, Tr.Text.decGroup]
        simp only [peek_bind, br_bind, hc, ne_eq, not_false_eq_true, decide_true, if_true, hi, decide_false,
          Bool.false_eq_true, if_false]
        rfl
      rw [e1, pre_bind, pure_bindT, Tr.Text.afterGroup] at h ⊢
      simp only [List.cons_append, peek_bind, br_bind, hc, decide_false, Bool.false_eq_true, if_false, pure_bindT] at h ⊢
      simp only [pre_res] at h
      obtain ⟨o, ho, e⟩ := unitPart _ _ _ _ _ _ h
      rw [e] at h ⊢
      have e2 : ∀ (v : W64) (x : Option (List Byte)), Tr.Text.decLoop a.params (Tr.Text.charFn a) (fuel + 1)
          (c :: (t ++ [0#8])) sp v (op + a.params.unitSize) o x =
          pre [.rd .input sp 1, .br true] (Tr.Text.decGroup a.params (Tr.Text.charFn a) (c :: (t ++ [0#8])) sp 0 v >>=
            Tr.Text.afterGroup a.params (Tr.Text.decLoop a.params (Tr.Text.charFn a) fuel) (op + a.params.unitSize) o) := by
        intro v x
        rw [Tr.Text.decLoop]
        simp only [peek_bind, br_bind, hc, ne_eq, not_false_eq_true, decide_true, if_true]
        rfl
      rw [e2] at h ⊢
      obtain ⟨u', e3⟩ := group_step a c (t ++ [0#8]) hc sp 0 u (cc_pos a)
      rw [e3, pre_bind, pre_bind] at h ⊢
      simp only [pre_res] at h
      obtain ⟨h1, h2⟩ := ih ht _ _ _ _ _ fuel r (by omega) h
      refine ⟨?_, ?_⟩
      · rw [G, if_neg hi]
        simp only [pre_tr, h1, List.cons_append, List.nil_append, Nat.zero_add]
      · unfold Fin' at h2 ⊢
        rw [opEnd, if_neg hi]
        simpa using h2

/-- The trace of the loop that looks for the end of the output, when it stops at `m`. -/
def cnt (op m : Nat) : Nat → Nat → List Event
  | 0, _ => [.br false]
  | k + 1, i => [.br true, .rd .output (op + i) 1, .rd .unit i 1, .br true] ++
      (if i < m then [.br true] ++ cnt op m k (i + 1) else [.br false])

theorem countLoop_ge (out unit : List Byte) (op : Nat) (k : Nat) : ∀ i m, countLoop out unit op k i = .ok m → i ≤ m := by
  induction k with
  | zero => intro i m h; cases h; exact Nat.le_refl _
  | succ k ih =>
    intro i m h
    rw [countLoop] at h
    cases hb : rd out (op + i) with
    | error e => rw [hb] at h; cases h
    | ok b =>
      cases ho : rd unit i with
      | error e => rw [hb, ho] at h; cases h
      | ok o =>
        rw [hb, ho, bind_ok, bind_ok] at h
        split at h
        · exact Nat.le_of_succ_le (ih _ _ h)
        · cases h; exact Nat.le_refl _

theorem countLoop_tr (out unit : List Byte) (op : Nat) (k : Nat) : ∀ i m,
    (∀ j, i ≤ j → j < i + k → ∃ b, rd out (op + j) = .ok b ∧ rd unit j = .ok b) → countLoop out unit op k i = .ok m →
    (Tr.Text.countLoop out unit op k i).tr = cnt op m k i := by
  induction k with
  | zero => intros; rfl
  | succ k ih =>
    intro i m hj h
    obtain ⟨b, hb, ho⟩ := hj i (Nat.le_refl _) (by omega)
    rw [countLoop, hb, ho, bind_ok, bind_ok] at h
    rw [Tr.Text.countLoop, br_bind, ok_bindT (m := T.rd .output out (op + i)) hb, ok_bindT (m := T.rd .unit unit i) ho, br_bind]
    simp only [decide_true, if_true, br_bind]
    rw [cnt]
    by_cases h0 : b = 0#8
    · subst h0
      rw [if_neg (by simp)] at h
      cases h
      rw [if_neg (Nat.lt_irrefl _)]
      rfl
    · rw [if_pos ⟨rfl, h0⟩] at h
      have hlt : i < m := Nat.lt_of_succ_le (countLoop_ge _ _ _ _ _ _ h)
      rw [if_pos hlt]
      simp only [h0, ne_eq, not_false_eq_true, decide_true, if_true, pre_tr]
      rw [ih (i + 1) m (fun j h1 h2 => hj j (by omega) (by omega)) h]
      rfl

/-- The trace of a call that returns. -/
theorem decode_tr (a : BaseAlg) (t out : List Byte) (h0 : ∀ c ∈ t, c ≠ 0#8) (n : Nat) (o : List Byte)
    (h : pgfeDecode a (t ++ [0#8]) out = .ok (n, o)) :
    (Tr.Text.decode a (t ++ [0#8]) out).tr = [.rd .input 0 1, .br true] ++ (G a t 0 0 0 ++
      (cnt (opEnd a t 0 0 - a.params.unitSize) (n - (opEnd a t 0 0 - a.params.unitSize)) a.params.unitSize 0 ++
        [.wr .output n 1])) := by
  rw [← decode_res] at h
  cases t with
  | nil =>
    exfalso
    have : (Tr.Text.decode a ([] ++ [0#8]) out).res = .error .oobRead := by
      rw [decode_res]
      rfl
    rw [this] at h
    cases h
  | cons c t =>
    have hc : c ≠ 0#8 := h0 c List.mem_cons_self
    have e1 : Tr.Text.decLoop a.params (Tr.Text.charFn a) ((c :: t ++ [0#8]).length + 1) (c :: t ++ [0#8]) 0 0#64 0 out none =
        pre [.rd .input 0 1, .br true] (Tr.Text.decGroup a.params (Tr.Text.charFn a) (c :: t ++ [0#8]) 0 0 0#64 >>=
          Tr.Text.afterGroup a.params (Tr.Text.decLoop a.params (Tr.Text.charFn a) (c :: t ++ [0#8]).length) 0 out) := by
      rw [Tr.Text.decLoop, List.cons_append]
      simp only [peek_bind, br_bind, hc, ne_eq, not_false_eq_true, decide_true, if_true]
      rfl
    unfold Tr.Text.decode Tr.Text.decodeBase at h ⊢
    rw [e1, pre_bind] at h ⊢
    rw [pre_res] at h
    generalize hg : (Tr.Text.decGroup a.params (Tr.Text.charFn a) (c :: t ++ [0#8]) 0 0 0#64 >>=
          Tr.Text.afterGroup a.params (Tr.Text.decLoop a.params (Tr.Text.charFn a) (c :: t ++ [0#8]).length) 0 out) = g at h ⊢
    have hrun := run a (c :: t) h0 0 0 0#64 0 out (c :: t ++ [0#8]).length
    rw [hg] at hrun
    cases hr : g.res with
    | error e => rw [err_bindT hr] at h; cases h
    | ok r =>
      obtain ⟨h1, h2, h3, unit, h4, h5, h6⟩ := hrun r (by rw [List.length_append]; exact Nat.le_refl _) hr
      obtain ⟨op, o1, ou⟩ := r
      dsimp only at h2 h3 h4 h5
      subst h4
      rw [ok_bindT hr] at h ⊢
      dsimp only at h ⊢
      rw [pre_res, res_bind, countLoop_res] at h
      cases hk : countLoop o1 unit (op - a.params.unitSize) a.params.unitSize 0 with
      | error e => rw [hk] at h; cases h
      | ok k =>
        have hk' : (Tr.Text.countLoop o1 unit (op - a.params.unitSize) a.params.unitSize 0).res = .ok k := by
          rw [countLoop_res, hk]
        rw [hk, bind_ok, res_bind, res_wr] at h
        cases hw : wr o1 (op - a.params.unitSize + k) 0#8 with
        | error e => rw [hw] at h; cases h
        | ok o2 =>
          rw [hw, bind_ok, res_pure, Except.ok.injEq, Prod.mk.injEq] at h
          obtain ⟨hn, -⟩ := h
          rw [ok_bindT hk', ok_bindT (m := T.wr .output o1 (op - a.params.unitSize + k) 0#8) hw]
          have hct := countLoop_tr o1 unit (op - a.params.unitSize) a.params.unitSize 0 k (by
            intro j _ hj
            rw [Nat.zero_add] at hj
            unfold rds at h5
            split at h5
            · rename_i hl
              rw [Except.ok.injEq] at h5
              have hlt : op - a.params.unitSize + j < o1.length := by omega
              refine ⟨o1[op - a.params.unitSize + j], rd_ok hlt, ?_⟩
              subst h5
              rw [rd_ok (by rw [h6]; exact hj)]
              congr 1
              rw [List.getElem_take, List.getElem_drop]
            · cases h5) hk
          simp only [pre_tr, h1, hct]
          rw [← h2, ← hn, Nat.add_sub_cancel_left]
          rfl

/-- Exactly what two calls that return have in common. -/
theorem decode_iff (a : BaseAlg) (t t' out out' : List Byte) (h0 : ∀ c ∈ t, c ≠ 0#8) (h0' : ∀ c ∈ t', c ≠ 0#8) (n n' : Nat)
    (o o' : List Byte) (h : pgfeDecode a (t ++ [0#8]) out = .ok (n, o)) (h' : pgfeDecode a (t' ++ [0#8]) out' = .ok (n', o')) :
    (Tr.Text.decode a (t ++ [0#8]) out).tr = (Tr.Text.decode a (t' ++ [0#8]) out').tr ↔
    t.map (seen a) = t'.map (seen a) ∧ n = n' := by
  rw [decode_tr a t out h0 n o h, decode_tr a t' out' h0' n' o' h', List.append_right_inj, G_iff]
  refine and_congr_right fun hm => ?_
  rw [opEnd_eq a t t' 0 0 hm]
  constructor
  · intro e
    have := congrArg List.getLast? e
    simpa using this
  · rintro rfl
    rfl

end Pgfe.Proofs.TextTrace
