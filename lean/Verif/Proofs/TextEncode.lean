import Verif.Proofs.TextDecode
import Verif.Proofs.TraceOther
/-!
# The encoders: same results as the model; what their accesses reveal
-/
namespace Pgfe.Proofs.TextTrace
open Pgfe Pgfe.Model Pgfe.Proofs.Trace

theorem transformLoop_res (x : List Byte) (n cs : Nat) (fuel : Nat) : ∀ (low high inp op : Nat) (out : List Byte),
    (Tr.Text.transformLoop x n cs fuel low high inp op out).res = transformLoop x n cs fuel low high inp op out := by
  induction fuel with
  | zero => intros; rfl
  | succ k ih =>
    intro low high inp op out
    unfold Tr.Text.transformLoop transformLoop
    by_cases h1 : inp ≤ n
    · by_cases h2 : low < high
      · simp only [res_bind, res_br, bind_ok, h1, h2, decide_true, if_true, res_rd, res_wr, ih]
      · by_cases h3 : high = 0
        · subst h3
          simp only [res_bind, res_br, bind_ok, h1, Nat.not_lt_zero, decide_true, decide_false, Bool.false_eq_true, if_true, if_false,
            res_rd, res_wr, ih]
        · by_cases h4 : inp + 1 < n
          · simp only [res_bind, res_br, bind_ok, h1, h2, h3, h4, decide_true, decide_false, Bool.false_eq_true, if_true, if_false,
              res_rd, res_wr, ih]
          · simp only [res_bind, res_br, bind_ok, h1, h2, h3, h4, decide_true, decide_false, Bool.false_eq_true, if_true, if_false,
              res_rd, res_wr, ih]
    · simp only [res_bind, res_br, bind_ok, h1, decide_false, Bool.false_eq_true, if_false, res_pure]

theorem transform_res (x : List Byte) (n cs : Nat) (out : List Byte) :
    (Tr.Text.transform x n cs out).res = transform x n cs out := transformLoop_res _ _ _ _ _ _ _ _ _

theorem lookups_res (al : List Byte) (split : List Byte) : ∀ i, (Tr.Text.lookups al split i).res =
    split.mapM (fun v => rd al v.toNat) := by
  induction split with
  | nil => intros; rfl
  | cons v r ih =>
    intro i
    rw [Tr.Text.lookups, List.mapM_cons]
    simp only [res_bind, res_br, bind_ok, res_rd, ih, res_pure]
    rfl

theorem padLoop_res (al : List Byte) (n : Nat) (z p : Byte) (hz : rd al 0 = .ok z) (hp : rd al n = .ok p) (rev : List Byte) :
    (Tr.Text.padLoop al n rev).res = .ok (padLoop z p rev) := by
  induction rev with
  | nil => rfl
  | cons c r ih =>
    rw [Tr.Text.padLoop, padLoop]
    simp only [res_bind, res_br, bind_ok, res_rd, hz]
    by_cases h : c = z
    · simp only [h, ne_eq, not_true_eq_false, decide_false, Bool.false_eq_true, if_false, res_bind, res_rd, hp, bind_ok, ih,
        res_pure]
    · simp only [h, ne_eq, not_false_eq_true, decide_true, if_true, res_pure]

theorem alphabet_rd (a : BaseAlg) : ∃ z p, rd a.alphabet 0 = .ok z ∧ rd a.alphabet a.params.alphabetSize = .ok p := by
  cases a
  · exact ⟨_, _, rfl, rfl⟩
  · exact ⟨_, _, rfl, rfl⟩
  · exact ⟨_, _, rfl, rfl⟩
  · exact ⟨_, _, rfl, rfl⟩
  · exact ⟨_, _, rfl, rfl⟩

theorem unittostr_res (a : BaseAlg) (S : Slack) (g unit : List Byte) (pad : Bool) (out : List Byte) (sp : Nat) :
    (Tr.Text.unittostr S a.params g a.alphabet unit pad out sp).res = (do
      let s ← unittostr S a.params g a.alphabet unit pad
      wrs out sp s) := by
  obtain ⟨z, p, hz, hp⟩ := alphabet_rd a
  unfold Tr.Text.unittostr unittostr
  rw [res_bind, transform_res]
  cases transform (unit ++ S.behindUnit) a.params.unitSize a.params.bitSize
      (g.take a.params.chunkCount ++ S.behindSplit) with
  | error e => rfl
  | ok r =>
    simp only [bind_ok, res_bind, lookups_res]
    cases (r.2.take a.params.chunkCount).mapM (fun v => rd a.alphabet v.toNat) with
    | error e => rfl
    | ok u =>
      simp only [bind_ok, res_br]
      cases pad
      · rfl
      · simp only [if_true, res_bind, padLoop_res _ _ z p hz hp, bind_ok, res_pure, hz, hp, res_wrs]

/-- One iteration of the encoder's loop. -/
def ebody (a : BaseAlg) (S : Slack) (g input : List Byte) (n k : Nat) (s : Nat × List Byte) : T (Nat × List Byte) := do
  let i := k * a.params.unitSize
  let part ← T.br (decide (n - i < a.params.unitSize))
  let unit ← (if part then do
      let zeros ← (⟨.ok (List.replicate a.params.unitSize 0#8), [.wr .buf 0 a.params.unitSize]⟩ : T (List Byte))
      let b ← T.rds .input input i (n - i)
      T.wrs .buf zeros 0 b
    else do
      let b ← T.rds .input input i a.params.unitSize
      let b ← (⟨.ok b, [.wr .buf 0 a.params.unitSize]⟩ : T (List Byte))
      pure b)
  let csOut ← Tr.Text.unittostr S a.params g a.alphabet unit part s.2 s.1
  pure (s.1 + a.params.chunkCount, csOut)

theorem encode_split (a : BaseAlg) (S : Slack) (g input : List Byte) (n : Nat) (out : List Byte) :
    Tr.Text.encode a S g input n out = (do
      let s ← T.forN ((n + a.params.unitSize - 1) / a.params.unitSize) (ebody a S g input n) (0, out)
      let csOut ← T.wr .output s.2 s.1 0#8
      pure (s.1, csOut)) := rfl

theorem ebody_res (a : BaseAlg) (S : Slack) (g input : List Byte) (n k : Nat) (s : Nat × List Byte) :
    (ebody a S g input n k s).res = (do
      let i := k * a.params.unitSize
      let remain := n - i
      let (unit, remain) ← if remain < a.params.unitSize then do
          let b ← rds input i remain
          .ok (splice (List.replicate a.params.unitSize 0#8) 0 b, remain)
        else do
          let b ← rds input i a.params.unitSize
          .ok (b, a.params.unitSize)
      let t ← unittostr S a.params g a.alphabet unit (a.params.unitSize - remain != 0)
      let csOut ← wrs s.2 s.1 t
      .ok (s.1 + a.params.chunkCount, csOut)) := by
  unfold ebody
  simp only [res_bind, res_br, bind_ok]
  by_cases h : n - k * a.params.unitSize < a.params.unitSize
  · simp only [h, decide_true, if_true, res_bind, bind_ok, res_rds]
    cases hb : rds input (k * a.params.unitSize) (n - k * a.params.unitSize) with
    | error e => rfl
    | ok b =>
      have hl : b.length = n - k * a.params.unitSize := by
        unfold rds at hb
        split at hb
        · cases hb; rw [List.length_take, List.length_drop]; omega
        · cases hb
      simp only [bind_ok, res_wrs, unittostr_res]
      rw [wrs_ok (by rw [List.length_replicate]; omega), bind_ok]
      have : (a.params.unitSize - (n - k * a.params.unitSize) != 0) = true := by
        simp only [bne_iff_ne, ne_eq]; omega
      rw [this]
      cases unittostr S a.params g a.alphabet (splice (List.replicate a.params.unitSize 0#8) 0 b) true <;> rfl
  · simp only [h, decide_false, Bool.false_eq_true, if_false, res_bind, bind_ok, res_rds]
    cases hb : rds input (k * a.params.unitSize) a.params.unitSize with
    | error e => rfl
    | ok b =>
      simp only [bind_ok, res_pure, unittostr_res]
      have : (a.params.unitSize - a.params.unitSize != 0) = false := by
        rw [Nat.sub_self]; rfl
      rw [this]
      cases unittostr S a.params g a.alphabet b false <;> rfl

theorem encode_res (a : BaseAlg) (S : Slack) (g input : List Byte) (n : Nat) (out : List Byte) :
    (Tr.Text.encode a S g input n out).res = pgfeEncode a S g input n out := by
  rw [encode_split, res_bind, res_forN]
  unfold pgfeEncode encodeBase
  have : (fun k s => (ebody a S g input n k s).res) = _ := funext fun k => funext fun s => ebody_res a S g input n k s
  rw [this]
  simp only [res_bind, res_wr, res_pure]

/-! ### Injectivity -/

theorem transform_same {x x' : List Byte} (hx : L x x') (n cs : Nat) (fuel : Nat) : ∀ (low high inp op : Nat)
    {o o' : List Byte}, L o o' → Same (fun a b => L a.2 b.2) (Tr.Text.transformLoop x n cs fuel low high inp op o)
      (Tr.Text.transformLoop x' n cs fuel low high inp op o') := by
  induction fuel with
  | zero => intro _ _ _ _ _ _ _; exact Same.fail _
  | succ k ih =>
    intro low high inp op o o' ho
    unfold Tr.Text.transformLoop
    refine Same.br rfl ?_
    split
    · refine Same.br rfl ?_
      split
      · refine Same.seq (Same.rd _ _ hx) fun b b' _ => Same.seq (Same.wr _ _ _ _ ho) fun u u' hu => ih _ _ _ _ hu
      · refine Same.br rfl ?_
        split
        · refine Same.seq (Same.rd _ _ hx) fun b b' _ => Same.seq (Same.wr _ _ _ _ ho) fun u u' hu => ih _ _ _ _ hu
        · refine Same.seq (Same.rd _ _ hx) fun b b' _ => Same.br rfl ?_
          split
          · refine Same.seq (Same.rd _ _ hx) fun b b' _ => Same.seq (Same.wr _ _ _ _ ho) fun u u' hu => ih _ _ _ _ hu
          · refine Same.seq (Same.wr _ _ _ _ ho) fun u u' hu => ih _ _ _ _ hu
    · exact Same.ret ho

theorem bind_okE {α β : Type} {m : T α} {k : α → T β} {b : β} (h : (m >>= k).res = .ok b) :
    ∃ v, m.res = .ok v ∧ (k v).res = .ok b := by
  rw [res_bind] at h
  cases hm : m.res with
  | error e => rw [hm] at h; cases h
  | ok v => rw [hm] at h; exact ⟨v, rfl, h⟩

theorem lookups_inj (al : List Byte) (s : List Byte) : ∀ (s' : List Byte) (i : Nat) (u u' : List Byte) (x y : List Event),
    s.length = s'.length → (Tr.Text.lookups al s i).res = .ok u → (Tr.Text.lookups al s' i).res = .ok u' →
    (Tr.Text.lookups al s i).tr ++ x = (Tr.Text.lookups al s' i).tr ++ y → u = u' ∧ x = y := by
  induction s with
  | nil =>
    intro s' i u u' x y hl h h' e
    cases s' with
    | nil => cases h; cases h'; exact ⟨rfl, List.append_cancel_left e⟩
    | cons _ _ => exact absurd hl (by simp)
  | cons v s ih =>
    intro s' i u u' x y hl h h' e
    cases s' with
    | nil => exact absurd hl (by simp)
    | cons v' s' =>
      rw [Tr.Text.lookups, br_bind, pre_res] at h h'
      obtain ⟨_, h1, h⟩ := bind_okE h
      obtain ⟨_, h1', h'⟩ := bind_okE h'
      cases h1
      cases h1'
      obtain ⟨c, hc, h⟩ := bind_okE h
      obtain ⟨c', hc', h'⟩ := bind_okE h'
      obtain ⟨_, h2, h⟩ := bind_okE h
      obtain ⟨_, h2', h'⟩ := bind_okE h'
      cases h2
      cases h2'
      obtain ⟨r, hr, h⟩ := bind_okE h
      obtain ⟨r', hr', h'⟩ := bind_okE h'
      cases h
      cases h'
      rw [Tr.Text.lookups, Tr.Text.lookups, br_bind, br_bind, ok_bindT (m := ⟨.ok v, _⟩) rfl,
        ok_bindT (m := ⟨.ok v', _⟩) rfl, ok_bindT hc, ok_bindT hc', ok_bindT (m := ⟨.ok c, _⟩) rfl,
        ok_bindT (m := ⟨.ok c', _⟩) rfl, ok_bindT hr, ok_bindT hr'] at e
      simp only [pre_tr, T.rd, List.cons_append, List.nil_append, List.cons.injEq, true_and, Event.rd.injEq, and_true] at e
      obtain ⟨ev, e⟩ := e
      have hv : v = v' := BitVec.eq_of_toNat_eq ev
      subst hv
      rw [hc] at hc'
      cases hc'
      have hp : ∀ z : List Byte, (pure z : T (List Byte)).tr = [] := fun _ => rfl
      rw [hp, hp, List.append_nil, List.append_nil] at e
      obtain ⟨e1, e2⟩ := ih s' (i + 1) r r' x y (by simpa using hl) hr hr' e
      exact ⟨by rw [e1], e2⟩

/-- What follows the lookups in `unittostr`. -/
def finish (a : BaseAlg) (pad : Bool) (out : List Byte) (sp : Nat) (unitS : List Byte) : T (List Byte) := do
  let pad ← T.br pad
  let unitS ← (if pad then do
      let r ← Tr.Text.padLoop a.alphabet a.params.alphabetSize unitS.reverse
      pure r.reverse
    else pure unitS)
  let src ← (⟨.ok unitS, [.rd .ws 0 unitS.length]⟩ : T (List Byte))
  T.wrs .output out sp src

theorem padLoop_length (z p : Byte) (l : List Byte) : (padLoop z p l).length = l.length := by
  induction l with
  | nil => rfl
  | cons c r ih =>
    rw [padLoop]
    split
    · rfl
    · rw [List.length_cons, List.length_cons, ih]

theorem transformLoop_length (x : List Byte) (n cs : Nat) (fuel : Nat) : ∀ (low high inp op : Nat) (out : List Byte)
    (r : Nat × List Byte), transformLoop x n cs fuel low high inp op out = .ok r → r.2.length = out.length := by
  have hw : ∀ {b o : List Byte} {i : Nat} {v : Byte}, wr b i v = .ok o → o.length = b.length := by
    intro b o i v h
    unfold wr at h
    split at h
    · cases h; rw [List.length_set]
    · cases h
  induction fuel with
  | zero => intro _ _ _ _ _ _ h; cases h
  | succ k ih =>
    intro low high inp op out r h
    unfold transformLoop at h
    repeat' split at h
    all_goals first
      | (cases h; rfl)
      | (cases hb : rd x inp with
         | error e => rw [hb] at h; cases h
         | ok b =>
           rw [hb, bind_ok] at h
           try dsimp only at h
           repeat' split at h
           all_goals first
             | (revert h
                generalize hv : wr out op _ = v
                intro h
                cases v with
                | error e => cases h
                | ok o => rw [bind_ok] at h; rw [ih _ _ _ _ _ _ h, hw hv])
             | (cases hb' : rd x (inp + 1) with
                | error e => rw [hb'] at h; cases h
                | ok b' =>
                  rw [hb', bind_ok] at h
                  revert h
                  generalize hv : wr out op _ = v
                  intro h
                  cases v with
                  | error e => cases h
                  | ok o => rw [bind_ok] at h; rw [ih _ _ _ _ _ _ h, hw hv]))

theorem lookups_length (al : List Byte) (s : List Byte) : ∀ (i : Nat) (u : List Byte),
    (Tr.Text.lookups al s i).res = .ok u → u.length = s.length := by
  induction s with
  | nil => intro i u h; cases h; rfl
  | cons v s ih =>
    intro i u h
    rw [Tr.Text.lookups, br_bind, pre_res] at h
    obtain ⟨_, h1, h⟩ := bind_okE h
    cases h1
    obtain ⟨c, hc, h⟩ := bind_okE h
    obtain ⟨_, h2, h⟩ := bind_okE h
    cases h2
    obtain ⟨r, hr, h⟩ := bind_okE h
    cases h
    rw [List.length_cons, List.length_cons, ih _ _ hr]

theorem finish_ok (a : BaseAlg) (pad : Bool) (sp : Nat) (u : List Byte) : ∃ (s : List Byte) (e : List Event),
    s.length = u.length ∧ ∀ (out o : List Byte), (finish a pad out sp u).res = .ok o → wrs out sp s = .ok o ∧ (finish a pad out sp u).tr = e := by
  obtain ⟨z, p, hz, hp⟩ := alphabet_rd a
  cases pad
  · exact ⟨u, [.br false] ++ ([.rd .ws 0 u.length] ++ [.wr .output sp u.length]), rfl, fun out o h => ⟨h, rfl⟩⟩
  · have hpl := padLoop_res a.alphabet a.params.alphabetSize z p hz hp u.reverse
    refine ⟨(padLoop z p u.reverse).reverse, [.br true] ++ ((Tr.Text.padLoop a.alphabet a.params.alphabetSize u.reverse).tr ++
        ([.rd .ws 0 (padLoop z p u.reverse).reverse.length] ++ [.wr .output sp (padLoop z p u.reverse).reverse.length])),
      by rw [List.length_reverse, padLoop_length, List.length_reverse], fun out o h => ⟨?_, ?_⟩⟩
    · unfold finish at h
      simp only [res_bind, res_br, bind_ok, if_true, hpl, res_pure, res_wrs] at h
      exact h
    · unfold finish
      rw [br_bind]
      simp only [if_true]
      rw [bind_assocT, ok_bindT hpl, pure_bindT]
      rfl

theorem unittostr_split (a : BaseAlg) (S : Slack) (g unit : List Byte) (pad : Bool) (out : List Byte) (sp : Nat) :
    Tr.Text.unittostr S a.params g a.alphabet unit pad out sp = (do
      let r ← Tr.Text.transform (unit ++ S.behindUnit) a.params.unitSize a.params.bitSize
        (g.take a.params.chunkCount ++ S.behindSplit)
      let u ← Tr.Text.lookups a.alphabet (r.2.take a.params.chunkCount) 0
      finish a pad out sp u) := rfl

theorem unittostr_inj (a : BaseAlg) (S S' : Slack) (hS1 : L S.behindUnit S'.behindUnit) (hS2 : L S.behindSplit S'.behindSplit)
    {g g' u u' : List Byte} (hg : L g g') (hgl : a.params.chunkCount ≤ g.length) (hu : L u u') (pad : Bool) (sp : Nat) (out out' o o' : List Byte) (x y : List Event)
    (h : (Tr.Text.unittostr S a.params g a.alphabet u pad out sp).res = .ok o)
    (h' : (Tr.Text.unittostr S' a.params g' a.alphabet u' pad out' sp).res = .ok o')
    (e : (Tr.Text.unittostr S a.params g a.alphabet u pad out sp).tr ++ x =
      (Tr.Text.unittostr S' a.params g' a.alphabet u' pad out' sp).tr ++ y) :
    (∃ s, s.length = a.params.chunkCount ∧ wrs out sp s = .ok o ∧ wrs out' sp s = .ok o') ∧ x = y := by
  rw [unittostr_split] at h h' e
  rw [unittostr_split] at e
  have hsame := transform_same (x := u ++ S.behindUnit) (x' := u' ++ S'.behindUnit)
    (by unfold L at *; rw [List.length_append, List.length_append, hu, hS1]) a.params.unitSize a.params.bitSize
    (3 * (a.params.unitSize + 2)) 0 (a.params.bitSize % 8) 0 0 (o := g.take a.params.chunkCount ++ S.behindSplit)
    (o' := g'.take a.params.chunkCount ++ S'.behindSplit)
    (by unfold L at *; rw [List.length_append, List.length_append, List.length_take, List.length_take, hg, hS2])
  obtain ⟨r, hr, h⟩ := bind_okE h
  obtain ⟨r', hr', h'⟩ := bind_okE h'
  obtain ⟨v, hv, h⟩ := bind_okE h
  obtain ⟨v', hv', h'⟩ := bind_okE h'
  have hl : L r.2 r'.2 := by
    have := hsame.res
    change Out _ (Tr.Text.transform _ _ _ _).res (Tr.Text.transform _ _ _ _).res at this
    rw [hr, hr'] at this
    exact this
  rw [ok_bindT hr, ok_bindT hr', ok_bindT hv, ok_bindT hv', pre_tr, pre_tr, pre_tr, pre_tr,
    show (Tr.Text.transform _ _ _ _).tr = (Tr.Text.transform _ _ _ _).tr from hsame.tr, app_cancel, List.append_assoc,
    List.append_assoc] at e
  obtain ⟨e1, e2⟩ := lookups_inj a.alphabet _ _ 0 v v' _ _ (by
    rw [List.length_take, List.length_take, show r.2.length = r'.2.length from hl]) hv hv' e
  subst e1
  obtain ⟨s, ev, hsl, hf⟩ := finish_ok a pad sp v
  obtain ⟨f1, f2⟩ := hf out o h
  obtain ⟨f1', f2'⟩ := hf out' o' h'
  rw [f2, f2'] at e2
  refine ⟨⟨s, ?_, f1, f1'⟩, List.append_cancel_left e2⟩
  rw [transform_res] at hr
  rw [hsl, lookups_length _ _ _ _ hv, List.length_take, transformLoop_length _ _ _ _ _ _ _ _ _ _ hr, List.length_append,
    List.length_take]
  omega

theorem wrs_take {b o s : List Byte} {i : Nat} (h : wrs b i s = .ok o) : o.take (i + s.length) = b.take i ++ s := by
  unfold wrs at h
  split at h
  · rename_i hl
    cases h
    unfold splice
    rw [List.take_left' (by rw [List.length_append, List.length_take]; omega)]
  · cases h

theorem eunit (a : BaseAlg) (S : Slack) (g input : List Byte) (n k : Nat) (s : Nat × List Byte) (r : Nat × List Byte)
    (h : (ebody a S g input n k s).res = .ok r) : ∃ (u : List Byte) (o : List Byte), u.length = a.params.unitSize ∧
      (Tr.Text.unittostr S a.params g a.alphabet u (decide (n - k * a.params.unitSize < a.params.unitSize)) s.2 s.1).res = .ok o ∧
      r = (s.1 + a.params.chunkCount, o) ∧
      (ebody a S g input n k s).tr = (if n - k * a.params.unitSize < a.params.unitSize then
          [.br true, .wr .buf 0 a.params.unitSize, .rd .input (k * a.params.unitSize) (n - k * a.params.unitSize),
            .wr .buf 0 (n - k * a.params.unitSize)]
        else [.br false, .rd .input (k * a.params.unitSize) a.params.unitSize, .wr .buf 0 a.params.unitSize]) ++
      (Tr.Text.unittostr S a.params g a.alphabet u (decide (n - k * a.params.unitSize < a.params.unitSize)) s.2 s.1).tr := by
  have rl : ∀ {b o : List Byte} {i m : Nat}, rds b i m = .ok o → o.length = m := by
    intro b o i m h
    unfold rds at h
    split at h
    · cases h; rw [List.length_take, List.length_drop]; omega
    · cases h
  have hp : ∀ {α : Type} (v : α), (pure v : T α).tr = [] := fun _ => rfl
  unfold ebody at h ⊢
  by_cases hc : n - k * a.params.unitSize < a.params.unitSize
  · simp only [hc, decide_true, br_bind, if_true] at h ⊢
    rw [pre_res, bind_assocT] at h
    rw [bind_assocT]
    obtain ⟨z, hz, h⟩ := bind_okE h
    cases hz
    rw [bind_assocT] at h
    obtain ⟨b, hb, h⟩ := bind_okE h
    obtain ⟨u, hu, h⟩ := bind_okE h
    obtain ⟨o, ho, h⟩ := bind_okE h
    cases h
    have hbl := rl hb
    have hul : u.length = a.params.unitSize := by
      rw [res_wrs, wrs_ok (by rw [List.length_replicate]; omega)] at hu
      cases hu
      rw [splice_length (by rw [List.length_replicate]; omega), List.length_replicate]
    refine ⟨u, o, hul, ho, rfl, ?_⟩
    rw [ok_bindT (m := ⟨.ok _, _⟩) rfl, bind_assocT, ok_bindT hb, ok_bindT hu, ok_bindT ho]
    simp only [pre_tr, hp, List.append_nil]
    show [Event.br true] ++ ([.wr .buf 0 a.params.unitSize] ++ ([.rd .input _ _] ++ ([.wr .buf 0 b.length] ++ _))) = _
    rw [hbl]
    rfl
  · simp only [hc, decide_false, br_bind, if_false, Bool.false_eq_true] at h ⊢
    rw [pre_res, bind_assocT] at h
    rw [bind_assocT]
    obtain ⟨b, hb, h⟩ := bind_okE h
    obtain ⟨z, hz, h⟩ := bind_okE h
    cases hz
    obtain ⟨o, ho, h⟩ := bind_okE h
    cases h
    refine ⟨b, o, rl hb, ho, rfl, ?_⟩
    rw [ok_bindT hb, ok_bindT (m := ⟨.ok _, _⟩) rfl, ok_bindT ho]
    simp only [pre_tr, hp, List.append_nil]
    rfl

theorem eiter_inj (a : BaseAlg) (S S' : Slack) (hS1 : L S.behindUnit S'.behindUnit) (hS2 : L S.behindSplit S'.behindSplit)
    {g g' : List Byte} (hg : L g g') (hgl : a.params.chunkCount ≤ g.length) (x x' : List Byte) (n : Nat) (out out' : List Byte) :
    ∀ (k : Nat) (s s' : Nat × List Byte) (y y' : List Event),
    (T.iter k (fun i s => do let _ ← T.br true; ebody a S g x n i s) (0, out)).res = .ok s →
    (T.iter k (fun i s => do let _ ← T.br true; ebody a S' g' x' n i s) (0, out')).res = .ok s' →
    (T.iter k (fun i s => do let _ ← T.br true; ebody a S g x n i s) (0, out)).tr ++ y =
    (T.iter k (fun i s => do let _ ← T.br true; ebody a S' g' x' n i s) (0, out')).tr ++ y' →
    s.1 = s'.1 ∧ s.2.take s.1 = s'.2.take s'.1 ∧ y = y' := by
  intro k
  induction k with
  | zero =>
    intro s s' y y' h h' e
    cases h
    cases h'
    exact ⟨rfl, rfl, e⟩
  | succ k ih =>
    intro s s' y y' h h' e
    rw [T.iter] at h h' e
    rw [T.iter] at e
    obtain ⟨r, hr, h⟩ := bind_okE h
    obtain ⟨r', hr', h'⟩ := bind_okE h'
    rw [ok_bindT hr, ok_bindT hr', pre_tr, pre_tr, List.append_assoc, List.append_assoc] at e
    rw [br_bind, pre_res] at h h'
    obtain ⟨i1, i2, e⟩ := ih r r' _ _ hr hr' e
    rw [br_bind, br_bind, pre_tr, pre_tr, List.append_assoc, List.append_assoc] at e
    replace e := List.append_cancel_left e
    obtain ⟨u, o, ul, uo, rfl, ue⟩ := eunit _ _ _ _ _ _ _ _ h
    obtain ⟨u', o', ul', uo', rfl, ue'⟩ := eunit _ _ _ _ _ _ _ _ h'
    rw [ue, ue', List.append_assoc, List.append_assoc] at e
    replace e := List.append_cancel_left e
    rw [← i1] at uo' e
    obtain ⟨⟨w, wl, w1, w2⟩, e⟩ := unittostr_inj a S S' hS1 hS2 hg hgl (ul.trans ul'.symm) _ _ _ _ _ _ _ _ uo uo' e
    refine ⟨by rw [i1], ?_, e⟩
    show o.take (r.1 + a.params.chunkCount) = o'.take (r'.1 + a.params.chunkCount)
    rw [← i1, ← wl, wrs_take w1, wrs_take w2, i2, ← i1]

theorem encode_inj (a : BaseAlg) (S S' : Slack) (hS1 : L S.behindUnit S'.behindUnit) (hS2 : L S.behindSplit S'.behindSplit)
    {g g' : List Byte} (hg : L g g') (hgl : a.params.chunkCount ≤ g.length) (x x' : List Byte) (n : Nat) (out out' : List Byte)
    (m m' : Nat) (o o' : List Byte)
    (h : (Tr.Text.encode a S g x n out).res = .ok (m, o)) (h' : (Tr.Text.encode a S' g' x' n out').res = .ok (m', o'))
    (e : (Tr.Text.encode a S g x n out).tr = (Tr.Text.encode a S' g' x' n out').tr) :
    m = m' ∧ o.take m = o'.take m' := by
  have ht : ∀ {b c : List Byte} {i : Nat} {v : Byte}, wr b i v = .ok c → c.take i = b.take i := by
    intro b c i v h
    unfold wr at h
    split at h
    · cases h; rw [List.take_set_of_le (Nat.le_refl _)]
    · cases h
  rw [encode_split] at h h' e
  rw [encode_split] at e
  unfold T.forN at h h' e
  rw [bind_assocT] at h h' e
  rw [bind_assocT] at e
  obtain ⟨s, hs, h⟩ := bind_okE h
  obtain ⟨s', hs', h'⟩ := bind_okE h'
  rw [ok_bindT hs, ok_bindT hs', pre_tr, pre_tr] at e
  obtain ⟨i1, i2, _⟩ := eiter_inj a S S' hS1 hS2 hg hgl x x' n out out' _ s s' _ _ hs hs' e
  rw [br_bind, pre_bind, pre_res, pure_bindT] at h h'
  obtain ⟨c, hc, h⟩ := bind_okE h
  obtain ⟨c', hc', h'⟩ := bind_okE h'
  cases h
  cases h'
  rw [res_wr] at hc hc'
  exact ⟨i1, by rw [ht hc, ht hc', i2]⟩

end Pgfe.Proofs.TextTrace
