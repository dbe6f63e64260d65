import Verif.Proofs.BaseThrow
import Verif.Props.BaseClasses
/-!
# C74: base-encoding objects when memory runs out
-/
namespace Pgfe.Props
open Pgfe.Model Pgfe.Spec Pgfe.Proofs Pgfe.Proofs.Throw

/-! ## Specification -/

/-- `encode` or `decode`? -/
def SameKind : BaseCall → BaseCall → Prop
  | .enc _ _ _, .enc _ _ _ => True
  | .dec _, .dec _ => True
  | _, _ => False

/-- The call a thread is in, or else the one it makes next. -/
def nextCall (t : Thread) : Option BaseCall :=
  match t.cur with
  | some (c, _) => some c
  | none => t.todo.head?

/-- The calls of thread `i` that ended with an exception. -/
def thrownBy (i : Nat) (l : List (Nat × BaseCall)) : List BaseCall :=
  (l.filter (fun q => q.1 == i)).map Prod.snd

/-- The finished calls of the kind of `c`, with their results. -/
def finishedLike (c : BaseCall) (t : Thread) : List (BaseCall × List Byte) :=
  t.done.filter (fun q => isEnc q.1 == isEnc c)

theorem sameKind_iff (c c' : BaseCall) : SameKind c c' ↔ isEnc c = isEnc c' := by
  cases c <;> cases c' <;> simp [SameKind, isEnc]

/-! ## The invariant along a history -/

/-- The invariant of a system with exceptions. -/
def ThrowInv (K : BaseClass) (work : Nat → List BaseCall) (s : TSystem) : Prop :=
  ∃ work', Inv K work' (s.thrown.any (fun q => isEnc q.2)) (s.thrown.any (fun q => !isEnc q.2)) s.sys ∧
    (∀ j, (work' j).Sublist (work j)) ∧ ∀ j, (work' j ++ thrownBy j s.thrown).Perm (work j)

theorem evStep_ok (K : BaseClass) (hK : GoodEstimates K) (work : Nat → List BaseCall)
    (hw : ∀ i, ∀ c ∈ work i, ValidCall K c) (e : Ev) (s : TSystem) (h : ThrowInv K work s) :
    ∃ s', evStep K e s = .ok s' ∧ ThrowInv K work s' := by
  obtain ⟨work', hI, hs, hp⟩ := h
  cases e with
  | step i =>
    obtain ⟨s1, e1, h1⟩ := step_ok K hK work' (fun i c hc => hw i c ((hs i).subset hc)) _ _ i s.sys hI
    exact ⟨⟨s1, s.thrown⟩, by unfold evStep; dsimp only; rw [e1]; rfl, work', h1, hs, hp⟩
  | throw i =>
    refine ⟨_, rfl, ?_⟩
    rcases sysThrow_cases K i s with e1 | ⟨c, ph, hc, hph, e1⟩
    · rw [e1]; exact ⟨work', hI, hs, hp⟩
    · rw [e1]
      obtain ⟨w2, h2, s2, p2, o2⟩ := throw_ok K work' _ _ i s.sys hI c ph hc hph
      refine ⟨w2, ?_, fun j => (s2 j).trans (hs j), ?_⟩
      · rw [List.any_cons, List.any_cons, Bool.or_comm (isEnc c), Bool.or_comm (!isEnc c)]
        exact h2
      · intro j
        by_cases hj : j = i
        · subst hj
          refine List.Perm.trans ?_ (hp j)
          have ht : thrownBy j ((j, c) :: s.thrown) = c :: thrownBy j s.thrown := by
            simp [thrownBy]
          rw [ht, show w2 j ++ c :: thrownBy j s.thrown = (w2 j ++ [c]) ++ thrownBy j s.thrown by simp]
          exact List.Perm.append_right _ p2
        · have ht : thrownBy j ((i, c) :: s.thrown) = thrownBy j s.thrown := by
            simp [thrownBy, Ne.symm hj]
          rw [ht, o2 j hj]
          exact hp j

theorem evRun_ok (K : BaseClass) (hK : GoodEstimates K) (work : Nat → List BaseCall)
    (hw : ∀ i, ∀ c ∈ work i, ValidCall K c) (es : List Ev) :
    ∀ s, ThrowInv K work s → ∃ s', evRun K es s = .ok s' ∧ ThrowInv K work s' := by
  induction es with
  | nil => intro s h; exact ⟨s, rfl, h⟩
  | cons e es ih =>
    intro s h
    obtain ⟨s1, e1, h1⟩ := evStep_ok K hK work hw e s h
    obtain ⟨s2, e2, h2⟩ := ih s1 h1
    exact ⟨s2, by unfold evRun; rw [e1, bind_ok, e2], h2⟩

theorem evInit_inv (K : BaseClass) (work : Nat → List BaseCall) : ThrowInv K work (evInit work) := by
  refine ⟨work, ⟨_, sysInit_inv K work, ⟨fun _ => ⟨rfl, rfl, rfl⟩, ?_, fun _ => ⟨rfl, rfl, rfl⟩, ?_⟩⟩,
    fun j => List.Sublist.refl _, fun j => ?_⟩
  · intro h; cases h
  · intro h; cases h
  · simp [evInit, thrownBy]

/-! ## Results -/

/-- **C74, results.**  Any number of threads, any work, any schedule, any failures of allocations:
no call leaves a buffer; every call that returns has returned what the C function computes alone;
each thread's calls are made in its program order; and every call has returned, has thrown, is going
on or is still to come. -/
theorem C74_results (K : BaseClass) (hK : GoodEstimates K) (work : Nat → List BaseCall)
    (hw : ∀ i, ∀ c ∈ work i, ValidCall K c) (es : List Ev) :
    ∃ s, evRun K es (evInit work) = .ok s ∧
      (∀ i, ∀ cr ∈ (s.sys.threads i).done, IsResult K cr.1 cr.2) ∧
      (∀ i, ((s.sys.threads i).done.reverse.map Prod.fst ++
        ((s.sys.threads i).cur.toList.map Prod.fst) ++ (s.sys.threads i).todo).Sublist (work i)) ∧
      (∀ i, ((s.sys.threads i).done.reverse.map Prod.fst ++
        ((s.sys.threads i).cur.toList.map Prod.fst) ++ (s.sys.threads i).todo
          ++ thrownBy i s.thrown).Perm (work i)) := by
  obtain ⟨s, e, w, ⟨o0, hI, hH⟩, hs, hp⟩ := evRun_ok K hK work hw es _ (evInit_inv K work)
  refine ⟨s, e, fun i => (hI.thr i).res, fun i => ?_, fun i => ?_⟩
  · have := (hI.thr i).order
    dsimp only at this
    rw [this]; exact hs i
  · have := (hI.thr i).order
    dsimp only at this
    rw [this]; exact hp i

/-! ## The dead half -/

theorem finishedLike_of_done {c : BaseCall} {t t' : Thread} (h : t'.done = t.done) :
    finishedLike c t' = finishedLike c t := by unfold finishedLike; rw [h]

/-- With a dead half no call of that kind finishes. -/
theorem dead_step (K : BaseClass) (work : Nat → List BaseCall) (c : BaseCall) (e d : Bool) (i : Nat)
    (s s' : System) (h : Inv K work e d s) (hd : (if isEnc c then e else d) = true)
    (hs : sysStep K i s = .ok s') (j : Nat) :
    finishedLike c (s'.threads j) = finishedLike c (s.threads j) := by
  obtain ⟨o0, hI, hH⟩ := h
  rcases sysStep_inv hs with ⟨_, rfl⟩ | ⟨p, hp, rfl⟩
  · rfl
  dsimp only
  by_cases hj : j = i
  · subst hj
    rw [if_pos rfl]
    cases hcur : (s.threads j).cur with
    | none =>
      unfold threadStep at hp
      rw [hcur] at hp
      dsimp only at hp
      cases htodo : (s.threads j).todo with
      | nil => rw [htodo] at hp; cases hp
      | cons c' cs => rw [htodo] at hp; cases hp; rfl
    | some cp =>
      obtain ⟨c', ph⟩ := cp
      -- a call of the dead kind is waiting for the mutex; another one does not count
      have key : isEnc c' = isEnc c → False := by
        intro hk
        cases c' with
        | enc S g x =>
          rw [← hk] at hd
          obtain ⟨l0, l1⟩ := hH.encDead (by simpa [isEnc] using hd)
          have hv : encView (s.threads j) = none := by
            cases hv : encView (s.threads j) with
            | none => rfl
            | some a =>
              have := (hI.enc.lock j).mp (by rw [hv]; rfl)
              rw [l0] at this; cases this
          have := encView_start hcur hv
          subst this
          unfold threadStep at hp
          rw [hcur] at hp
          dsimp only at hp
          cases hl : s.obj.encLock with
          | none => exact l1 hl
          | some m => rw [hl] at hp; cases hp
        | dec x =>
          rw [← hk] at hd
          obtain ⟨l0, l1⟩ := hH.decDead (by simpa [isEnc] using hd)
          have hv : decView (s.threads j) = none := by
            cases hv : decView (s.threads j) with
            | none => rfl
            | some a =>
              have := (hI.dec.lock j).mp (by rw [hv]; rfl)
              rw [l0] at this; cases this
          have := decView_start hcur hv
          subst this
          unfold threadStep at hp
          rw [hcur] at hp
          dsimp only at hp
          cases hl : s.obj.decLock with
          | none => exact l1 hl
          | some m => rw [hl] at hp; cases hp
      have hne : (isEnc c' == isEnc c) = false := by
        cases h : (isEnc c' == isEnc c) with
        | false => rfl
        | true => exact (key (by simpa using h)).elim
      have hcons : ∀ r, finishedLike c { s.threads j with cur := none, done := (c', r) :: (s.threads j).done }
          = finishedLike c (s.threads j) := by
        intro r; unfold finishedLike; rw [List.filter_cons]; simp [hne]
      by_cases hps : ph = .start
      · subst hps
        unfold threadStep at hp
        rw [hcur] at hp
        cases c' <;> dsimp only at hp <;> split at hp <;> cases hp <;> rfl
      · cases c' with
        | enc S g x =>
          obtain ⟨_, _, hx⟩ := enc_advance K j s _ hcur hps (sysStep_some hp)
          dsimp only at hx
          rw [if_pos rfl] at hx
          rcases hx with ⟨_, _, _, _, hdn⟩ | ⟨r, _, hdn, _⟩
          · exact finishedLike_of_done hdn
          · rw [← hcons r]; exact finishedLike_of_done hdn
        | dec x =>
          obtain ⟨_, _, hx⟩ := dec_advance K j s _ hcur hps (sysStep_some hp)
          dsimp only at hx
          rw [if_pos rfl] at hx
          rcases hx with ⟨_, _, _, _, hdn⟩ | ⟨r, _, hdn, _⟩
          · exact finishedLike_of_done hdn
          · rw [← hcons r]; exact finishedLike_of_done hdn
  · rw [if_neg hj]

theorem dead_run (K : BaseClass) (hK : GoodEstimates K) (work : Nat → List BaseCall)
    (hw : ∀ i, ∀ c ∈ work i, ValidCall K c) (c : BaseCall) (j : Nat) (es : List Ev) :
    ∀ s s', ThrowInv K work s → (∃ q ∈ s.thrown, SameKind q.2 c) → evRun K es s = .ok s' →
      finishedLike c (s'.sys.threads j) = finishedLike c (s.sys.threads j) := by
  induction es with
  | nil => intro s s' _ _ h; cases h; rfl
  | cons e es ih =>
    intro s s' hI hd hr
    obtain ⟨s1, e1, h1⟩ := evStep_ok K hK work hw e s hI
    unfold evRun at hr
    rw [e1, bind_ok] at hr
    have hflag : (if isEnc c then s.thrown.any (fun q => isEnc q.2)
        else s.thrown.any (fun q => !isEnc q.2)) = true := by
      obtain ⟨q, hq, hk⟩ := hd
      rw [sameKind_iff] at hk
      cases hc : isEnc c with
      | true => rw [if_pos rfl, List.any_eq_true]; exact ⟨q, hq, by rw [hk, hc]⟩
      | false => rw [if_neg (by simp), List.any_eq_true]; exact ⟨q, hq, by rw [hk, hc]; rfl⟩
    obtain ⟨w, hw', _, _⟩ := hI
    cases e with
    | step i =>
      unfold evStep at e1
      dsimp only at e1
      cases hs : sysStep K i s.sys with
      | error err => rw [hs] at e1; cases e1
      | ok s2 =>
        rw [hs, bind_ok] at e1
        cases e1
        rw [ih _ s' h1 hd hr]
        exact dead_step K w c _ _ i s.sys s2 hw' hflag hs j
    | throw i =>
      cases e1
      have hd1 : ∃ q ∈ (sysThrow K i s).thrown, SameKind q.2 c := by
        rcases sysThrow_cases K i s with e1 | ⟨c', ph, _, _, e1⟩
        · rw [e1]; exact hd
        · rw [e1]; obtain ⟨q, hq, hk⟩ := hd; exact ⟨q, List.mem_cons_of_mem _ hq, hk⟩
      rw [ih _ s' h1 hd1 hr]
      rcases sysThrow_cases K i s with e1 | ⟨c', ph, _, _, e1⟩
      · rw [e1]
      · rw [e1]
        apply finishedLike_of_done
        dsimp only
        split
        · rename_i h; rw [h]
        · rfl

/-- **C74, after an exception.**  Once a call of `encode` (or `decode`) has ended with an exception,
no `encode` (or `decode`) on that object ever finishes again, in whatever thread and whatever
happens: all later calls of that kind hang. -/
theorem C74_dead (K : BaseClass) (hK : GoodEstimates K) (work : Nat → List BaseCall)
    (hw : ∀ i, ∀ c ∈ work i, ValidCall K c) (es es' : List Ev) (s s' : TSystem)
    (hs : evRun K es (evInit work) = .ok s) (i : Nat) (c : BaseCall) (hc : (i, c) ∈ s.thrown)
    (hs' : evRun K es' s = .ok s') (j : Nat) :
    finishedLike c (s'.sys.threads j) = finishedLike c (s.sys.threads j) := by
  obtain ⟨s1, e1, h1⟩ := evRun_ok K hK work hw es _ (evInit_inv K work)
  rw [hs] at e1
  obtain rfl := Except.ok.inj e1
  exact dead_run K hK work hw c j es' s s' h1 ⟨(i, c), hc, (sameKind_iff _ _).mpr rfl⟩ hs'

/-! ## The living half -/

theorem evRun_steps (K : BaseClass) (th : List (Nat × BaseCall)) (sched : List Nat) : ∀ s s',
    sysRun K sched s = .ok s' → evRun K (sched.map .step) ⟨s, th⟩ = .ok ⟨s', th⟩ := by
  induction sched with
  | nil => intro s s' h; cases h; rfl
  | cons i is ih =>
    intro s s' h
    unfold sysRun at h
    cases hs : sysStep K i s with
    | error e => rw [hs] at h; cases h
    | ok s1 =>
      rw [hs, bind_ok] at h
      rw [List.map_cons]
      unfold evRun evStep
      dsimp only
      rw [hs, bind_ok, bind_ok]
      exact ih s1 s' h

/-- The next call of a thread, if its half of the object is alive, can be brought to its end. -/
theorem alive_complete (K : BaseClass) (hK : GoodEstimates K) (work : Nat → List BaseCall)
    (hw : ∀ i, ∀ c ∈ work i, ValidCall K c) (e d : Bool) (i : Nat) (c : BaseCall) (s : System)
    (hI : Inv K work e d s) (hc : nextCall (s.threads i) = some c)
    (ha : (if isEnc c then e else d) = false) :
    ∃ sched s' r, sysRun K sched s = .ok s' ∧ Inv K work e d s' ∧
      (s'.threads i).todo = (if (s.threads i).cur.isSome then (s.threads i).todo
        else (s.threads i).todo.tail) ∧ (s'.threads i).cur = none ∧
      (s'.threads i).done = (c, r) :: (s.threads i).done := by
  -- the call in progress
  have main : ∀ s1 : System, Inv K work e d s1 → ∀ ph, (s1.threads i).cur = some (c, ph) →
      ∃ sched s' r, sysRun K sched s1 = .ok s' ∧ Inv K work e d s' ∧
      (s'.threads i).todo = (s1.threads i).todo ∧ (s'.threads i).cur = none ∧
      (s'.threads i).done = (c, r) :: (s1.threads i).done := by
    intro s1 h1 ph hph
    cases c with
    | enc S g x =>
      have he : e = false := by simpa [isEnc] using ha
      subst he
      exact enc_complete K hK work hw d i S g x ph s1 h1 hph
    | dec x =>
      have hd : d = false := by simpa [isEnc] using ha
      subst hd
      exact dec_complete K hK work hw e i x ph s1 h1 hph
  unfold nextCall at hc
  cases hcur : (s.threads i).cur with
  | some cp =>
    rw [hcur] at hc
    cases hc
    obtain ⟨sched, s', r, a1, a2, a3, a4, a5⟩ := main s hI cp.2 hcur
    exact ⟨sched, s', r, a1, a2, by rw [a3]; rfl, a4, a5⟩
  | none =>
    rw [hcur] at hc
    dsimp only at hc
    cases htodo : (s.threads i).todo with
    | nil => rw [htodo] at hc; cases hc
    | cons c' cs =>
      rw [htodo] at hc
      cases hc
      obtain ⟨s1, e1, h1⟩ := step_ok K hK work hw e d i s hI
      have hts : threadStep K i s.obj (s.threads i)
          = some (.ok (s.obj, { s.threads i with cur := some (c, .start), todo := cs })) := by
        unfold threadStep; rw [hcur]; dsimp only; rw [htodo]
      rw [sysStep_some hts] at e1
      have e1' := Except.ok.inj e1
      have ht : s1.threads i = { s.threads i with cur := some (c, .start), todo := cs } := by
        rw [← e1']; dsimp only; rw [if_pos rfl]
      obtain ⟨sched, s', r, a1, a2, a3, a4, a5⟩ := main s1 h1 .start (by rw [ht])
      refine ⟨i :: sched, s', r, ?_, a2, by rw [a3, ht]; rfl, a4, by rw [a5, ht]⟩
      unfold sysRun
      rw [sysStep_some hts, bind_ok, e1']
      exact a1

/-- **C74, the other half.**  As long as no call of the same kind has ended with an exception, the
next call of every thread can be finished: some schedule without a further failure completes it. -/
theorem C74_alive (K : BaseClass) (hK : GoodEstimates K) (work : Nat → List BaseCall)
    (hw : ∀ i, ∀ c ∈ work i, ValidCall K c) (es : List Ev) (s : TSystem)
    (hs : evRun K es (evInit work) = .ok s) (i : Nat) (c : BaseCall)
    (hc : nextCall (s.sys.threads i) = some c) (ha : ∀ q ∈ s.thrown, ¬ SameKind q.2 c) :
    ∃ (sched : List Nat) (s' : TSystem) (r : List Byte), evRun K (sched.map .step) s = .ok s' ∧ s'.thrown = s.thrown ∧
      (s'.sys.threads i).done = (c, r) :: (s.sys.threads i).done ∧ IsResult K c r := by
  obtain ⟨s1, e1, h1⟩ := evRun_ok K hK work hw es _ (evInit_inv K work)
  rw [hs] at e1
  obtain rfl := Except.ok.inj e1
  obtain ⟨w, hI, hsub, _⟩ := h1
  have hflag : (if isEnc c then s.thrown.any (fun q => isEnc q.2)
        else s.thrown.any (fun q => !isEnc q.2)) = false := by
    cases hk : isEnc c with
    | true =>
      rw [if_pos rfl, List.any_eq_false]
      intro q hq he
      exact ha q hq ((sameKind_iff _ _).mpr (by rw [he, hk]))
    | false =>
      rw [if_neg (by simp), List.any_eq_false]
      intro q hq he
      exact ha q hq ((sameKind_iff _ _).mpr (by rw [hk]; simpa using he))
  obtain ⟨sched, s', r, a1, ⟨o0, hI', _⟩, _, _, a5⟩ :=
    alive_complete K hK w (fun i c hc => hw i c ((hsub i).subset hc)) _ _ i c s.sys hI hc hflag
  refine ⟨sched, ⟨s', s.thrown⟩, r, evRun_steps K s.thrown sched s.sys s' a1, rfl, a5, ?_⟩
  exact (hI'.thr i).res (c, r) (by show (c, r) ∈ (s'.threads i).done; rw [a5]; simp)

/-- **C14, every thread can finish.**  After any schedule without failures, every thread can be
brought to the end of its work. -/
theorem C14_completes (K : BaseClass) (hK : GoodEstimates K) (work : Nat → List BaseCall)
    (hw : ∀ i, ∀ c ∈ work i, ValidCall K c) (sched : List Nat) (s : System)
    (hs : sysRun K sched (sysInit work) = .ok s) (i : Nat) :
    ∃ sched' s', sysRun K sched' s = .ok s' ∧
      (s'.threads i).done.reverse.map Prod.fst = work i := by
  obtain ⟨s0, e, h⟩ := sysRun_ok K hK work hw sched _ (sysInit_inv K work)
  rw [hs] at e
  obtain rfl := Except.ok.inj e
  have hI : Inv K work false false s := ⟨s.obj, h, ⟨fun _ => ⟨rfl, rfl, rfl⟩, (fun h => by cases h),
    fun _ => ⟨rfl, rfl, rfl⟩, (fun h => by cases h)⟩⟩
  suffices hsuff : ∀ n (s : System), (s.threads i).cur.toList.length + (s.threads i).todo.length = n →
      Inv K work false false s →
      ∃ sched' s', sysRun K sched' s = .ok s' ∧ (s'.threads i).done.reverse.map Prod.fst = work i from
    hsuff _ s rfl hI
  intro n
  induction n with
  | zero =>
    intro s hn hI
    refine ⟨[], s, rfl, ?_⟩
    obtain ⟨o0, hS, _⟩ := hI
    have ho := (hS.thr i).order
    dsimp only at ho
    have h1 : (s.threads i).cur.toList = [] := List.length_eq_zero_iff.mp (by omega)
    have h2 : (s.threads i).todo = [] := List.length_eq_zero_iff.mp (by omega)
    rw [h1, h2] at ho
    simpa using ho
  | succ n ih =>
    intro s hn hI
    have hnext : ∃ c, nextCall (s.threads i) = some c := by
      unfold nextCall
      cases hcur : (s.threads i).cur with
      | some cp => exact ⟨_, rfl⟩
      | none =>
        rw [hcur] at hn
        cases htodo : (s.threads i).todo with
        | nil => rw [htodo] at hn; simp at hn
        | cons c cs => exact ⟨c, rfl⟩
    obtain ⟨c, hc⟩ := hnext
    obtain ⟨sc1, s1, r, a1, a2, a3, a4, _⟩ := alive_complete K hK work hw false false i c s hI hc
      (by split <;> rfl)
    have hn1 : (s1.threads i).cur.toList.length + (s1.threads i).todo.length = n := by
      rw [a4, a3]
      cases hcur : (s.threads i).cur with
      | some cp => rw [hcur] at hn; simp at hn ⊢; omega
      | none => rw [hcur] at hn; simp at hn ⊢; omega
    obtain ⟨sc2, s2, b1, b2⟩ := ih s1 hn1 a2
    exact ⟨sc1 ++ sc2, s2, sysRun_append K _ _ _ _ _ a1 b1, b2⟩

/-! ## Every call may throw -/

/-- Not yet at the construction of the result. -/
def Early (c : BaseCall) (t : Thread) : Prop :=
  (t.cur = none ∧ t.todo.head? = some c) ∨
    ∃ ph, t.cur = some (c, ph) ∧ (∀ n, ph ≠ .closed n) ∧ ∀ r, ph ≠ .built r

theorem early_step (K : BaseClass) (i : Nat) (c : BaseCall) (o : BaseObj) (t : Thread)
    (p : BaseObj × Thread) (h : Early c t) (hp : threadStep K i o t = some (.ok p)) :
    p.2.done = t.done ∧ (Early c p.2 ∨ ∃ n, p.2.cur = some (c, .closed n)) := by
  rcases h with ⟨h1, h2⟩ | ⟨ph, h1, h2, h3⟩
  · unfold threadStep at hp
    rw [h1] at hp
    dsimp only at hp
    cases ht : t.todo with
    | nil => rw [ht] at h2; cases h2
    | cons c' cs =>
      rw [ht] at h2 hp
      cases h2
      cases hp
      exact ⟨rfl, .inl (.inr ⟨.start, rfl, by simp, by simp⟩)⟩
  · unfold threadStep at hp
    rw [h1] at hp
    cases c with
    | enc S g x =>
      cases ph with
      | start =>
        dsimp only at hp
        split at hp
        · cases hp; exact ⟨rfl, .inl (.inr ⟨_, rfl, by simp, by simp⟩)⟩
        · cases hp
      | locked =>
        dsimp only at hp
        split at hp <;> cases hp <;> exact ⟨rfl, .inl (.inr ⟨_, rfl, by simp, by simp⟩)⟩
      | alloc sz => cases hp; exact ⟨rfl, .inl (.inr ⟨_, rfl, by simp, by simp⟩)⟩
      | ready =>
        dsimp only at hp
        cases hr : encRun K S g x o with
        | error e => rw [hr] at hp; cases hp
        | ok q => rw [hr] at hp; cases hp; exact ⟨rfl, .inl (.inr ⟨_, rfl, by simp, by simp⟩)⟩
      | ran n =>
        dsimp only at hp
        cases hr : encNul n o with
        | error e => rw [hr] at hp; cases hp
        | ok q => rw [hr] at hp; cases hp; exact ⟨rfl, .inr ⟨_, rfl⟩⟩
      | closed n => exact absurd rfl (h2 n)
      | built r => exact absurd rfl (h3 r)
    | dec x =>
      cases ph with
      | start =>
        dsimp only at hp
        split at hp
        · cases hp; exact ⟨rfl, .inl (.inr ⟨_, rfl, by simp, by simp⟩)⟩
        · cases hp
      | locked =>
        dsimp only at hp
        split at hp <;> cases hp <;> exact ⟨rfl, .inl (.inr ⟨_, rfl, by simp, by simp⟩)⟩
      | alloc sz => cases hp; exact ⟨rfl, .inl (.inr ⟨_, rfl, by simp, by simp⟩)⟩
      | ready =>
        dsimp only at hp
        cases hr : decRun K x o with
        | error e => rw [hr] at hp; cases hp
        | ok q => rw [hr] at hp; cases hp; exact ⟨rfl, .inl (.inr ⟨_, rfl, by simp, by simp⟩)⟩
      | ran n =>
        dsimp only at hp
        cases hr : decNul n o with
        | error e => rw [hr] at hp; cases hp
        | ok q => rw [hr] at hp; cases hp; exact ⟨rfl, .inr ⟨_, rfl⟩⟩
      | closed n => exact absurd rfl (h2 n)
      | built r => exact absurd rfl (h3 r)

/-- A call that gets finished gets to the construction of its result. -/
theorem closed_reached (K : BaseClass) (i : Nat) (c : BaseCall) (s' : System) (sched : List Nat) :
    ∀ s, Early c (s.threads i) → sysRun K sched s = .ok s' →
      (s'.threads i).done ≠ (s.threads i).done →
      ∃ (pre : List Nat) (s1 : System) (n : Nat), sysRun K pre s = .ok s1 ∧
        (s1.threads i).cur = some (c, .closed n) ∧ (s1.threads i).done = (s.threads i).done := by
  induction sched with
  | nil => intro s _ h hd; cases h; exact absurd rfl hd
  | cons j js ih =>
    intro s he h hd
    unfold sysRun at h
    cases hs : sysStep K j s with
    | error e => rw [hs] at h; cases h
    | ok s1 =>
      rw [hs, bind_ok] at h
      have key : (s1.threads i).done = (s.threads i).done ∧
          (Early c (s1.threads i) ∨ ∃ n, (s1.threads i).cur = some (c, .closed n)) := by
        rcases sysStep_inv hs with ⟨_, rfl⟩ | ⟨p, hp, rfl⟩
        · exact ⟨rfl, .inl he⟩
        · dsimp only
          by_cases hj : i = j
          · subst hj; rw [if_pos rfl]; exact early_step K i c _ _ p he hp
          · rw [if_neg hj]; exact ⟨rfl, .inl he⟩
      rcases key with ⟨k1, k2 | ⟨n, k2⟩⟩
      · obtain ⟨pre, s2, n, a1, a2, a3⟩ := ih s1 k2 h (by rw [k1]; exact hd)
        exact ⟨j :: pre, s2, n, by unfold sysRun; rw [hs, bind_ok, a1], a2, by rw [a3, k1]⟩
      · exact ⟨[j], s1, n, by unfold sysRun; rw [hs, bind_ok]; rfl, k2, k1⟩

/-- **C74, every call may throw at its end.**  Whatever call a thread makes next (on a half of the
object that is alive), however large the object's buffers have already become: some schedule brings it
to a point where it will return within two steps if memory suffices for its result, and where it ends
with an exception if not. -/
theorem C74_result_throws (K : BaseClass) (hK : GoodEstimates K) (work : Nat → List BaseCall)
    (hw : ∀ i, ∀ c ∈ work i, ValidCall K c) (es : List Ev) (s : TSystem)
    (hs : evRun K es (evInit work) = .ok s) (i : Nat) (c : BaseCall)
    (hcur : (s.sys.threads i).cur = none) (hc : (s.sys.threads i).todo.head? = some c)
    (ha : ∀ q ∈ s.thrown, ¬ SameKind q.2 c) :
    ∃ (sched : List Nat) (s1 s2 s3 : TSystem) (r : List Byte),
      evRun K (sched.map .step) s = .ok s1 ∧
      (evRun K [.step i, .step i] s1 = .ok s2 ∧ s2.thrown = s.thrown ∧
        (s2.sys.threads i).done = (c, r) :: (s.sys.threads i).done) ∧
      (evRun K [.throw i] s1 = .ok s3 ∧ s3.thrown = (i, c) :: s.thrown ∧
        (s3.sys.threads i).cur = none ∧ (s3.sys.threads i).done = (s.sys.threads i).done) := by
  obtain ⟨s0, e0, h0⟩ := evRun_ok K hK work hw es _ (evInit_inv K work)
  rw [hs] at e0
  obtain rfl := Except.ok.inj e0
  obtain ⟨w, hI, hsub, _⟩ := id h0
  have hflag : (if isEnc c then s.thrown.any (fun q => isEnc q.2)
        else s.thrown.any (fun q => !isEnc q.2)) = false := by
    cases hk : isEnc c with
    | true =>
      rw [if_pos rfl, List.any_eq_false]
      intro q hq he
      exact ha q hq ((sameKind_iff _ _).mpr (by rw [he, hk]))
    | false =>
      rw [if_neg (by simp), List.any_eq_false]
      intro q hq he
      exact ha q hq ((sameKind_iff _ _).mpr (by rw [hk]; simpa using he))
  obtain ⟨sched, s', r, a1, _, _, _, a5⟩ :=
    alive_complete K hK w (fun i c hc => hw i c ((hsub i).subset hc)) _ _ i c s.sys hI
      (by unfold nextCall; rw [hcur]; exact hc) hflag
  obtain ⟨pre, s1, n, b1, b2, b3⟩ := closed_reached K i c s' sched s.sys (.inl ⟨hcur, hc⟩) a1
    (by rw [a5]; simp)
  have r1 := evRun_steps K s.thrown pre s.sys s1 b1
  have hI1 : ThrowInv K work ⟨s1, s.thrown⟩ := by
    obtain ⟨x, ex, hx⟩ := evRun_ok K hK work hw (pre.map .step) _ h0
    have : evRun K (pre.map .step) s = .ok ⟨s1, s.thrown⟩ := r1
    rw [this] at ex
    obtain rfl := Except.ok.inj ex
    exact hx
  -- the two remaining steps
  have hstep : ∃ s2 r', evRun K [.step i, .step i] ⟨s1, s.thrown⟩ = .ok ⟨s2, s.thrown⟩ ∧
      (s2.threads i).done = (c, r') :: (s.sys.threads i).done := by
    obtain ⟨x, ex, _⟩ := evRun_ok K hK work hw [.step i, .step i] _ hI1
    unfold evRun evStep at ex
    dsimp only at ex
    cases hA : sysStep K i s1 with
    | error e => rw [hA] at ex; cases ex
    | ok sA =>
      have hcurA : ∃ r', (sA.threads i).cur = some (c, .built r') ∧
          (sA.threads i).done = (s1.threads i).done := by
        rcases sysStep_inv hA with ⟨hn, _⟩ | ⟨p, hp, rfl⟩
        · unfold threadStep at hn
          rw [b2] at hn
          cases c <;> cases hn
        · dsimp only
          rw [if_pos rfl]
          unfold threadStep at hp
          rw [b2] at hp
          cases c with
          | enc S g y =>
            dsimp only at hp
            cases hr : cstr s1.obj.enCache with
            | error e => rw [hr] at hp; cases hp
            | ok q => rw [hr] at hp; cases hp; exact ⟨_, rfl, rfl⟩
          | dec y =>
            dsimp only at hp
            cases hr : rds s1.obj.deCache 0 n with
            | error e => rw [hr] at hp; cases hp
            | ok q => rw [hr] at hp; cases hp; exact ⟨_, rfl, rfl⟩
      obtain ⟨r', c1, d1⟩ := hcurA
      have hB : ∃ sB, sysStep K i sA = .ok sB ∧ (sB.threads i).done = (c, r') :: (sA.threads i).done := by
        cases c with
        | enc S g y =>
          have : threadStep K i sA.obj (sA.threads i) = some (.ok ({ sA.obj with encLock := none },
              { sA.threads i with cur := none, done := (.enc S g y, r') :: (sA.threads i).done })) := by
            unfold threadStep; rw [c1]
          exact ⟨_, sysStep_some this, by dsimp only; rw [if_pos rfl]⟩
        | dec y =>
          have : threadStep K i sA.obj (sA.threads i) = some (.ok ({ sA.obj with decLock := none },
              { sA.threads i with cur := none, done := (.dec y, r') :: (sA.threads i).done })) := by
            unfold threadStep; rw [c1]
          exact ⟨_, sysStep_some this, by dsimp only; rw [if_pos rfl]⟩
      obtain ⟨sB, e2, d2⟩ := hB
      refine ⟨sB, r', ?_, by rw [d2, d1, b3]⟩
      unfold evRun evStep
      dsimp only
      rw [hA, bind_ok, bind_ok]
      unfold evRun evStep
      dsimp only
      rw [e2, bind_ok, bind_ok]
      rfl
  obtain ⟨s2, r', e2, d2⟩ := hstep
  -- or the exception
  have hthrow : sysThrow K i ⟨s1, s.thrown⟩ = ⟨⟨s1.obj, fun j => if j = i then
      { s1.threads i with cur := none } else s1.threads j⟩, (i, c) :: s.thrown⟩ := by
    have hm : mayThrow K s1.obj (s1.threads i) = true := by
      unfold mayThrow; rw [b2]; cases c <;> rfl
    unfold sysThrow
    rw [if_pos hm]
    dsimp only
    rw [b2]
  refine ⟨pre, _, _, sysThrow K i ⟨s1, s.thrown⟩, r', r1, ⟨e2, rfl, d2⟩, rfl, ?_, ?_, ?_⟩
  · rw [hthrow]
  · rw [hthrow]; dsimp only; rw [if_pos rfl]
  · rw [hthrow]; dsimp only; rw [if_pos rfl]; exact b3

/-! ## The expected property fails -/

theorem evRun_append (K : BaseClass) (a b : List Ev) : ∀ s s', evRun K a s = .ok s' →
    evRun K (a ++ b) s = evRun K b s' := by
  induction a with
  | nil => intro s s' h; cases h; rfl
  | cons e es ih =>
    intro s s' h
    unfold evRun at h
    cases hs : evStep K e s with
    | error err => rw [hs] at h; cases h
    | ok s1 =>
      rw [hs, bind_ok] at h
      show evRun K (e :: (es ++ b)) s = _
      conv => lhs; unfold evRun
      rw [hs, bind_ok]
      exact ih s1 s' h


/-- Thread 0 encodes 1000 bytes, thread 1 one byte. -/
def throwWork : Nat → List BaseCall
  | 0 => [.enc ⟨[0#8], [0#8, 0#8]⟩ (List.replicate 4 0#8) (List.replicate 1000 0x61#8),
      .dec [0x59#8, 0x51#8, 0x3D#8, 0x3D#8]]
  | 1 => [.enc ⟨[0#8], [0#8, 0#8]⟩ (List.replicate 4 0#8) [0x61#8]]
  | _ => []

theorem throwWork_valid : ∀ i, ∀ c ∈ throwWork i, ValidCall (libBase .base64) c := by
  intro i c hc
  match i with
  | 0 =>
    simp only [throwWork, List.mem_cons, List.not_mem_nil, or_false] at hc
    rcases hc with rfl | rfl
    · exact ⟨by unfold Roomy; decide, by unfold Scratch; decide⟩
    · exact ⟨by decide, by decide⟩
  | 1 =>
    simp only [throwWork, List.mem_cons, List.not_mem_nil, or_false] at hc
    subst hc
    exact ⟨by unfold Roomy; decide, by unfold Scratch; decide⟩
  | n + 2 => simp [throwWork] at hc

/-- `C74_result_throws` at work: the first `encode` of thread 1, on a new object. -/
example : ∃ (sched : List Nat) (s1 s3 : TSystem),
    evRun (libBase .base64) (sched.map .step) (evInit throwWork) = .ok s1 ∧
    evRun (libBase .base64) [.throw 1] s1 = .ok s3 ∧ s3.thrown.length = 1 := by
  obtain ⟨sched, s1, _, s3, _, a, _, b, c, _⟩ := C74_result_throws (libBase .base64) (libBase_good _)
    throwWork throwWork_valid [] _ rfl 1 _ rfl rfl (by intro q hq; cases hq)
  exact ⟨sched, s1, s3, a, b, by rw [c]; rfl⟩

/-- Thread 0 has called `encode`, taken the mutex, and its allocation has failed. -/
theorem throw_run : ∃ s, evRun (libBase .base64) [.step 0, .step 0, .throw 0] (evInit throwWork) = .ok s ∧
    s.thrown.map Prod.fst = [0] ∧ (∀ q ∈ s.thrown, isEnc q.2 = true) ∧ s.thrown ≠ [] ∧
    s.sys.threads 1 = ⟨none, throwWork 1, []⟩ ∧ (s.sys.threads 0).done = [] ∧
    nextCall (s.sys.threads 0) = some (.dec [0x59#8, 0x51#8, 0x3D#8, 0x3D#8]) := by
  have h : mayThrow (libBase .base64) { baseObjInit with encLock := some 0 }
      ⟨some (.enc ⟨[0#8], [0#8, 0#8]⟩ (List.replicate 4 0#8) (List.replicate 1000 0x61#8), .locked),
        [.dec [0x59#8, 0x51#8, 0x3D#8, 0x3D#8]], []⟩ = true := by
    have hg := (libBase_good .base64).enc 1000
    have hb : (specOf (libBase .base64).alg).bits = 6 := rfl
    rw [hb] at hg
    unfold mayThrow baseObjInit
    dsimp only
    rw [List.length_replicate]
    simp only [decide_eq_true_eq]
    omega
  let th : Nat → Thread := fun j => if j = 0 then
      ⟨some (.enc ⟨[0#8], [0#8, 0#8]⟩ (List.replicate 4 0#8) (List.replicate 1000 0x61#8), .locked),
        [.dec [0x59#8, 0x51#8, 0x3D#8, 0x3D#8]], []⟩
    else (if j = 0 then ⟨some (.enc ⟨[0#8], [0#8, 0#8]⟩ (List.replicate 4 0#8)
      (List.replicate 1000 0x61#8), .start), [.dec [0x59#8, 0x51#8, 0x3D#8, 0x3D#8]], []⟩
      else ⟨none, throwWork j, []⟩)
  have e : sysThrow (libBase .base64) 0 ⟨⟨{ baseObjInit with encLock := some 0 }, th⟩, []⟩ =
      ⟨⟨{ baseObjInit with encLock := some 0 }, fun j => if j = 0 then
        ⟨none, [.dec [0x59#8, 0x51#8, 0x3D#8, 0x3D#8]], []⟩ else th j⟩,
      [(0, .enc ⟨[0#8], [0#8, 0#8]⟩ (List.replicate 4 0#8) (List.replicate 1000 0x61#8))]⟩ :=
    if_pos h
  refine ⟨sysThrow (libBase .base64) 0 ⟨⟨{ baseObjInit with encLock := some 0 }, th⟩, []⟩, rfl, ?_⟩
  rw [e]
  exact ⟨rfl, by intro q hq; rw [List.mem_singleton] at hq; subst hq; rfl, List.cons_ne_nil _ _, rfl,
    rfl, rfl⟩

/-- **C74 fails as a user would expect it** ("a call that throws leaves the object usable"): after
thread 0's first `encode` has thrown, thread 1's `encode` of one byte never finishes; yet thread 0 can
still decode. -/
theorem C74_violation : ∃ es s, evRun (libBase .base64) es (evInit throwWork) = .ok s ∧
    (throwWork 1).length = 1 ∧
    (∀ es' s', evRun (libBase .base64) es' s = .ok s' → (s'.sys.threads 1).done = []) ∧
    ∃ (sched : List Nat) (s' : TSystem) (r : List Byte),
      evRun (libBase .base64) (sched.map .step) s = .ok s' ∧
      (s'.sys.threads 0).done = [(.dec [0x59#8, 0x51#8, 0x3D#8, 0x3D#8], r)] := by
  obtain ⟨s, hs, _, he, hne, ht1, hd0, ht0⟩ := throw_run
  refine ⟨_, s, hs, rfl, ?_, ?_⟩
  · intro es' s' hs'
    obtain ⟨q, qs, hq⟩ := List.exists_cons_of_ne_nil hne
    have hmem : (q.1, q.2) ∈ s.thrown := by rw [hq]; simp
    have hdead := C74_dead (libBase .base64) (libBase_good _) throwWork throwWork_valid _ es' s s' hs
      q.1 q.2 hmem hs' 1
    have hall : ∀ cr ∈ (s'.sys.threads 1).done, isEnc cr.1 = true := by
      obtain ⟨s2, e2, _, hsub, _⟩ := C74_results (libBase .base64) (libBase_good _) throwWork
        throwWork_valid ([.step 0, .step 0, .throw 0] ++ es')
      rw [evRun_append _ _ _ _ _ hs, hs'] at e2
      obtain rfl := Except.ok.inj e2
      intro cr hcr
      have hin : cr.1 ∈ throwWork 1 := (hsub 1).subset (by
        simp only [List.mem_append, List.mem_map, List.mem_reverse]
        exact .inl (.inl ⟨cr, hcr, rfl⟩))
      simp only [throwWork, List.mem_cons, List.not_mem_nil, or_false] at hin
      rw [hin]; rfl
    have hq2 : isEnc q.2 = true := he q (by rw [hq]; simp)
    unfold finishedLike at hdead
    rw [ht1, hq2, List.filter_eq_self.mpr (by intro a ha; rw [hall a ha]; rfl)] at hdead
    exact hdead
  · obtain ⟨sched, s', r, a1, _, a2, _⟩ := C74_alive (libBase .base64) (libBase_good _) throwWork
      throwWork_valid _ s hs 0 _ ht0 (by
        intro q hq hk
        rw [sameKind_iff, he q hq] at hk
        cases hk)
    exact ⟨sched, s', r, a1, by rw [a2, hd0]⟩

end Pgfe.Props
