import Verif.Props.HashThreads
/-!
# C92: one hash context for several threads, with a lock around every call
-/
namespace Pgfe.Props
open Pgfe.Model Pgfe.Spec Pgfe.Spec.Again Pgfe.Proofs.Hash Pgfe.Proofs.HashThreads
open Pgfe.Model.HashImpl (Call)

/-! ## Specification -/

/-- The calls of thread `t` in a sequence of calls of several threads. -/
def callsOf (t : Nat) (order : List (Nat × Call)) : List Call :=
  (order.filter (fun p => p.1 == t)).map (·.2)

/-- Of the answers to all the digest calls of a sequence those that thread `t` gets. -/
def answersOf (t : Nat) : List (Nat × Call) → List (List Byte) → List (List Byte)
  | [], _ => []
  | (_, .update _) :: r, ds => answersOf t r ds
  | (_, .digest _) :: _, [] => []
  | (u, .digest _) :: r, d :: ds => if u = t then d :: answersOf t r ds else answersOf t r ds

/-- The calls of a thread that have not taken effect. -/
def pending {I : HashImpl} (th : HThread I (lockedMicro I)) : List Call :=
  match th.cur with
  | some l => .update l.1 :: th.todo
  | none => th.todo

/-! ## Sequences of calls -/

theorem calls_snoc (I : HashImpl) (x : Call) : ∀ (l : List Call) (c c1 c2 : I.Ctx) (o1 o2 : List (List Byte)),
    I.calls c l = .ok (c1, o1) → I.calls c1 [x] = .ok (c2, o2) → I.calls c (l ++ [x]) = .ok (c2, o1 ++ o2) := by
  intro l
  induction l with
  | nil => intro c c1 c2 o1 o2 h1 h2; cases h1; exact h2
  | cons y l ih =>
    intro c c1 c2 o1 o2 h1 h2
    cases y with
    | update y =>
      rw [List.cons_append]
      simp only [HashImpl.calls] at h1 ⊢
      generalize I.update c (some y) y.length = q at h1 ⊢
      cases q with
      | error e => rw [bind_err] at h1; cases h1
      | ok c' => rw [bind_ok] at h1 ⊢; exact ih c' c1 c2 o1 o2 h1 h2
    | digest out =>
      rw [List.cons_append]
      simp only [HashImpl.calls] at h1 ⊢
      generalize I.digest c out = q at h1 ⊢
      cases q with
      | error e => rw [bind_err] at h1; cases h1
      | ok r =>
        rw [bind_ok] at h1 ⊢
        generalize hq : I.calls r.1 l = q at h1
        cases q with
        | error e => rw [bind_err] at h1; cases h1
        | ok s =>
          rw [bind_ok] at h1
          cases h1
          rw [ih r.1 s.1 c2 s.2 o2 hq h2, bind_ok]
          rfl

/-- The answers of a longer sequence. -/
theorem answers_snoc (I : HashImpl) (t u : Nat) (x : Call) : ∀ (order : List (Nat × Call)) (c c1 : I.Ctx)
    (o1 o2 : List (List Byte)), I.calls c (order.map (·.2)) = .ok (c1, o1) →
    answersOf t (order ++ [(u, x)]) (o1 ++ o2) = answersOf t order o1 ++ answersOf t [(u, x)] o2 := by
  intro order
  induction order with
  | nil => intro c c1 o1 o2 h; cases h; rfl
  | cons p order ih =>
    intro c c1 o1 o2 h
    obtain ⟨v, y⟩ := p
    cases y with
    | update y =>
      simp only [List.map_cons, HashImpl.calls] at h
      generalize I.update c (some y) y.length = q at h
      cases q with
      | error e => rw [bind_err] at h; cases h
      | ok c' =>
        rw [bind_ok] at h
        rw [List.cons_append, answersOf, answersOf]
        exact ih c' c1 o1 o2 h
    | digest out =>
      simp only [List.map_cons, HashImpl.calls] at h
      generalize I.digest c out = q at h
      cases q with
      | error e => rw [bind_err] at h; cases h
      | ok r =>
        rw [bind_ok] at h
        generalize hq : I.calls r.1 (order.map (·.2)) = q at h
        cases q with
        | error e => rw [bind_err] at h; cases h
        | ok s =>
          rw [bind_ok] at h
          cases h
          have := ih r.1 s.1 s.2 o2 hq
          rw [List.cons_append, List.cons_append, answersOf, answersOf, this]
          split <;> rfl

theorem total_append (l m : List Call) : total (l ++ m) = total l + total m := by
  induction l with
  | nil => rw [List.nil_append]; exact (Nat.zero_add _).symm
  | cons x l ih => cases x <;> simp only [List.cons_append, total, ih] <;> omega

theorem callsOf_append (t : Nat) (o p : List (Nat × Call)) : callsOf t (o ++ p) = callsOf t o ++ callsOf t p := by
  rw [callsOf, List.filter_append, List.map_append]; rfl

/-- The total of a sequence is that of the parts of the threads. -/
theorem total_threads (n : Nat) : ∀ order : List (Nat × Call), (∀ p ∈ order, p.1 < n) →
    total (order.map (·.2)) = ((List.range n).map (fun t => total (callsOf t order))).sum := by
  intro order
  induction order with
  | nil =>
    intro _
    show 0 = ((List.range n).map (fun _ => 0)).sum
    induction n with
    | zero => rfl
    | succ n ih => rw [List.range_succ, List.map_append, List.sum_append, ← ih (fun p h => by cases h)]; rfl
  | cons p order ih =>
    intro h
    have hp := h p (List.mem_cons_self ..)
    have e : ∀ k, k ≤ n → ((List.range k).map (fun t => total (callsOf t (p :: order)))).sum =
        (if p.1 < k then total [p.2] else 0) + ((List.range k).map (fun t => total (callsOf t order))).sum := by
      intro k
      induction k with
      | zero => intro _; rfl
      | succ k ihk =>
        intro hk
        rw [List.range_succ, List.map_append, List.map_append, List.sum_append, List.sum_append, ihk (by omega)]
        have e1 : total (callsOf k (p :: order)) = (if p.1 = k then total [p.2] else 0) + total (callsOf k order) := by
          rw [show p :: order = [p] ++ order from rfl, callsOf_append, total_append]
          congr 1
          by_cases hk : p.1 = k
          · rw [if_pos hk, callsOf]; simp [hk]
          · rw [if_neg hk, callsOf]; simp [hk, total]
        simp only [List.map_cons, List.map_nil, List.sum_cons, List.sum_nil, e1]
        by_cases h1 : p.1 < k
        · have h2 : p.1 < k + 1 := by omega
          have h3 : ¬ p.1 = k := by omega
          simp only [h1, h2, h3, if_true, if_false]; omega
        · by_cases h2 : p.1 = k
          · have h3 : p.1 < k + 1 := by omega
            simp only [h1, h2, if_true, if_false, Nat.lt_irrefl, Nat.lt_succ_self]; omega
          · have h3 : ¬ p.1 < k + 1 := by omega
            simp only [h1, h2, h3, if_false]; omega
    rw [e n (Nat.le_refl _), if_pos hp, ← ih (fun q hq => h q (List.mem_cons_of_mem _ hq)), List.map_cons,
      show p.2 :: order.map (·.2) = [p.2] ++ order.map (·.2) from rfl, total_append]

/-- How many turns a thread still needs: two for each update (to enter and to be done), one for each digest. -/
def turnsLeft (l : List Call) : Nat :=
  match l with
  | [] => 0
  | .update _ :: r => 2 + turnsLeft r
  | .digest _ :: r => 1 + turnsLeft r

/-- The same in the middle of a run. -/
def left {I : HashImpl} (th : HThread I (lockedMicro I)) : Nat :=
  (if th.cur.isSome then 1 else 0) + turnsLeft th.todo

theorem left_step {I : HashImpl} (c c' : I.Ctx) (th th' : HThread I (lockedMicro I)) (h : th.step c = .ok (c', th')) :
    left th' = left th - 1 := by
  obtain ⟨todo, cur, outs⟩ := th
  cases cur with
  | some l =>
    simp only [HThread.step] at h
    generalize I.update c (some l.1) l.2 = q at h
    cases q with
    | error e => simp only [bind_err] at h; cases h
    | ok r =>
      simp only [bind_ok, Except.ok.injEq, Prod.mk.injEq] at h
      rw [← h.2]
      simp [left]
  | none =>
    cases todo with
    | nil => cases h; rfl
    | cons x todo =>
      cases x with
      | update x => cases h; simp only [left, turnsLeft, Option.isSome, if_true, Bool.false_eq_true, if_false]; omega
      | digest out =>
        simp only [HThread.step] at h
        generalize I.digest c out = q at h
        cases q with
        | error e => simp only [bind_err] at h; cases h
        | ok r =>
          simp only [bind_ok, Except.ok.injEq, Prod.mk.injEq] at h
          rw [← h.2]
          simp only [left, turnsLeft, Option.isSome, Bool.false_eq_true, if_false]; omega

theorem left_run {I : HashImpl} (t : Nat) : ∀ (sched : List Nat)
    (s s' : HWorld (fun _ => I) (fun _ => lockedMicro I) (fun _ => 0)), s.run sched = .ok s' →
    left (s'.threads t) = left (s.threads t) - sched.count t := by
  intro sched
  induction sched with
  | nil => intro s s' h; cases h; rfl
  | cons u sched ih =>
    intro s s' h
    simp only [HWorld.run, HWorld.step] at h
    generalize hq : (s.threads u).step (s.ctxs 0) = q at h
    cases q with
    | error e => simp only [bind_err] at h; cases h
    | ok r =>
      simp only [bind_ok] at h
      have e := ih _ _ h
      have e1 := left_step _ _ _ _ hq
      dsimp only at e
      rw [e]
      by_cases htu : t = u
      · subst htu
        rw [setAt_same, List.count_cons_self, e1]; omega
      · rw [setAt_ne _ _ _ _ htu, List.count_cons_of_ne (Ne.symm htu)]

theorem left_zero {I : HashImpl} (th : HThread I (lockedMicro I)) (h : left th = 0) : pending th = [] := by
  obtain ⟨todo, cur, outs⟩ := th
  cases cur with
  | some l => simp [left] at h
  | none =>
    cases todo with
    | nil => rfl
    | cons x todo => cases x <;> simp [left, turnsLeft] at h

/-- **C92, a lock around every call.** Any number `n` of threads, one context (any algorithm) on which init
was called, and for each thread any sequence of update and digest calls, each under a lock.  Then for every
schedule: nothing leaves the defined behaviour, and there is an order of the calls that took effect, in which
the calls of each thread stand in the order in which the thread makes them, such that every thread received
what the abstract machine of the algorithm answers to its digest calls in this order; and a thread that got
enough turns has made all its calls. -/
theorem C92_locked (a : Alg) (bits : Nat) (hb : bits < 2 ^ 32) (h8 : isShake a = true → bits % 8 = 0)
    (g c : (a.impl bits).Ctx) (hg : memOK a bits g) (hc : (a.impl bits).init g = .ok c) (n : Nat)
    (work : Nat → List Call) (hn : ∀ t, n ≤ t → work t = [])
    (hu : ∀ t x, Call.update x ∈ work t → okUpd a x.length)
    (ht : okTot a ((List.range n).map (fun t => total (work t))).sum)
    (ho : ∀ t o, Call.digest o ∈ work t → outSize a bits ≤ o.length) (sched : List Nat) :
    ∃ (s : HWorld (fun _ => a.impl bits) (fun _ => lockedMicro (a.impl bits)) (fun _ => 0)) (order : List (Nat × Call)),
      (HWorld.start (fun _ => c) work :
        HWorld (fun _ => a.impl bits) (fun _ => lockedMicro (a.impl bits)) (fun _ => 0)).run sched = .ok s ∧
      (∀ t, callsOf t order ++ pending (s.threads t) = work t) ∧
      (∀ t, (s.threads t).outs = answersOf t order (answers a (bits / 8) (order.map (·.2)))) ∧
      (∀ t, turnsLeft (work t) ≤ sched.count t → pending (s.threads t) = []) := by
  have ok : ∀ order : List (Nat × Call), (∀ t, callsOf t order <+: work t) →
      ∃ c', (a.impl bits).calls c (order.map (·.2)) = .ok (c', answers a (bits / 8) (order.map (·.2))) := by
    intro order hp
    have mem : ∀ x ∈ order.map (·.2), ∃ t, x ∈ work t := by
      intro x hx
      obtain ⟨p, hpo, rfl⟩ := List.mem_map.1 hx
      exact ⟨p.1, (hp p.1).subset (List.mem_map.2 ⟨p, List.mem_filter.2 ⟨hpo, by simp⟩, rfl⟩)⟩
    have lt : ∀ p ∈ order, p.1 < n := by
      intro p hpo
      by_cases h : p.1 < n
      · exact h
      · exfalso
        have := (hp p.1).subset (List.mem_map.2 ⟨p, List.mem_filter.2 ⟨hpo, by simp⟩, rfl⟩ : p.2 ∈ callsOf p.1 order)
        rw [hn p.1 (by omega)] at this
        cases this
    have hle : ∀ k, ((List.range k).map (fun t => total (callsOf t order))).sum
        ≤ ((List.range k).map (fun t => total (work t))).sum := by
      intro k
      induction k with
      | zero => exact Nat.le_refl _
      | succ k ih =>
        rw [List.range_succ, List.map_append, List.map_append, List.sum_append, List.sum_append]
        have : total (callsOf k order) ≤ total (work k) := by
          obtain ⟨r, hr⟩ := hp k
          rw [← hr, total_append]; omega
        simp only [List.map_cons, List.map_nil, List.sum_cons, List.sum_nil]
        omega
    obtain ⟨c', e⟩ := C80_partial a bits hb h8 g hg (order.map (·.2))
      (fun x hx => let ⟨t, h⟩ := mem _ hx; hu t x h)
      (okTot_mono a _ _ (by rw [total_threads n order lt]; exact hle n) ht)
      (fun o hx => let ⟨t, h⟩ := mem _ hx; ho t o h)
    rw [hc, bind_ok] at e
    exact ⟨c', e⟩
  have key : ∀ sched : List Nat, ∀ (s : HWorld (fun _ => a.impl bits) (fun _ => lockedMicro (a.impl bits)) (fun _ => 0))
      (order : List (Nat × Call)),
      (a.impl bits).calls c (order.map (·.2)) = .ok (s.ctxs 0, answers a (bits / 8) (order.map (·.2))) →
      (∀ t, callsOf t order ++ pending (s.threads t) = work t) →
      (∀ t l, (s.threads t).cur = some l → l.2 = l.1.length) →
      (∀ t, (s.threads t).outs = answersOf t order (answers a (bits / 8) (order.map (·.2)))) →
      ∃ (s' : HWorld (fun _ => a.impl bits) (fun _ => lockedMicro (a.impl bits)) (fun _ => 0)) (order' : List (Nat × Call)),
        s.run sched = .ok s' ∧ (∀ t, callsOf t order' ++ pending (s'.threads t) = work t) ∧
        (∀ t, (s'.threads t).outs = answersOf t order' (answers a (bits / 8) (order'.map (·.2)))) := by
    intro sched
    induction sched with
    | nil => intro s order _ h2 _ h4; exact ⟨s, order, rfl, h2, h4⟩
    | cons u sched ih =>
      intro s order h1 h2 h3 h4
      -- the call `x` of thread `u` takes effect
      have effect : ∀ (x : Call) (todo : List Call), pending (s.threads u) = x :: todo →
          ∃ c' o, (a.impl bits).calls (s.ctxs 0) [x] = .ok (c', o) ∧
            (a.impl bits).calls c ((order ++ [(u, x)]).map (·.2)) = .ok (c', answers a (bits / 8) ((order ++ [(u, x)]).map (·.2))) ∧
            (∀ t, callsOf t (order ++ [(u, x)]) ++ (if t = u then todo else pending (s.threads t)) = work t) ∧
            (∀ t, answersOf t (order ++ [(u, x)]) (answers a (bits / 8) ((order ++ [(u, x)]).map (·.2)))
              = (s.threads t).outs ++ answersOf t [(u, x)] o) := by
        intro x todo hpend
        have hw : ∀ t, callsOf t (order ++ [(u, x)]) ++ (if t = u then todo else pending (s.threads t)) = work t := by
          intro t
          rw [callsOf_append]
          by_cases htu : t = u
          · subst htu
            rw [if_pos rfl, ← h2 t, hpend]
            simp [callsOf]
          · rw [if_neg htu, ← h2 t]
            have : ¬ u = t := fun h => htu h.symm
            simp [callsOf, this]
        obtain ⟨c', e⟩ := ok (order ++ [(u, x)]) (fun t => ⟨_, hw t⟩)
        have e' := e
        -- split off the last call
        have split : ∀ (l : List Call) (c0 c1 : (a.impl bits).Ctx) (o1 : List (List Byte)) r,
            (a.impl bits).calls c0 l = .ok (c1, o1) → (a.impl bits).calls c0 (l ++ [x]) = .ok r →
            ∃ o, (a.impl bits).calls c1 [x] = .ok (r.1, o) ∧ r.2 = o1 ++ o := by
          intro l c0 c1 o1 r k1 k2
          generalize hq : (a.impl bits).calls c1 [x] = q
          cases q with
          | ok r2 =>
            rw [calls_snoc _ x l c0 c1 r2.1 o1 r2.2 k1 hq, Except.ok.injEq] at k2
            exact ⟨r2.2, by rw [← k2], by rw [← k2]⟩
          | error er =>
            exfalso
            have : ∀ (l : List Call) (c0 c1 : (a.impl bits).Ctx) (o1 : List (List Byte)),
                (a.impl bits).calls c0 l = .ok (c1, o1) → (a.impl bits).calls c1 [x] = .error er →
                (a.impl bits).calls c0 (l ++ [x]) = .error er := by
              intro l
              induction l with
              | nil => intro c0 c1 o1 k1 k2; cases k1; exact k2
              | cons y l ihl =>
                intro c0 c1 o1 k1 k2
                cases y with
                | update y =>
                  rw [List.cons_append]
                  simp only [HashImpl.calls] at k1 ⊢
                  generalize (a.impl bits).update c0 (some y) y.length = q at k1 ⊢
                  cases q with
                  | error e => rw [bind_err] at k1; cases k1
                  | ok c' => rw [bind_ok] at k1 ⊢; exact ihl c' c1 o1 k1 k2
                | digest out =>
                  rw [List.cons_append]
                  simp only [HashImpl.calls] at k1 ⊢
                  generalize (a.impl bits).digest c0 out = q at k1 ⊢
                  cases q with
                  | error e => rw [bind_err] at k1; cases k1
                  | ok r =>
                    rw [bind_ok] at k1 ⊢
                    generalize hq : (a.impl bits).calls r.1 l = q at k1
                    cases q with
                    | error e => rw [bind_err] at k1; cases k1
                    | ok s =>
                      rw [bind_ok] at k1
                      cases k1
                      rw [ihl r.1 s.1 s.2 hq k2, bind_err]
            rw [this l c0 c1 o1 k1 hq] at k2
            cases k2
        have em : (order ++ [(u, x)]).map (·.2) = order.map (·.2) ++ [x] := by simp
        rw [em] at e'
        obtain ⟨o, k1, k2⟩ := split (order.map (·.2)) c (s.ctxs 0) _ _ h1 e'
        refine ⟨c', o, k1, e, hw, fun t => ?_⟩
        dsimp only at k2
        rw [em, k2, answers_snoc (a.impl bits) t u x order c (s.ctxs 0) _ o h1, h4]
      -- the step
      have fin : ∀ (c' : (a.impl bits).Ctx) (th : HThread (a.impl bits) (lockedMicro (a.impl bits))) (order' : List (Nat × Call)),
          (s.threads u).step (s.ctxs 0) = .ok (c', th) →
          (a.impl bits).calls c (order'.map (·.2)) = .ok (c', answers a (bits / 8) (order'.map (·.2))) →
          (∀ t, callsOf t order' ++ (if t = u then pending th else pending (s.threads t)) = work t) →
          (∀ l, th.cur = some l → l.2 = l.1.length) →
          (∀ t, (if t = u then th.outs else (s.threads t).outs) = answersOf t order' (answers a (bits / 8) (order'.map (·.2)))) →
          ∃ (s' : HWorld (fun _ => a.impl bits) (fun _ => lockedMicro (a.impl bits)) (fun _ => 0)) (order' : List (Nat × Call)),
            s.run (u :: sched) = .ok s' ∧ (∀ t, callsOf t order' ++ pending (s'.threads t) = work t) ∧
            (∀ t, (s'.threads t).outs = answersOf t order' (answers a (bits / 8) (order'.map (·.2)))) := by
        intro c' th order' k0 k1 k2 k3 k4
        have e : s.step u = .ok ⟨setAt s.ctxs 0 c', setAt s.threads u th⟩ := by
          rw [HWorld.step, k0]; rfl
        have hthr : ∀ t, setAt s.threads u th t = if t = u then th else s.threads t := by
          intro t
          by_cases htu : t = u
          · subst htu; rw [setAt_same, if_pos rfl]
          · rw [setAt_ne _ _ _ _ htu, if_neg htu]
        obtain ⟨s', o', q1, q2, q3⟩ := ih ⟨setAt s.ctxs 0 c', setAt s.threads u th⟩ order'
          (by dsimp only; rw [setAt_same]; exact k1)
          (by
            intro t
            dsimp only
            rw [hthr, ← k2 t]
            by_cases htu : t = u
            · rw [if_pos htu, if_pos htu]
            · rw [if_neg htu, if_neg htu])
          (by
            intro t l
            dsimp only
            rw [hthr]
            by_cases htu : t = u
            · rw [if_pos htu]; exact k3 l
            · rw [if_neg htu]; exact h3 t l)
          (by
            intro t
            dsimp only
            rw [hthr, ← k4 t]
            by_cases htu : t = u
            · rw [if_pos htu, if_pos htu]
            · rw [if_neg htu, if_neg htu])
        exact ⟨s', o', by rw [HWorld.run, e, bind_ok]; exact q1, q2, q3⟩
      generalize hth : s.threads u = th at fin effect
      have hcur := h3 u
      have hout := h4 u
      have hp2 := h2 u
      rw [hth] at hcur hout hp2
      obtain ⟨todo, cur, outs⟩ := th
      cases cur with
      | some l =>
        obtain ⟨x, k⟩ := l
        have hk : k = x.length := hcur _ rfl
        subst hk
        obtain ⟨c', o, k1, k2, k3, k4⟩ := effect (.update x) todo rfl
        have k1' : (a.impl bits).update (s.ctxs 0) (some x) x.length = .ok c' ∧ o = [] := by
          simp only [HashImpl.calls] at k1
          generalize (a.impl bits).update (s.ctxs 0) (some x) x.length = q at k1 ⊢
          cases q with
          | error e => rw [bind_err] at k1; cases k1
          | ok c2 => rw [bind_ok, Except.ok.injEq, Prod.mk.injEq] at k1; exact ⟨by rw [k1.1], k1.2.symm⟩
        refine fin c' ⟨todo, none, outs⟩ (order ++ [(u, .update x)]) ?_ k2 k3 (fun l h => by cases h) ?_
        · simp only [HThread.step, k1'.1, bind_ok]
        · intro t
          rw [k4 t, k1'.2]
          by_cases htu : t = u
          · subst htu; rw [if_pos rfl, hth]; simp [answersOf]
          · rw [if_neg htu]; simp [answersOf]
      | none =>
        cases todo with
        | nil =>
          refine fin (s.ctxs 0) ⟨[], none, outs⟩ order rfl h1 ?_ (fun l h => by cases h) ?_
          · intro t
            rw [← h2 t]
            by_cases htu : t = u
            · subst htu; rw [if_pos rfl, hth]
            · rw [if_neg htu]
          · intro t
            rw [← h4 t]
            by_cases htu : t = u
            · subst htu; rw [if_pos rfl, hth]
            · rw [if_neg htu]
        | cons x todo =>
          cases x with
          | update x =>
            refine fin (s.ctxs 0) ⟨todo, some (x, x.length), outs⟩ order rfl h1 ?_ (fun l h => by cases h; rfl) ?_
            · intro t
              rw [← h2 t]
              by_cases htu : t = u
              · subst htu; rw [if_pos rfl, hth]; rfl
              · rw [if_neg htu]
            · intro t
              rw [← h4 t]
              by_cases htu : t = u
              · subst htu; rw [if_pos rfl, hth]
              · rw [if_neg htu]
          | digest out =>
            obtain ⟨c', o, k1, k2, k3, k4⟩ := effect (.digest out) todo rfl
            obtain ⟨d, k1', rfl⟩ : ∃ d, (a.impl bits).digest (s.ctxs 0) out = .ok (c', d) ∧ o = [d] := by
              simp only [HashImpl.calls] at k1
              generalize (a.impl bits).digest (s.ctxs 0) out = q at k1 ⊢
              cases q with
              | error e => rw [bind_err] at k1; cases k1
              | ok r =>
                rw [bind_ok, bind_ok, Except.ok.injEq, Prod.mk.injEq] at k1
                exact ⟨r.2, by rw [← k1.1], k1.2.symm⟩
            refine fin c' ⟨todo, none, outs ++ [d]⟩ (order ++ [(u, .digest out)]) ?_ k2 k3 (fun l h => by cases h) ?_
            · simp only [HThread.step, k1', bind_ok]
            · intro t
              rw [k4 t]
              by_cases htu : t = u
              · subst htu; rw [if_pos rfl, hth]; simp [answersOf]
              · have : ¬ u = t := fun h => htu h.symm
                rw [if_neg htu]; simp [answersOf, this]
  obtain ⟨c0, e0⟩ := ok [] (fun t => by simp [callsOf])
  obtain ⟨s, order, q1, q2, q3⟩ := key sched (HWorld.start (fun _ => c) work) [] (by
    have e1 : (a.impl bits).calls c [] = .ok (c, []) := rfl
    have e0 : (a.impl bits).calls c [] = .ok (c0, answers a (bits / 8) []) := e0
    rw [e1, Except.ok.injEq, Prod.mk.injEq] at e0
    show (a.impl bits).calls c [] = .ok (c, answers a (bits / 8) [])
    rw [← e0.2]
    rfl) (fun t => rfl) (fun t l h => by cases h) (fun t => rfl)
  refine ⟨s, order, q1, q2, q3, fun t h => left_zero _ ?_⟩
  rw [left_run t sched _ s q1]
  have : left ((HWorld.start (fun _ => c) work :
    HWorld (fun _ => a.impl bits) (fun _ => lockedMicro (a.impl bits)) (fun _ => 0)).threads t) = turnsLeft (work t) := by
    simp [left, HWorld.start]
  rw [this]
  omega

/-- Two threads on one SHA-256 context: the first absorbs `a` and `b`, the second takes two digests. -/
def lockedWork (t : Nat) : List Call :=
  if t = 0 then [.update [0x61#8], .update [0x62#8]]
  else if t = 1 then [.digest (List.replicate 32 0#8), .digest (List.replicate 32 0#8)] else []

/-- A case for `C92_locked`. -/
theorem C92_locked_example (sched : List Nat) : ∃ c s order, sha256Impl.init (freshMem .SHA256) = .ok c ∧
    (HWorld.start (fun _ => c) lockedWork :
      HWorld (fun _ => Alg.impl .SHA256 256) (fun _ => lockedMicro (Alg.impl .SHA256 256)) (fun _ => 0)).run sched = .ok s ∧
    (∀ t, callsOf t order ++ pending (s.threads t) = lockedWork t) ∧
    (∀ t, (s.threads t).outs = answersOf t order (answers .SHA256 (256 / 8) (order.map (·.2)))) := by
  obtain ⟨c, hc, _⟩ := hashOK_sha256.init_ok (freshMem .SHA256) ⟨rfl, rfl⟩
  have cases3 : ∀ t, lockedWork t = [.update [0x61#8], .update [0x62#8]] ∨
      lockedWork t = [.digest (List.replicate 32 0#8), .digest (List.replicate 32 0#8)] ∨ lockedWork t = [] := by
    intro t
    rw [lockedWork]
    split
    · exact .inl rfl
    · split
      · exact .inr (.inl rfl)
      · exact .inr (.inr rfl)
  obtain ⟨s, order, h1, h2, h3, _⟩ := C92_locked .SHA256 256 (by decide) (fun h => by cases h) (freshMem .SHA256) c
    (freshMem_ok .SHA256) hc 2 lockedWork
    (by intro t ht; rw [lockedWork, if_neg (by omega), if_neg (by omega)])
    (by
      intro t x hx
      rcases cases3 t with h | h | h <;> rw [h] at hx <;> simp at hx
      rcases hx with rfl | rfl <;> (show _ < 2 ^ 31; decide))
    (by show 8 * _ < 2 ^ 64; decide)
    (by
      intro t o hx
      rcases cases3 t with h | h | h <;> rw [h] at hx <;> simp at hx
      rw [hx]; decide)
    sched
  exact ⟨c, s, order, hc, h1, h2, h3⟩

end Pgfe.Props
