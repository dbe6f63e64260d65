import Verif.Props.BlowfishObjects
/-!
# C90: Blowfish objects shared between threads
-/
namespace Pgfe.Props
open Pgfe.Model Pgfe.Spec

/-! ## Specification -/

/-- The call as a call by itself. -/
def bfAlone (c : Bf.TCall) : Bf.BfCall := ⟨c.enc, c.unp, c.arg⟩

/-- The call a thread is executing, if any. -/
def bfCurrent (th : Bf.BThread) : List Bf.TCall :=
  match th.cur with
  | some (c, _) => [c]
  | none => []

/-- A thread that has nothing left to do. -/
def bfIdle (th : Bf.BThread) : Prop := th.cur = none ∧ th.todo = []

/-- How many steps a call takes: begin, allocate, one for each byte, the rest, make the result. -/
def bfSteps (c : Bf.TCall) : Nat := (BfArg.bytes c.arg).length + 4

/-- How often thread `t` occurs in a schedule. -/
def bfTurns (t : Nat) (sched : List (Nat × Bool)) : Nat := (sched.filter (fun p => p.1 == t)).length

/-! ## The loop -/

/-- The state of the loop after `i` iterations. -/
def bfAfter (enc : Bool) (ctx : BfCtx) (unp m : List Byte) (n i : Nat) : C (List Byte × List Byte) :=
  forN i (fun i s => Bf.loopStep (Bf.unitFunc enc ctx) m i s.1 s.2) (unp, List.replicate (n + n % 8) 0#8)

theorem bfBody_eq (enc : Bool) (ctx : BfCtx) (unp m : List Byte) (n : Nat) :
    bfBody enc ctx unp m n = (do
      let s ← bfAfter enc ctx unp m n n
      let r ← Bf.loopEnd (Bf.unitFunc enc ctx) n s.1 s.2
      rds r.2 0 r.1) := by
  have e : ∀ f : BfUnit → C BfUnit, Bf.generic f unp (some m) n (List.replicate (n + n % 8) 0#8) =
      (forN n (fun i s => Bf.loopStep f m i s.1 s.2) (unp, List.replicate (n + n % 8) 0#8) >>=
        fun s => Bf.loopEnd f n s.1 s.2) := fun f => rfl
  rw [bfBody, bfAfter]
  cases enc with
  | true =>
    rw [if_pos rfl, Bf.encrypt, e]
    show _ = _
    rw [show Bf.unitFunc true ctx = Bf.encryptUnit ctx from rfl]
    generalize forN n _ _ = q
    cases q <;> rfl
  | false =>
    rw [if_neg (by decide), Bf.decrypt, e]
    rw [show Bf.unitFunc false ctx = Bf.decryptUnit ctx from rfl]
    generalize forN n _ _ = q
    cases q <;> rfl

theorem bfAfter_step (enc : Bool) (ctx : BfCtx) (unp m : List Byte) (n i : Nat) (hi : i < n) (u o : List Byte)
    (h : bfAfter enc ctx unp m n i = .ok (u, o)) (x : List Byte) (hx : bfBody enc ctx unp m n = .ok x) :
    ∃ r, Bf.loopStep (Bf.unitFunc enc ctx) m i u o = .ok r ∧ bfAfter enc ctx unp m n (i + 1) = .ok (r.1, r.2) := by
  have e : bfAfter enc ctx unp m n (i + 1) = Bf.loopStep (Bf.unitFunc enc ctx) m i u o := by
    rw [bfAfter, forN, ← bfAfter, h]; rfl
  cases hr : Bf.loopStep (Bf.unitFunc enc ctx) m i u o with
  | ok r => exact ⟨r, rfl, by rw [e, hr]⟩
  | error er =>
    exfalso
    rw [bfBody_eq] at hx
    have : bfAfter enc ctx unp m n n = .error er := by
      obtain ⟨d, rfl⟩ : ∃ d, n = (i + 1) + d := ⟨n - (i + 1), by omega⟩
      have e2 := e
      unfold bfAfter at e2 ⊢
      rw [forN_add, e2, hr]; rfl
    rw [this] at hx
    cases hx

/-! ## The invariant -/

/-- Is an array allocated for the thread? -/
def bfBusy (th : Bf.BThread) : Bool :=
  match th.cur with
  | some (_, .loop _ _ _ _ _) => true
  | some (_, .result _) => true
  | _ => false

/-- How far the call of a thread has got. -/
def bfPcOK (objs : Nat → BfCtx) (keys : Nat → List Byte) (th : Bf.BThread) : Prop :=
  match th.cur with
  | some (c, .loop m n i u o) => i ≤ n ∧ n = (BfArg.bytes c.arg).length ∧
      bfAfter c.enc (objs c.obj) c.unp m n i = .ok (u, o) ∧
      bfBody c.enc (objs c.obj) c.unp m n = .ok (bfResult (keys c.obj) (bfAlone c))
  | some (c, .result x) => x = bfResult (keys c.obj) (bfAlone c)
  | _ => True

/-- What the finished calls have returned; exceptions only if an allocation could fail. -/
def bfDoneOK (keys : Nat → List Byte) (fails : Prop) (th : Bf.BThread) : Prop :=
  ∀ p ∈ th.done, p.2 = .bytes (bfResult (keys p.1.obj) (bfAlone p.1)) ∨ fails ∧ p.2 = .exception

/-- How many steps a thread needs at most. -/
def bfLeft (th : Bf.BThread) : Nat :=
  (match th.cur with
    | some (c, .start) => bfSteps c - 1
    | some (_, .loop _ n i _ _) => n - i + 2
    | some (_, .result _) => 1
    | none => 0) + (th.todo.map bfSteps).sum

/-- The invariant. -/
structure BfInv (objs : Nat → BfCtx) (keys : Nat → List Byte) (work : Nat → List Bf.TCall) (fails : Prop) (s : Bf.BSys) : Prop where
  same : s.objs = objs
  pc : ∀ t, bfPcOK objs keys (s.threads t)
  done : ∀ t, bfDoneOK keys fails (s.threads t)
  order : ∀ t, (s.threads t).done.map Prod.fst ++ bfCurrent (s.threads t) ++ (s.threads t).todo = work t
  heap : ∃ L : List Nat, L.Nodup ∧ s.heap = L.length ∧ ∀ t, t ∈ L ↔ bfBusy (s.threads t) = true

/-- Replacing one thread by one that has made a step. -/
theorem bfInv_put {objs keys work} {fails : Prop} {s : Bf.BSys} (h : BfInv objs keys work fails s) (t : Nat) (th : Bf.BThread)
    (heap : Nat) (h1 : bfPcOK objs keys th) (h2 : bfDoneOK keys fails th)
    (h3 : th.done.map Prod.fst ++ bfCurrent th ++ th.todo = work t)
    (h4 : (bfBusy th = bfBusy (s.threads t) ∧ heap = s.heap) ∨
      (bfBusy th = true ∧ bfBusy (s.threads t) = false ∧ heap = s.heap + 1) ∨
      (bfBusy th = false ∧ bfBusy (s.threads t) = true ∧ heap = s.heap - 1)) :
    BfInv objs keys work fails ⟨s.objs, fun u => if u = t then th else s.threads u, heap⟩ := by
  obtain ⟨L, hn, hh, hL⟩ := h.heap
  refine ⟨h.same, fun u => ?_, fun u => ?_, fun u => ?_, ?_⟩
  · dsimp only; by_cases e : u = t
    · rw [if_pos e]; exact h1
    · rw [if_neg e]; exact h.pc u
  · dsimp only; by_cases e : u = t
    · rw [if_pos e]; exact h2
    · rw [if_neg e]; exact h.done u
  · dsimp only; by_cases e : u = t
    · rw [if_pos e, e]; exact h3
    · rw [if_neg e]; exact h.order u
  · dsimp only
    rcases h4 with ⟨b, e⟩ | ⟨b1, b2, e⟩ | ⟨b1, b2, e⟩
    · refine ⟨L, hn, by rw [e, hh], fun u => ?_⟩
      by_cases eu : u = t
      · rw [if_pos eu, b, eu]; exact hL t
      · rw [if_neg eu]; exact hL u
    · have ht : t ∉ L := by rw [hL t, b2]; decide
      refine ⟨t :: L, List.nodup_cons.2 ⟨ht, hn⟩, by rw [e, hh]; rfl, fun u => ?_⟩
      by_cases eu : u = t
      · rw [if_pos eu, eu]; simp [b1]
      · rw [if_neg eu, ← hL u]; simp [eu]
    · have ht : t ∈ L := by rw [hL t, b2]
      refine ⟨L.erase t, hn.erase t, by rw [e, hh, List.length_erase_of_mem ht], fun u => ?_⟩
      by_cases eu : u = t
      · rw [if_pos eu, b1, eu]; simp [hn.not_mem_erase]
      · rw [if_neg eu, ← hL u]; exact List.mem_erase_of_ne eu

theorem bfInv_put' {objs keys work} {fails : Prop} {s : Bf.BSys} (h : BfInv objs keys work fails s) (t : Nat) (th : Bf.BThread)
    (heap : Nat) (h1 : bfPcOK objs keys th) (h2 : bfDoneOK keys fails th)
    (h3 : th.done.map Prod.fst ++ bfCurrent th ++ th.todo = work t)
    (h4 : (bfBusy th = bfBusy (s.threads t) ∧ heap = s.heap) ∨
      (bfBusy th = true ∧ bfBusy (s.threads t) = false ∧ heap = s.heap + 1) ∨
      (bfBusy th = false ∧ bfBusy (s.threads t) = true ∧ heap = s.heap - 1)) :
    BfInv objs keys work fails ⟨objs, fun u => if u = t then th else s.threads u, heap⟩ := by
  have := bfInv_put h t th heap h1 h2 h3 h4
  rwa [h.same] at this

/-- One step. -/
theorem bf_step {objs : Nat → BfCtx} {keys : Nat → List Byte}
    (hobj : ∀ i, bfCtxOK (objs i) ∧ bfWords (objs i) = Blowfish.expand Blowfish.piTable (keys i))
    {work : Nat → List Bf.TCall} (hw : ∀ t, ∀ c ∈ work t, bfCallOK (bfAlone c)) {fails : Prop} (s : Bf.BSys)
    (h : BfInv objs keys work fails s) (t : Nat) (ok : Bool) (hf : ok = false → fails) :
    ∃ s', Bf.bstep s t ok = .ok s' ∧ BfInv objs keys work fails s' ∧
      (∀ u, u ≠ t → s'.threads u = s.threads u) ∧ bfLeft (s'.threads t) ≤ bfLeft (s.threads t) - 1 := by
  have hcur : ∀ c pc, (s.threads t).cur = some (c, pc) → bfCallOK (bfAlone c) := by
    intro c pc e
    refine hw t c ?_
    rw [← h.order t, bfCurrent, e]
    simp
  have hpc := h.pc t
  have hdone := h.done t
  have hord := h.order t
  have sel : ∀ (th : Bf.BThread), (if t = t then th else s.threads t) = th := fun th => if_pos rfl
  have oth : ∀ (th : Bf.BThread) u, u ≠ t → (if u = t then th else s.threads u) = s.threads u := fun th u e => if_neg e
  rw [Bf.bstep]
  dsimp only
  cases hc : (s.threads t).cur with
  | none =>
    cases ht : (s.threads t).todo with
    | nil =>
      refine ⟨s, rfl, h, fun _ _ => rfl, ?_⟩
      simp only [bfLeft, hc, ht, List.map_nil, List.sum_nil]; omega
    | cons c rest =>
      refine ⟨_, rfl, ?_, fun u hu => oth _ u hu, ?_⟩
      · refine bfInv_put h t _ s.heap trivial hdone ?_ (.inl ⟨?_, rfl⟩)
        · rw [bfCurrent, hc, ht] at hord
          simpa [bfCurrent] using hord
        · simp [bfBusy, hc]
      · dsimp only
        rw [sel]
        simp only [bfLeft, hc, ht, List.map_cons, List.sum_cons, bfSteps]; omega
  | some q =>
    obtain ⟨c, pc⟩ := q
    have hok := hcur c pc hc
    obtain ⟨hx, hww⟩ := hobj c.obj
    obtain ⟨m, e1, e2⟩ := bf_body (objs c.obj) hx (keys c.obj) hww (bfAlone c) hok
    cases pc with
    | start =>
      dsimp only
      rw [show Bf.argPtr c.arg = .ok (m, (BfArg.bytes c.arg).length) from e1, bind_ok]
      cases ok with
      | true =>
        refine ⟨_, rfl, ?_, fun u hu => oth _ u hu, ?_⟩
        · refine bfInv_put h t _ (s.heap + 1) ⟨Nat.zero_le _, rfl, rfl, e2⟩ hdone ?_ (.inr (.inl ⟨rfl, ?_, rfl⟩))
          · rw [bfCurrent, hc] at hord; exact hord
          · simp [bfBusy, hc]
        · dsimp only
          rw [sel]
          simp only [bfLeft, hc, bfSteps]; omega
      | false =>
        refine ⟨_, rfl, ?_, fun u hu => oth _ u hu, ?_⟩
        · refine bfInv_put h t _ s.heap trivial ?_ ?_ (.inl ⟨?_, rfl⟩)
          · intro p hp
            rcases List.mem_append.1 hp with hp | hp
            · exact hdone p hp
            · rw [List.mem_singleton] at hp; subst hp
              exact .inr ⟨hf rfl, rfl⟩
          · rw [bfCurrent, hc] at hord
            simpa [bfCurrent] using hord
          · simp [bfBusy, hc]
        · dsimp only
          rw [sel]
          simp only [bfLeft, hc, bfSteps]; omega
    | loop m' n i u o =>
      dsimp only
      rw [bfPcOK, hc] at hpc
      dsimp only at hpc
      obtain ⟨p1, p2, p3, p4⟩ := hpc
      rw [h.same]
      by_cases hi : i < n
      · obtain ⟨r, r1, r2⟩ := bfAfter_step _ _ _ _ _ _ hi _ _ p3 _ p4
        rw [if_pos hi, r1, bind_ok]
        refine ⟨_, rfl, ?_, fun u hu => oth _ u hu, ?_⟩
        · refine bfInv_put' h t _ s.heap ⟨hi, p2, r2, p4⟩ hdone ?_ (.inl ⟨?_, rfl⟩)
          · rw [bfCurrent, hc] at hord; exact hord
          · simp [bfBusy, hc]
        · dsimp only
          rw [sel]
          simp only [bfLeft, hc]; omega
      · have : i = n := by omega
        subst this
        rw [if_neg hi]
        rw [bfBody_eq, p3, bind_ok] at p4
        dsimp only at p4
        generalize Bf.loopEnd (Bf.unitFunc c.enc (objs c.obj)) i u o = q at p4 ⊢
        cases q with
        | error e => cases p4
        | ok r =>
          rw [bind_ok] at p4 ⊢
          rw [p4, bind_ok]
          refine ⟨_, rfl, ?_, fun u hu => oth _ u hu, ?_⟩
          · refine bfInv_put' h t _ s.heap rfl hdone ?_ (.inl ⟨?_, rfl⟩)
            · rw [bfCurrent, hc] at hord; exact hord
            · simp [bfBusy, hc]
          · dsimp only
            rw [sel]
            simp only [bfLeft, hc]; omega
    | result x =>
      dsimp only
      rw [bfPcOK, hc] at hpc
      dsimp only at hpc
      refine ⟨_, rfl, ?_, fun u hu => oth _ u hu, ?_⟩
      · refine bfInv_put h t _ (s.heap - 1) trivial ?_ ?_ (.inr (.inr ⟨rfl, ?_, rfl⟩))
        · intro p hp
          rcases List.mem_append.1 hp with hp | hp
          · exact hdone p hp
          · rw [List.mem_singleton] at hp; subst hp
            cases ok with
            | true => left; rw [hpc]; rfl
            | false => exact .inr ⟨hf rfl, rfl⟩
        · rw [bfCurrent, hc] at hord
          simpa [bfCurrent] using hord
        · simp [bfBusy, hc]
      · dsimp only
        rw [sel]
        simp only [bfLeft, hc]; omega

theorem bf_run {objs : Nat → BfCtx} {keys : Nat → List Byte}
    (hobj : ∀ i, bfCtxOK (objs i) ∧ bfWords (objs i) = Blowfish.expand Blowfish.piTable (keys i))
    {work : Nat → List Bf.TCall} (hw : ∀ t, ∀ c ∈ work t, bfCallOK (bfAlone c)) {fails : Prop} (sched : List (Nat × Bool)) :
    ∀ s, BfInv objs keys work fails s → (∀ p ∈ sched, p.2 = false → fails) →
    ∃ s', Bf.brun s sched = .ok s' ∧ BfInv objs keys work fails s' ∧
      ∀ t, bfLeft (s'.threads t) ≤ bfLeft (s.threads t) - bfTurns t sched := by
  induction sched with
  | nil => intro s h _; exact ⟨s, rfl, h, fun t => by simp [bfTurns]⟩
  | cons p sched ih =>
    intro s h hf
    obtain ⟨t, ok⟩ := p
    obtain ⟨s1, e1, h1, o1, l1⟩ := bf_step hobj hw s h t ok (hf (t, ok) (List.mem_cons_self ..))
    obtain ⟨s2, e2, h2, l2⟩ := ih s1 h1 (fun p hp => hf p (List.mem_cons_of_mem _ hp))
    refine ⟨s2, by rw [Bf.brun, e1, bind_ok, e2], h2, fun u => ?_⟩
    have := l2 u
    by_cases hu : u = t
    · subst hu
      have : bfTurns u ((u, ok) :: sched) = bfTurns u sched + 1 := by simp [bfTurns]
      omega
    · have e : bfTurns u ((t, ok) :: sched) = bfTurns u sched := by
        simp [bfTurns, Ne.symm hu]
      rw [o1 u hu] at this
      omega

/-- A thread that needs no more steps is idle. -/
theorem bf_idle (th : Bf.BThread) (h : bfLeft th = 0) : bfIdle th := by
  obtain ⟨todo, cur, done⟩ := th
  cases cur with
  | none =>
    refine ⟨rfl, ?_⟩
    cases todo with
    | nil => rfl
    | cons c l => simp [bfLeft, bfSteps] at h
  | some q =>
    obtain ⟨c, pc⟩ := q
    cases pc <;> simp [bfLeft, bfSteps] at h

/-- **C90.** Any number of objects constructed from keys in any form, any number of threads with any calls on them
(data lengths 1, 2, 3 modulo 8 excepted, C46), interleaved in any way, any allocation failing or not: nothing undefined
happens, the objects do not change, each thread's calls are executed in their order, every finished call has returned the
cipher's result for the key of its object, or thrown — only if some allocation failed —, and when no thread is in a call
no array is left.  No thread waits for another: it has made all its calls after as many turns as they have steps. -/
theorem C90 (mems : Nat → BfCtx) (keys : Nat → Bf.Arg) (hk : ∀ i, bfKeyOK (mems i) (keys i)) :
    ∃ objs : Nat → BfCtx, (∀ i, Bf.create (mems i) (keys i) = .ok (objs i)) ∧
    ∀ (work : Nat → List Bf.TCall), (∀ t, ∀ c ∈ work t, bfCallOK (bfAlone c)) → ∀ sched : List (Nat × Bool),
    ∃ s, Bf.brun (Bf.bInit objs work) sched = .ok s ∧ s.objs = objs ∧
      (∀ t, (s.threads t).done.map Prod.fst ++ bfCurrent (s.threads t) ++ (s.threads t).todo = work t) ∧
      (∀ t, ∀ p ∈ (s.threads t).done, p.2 = .bytes (bfResult (BfArg.bytes (keys p.1.obj)) (bfAlone p.1)) ∨
        (∃ q ∈ sched, q.2 = false) ∧ p.2 = .exception) ∧
      ((∀ t, (s.threads t).cur = none) → s.heap = 0) ∧
      (∀ t, ((work t).map bfSteps).sum ≤ bfTurns t sched → bfIdle (s.threads t)) := by
  have hc := fun i => bf_create (mems i) (keys i) (hk i)
  refine ⟨fun i => Classical.choose (hc i), fun i => (Classical.choose_spec (hc i)).1, ?_⟩
  intro work hw sched
  have hobj := fun i => (Classical.choose_spec (hc i)).2
  have h0 : BfInv (fun i => Classical.choose (hc i)) (fun i => BfArg.bytes (keys i)) work (∃ q ∈ sched, q.2 = false)
      (Bf.bInit (fun i => Classical.choose (hc i)) work) := by
    refine ⟨rfl, fun t => trivial, (fun t p hp => by cases hp), (fun t => rfl), [], List.nodup_nil, rfl, fun t => ?_⟩
    simp [Bf.bInit, bfBusy]
  obtain ⟨s, e, h, l⟩ := bf_run hobj hw sched _ h0 (fun p hp hf => ⟨p, hp, hf⟩)
  refine ⟨s, e, h.same, h.order, h.done, fun hi => ?_, fun t ht => ?_⟩
  · obtain ⟨L, _, hh, hL⟩ := h.heap
    cases L with
    | nil => exact hh
    | cons t L =>
      have := (hL t).1 (List.mem_cons_self ..)
      rw [bfBusy, hi t] at this
      cases this
  · refine bf_idle _ ?_
    have := l t
    have e0 : bfLeft ((Bf.bInit (fun i => Classical.choose (hc i)) work).threads t) = ((work t).map bfSteps).sum := by
      simp [bfLeft, Bf.bInit]
    omega

/-- Two threads encrypt and decrypt with one object at the same time. -/
example : (∀ i : Nat, bfKeyOK bfMem ((fun _ => .cs (str "key" ++ [0#8])) i)) ∧
    ∀ t : Nat, ∀ c ∈ (fun t : Nat => if t = 0 then [⟨0, true, List.replicate 8 1#8, .str (str "attack at dawn")⟩]
      else if t = 1 then [⟨0, false, List.replicate 8 2#8, .seq (List.replicate 20 0#8) 16⟩] else [] : Nat → List Bf.TCall) t,
      bfCallOK (bfAlone c) := by
  refine ⟨fun i => ⟨bfMem_ok, ?_, ?_, ?_⟩, fun t c hc => ?_⟩
  · show 0#8 ∈ str "key" ++ [0#8]; decide
  · show (str "key" ++ [0#8]).takeWhile (fun b => b ≠ 0#8) ≠ []; decide
  · intro s h; cases h
  · dsimp only at hc
    by_cases h0 : t = 0
    · rw [if_pos h0, List.mem_singleton] at hc; subst hc
      refine ⟨rfl, trivial, ?_⟩
      right; show 4 ≤ (str "attack at dawn").length % 8; decide
    · rw [if_neg h0] at hc
      by_cases h1 : t = 1
      · rw [if_pos h1, List.mem_singleton] at hc; subst hc
        refine ⟨rfl, ?_, ?_⟩
        · show 16 ≤ (List.replicate 20 0#8).length; decide
        · left; show ((List.replicate 20 0#8).take 16).length % 8 = 0; decide
      · rw [if_neg h1] at hc; cases hc

end Pgfe.Props
