import Verif.Model.OtpThreads
import Verif.Props.Totp
/-!
# C88: HOTP and TOTP objects shared between threads
-/
namespace Pgfe.Proofs
open Pgfe.Model Pgfe.Model.Totp

/-- If every step keeps an invariant of the object and one of the threads, so does every schedule. -/
theorem grun_inv {a : Alg} (Inv : Totp a → Prop) (TI : Nat → Totp a → GThread a → Prop) (T : Int → Prop)
    (hstep : ∀ i o th now, Inv o → TI i o th → T now → ∃ o' th', gstep o th now = .ok (o', th') ∧ Inv o' ∧ TI i o' th' ∧
      ∀ j q, TI j o q → TI j o' q) :
    ∀ (sched : List (Nat × Int)) (s : GSys a), (∀ p ∈ sched, T p.2) → Inv s.obj → (∀ i, TI i s.obj (s.threads i)) →
      ∃ s', grun s sched = .ok s' ∧ Inv s'.obj ∧ ∀ i, TI i s'.obj (s'.threads i) := by
  intro sched
  induction sched with
  | nil => intro s _ h1 h2; exact ⟨s, rfl, h1, h2⟩
  | cons p rest ih =>
    intro s hT h1 h2
    obtain ⟨i, now⟩ := p
    obtain ⟨o', th', e, k1, k2, k3⟩ := hstep i s.obj (s.threads i) now h1 (h2 i) (hT (i, now) (by simp))
    obtain ⟨s', e', q1, q2⟩ := ih ⟨o', fun j => if j = i then th' else s.threads j⟩ (fun p hp => hT p (by simp [hp])) k1 (by
      intro j
      dsimp only
      by_cases hj : j = i
      · rw [if_pos hj, hj]; exact k2
      · rw [if_neg hj]; exact k3 j _ (h2 j))
    refine ⟨s', ?_, q1, q2⟩
    rw [grun, e, bind_ok]
    exact e'

/-- The calls of a thread, finished, under way and to come. -/
def threadCalls {a : Alg} (th : GThread a) : List (GCall a) :=
  th.done.map Prod.fst ++ (th.cur.toList.map Prod.fst ++ th.todo)

/-- The calls are made in order, and the finished ones satisfy `R`. -/
structure Steady {a : Alg} (work : List (GCall a)) (R : GCall a × Int × Int × Nat → Prop)
    (Q : GCall a → Int → Pc → Prop) (th : GThread a) : Prop where
  order : threadCalls th = work
  res : ∀ r ∈ th.done, R r
  pc : ∀ c t1 pc, th.cur = some (c, t1, pc) → c ∈ work ∧ Q c t1 pc

theorem steady_pick {a : Alg} {work : List (GCall a)} {R : GCall a × Int × Int × Nat → Prop}
    {Q : GCall a → Int → Pc → Prop} {th : GThread a} (h : Steady work R Q th) (hc : th.cur = none) (c : GCall a) (rest : List (GCall a))
    (ht : th.todo = c :: rest) (t : Int) (pc : Pc) (hQ : c ∈ work → Q c t pc) :
    Steady work R Q { th with todo := rest, cur := some (c, t, pc) } := by
  have ho := h.order
  rw [threadCalls, hc, ht] at ho
  have hm : c ∈ work := by rw [← ho]; simp
  refine ⟨?_, h.res, ?_⟩
  · rw [threadCalls]; exact ho
  · intro c' t1 pc' e
    simp only [Option.some.injEq, Prod.mk.injEq] at e
    obtain ⟨rfl, rfl, rfl⟩ := e
    exact ⟨hm, hQ hm⟩

theorem steady_move {a : Alg} {work : List (GCall a)} {R : GCall a × Int × Int × Nat → Prop}
    {Q : GCall a → Int → Pc → Prop} {th : GThread a} (h : Steady work R Q th) (c : GCall a) (t : Int) (p p' : Pc)
    (hc : th.cur = some (c, t, p)) (hQ : Q c t p') : Steady work R Q { th with cur := some (c, t, p') } := by
  have ho := h.order
  rw [threadCalls, hc] at ho
  refine ⟨?_, h.res, ?_⟩
  · rw [threadCalls]; exact ho
  · intro c' t1 pc' e
    simp only [Option.some.injEq, Prod.mk.injEq] at e
    obtain ⟨rfl, rfl, rfl⟩ := e
    exact ⟨(h.pc c t p hc).1, hQ⟩

theorem steady_finish {a : Alg} {work : List (GCall a)} {R : GCall a × Int × Int × Nat → Prop}
    {Q : GCall a → Int → Pc → Prop} {th : GThread a} (h : Steady work R Q th) (c : GCall a) (t : Int) (p : Pc)
    (hc : th.cur = some (c, t, p)) (t2 : Int) (v : Nat) (hR : R (c, t, t2, v)) :
    Steady work R Q { th with cur := none, done := th.done ++ [(c, t, t2, v)] } := by
  have ho := h.order
  rw [threadCalls, hc] at ho
  refine ⟨?_, ?_, ?_⟩
  · rw [threadCalls, ← ho]; simp
  · intro r hr
    rcases List.mem_append.1 hr with hr | hr
    · exact h.res r hr
    · rw [List.mem_singleton.1 hr]; exact hR
  · intro c' t1 pc' e
    simp at e

theorem steady_init {a : Alg} (work : List (GCall a)) (R : GCall a × Int × Int × Nat → Prop) (Q : GCall a → Int → Pc → Prop) :
    Steady work R Q ⟨work, none, []⟩ := ⟨by simp [threadCalls], by simp, by simp⟩

end Pgfe.Proofs

namespace Pgfe.Props
open Pgfe.Model Pgfe.Model.Totp Pgfe.Spec Pgfe.Proofs Pgfe.Proofs.Hash Pgfe.Proofs.Hmac Pgfe.Proofs.Otp

/-- The work of the threads: calls of `generate` with any stack memory. -/
def stacksOK {a : Alg} (work : Nat → List (GCall a)) : Prop := ∀ i, ∀ c ∈ work i, otpStackOK a c.mem

/-- **C88, HOTP objects.**  Any number of threads call `generate` on one HOTP object, in any schedule: nothing is
undefined, every thread's calls are made in its order, each finished call has returned the RFC 4226 value of the
secret and the counter of the object, and the object is unchanged. -/
theorem C88_hotp (a : Alg) (ha : isShake a = false) (h5 : a ≠ .MD5) (o : Totp a) (s : List Byte) (hs : o.secret = some s)
    (work : Nat → List (GCall a)) (hw : stacksOK work) (hh : ∀ i, ∀ c ∈ work i, c.hotp = true) (sched : List (Nat × Int)) :
    ∃ sys, grun (gInit o work) sched = .ok sys ∧ sys.obj = o ∧
      ∀ i, threadCalls (sys.threads i) = work i ∧
        ∀ r ∈ (sys.threads i).done, r.2.2.2 = stdHotp a (s.take (blockBytes a)) o.co.toNat r.1.digits := by
  have h := grun_inv (a := a) (fun q => q = o)
    (fun i _ th => Steady (work i) (fun r => r.2.2.2 = stdHotp a (s.take (blockBytes a)) o.co.toNat r.1.digits)
      (fun _ _ pc => pc = .hotp ∨ pc = .gotSecret s) th) (fun _ => True) (by
    intro i q th now hq hth _
    subst hq
    cases hc : th.cur with
    | none =>
      cases ht : th.todo with
      | nil => exact ⟨q, th, by rw [gstep, hc]; dsimp only; rw [ht], rfl, hth, fun _ _ h => h⟩
      | cons c rest =>
        refine ⟨q, { th with todo := rest, cur := some (c, now, if c.hotp then .hotp else .start) },
          by rw [gstep, hc]; dsimp only; rw [ht], rfl, ?_, fun _ _ h => h⟩
        apply steady_pick hth hc c rest ht
        intro hm
        rw [hh i c hm]; exact .inl rfl
    | some x =>
      obtain ⟨c, t1, pc⟩ := x
      obtain ⟨hm, hp⟩ := hth.pc c t1 pc hc
      rcases hp with rfl | rfl
      · refine ⟨q, { th with cur := some (c, t1, .gotSecret s) }, by rw [gstep, hc]; dsimp only; rw [hs], rfl, ?_, fun _ _ h => h⟩
        exact steady_move hth c t1 _ _ hc (.inr rfl)
      · refine ⟨q, { th with cur := none, done := th.done ++ [(c, t1, now, stdHotp a (s.take (blockBytes a)) q.co.toNat c.digits)] },
          ?_, rfl, steady_finish hth c t1 _ hc now _ rfl, fun _ _ h => h⟩
        rw [gstep, hc]
        dsimp only
        rw [C37_long a ha h5 c.mem (hw i c hm) s q.co c.digits, bind_ok]) sched (gInit o work) (fun _ _ => trivial) rfl
    (fun i => steady_init _ _ _)
  obtain ⟨sys, e, h1, h2⟩ := h
  exact ⟨sys, e, h1, fun i => ⟨(h2 i).order, (h2 i).res⟩⟩

/-- **C88, TOTP objects (partial).**  If a code of the current time step has been generated and the clock stays inside
that step, any number of threads may call `generate` in any schedule: nothing is undefined, every finished call has
returned the RFC 6238 value of every moment of the step, and the object is unchanged.  (Missing: the beginning of a new
time step, where the claim is false: `C88_violation`.) -/
theorem C88_totp_partial (a : Alg) (ha : isShake a = false) (h5 : a ≠ .MD5) (o : Totp a) (s : List Byte) (hs : o.secret = some s)
    (hx : 0 < o.interval) (hx2 : o.interval < 2 ^ 31) (hi : near o.initialTime) (hu : near o.updateTime)
    (hco : (o.co.toNat : Int) = timeStep o.updateTime o.initialTime o.interval)
    (hdel : o.delta = o.interval - (o.updateTime - o.initialTime) % (o.interval : Int))
    (work : Nat → List (GCall a)) (hw : stacksOK work) (sched : List (Nat × Int))
    (hclk : ∀ p ∈ sched, near p.2 ∧ o.updateTime ≤ p.2 ∧ p.2 < o.updateTime + o.delta) :
    ∃ sys, grun (gInit o work) sched = .ok sys ∧ sys.obj = o ∧
      ∀ i, threadCalls (sys.threads i) = work i ∧
        ∀ r ∈ (sys.threads i).done, ∀ t, o.updateTime ≤ t → t < o.updateTime + o.delta →
          r.2.2.2 = stdHotp a (s.take (blockBytes a)) (timeStep t o.initialTime o.interval).toNat r.1.digits := by
  have hm := Int.emod_nonneg (o.updateTime - o.initialTime) (b := (o.interval : Int)) (by omega)
  have hm2 := Int.emod_lt_of_pos (o.updateTime - o.initialTime) (b := (o.interval : Int)) (by omega)
  have hd : deltaOK o.delta := ⟨by omega, by omega⟩
  have h := grun_inv (a := a) (fun q => q = o)
    (fun i _ th => Steady (work i) (fun r => r.2.2.2 = stdHotp a (s.take (blockBytes a)) o.co.toNat r.1.digits)
      (fun _ _ pc => pc = .start ∨ pc = .gotDelta o.delta ∨ (∃ t, near t ∧ t < o.updateTime + o.delta ∧ pc = .gotNow o.delta t) ∨
        pc = .hotp ∨ pc = .gotSecret s) th)
    (fun t => near t ∧ o.updateTime ≤ t ∧ t < o.updateTime + o.delta) (by
    intro i q th now hq hth hnow
    subst hq
    cases hc : th.cur with
    | none =>
      cases ht : th.todo with
      | nil => exact ⟨q, th, by rw [gstep, hc]; dsimp only; rw [ht], rfl, hth, fun _ _ h => h⟩
      | cons c rest =>
        refine ⟨q, { th with todo := rest, cur := some (c, now, if c.hotp then .hotp else .start) },
          by rw [gstep, hc]; dsimp only; rw [ht], rfl, ?_, fun _ _ h => h⟩
        apply steady_pick hth hc c rest ht
        intro hm
        cases c.hotp
        · exact .inl rfl
        · exact .inr (.inr (.inr (.inl rfl)))
    | some x =>
      obtain ⟨c, t1, pc⟩ := x
      obtain ⟨hm, hp⟩ := hth.pc c t1 pc hc
      rcases hp with rfl | rfl | ⟨t, ht1, ht2, rfl⟩ | rfl | rfl
      · exact ⟨q, { th with cur := some (c, t1, .gotDelta q.delta) }, by rw [gstep, hc], rfl,
          steady_move hth c t1 _ _ hc (.inr (.inl rfl)), fun _ _ h => h⟩
      · exact ⟨q, { th with cur := some (c, t1, .gotNow q.delta now) }, by rw [gstep, hc], rfl,
          steady_move hth c t1 _ _ hc (.inr (.inr (.inl ⟨now, hnow.1, hnow.2.2, rfl⟩))), fun _ _ h => h⟩
      · refine ⟨q, { th with cur := some (c, t1, .hotp) }, ?_, rfl,
          steady_move hth c t1 _ _ hc (.inr (.inr (.inr (.inl rfl)))), fun _ _ h => h⟩
        obtain ⟨_, _⟩ := hu
        obtain ⟨_, _⟩ := ht1
        rw [gstep, hc]
        dsimp only
        rw [chk, if_pos ⟨by omega, by omega⟩, bind_ok, chk, if_pos ⟨by omega, by omega⟩, bind_ok, if_neg (by omega)]
      · refine ⟨q, { th with cur := some (c, t1, .gotSecret s) }, by rw [gstep, hc]; dsimp only; rw [hs], rfl, ?_, fun _ _ h => h⟩
        exact steady_move hth c t1 _ _ hc (.inr (.inr (.inr (.inr rfl))))
      · refine ⟨q, { th with cur := none, done := th.done ++ [(c, t1, now, stdHotp a (s.take (blockBytes a)) q.co.toNat c.digits)] },
          ?_, rfl, steady_finish hth c t1 _ hc now _ rfl, fun _ _ h => h⟩
        rw [gstep, hc]
        dsimp only
        rw [C37_long a ha h5 c.mem (hw i c hm) s q.co c.digits, bind_ok]) sched (gInit o work) hclk rfl
    (fun i => steady_init _ _ _)
  obtain ⟨sys, e, h1, h2⟩ := h
  refine ⟨sys, e, h1, fun i => ⟨(h2 i).order, fun r hr t k1 k2 => ?_⟩⟩
  rw [(h2 i).res r hr, timeStep_const o.updateTime t o.initialTime o.interval hx k1 (by omega), ← hco]
  rfl

/-- A counter the object can hold after some steps at the times `T`: its first one, or that of one of the times. -/
def counterOf {a : Alg} (o : Totp a) (T : Int → Prop) (c : W64) : Prop :=
  c = o.co ∨ ∃ t, T t ∧ c.toNat = (timeStep t o.initialTime o.interval).toNat

/-- **C88, TOTP objects, any schedule.**  Whatever the schedule, nothing overflows or divides by zero, and each finished
call has returned the value for the counter the object had at the beginning or for the time step of a moment at which
some thread made a step: never anything else. -/
theorem C88_bound (a : Alg) (ha : isShake a = false) (h5 : a ≠ .MD5) (o : Totp a) (s : List Byte) (hs : o.secret = some s)
    (hx : 0 < o.interval) (hx2 : o.interval < 2 ^ 32) (hi : near o.initialTime) (hu : near o.updateTime) (hd : deltaOK o.delta)
    (work : Nat → List (GCall a)) (hw : stacksOK work) (sched : List (Nat × Int))
    (hclk : ∀ p ∈ sched, near p.2 ∧ o.initialTime ≤ p.2) :
    ∃ sys, grun (gInit o work) sched = .ok sys ∧
      ∀ i, threadCalls (sys.threads i) = work i ∧
        ∀ r ∈ (sys.threads i).done, ∃ c, counterOf o (fun t => t ∈ sched.map Prod.snd) c ∧
          r.2.2.2 = stdHotp a (s.take (blockBytes a)) c.toNat r.1.digits := by
  let T : Int → Prop := fun t => t ∈ sched.map Prod.snd
  have hT : ∀ t, T t → near t ∧ o.initialTime ≤ t := by
    intro t ht
    obtain ⟨p, hp, rfl⟩ := List.mem_map.1 ht
    exact hclk p hp
  let Q : Totp a → GCall a → Int → Pc → Prop := fun q _ _ pc => match pc with
    | .start | .update | .hotp => True
    | .gotDelta d => deltaOK d
    | .gotNow d t => deltaOK d ∧ near t
    | .gotClock t => T t
    | .wroteTime => T q.updateTime
    | .args rt iv it => T rt ∧ iv = o.interval ∧ it = o.initialTime
    | .wroteDelta c => counterOf o T c
    | .gotSecret s' => s' = s
  let R : GCall a × Int × Int × Nat → Prop := fun r => ∃ c, counterOf o T c ∧ r.2.2.2 = stdHotp a (s.take (blockBytes a)) c.toNat r.1.digits
  have mono : ∀ (q q' : Totp a), (T q.updateTime → T q'.updateTime) → ∀ j th, Steady (work j) R (Q q) th → Steady (work j) R (Q q') th := by
    intro q q' hq j th h
    refine ⟨h.order, h.res, fun c t1 pc e => ⟨(h.pc c t1 pc e).1, ?_⟩⟩
    have := (h.pc c t1 pc e).2
    cases pc <;> first | exact this | exact hq this
  have h := grun_inv (a := a)
    (fun q => q.secret = some s ∧ q.interval = o.interval ∧ q.initialTime = o.initialTime ∧ near q.updateTime ∧ deltaOK q.delta ∧
      counterOf o T q.co)
    (fun i q th => Steady (work i) R (Q q) th) T (by
    intro i q th now hq hth hnow
    obtain ⟨q1, q2, q3, q4, q5, q6⟩ := hq
    cases hc : th.cur with
    | none =>
      cases ht : th.todo with
      | nil => exact ⟨q, th, by rw [gstep, hc]; dsimp only; rw [ht], ⟨q1, q2, q3, q4, q5, q6⟩, hth, fun _ _ h => h⟩
      | cons c rest =>
        refine ⟨q, { th with todo := rest, cur := some (c, now, if c.hotp then .hotp else .start) },
          by rw [gstep, hc]; dsimp only; rw [ht], ⟨q1, q2, q3, q4, q5, q6⟩, ?_, fun _ _ h => h⟩
        apply steady_pick hth hc c rest ht
        intro hm
        cases c.hotp <;> exact trivial
    | some x =>
      obtain ⟨c, t1, pc⟩ := x
      obtain ⟨hm, hp⟩ := hth.pc c t1 pc hc
      cases pc with
      | start =>
        exact ⟨q, { th with cur := some (c, t1, .gotDelta q.delta) }, by rw [gstep, hc], ⟨q1, q2, q3, q4, q5, q6⟩,
          steady_move hth c t1 _ _ hc q5, fun _ _ h => h⟩
      | gotDelta d =>
        exact ⟨q, { th with cur := some (c, t1, .gotNow d now) }, by rw [gstep, hc], ⟨q1, q2, q3, q4, q5, q6⟩,
          steady_move hth c t1 _ _ hc ⟨hp, (hT now hnow).1⟩, fun _ _ h => h⟩
      | gotNow d t =>
        refine ⟨q, { th with cur := some (c, t1, if d - (t - q.updateTime) ≤ 0 then .update else .hotp) }, ?_,
          ⟨q1, q2, q3, q4, q5, q6⟩, steady_move hth c t1 _ _ hc (by split <;> exact trivial), fun _ _ h => h⟩
        obtain ⟨⟨_, _⟩, ⟨_, _⟩⟩ := hp
        obtain ⟨_, _⟩ := q4
        rw [gstep, hc]
        dsimp only
        rw [chk, if_pos ⟨by omega, by omega⟩, bind_ok, chk, if_pos ⟨by omega, by omega⟩, bind_ok]
      | update =>
        exact ⟨q, { th with cur := some (c, t1, .gotClock now) }, by rw [gstep, hc], ⟨q1, q2, q3, q4, q5, q6⟩,
          steady_move hth c t1 _ _ hc hnow, fun _ _ h => h⟩
      | gotClock t =>
        have hm := mono q { q with updateTime := t } (fun _ => hp)
        exact ⟨{ q with updateTime := t }, { th with cur := some (c, t1, .wroteTime) }, by rw [gstep, hc],
          ⟨q1, q2, q3, (hT t hp).1, q5, q6⟩, steady_move (hm i th hth) c t1 _ _ hc hp, hm⟩
      | wroteTime =>
        exact ⟨q, { th with cur := some (c, t1, .args q.updateTime q.interval q.initialTime) }, by rw [gstep, hc],
          ⟨q1, q2, q3, q4, q5, q6⟩, steady_move hth c t1 _ _ hc ⟨hp, q2, q3⟩, fun _ _ h => h⟩
      | args rt iv it =>
        obtain ⟨p1, rfl, rfl⟩ := hp
        obtain ⟨⟨_, k2⟩, k3⟩ := hT rt p1
        obtain ⟨k4, _⟩ := hi
        have hcalc := calc_ok rt o.initialTime o.interval hx hx2 k3 (by omega)
        have hm := fun (d : Int) => mono q { q with delta := d } id
        have h3 := timeStep_nonneg rt o.initialTime o.interval hx k3
        have h4 := timeStep_le rt o.initialTime o.interval hx k3
        have h6 := ofInt_toNat (timeStep rt o.initialTime o.interval) h3 (by omega)
        refine ⟨{ q with delta := (o.interval - (rt - o.initialTime) % (o.interval:Int)).bmod (2^32) },
          { th with cur := some (c, t1, .wroteDelta (BitVec.ofInt 64 (timeStep rt o.initialTime o.interval))) },
          by rw [gstep, hc]; dsimp only; rw [hcalc, bind_ok], ⟨q1, q2, q3, q4, bmod_deltaOK _, q6⟩,
          steady_move (hm _ i th hth) c t1 _ _ hc ?_, hm _⟩
        exact .inr ⟨rt, p1, by omega⟩
      | wroteDelta v =>
        have hm := mono q { q with co := v } id
        exact ⟨{ q with co := v }, { th with cur := some (c, t1, .hotp) }, by rw [gstep, hc],
          ⟨q1, q2, q3, q4, q5, hp⟩, steady_move (hm i th hth) c t1 _ _ hc trivial, hm⟩
      | hotp =>
        exact ⟨q, { th with cur := some (c, t1, .gotSecret s) }, by rw [gstep, hc]; dsimp only; rw [q1], ⟨q1, q2, q3, q4, q5, q6⟩,
          steady_move hth c t1 _ _ hc rfl, fun _ _ h => h⟩
      | gotSecret s' =>
        cases (show s' = s from hp)
        refine ⟨q, { th with cur := none, done := th.done ++ [(c, t1, now, stdHotp a (s.take (blockBytes a)) q.co.toNat c.digits)] },
          ?_, ⟨q1, q2, q3, q4, q5, q6⟩, steady_finish hth c t1 _ hc now _ ⟨q.co, q6, rfl⟩, fun _ _ h => h⟩
        rw [gstep, hc]
        dsimp only
        rw [C37_long a ha h5 c.mem (hw i c hm) s q.co c.digits, bind_ok]) sched (gInit o work)
    (fun p hp => List.mem_map.2 ⟨p, hp, rfl⟩) ⟨hs, rfl, rfl, hu, hd, .inl rfl⟩ (fun i => steady_init _ _ _)
  obtain ⟨sys, e, _, h2⟩ := h
  exact ⟨sys, e, fun i => ⟨(h2 i).order, (h2 i).res⟩⟩

/-- Two threads, one call each. -/
def twoCalls {a : Alg} (c0 c1 : GCall a) : Nat → List (GCall a) := fun i => if i = 0 then [c0] else if i = 1 then [c1] else []

/-- **C88, violation.**  Whenever the remaining time has run out: one thread is interrupted in `update_counter`, after
`_update_time` has been written; a second thread then finds time remaining and returns the code of the previous
counter, at a moment when only the code of the new time step is right. -/
theorem C88_violation (a : Alg) (ha : isShake a = false) (h5 : a ≠ .MD5) (o : Totp a) (s : List Byte) (hs : o.secret = some s)
    (t : Int) (ht : near t) (hu : near o.updateTime) (hd : deltaOK o.delta) (hp : 0 < o.delta) (hlate : o.updateTime + o.delta ≤ t)
    (c0 c1 : GCall a) (h0 : c0.hotp = false) (h1 : c1.hotp = false) (hm : otpStackOK a c1.mem) :
    ∃ sys, grun (gInit o (twoCalls c0 c1)) (List.replicate 6 (0, t) ++ List.replicate 6 (1, t)) = .ok sys ∧
      (sys.threads 1).done = [(c1, t, t, stdHotp a (s.take (blockBytes a)) o.co.toNat c1.digits)] := by
  obtain ⟨_, _⟩ := ht
  obtain ⟨_, _⟩ := hu
  obtain ⟨_, _⟩ := hd
  have k1 : chk (t - o.updateTime) = .ok (t - o.updateTime) := by rw [chk, if_pos ⟨by omega, by omega⟩]
  have k2 : chk (o.delta - (t - o.updateTime)) = .ok (o.delta - (t - o.updateTime)) := by rw [chk, if_pos ⟨by omega, by omega⟩]
  have k3 : chk (t - t) = .ok 0 := by rw [Int.sub_self]; rfl
  have k4 : chk (o.delta - 0) = .ok o.delta := by rw [Int.sub_zero, chk, if_pos ⟨by omega, by omega⟩]
  have k5 : o.delta - (t - o.updateTime) ≤ 0 := by omega
  have k6 : ¬ o.delta ≤ 0 := by omega
  have k7 := C37_long a ha h5 c1.mem hm s o.co c1.digits
  refine ⟨_, by
    simp only [List.replicate, List.cons_append, List.nil_append, grun, gstep, gInit, twoCalls, bind_ok, h0, h1, k1, k2, k3, k4, k5, k6,
      k7, hs, if_true, if_false, reduceCtorEq, Nat.one_ne_zero, Nat.zero_ne_one, Bool.false_eq_true]
    rfl, ?_⟩
  simp


/-- The hypotheses of `C88_violation` are met in the RFC 4226 test: a code was generated at time 29, and at time 30 both threads call
`generate`.  The second one gets 755224, the code of step 0, in step 1, whose code is 287082. -/
theorem C88_violation_example : ∃ sys, grun (gInit { exObj with updateTime := 29, co := 0#64, delta := 1 }
      (twoCalls ⟨false, sha1Stack, 6⟩ ⟨false, sha1Stack, 6⟩)) (List.replicate 6 (0, 30) ++ List.replicate 6 (1, 30)) = .ok sys ∧
    (sys.threads 1).done = [(⟨false, sha1Stack, 6⟩, 30, 30, 755224)] ∧
    (∃ v, exObj.generate 29 29 sha1Stack 6 = .ok ({ exObj with updateTime := 29, co := 0#64, delta := 1 }, v)) ∧
    stdHotp .SHA1 rfcSecret (timeStep 30 0 30).toNat 6 = 287082 := by
  obtain ⟨sys, h1, h2⟩ := C88_violation .SHA1 rfl (by decide) { exObj with updateTime := 29, co := 0#64, delta := 1 } rfcSecret rfl 30
    ⟨by decide, by decide⟩ ⟨by decide, by decide⟩ ⟨by decide, by decide⟩ (by decide) (by decide)
    ⟨false, sha1Stack, 6⟩ ⟨false, sha1Stack, 6⟩ rfl rfl sha1Stack_ok
  refine ⟨sys, h1, ?_, ⟨755224, ?_⟩, ?_⟩
  · rw [h2, show rfcSecret.take (blockBytes .SHA1) = rfcSecret by decide]
    show [(_, _, _, stdHotp .SHA1 rfcSecret 0 6)] = _
    rw [rfcCode0]
  · have hr : exObj.remainingTime 29 = .ok (-29) := by decide
    have hu : exObj.updateCounter 29 = .ok { exObj with updateTime := 29, co := 0#64, delta := 1 } := rfl
    rw [Totp.generate, Totp.refresh, hr, bind_ok, if_pos (by decide), hu, bind_ok,
      hotpGenerate_ok .SHA1 rfl (by decide) _ rfcSecret rfl sha1Stack sha1Stack_ok 6, bind_ok,
      show rfcSecret.take (blockBytes .SHA1) = rfcSecret by decide, show (0#64).toNat = 0 from rfl, rfcCode0]
  · rw [show (timeStep 30 0 30).toNat = 1 by decide, rfcCode1]

/-- The hypotheses of `C88_totp_partial` and `C88_bound` are met by the same object, with any number of threads, during
step 1. -/
theorem C88_totp_example (work : Nat → List (GCall .SHA1)) (hw : stacksOK work) (sched : List (Nat × Int))
    (hclk : ∀ p ∈ sched, 30 ≤ p.2 ∧ p.2 < 60) :
    ∃ sys, grun (gInit { exObj with updateTime := 30, co := 1#64, delta := 30 } work) sched = .ok sys ∧
      ∀ i, ∀ r ∈ (sys.threads i).done, r.1.digits = 6 → r.2.2.2 = 287082 := by
  obtain ⟨sys, e, _, h⟩ := C88_totp_partial .SHA1 rfl (by decide) { exObj with updateTime := 30, co := 1#64, delta := 30 } rfcSecret rfl
    (by decide) (by decide) ⟨by decide, by decide⟩ ⟨by decide, by decide⟩ (by decide) (by decide) work hw sched
    (fun p hp => ⟨⟨by have := hclk p hp; omega, by have := hclk p hp; omega⟩, by have := hclk p hp; exact this.1,
      by have := hclk p hp; exact this.2⟩)
  refine ⟨sys, e, fun i r hr hd => ?_⟩
  rw [(h i).2 r hr 30 (by decide) (by decide), hd, show rfcSecret.take (blockBytes .SHA1) = rfcSecret by decide]
  show stdHotp .SHA1 rfcSecret (timeStep 30 0 30).toNat 6 = _
  rw [show (timeStep 30 0 30).toNat = 1 by decide, rfcCode1]

/-- A thread that is not interrupted runs the function of the sequential model: if `generate` with the clock readings
`t1` and `t2` returns, six or eleven steps of the thread give the same result and leave the same object. -/
theorem C88_alone (a : Alg) (o o' : Totp a) (c : GCall a) (h0 : c.hotp = false) (t1 t2 : Int) (v : Nat)
    (h : o.generate t1 t2 c.mem c.digits = .ok (o', v)) :
    ∃ n sys, grun (gInit o (fun i => if i = 0 then [c] else [])) (List.replicate 4 (0, t1) ++ List.replicate n (0, t2)) = .ok sys ∧
      sys.obj = o' ∧ (sys.threads 0).done = [(c, t1, t2, v)] := by
  rw [Totp.generate, Totp.refresh, Totp.remainingTime] at h
  cases k1 : chk (t1 - o.updateTime) with
  | error e => rw [k1, bind_err, bind_err, bind_err] at h; cases h
  | ok e1 =>
    rw [k1, bind_ok] at h
    cases k2 : chk (o.delta - e1) with
    | error e => rw [k2, bind_err, bind_err] at h; cases h
    | ok r =>
      rw [k2, bind_ok] at h
      by_cases hr : r ≤ 0
      · rw [if_pos hr, Totp.updateCounter] at h
        cases k3 : calcPeriodicCounter t2 o.interval o.initialTime with
        | error e => rw [k3, bind_err, bind_err] at h; cases h
        | ok w =>
          rw [k3, bind_ok, bind_ok] at h
          rw [Totp.hotpGenerate] at h
          cases hs : o.secret with
          | none => simp only [hs] at h; cases h
          | some s =>
            simp only [hs] at h
            cases k4 : hotpGeneric a c.mem.hmac c.mem.counterH c.mem.outHash s s.length w.1 c.digits with
            | error e => rw [k4, bind_err] at h; cases h
            | ok x =>
              rw [k4, bind_ok, Except.ok.injEq, Prod.mk.injEq] at h
              obtain ⟨rfl, rfl⟩ := h
              refine ⟨7, _, by
                simp only [List.replicate, List.cons_append, List.nil_append, grun, gstep, gInit, bind_ok, h0, k1, k2, k3, k4, hr,
                  hs, if_true, if_false, reduceCtorEq, Bool.false_eq_true]
                rfl, ?_, ?_⟩
              · simp
              · simp
      · rw [if_neg hr, bind_ok] at h
        rw [Totp.hotpGenerate] at h
        cases hs : o.secret with
        | none => simp only [hs] at h; cases h
        | some s =>
          simp only [hs] at h
          cases k4 : hotpGeneric a c.mem.hmac c.mem.counterH c.mem.outHash s s.length o.co c.digits with
          | error e => rw [k4, bind_err] at h; cases h
          | ok x =>
            rw [k4, bind_ok, Except.ok.injEq, Prod.mk.injEq] at h
            obtain ⟨rfl, rfl⟩ := h
            refine ⟨2, _, by
              simp only [List.replicate, List.cons_append, List.nil_append, grun, gstep, gInit, bind_ok, h0, k1, k2, k4, hr,
                hs, if_true, if_false, reduceCtorEq, Bool.false_eq_true]
              rfl, ?_, ?_⟩
            · simp
            · simp


end Pgfe.Props
