import Verif.Model.HashThreads
import Verif.Proofs.Alg
/-!
# Threads with contexts of their own do not disturb one another
-/
namespace Pgfe.Proofs.HashThreads
open Pgfe.Model

/-! ## Steps of one call -/

/-- At most `k` steps of a call. -/
def runCall {I : HashImpl} (M : Micro I) : Nat → I.Ctx → M.Loc → C (I.Ctx × Option M.Loc)
  | 0, c, l => .ok (c, some l)
  | k + 1, c, l => do
    let r ← M.step c l
    match r.2 with
    | none => .ok r
    | some l' => runCall M k r.1 l'

/-- The steps of an update joined are the update. -/
def Adequate (I : HashImpl) (M : Micro I) : Prop :=
  ∀ c x n c', I.update c (some x) n = .ok c' → ∃ k, runCall M k c (M.start x n) = .ok (c', none)

/-- One iteration of the loop. -/
theorem sha_iter {w : Nat} (init update digest) (process : ShaCtx w → C (ShaCtx w)) (bs : Nat) (input : List Byte)
    (length i : Nat) (hi : i < length) (ctx ctx' : ShaCtx w) (corrupt : Bool)
    (h : shaUpdateBody process bs input i (ctx, false) = .ok (ctx', corrupt)) :
    ∃ k, ∀ k', runCall (shaMicro init update digest process bs) (k + k') ctx ⟨input, length, i, .test⟩
      = if corrupt then .ok (ctx', none)
        else runCall (shaMicro init update digest process bs) k' ctx' ⟨input, length, i + 1, .test⟩ := by
  simp only [shaUpdateBody] at h
  generalize hb : rd input i = rb at h
  cases rb with
  | error e => rw [bind_err] at h; cases h
  | ok b =>
    rw [bind_ok] at h
    generalize hw : wr ctx.block ctx.index b = rw' at h
    cases rw' with
    | error e => rw [bind_err] at h; cases h
    | ok block =>
      rw [bind_ok] at h
      by_cases hc : ctx.lenLow + 8#w < ctx.lenLow
      · have hd : decide (ctx.lenLow + 8#w < ctx.lenLow) = true := decide_eq_true hc
        rw [hd] at h
        simp only [if_true, Bool.true_and] at h
        generalize hp : (if (!(ctx.lenHigh + 1#w == 0#w) && ctx.index + 1 == bs) = true then
          process { state := ctx.state, lenLow := ctx.lenLow + 8#w, lenHigh := ctx.lenHigh + 1#w, index := ctx.index + 1, block := block }
          else Except.ok { state := ctx.state, lenLow := ctx.lenLow + 8#w, lenHigh := ctx.lenHigh + 1#w, index := ctx.index + 1, block := block }) = q at h
        cases q with
        | error e => rw [bind_err] at h; cases h
        | ok c1 =>
          rw [bind_ok] at h
          by_cases hi2 : i + 1 < 2 ^ 31
          · rw [if_pos hi2] at h
            cases h
            refine ⟨10, fun k' => ?_⟩
            rw [Nat.add_comm]
            simp only [runCall, shaMicro, shaMicroStep, hi, if_true, bind_ok, hb, hw, hc, hp, hi2]
            cases (ctx.lenHigh + 1#w == 0#w) <;> rfl
          · rw [if_neg hi2] at h; cases h
      · have hd : decide (ctx.lenLow + 8#w < ctx.lenLow) = false := decide_eq_false hc
        rw [hd] at h
        simp only [Bool.false_and, Bool.not_false, Bool.true_and, Bool.false_eq_true, if_false] at h
        generalize hp : (if (ctx.index + 1 == bs) = true then
          process { state := ctx.state, lenLow := ctx.lenLow + 8#w, lenHigh := ctx.lenHigh, index := ctx.index + 1, block := block }
          else Except.ok { state := ctx.state, lenLow := ctx.lenLow + 8#w, lenHigh := ctx.lenHigh, index := ctx.index + 1, block := block }) = q at h
        cases q with
        | error e => rw [bind_err] at h; cases h
        | ok c1 =>
          rw [bind_ok] at h
          by_cases hi2 : i + 1 < 2 ^ 31
          · rw [if_pos hi2] at h
            cases h
            refine ⟨8, fun k' => ?_⟩
            rw [Nat.add_comm]
            simp only [runCall, shaMicro, shaMicroStep, hi, if_true, bind_ok, hb, hw, hc, if_false, Bool.not_false,
              Bool.true_and, hp, hi2, Bool.false_eq_true]
          · rw [if_neg hi2] at h; cases h

/-- Once the flag is set nothing happens any more. -/
theorem body_corrupt {w : Nat} (process : ShaCtx w → C (ShaCtx w)) (bs : Nat) (input : List Byte) (i : Nat)
    (ctx : ShaCtx w) : ∀ d, forN d (fun j => shaUpdateBody process bs input (i + j)) (ctx, true) = .ok (ctx, true) := by
  intro d
  induction d with
  | zero => rfl
  | succ d ih => rw [forN, ih]; rfl

theorem forN_front {σ : Type} (d : Nat) (f : Nat → σ → C σ) (s : σ) :
    forN (d + 1) f s = (f 0 s >>= fun s => forN d (fun j => f (j + 1)) s) := by
  rw [Nat.add_comm, forN_add]
  show ((Except.ok s : C σ) >>= f 0) >>= _ = _
  rw [bind_ok]
  congr 1
  funext s
  congr 1
  funext j
  rw [Nat.add_comm]

theorem sha_loop {w : Nat} (init update digest) (process : ShaCtx w → C (ShaCtx w)) (bs : Nat) (input : List Byte)
    (length : Nat) : ∀ (d i : Nat) (ctx : ShaCtx w) (r : ShaCtx w × Bool), i + d = length →
    forN d (fun j => shaUpdateBody process bs input (i + j)) (ctx, false) = .ok r →
    ∃ k, runCall (shaMicro init update digest process bs) k ctx ⟨input, length, i, .test⟩ = .ok (r.1, none) := by
  intro d
  induction d with
  | zero =>
    intro i ctx r hi h
    cases h
    have : ¬ i < length := by omega
    exact ⟨1, by simp [runCall, shaMicro, shaMicroStep, this]⟩
  | succ d ih =>
    intro i ctx r hi h
    rw [forN_front, Nat.add_zero] at h
    generalize hq : shaUpdateBody process bs input i (ctx, false) = q at h
    cases q with
    | error e => rw [bind_err] at h; cases h
    | ok s =>
      obtain ⟨c1, corrupt⟩ := s
      rw [bind_ok] at h
      obtain ⟨k, hk⟩ := sha_iter init update digest process bs input length i (by omega) ctx c1 corrupt hq
      cases corrupt with
      | true =>
        have e : (fun j => shaUpdateBody process bs input (i + (j + 1)))
            = fun j => shaUpdateBody process bs input ((i + 1) + j) := by
          funext j; congr 1; omega
        rw [e, body_corrupt] at h
        cases h
        exact ⟨k + 0, by rw [hk 0]; rfl⟩
      | false =>
        have e : (fun j => shaUpdateBody process bs input (i + (j + 1)))
            = fun j => shaUpdateBody process bs input ((i + 1) + j) := by
          funext j; congr 1; omega
        rw [e] at h
        obtain ⟨k', hk'⟩ := ih (i + 1) c1 r (by omega) h
        exact ⟨k + k', by rw [hk k', if_neg (by decide)]; exact hk'⟩

theorem sha_adequate {w : Nat} (init digest) (process : ShaCtx w → C (ShaCtx w)) (bs : Nat) :
    Adequate ⟨ShaCtx w, init, shaUpdate process bs, digest⟩ (shaMicro init (shaUpdate process bs) digest process bs) := by
  intro c x n c' h
  have h : shaUpdate process bs c (some x) n = .ok c' := h
  simp only [shaUpdate] at h
  generalize hq : forN n (shaUpdateBody process bs x) (c, false) = q at h
  cases q with
  | error e => rw [bind_err] at h; cases h
  | ok s =>
    rw [bind_ok] at h
    cases h
    refine sha_loop init _ digest process bs x n n 0 c s (by omega) ?_
    rw [← hq]
    congr 1
    funext j
    rw [Nat.zero_add]

theorem md5_loop (input : List Byte) (length : Nat) : ∀ (fuel : Nat) (ctx : Md5Ctx) (readLen : Nat)
    (locals : Option (Nat × Nat)) (r : Md5Ctx × Nat × Option (Nat × Nat)), length - readLen ≤ fuel →
    md5Loop input length ctx readLen locals = .ok r →
    ∃ k, ∀ k', runCall md5Micro (k + k') ctx ⟨input, length, readLen, locals, false⟩
      = runCall md5Micro k' r.1 ⟨input, length, r.2.1, r.2.2, true⟩ := by
  intro fuel
  induction fuel with
  | zero =>
    intro ctx readLen locals r hf h
    have hn : ¬ readLen < length := by omega
    rw [md5Loop, dif_neg hn] at h
    cases h
    refine ⟨1, fun k' => ?_⟩
    rw [Nat.add_comm]
    simp [runCall, md5Micro, md5MicroStep, hn]
  | succ fuel ih =>
    intro ctx readLen locals r hf h
    rw [md5Loop] at h
    by_cases hn : readLen < length
    · rw [dif_pos hn] at h
      by_cases ho : length - readLen < 64 - md5Offset ctx
      · rw [if_pos ho] at h
        cases h
        refine ⟨1, fun k' => ?_⟩
        rw [Nat.add_comm]
        simp [runCall, md5Micro, md5MicroStep, hn, ho]
      · rw [if_neg ho] at h
        generalize hs : rds input readLen (64 - md5Offset ctx) = q1 at h
        cases q1 with
        | error e => rw [bind_err] at h; cases h
        | ok src =>
          rw [bind_ok] at h
          generalize hb : wrs ctx.block (md5Offset ctx) src = q2 at h
          cases q2 with
          | error e => rw [bind_err] at h; cases h
          | ok block =>
            rw [bind_ok] at h
            generalize ht : md5Transform ctx.state block = q3 at h
            cases q3 with
            | error e => rw [bind_err] at h; cases h
            | ok state =>
              rw [bind_ok] at h
              have := md5Offset_lt ctx
              obtain ⟨k, hk⟩ := ih _ _ _ r (by omega) h
              refine ⟨k + 1, fun k' => ?_⟩
              rw [show k + 1 + k' = (k + k') + 1 by omega, ← hk k']
              simp only [runCall, md5Micro, md5MicroStep, hn, ho, if_true, if_false, hs, hb, ht, bind_ok,
                Bool.false_eq_true]
    · rw [dif_neg hn] at h
      cases h
      refine ⟨1, fun k' => ?_⟩
      rw [Nat.add_comm]
      simp [runCall, md5Micro, md5MicroStep, hn]

theorem md5_adequate : Adequate md5Impl md5Micro := by
  intro c x n c' h
  have h : md5Update c (some x) n = .ok c' := h
  simp only [md5Update] at h
  generalize hq : md5Loop x n c 0 none = q at h
  cases q with
  | error e => rw [bind_err] at h; cases h
  | ok r =>
    rw [bind_ok] at h
    obtain ⟨k, hk⟩ := md5_loop x n (n - 0) c 0 none r (Nat.le_refl _) hq
    refine ⟨k + 1, ?_⟩
    show runCall md5Micro (k + 1) c ⟨x, n, 0, none, false⟩ = _
    rw [hk 1]
    simp [runCall, md5Micro, md5MicroStep, h]

theorem keccak_loop (init digest) (input : List Byte) (bitLen : Nat) : ∀ (fuel : Nat) (ctx : KeccakCtx) (i : Nat)
    (c' : KeccakCtx), bitLen - i ≤ fuel → keccakAbsorbLoop ctx input bitLen i = .ok c' →
    ∃ k, runCall (keccakMicro init digest) k ctx ⟨input, bitLen, i, true⟩ = .ok (c', none) := by
  intro fuel
  induction fuel with
  | zero =>
    intro ctx i c' hf h
    have hn : ¬ i < bitLen := by omega
    rw [keccakAbsorbLoop, dif_neg hn] at h
    cases h
    exact ⟨1, by simp [runCall, keccakMicro, keccakMicroStep, hn]⟩
  | succ fuel ih =>
    intro ctx i c' hf h
    rw [keccakAbsorbLoop] at h
    by_cases hn : i < bitLen
    · rw [dif_pos hn] at h
      by_cases hw : ctx.inqueueBits = 0 ∧ bitLen ≥ ctx.rate ∧ i ≤ bitLen - ctx.rate
      · rw [if_pos hw] at h
        generalize hq : keccakWhole ctx input (i / 8) ((bitLen - i) / ctx.rate) = q at h
        cases q with
        | error e => cases h
        | ok st =>
          dsimp only at h
          by_cases h2 : 0 < (bitLen - i) / ctx.rate * ctx.rate
          · rw [dif_pos h2] at h
            obtain ⟨k, hk⟩ := ih _ _ c' (by omega) h
            refine ⟨k + 1, ?_⟩
            rw [← hk]
            simp only [runCall, keccakMicro, keccakMicroStep, hn, if_true, hq, bind_ok]
            rw [if_pos hw, if_pos h2]
            rfl
          · rw [dif_neg h2] at h; cases h
      · rw [if_neg hw] at h
        generalize hq : keccakPartial ctx input bitLen i = q at h
        cases q with
        | error e => cases h
        | ok r =>
          obtain ⟨c1, i1⟩ := r
          dsimp only at h
          by_cases h2 : i < i1
          · rw [dif_pos h2] at h
            obtain ⟨k, hk⟩ := ih _ _ c' (by omega) h
            refine ⟨k + 1, ?_⟩
            rw [← hk]
            simp only [runCall, keccakMicro, keccakMicroStep, hn, if_true, hq, bind_ok]
            rw [if_neg hw, if_pos h2]
            rfl
          · rw [dif_neg h2] at h; cases h
    · rw [dif_neg hn] at h
      cases h
      exact ⟨1, by simp [runCall, keccakMicro, keccakMicroStep, hn]⟩

theorem keccak_adequate (init digest) :
    Adequate ⟨KeccakCtx, init, keccakUpdate, digest⟩ (keccakMicro init digest) := by
  intro c x n c' h
  have h : keccakUpdate c (some x) n = .ok c' := h
  simp only [keccakUpdate, keccakAbsorb] at h
  by_cases ht : c.inqueueBits % 8 ≠ 0 ∨ c.squeezing
  · rw [if_pos ht] at h
    cases h
    refine ⟨1, ?_⟩
    simp only [runCall, keccakMicro, keccakMicroStep, Bool.false_eq_true, if_false]
    rw [if_pos ht]
    rfl
  · rw [if_neg ht] at h
    obtain ⟨k, hk⟩ := keccak_loop init digest x _ _ c 0 c' (Nat.le_refl _) h
    refine ⟨k + 1, ?_⟩
    rw [← hk]
    simp only [runCall, keccakMicro, keccakMicroStep, Bool.false_eq_true, if_false]
    rw [if_neg ht]
    rfl

theorem adequate (a : Alg) (bits : Nat) : Adequate (a.impl bits) (a.micro bits) := by
  cases a
  case MD5 => exact md5_adequate
  case SHA1 => exact sha_adequate _ _ sha1ProcessBlock 64
  case SHA224 => exact sha_adequate _ _ sha256ProcessBlock 64
  case SHA256 => exact sha_adequate _ _ sha256ProcessBlock 64
  case SHA384 => exact sha_adequate _ _ sha512ProcessBlock 128
  case SHA512 => exact sha_adequate _ _ sha512ProcessBlock 128
  case SHA512_224 => exact sha_adequate _ _ sha512ProcessBlock 128
  case SHA512_256 => exact sha_adequate _ _ sha512ProcessBlock 128
  all_goals exact keccak_adequate _ _

/-! ## One thread alone -/

section
variable {I : HashImpl} {M : Micro I}

/-- `n` steps of a thread by itself. -/
def alone : Nat → I.Ctx × HThread I M → C (I.Ctx × HThread I M)
  | 0, s => .ok s
  | n + 1, s => do
    let s ← alone n s
    s.2.step s.1

/-- Nothing left to do. -/
def Idle (th : HThread I M) : Prop := th.cur = none ∧ th.todo = []

theorem step_idle (c : I.Ctx) (th : HThread I M) (h : Idle th) : th.step c = .ok (c, th) := by
  obtain ⟨h1, h2⟩ := h
  simp [HThread.step, h1, h2]

theorem alone_add (m n : Nat) (s : I.Ctx × HThread I M) : alone (m + n) s = (alone m s >>= alone n) := by
  induction n with
  | zero =>
    show alone m s = _
    generalize alone m s = q
    cases q <;> rfl
  | succ n ih =>
    show (alone (m + n) s >>= fun s => s.2.step s.1) = _
    rw [ih]
    generalize alone m s = q
    cases q <;> rfl

theorem alone_idle (n : Nat) (s : I.Ctx × HThread I M) (h : Idle s.2) : alone n s = .ok s := by
  induction n with
  | zero => rfl
  | succ n ih => rw [alone, ih, bind_ok]; exact step_idle _ _ h

/-- The steps of a call are steps of the thread. -/
theorem alone_call (todo : List HashImpl.Call) (outs : List (List Byte)) : ∀ (k : Nat) (c : I.Ctx) (l : M.Loc) (c' : I.Ctx),
    runCall M k c l = .ok (c', none) →
    ∃ n, alone n (c, (⟨todo, some l, outs⟩ : HThread I M)) = .ok (c', ⟨todo, none, outs⟩) := by
  intro k
  induction k with
  | zero => intro c l c' h; cases h
  | succ k ih =>
    intro c l c' h
    rw [runCall] at h
    generalize hq : M.step c l = q at h
    cases q with
    | error e => rw [bind_err] at h; cases h
    | ok r =>
      obtain ⟨c1, l1⟩ := r
      rw [bind_ok] at h
      have e1 : alone 1 (c, (⟨todo, some l, outs⟩ : HThread I M)) = .ok (c1, ⟨todo, l1, outs⟩) := by
        simp [alone, HThread.step, hq]
      cases l1 with
      | none =>
        cases h
        exact ⟨1, e1⟩
      | some l1 =>
        obtain ⟨n, hn⟩ := ih c1 l1 c' h
        exact ⟨1 + n, by rw [alone_add, e1, bind_ok]; exact hn⟩

/-- A thread by itself makes its calls one after the other. -/
theorem alone_calls (hM : Adequate I M) : ∀ (l : List HashImpl.Call) (c c' : I.Ctx) (pre outs : List (List Byte)),
    I.calls c l = .ok (c', outs) →
    ∃ n, alone n (c, (⟨l, none, pre⟩ : HThread I M)) = .ok (c', ⟨[], none, pre ++ outs⟩) := by
  intro l
  induction l with
  | nil => intro c c' pre outs h; cases h; exact ⟨0, by rw [List.append_nil]; rfl⟩
  | cons x l ih =>
    intro c c' pre outs h
    cases x with
    | update x =>
      simp only [HashImpl.calls] at h
      generalize hq : I.update c (some x) x.length = q at h
      cases q with
      | error e => rw [bind_err] at h; cases h
      | ok c1 =>
        rw [bind_ok] at h
        obtain ⟨k, hk⟩ := hM c x x.length c1 hq
        obtain ⟨n1, h1⟩ := alone_call l pre k c _ c1 hk
        obtain ⟨n2, h2⟩ := ih c1 c' pre outs h
        refine ⟨1 + (n1 + n2), ?_⟩
        have e1 : alone 1 (c, (⟨.update x :: l, none, pre⟩ : HThread I M)) = .ok (c, ⟨l, some (M.start x x.length), pre⟩) := rfl
        rw [alone_add, e1, bind_ok, alone_add, h1, bind_ok]
        exact h2
    | digest out =>
      simp only [HashImpl.calls] at h
      generalize hq : I.digest c out = q at h
      cases q with
      | error e => rw [bind_err] at h; cases h
      | ok r =>
        rw [bind_ok] at h
        generalize hq2 : I.calls r.1 l = q2 at h
        cases q2 with
        | error e => rw [bind_err] at h; cases h
        | ok s =>
          rw [bind_ok] at h
          cases h
          obtain ⟨n, hn⟩ := ih r.1 s.1 (pre ++ [r.2]) s.2 hq2
          refine ⟨1 + n, ?_⟩
          have e1 : alone 1 (c, (⟨.digest out :: l, none, pre⟩ : HThread I M)) = .ok (r.1, ⟨l, none, pre ++ [r.2]⟩) := by
            simp [alone, HThread.step, hq]
          rw [alone_add, e1, bind_ok, hn, List.append_assoc]
          rfl

end

/-! ## Many threads -/

theorem setAt_same {β : Nat → Type} (f : ∀ k, β k) (i : Nat) (v : β i) : setAt f i v i = v := by
  simp [setAt]

theorem setAt_ne {β : Nat → Type} (f : ∀ k, β k) (i : Nat) (v : β i) (k : Nat) (h : k ≠ i) : setAt f i v k = f k := by
  simp [setAt, h]

/-- How often thread `t` occurs in a schedule. -/
def turns (t : Nat) (sched : List Nat) : Nat := sched.count t

variable {I : Nat → HashImpl} {M : ∀ k, Micro (I k)} {own : Nat → Nat}

/-- If each thread has a context of its own and no thread by itself would fail, then after any schedule each
thread and its context are in the state that as many steps by itself lead to. -/
theorem run_alone (hown : ∀ t u, own t = own u → t = u) : ∀ (sched : List Nat) (s : HWorld I M own),
    (∀ t n, ∃ r, alone n (s.ctxs (own t), s.threads t) = .ok r) →
    ∃ s', s.run sched = .ok s' ∧ ∀ t,
      alone (turns t sched) (s.ctxs (own t), s.threads t) = .ok (s'.ctxs (own t), s'.threads t) := by
  intro sched
  induction sched with
  | nil => intro s _; exact ⟨s, rfl, fun t => rfl⟩
  | cons u sched ih =>
    intro s hs
    obtain ⟨r, hr⟩ := hs u 1
    have hr' : (s.threads u).step (s.ctxs (own u)) = .ok r := by simpa [alone] using hr
    have e : s.step u = .ok ⟨setAt s.ctxs (own u) r.1, setAt s.threads u r.2⟩ := by
      simp [HWorld.step, hr']
    have other : ∀ t, t ≠ u → setAt s.ctxs (own u) r.1 (own t) = s.ctxs (own t) ∧
        setAt s.threads u r.2 t = s.threads t := fun t ht =>
      ⟨setAt_ne _ _ _ _ (fun h => ht (hown _ _ h)), setAt_ne _ _ _ _ ht⟩
    have self : setAt s.ctxs (own u) r.1 (own u) = r.1 ∧ setAt s.threads u r.2 u = r.2 :=
      ⟨setAt_same _ _ _, setAt_same _ _ _⟩
    obtain ⟨s', e1, e2⟩ := ih ⟨setAt s.ctxs (own u) r.1, setAt s.threads u r.2⟩ (by
      intro t n
      by_cases ht : t = u
      · subst ht
        obtain ⟨r2, hr2⟩ := hs t (1 + n)
        rw [alone_add, hr, bind_ok] at hr2
        dsimp only
        rw [self.1, self.2]
        exact ⟨r2, hr2⟩
      · dsimp only
        rw [(other t ht).1, (other t ht).2]
        exact hs t n)
    refine ⟨s', by rw [HWorld.run, e, bind_ok]; exact e1, fun t => ?_⟩
    have := e2 t
    by_cases ht : t = u
    · subst ht
      dsimp only at this
      rw [self.1, self.2] at this
      rw [turns, List.count_cons_self, Nat.add_comm, alone_add, hr, bind_ok]
      exact this
    · dsimp only at this
      rw [(other t ht).1, (other t ht).2] at this
      rw [turns, List.count_cons_of_ne (Ne.symm ht)]
      exact this

/-- What the threads return. -/
theorem run_all (hown : ∀ t u, own t = own u → t = u) (hM : ∀ k, Adequate (I k) (M k)) (ctxs : ∀ k, (I k).Ctx)
    (work : Nat → List HashImpl.Call) (fin : ∀ t, (I (own t)).Ctx) (outs : Nat → List (List Byte))
    (h : ∀ t, (I (own t)).calls (ctxs (own t)) (work t) = .ok (fin t, outs t)) :
    ∃ need : Nat → Nat, ∀ sched, ∃ s', (HWorld.start (M := M) (own := own) ctxs work).run sched = .ok s' ∧ ∀ t,
      (need t ≤ turns t sched → Idle (s'.threads t)) ∧
      (Idle (s'.threads t) → s'.ctxs (own t) = fin t ∧ (s'.threads t).outs = outs t) := by
  have h1 : ∀ t, ∃ n, alone n (ctxs (own t), (⟨work t, none, []⟩ : HThread (I (own t)) (M (own t))))
      = .ok (fin t, ⟨[], none, outs t⟩) := fun t => by
    obtain ⟨n, hn⟩ := alone_calls (hM (own t)) (work t) (ctxs (own t)) (fin t) [] (outs t) (h t)
    exact ⟨n, hn⟩
  obtain ⟨need, hneed⟩ : ∃ need : Nat → Nat, ∀ t,
      alone (need t) (ctxs (own t), (⟨work t, none, []⟩ : HThread (I (own t)) (M (own t))))
      = .ok (fin t, ⟨[], none, outs t⟩) := ⟨fun t => (h1 t).choose, fun t => (h1 t).choose_spec⟩
  refine ⟨need, fun sched => ?_⟩
  have total : ∀ t n, ∃ r, alone n (ctxs (own t), (⟨work t, none, []⟩ : HThread (I (own t)) (M (own t)))) = .ok r := by
    intro t n
    by_cases hn : n ≤ need t
    · obtain ⟨d, hd⟩ := Nat.exists_eq_add_of_le hn
      have := hneed t
      rw [hd, alone_add] at this
      generalize alone n (ctxs (own t), (⟨work t, none, []⟩ : HThread (I (own t)) (M (own t)))) = q at this ⊢
      cases q with
      | error e => rw [bind_err] at this; cases this
      | ok r => exact ⟨r, rfl⟩
    · obtain ⟨d, hd⟩ := Nat.exists_eq_add_of_le (Nat.le_of_not_le hn)
      rw [hd, alone_add, hneed t, bind_ok]
      exact ⟨_, alone_idle d _ ⟨rfl, rfl⟩⟩
  obtain ⟨s', e1, e2⟩ := run_alone hown sched (HWorld.start (M := M) (own := own) ctxs work) total
  refine ⟨s', e1, fun t => ?_⟩
  have e := e2 t
  have e : alone (turns t sched) (ctxs (own t), (⟨work t, none, []⟩ : HThread (I (own t)) (M (own t))))
      = .ok (s'.ctxs (own t), s'.threads t) := e
  constructor
  · intro hn
    obtain ⟨d, hd⟩ := Nat.exists_eq_add_of_le hn
    rw [hd, alone_add, hneed t, bind_ok, alone_idle d _ ⟨rfl, rfl⟩, Except.ok.injEq, Prod.mk.injEq] at e
    rw [← e.2]
    exact ⟨rfl, rfl⟩
  · intro hi
    have k1 : alone (turns t sched + need t) (ctxs (own t), (⟨work t, none, []⟩ : HThread (I (own t)) (M (own t))))
        = .ok (s'.ctxs (own t), s'.threads t) := by
      rw [alone_add, e, bind_ok]
      exact alone_idle _ _ hi
    rw [Nat.add_comm, alone_add, hneed t, bind_ok, alone_idle _ _ ⟨rfl, rfl⟩, Except.ok.injEq, Prod.mk.injEq] at k1
    rw [← k1.1, ← k1.2]
    exact ⟨rfl, rfl⟩

end Pgfe.Proofs.HashThreads
