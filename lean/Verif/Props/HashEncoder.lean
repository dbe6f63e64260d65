import Verif.Model.HashEncoder
import Verif.Proofs.Encoder
/-!
# C48, C49, C62: the class `HashEncoder`

`HashEnc.life heap g a l` is the construction of an object for algorithm `a` in memory with content `g`, the
calls `l` of member functions, and its destruction; it returns what the `get_digest` calls returned.
-/
namespace Pgfe.Spec
open Pgfe.Model

/-- The bytes a call of `update` adds to the message: for a C string those before the first zero. -/
def inputOf : HashEnc.Call → List Byte
  | .update x => x
  | .updateC mem => mem.takeWhile (fun b => b ≠ 0#8)
  | .updateS s => s
  | .updateSd _ s => s
  | _ => []

/-- Is it a call of `update`? -/
def isUpdate : HashEnc.Call → Prop
  | .update _ | .updateC _ | .updateS _ | .updateSd _ _ => True
  | _ => False

/-- All bytes passed to the object. -/
def inputs (l : List HashEnc.Call) : List Byte := (l.map inputOf).flatten

/-- The lengths (in bits) for which `get_digest` is well defined. -/
def okBits (a : Alg) (bits : Nat) : Prop :=
  if isShake a then 0 < bits else bits = 0 ∨ outSize a 0 ≤ bits / 8 + bits % 8

/-- The calls are well defined: allowed update lengths (`okUpd`, as for the C functions), zero-terminated C
strings, memory blocks of the right size from `new`, `okBits`, and for a `SequentialData` argument (C65) an
implementation that evaluates arguments from left to right. -/
def ecallOK (a : Alg) : HashEnc.Call → Prop
  | .update x => okUpd a x.length
  | .updateC mem => 0#8 ∈ mem ∧ okUpd a (mem.takeWhile (fun b => b ≠ 0#8)).length
  | .updateS s => okUpd a s.length
  | .updateSd ord s => ord = .leftFirst ∧ okUpd a s.length
  | .reset heap => memOK a 0 (heap a)
  | .getDigest bits _ => okBits a bits

/-- The default length of `get_digest` for the SHAKE variants. -/
def shakeDefault : Alg → Nat
  | .RawSHAKE128 | .SHAKE128 => 256
  | _ => 512

/-- The length of the array `get_digest` hands out. -/
def digestLen (a : Alg) (bits : Nat) : Nat :=
  if isShake a then bits / 8 + bits % 8
  else if bits = 0 then outSize a 0 else min (bits / 8 + bits % 8) (outSize a 0)

/-- A call without the contents of uninitialised memory it meets. -/
inductive Request where
  | update (seq : List Byte)
  | updateC (mem : List Byte)
  | updateS (s : List Byte)
  | updateSd (ord : ArgOrder) (s : List Byte)
  | reset
  | getDigest (bits : Nat)

/-- Forget the memory contents. -/
def request : HashEnc.Call → Request
  | .update x => .update x
  | .updateC x => .updateC x
  | .updateS x => .updateS x
  | .updateSd ord x => .updateSd ord x
  | .reset _ => .reset
  | .getDigest bits _ => .getDigest bits

/-- The same history with the C functions `pgfe_<name>_init`, `_update`, `_digest` on one context, the digest
being written to an array of `digestLen a bits` bytes. -/
def apiCalls (a : Alg) (c : (a.impl 0).Ctx) : List HashEnc.Call → C ((a.impl 0).Ctx × List (List Byte))
  | [] => .ok (c, [])
  | .update x :: r => do
    let c ← (a.impl 0).update c (some x) x.length
    apiCalls a c r
  | .updateC x :: r => do
    let n ← strlen x
    let c ← (a.impl 0).update c (some x) n
    apiCalls a c r
  | .updateS x :: r => do
    let c ← (a.impl 0).update c (some (x ++ [0#8])) x.length
    apiCalls a c r
  | .updateSd ord x :: r => do
    let p ← sdArgs ord x
    let c ← (a.impl 0).update c (some p.1) p.2
    apiCalls a c r
  | .reset heap :: r => do
    let c ← (a.impl 0).init (heap a)
    apiCalls a c r
  | .getDigest bits stack :: r => do
    let d ← a.digestWith (if bits = 0 then shakeDefault a else bits) c ((List.range (digestLen a bits)).map stack)
    let s ← apiCalls a d.1 r
    .ok (s.1, d.2 :: s.2)

end Pgfe.Spec

namespace Pgfe.Props
open Pgfe.Model Pgfe.Spec Pgfe.Proofs Pgfe.Proofs.Hash Pgfe.Proofs.Enc

/-- What an object for algorithm `a` with context `c` looks like. -/
def EncObj (a : Alg) (c : (a.impl 0).Ctx) (o : HashEnc) : Prop :=
  o.curAlg = some a ∧ o.ctx = .live a c ∧ o.digsz = a.digestSize

theorem digestWith_fixed (a : Alg) (ha : isShake a = false) (bits : Nat) : a.digestWith bits = (a.impl 0).digest := by
  cases a <;> first | rfl | exact absurd ha (by decide)

theorem bufferLength_eq {a : Alg} {c : (a.impl 0).Ctx} {o : HashEnc} (h : EncObj a c o) (bits : Nat) :
    o.bufferLength bits = digestLen a bits := by
  obtain ⟨h1, h2, h3⟩ := h
  rw [HashEnc.bufferLength, HashEnc.shakeFlag, HashEnc.effectiveBits, h1, h3, digestLen]
  cases a <;> simp [isShake, Alg.digestSize, outSize] <;> (repeat' split) <;> omega

theorem digestWith_eff {a : Alg} {c : (a.impl 0).Ctx} {o : HashEnc} (h : EncObj a c o) (bits : Nat) :
    a.digestWith (o.effectiveBits bits) = a.digestWith (if bits = 0 then shakeDefault a else bits) := by
  obtain ⟨h1, h2, h3⟩ := h
  rw [HashEnc.effectiveBits, h1]
  cases a <;> simp [shakeDefault] <;> rfl

theorem reset_eq {a : Alg} {c : (a.impl 0).Ctx} {o : HashEnc} (h : EncObj a c o) (heap : Heap) :
    o.reset heap = ((a.impl 0).init (heap a) >>= fun c =>
      .ok { o with ctx := .live a c, digsz := a.digestSize, blocksz := a.blockSize }) := by
  obtain ⟨h1, h2, h3⟩ := h
  obtain ⟨cur, ctx, ds, bs, out⟩ := o
  dsimp only at h1 h2 h3
  subst h1 h2 h3
  simp only [HashEnc.reset, HashEnc.destroyContext, if_true, bind_ok, HashEnc.loadAlgorithm]

theorem update_eq {a : Alg} {c : (a.impl 0).Ctx} {o : HashEnc} (h : EncObj a c o) (x : List Byte) (n : Nat) :
    o.update x n = ((a.impl 0).update c (some x) n >>= fun c => .ok { o with ctx := .live a c }) := by
  obtain ⟨h1, h2, h3⟩ := h
  obtain ⟨cur, ctx, ds, bs, out⟩ := o
  dsimp only at h1 h2 h3
  subst h1 h2 h3
  simp only [HashEnc.update, if_true]

theorem getDigest_eq {a : Alg} {c : (a.impl 0).Ctx} {o : HashEnc} (h : EncObj a c o) (bits : Nat)
    (stack : Nat → Byte) :
    o.getDigest bits stack = (a.digestWith (if bits = 0 then shakeDefault a else bits) c
      ((List.range (digestLen a bits)).map stack) >>= fun r =>
        .ok ({ o with ctx := .live a r.1, out := some r.2 }, r.2)) := by
  rw [HashEnc.getDigest, bufferLength_eq h, ← digestWith_eff h]
  obtain ⟨h1, h2, h3⟩ := h
  rw [h1, h2]
  simp only [if_true]

/-- All calls. -/
theorem calls_sim (a : Alg) (l : List HashEnc.Call) : ∀ (c : (a.impl 0).Ctx) (o : HashEnc), EncObj a c o →
    (o.calls l >>= fun r => r.1.destruct >>= fun _ => .ok r.2) = (apiCalls a c l >>= fun r => .ok r.2) := by
  induction l with
  | nil =>
    intro c o h
    obtain ⟨h1, h2, h3⟩ := h
    simp only [HashEnc.calls, apiCalls, bind_ok, HashEnc.destruct, HashEnc.destroyContext, h1, h2, if_true]
  | cons x l ih =>
    intro c o h
    have key : ∀ seq n, ((o.update seq n >>= fun o => o.calls l) >>= fun r => r.1.destruct >>= fun _ => .ok r.2)
        = (((a.impl 0).update c (some seq) n >>= fun c => apiCalls a c l) >>= fun r => .ok r.2) := by
      intro seq n
      rw [update_eq h]
      cases (a.impl 0).update c (some seq) n with
      | error _ => rfl
      | ok c' => exact ih c' _ ⟨h.1, rfl, h.2.2⟩
    cases x with
    | update x => exact key x x.length
    | updateC x =>
      simp only [HashEnc.calls, apiCalls, HashEnc.updateC]
      cases strlen x with
      | error _ => rfl
      | ok n => exact key x n
    | updateS x => exact key _ _
    | updateSd ord x =>
      simp only [HashEnc.calls, apiCalls, HashEnc.updateSd]
      cases sdArgs ord x with
      | error _ => rfl
      | ok n => exact key n.1 n.2
    | reset heap =>
      simp only [HashEnc.calls, apiCalls]
      rw [reset_eq h]
      cases (a.impl 0).init (heap a) with
      | error _ => rfl
      | ok c' => exact ih c' _ ⟨h.1, rfl, rfl⟩
    | getDigest bits stack =>
      simp only [HashEnc.calls, apiCalls]
      rw [getDigest_eq h]
      cases a.digestWith _ c _ with
      | error _ => rfl
      | ok r =>
        have e := ih r.1 { o with ctx := .live a r.1, out := some r.2 } ⟨h.1, rfl, h.2.2⟩
        simp only [bind_ok]
        generalize HashEnc.calls _ l = p at e ⊢
        generalize apiCalls a r.1 l = q at e ⊢
        cases p with
        | error u =>
          cases q with
          | error v => exact e
          | ok v => simp only [bind_err, bind_ok] at e; cases e
        | ok u =>
          simp only [bind_ok] at e ⊢
          cases hd : u.1.destruct with
          | error w =>
            rw [hd] at e
            cases q with
            | error v => exact e
            | ok v => simp only [bind_err, bind_ok] at e; cases e
          | ok w =>
            rw [hd] at e
            cases q with
            | error v => simp only [bind_err, bind_ok] at e; cases e
            | ok v => simp only [bind_ok] at e ⊢; rw [Except.ok.inj e]

/-- **C49.** The life of an object is the same history of the C functions on one context, whatever the
uninitialised members contained: same digests, and undefined behaviour exactly when the C functions have it
(so the management of the context, including its deletion, adds none). -/
theorem C49_api (heap : Heap) (g : HashEnc) (a : Alg) (l : List HashEnc.Call) :
    HashEnc.life heap g a l = (do
      let c ← (a.impl 0).init (heap a)
      let r ← apiCalls a c l
      .ok r.2) := by
  have e : ∀ cur, (HashEnc.reset heap ⟨cur, .null, g.digsz, g.blocksz, none⟩) = HashEnc.loadAlgorithm heap
      ⟨cur, .null, g.digsz, g.blocksz, none⟩ := fun cur => rfl
  have e2 : HashEnc.construct heap g a = ((a.impl 0).init (heap a) >>= fun c =>
      .ok ⟨some a, .live a c, a.digestSize, a.blockSize, none⟩) := by
    rw [HashEnc.construct, HashEnc.selectAlgorithm]
    by_cases h : g.curAlg = some a
    · rw [if_pos h, bind_ok, e, h]; rfl
    · rw [if_neg h]; rfl
  rw [HashEnc.life, e2]
  cases (a.impl 0).init (heap a) with
  | error _ => rfl
  | ok c => exact calls_sim a l c _ ⟨rfl, rfl, rfl⟩

/-! ## Histories -/

theorem okTot_mono (a : Alg) (p q : Nat) (h : p ≤ q) (hq : okTot a q) : okTot a p := by
  cases a <;> simp only [okTot] at hq ⊢ <;> omega

/-- One update call on the context: the memory and the length it passes. -/
def updArg : HashEnc.Call → List Byte × Nat
  | .update x => (x, x.length)
  | .updateC x => (x, (x.takeWhile (fun b => b ≠ 0#8)).length)
  | .updateS x => (x ++ [0#8], x.length)
  | .updateSd _ x => (x ++ [0#8], x.length)
  | _ => ([], 0)

theorem updArg_ok (a : Alg) (x : HashEnc.Call) (hx : ecallOK a x) (hi : isUpdate x) :
    okUpd a (updArg x).2 ∧ (updArg x).2 ≤ (updArg x).1.length ∧ (updArg x).1.take (updArg x).2 = inputOf x ∧
    (updArg x).2 = (inputOf x).length ∧
    ∀ c r, apiCalls a c (x :: r) = ((a.impl 0).update c (some (updArg x).1) (updArg x).2 >>= fun c => apiCalls a c r) := by
  cases x with
  | update x => exact ⟨hx, Nat.le_refl _, List.take_length, rfl, fun _ _ => rfl⟩
  | updateC x =>
    obtain ⟨h1, h2, h3⟩ := strlen_take x hx.1
    exact ⟨hx.2, h2, h3, rfl, fun c r => by simp only [apiCalls]; rw [h1]; rfl⟩
  | updateS x => exact ⟨hx, by simp [updArg], by simp [updArg, inputOf], rfl, fun _ _ => rfl⟩
  | updateSd ord x =>
    obtain ⟨rfl, hx⟩ := hx
    exact ⟨hx, by simp [updArg], by simp [updArg, inputOf], rfl, fun _ _ => rfl⟩
  | reset _ => exact absurd hi (by simp [isUpdate])
  | getDigest _ _ => exact absurd hi (by simp [isUpdate])

theorem inputs_cons (x : HashEnc.Call) (l : List HashEnc.Call) :
    (inputs (x :: l)).length = (inputOf x).length + (inputs l).length := by
  simp [inputs]

/-- Histories with equal requests, fixed output length. -/
theorem fixed_run (a : Alg) (ha : isShake a = false) {S} (F : FixS (a.impl 0) (memOK a 0) (outSize a 0) (okUpd a) (okTot a) S)
    (l₁ : List HashEnc.Call) : ∀ (l₂ : List HashEnc.Call) k c₁ c₂, S k c₁ c₂ → l₁.map request = l₂.map request →
    (∀ x ∈ l₁, ecallOK a x) → (∀ x ∈ l₂, ecallOK a x) → okTot a (k + (inputs l₁).length) →
    ∃ c₁' c₂' outs, apiCalls a c₁ l₁ = .ok (c₁', outs) ∧ apiCalls a c₂ l₂ = .ok (c₂', outs) ∧
      S (k + (inputs l₁).length) c₁' c₂' := by
  induction l₁ with
  | nil =>
    intro l₂ k c₁ c₂ hs hr _ _ _
    have : l₂ = [] := by cases l₂ with | nil => rfl | cons _ _ => cases hr
    subst this
    exact ⟨c₁, c₂, [], rfl, rfl, hs⟩
  | cons x l ih =>
    intro l₂ k c₁ c₂ hs hr h1 h2 ht
    cases l₂ with
    | nil => cases hr
    | cons y l₂ =>
      rw [List.map_cons, List.map_cons, List.cons.injEq] at hr
      obtain ⟨hxy, hr⟩ := hr
      rw [inputs_cons] at ht ⊢
      have hx := h1 x (List.mem_cons_self ..)
      have hy := h2 y (List.mem_cons_self ..)
      have h1' := fun z hz => h1 z (List.mem_cons_of_mem _ hz)
      have h2' := fun z hz => h2 z (List.mem_cons_of_mem _ hz)
      by_cases hu : isUpdate x
      · have e : y = x := by cases x <;> cases y <;> simp_all [request, isUpdate]
        subst e
        obtain ⟨u1, u2, u3, u4, u5⟩ := updArg_ok a y hx hu
        obtain ⟨d₁, d₂, e1, e2, hs'⟩ := F.upd k c₁ c₂ (updArg y).1 (updArg y).2 hs u1 u2
          (okTot_mono a _ _ (by omega) ht)
        rw [u5, u5, e1, e2, bind_ok, bind_ok]
        rw [u4] at hs'
        have := ih l₂ _ d₁ d₂ hs' hr h1' h2' (by rw [Nat.add_assoc]; exact ht)
        rw [Nat.add_assoc] at this
        exact this
      · cases x with
        | update _ => exact absurd trivial hu
        | updateC _ => exact absurd trivial hu
        | updateS _ => exact absurd trivial hu
        | updateSd _ _ => exact absurd trivial hu
        | reset heap =>
          cases y <;> simp only [request, reduceCtorEq] at hxy
          rename_i heap'
          obtain ⟨d₁, d₂, e1, e2, hs'⟩ := F.init _ _ hx hy
          simp only [apiCalls]
          rw [e1, e2, bind_ok, bind_ok]
          have := ih l₂ k d₁ d₂ (F.mono _ _ _ _ hs' (Nat.zero_le _)) hr h1' h2' (okTot_mono a _ _ (by omega) ht)
          simpa [inputOf] using this
        | getDigest bits stack =>
          cases y <;> simp only [request, reduceCtorEq, Request.getDigest.injEq] at hxy
          rename_i bits' stack'
          subst hxy
          obtain ⟨d₁, d₂, d, hl, hs', hd⟩ := F.dig k c₁ c₂ hs (okTot_mono a _ _ (by omega) ht)
          have hlen : digestLen a bits = outSize a 0 := by
            have hb : okBits a bits := hx
            rw [okBits, ha] at hb
            rw [digestLen, ha]
            simp only [Bool.false_eq_true, if_false] at hb ⊢
            rcases hb with hb | hb
            · rw [if_pos hb]
            · split
              · rfl
              · exact Nat.min_eq_right hb
          have f : ∀ st : Nat → Byte, ((List.range (digestLen a bits)).map st).length = outSize a 0 := by
            intro st; simp [hlen]
          have e1 := (hd ((List.range (digestLen a bits)).map stack) (by rw [f]; exact Nat.le_refl _)).1
          have e2 := (hd ((List.range (digestLen a bits)).map stack') (by rw [f]; exact Nat.le_refl _)).2
          rw [List.drop_of_length_le (by rw [f]; exact Nat.le_refl _), List.append_nil] at e1 e2
          obtain ⟨p, q, outs, f1, f2, f3⟩ := ih l₂ k d₁ d₂ hs' hr h1' h2' (okTot_mono a _ _ (by omega) ht)
          refine ⟨p, q, d :: outs, ?_, ?_, ?_⟩
          · simp only [apiCalls]
            rw [digestWith_fixed a ha, e1, bind_ok]
            dsimp only
            rw [f1, bind_ok]
          · simp only [apiCalls]
            rw [digestWith_fixed a ha, e2, bind_ok]
            dsimp only
            rw [f2, bind_ok]
          · simpa [inputOf] using f3

/-- SHAKE histories. -/
theorem shake_run (a : Alg) (ha : isShake a = true) {S} (F : ShakeS (a.impl 0) a.digestWith S)
    (l : List HashEnc.Call) : ∀ c, S c → (∀ x ∈ l, ecallOK a x) →
    ∃ c' outs, apiCalls a c l = .ok (c', outs) ∧ S c' := by
  induction l with
  | nil => intro c hs _; exact ⟨c, [], rfl, hs⟩
  | cons x l ih =>
    intro c hs h1
    have hx := h1 x (List.mem_cons_self ..)
    have h1' := fun z hz => h1 z (List.mem_cons_of_mem _ hz)
    by_cases hu : isUpdate x
    · obtain ⟨u1, u2, u3, u4, u5⟩ := updArg_ok a x hx hu
      obtain ⟨d, e, hs'⟩ := F.upd c (updArg x).1 (updArg x).2 hs (by
        cases a <;> first | exact u1 | exact absurd ha (by decide)) u2
      rw [u5, e, bind_ok]
      exact ih d hs' h1'
    · cases x with
      | update _ => exact absurd trivial hu
      | updateC _ => exact absurd trivial hu
      | updateS _ => exact absurd trivial hu
      | updateSd _ _ => exact absurd trivial hu
      | reset heap =>
        obtain ⟨d, e, hs'⟩ := F.init (heap a)
        simp only [apiCalls]
        rw [e, bind_ok]
        exact ih d hs' h1'
      | getDigest bits stack =>
        have hb : okBits a bits := hx
        rw [okBits, if_pos ha] at hb
        have hl : digestLen a bits = bits / 8 + bits % 8 := by rw [digestLen, if_pos ha]
        obtain ⟨d, o', e, _, _, hs'⟩ := F.dig c bits ((List.range (digestLen a bits)).map stack) hs (by
          rw [List.length_map, List.length_range, hl]
          have : bits % 2 ^ 32 / 8 ≤ bits / 8 := Nat.div_le_div_right (Nat.mod_le _ _)
          omega)
        obtain ⟨p, outs, f1, f2⟩ := ih d hs' h1'
        simp only [apiCalls]
        rw [if_neg (by omega), e, bind_ok]
        dsimp only
        rw [f1, bind_ok]
        exact ⟨_, _, rfl, f2⟩

/-- SHAKE histories in which all lengths are whole bytes. -/
theorem aligned_run (a : Alg) (ha : isShake a = true) {S} (F : ShakeA (a.impl 0) a.digestWith S)
    (l₁ : List HashEnc.Call) : ∀ (l₂ : List HashEnc.Call) c, S c → l₁.map request = l₂.map request →
    (∀ x ∈ l₁, ecallOK a x) → (∀ bits st, HashEnc.Call.getDigest bits st ∈ l₁ → bits % 8 = 0 ∧ bits < 2 ^ 32) →
    ∃ c' outs, apiCalls a c l₁ = .ok (c', outs) ∧ apiCalls a c l₂ = .ok (c', outs) := by
  induction l₁ with
  | nil =>
    intro l₂ c hs hr _ _
    have : l₂ = [] := by cases l₂ with | nil => rfl | cons _ _ => cases hr
    subst this
    exact ⟨c, [], rfl, rfl⟩
  | cons x l ih =>
    intro l₂ c hs hr h1 h8
    cases l₂ with
    | nil => cases hr
    | cons y l₂ =>
      rw [List.map_cons, List.map_cons, List.cons.injEq] at hr
      obtain ⟨hxy, hr⟩ := hr
      have hx := h1 x (List.mem_cons_self ..)
      have h1' := fun z hz => h1 z (List.mem_cons_of_mem _ hz)
      have h8' := fun b s hz => h8 b s (List.mem_cons_of_mem _ hz)
      by_cases hu : isUpdate x
      · have e : y = x := by cases x <;> cases y <;> simp_all [request, isUpdate]
        subst e
        obtain ⟨u1, u2, u3, u4, u5⟩ := updArg_ok a y hx hu
        obtain ⟨d, e, hs'⟩ := F.upd c (updArg y).1 (updArg y).2 hs (by
          cases a <;> first | exact u1 | exact absurd ha (by decide)) u2
        rw [u5, u5, e, bind_ok, bind_ok]
        exact ih l₂ d hs' hr h1' h8'
      · cases x with
        | update _ => exact absurd trivial hu
        | updateC _ => exact absurd trivial hu
        | updateS _ => exact absurd trivial hu
        | updateSd _ _ => exact absurd trivial hu
        | reset heap =>
          cases y <;> simp only [request, reduceCtorEq] at hxy
          rename_i heap'
          obtain ⟨d, hs', e⟩ := F.init
          simp only [apiCalls]
          rw [e, e, bind_ok, bind_ok]
          exact ih l₂ d hs' hr h1' h8'
        | getDigest bits stack =>
          cases y <;> simp only [request, reduceCtorEq, Request.getDigest.injEq] at hxy
          rename_i bits' stack'
          subst hxy
          have hb : okBits a bits := hx
          rw [okBits, if_pos ha] at hb
          obtain ⟨hm, hlt⟩ := h8 bits stack (List.mem_cons_self ..)
          have hl : digestLen a bits = bits / 8 := by rw [digestLen, if_pos ha, hm, Nat.add_zero]
          obtain ⟨d, v, hv, hs', hd⟩ := F.dig c bits hs hlt hm
          have f : ∀ st : Nat → Byte, ((List.range (digestLen a bits)).map st).length = bits / 8 := by
            intro st; simp [hl]
          have e : ∀ st : Nat → Byte, a.digestWith bits c ((List.range (digestLen a bits)).map st) = .ok (d, v) := by
            intro st
            rw [hd _ (by rw [f]; exact Nat.le_refl _), List.drop_of_length_le (by rw [f]; exact Nat.le_refl _),
              List.append_nil]
          obtain ⟨p, outs, f1, f2⟩ := ih l₂ d hs' hr h1' h8'
          refine ⟨p, v :: outs, ?_, ?_⟩
          · simp only [apiCalls]
            rw [if_neg (by omega), e, bind_ok]
            dsimp only
            rw [f1, bind_ok]
          · simp only [apiCalls]
            rw [if_neg (by omega), e, bind_ok]
            dsimp only
            rw [f2, bind_ok]

/-! ## C48 -/

/-- **C48.** Every history of calls in which all `get_digest` lengths satisfy `okBits` runs without undefined
behaviour, from construction to destruction. -/
theorem C48_safe (heap : Heap) (g : HashEnc) (a : Alg) (hh : memOK a 0 (heap a)) (l : List HashEnc.Call)
    (hl : ∀ x ∈ l, ecallOK a x) (ht : okTot a (inputs l).length) :
    ∃ outs, HashEnc.life heap g a l = .ok outs := by
  rw [C49_api]
  cases ha : isShake a with
  | false =>
    obtain ⟨S, F⟩ := fixed_ok a ha
    obtain ⟨c₁, c₂, e1, e2, hs⟩ := F.init _ _ hh hh
    obtain ⟨p, q, outs, f1, _, _⟩ := fixed_run a ha F l l 0 c₁ c₂ hs rfl hl hl (by rw [Nat.zero_add]; exact ht)
    exact ⟨outs, by rw [e1, bind_ok, f1, bind_ok]⟩
  | true =>
    obtain ⟨S, F⟩ := shake_ok a ha
    obtain ⟨c, e, hs⟩ := F.init (heap a)
    obtain ⟨p, outs, f1, _⟩ := shake_run a ha F l c hs hl
    exact ⟨outs, by rw [e, bind_ok, f1, bind_ok]⟩

theorem api_append (a : Alg) (l r : List HashEnc.Call) : ∀ c, apiCalls a c (l ++ r) =
    (apiCalls a c l >>= fun x => apiCalls a x.1 r >>= fun y => .ok (y.1, x.2 ++ y.2)) := by
  induction l with
  | nil =>
    intro c
    rw [List.nil_append, apiCalls, bind_ok]
    cases apiCalls a c r <;> rfl
  | cons x l ih =>
    intro c
    rw [List.cons_append]
    cases x with
    | update x =>
      simp only [apiCalls]
      cases (a.impl 0).update c (some x) x.length with
      | error _ => rfl
      | ok d => exact ih d
    | updateC x =>
      simp only [apiCalls]
      cases strlen x with
      | error _ => rfl
      | ok n =>
        simp only [bind_ok]
        cases (a.impl 0).update c (some x) n with
        | error _ => rfl
        | ok d => exact ih d
    | updateS x =>
      simp only [apiCalls]
      cases (a.impl 0).update c (some (x ++ [0#8])) x.length with
      | error _ => rfl
      | ok d => exact ih d
    | updateSd ord x =>
      simp only [apiCalls]
      cases sdArgs ord x with
      | error _ => rfl
      | ok n =>
        simp only [bind_ok]
        cases (a.impl 0).update c (some n.1) n.2 with
        | error _ => rfl
        | ok d => exact ih d
    | reset heap =>
      simp only [apiCalls]
      cases (a.impl 0).init (heap a) with
      | error _ => rfl
      | ok d => exact ih d
    | getDigest bits stack =>
      simp only [apiCalls]
      cases a.digestWith _ c _ with
      | error _ => rfl
      | ok d =>
        simp only [bind_ok]
        rw [ih d.1]
        cases apiCalls a d.1 l with
        | error _ => rfl
        | ok e =>
          simp only [bind_ok]
          cases apiCalls a e.1 r with
          | error _ => rfl
          | ok f => rfl

/-- **C48.** The first `get_digest` whose length does not satisfy `okBits` writes outside its buffer, whatever
happened before and happens later. -/
theorem C48_overflow (heap : Heap) (g : HashEnc) (a : Alg) (hh : memOK a 0 (heap a)) (l : List HashEnc.Call)
    (hl : ∀ x ∈ l, ecallOK a x) (ht : okTot a (inputs l).length) (bits : Nat) (hb : ¬ okBits a bits)
    (stack : Nat → Byte) (rest : List HashEnc.Call) :
    HashEnc.life heap g a (l ++ .getDigest bits stack :: rest) = .error .oobWrite := by
  rw [C49_api]
  cases ha : isShake a with
  | false =>
    obtain ⟨S, F⟩ := fixed_ok a ha
    obtain ⟨c₁, c₂, e1, e2, hs⟩ := F.init _ _ hh hh
    obtain ⟨p, q, outs, f1, _, hs'⟩ := fixed_run a ha F l l 0 c₁ c₂ hs rfl hl hl (by rw [Nat.zero_add]; exact ht)
    rw [Nat.zero_add] at hs'
    rw [e1, bind_ok, api_append, f1, bind_ok]
    dsimp only
    rw [okBits, ha] at hb
    simp only [Bool.false_eq_true, if_false, not_or, Nat.not_le] at hb
    simp only [apiCalls]
    rw [digestWith_fixed a ha, F.short _ _ _ _ hs' ht (by
      rw [List.length_map, List.length_range, digestLen, ha]
      simp only [Bool.false_eq_true, if_false]
      rw [if_neg hb.1]
      omega)]
    rfl
  | true =>
    obtain ⟨S, F⟩ := shake_ok a ha
    obtain ⟨c, e, hs⟩ := F.init (heap a)
    obtain ⟨p, outs, f1, hs'⟩ := shake_run a ha F l c hs hl
    rw [e, bind_ok, api_append, f1, bind_ok]
    dsimp only
    rw [okBits, if_pos ha] at hb
    have hb : bits = 0 := by omega
    subst hb
    simp only [apiCalls]
    rw [show digestLen a 0 = 0 by rw [digestLen, if_pos ha], if_pos trivial]
    have := F.empty p (shakeDefault a) hs' (by cases a <;> first | decide | exact absurd ha (by decide))
    rw [show (List.range 0).map stack = [] from rfl, this]
    rfl

/-- **C48.** The bytes returned are initialised: they do not depend on the contents of the stack or of the
heap memory or of the object's memory, if for the SHAKE variants all lengths are multiples of 8 below 2^32. -/
theorem C48_initialised (a : Alg) (heap₁ heap₂ : Heap) (g₁ g₂ : HashEnc) (hh₁ : memOK a 0 (heap₁ a))
    (hh₂ : memOK a 0 (heap₂ a)) (l₁ l₂ : List HashEnc.Call) (hr : l₁.map request = l₂.map request)
    (hl₁ : ∀ x ∈ l₁, ecallOK a x) (hl₂ : ∀ x ∈ l₂, ecallOK a x) (ht : okTot a (inputs l₁).length)
    (h8 : isShake a = true → ∀ bits st, HashEnc.Call.getDigest bits st ∈ l₁ → bits % 8 = 0 ∧ bits < 2 ^ 32) :
    ∃ outs, HashEnc.life heap₁ g₁ a l₁ = .ok outs ∧ HashEnc.life heap₂ g₂ a l₂ = .ok outs := by
  rw [C49_api, C49_api]
  cases ha : isShake a with
  | false =>
    obtain ⟨S, F⟩ := fixed_ok a ha
    obtain ⟨c₁, c₂, e1, e2, hs⟩ := F.init _ _ hh₁ hh₂
    obtain ⟨p, q, outs, f1, f2, _⟩ := fixed_run a ha F l₁ l₂ 0 c₁ c₂ hs hr hl₁ hl₂ (by rw [Nat.zero_add]; exact ht)
    exact ⟨outs, by rw [e1, bind_ok, f1, bind_ok], by rw [e2, bind_ok, f2, bind_ok]⟩
  | true =>
    obtain ⟨S, F⟩ := shake_aligned a ha
    obtain ⟨c, hs, e⟩ := F.init
    obtain ⟨p, outs, f1, f2⟩ := aligned_run a ha F l₁ l₂ c hs hr hl₁ (h8 ha)
    exact ⟨outs, by rw [e, bind_ok, f1, bind_ok], by rw [e, bind_ok, f2, bind_ok]⟩

/-- **C48, violation.** For a SHAKE variant the bytes from position ⌊(bits mod 2^32)/8⌋ on are those the stack
happened to contain; there are such bytes whenever `bits` is no multiple of 8 or at least 2^32. -/
theorem C48_leak (heap : Heap) (g : HashEnc) (a : Alg) (ha : isShake a = true) (l : List HashEnc.Call)
    (hl : ∀ x ∈ l, ecallOK a x) (bits : Nat) (hb : 0 < bits) (stack : Nat → Byte) :
    ∃ outs d, HashEnc.life heap g a (l ++ [.getDigest bits stack]) = .ok (outs ++ [d]) ∧
      d.length = bits / 8 + bits % 8 ∧
      ∀ i, bits % 2 ^ 32 / 8 ≤ i → i < bits / 8 + bits % 8 → d[i]? = some (stack i) := by
  rw [C49_api]
  obtain ⟨S, F⟩ := shake_ok a ha
  obtain ⟨c, e, hs⟩ := F.init (heap a)
  obtain ⟨p, outs, f1, hs'⟩ := shake_run a ha F l c hs hl
  have hlen : digestLen a bits = bits / 8 + bits % 8 := by rw [digestLen, if_pos ha]
  obtain ⟨c', d, e', hl', hd, _⟩ := F.dig p bits ((List.range (digestLen a bits)).map stack) hs' (by
    rw [List.length_map, List.length_range, hlen]
    have : bits % 2 ^ 32 / 8 ≤ bits / 8 := Nat.div_le_div_right (Nat.mod_le _ _)
    omega)
  refine ⟨outs, d, ?_, ?_, ?_⟩
  · rw [e, bind_ok, api_append, f1, bind_ok]
    simp only [apiCalls]
    rw [if_neg (by omega), e', bind_ok, bind_ok, bind_ok]
    rfl
  · rw [hl', List.length_map, List.length_range, hlen]
  · intro i h1 h2
    have h3 := congrArg (fun x => x[i - bits % 2 ^ 32 / 8]?) hd
    simp only [List.getElem?_drop] at h3
    rw [Nat.add_sub_cancel' h1] at h3
    rw [h3, List.getElem?_map, List.getElem?_range (by rw [hlen]; exact h2)]
    rfl

/-! ## C49: the value -/

/-- What is known about a context, for the value of the next digest. -/
structure Val {X : Type} (ini : X → C X) (up : X → Option (List Byte) → Nat → C X)
    (D : X → List Byte → C (X × List Byte)) (H : List Byte → List Byte)
    (WF : X → Prop) (ds : Nat) (u t : Nat → Prop) (Inv : List Byte → X → Prop) : Prop where
  init : ∀ g, WF g → ∃ c, ini g = .ok c ∧ Inv [] c
  upd : ∀ m c (x : List Byte) n, Inv m c → u n → n ≤ x.length → t (m.length + n) →
    ∃ c', up c (some x) n = .ok c' ∧ Inv (m ++ x.take n) c'
  dig : ∀ m c (out : List Byte), Inv m c → t m.length → ds ≤ out.length →
    ∃ c', D c out = .ok (c', H m ++ out.drop ds)

theorem Val.of {I : HashImpl} {H : List Byte → List Byte} {WF : I.Ctx → Prop} {ds : Nat} {u t : Nat → Prop}
    (h : ∃ K : HashOK I H, Conf K WF ds u t) : ∃ Inv, Val I.init I.update I.digest H WF ds u t Inv := by
  obtain ⟨K, cf⟩ := h
  refine ⟨K.Inv, fun g hg => K.init_ok g (cf.wf _ hg), fun m c x n hi hu hn ht =>
    K.update_ok m c x n hi (cf.u _ hu) hn (cf.t _ ht), fun m c out hi ht ho => ?_⟩
  obtain ⟨c', h, _⟩ := K.digest_ok m c out hi (cf.t _ ht) (by rw [cf.ds]; exact ho)
  rw [cf.ds] at h
  exact ⟨c', h⟩

theorem val_ok (a : Alg) (bits : Nat) (hb : bits < 2 ^ 32) :
    ∃ Inv, Val (a.impl 0).init (a.impl 0).update (a.digestWith bits) (libHash a (bits / 8)) (memOK a 0) (outSize a bits) (okUpd a)
      (okTot a) Inv := by
  cases a
  case SHAKE128 => exact Val.of (exists_ok .SHAKE128 bits hb)
  case SHAKE256 => exact Val.of (exists_ok .SHAKE256 bits hb)
  case RawSHAKE128 => exact Val.of (exists_ok .RawSHAKE128 bits hb)
  case RawSHAKE256 => exact Val.of (exists_ok .RawSHAKE256 bits hb)
  case MD5 => exact Val.of (exists_ok .MD5 0 (by decide))
  case SHA1 => exact Val.of (exists_ok .SHA1 0 (by decide))
  case SHA224 => exact Val.of (exists_ok .SHA224 0 (by decide))
  case SHA256 => exact Val.of (exists_ok .SHA256 0 (by decide))
  case SHA384 => exact Val.of (exists_ok .SHA384 0 (by decide))
  case SHA512 => exact Val.of (exists_ok .SHA512 0 (by decide))
  case SHA512_224 => exact Val.of (exists_ok .SHA512_224 0 (by decide))
  case SHA512_256 => exact Val.of (exists_ok .SHA512_256 0 (by decide))
  case SHA3_224 => exact Val.of (exists_ok .SHA3_224 0 (by decide))
  case SHA3_256 => exact Val.of (exists_ok .SHA3_256 0 (by decide))
  case SHA3_384 => exact Val.of (exists_ok .SHA3_384 0 (by decide))
  case SHA3_512 => exact Val.of (exists_ok .SHA3_512 0 (by decide))

theorem inputs_cons' (x : HashEnc.Call) (l : List HashEnc.Call) : inputs (x :: l) = inputOf x ++ inputs l := by
  simp [inputs]

theorem val_feed {a : Alg} {D H Inv ds} (V : Val (a.impl 0).init (a.impl 0).update D H (memOK a 0) ds (okUpd a) (okTot a) Inv)
    (us : List HashEnc.Call) : ∀ m c, Inv m c → (∀ x ∈ us, isUpdate x ∧ ecallOK a x) →
    okTot a (m.length + (inputs us).length) →
    ∃ c', apiCalls a c us = .ok (c', []) ∧ Inv (m ++ inputs us) c' := by
  induction us with
  | nil => intro m c h _ _; exact ⟨c, rfl, by simpa [inputs] using h⟩
  | cons x l ih =>
    intro m c h hx ht
    obtain ⟨hi, ho⟩ := hx x (List.mem_cons_self ..)
    obtain ⟨u1, u2, u3, u4, u5⟩ := updArg_ok a x ho hi
    rw [inputs_cons', List.length_append] at ht
    obtain ⟨d, e, h'⟩ := V.upd m c (updArg x).1 (updArg x).2 h u1 u2 (okTot_mono a _ _ (by omega) ht)
    rw [u3] at h'
    obtain ⟨c', e', h''⟩ := ih _ d h' (fun y hy => hx y (List.mem_cons_of_mem _ hy))
      (by rw [List.length_append]; exact okTot_mono a _ _ (by omega) ht)
    exact ⟨c', by rw [u5, e, bind_ok, e'], by rw [inputs_cons', ← List.append_assoc]; exact h''⟩

theorem digestLen_ok (a : Alg) (bits : Nat) (hb : okBits a bits) : outSize a bits ≤ digestLen a bits := by
  rw [okBits] at hb
  rw [digestLen]
  cases ha : isShake a
  · rw [ha] at hb
    simp only [Bool.false_eq_true, if_false] at hb ⊢
    have e : outSize a bits = outSize a 0 := by cases a <;> first | rfl | exact absurd ha (by decide)
    rw [e]
    split
    · exact Nat.le_refl _
    · rw [Nat.min_eq_right (by omega)]; exact Nat.le_refl _
  · have e : outSize a bits = bits / 8 := by cases a <;> first | rfl | exact absurd ha (by decide)
    rw [e, if_pos rfl]
    omega

/-- **C49, the value.** After construction and after any reset (whatever happened before), updates in any
pieces and of any kind and then `get_digest(bits)` return the hash of the concatenation: for the algorithms
with a fixed output length, and for SHAKE when `bits` is a multiple of 8, exactly the digest. -/
theorem C49 (heap : Heap) (g : HashEnc) (a : Alg) (hh : memOK a 0 (heap a)) (pre : List HashEnc.Call)
    (hpre : ∀ x ∈ pre, ecallOK a x) (htp : okTot a (inputs pre).length)
    (start : List HashEnc.Call) (hstart : (pre = [] ∧ start = []) ∨ ∃ heap', memOK a 0 (heap' a) ∧ start = [.reset heap'])
    (us : List HashEnc.Call) (hus : ∀ x ∈ us, isUpdate x ∧ ecallOK a x) (ht : okTot a (inputs us).length)
    (bits : Nat) (hb : okBits a bits) (h8 : isShake a = true → bits % 8 = 0 ∧ bits < 2 ^ 32) (stack : Nat → Byte) :
    ∃ outs, HashEnc.life heap g a (pre ++ (start ++ (us ++ [.getDigest bits stack])))
      = .ok (outs ++ [libHash a (bits / 8) (inputs us)]) := by
  have key : ∀ gm, memOK a 0 gm → ∃ c, (a.impl 0).init gm = .ok c ∧
      ∃ c', apiCalls a c (us ++ [.getDigest bits stack]) = .ok (c', [libHash a (bits / 8) (inputs us)]) := by
    intro gm hgm
    cases ha : isShake a with
    | false =>
      obtain ⟨Inv, V⟩ := val_ok a 0 (by decide)
      obtain ⟨c, e, h⟩ := V.init gm hgm
      obtain ⟨d, e1, h1⟩ := val_feed V us [] c h hus (by simpa using ht)
      rw [List.nil_append] at h1
      have e0 : outSize a bits = outSize a 0 := by cases a <;> first | rfl | exact absurd ha (by decide)
      have e3 : libHash a (0 / 8) = libHash a (bits / 8) := by cases a <;> first | rfl | exact absurd ha (by decide)
      have hlen := digestLen_ok a bits hb
      have hle : digestLen a bits ≤ outSize a 0 := by
        rw [digestLen, ha]
        simp only [Bool.false_eq_true, if_false]
        split
        · exact Nat.le_refl _
        · exact Nat.min_le_right _ _
      obtain ⟨c', e2⟩ := V.dig _ d ((List.range (digestLen a bits)).map stack) h1 ht (by
        rw [List.length_map, List.length_range, ← e0]; exact hlen)
      rw [List.drop_of_length_le (by rw [List.length_map, List.length_range]; exact hle), List.append_nil, e3] at e2
      refine ⟨c, e, c', ?_⟩
      rw [api_append, e1, bind_ok]
      simp only [apiCalls]
      rw [digestWith_fixed a ha] at e2 ⊢
      rw [e2]
      rfl
    | true =>
      obtain ⟨hm, hlt⟩ := h8 ha
      obtain ⟨Inv, V⟩ := val_ok a bits hlt
      obtain ⟨c, e, h⟩ := V.init gm hgm
      obtain ⟨d, e1, h1⟩ := val_feed V us [] c h hus (by simpa using ht)
      rw [List.nil_append] at h1
      have e0 : outSize a bits = bits / 8 := by cases a <;> first | rfl | exact absurd ha (by decide)
      have hlen : digestLen a bits = bits / 8 := by rw [digestLen, if_pos ha, hm, Nat.add_zero]
      obtain ⟨c', e2⟩ := V.dig _ d ((List.range (digestLen a bits)).map stack) h1 ht (by
        rw [List.length_map, List.length_range, hlen, e0]; exact Nat.le_refl _)
      rw [List.drop_of_length_le (by rw [List.length_map, List.length_range, hlen, e0]; exact Nat.le_refl _),
        List.append_nil] at e2
      refine ⟨c, e, c', ?_⟩
      have hb0 : 0 < bits := by rw [okBits, if_pos ha] at hb; exact hb
      rw [api_append, e1, bind_ok]
      simp only [apiCalls]
      rw [if_neg (by omega), e2]
      rfl
  rcases hstart with ⟨rfl, rfl⟩ | ⟨heap', hh', rfl⟩
  · obtain ⟨c, e, c', e'⟩ := key _ hh
    refine ⟨[], ?_⟩
    rw [List.nil_append, List.nil_append, C49_api, e, bind_ok, e', bind_ok]
    rfl
  · obtain ⟨c, e, c', e'⟩ := key _ hh'
    obtain ⟨outs, ho⟩ := C48_safe heap g a hh pre hpre htp
    refine ⟨outs, ?_⟩
    rw [C49_api] at ho ⊢
    generalize (a.impl 0).init (heap a) = i at ho ⊢
    cases i with
    | error _ => cases ho
    | ok c0 =>
      rw [bind_ok] at ho ⊢
      rw [api_append]
      generalize apiCalls a c0 pre = p at ho ⊢
      cases p with
      | error _ => cases ho
      | ok p =>
        rw [bind_ok] at ho
        have ho : p.2 = outs := by simpa using ho
        rw [bind_ok, List.cons_append, List.nil_append]
        simp only [apiCalls]
        rw [e, bind_ok, e', bind_ok, bind_ok, ho]

/-! ## Concrete cases -/

/-- Some memory contents. -/
def someHeap : Heap := fun a => match a with
  | .MD5 => (⟨List.replicate 4 7#32, 1#64, List.replicate 64 9#8⟩ : Md5Ctx)
  | .SHA1 => (⟨List.replicate 5 1#32, 2#32, 3#32, 99, List.replicate 64 4#8⟩ : ShaCtx 32)
  | .SHA224 | .SHA256 => (⟨List.replicate 8 1#32, 2#32, 3#32, 99, List.replicate 64 4#8⟩ : ShaCtx 32)
  | .SHA384 | .SHA512 | .SHA512_224 | .SHA512_256 =>
    (⟨List.replicate 8 1#64, 2#64, 3#64, 99, List.replicate 128 4#8⟩ : ShaCtx 64)
  | .SHA3_224 | .SHA3_256 | .SHA3_384 | .SHA3_512 => kGarbage
  | .RawSHAKE128 | .SHAKE128 | .RawSHAKE256 | .SHAKE256 => kGarbage

theorem someHeap_ok (a : Alg) : memOK a 0 (someHeap a) := by
  cases a <;> first | exact trivial | exact ⟨rfl, rfl⟩

/-- The memory of an object before construction, in which `cur_alg` happens to be MD5. -/
def someObj : HashEnc := ⟨some .MD5, .dangling, 12345, 678, some (str "old")⟩

/-- A history of a SHA-256 encoder: the three kinds of update, `get_digest()`, a second `get_digest()`, a reset,
`get_digest(1000)`. -/
def someCalls : List HashEnc.Call :=
  [.update (str "ab"), .updateC (str "cd" ++ [0#8, 0x78#8]), .updateS (str "ef"), .getDigest 0 (fun _ => 1#8),
   .getDigest 256 (fun _ => 2#8), .reset someHeap, .updateS (str "abc"), .getDigest 1000 (fun _ => 3#8)]

theorem someCalls_ok : ∀ x ∈ someCalls, ecallOK .SHA256 x := by
  intro x hx
  simp only [someCalls, List.mem_cons, List.not_mem_nil, or_false] at hx
  rcases hx with rfl | rfl | rfl | rfl | rfl | rfl | rfl | rfl
  · show List.length _ < 2 ^ 31; decide
  · exact ⟨by decide, by show List.length _ < 2 ^ 31; decide⟩
  · show List.length _ < 2 ^ 31; decide
  · exact .inl rfl
  · exact .inr (by decide)
  · exact someHeap_ok .SHA256
  · show List.length _ < 2 ^ 31; decide
  · exact .inr (by decide)

theorem C48_safe_example : ∃ outs, HashEnc.life someHeap someObj .SHA256 someCalls = .ok outs :=
  C48_safe someHeap someObj .SHA256 (someHeap_ok _) someCalls someCalls_ok (by show 8 * _ < 2 ^ 64; decide)

/-- `get_digest(128)` of SHA-256, and `get_digest()` of SHAKE128, after "abc". -/
theorem C48_overflow_example :
    HashEnc.life someHeap someObj .SHA256 [.update (str "abc"), .getDigest 128 (fun _ => 0#8)] = .error .oobWrite ∧
    HashEnc.life someHeap someObj .SHAKE128 [.update (str "abc"), .getDigest 0 (fun _ => 0#8)] = .error .oobWrite :=
  ⟨C48_overflow someHeap someObj .SHA256 (someHeap_ok _) [.update (str "abc")]
      (by intro x hx; simp only [List.mem_cons, List.not_mem_nil, or_false] at hx; subst hx; show List.length _ < 2 ^ 31; decide)
      (by show 8 * _ < 2 ^ 64; decide) 128 (by show ¬ (128 = 0 ∨ 32 ≤ 128 / 8 + 128 % 8); decide) _ [],
    C48_overflow someHeap someObj .SHAKE128 (someHeap_ok _) [.update (str "abc")]
      (by intro x hx; simp only [List.mem_cons, List.not_mem_nil, or_false] at hx; subst hx; show List.length _ ≤ 2 ^ 29 - 192; decide)
      trivial 0 (by show ¬ 0 < 0; decide) _ []⟩

/-- Two runs of the history with different stack and heap contents. -/
theorem C48_initialised_example : ∃ outs,
    HashEnc.life someHeap someObj .SHAKE256 [.update (str "abc"), .getDigest 16 (fun _ => 1#8), .getDigest 800 (fun _ => 1#8)]
      = .ok outs ∧
    HashEnc.life someHeap ⟨none, .null, 0, 0, none⟩ .SHAKE256
      [.update (str "abc"), .getDigest 16 (fun _ => 2#8), .getDigest 800 (fun i => BitVec.ofNat 8 i)] = .ok outs := by
  have h : ∀ s₁ s₂ : Nat → Byte, ∀ x ∈ [HashEnc.Call.update (str "abc"), .getDigest 16 s₁, .getDigest 800 s₂],
      ecallOK .SHAKE256 x := by
    intro s₁ s₂ x hx
    simp only [List.mem_cons, List.not_mem_nil, or_false] at hx
    rcases hx with rfl | rfl | rfl
    · show List.length _ ≤ 2 ^ 29 - 192; decide
    · show 0 < 16; decide
    · show 0 < 800; decide
  refine C48_initialised .SHAKE256 someHeap someHeap someObj _ trivial trivial _ _ rfl (h _ _) (h _ _) trivial ?_
  intro _ bits st hm
  simp only [List.mem_cons, List.not_mem_nil, or_false, HashEnc.Call.getDigest.injEq, reduceCtorEq, false_or] at hm
  rcases hm with ⟨rfl, _⟩ | ⟨rfl, _⟩ <;> decide

/-- **C48, violation**, concretely: `get_digest(9)` of a SHAKE128 encoder returns two bytes, of which the second
is whatever was on the stack. -/
theorem C48_leak_example (x : Byte) : ∃ outs b,
    HashEnc.life someHeap someObj .SHAKE128 ([] ++ [.getDigest 9 (fun _ => x)]) = .ok (outs ++ [[b, x]]) := by
  obtain ⟨outs, d, h1, h2, h3⟩ := C48_leak someHeap someObj .SHAKE128 rfl [] (by simp) 9 (by decide) (fun _ => x)
  have h4 := h3 1 (by decide) (by decide)
  match d, h2, h4 with
  | [b, y], _, h4 =>
    have : y = x := by simpa using h4
    subst this
    exact ⟨outs, b, h1⟩

/-- The value: MD5("abc") after a reset that follows another use. -/
theorem C49_example : ∃ outs, HashEnc.life someHeap someObj .MD5
    ([.update (str "zzz"), .getDigest 0 (fun _ => 5#8)] ++ ([.reset someHeap] ++
      ([.updateC [0x61#8, 0#8, 0x7a#8], .updateS (str "bc")] ++ [.getDigest 0 (fun _ => 6#8)])))
    = .ok (outs ++ [[0x90#8, 0x01#8, 0x50#8, 0x98#8, 0x3c#8, 0xd2#8, 0x4f#8, 0xb0#8,
      0xd6#8, 0x96#8, 0x3f#8, 0x7d#8, 0x28#8, 0xe1#8, 0x7f#8, 0x72#8]]) := by
  have h := C49 someHeap someObj .MD5 (someHeap_ok _) [.update (str "zzz"), .getDigest 0 (fun _ => 5#8)]
    (by
      intro x hx
      simp only [List.mem_cons, List.not_mem_nil, or_false] at hx
      rcases hx with rfl | rfl
      · show 0 < List.length _; decide
      · exact .inl rfl) trivial [.reset someHeap] (.inr ⟨_, someHeap_ok _, rfl⟩)
    [.updateC [0x61#8, 0#8, 0x7a#8], .updateS (str "bc")] (by
      intro x hx
      simp only [List.mem_cons, List.not_mem_nil, or_false] at hx
      rcases hx with rfl | rfl
      · exact ⟨trivial, by decide, by show 0 < List.length _; decide⟩
      · exact ⟨trivial, by show 0 < List.length _; decide⟩) trivial 0 (.inl rfl) (by intro h; cases h) (fun _ => 6#8)
  have e : libHash .MD5 (0 / 8) (inputs [.updateC [0x61#8, 0#8, 0x7a#8], .updateS (str "bc")])
      = [0x90#8, 0x01#8, 0x50#8, 0x98#8, 0x3c#8, 0xd2#8, 0x4f#8, 0xb0#8,
        0xd6#8, 0x96#8, 0x3f#8, 0x7d#8, 0x28#8, 0xe1#8, 0x7f#8, 0x72#8] := by
    show Md5.md5 _ = _
    decide +kernel
  rw [e] at h
  exact h

/-! ## C62: calls through the base class -/

/-- **C62, violation.** `get_digest()` called on a `HashEncoder` through a reference to its base class returns the
null pointer, in every state. -/
theorem C62_violation (o : HashEnc) (stack : Nat → Byte) : o.getDigestVirtual stack = .ok (o, none) := rfl

/-- **C62** (partial: all functions but `get_digest` of `HashEncoder` and `reset` of `HMACEncoder`). A virtual call
through the base class executes the encoder's own function. -/
theorem C62_partial (d : Cls) (hd : d = .HashEncoder ∨ d = .HMACEncoder) (s : Sig) (hs : s ∈ Cls.AbstractEncoder.declares)
    (h1 : ¬ (d = .HashEncoder ∧ s = .getDigest)) (h2 : ¬ (d = .HMACEncoder ∧ s = .reset)) :
    d.finalOverrider s = some d := by
  rcases hd with rfl | rfl <;> cases s <;>
    first
      | rfl
      | exact absurd ⟨rfl, rfl⟩ h1
      | exact absurd ⟨rfl, rfl⟩ h2
      | exact absurd hs (by decide)

/-! ## C64: the accessors -/

theorem calls_obj (a : Alg) (l : List HashEnc.Call) : ∀ (c : (a.impl 0).Ctx) (o o' : HashEnc) outs,
    EncObj a c o → o.blocksz = a.blockSize → o.calls l = .ok (o', outs) →
    (∃ c', EncObj a c' o') ∧ o'.blocksz = a.blockSize := by
  induction l with
  | nil =>
    intro c o o' outs h hb e
    rw [HashEnc.calls] at e
    cases e
    exact ⟨⟨c, h⟩, hb⟩
  | cons x l ih =>
    intro c o o' outs h hb e
    have key : ∀ seq n, (o.update seq n >>= fun o => o.calls l) = .ok (o', outs) →
        (∃ c', EncObj a c' o') ∧ o'.blocksz = a.blockSize := by
      intro seq n e
      rw [update_eq h] at e
      generalize (a.impl 0).update c (some seq) n = u at e
      cases u with
      | error _ => cases e
      | ok c' => exact ih c' { o with ctx := .live a c' } _ _ ⟨h.1, rfl, h.2.2⟩ hb e
    cases x with
    | update x => exact key x x.length e
    | updateC x =>
      simp only [HashEnc.calls, HashEnc.updateC] at e
      generalize strlen x = u at e
      cases u with
      | error _ => cases e
      | ok n => exact key x n e
    | updateS x => exact key _ _ e
    | updateSd ord x =>
      simp only [HashEnc.calls, HashEnc.updateSd] at e
      generalize sdArgs ord x = u at e
      cases u with
      | error _ => cases e
      | ok n => exact key n.1 n.2 e
    | reset heap =>
      simp only [HashEnc.calls] at e
      rw [reset_eq h] at e
      generalize (a.impl 0).init (heap a) = u at e
      cases u with
      | error _ => cases e
      | ok c' =>
        exact ih c' { o with ctx := .live a c', digsz := a.digestSize, blocksz := a.blockSize } _ _ ⟨h.1, rfl, rfl⟩ rfl e
    | getDigest bits stack =>
      simp only [HashEnc.calls] at e
      rw [getDigest_eq h] at e
      generalize a.digestWith _ c _ = u at e
      cases u with
      | error _ => cases e
      | ok r =>
        rw [bind_ok, bind_ok] at e
        generalize hc : HashEnc.calls _ l = u at e
        cases u with
        | error _ => cases e
        | ok s =>
          rw [bind_ok] at e
          cases e
          exact ih r.1 { o with ctx := .live a r.1, out := some r.2 } s.1 s.2 ⟨h.1, rfl, h.2.2⟩ hb hc

/-- **C64.** After construction and any calls, `algorithm()` of a `HashEncoder` is the algorithm it was constructed
with, `block_size()` that algorithm's block size and `digest_size()` (fixed output length) its digest size,
whatever the memory contained before. -/
theorem C64_hash (heap : Heap) (g : HashEnc) (a : Alg) (l : List HashEnc.Call) (o : HashEnc) (outs : List (List Byte))
    (h : (HashEnc.construct heap g a >>= fun o => o.calls l) = .ok (o, outs)) :
    o.curAlg = some a ∧ o.blocksz = blockBytes a ∧ (isShake a = false → o.digsz = outSize a 0) := by
  have e2 : HashEnc.construct heap g a = ((a.impl 0).init (heap a) >>= fun c =>
      .ok ⟨some a, .live a c, a.digestSize, a.blockSize, none⟩) := by
    rw [HashEnc.construct, HashEnc.selectAlgorithm]
    by_cases h : g.curAlg = some a
    · rw [if_pos h, bind_ok]
      show HashEnc.loadAlgorithm heap ⟨g.curAlg, .null, g.digsz, g.blocksz, none⟩ = _
      rw [h]; rfl
    · rw [if_neg h]; rfl
  rw [e2] at h
  generalize (a.impl 0).init (heap a) = u at h
  cases u with
  | error _ => cases h
  | ok c =>
    rw [bind_ok, bind_ok] at h
    obtain ⟨⟨c', h1, _, h3⟩, h4⟩ := calls_obj a l c _ o outs ⟨rfl, rfl, rfl⟩ rfl h
    exact ⟨h1, by rw [h4, blockSize_eq], fun hs => by rw [h3, digestSize_eq a hs]⟩

end Pgfe.Props
