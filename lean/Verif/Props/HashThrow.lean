import Verif.Model.HashThrow
import Verif.Props.Lifetime
/-!
# C76: HashEncoder objects when memory runs out
-/
namespace Pgfe.Spec
open Pgfe.Model

/-- The uses that did not throw. -/
def quietUses : List OwnedEnc.TUse → List OwnedEnc.Use
  | [] => []
  | .use u :: r => u :: quietUses r
  | _ :: r => quietUses r

/-- No `reset` has thrown. -/
def noResetThrows : List OwnedEnc.TUse → Prop
  | [] => True
  | .resetThrows :: _ => False
  | _ :: r => noResetThrows r

/-- The same history if every allocation had succeeded, without the reads. -/
def allUses : List OwnedEnc.TUse → List HashEnc.Call
  | [] => []
  | .use u :: r => memberCalls [u] ++ allUses r
  | .resetThrows :: r => allUses r
  | .digestThrows bits stack :: r => .getDigest bits stack :: allUses r

end Pgfe.Spec

namespace Pgfe.Props
open Pgfe.Model Pgfe.Proofs Pgfe.Proofs.Hash Pgfe.Spec

/-- A throwing `get_digest` changes nothing but the hash context. -/
theorem digestThrows_owns (a : Alg) (k : Nat) (s s' : OwnedEnc) (hs : Owns a k s) (bits : Nat) (stack : Nat → Byte)
    (h : OwnedEnc.digestThrows s bits stack = .ok s') : Owns a k s' ∧ s'.results = s.results := by
  obtain ⟨c, hc⟩ := hs.obj
  rw [OwnedEnc.digestThrows, getDigest_eq hc] at h
  cases hd : a.digestWith _ c _ with
  | error _ => rw [hd] at h; cases h
  | ok q =>
    rw [hd, bind_ok, bind_ok] at h
    cases h
    exact ⟨⟨⟨q.1, hc.1, rfl, hc.2.2⟩, hs.one, hs.len, hs.old, hs.last, hs.own⟩, rfl⟩

theorem tuses_owns (a : Alg) (l : List OwnedEnc.TUse) (hl : noResetThrows l) (k : Nat) (s : OwnedEnc) (hs : Owns a k s)
    (r : OwnedEnc) (h : OwnedEnc.tuses s l = .ok r) :
    Owns a (k + digestCount (quietUses l)) r ∧ (digestCount (quietUses l) = 0 → r.results = s.results) := by
  induction l generalizing k s r with
  | nil => cases h; exact ⟨hs, fun _ => rfl⟩
  | cons x l ih =>
    cases x with
    | use u =>
      rw [OwnedEnc.tuses] at h
      cases hu : OwnedEnc.uses s [u] with
      | error _ => rw [hu] at h; cases h
      | ok q =>
        rw [hu, bind_ok] at h
        obtain ⟨h1, h2⟩ := uses_owns a [u] k s hs q hu
        obtain ⟨h3, h4⟩ := ih hl _ q.1 h1 r h
        have e : digestCount (quietUses (.use u :: l)) = digestCount [u] + digestCount (quietUses l) := by
          show digestCount (u :: quietUses l) = _
          cases u with
          | read i => show digestCount (quietUses l) = 0 + _; omega
          | call c =>
            show List.countP _ (c :: memberCalls (quietUses l)) = List.countP _ [c] + List.countP _ _
            rw [← List.countP_append]; rfl
        rw [e, ← Nat.add_assoc]
        exact ⟨h3, fun h0 => by rw [h4 (by omega), h2 (by omega)]⟩
    | resetThrows => exact hl.elim
    | digestThrows bits stack =>
      rw [OwnedEnc.tuses] at h
      cases hd : OwnedEnc.digestThrows s bits stack with
      | error _ => rw [hd] at h; cases h
      | ok q =>
        rw [hd, bind_ok] at h
        obtain ⟨h1, h2⟩ := digestThrows_owns a k s q hs bits stack hd
        obtain ⟨h3, h4⟩ := ih hl k q h1 r h
        exact ⟨h3, fun h0 => by rw [h4 h0, h2]⟩

/-- **C76, memory (partial).** As long as no `reset` has thrown (any number of `get_digest` may have), exactly one
context is allocated, and the destructor succeeds and leaves nothing allocated (missing: after a throwing `reset`,
see `C76_violation`). -/
theorem C76_balance_partial (heap : Heap) (g : HashEnc) (a : Alg) (l : List OwnedEnc.TUse) (hl : noResetThrows l)
    (s r : OwnedEnc) (h0 : OwnedEnc.construct heap g a = .ok s) (h : OwnedEnc.tuses s l = .ok r) :
    r.contexts = 1 ∧ ∃ s', OwnedEnc.destruct r = .ok s' ∧ s'.contexts = 0 ∧ ∀ x ∈ s'.results, x = none := by
  obtain ⟨hs, _⟩ := tuses_owns a l hl 0 s (construct_owns heap g a s h0) r h
  rw [Nat.zero_add] at hs
  generalize digestCount (quietUses l) = k at hs
  obtain ⟨c, hc⟩ := hs.obj
  refine ⟨hs.one, _, by
    rw [OwnedEnc.destruct, OwnedEnc.destroyContext, destroy_obj hc, bind_ok, deletes_obj hc, if_pos rfl, hs.one, bind_ok],
    rfl, ?_⟩
  intro x hx
  rw [List.mem_iff_getElem?] at hx
  obtain ⟨i, hi⟩ := hx
  dsimp only [OwnedEnc.release] at hi
  rw [hs.own] at hi
  by_cases hk : k = 0
  · rw [if_pos hk] at hi
    dsimp only at hi
    have := (List.getElem?_eq_some_iff.mp hi).1
    rw [hs.len] at this
    omega
  · rw [if_neg hk] at hi
    dsimp only at hi
    have hlt := (List.getElem?_eq_some_iff.mp hi).1
    rw [List.length_set, hs.len] at hlt
    by_cases hik : i = k - 1
    · rw [hik, List.getElem?_set_self (by rw [hs.len]; omega)] at hi
      exact (Option.some.inj hi).symm
    · rw [List.getElem?_set_ne (by omega), hs.old i (by omega)] at hi
      exact (Option.some.inj hi).symm

/-- **C76, results.** A pointer that `get_digest` returned keeps showing its digest through any number of `get_digest`
calls that throw. -/
theorem C76_results (heap : Heap) (g : HashEnc) (a : Alg) (l l' : List OwnedEnc.TUse) (hl : noResetThrows l)
    (hl' : noResetThrows l') (s r : OwnedEnc) (h0 : OwnedEnc.construct heap g a = .ok s)
    (h : OwnedEnc.tuses s l = .ok r) (bits : Nat) (stack : Nat → Byte) (q : OwnedEnc × Nat)
    (hq : OwnedEnc.getDigest r bits stack = .ok q) (hn : digestCount (quietUses l') = 0) (t : OwnedEnc)
    (ht : OwnedEnc.tuses q.1 l' = .ok t) :
    ∃ o d, HashEnc.getDigest r.enc bits stack = .ok (o, d) ∧ OwnedEnc.read t q.2 = .ok d := by
  obtain ⟨hs, _⟩ := tuses_owns a l hl 0 s (construct_owns heap g a s h0) r h
  obtain ⟨hs', hi, o, d, hd, he⟩ := digest_owns a _ r hs bits stack q hq
  obtain ⟨_, h2⟩ := tuses_owns a l' hl' _ q.1 hs' t ht
  refine ⟨o, d, hd, ?_⟩
  rw [OwnedEnc.read, h2 hn, hi, he]

theorem call_api (a : Alg) (x : HashEnc.Call) (c : (a.impl 0).Ctx) (o o' : HashEnc) (outs : List (List Byte))
    (hc : EncObj a c o) (h : o.calls [x] = .ok (o', outs)) :
    ∃ c', apiCalls a c [x] = .ok (c', outs) ∧ EncObj a c' o' := by
  have key : ∀ seq n, (o.update seq n >>= fun o => HashEnc.calls o []) = .ok (o', outs) →
      ∃ c', ((a.impl 0).update c (some seq) n >>= fun c => apiCalls a c []) = .ok (c', outs) ∧ EncObj a c' o' := by
    intro seq n h
    rw [update_eq hc] at h
    cases hu : (a.impl 0).update c (some seq) n with
    | error _ => rw [hu] at h; cases h
    | ok c1 =>
      rw [hu, bind_ok, bind_ok, HashEnc.calls, Except.ok.injEq, Prod.mk.injEq] at h
      obtain ⟨h1, h2⟩ := h
      subst h2
      exact ⟨c1, rfl, by rw [← h1]; exact ⟨hc.1, rfl, hc.2.2⟩⟩
  cases x with
  | update x => exact key x x.length h
  | updateC x =>
    rw [HashEnc.calls, HashEnc.updateC] at h
    rw [apiCalls]
    cases hn : strlen x with
    | error _ => rw [hn] at h; cases h
    | ok n => rw [hn] at h; exact key x n h
  | updateS x => exact key _ _ h
  | updateSd ord x =>
    rw [HashEnc.calls, HashEnc.updateSd] at h
    rw [apiCalls]
    cases hn : sdArgs ord x with
    | error _ => rw [hn] at h; cases h
    | ok n => rw [hn] at h; exact key n.1 n.2 h
  | reset heap =>
    rw [HashEnc.calls, reset_eq hc] at h
    rw [apiCalls]
    cases hu : (a.impl 0).init (heap a) with
    | error _ => rw [hu] at h; cases h
    | ok c1 =>
      rw [hu, bind_ok, bind_ok, HashEnc.calls, Except.ok.injEq, Prod.mk.injEq] at h
      obtain ⟨h1, h2⟩ := h
      subst h2
      exact ⟨c1, rfl, by rw [← h1]; exact ⟨hc.1, rfl, rfl⟩⟩
  | getDigest bits stack =>
    rw [HashEnc.calls, getDigest_eq hc] at h
    rw [apiCalls]
    cases hu : a.digestWith (if bits = 0 then shakeDefault a else bits) c
      ((List.range (digestLen a bits)).map stack) with
    | error _ => rw [hu] at h; cases h
    | ok q =>
      rw [hu, bind_ok, bind_ok, HashEnc.calls, bind_ok, Except.ok.injEq, Prod.mk.injEq] at h
      obtain ⟨h1, h2⟩ := h
      subst h2
      exact ⟨q.1, rfl, by rw [← h1]; exact ⟨hc.1, rfl, hc.2.2⟩⟩

/-- The context goes through the same states as if nothing had thrown. -/
theorem tuses_api (a : Alg) (l : List OwnedEnc.TUse) (hl : noResetThrows l) (s : OwnedEnc) (c : (a.impl 0).Ctx)
    (hc : EncObj a c s.enc) (r : OwnedEnc) (h : OwnedEnc.tuses s l = .ok r) :
    ∃ c' outs, apiCalls a c (allUses l) = .ok (c', outs) ∧ EncObj a c' r.enc := by
  induction l generalizing s c with
  | nil => cases h; exact ⟨c, [], rfl, hc⟩
  | cons x l ih =>
    cases x with
    | use u =>
      rw [OwnedEnc.tuses] at h
      cases hu : OwnedEnc.uses s [u] with
      | error _ => rw [hu] at h; cases h
      | ok q =>
        rw [hu, bind_ok] at h
        obtain ⟨o1, e1⟩ := C72_states s [u] q hu
        have hx : ∃ c1, apiCalls a c (memberCalls [u]) = .ok (c1, o1) ∧ EncObj a c1 q.1.enc := by
          cases u with
          | call x => exact call_api a x c _ _ _ hc e1
          | read i =>
            change HashEnc.calls s.enc [] = _ at e1
            rw [HashEnc.calls, Except.ok.injEq, Prod.mk.injEq] at e1
            obtain ⟨h1, h2⟩ := e1
            subst h2
            exact ⟨c, rfl, by rw [← h1]; exact hc⟩
        obtain ⟨c1, e2, h2⟩ := hx
        obtain ⟨c2, o2, e3, h3⟩ := ih hl q.1 c1 h2 h
        exact ⟨c2, o1 ++ o2, by rw [allUses, api_append, e2, bind_ok, e3, bind_ok], h3⟩
    | resetThrows => exact hl.elim
    | digestThrows bits stack =>
      rw [OwnedEnc.tuses, OwnedEnc.digestThrows, getDigest_eq hc] at h
      cases hd : a.digestWith _ c _ with
      | error _ => rw [hd] at h; cases h
      | ok q =>
        rw [hd, bind_ok, bind_ok, bind_ok] at h
        obtain ⟨c2, o2, e3, h3⟩ := ih hl { s with enc := ⟨s.enc.curAlg, .live a q.1, s.enc.digsz, s.enc.blocksz,
          s.enc.out⟩ } q.1 ⟨hc.1, rfl, hc.2.2⟩ h
        exact ⟨c2, q.2 :: o2, by rw [allUses, apiCalls, hd, bind_ok, e3, bind_ok], h3⟩

/-- **C76, later digests.** After calls of `get_digest` that have thrown the object can be used: what a digest then
shows is what the same history shows when no allocation fails (C48 and C49 say what that is). -/
theorem C76_values (heap : Heap) (g : HashEnc) (a : Alg) (l : List OwnedEnc.TUse) (hl : noResetThrows l)
    (s r : OwnedEnc) (h0 : OwnedEnc.construct heap g a = .ok s) (h : OwnedEnc.tuses s l = .ok r)
    (bits : Nat) (stack : Nat → Byte) (q : OwnedEnc × Nat) (hq : OwnedEnc.getDigest r bits stack = .ok q) :
    ∃ outs d, HashEnc.life heap g a (allUses l ++ [.getDigest bits stack]) = .ok (outs ++ [d]) ∧
      OwnedEnc.read q.1 q.2 = .ok d := by
  obtain ⟨c, e0, hc⟩ := construct_api heap g a s h0
  obtain ⟨c', outs, e, hc'⟩ := tuses_api a l hl s c hc r h
  obtain ⟨hs, _⟩ := tuses_owns a l hl 0 s (construct_owns heap g a s h0) r h
  obtain ⟨_, hi, o, d, hd, he⟩ := digest_owns a _ r hs bits stack q hq
  refine ⟨outs, d, ?_, by rw [OwnedEnc.read, hi, he]⟩
  rw [C49_api, e0, bind_ok, api_append, e, bind_ok]
  dsimp only
  rw [getDigest_eq hc'] at hd
  cases hx : a.digestWith _ c' _ with
  | error _ => rw [hx] at hd; cases hd
  | ok y =>
    rw [hx, bind_ok, Except.ok.injEq, Prod.mk.injEq] at hd
    rw [apiCalls, hx, bind_ok, apiCalls, bind_ok, bind_ok, bind_ok, hd.2]

/-- **C76, construction.** A constructor that throws leaves nothing allocated, whatever was in the memory before,
and its member `out`, which is destroyed nevertheless, is the null pointer. -/
theorem C76_construct (g : HashEnc) (a : Alg) :
    ∃ s, OwnedEnc.constructThrows g a = .ok s ∧ s.contexts = 0 ∧ s.results = [] ∧ s.enc.out = none ∧ s.owned = none := by
  rw [OwnedEnc.constructThrows, OwnedEnc.selectAlgorithm]
  by_cases hc : g.curAlg = some a
  · rw [if_pos hc, bind_ok, OwnedEnc.destroyContext]
    exact ⟨_, rfl, rfl, rfl, rfl, rfl⟩
  · rw [if_neg hc, OwnedEnc.destroyContext]
    exact ⟨_, rfl, rfl, rfl, rfl, rfl⟩

/-- **C76, violation.** After a `reset` that throws, at whatever point of whatever history, the object cannot be used
any more: its pointer designates the deleted context, every member function accesses it, and even the destructor
deletes it a second time. -/
theorem C76_violation (heap : Heap) (g : HashEnc) (a : Alg) (l : List OwnedEnc.TUse) (hl : noResetThrows l)
    (s r : OwnedEnc) (h0 : OwnedEnc.construct heap g a = .ok s) (h : OwnedEnc.tuses s l = .ok r) :
    ∃ r', OwnedEnc.tuses s (l ++ [.resetThrows]) = .ok r' ∧ OwnedEnc.destruct r' = .error .badPtr ∧
      (∀ x n, HashEnc.update r'.enc x n = .error .badPtr) ∧
      (∀ heap', OwnedEnc.reset heap' r' = .error .badPtr) ∧
      (∀ bits stack, OwnedEnc.getDigest r' bits stack = .error .badPtr) := by
  obtain ⟨hs, _⟩ := tuses_owns a l hl 0 s (construct_owns heap g a s h0) r h
  obtain ⟨c, hc⟩ := hs.obj
  obtain ⟨hc1, hc2, _⟩ := hc
  have happ : ∀ (l : List OwnedEnc.TUse) s, OwnedEnc.tuses s l = .ok r →
      OwnedEnc.tuses s (l ++ [.resetThrows]) = (OwnedEnc.resetThrows r >>= fun x => .ok x) := by
    intro l
    induction l with
    | nil => intro s h; cases h; rfl
    | cons x l ih =>
      intro s h
      cases x with
      | use u =>
        rw [List.cons_append, OwnedEnc.tuses]
        rw [OwnedEnc.tuses] at h
        cases hu : OwnedEnc.uses s [u] with
        | error _ => rw [hu] at h; cases h
        | ok q => rw [hu, bind_ok] at h; rw [bind_ok]; exact ih _ h
      | resetThrows =>
        rw [List.cons_append, OwnedEnc.tuses]
        rw [OwnedEnc.tuses] at h
        cases hu : OwnedEnc.resetThrows s with
        | error _ => rw [hu] at h; cases h
        | ok q => rw [hu, bind_ok] at h; rw [bind_ok]; exact ih _ h
      | digestThrows bits stack =>
        rw [List.cons_append, OwnedEnc.tuses]
        rw [OwnedEnc.tuses] at h
        cases hu : OwnedEnc.digestThrows s bits stack with
        | error _ => rw [hu] at h; cases h
        | ok q => rw [hu, bind_ok] at h; rw [bind_ok]; exact ih _ h
  refine ⟨_, by
    rw [happ l s h, OwnedEnc.resetThrows, OwnedEnc.destroyContext, destroy_obj ⟨hc1, hc2, by assumption⟩, bind_ok, bind_ok], ?_, ?_, ?_, ?_⟩
  · rw [OwnedEnc.destruct, OwnedEnc.destroyContext, HashEnc.destroyContext]
    dsimp only
    rw [hc1]
    rfl
  · intro x n
    rw [HashEnc.update]
    dsimp only
    rw [hc1]
  · intro heap'
    rw [OwnedEnc.reset, OwnedEnc.destroyContext, HashEnc.destroyContext]
    dsimp only
    rw [hc1]
    rfl
  · intro bits stack
    rw [OwnedEnc.getDigest, HashEnc.getDigest]
    dsimp only
    rw [hc1]
    rfl

/-- A history that meets the hypotheses: a digest, an update, a `get_digest` that throws; the earlier result can still
be read. -/
theorem C76_example : ∃ s r d, OwnedEnc.construct someHeap someObj .SHA256 = .ok s ∧
    OwnedEnc.tuses s [.use (.call (.update (str "abc"))), .use (.call (.getDigest 0 (fun _ => 1#8))),
      .use (.call (.reset someHeap)), .use (.call (.updateS (str "xyz"))), .digestThrows 0 (fun _ => 2#8)] = .ok r ∧
    OwnedEnc.read r 0 = .ok d ∧ d.take 4 = [0xba#8, 0x78#8, 0x16#8, 0xbf#8] := by
  refine ⟨_, _, _, rfl, rfl, rfl, ?_⟩
  decide +kernel

/-- **C76, violation.** `get_digest` again, after one that ran out of memory: the digest is not that of the message. -/
theorem C76_retry_violation : ∃ s r q d, OwnedEnc.construct someHeap someObj .SHA256 = .ok s ∧
    OwnedEnc.tuses s [.use (.call (.update (str "abc"))), .digestThrows 0 (fun _ => 1#8)] = .ok r ∧
    OwnedEnc.getDigest r 0 (fun _ => 1#8) = .ok q ∧ OwnedEnc.read q.1 q.2 = .ok d ∧ d ≠ stdHash .SHA256 0 (str "abc") := by
  have hv : stdHash .SHA256 0 (str "abc") = Sha.sha256 (str "abc") := rfl
  have h : (OwnedEnc.construct someHeap someObj .SHA256 >>= fun s =>
      OwnedEnc.tuses s [.use (.call (.update (str "abc"))), .digestThrows 0 (fun _ => 1#8)] >>= fun r =>
      OwnedEnc.getDigest r 0 (fun _ => 1#8) >>= fun q => OwnedEnc.read q.1 q.2).toOption.map
        (fun d => d == Sha.sha256 (str "abc")) = some false := by
    rw [sha256_eval]
    decide +kernel
  rw [← hv] at h
  generalize stdHash .SHA256 0 (str "abc") = v at h ⊢
  cases e1 : OwnedEnc.construct someHeap someObj .SHA256 with
  | error x => rw [e1] at h; cases h
  | ok s =>
    rw [e1, bind_ok] at h
    cases e2 : OwnedEnc.tuses s [.use (.call (.update (str "abc"))), .digestThrows 0 (fun _ => 1#8)] with
    | error x => rw [e2] at h; cases h
    | ok r =>
      rw [e2, bind_ok] at h
      cases e3 : OwnedEnc.getDigest r 0 (fun _ => 1#8) with
      | error x => rw [e3] at h; cases h
      | ok q =>
        rw [e3, bind_ok] at h
        cases e4 : OwnedEnc.read q.1 q.2 with
        | error x => rw [e4] at h; cases h
        | ok d =>
          rw [e4] at h
          refine ⟨s, r, q, d, rfl, e2, e3, e4, ?_⟩
          rintro rfl
          simp [Except.toOption] at h

end Pgfe.Props
