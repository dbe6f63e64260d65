import Verif.Model.Lifetime
import Verif.Props.HashEncoder
/-!
# C72: the memory owned by HashEncoder objects
-/
namespace Pgfe.Spec
open Pgfe.Model

/-- The member functions among what a user does. -/
def memberCalls : List OwnedEnc.Use → List HashEnc.Call
  | [] => []
  | .call c :: r => c :: memberCalls r
  | .read _ :: r => memberCalls r

def isGetDigest : HashEnc.Call → Bool
  | .getDigest _ _ => true
  | _ => false

/-- How many pointers `get_digest` has returned. -/
def digestCount (l : List OwnedEnc.Use) : Nat := (memberCalls l).countP isGetDigest

end Pgfe.Spec

namespace Pgfe.Props
open Pgfe.Model Pgfe.Proofs Pgfe.Proofs.Hash Pgfe.Spec

/-- The state of a constructed object after `k` calls of `get_digest`. -/
structure Owns (a : Alg) (k : Nat) (s : OwnedEnc) : Prop where
  obj : ∃ c, EncObj a c s.enc
  one : s.contexts = 1
  len : s.results.length = k
  old : ∀ i, i + 1 < k → s.results[i]? = some none
  last : ∀ i, i + 1 = k → ∃ d, s.results[i]? = some (some d)
  own : s.owned = if k = 0 then none else some (k - 1)

theorem deletes_obj {a : Alg} {c : (a.impl 0).Ctx} {o : HashEnc} (h : EncObj a c o) : OwnedEnc.deletes o = true := by
  rw [OwnedEnc.deletes, h.1, h.2.1]

theorem destroy_obj {a : Alg} {c : (a.impl 0).Ctx} {o : HashEnc} (h : EncObj a c o) :
    HashEnc.destroyContext o = .ok { o with ctx := .dangling } := by
  rw [HashEnc.destroyContext, h.1, h.2.1]
  exact if_pos rfl

theorem construct_eq (heap : Heap) (g : HashEnc) (a : Alg) :
    OwnedEnc.construct heap g a = ((a.impl 0).init (heap a) >>= fun c =>
      .ok ⟨⟨some a, .live a c, a.digestSize, a.blockSize, none⟩, 1, [], none⟩) := by
  rw [OwnedEnc.construct, OwnedEnc.selectAlgorithm]
  by_cases hc : g.curAlg = some a
  · rw [if_pos hc, bind_ok, OwnedEnc.reset, OwnedEnc.destroyContext]
    dsimp only [HashEnc.destroyContext, bind_ok, OwnedEnc.deletes]
    rw [OwnedEnc.loadAlgorithm, hc]
    dsimp only [HashEnc.loadAlgorithm]
    cases (a.impl 0).init (heap a) <;> rfl
  · rw [if_neg hc, OwnedEnc.destroyContext]
    dsimp only [HashEnc.destroyContext, bind_ok, OwnedEnc.deletes]
    rw [OwnedEnc.reset, OwnedEnc.destroyContext]
    dsimp only [HashEnc.destroyContext, bind_ok, OwnedEnc.deletes]
    rw [OwnedEnc.loadAlgorithm]
    dsimp only [HashEnc.loadAlgorithm]
    cases (a.impl 0).init (heap a) <;> rfl

theorem construct_owns (heap : Heap) (g : HashEnc) (a : Alg) (s : OwnedEnc) (h : OwnedEnc.construct heap g a = .ok s) :
    Owns a 0 s := by
  rw [construct_eq] at h
  cases hi : (a.impl 0).init (heap a) with
  | error _ => rw [hi] at h; cases h
  | ok c =>
    rw [hi, bind_ok] at h
    cases h
    exact ⟨⟨c, rfl, rfl, rfl⟩, rfl, rfl, fun i hi => by omega, fun i hi => by omega, rfl⟩

theorem construct_api (heap : Heap) (g : HashEnc) (a : Alg) (s : OwnedEnc) (h : OwnedEnc.construct heap g a = .ok s) :
    ∃ c, (a.impl 0).init (heap a) = .ok c ∧ EncObj a c s.enc := by
  rw [construct_eq] at h
  cases hi : (a.impl 0).init (heap a) with
  | error _ => rw [hi] at h; cases h
  | ok c =>
    rw [hi, bind_ok] at h
    cases h
    exact ⟨c, rfl, rfl, rfl, rfl⟩

theorem reset_owns (heap : Heap) (a : Alg) (k : Nat) (s s' : OwnedEnc) (hs : Owns a k s)
    (h : OwnedEnc.reset heap s = .ok s') : Owns a k s' ∧ s'.results = s.results := by
  obtain ⟨c, hc⟩ := hs.obj
  rw [OwnedEnc.reset, OwnedEnc.destroyContext, destroy_obj hc, bind_ok, deletes_obj hc, if_pos rfl, hs.one, bind_ok,
    OwnedEnc.loadAlgorithm] at h
  dsimp only [HashEnc.loadAlgorithm] at h
  rw [hc.1] at h
  dsimp only at h
  cases hi : (a.impl 0).init (heap a) with
  | error _ => rw [hi] at h; cases h
  | ok c' =>
    rw [hi, bind_ok, bind_ok] at h
    cases h
    exact ⟨⟨⟨c', rfl, rfl, rfl⟩, rfl, hs.len, hs.old, hs.last, hs.own⟩, rfl⟩

theorem update_owns (a : Alg) (k : Nat) (s : OwnedEnc) (hs : Owns a k s) (x : HashEnc.Call) (hx : isGetDigest x = false)
    (hr : ∀ heap, x ≠ .reset heap) (r : HashEnc × List (List Byte)) (h : HashEnc.calls s.enc [x] = .ok r) :
    Owns a k { s with enc := r.1 } := by
  obtain ⟨c, hc⟩ := hs.obj
  have key : ∀ seq n, (s.enc.update seq n >>= fun o => o.calls []) = .ok r → ∃ c, EncObj a c r.1 := by
    intro seq n h
    rw [update_eq hc] at h
    cases hu : (a.impl 0).update c (some seq) n with
    | error _ => rw [hu] at h; cases h
    | ok c' =>
      rw [hu, bind_ok, bind_ok] at h
      cases h
      exact ⟨c', hc.1, rfl, hc.2.2⟩
  have : ∃ c, EncObj a c r.1 := by
    cases x with
    | update x => exact key _ _ h
    | updateC x =>
      simp only [HashEnc.calls, HashEnc.updateC] at h
      cases hn : strlen x with
      | error _ => rw [hn] at h; cases h
      | ok n => rw [hn] at h; exact key _ _ h
    | updateS x => exact key _ _ h
    | updateSd ord x =>
      simp only [HashEnc.calls, HashEnc.updateSd] at h
      cases hn : sdArgs ord x with
      | error _ => rw [hn] at h; cases h
      | ok n => rw [hn] at h; exact key _ _ h
    | reset heap => exact absurd rfl (hr heap)
    | getDigest _ _ => cases hx
  exact ⟨this, hs.one, hs.len, hs.old, hs.last, hs.own⟩

theorem digest_owns (a : Alg) (k : Nat) (s : OwnedEnc) (hs : Owns a k s) (bits : Nat) (stack : Nat → Byte)
    (r : OwnedEnc × Nat) (h : OwnedEnc.getDigest s bits stack = .ok r) :
    Owns a (k + 1) r.1 ∧ r.2 = k ∧ ∃ o d, HashEnc.getDigest s.enc bits stack = .ok (o, d) ∧
      r.1.results[k]? = some (some d) := by
  obtain ⟨c, hc⟩ := hs.obj
  rw [OwnedEnc.getDigest] at h
  rw [getDigest_eq hc] at h ⊢
  cases hd : a.digestWith _ c _ with
  | error _ => rw [hd] at h; cases h
  | ok q =>
    rw [hd, bind_ok, bind_ok] at h
    cases h
    have hrel : (OwnedEnc.release s).length = k := by
      rw [OwnedEnc.release]
      cases s.owned with
      | none => exact hs.len
      | some i => rw [List.length_set]; exact hs.len
    have hlast : (OwnedEnc.release s ++ [some q.2])[k]? = some (some q.2) := by
      rw [List.getElem?_append_right (by omega), hrel, Nat.sub_self]; rfl
    refine ⟨⟨⟨q.1, hc.1, rfl, hc.2.2⟩, hs.one, ?_, ?_, ?_, ?_⟩, hs.len, _, q.2, rfl, hlast⟩
    · dsimp only; rw [List.length_append, hrel]; rfl
    · intro i hi
      dsimp only
      rw [List.getElem?_append_left (by omega), OwnedEnc.release, hs.own, if_neg (by omega)]
      dsimp only
      by_cases hik : i = k - 1
      · rw [hik, List.getElem?_set_self (by rw [hs.len]; omega)]
      · rw [List.getElem?_set_ne (by omega)]
        exact hs.old i (by omega)
    · intro i hi
      have : i = k := by omega
      exact ⟨q.2, this ▸ hlast⟩
    · dsimp only
      rw [if_neg (by omega), hs.len]
      rfl

/-- The invariant along any history; results obtained and not replaced stay as they are. -/
theorem uses_owns (a : Alg) (l : List OwnedEnc.Use) (k : Nat) (s : OwnedEnc) (hs : Owns a k s)
    (r : OwnedEnc × List (List Byte)) (h : OwnedEnc.uses s l = .ok r) :
    Owns a (k + digestCount l) r.1 ∧ (digestCount l = 0 → r.1.results = s.results) := by
  induction l generalizing k s r with
  | nil => cases h; exact ⟨hs, fun _ => rfl⟩
  | cons x l ih =>
    cases x with
    | read i =>
      rw [OwnedEnc.uses] at h
      cases hr : OwnedEnc.read s i with
      | error _ => rw [hr] at h; cases h
      | ok d =>
        rw [hr, bind_ok] at h
        cases hu : OwnedEnc.uses s l with
        | error _ => rw [hu] at h; cases h
        | ok q =>
          rw [hu, bind_ok] at h
          cases h
          exact ih k s hs q hu
    | call c =>
      have upd (hx : isGetDigest c = false) (hr : ∀ heap, c ≠ .reset heap)
          (h : (HashEnc.calls s.enc [c] >>= fun r => OwnedEnc.uses { s with enc := r.1 } l) = .ok r) :
          Owns a (k + digestCount (.call c :: l)) r.1 ∧ (digestCount (.call c :: l) = 0 → r.1.results = s.results) := by
        cases hc : HashEnc.calls s.enc [c] with
        | error _ => rw [hc] at h; cases h
        | ok q =>
          rw [hc, bind_ok] at h
          have := ih k _ (update_owns a k s hs c hx hr q hc) r h
          rw [digestCount, memberCalls, List.countP_cons_of_neg (by rw [hx]; decide)]
          exact this
      cases c with
      | update x => exact upd rfl (fun _ hc => by cases hc) h
      | updateC x => exact upd rfl (fun _ hc => by cases hc) h
      | updateS x => exact upd rfl (fun _ hc => by cases hc) h
      | updateSd o x => exact upd rfl (fun _ hc => by cases hc) h
      | reset heap =>
        rw [OwnedEnc.uses] at h
        cases hr : OwnedEnc.reset heap s with
        | error _ => rw [hr] at h; cases h
        | ok q =>
          rw [hr, bind_ok] at h
          obtain ⟨h1, h2⟩ := reset_owns heap a k s q hs hr
          have := ih k q h1 r h
          rw [h2] at this
          exact this
      | getDigest bits stack =>
        rw [OwnedEnc.uses] at h
        cases hr : OwnedEnc.getDigest s bits stack with
        | error _ => rw [hr] at h; cases h
        | ok q =>
          rw [hr, bind_ok] at h
          have := (ih (k + 1) q.1 (digest_owns a k s hs bits stack q hr).1 r h).1
          rw [digestCount, memberCalls, List.countP_cons_of_pos rfl]
          rw [Nat.add_right_comm] at this
          exact ⟨this, fun h0 => by omega⟩

/-- Nothing but the memory is added: the object goes through the same states as in Model/HashEncoder.lean. -/
theorem C72_states (s : OwnedEnc) (l : List OwnedEnc.Use) (r : OwnedEnc × List (List Byte))
    (h : OwnedEnc.uses s l = .ok r) : ∃ outs, HashEnc.calls s.enc (memberCalls l) = .ok (r.1.enc, outs) := by
  induction l generalizing s r with
  | nil => cases h; exact ⟨[], rfl⟩
  | cons x l ih =>
    cases x with
    | read i =>
      rw [OwnedEnc.uses] at h
      cases hr : OwnedEnc.read s i with
      | error _ => rw [hr] at h; cases h
      | ok d =>
        rw [hr, bind_ok] at h
        cases hu : OwnedEnc.uses s l with
        | error _ => rw [hu] at h; cases h
        | ok q =>
          rw [hu, bind_ok] at h
          cases h
          exact ih s q hu
    | call c =>
      have upd (f : C HashEnc) (e : HashEnc.calls s.enc [c] = (f >>= fun o => .ok (o, [])))
          (e2 : HashEnc.calls s.enc (c :: memberCalls l) = (f >>= fun o => HashEnc.calls o (memberCalls l)))
          (h : (HashEnc.calls s.enc [c] >>= fun r => OwnedEnc.uses { s with enc := r.1 } l) = .ok r) :
          ∃ outs, HashEnc.calls s.enc (c :: memberCalls l) = .ok (r.1.enc, outs) := by
        rw [e] at h
        rw [e2]
        cases f with
        | error _ => cases h
        | ok o => exact ih { s with enc := o } r h
      have as {α β γ : Type} (x : C α) (f : α → C β) (g : β → C γ) :
          ((x >>= f) >>= g) = (x >>= fun y => f y >>= g) := by cases x <;> rfl
      cases c with
      | update x => exact upd (s.enc.update x x.length) rfl rfl h
      | updateC x => exact upd (s.enc.updateC x) rfl rfl h
      | updateS x => exact upd (s.enc.updateS x) rfl rfl h
      | updateSd o x => exact upd (s.enc.updateSd o x) rfl rfl h
      | reset heap =>
        rw [OwnedEnc.uses] at h
        show ∃ outs, (HashEnc.reset heap s.enc >>= fun o => HashEnc.calls o (memberCalls l)) = _
        rw [OwnedEnc.reset, OwnedEnc.destroyContext] at h
        rw [HashEnc.reset]
        cases hd : HashEnc.destroyContext s.enc with
        | error _ => rw [hd] at h; cases h
        | ok o =>
          rw [hd, bind_ok, bind_ok, OwnedEnc.loadAlgorithm] at h
          rw [bind_ok]
          dsimp only at h
          cases hl : HashEnc.loadAlgorithm heap o with
          | error _ => rw [hl] at h; cases h
          | ok o' =>
            rw [hl, bind_ok, bind_ok] at h
            rw [bind_ok]
            exact ih _ r h
      | getDigest bits stack =>
        rw [OwnedEnc.uses, OwnedEnc.getDigest] at h
        show ∃ outs, (HashEnc.getDigest s.enc bits stack >>= fun q => HashEnc.calls q.1 (memberCalls l) >>= fun t =>
          .ok (t.1, q.2 :: t.2)) = _
        cases hd : HashEnc.getDigest s.enc bits stack with
        | error _ => rw [hd] at h; cases h
        | ok q =>
          rw [hd, bind_ok, bind_ok] at h
          rw [bind_ok]
          obtain ⟨outs, e⟩ := ih _ r h
          exact ⟨q.2 :: outs, by rw [e, bind_ok]⟩

/-- **C72, memory.** At the end of every history of a constructed object (whatever was in its memory before), exactly
one context is allocated, and the destructor succeeds and leaves no context and no result allocated. -/
theorem C72_balance (heap : Heap) (g : HashEnc) (a : Alg) (l : List OwnedEnc.Use) (s : OwnedEnc) (r : OwnedEnc × List (List Byte))
    (h0 : OwnedEnc.construct heap g a = .ok s) (h : OwnedEnc.uses s l = .ok r) :
    r.1.contexts = 1 ∧ ∃ s', OwnedEnc.destruct r.1 = .ok s' ∧ s'.contexts = 0 ∧ ∀ x ∈ s'.results, x = none := by
  obtain ⟨hs, _⟩ := uses_owns a l 0 s (construct_owns heap g a s h0) r h
  rw [Nat.zero_add] at hs
  generalize digestCount l = k at hs
  obtain ⟨c, hc⟩ := hs.obj
  refine ⟨hs.one, _, by
    rw [OwnedEnc.destruct, OwnedEnc.destroyContext, destroy_obj hc, bind_ok, deletes_obj hc, if_pos rfl, hs.one, bind_ok],
    rfl, ?_⟩
  intro x hx
  rw [List.mem_iff_getElem?] at hx
  obtain ⟨i, hi⟩ := hx
  dsimp only [OwnedEnc.release] at hi
  rw [hs.own] at hi
  by_cases hk : k = 0
  · rw [if_pos hk] at hi
    dsimp only at hi
    have := (List.getElem?_eq_some_iff.mp hi).1
    rw [hs.len] at this
    omega
  · rw [if_neg hk] at hi
    dsimp only at hi
    have hlt := (List.getElem?_eq_some_iff.mp hi).1
    rw [List.length_set, hs.len] at hlt
    by_cases hik : i = k - 1
    · rw [hik, List.getElem?_set_self (by rw [hs.len]; omega)] at hi
      exact (Option.some.inj hi).symm
    · rw [List.getElem?_set_ne (by omega), hs.old i (by omega)] at hi
      exact (Option.some.inj hi).symm

/-- **C72, results (partial).** The pointer a call of `get_digest` returns gives access to the digest that call computed
as long as `get_digest` is not called again: through updates, resets and reads in any number (missing: after the next
`get_digest`, see `C72_violation`). -/
theorem C72_partial (heap : Heap) (g : HashEnc) (a : Alg) (l l' : List OwnedEnc.Use) (s : OwnedEnc)
    (r : OwnedEnc × List (List Byte)) (h0 : OwnedEnc.construct heap g a = .ok s) (h : OwnedEnc.uses s l = .ok r)
    (bits : Nat) (stack : Nat → Byte) (q : OwnedEnc × Nat) (hq : OwnedEnc.getDigest r.1 bits stack = .ok q)
    (hl : digestCount l' = 0) (t : OwnedEnc × List (List Byte)) (ht : OwnedEnc.uses q.1 l' = .ok t) :
    ∃ o d, HashEnc.getDigest r.1.enc bits stack = .ok (o, d) ∧ OwnedEnc.read t.1 q.2 = .ok d := by
  obtain ⟨hs, _⟩ := uses_owns a l 0 s (construct_owns heap g a s h0) r h
  obtain ⟨hs', hi, o, d, hd, he⟩ := digest_owns a _ r.1 hs bits stack q hq
  obtain ⟨_, h2⟩ := uses_owns a l' _ q.1 hs' t ht
  refine ⟨o, d, hd, ?_⟩
  rw [OwnedEnc.read, h2 hl, hi, he]

/-- **C72, violation.** After any history with `k` calls of `get_digest`, every pointer but the last one is dangling: it
points to a destroyed object. -/
theorem C72_violation (heap : Heap) (g : HashEnc) (a : Alg) (l : List OwnedEnc.Use) (s : OwnedEnc)
    (r : OwnedEnc × List (List Byte)) (h0 : OwnedEnc.construct heap g a = .ok s) (h : OwnedEnc.uses s l = .ok r)
    (i : Nat) (hi : i + 1 < digestCount l) : OwnedEnc.read r.1 i = .error .badPtr := by
  obtain ⟨hs, _⟩ := uses_owns a l 0 s (construct_owns heap g a s h0) r h
  rw [Nat.zero_add] at hs
  rw [OwnedEnc.read, hs.old i hi]

/-- **C72, violation.** No class has a virtual destructor: deleting a `HashEncoder` through a pointer to a base class
is undefined, in every state. -/
theorem C72_delete_violation (st : Cls) (h : st ≠ .HashEncoder) (s : OwnedEnc) :
    OwnedEnc.deleteVia st s = .error .badPtr := by
  cases st <;> first | exact absurd rfl h | rfl

/-- Deleting it through its own type is its destructor. -/
theorem C72_delete_partial (s : OwnedEnc) : OwnedEnc.deleteVia .HashEncoder s = s.destruct := rfl

/-- A history that meets the hypotheses: two digests of "abc", with a reset in between; the second result is read, twice. -/
theorem C72_example : ∃ s r d, OwnedEnc.construct someHeap someObj .SHA256 = .ok s ∧
    OwnedEnc.uses s [.call (.update (str "abc")), .call (.getDigest 0 (fun _ => 1#8)), .call (.reset someHeap),
      .call (.updateS (str "abc")), .call (.getDigest 0 (fun _ => 2#8)), .read 1, .call (.update (str "x")), .read 1]
      = .ok (r, [d, d]) ∧ d.take 4 = [0xba#8, 0x78#8, 0x16#8, 0xbf#8] ∧ OwnedEnc.read r 0 = .error .badPtr := by
  refine ⟨_, _, _, rfl, rfl, ?_, ?_⟩ <;> decide +kernel

end Pgfe.Props
