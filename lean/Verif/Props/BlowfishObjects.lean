import Verif.Model.BlowfishObjects
import Verif.Props.Blowfish
/-!
# C89: the life of Blowfish objects; C90: Blowfish objects shared between threads
-/
namespace Pgfe.Props
open Pgfe.Model Pgfe.Spec

/-! ## Specification -/

/-- A key with which an object can be constructed: valid memory, not empty, no zero byte in a `std::string`. -/
def bfKeyOK (mem : BfCtx) (key : Bf.Arg) : Prop :=
  bfCtxOK mem ∧ BfArg.ok key ∧ BfArg.bytes key ≠ [] ∧ ∀ s, key = .str s → 0#8 ∉ s

/-- Which key each object has, `none` for destroyed ones, after an operation. -/
def bfKeys (ks : List (Option (List Byte))) : Bf.Op → List (Option (List Byte))
  | .construct _ key => ks ++ [some (BfArg.bytes key)]
  | .copy i => ks ++ [ks.getD i none]
  | .move i => ks ++ [ks.getD i none]
  | .assign i j => ks.set i (ks.getD j none)
  | .destroy i => ks.set i none
  | _ => ks

/-- What the user must see of an operation: `encrypt` and `decrypt` return the cipher's result for the key of the object, or
throw if memory runs out. -/
noncomputable def bfSeen (ks : List (Option (List Byte))) : Bf.Op → Bf.Seen
  | .call i enc unp arg .none => .bytes (bfResult ((ks.getD i none).getD []) ⟨enc, unp, arg⟩)
  | .call _ _ _ _ _ => .exception
  | _ => .nothing

/-- Object `i` exists. -/
def bfLive (ks : List (Option (List Byte))) (i : Nat) : Prop := ∃ k, ks[i]? = some (some k)

/-- The operations a careful user makes: on existing objects, with valid memory; no deletion through the base class, no passing by
value as the base class (C89_delete, C89_byValue), no message length 1, 2, 3 modulo 8 (C46) and no `std::string` key with
zero bytes (C61). -/
def bfOpOK (ks : List (Option (List Byte))) : Bf.Op → Prop
  | .construct mem key => bfKeyOK mem key
  | .copy i => bfLive ks i
  | .move i => bfLive ks i
  | .assign i j => bfLive ks i ∧ bfLive ks j
  | .destroy i => bfLive ks i
  | .deleteBase _ => False
  | .byValue _ _ _ => False
  | .call i enc unp arg fail => bfLive ks i ∧
      (bfCallOK ⟨enc, unp, arg⟩ ∨ fail = .array ∧ unp.length = 8 ∧ BfArg.ok arg)

/-- A history of such operations. -/
def bfHistOK (ks : List (Option (List Byte))) : List Bf.Op → Prop
  | [] => True
  | o :: rest => bfOpOK ks o ∧ bfHistOK (bfKeys ks o) rest

/-- All that must be seen of a history. -/
noncomputable def bfSeens (ks : List (Option (List Byte))) : List Bf.Op → List Bf.Seen
  | [] => []
  | o :: rest => bfSeen ks o :: bfSeens (bfKeys ks o) rest

/-! ## C89 -/

/-- An object with key `k`. -/
def bfObjOf (c : Option BfCtx) (k : Option (List Byte)) : Prop :=
  match c, k with
  | none, none => True
  | some c, some k => bfCtxOK c ∧ bfWords c = Blowfish.expand Blowfish.piTable k
  | _, _ => False

/-- Construction, whatever the form of the key. -/
theorem bf_create (mem : BfCtx) (key : Bf.Arg) (h : bfKeyOK mem key) :
    ∃ ctx, Bf.create mem key = .ok ctx ∧ bfCtxOK ctx ∧
      bfWords ctx = Blowfish.expand Blowfish.piTable (BfArg.bytes key) := by
  obtain ⟨hm, hok, hk, hs⟩ := h
  cases key with
  | str s => exact C61_partial mem hm s hk (hs s rfl)
  | seq m n => exact C47_create mem hm _ hok hk (by intro s h; cases h)
  | cs m => exact C47_create mem hm _ hok hk (by intro s h; cases h)
  | sd s => exact C47_create mem hm _ hok hk (by intro s h; cases h)

theorem bf_argPtr (arg : Bf.Arg) (hok : BfArg.ok arg) :
    ∃ m, Bf.argPtr arg = .ok (m, (BfArg.bytes arg).length) ∧
      ∀ ctx unp, Bf.encryptArg ctx unp arg = Bf.cppEncrypt ctx unp m (BfArg.bytes arg).length ∧
        Bf.decryptArg ctx unp arg = Bf.cppDecrypt ctx unp m (BfArg.bytes arg).length := by
  cases arg with
  | seq m n =>
    have : (m.take n).length = n := by rw [List.length_take]; exact Nat.min_eq_left hok
    exact ⟨m, by rw [BfArg.bytes, this]; rfl, by rw [BfArg.bytes, this]; exact fun _ _ => ⟨rfl, rfl⟩⟩
  | cs m =>
    obtain ⟨q1, q2, q3⟩ := Proofs.strlen_take m hok
    refine ⟨m, ?_, fun ctx unp => ?_⟩
    · rw [Bf.argPtr, q1, bind_ok]; rfl
    · rw [Bf.encryptArg, Bf.decryptArg, q1, bind_ok, bind_ok]; exact ⟨rfl, rfl⟩
  | str s => exact ⟨_, rfl, fun _ _ => ⟨rfl, rfl⟩⟩
  | sd s => exact ⟨_, rfl, fun _ _ => ⟨rfl, rfl⟩⟩

/-- The body of `encrypt(seq, length)` and `decrypt(seq, length)`. -/
def bfBody (enc : Bool) (ctx : BfCtx) (unp m : List Byte) (n : Nat) : C (List Byte) := do
  let r ← (if enc then Bf.encrypt ctx unp (some m) n (List.replicate (n + n % 8) 0#8)
    else Bf.decrypt ctx unp (some m) n (List.replicate (n + n % 8) 0#8))
  rds r.2 0 r.1

theorem bf_body (ctx : BfCtx) (hc : bfCtxOK ctx) (key : List Byte) (hw : bfWords ctx = Blowfish.expand Blowfish.piTable key)
    (c : Bf.BfCall) (h : bfCallOK c) :
    ∃ m, Bf.argPtr c.arg = .ok (m, (BfArg.bytes c.arg).length) ∧
      bfBody c.enc ctx c.unp m (BfArg.bytes c.arg).length = .ok (bfResult key c) := by
  obtain ⟨c1, c2, c3⟩ := h
  obtain ⟨m, e1, e2⟩ := bf_argPtr c.arg c2
  refine ⟨m, e1, ?_⟩
  have hp := C46_partial ctx hc c.unp c1 c.arg c2 c3
  rw [(e2 ctx c.unp).1, (e2 ctx c.unp).2] at hp
  rw [bfResult, ← hw]
  cases he : c.enc with
  | true => exact hp.1
  | false => exact hp.2

theorem bf_allocCall_eq (enc : Bool) (ctx : BfCtx) (unp m : List Byte) (n : Nat) (fail : Bf.Fail) (hf : fail ≠ .array) (heap : Nat)
    (x : List Byte) (h : bfBody enc ctx unp m n = .ok x) :
    Bf.allocCall enc ctx unp m n fail heap = .ok (heap, if fail = Bf.Fail.result then .exception else .bytes x) := by
  rw [bfBody] at h
  have e : ∀ r : C (Nat × List Byte), (do let r ← r; rds r.2 0 r.1) = .ok x →
      (do let r ← r
          let x ← rds r.2 0 r.1
          (.ok (heap + 1 - 1, if fail = Bf.Fail.result then Bf.Seen.exception else .bytes x) : C (Nat × Bf.Seen))) =
        .ok (heap, if fail = Bf.Fail.result then .exception else .bytes x) := by
    intro r h
    cases r with
    | error e => cases h
    | ok r =>
      rw [bind_ok] at h ⊢
      rw [h]; rfl
  cases fail with
  | array => exact absurd rfl hf
  | none => exact e _ h
  | result => exact e _ h

theorem bf_allocCall (ctx : BfCtx) (hc : bfCtxOK ctx) (key : List Byte)
    (hw : bfWords ctx = Blowfish.expand Blowfish.piTable key) (enc : Bool) (unp : List Byte) (arg : Bf.Arg) (fail : Bf.Fail)
    (h : bfCallOK ⟨enc, unp, arg⟩ ∨ fail = .array ∧ unp.length = 8 ∧ BfArg.ok arg) (heap : Nat) :
    ∃ m, Bf.argPtr arg = .ok (m, (BfArg.bytes arg).length) ∧
        Bf.allocCall enc ctx unp m (BfArg.bytes arg).length fail heap =
      .ok (heap, if fail = .none then .bytes (bfResult key ⟨enc, unp, arg⟩) else .exception) := by
  have hok : BfArg.ok arg := h.elim (fun h => h.2.1) (fun h => h.2.2)
  cases hf : fail with
  | array =>
    obtain ⟨m, e1, _⟩ := bf_argPtr arg hok
    exact ⟨m, e1, rfl⟩
  | none =>
    rcases h with h | h
    · obtain ⟨m, e1, e2⟩ := bf_body ctx hc key hw _ h
      exact ⟨m, e1, bf_allocCall_eq _ _ _ _ _ _ (by decide) heap _ e2⟩
    · rw [hf] at h; cases h.1
  | result =>
    rcases h with h | h
    · obtain ⟨m, e1, e2⟩ := bf_body ctx hc key hw _ h
      exact ⟨m, e1, bf_allocCall_eq _ _ _ _ _ _ (by decide) heap _ e2⟩
    · rw [hf] at h; cases h.1

/-- The objects have the keys. -/
def bfObjsOf (os : List (Option BfCtx)) (ks : List (Option (List Byte))) : Prop :=
  os.length = ks.length ∧ ∀ i, i < os.length → bfObjOf (os.getD i none) (ks.getD i none)

theorem bfObjsOf_live {os ks} (h : bfObjsOf os ks) {i : Nat} (hl : bfLive ks i) (n : Nat) :
    ∃ c k, ks[i]? = some (some k) ∧ Bf.World.obj ⟨os, n⟩ i = .ok c ∧ os[i]? = some (some c) ∧ bfObjOf (some c) (some k) := by
  obtain ⟨k, hk⟩ := hl
  have hi : i < ks.length := by
    rcases Nat.lt_or_ge i ks.length with h | h
    · exact h
    · rw [List.getElem?_eq_none h] at hk; cases hk
  have := h.2 i (by rw [h.1]; exact hi)
  rw [List.getD_eq_getElem?_getD, List.getD_eq_getElem?_getD, hk, Option.getD_some] at this
  have hio : i < os.length := by rw [h.1]; exact hi
  rw [List.getElem?_eq_getElem hio, Option.getD_some] at this
  cases hc : os[i] with
  | none => rw [hc] at this; exact absurd this (by simp [bfObjOf])
  | some c =>
    rw [hc] at this
    refine ⟨c, k, hk, ?_, ?_, this⟩
    · rw [Bf.World.obj]; dsimp only; rw [List.getElem?_eq_getElem hio, hc]
    · rw [List.getElem?_eq_getElem hio, hc]

theorem bfObjsOf_push {os ks} (h : bfObjsOf os ks) (c k) (hc : bfObjOf c k) : bfObjsOf (os ++ [c]) (ks ++ [k]) := by
  refine ⟨by simp [h.1], fun i hi => ?_⟩
  rw [List.length_append, List.length_singleton] at hi
  rw [List.getD_eq_getElem?_getD, List.getD_eq_getElem?_getD]
  by_cases hlt : i < os.length
  · rw [List.getElem?_append_left hlt, List.getElem?_append_left (by rw [← h.1]; exact hlt),
      ← List.getD_eq_getElem?_getD, ← List.getD_eq_getElem?_getD]
    exact h.2 i hlt
  · have : i = os.length := by omega
    subst this
    rw [List.getElem?_append_right (Nat.le_refl _), h.1, List.getElem?_append_right (Nat.le_refl _)]
    simpa using hc

theorem bfObjsOf_set {os ks} (h : bfObjsOf os ks) (j : Nat) (c k) (hc : bfObjOf c k) : bfObjsOf (os.set j c) (ks.set j k) := by
  refine ⟨by simp [h.1], fun i hi => ?_⟩
  rw [List.length_set] at hi
  have hk : i < ks.length := by rw [← h.1]; exact hi
  rw [List.getD_eq_getElem?_getD, List.getD_eq_getElem?_getD, List.getElem?_set, List.getElem?_set]
  by_cases e : j = i
  · subst e
    rw [if_pos rfl, if_pos rfl, if_pos hi, if_pos hk]
    exact hc
  · rw [if_neg e, if_neg e, ← List.getD_eq_getElem?_getD, ← List.getD_eq_getElem?_getD]
    exact h.2 i hi

/-- One operation. -/
theorem bf_op (os ks) (n : Nat) (h : bfObjsOf os ks) (o : Bf.Op) (ho : bfOpOK ks o) :
    ∃ os', Bf.op ⟨os, n⟩ o = .ok (⟨os', n⟩, bfSeen ks o) ∧ bfObjsOf os' (bfKeys ks o) := by
  have getk : ∀ {i k}, ks[i]? = some (some k) → ks.getD i none = some k := by
    intro i k h; rw [List.getD_eq_getElem?_getD, h]; rfl
  cases o with
  | construct mem key =>
    obtain ⟨c, e1, e2, e3⟩ := bf_create mem key ho
    exact ⟨os ++ [some c], by rw [Bf.op, e1]; rfl, bfObjsOf_push h _ _ ⟨e2, e3⟩⟩
  | copy i =>
    obtain ⟨c, k, h1, h2, _, h3⟩ := bfObjsOf_live h ho n
    refine ⟨os ++ [some c], by rw [Bf.op, h2]; rfl, ?_⟩
    rw [bfKeys, getk h1]
    exact bfObjsOf_push h _ _ h3
  | move i =>
    obtain ⟨c, k, h1, h2, _, h3⟩ := bfObjsOf_live h ho n
    refine ⟨os ++ [some c], by rw [Bf.op, h2]; rfl, ?_⟩
    rw [bfKeys, getk h1]
    exact bfObjsOf_push h _ _ h3
  | assign i j =>
    obtain ⟨c, k, h1, h2, _, h3⟩ := bfObjsOf_live h ho.2 n
    obtain ⟨c', k', h1', h2', _, h3'⟩ := bfObjsOf_live h ho.1 n
    refine ⟨os.set i (some c), by rw [Bf.op, h2, bind_ok, h2']; rfl, ?_⟩
    rw [bfKeys, getk h1]
    exact bfObjsOf_set h _ _ _ h3
  | destroy i =>
    obtain ⟨c, k, h1, h2, _, h3⟩ := bfObjsOf_live h ho n
    exact ⟨os.set i none, by rw [Bf.op, h2]; rfl, bfObjsOf_set h _ _ _ trivial⟩
  | deleteBase i => exact ho.elim
  | byValue i enc arg => exact ho.elim
  | call i enc unp arg fail =>
    obtain ⟨c, k, h1, h2, _, h3⟩ := bfObjsOf_live h ho.1 n
    obtain ⟨m, e1, e2⟩ := bf_allocCall c h3.1 k h3.2 enc unp arg fail ho.2 n
    refine ⟨os, ?_, h⟩
    rw [Bf.op, h2, bind_ok, e1, bind_ok]
    dsimp only
    rw [e2, bind_ok]
    cases fail with
    | none => rw [bfSeen, getk h1]; rfl
    | array => rfl
    | result => rfl

/-- **C89** (partial: deletion through the base class and passing by value as the base class are missing, where the claim is
false, `C89_delete`, `C89_byValue`; and what is missing in C68). Any number of objects, any history of constructing, copying,
moving, assigning and destroying them and of `encrypt` and `decrypt` calls of any overloads, any of which may run out of
memory: every call returns the cipher's result for the key its object was given, or throws because memory ran out; an
exception changes nothing and no array is left behind; the objects that exist at the end are those constructed and not
destroyed. -/
theorem C89_partial (l : List Bf.Op) (hl : bfHistOK [] l) :
    ∃ w, Bf.ops ⟨[], 0⟩ l = .ok (w, bfSeens [] l) ∧ w.heap = 0 ∧
      ∀ i, (∃ c, w.objs[i]? = some (some c)) ↔ bfLive (l.foldl bfKeys []) i := by
  have key : ∀ (l : List Bf.Op) os ks, bfObjsOf os ks → bfHistOK ks l →
      ∃ os', Bf.ops ⟨os, 0⟩ l = .ok (⟨os', 0⟩, bfSeens ks l) ∧ bfObjsOf os' (l.foldl bfKeys ks) := by
    intro l
    induction l with
    | nil => intro os ks h _; exact ⟨os, rfl, h⟩
    | cons o l ih =>
      intro os ks h hl
      obtain ⟨os1, e1, h1⟩ := bf_op os ks 0 h o hl.1
      obtain ⟨os2, e2, h2⟩ := ih os1 _ h1 hl.2
      exact ⟨os2, by rw [Bf.ops, e1, bind_ok, e2]; rfl, h2⟩
  obtain ⟨os, e, h⟩ := key l [] [] ⟨rfl, fun i hi => absurd hi (Nat.not_lt_zero _)⟩ hl
  refine ⟨⟨os, 0⟩, e, rfl, fun i => ⟨fun ⟨c, hc⟩ => ?_, fun hi => ?_⟩⟩
  · have hi : i < os.length := by
      rcases Nat.lt_or_ge i os.length with h | h
      · exact h
      · dsimp only at hc; rw [List.getElem?_eq_none h] at hc; cases hc
    have := h.2 i hi
    dsimp only at hc
    rw [List.getD_eq_getElem?_getD, List.getD_eq_getElem?_getD, hc, Option.getD_some,
      List.getElem?_eq_getElem (by rw [← h.1]; exact hi), Option.getD_some] at this
    rw [bfLive, List.getElem?_eq_getElem (by rw [← h.1]; exact hi)]
    cases hk : (l.foldl bfKeys [])[i]'(by rw [← h.1]; exact hi) with
    | none => rw [hk] at this; exact absurd this (by simp [bfObjOf])
    | some k => exact ⟨k, rfl⟩
  · obtain ⟨c, _, _, _, e, _⟩ := bfObjsOf_live h hi 0
    exact ⟨c, e⟩

/-- **C89, violation: delete.** `delete` through a pointer to `AbstractSymmetricCrypter` is undefined, for every object. -/
theorem C89_delete (w : Bf.World) (i : Nat) : Bf.op w (.deleteBase i) = .error .badPtr := rfl

/-- **C89, violation: by value.** An object passed by value as an `AbstractSymmetricCrypter` encrypts and decrypts everything to the
empty text, without an error, although the cipher's result is not empty unless the data are. -/
theorem C89_byValue (l : List Bf.Op) (hl : bfHistOK [] l) (i : Nat) (hi : bfLive (l.foldl bfKeys []) i) (enc : Bool)
    (unp : List Byte) (arg : Bf.Arg) (hok : BfArg.ok arg) (key : List Byte) :
    ∃ w s, Bf.ops ⟨[], 0⟩ l = .ok (w, s) ∧ Bf.op w (.byValue i enc arg) = .ok (w, .bytes []) ∧
      (bfResult key ⟨enc, unp, arg⟩ = [] ↔ BfArg.bytes arg = []) := by
  obtain ⟨w, e, _, h⟩ := C89_partial l hl
  obtain ⟨c, hc⟩ := (h i).2 hi
  obtain ⟨m, e1, _⟩ := bf_argPtr arg hok
  refine ⟨w, _, e, ?_, ?_⟩
  · rw [Bf.op, Bf.World.obj, hc]
    show ((Except.ok c : C BfCtx) >>= _) = _
    rw [bind_ok, e1]; rfl
  · have hlen : (bfResult key ⟨enc, unp, arg⟩).length = 8 * (((BfArg.bytes arg).length + 7) / 8) := by
      rw [bfResult]; dsimp only
      split <;> exact Proofs.Bf.ecb_length _ _
    rw [← List.length_eq_zero_iff, hlen, ← List.length_eq_zero_iff]
    omega

/-- Two keys, a copy, an assignment, a call that runs out of memory, and a deletion. -/
example : bfHistOK [] [
    .construct bfMem (.cs (str "key" ++ [0#8])), .construct bfMem (.sd [0#8, 1#8]), .copy 0,
    .call 2 true (List.replicate 8 0xaa#8) (.str (str "attack")) .none, .assign 0 1, .destroy 1,
    .call 0 false (List.replicate 8 0xaa#8) (.seq (List.replicate 20 0#8) 16) .result,
    .call 0 true (List.replicate 8 0xaa#8) (.str (str "a")) .array, .move 0] := by
  refine ⟨⟨bfMem_ok, ?_, ?_, ?_⟩, ⟨bfMem_ok, trivial, ?_, ?_⟩, ⟨_, rfl⟩, ⟨⟨_, rfl⟩, .inl ⟨rfl, trivial, ?_⟩⟩,
    ⟨⟨_, rfl⟩, ⟨_, rfl⟩⟩, ⟨_, rfl⟩, ⟨⟨_, rfl⟩, .inl ⟨rfl, ?_, ?_⟩⟩, ⟨⟨_, rfl⟩, .inr ⟨rfl, rfl, trivial⟩⟩, ⟨_, rfl⟩, trivial⟩
  · show 0#8 ∈ str "key" ++ [0#8]; decide
  · show (str "key" ++ [0#8]).takeWhile (fun b => b ≠ 0#8) ≠ []; decide
  · intro s h; cases h
  · show [0#8, 1#8] ≠ ([] : List Byte); decide
  · intro s h; cases h
  · right; show 4 ≤ (str "attack").length % 8; decide
  · show 16 ≤ (List.replicate 20 0#8).length; decide
  · left; show ((List.replicate 20 0#8).take 16).length % 8 = 0; decide

end Pgfe.Props
