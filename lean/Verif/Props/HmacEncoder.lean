import Verif.Props.HashEncoder
/-!
# C50, C63, C64: the class `HMACEncoder`

`g` is the content of the object's memory before construction: `hmacGarbageOK` only says that the arrays in the
union have their declared sizes.
-/
namespace Pgfe.Spec
open Pgfe.Model

/-- The bytes a call of `update` adds to the message. -/
def hmacInputOf : HmacEnc.Call → List Byte
  | .update x => x
  | .updateC mem => mem.takeWhile (fun b => b ≠ 0#8)
  | .updateS s => s
  | .updateSd _ s => s
  | _ => []

/-- All bytes passed to the object. -/
def hmacInputs (l : List HmacEnc.Call) : List Byte := (l.map hmacInputOf).flatten

/-- Well-defined calls other than `get_digest`; for the order of evaluation in `update(SequentialData &)` see C65. -/
def hmacUpdateOK (a : Alg) : HmacEnc.Call → Prop
  | .update x => okUpd a x.length
  | .updateC mem => 0#8 ∈ mem ∧ okUpd a (mem.takeWhile (fun b => b ≠ 0#8)).length
  | .updateS s => okUpd a s.length
  | .updateSd ord s => ord = .leftFirst ∧ okUpd a s.length
  | .reset => True
  | .getDigest _ => False

/-- Arrays have their declared sizes. -/
def hmacGarbageOK (g : HmacEnc) : Prop := ∀ a, isShake a = false → hmacCtxOK a (g.ctx a)

/-- The same for the locals of `get_digest`. -/
def hmacStackOK (a : Alg) (s : HmacEnc.Stack) : Prop := s.mid.length = outSize a 0 + 1 ∧ memOK a 0 (s.inner a)

/-- The ways to pass a key to a constructor: pointer and length, C string, `std::string` or
`SequentialData`. -/
inductive KeyArg where
  | bytes (seq : List Byte) (length : Nat)
  | cstr (mem : List Byte)
  | str (s : List Byte)
  | sd (ord : ArgOrder) (s : List Byte)

/-- The key meant. -/
def KeyArg.key : KeyArg → List Byte
  | .bytes seq n => seq.take n
  | .cstr mem => mem.takeWhile (fun b => b ≠ 0#8)
  | .str s => s
  | .sd _ s => s

/-- The memory passed is long enough; for the order of evaluation with a `SequentialData` see C65. -/
def KeyArg.ok : KeyArg → Prop
  | .bytes seq n => n ≤ seq.length
  | .cstr mem => 0#8 ∈ mem
  | .str _ => True
  | .sd ord _ => ord = .leftFirst

/-- The constructor. -/
def KeyArg.construct (g : HmacEnc) (a : Alg) : KeyArg → C HmacEnc
  | .bytes seq n => HmacEnc.construct g a seq n
  | .cstr mem => HmacEnc.constructC g a mem
  | .str s => HmacEnc.constructS g a s
  | .sd ord s => HmacEnc.constructSd ord g a s

end Pgfe.Spec

namespace Pgfe.Props
open Pgfe.Model Pgfe.Spec Pgfe.Proofs Pgfe.Proofs.Hash Pgfe.Proofs.Hmac

theorem spCase_eq (a : Alg) : HmacEnc.spCase a = !isShake a := by cases a <;> rfl

theorem setCtx_same (o : HmacEnc) (a : Alg) (c : HmacCtx (a.impl 0)) : (o.setCtx a c).ctx a = c := by
  simp [HmacEnc.setCtx]

/-- An object for algorithm `a`, key `k`, message so far `m`. -/
def HObj {a : Alg} (K : HashOK (a.impl 0) (libHash a 0)) (k m : List Byte) (o : HmacEnc) : Prop :=
  o.curAlg = some a ∧ HInv K (blockBytes a) k m (o.ctx a)

section
variable {a : Alg} (ha : isShake a = false) (K : HashOK (a.impl 0) (libHash a 0))
  (cf : Conf K (memOK a 0) (outSize a 0) (okUpd a) (okTot a))
include ha cf

theorem select_ok (g : HmacEnc) (hg : hmacGarbageOK g) :
    ∃ o, HmacEnc.selectAlgorithm a { g with output := none } = .ok o ∧ o.curAlg = some a ∧
      CtxOK K (blockBytes a) (o.ctx a) := by
  obtain ⟨h1, h2, h3⟩ := hmac_sizes a ha
  have hc := hg a ha
  rw [HmacEnc.selectAlgorithm]
  by_cases h : g.curAlg = some a
  · rw [if_pos h]
    exact ⟨_, rfl, h, cf.wf _ hc.1, hc.2⟩
  · rw [if_neg h, HmacEnc.afterChangeAlg]
    dsimp only
    rw [if_pos (by rw [spCase_eq, ha]; rfl), blockSize_eq]
    obtain ⟨c, e, i⟩ := init_ok K (blockBytes a) (g.ctx a) ⟨cf.wf _ hc.1, hc.2⟩ (cf.u _ h1)
      (K.tot_mono _ _ (by omega) (cf.t _ h3))
    rw [e, bind_ok]
    refine ⟨_, rfl, rfl, ?_⟩
    show CtxOK K (blockBytes a) ((HmacEnc.setCtx _ a c).ctx a)
    rw [setCtx_same]
    exact ⟨K.wf _ _ (K.safe _ _ i.inv), i.il, by rw [i.op, xorPad_length _ _ _ i.kl]⟩

theorem encSetKey_ok (o : HmacEnc) (ho : o.curAlg = some a) (hc : CtxOK K (blockBytes a) (o.ctx a)) (key : List Byte)
    (n : Nat) (hn : n ≤ key.length) :
    ∃ o', o.setKey key n = .ok o' ∧ HObj K ((key.take n).take (blockBytes a)) [] o' ∧
      o'.digsz = o.digsz ∧ o'.blocksz = o.blocksz := by
  obtain ⟨h1, h2, h3⟩ := hmac_sizes a ha
  obtain ⟨c, e, i⟩ := setKey_ok K (blockBytes a) (o.ctx a) hc (cf.u _ h1) (K.tot_mono _ _ (by omega) (cf.t _ h3))
    key n hn
  rw [HmacEnc.setKey, ho]
  dsimp only
  rw [if_pos (by rw [spCase_eq, ha]; rfl), blockSize_eq, e, bind_ok]
  exact ⟨_, rfl, ⟨ho, by rw [setCtx_same]; exact i⟩, rfl, rfl⟩

theorem construct_ok (g : HmacEnc) (hg : hmacGarbageOK g) (k : KeyArg) (hk : k.ok) :
    ∃ o, k.construct g a = .ok o ∧ HObj K (k.key.take (blockBytes a)) [] o := by
  obtain ⟨o, e, h1, h2⟩ := select_ok ha K cf g hg
  cases k with
  | bytes seq n =>
    obtain ⟨o', e', h3, _⟩ := encSetKey_ok ha K cf o h1 h2 seq n hk
    exact ⟨o', by rw [KeyArg.construct, HmacEnc.construct, e, bind_ok, e'], h3⟩
  | cstr mem =>
    obtain ⟨q1, q2, q3⟩ := strlen_take mem hk
    obtain ⟨o', e', h3, _⟩ := encSetKey_ok ha K cf o h1 h2 mem _ q2
    rw [q3] at h3
    exact ⟨o', by rw [KeyArg.construct, HmacEnc.constructC, e, bind_ok, q1, bind_ok, e'], h3⟩
  | str s =>
    obtain ⟨o', e', h3, _⟩ := encSetKey_ok ha K cf o h1 h2 (s ++ [0#8]) s.length (by simp)
    rw [List.take_left' rfl] at h3
    exact ⟨o', by rw [KeyArg.construct, HmacEnc.constructS, e, bind_ok, e'], h3⟩
  | sd ord s =>
    cases (show ord = .leftFirst from hk)
    obtain ⟨o', e', h3, _⟩ := encSetKey_ok ha K cf o h1 h2 (s ++ [0#8]) s.length (by simp)
    rw [List.take_left' rfl] at h3
    exact ⟨o', by rw [KeyArg.construct, HmacEnc.constructSd, e, bind_ok, sdArgs, bind_ok, e'], h3⟩

theorem encUpdate_ok (k m : List Byte) (o : HmacEnc) (h : HObj K k m o) (x : List Byte) (n : Nat) (hu : okUpd a n)
    (hn : n ≤ x.length) (ht : okTot a (blockBytes a + m.length + n)) :
    ∃ o', o.update x n = .ok o' ∧ HObj K k (m ++ x.take n) o' := by
  obtain ⟨c, e, i⟩ := update_ok K (blockBytes a) k m (o.ctx a) h.2 x n (cf.u _ hu) hn (cf.t _ ht)
  rw [HmacEnc.update, h.1]
  dsimp only
  rw [if_pos (by rw [spCase_eq, ha]; rfl), e, bind_ok]
  exact ⟨_, rfl, h.1, by rw [setCtx_same]; exact i⟩

theorem hmac_feed (l : List HmacEnc.Call) : ∀ (k m : List Byte) (o : HmacEnc), HObj K k m o →
    (∀ x ∈ l, hmacUpdateOK a x) → okTot a (blockBytes a + m.length + (hmacInputs l).length) →
    ∀ r, ∃ o', o.calls (l ++ r) = o'.calls r ∧ HObj K k (m ++ hmacInputs l) o' := by
  induction l with
  | nil => intro k m o h _ _ r; exact ⟨o, rfl, by simpa [hmacInputs] using h⟩
  | cons x l ih =>
    intro k m o h hx ht r
    have hx0 := hx x (List.mem_cons_self ..)
    have hx' := fun z hz => hx z (List.mem_cons_of_mem _ hz)
    have hin : hmacInputs (x :: l) = hmacInputOf x ++ hmacInputs l := by simp [hmacInputs]
    rw [hin, List.length_append] at ht
    have key : ∀ y n, okUpd a n → n ≤ y.length → y.take n = hmacInputOf x →
        ∃ o', (o.update y n >>= fun o => o.calls (l ++ r)) = o'.calls r ∧
          HObj K k (m ++ hmacInputs (x :: l)) o' := by
      intro y n hu hn e
      have hl : (hmacInputOf x).length = n := by rw [← e, List.length_take]; omega
      obtain ⟨o1, e1, h1⟩ := encUpdate_ok ha K cf k m o h y n hu hn (okTot_mono a _ _ (by omega) ht)
      rw [e] at h1
      obtain ⟨o2, e2, h2⟩ := ih k _ o1 h1 hx' (by rw [List.length_append]; exact okTot_mono a _ _ (by omega) ht) r
      exact ⟨o2, by rw [e1, bind_ok, e2], by rw [hin, ← List.append_assoc]; exact h2⟩
    cases x with
    | update y => exact key y y.length hx0 (Nat.le_refl _) List.take_length
    | updateC mem =>
      obtain ⟨q1, q2, q3⟩ := strlen_take mem hx0.1
      obtain ⟨o', e', h'⟩ := key mem _ hx0.2 q2 q3
      refine ⟨o', ?_, h'⟩
      rw [List.cons_append, HmacEnc.calls, HmacEnc.updateC, q1]
      exact e'
    | updateS s => exact key (s ++ [0#8]) s.length hx0 (by simp) (List.take_left' rfl)
    | updateSd ord s =>
      obtain ⟨rfl, hx1⟩ := hx0
      exact key (s ++ [0#8]) s.length hx1 (by simp) (List.take_left' rfl)
    | reset =>
      obtain ⟨o2, e2, h2⟩ := ih k m o h hx' (okTot_mono a _ _ (by omega) ht) r
      exact ⟨o2, e2, by rw [hin]; exact h2⟩
    | getDigest _ => exact absurd hx0 (by simp [hmacUpdateOK])

end

/-- **C50, exact; C63, exact.** Construction with a key in any form, calls of `update` of any kind mixed with calls
of `reset`, then `get_digest`: the MAC, with the key cut to the block size, of all bytes passed to `update` since
construction.  The result does not depend on the memory's contents before construction, in particular not on
whether `cur_alg` happened to be the algorithm chosen. -/
theorem C50_exact (a : Alg) (ha : isShake a = false) (g : HmacEnc) (hg : hmacGarbageOK g) (k : KeyArg) (hk : k.ok)
    (l : List HmacEnc.Call) (hl : ∀ x ∈ l, hmacUpdateOK a x) (ht : okTot a (blockBytes a + (hmacInputs l).length))
    (st : HmacEnc.Stack) (hst : hmacStackOK a st) :
    ∃ o, (k.construct g a >>= fun o => o.calls (l ++ [.getDigest st])) = .ok (o,
      [some (hmacShort (libHash a 0) (blockBytes a) (k.key.take (blockBytes a)) (hmacInputs l))]) := by
  obtain ⟨K, cf⟩ := exists_ok0 a
  have hd := cf.ds
  obtain ⟨h1, h2, h3⟩ := hmac_sizes a ha
  obtain ⟨o, e, h⟩ := construct_ok ha K cf g hg k hk
  obtain ⟨o', e', h'⟩ := hmac_feed ha K cf l _ _ o h hl (by simpa using ht) [.getDigest st]
  rw [List.nil_append] at h'
  obtain ⟨c3, e3, _⟩ := digest_ok K (blockBytes a) _ _ (o'.ctx a) h'.2 st.mid (st.inner a) (cf.wf _ hst.2)
    (by rw [hst.1]; omega) ((List.range a.digestSize).map st.out)
    (by rw [List.length_map, List.length_range, digestSize_eq a ha, hd]; exact Nat.le_refl _)
    (cf.t _ ht) (by rw [hd]; exact cf.t _ h3) (cf.u _ h1) (by rw [hd]; exact cf.u _ h2)
  rw [List.drop_of_length_le (by rw [List.length_map, List.length_range, digestSize_eq a ha, hd]; exact Nat.le_refl _),
    List.append_nil, hd] at e3
  rw [e, bind_ok, e']
  simp only [HmacEnc.calls, HmacEnc.getDigest]
  rw [h'.1]
  dsimp only
  rw [if_pos (by rw [spCase_eq, ha]; rfl), blockSize_eq]
  rw [digestSize_eq a ha] at e3 ⊢
  rw [e3]
  exact ⟨_, rfl⟩

/-- **C50** (partial: keys up to the block size, C33; messages that need no second padding block, C18-C20).
HMAC of the standard. -/
theorem C50_partial (a : Alg) (ha : isShake a = false) (g : HmacEnc) (hg : hmacGarbageOK g) (k : KeyArg) (hk : k.ok)
    (hkl : k.key.length ≤ blockBytes a)
    (l : List HmacEnc.Call) (hl : ∀ x ∈ l, hmacUpdateOK a x)
    (ht : okTot a (blockBytes a + (hmacInputs l).length)) (h1 : onePadBlock a (hmacInputs l).length)
    (st : HmacEnc.Stack) (hst : hmacStackOK a st) :
    ∃ o, (k.construct g a >>= fun o => o.calls (l ++ [.getDigest st])) = .ok (o,
      [some (hmac (stdHash a 0) (blockBytes a) k.key (hmacInputs l))]) := by
  obtain ⟨o, e⟩ := C50_exact a ha g hg k hk l hl ht st hst
  refine ⟨o, ?_⟩
  rw [e, List.take_of_length_le hkl, hmac, if_neg (by omega), hmac_std a ha _ _ hkl h1]

theorem pgfeHmac_fixed (a : Alg) (ha : isShake a = false) (g : HmacCtx.Mem (a.impl 0)) (k : List Byte) (n : Nat)
    (d : List Byte) (l : Nat) (o : List Byte) :
    pgfeHmac a g k n d l o = HmacCtx.oneShot (a.impl 0) a.blockSize a.digestSize g k n d l o := by
  cases a <;> first | exact absurd ha (by decide) | (unfold pgfeHmac; rfl)

/-- **C50.** ... which is what `pgfe_hmac` computes for the same algorithm, key and message. -/
theorem C50_pgfe (a : Alg) (ha : isShake a = false) (g : HmacEnc) (hg : hmacGarbageOK g) (k : KeyArg) (hk : k.ok)
    (l : List HmacEnc.Call) (hl : ∀ x ∈ l, hmacUpdateOK a x) (ht : okTot a (blockBytes a + (hmacInputs l).length))
    (hu : okUpd a (hmacInputs l).length)
    (st : HmacEnc.Stack) (hst : hmacStackOK a st) (mem : HmacCtx.Mem (a.impl 0)) (hmem : hmacMemOK a mem) :
    ∃ o mac, (k.construct g a >>= fun o => o.calls (l ++ [.getDigest st])) = .ok (o, [some mac]) ∧
      pgfeHmac a mem k.key k.key.length (hmacInputs l) (hmacInputs l).length (List.replicate a.digestSize 0#8) = .ok mac := by
  obtain ⟨o, e⟩ := C50_exact a ha g hg k hk l hl ht st hst
  refine ⟨o, _, e, ?_⟩
  have h := C33_oneShot_exact a ha mem hmem k.key k.key.length (Nat.le_refl _) (hmacInputs l) (hmacInputs l).length
    (Nat.le_refl _) hu ht (List.replicate a.digestSize 0#8) (by rw [List.length_replicate, digestSize_eq a ha]; exact Nat.le_refl _)
  rw [List.drop_of_length_le (by rw [List.length_replicate, digestSize_eq a ha]; exact Nat.le_refl _), List.append_nil,
    List.take_length, List.take_length] at h
  rw [pgfeHmac_fixed a ha, h]

theorem shake_calls (a : Alg) (ha : isShake a = true) (o : HmacEnc) (hc : o.curAlg = some a) (ho : o.output = none)
    (l : List HmacEnc.Call) : ∀ r, o.calls l = .ok r → ∀ x ∈ r.2, x = none := by
  have hu : ∀ y n, o.update y n = .ok o := by
    intro y n
    rw [HmacEnc.update, hc]
    dsimp only
    rw [if_neg (by rw [spCase_eq, ha]; decide)]
  induction l with
  | nil => intro r e; rw [HmacEnc.calls] at e; cases e; intro x hx; cases hx
  | cons x l ih =>
    intro r e
    cases x with
    | update y => rw [HmacEnc.calls, hu, bind_ok] at e; exact ih r e
    | updateC y =>
      rw [HmacEnc.calls, HmacEnc.updateC] at e
      cases hs : strlen y with
      | error _ => rw [hs] at e; cases e
      | ok n => rw [hs, bind_ok, hu, bind_ok] at e; exact ih r e
    | updateS y => rw [HmacEnc.calls, HmacEnc.updateS, hu, bind_ok] at e; exact ih r e
    | updateSd ord y =>
      rw [HmacEnc.calls, HmacEnc.updateSd] at e
      cases hs : sdArgs ord y with
      | error _ => rw [hs] at e; cases e
      | ok n => rw [hs, bind_ok, hu, bind_ok] at e; exact ih r e
    | reset => exact ih r e
    | getDigest g =>
      rw [HmacEnc.calls, HmacEnc.getDigest, hc] at e
      dsimp only at e
      rw [if_neg (by rw [spCase_eq, ha]; decide), bind_ok] at e
      dsimp only at e
      cases hl : o.calls l with
      | error _ => rw [hl] at e; cases e
      | ok s =>
        rw [hl, bind_ok] at e
        cases e
        intro x hx
        rcases List.mem_cons.mp hx with h | h
        · rw [h, ho]
        · exact ih s hl x h

/-- **C50.** For the SHAKE algorithms `get_digest` returns the null pointer, in every history. -/
theorem C50_shake (a : Alg) (ha : isShake a = true) (g : HmacEnc) (k : KeyArg) (hk : k.ok) (l : List HmacEnc.Call)
    (o : HmacEnc) (outs : List (Option (List Byte)))
    (h : (k.construct g a >>= fun o => o.calls l) = .ok (o, outs)) : ∀ x ∈ outs, x = none := by
  have hsel : ∃ o, HmacEnc.selectAlgorithm a { g with output := none } = .ok o ∧ o.curAlg = some a ∧ o.output = none := by
    rw [HmacEnc.selectAlgorithm]
    by_cases hc : g.curAlg = some a
    · rw [if_pos hc]; exact ⟨_, rfl, hc, rfl⟩
    · rw [if_neg hc, HmacEnc.afterChangeAlg]
      dsimp only
      rw [if_neg (by rw [spCase_eq, ha]; decide)]
      exact ⟨_, rfl, rfl, rfl⟩
  obtain ⟨o1, e1, c1, n1⟩ := hsel
  have hsk : ∀ y n, o1.setKey y n = .ok o1 := by
    intro y n
    rw [HmacEnc.setKey, c1]
    dsimp only
    rw [if_neg (by rw [spCase_eq, ha]; decide)]
  have e2 : k.construct g a = .ok o1 := by
    cases k with
    | bytes seq n => rw [KeyArg.construct, HmacEnc.construct, e1, bind_ok, hsk]
    | cstr mem => rw [KeyArg.construct, HmacEnc.constructC, e1, bind_ok, (strlen_take mem hk).1, bind_ok, hsk]
    | str s => rw [KeyArg.construct, HmacEnc.constructS, e1, bind_ok, hsk]
    | sd ord s =>
      cases (show ord = .leftFirst from hk)
      rw [KeyArg.construct, HmacEnc.constructSd, e1, bind_ok, sdArgs, bind_ok, hsk]
  rw [e2, bind_ok] at h
  exact shake_calls a ha o1 c1 n1 l _ h

/-! ## C63 -/

/-- **C63, violation.** `reset()` does not start a new message: the MAC returned after it covers the updates before
and after it. -/
theorem C63_violation (a : Alg) (ha : isShake a = false) (g : HmacEnc) (hg : hmacGarbageOK g) (k : KeyArg) (hk : k.ok)
    (l₁ l₂ : List HmacEnc.Call) (hl₁ : ∀ x ∈ l₁, hmacUpdateOK a x) (hl₂ : ∀ x ∈ l₂, hmacUpdateOK a x)
    (ht : okTot a (blockBytes a + ((hmacInputs l₁).length + (hmacInputs l₂).length)))
    (st : HmacEnc.Stack) (hst : hmacStackOK a st) :
    ∃ o, (k.construct g a >>= fun o => o.calls ((l₁ ++ .reset :: l₂) ++ [.getDigest st])) = .ok (o,
      [some (hmacShort (libHash a 0) (blockBytes a) (k.key.take (blockBytes a)) (hmacInputs l₁ ++ hmacInputs l₂))]) := by
  have e : hmacInputs (l₁ ++ .reset :: l₂) = hmacInputs l₁ ++ hmacInputs l₂ := by
    simp [hmacInputs, hmacInputOf]
  rw [← e]
  refine C50_exact a ha g hg k hk _ ?_ (by rw [e, List.length_append]; exact ht) st hst
  intro x hx
  rcases List.mem_append.mp hx with hx | hx
  · exact hl₁ x hx
  · rcases List.mem_cons.mp hx with rfl | hx
    · trivial
    · exact hl₂ x hx

/-! ## C64 -/

/-- **C64** (partial: when the indeterminate `cur_alg` was not already the algorithm chosen). `digest_size()` and
`block_size()` of an `HMACEncoder`. -/
theorem C64_hmac_partial (a : Alg) (ha : isShake a = false) (g : HmacEnc) (hg : hmacGarbageOK g) (hc : g.curAlg ≠ some a)
    (key : List Byte) (n : Nat) (hn : n ≤ key.length) :
    ∃ o, HmacEnc.construct g a key n = .ok o ∧ o.curAlg = some a ∧ o.digsz = outSize a 0 ∧ o.blocksz = blockBytes a := by
  obtain ⟨K, cf⟩ := exists_ok0 a
  obtain ⟨h1, h2, h3⟩ := hmac_sizes a ha
  have hg' := hg a ha
  obtain ⟨c, e, i⟩ := init_ok K (blockBytes a) (g.ctx a) ⟨cf.wf _ hg'.1, hg'.2⟩ (cf.u _ h1)
    (K.tot_mono _ _ (by omega) (cf.t _ h3))
  have hs : HmacEnc.selectAlgorithm a { g with output := none } = .ok
      { HmacEnc.setCtx { g with output := none, curAlg := some a } a c with digsz := a.digestSize, blocksz := a.blockSize } := by
    rw [HmacEnc.selectAlgorithm, if_neg hc, HmacEnc.afterChangeAlg]
    dsimp only
    rw [if_pos (by rw [spCase_eq, ha]; rfl), blockSize_eq, e, bind_ok]
  obtain ⟨o, e', h', d', b'⟩ := encSetKey_ok ha K cf
    { HmacEnc.setCtx { g with output := none, curAlg := some a } a c with digsz := a.digestSize, blocksz := a.blockSize }
    rfl (by
      show CtxOK K (blockBytes a) ((HmacEnc.setCtx _ a c).ctx a)
      rw [setCtx_same]
      exact ⟨K.wf _ _ (K.safe _ _ i.inv), i.il, by rw [i.op, xorPad_length _ _ _ i.kl]⟩) key n hn
  refine ⟨o, by rw [HmacEnc.construct, hs, bind_ok, e'], h'.1, ?_, ?_⟩
  · rw [d', ← digestSize_eq a ha]
  · rw [b', ← blockSize_eq]

/-- **C64, violation.** If the indeterminate value of `cur_alg` is the algorithm chosen, `digest_size()` and
`block_size()` stay indeterminate. -/
theorem C64_violation (a : Alg) (ha : isShake a = false) (g : HmacEnc) (hg : hmacGarbageOK g) (hc : g.curAlg = some a)
    (key : List Byte) (n : Nat) (hn : n ≤ key.length) :
    ∃ o, HmacEnc.construct g a key n = .ok o ∧ o.digsz = g.digsz ∧ o.blocksz = g.blocksz := by
  obtain ⟨K, cf⟩ := exists_ok0 a
  have hg' := hg a ha
  obtain ⟨o, e', h', d', b'⟩ := encSetKey_ok ha K cf { g with output := none } hc ⟨cf.wf _ hg'.1, hg'.2⟩ key n hn
  refine ⟨o, ?_, d', b'⟩
  rw [HmacEnc.construct, HmacEnc.selectAlgorithm, if_pos hc, bind_ok, e']

/-! ## Concrete cases -/

/-- Some memory contents; `cur_alg` happens to be SHA-1. -/
def someHmacObj : HmacEnc :=
  ⟨some .SHA1, fun a => ⟨someHeap a, List.replicate (blockBytes a) 1#8, List.replicate (blockBytes a) 2#8⟩, 77, 78, none⟩

theorem someHmacObj_ok : hmacGarbageOK someHmacObj :=
  fun a _ => ⟨someHeap_ok a, List.length_replicate, List.length_replicate⟩

def someHmacStack : HmacEnc.Stack := ⟨fun _ => 9#8, List.replicate 21 8#8, someHeap⟩

theorem someHmacStack_ok : hmacStackOK .SHA1 someHmacStack := ⟨rfl, someHeap_ok _⟩

/-- RFC 2202 test case 2, with the key as a C string and three kinds of update. -/
theorem C50_example : ∃ o,
    (KeyArg.construct someHmacObj .SHA1 (.cstr (Pgfe.str "Jefe" ++ [0#8])) >>= fun o => o.calls
      ([.update (Pgfe.str "what do "), .updateC (Pgfe.str "ya want " ++ [0#8, 7#8]), .updateS (Pgfe.str "for nothing?")] ++
        [.getDigest someHmacStack])) = .ok (o, [some jefeMac]) := by
  obtain ⟨o, e⟩ := C50_partial .SHA1 rfl someHmacObj someHmacObj_ok (.cstr (Pgfe.str "Jefe" ++ [0#8])) (by show _ ∈ _; decide)
    (by decide) [.update (Pgfe.str "what do "), .updateC (Pgfe.str "ya want " ++ [0#8, 7#8]), .updateS (Pgfe.str "for nothing?")]
    (by
      intro x hx
      simp only [List.mem_cons, List.not_mem_nil, or_false] at hx
      rcases hx with rfl | rfl | rfl
      · show List.length _ < 2 ^ 31; decide
      · exact ⟨by decide, by show List.length _ < 2 ^ 31; decide⟩
      · show List.length _ < 2 ^ 31; decide)
    (by show 8 * _ < 2 ^ 64; decide) (by show _ % 64 < 56; decide) someHmacStack someHmacStack_ok
  refine ⟨o, ?_⟩
  rw [e, show KeyArg.key (.cstr (Pgfe.str "Jefe" ++ [0#8])) = Pgfe.str "Jefe" by decide,
    show hmacInputs [.update (Pgfe.str "what do "), .updateC (Pgfe.str "ya want " ++ [0#8, 7#8]), .updateS (Pgfe.str "for nothing?")]
      = jefeMsg by decide, jefeMac_eq]

/-- **C63, violation**, concretely: "what do ya want ", reset, "for nothing?" gives the MAC of the whole. -/
theorem C63_example : ∃ o,
    (KeyArg.construct someHmacObj .SHA1 (.str (Pgfe.str "Jefe")) >>= fun o => o.calls
      (([.update (Pgfe.str "what do ya want ")] ++ .reset :: [.update (Pgfe.str "for nothing?")]) ++
        [.getDigest someHmacStack])) = .ok (o, [some jefeMac]) := by
  obtain ⟨o, e⟩ := C63_violation .SHA1 rfl someHmacObj someHmacObj_ok (.str (Pgfe.str "Jefe")) trivial
    [.update (Pgfe.str "what do ya want ")] [.update (Pgfe.str "for nothing?")]
    (by intro x hx; simp only [List.mem_cons, List.not_mem_nil, or_false] at hx; subst hx; show List.length _ < 2 ^ 31; decide)
    (by intro x hx; simp only [List.mem_cons, List.not_mem_nil, or_false] at hx; subst hx; show List.length _ < 2 ^ 31; decide)
    (by show 8 * _ < 2 ^ 64; decide) someHmacStack someHmacStack_ok
  refine ⟨o, ?_⟩
  rw [e, hmac_std .SHA1 rfl _ _ (by decide) (by show _ % 64 < 56; decide)]
  have h := jefeMac_eq
  rw [hmac, if_neg (by decide)] at h
  rw [show (KeyArg.key (.str (Pgfe.str "Jefe"))).take (blockBytes .SHA1) = Pgfe.str "Jefe" by decide,
    show hmacInputs [.update (Pgfe.str "what do ya want ")] ++ hmacInputs [.update (Pgfe.str "for nothing?")] = jefeMsg by decide, h]

end Pgfe.Props
