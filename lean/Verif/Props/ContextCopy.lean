import Verif.Spec.ContextCopy
import Verif.Props.Hmac
import Verif.Props.HmacAgainViolation
import Verif.Props.AgainViolation
/-!
# C93: contexts are values - a copy made by assignment is an independent computation
-/
namespace Pgfe.Props
open Pgfe.Model Pgfe.Spec Pgfe.Spec.Again Pgfe.Spec.Copy Pgfe.Proofs Pgfe.Proofs.Hash Pgfe.Proofs.Hmac

theorem setVar_all {α : Type} {P : Nat → α → Prop} (mem : Nat → α) (i : Nat) (c : α) (hi : P i c)
    (h : ∀ j, j ≠ i → P j (mem j)) (j : Nat) : P j (setVar mem i c j) := by
  by_cases hj : j = i
  · subst hj; rw [setVar, if_pos rfl]; exact hi
  · rw [setVar, if_neg hj]; exact h j hj

/-- What is known of a variable's memory. -/
def Holds {I : HashImpl} {H : List Byte → List Byte} (K : HashOK I H) (v : Option (List Byte)) (c : I.Ctx) : Prop :=
  K.WF c ∧ ∀ m, v = some m → K.Inv m c ∧ K.okTot m.length

theorem holds_inv {I : HashImpl} {H : List Byte → List Byte} (K : HashOK I H) (m : List Byte) (c : I.Ctx)
    (h : K.Inv m c) (ht : K.okTot m.length) : Holds K (some m) c :=
  ⟨K.wf _ _ (K.safe _ _ h), fun m' e => by cases e; exact ⟨h, ht⟩⟩

theorem msgs_set (s : Msgs) (i j : Nat) (v : Option (List Byte)) : s.set i v j = if j = i then v else s j := rfl

theorem means_ok {a : Alg} {bits : Nat} (K : HashOK (a.impl bits) (libHash a (bits / 8)))
    (cf : Conf K (memOK a bits) (outSize a bits) (okUpd a) (okTot a)) {s : Msgs}
    {p : List HashImpl.Step} {os : List (List Byte)} (hp : Means a bits s p os) :
    ∀ mem : Nat → (a.impl bits).Ctx, (∀ j, Holds K (s j) (mem j)) → (a.impl bits).program mem p = .ok os := by
  induction hp with
  | done s => intro mem _; rfl
  | init s i p os _ ih =>
    intro mem hm
    obtain ⟨c, e, hi⟩ := K.init_ok (mem i) (hm i).1
    rw [HashImpl.program, e, bind_ok]
    refine ih _ (setVar_all mem i c ?_ fun j hj => ?_)
    · rw [msgs_set, if_pos rfl]; exact holds_inv K _ _ hi K.tot_zero
    · rw [msgs_set, if_neg hj]; exact hm j
  | update s i m x p os hs hu ht _ ih =>
    intro mem hm
    obtain ⟨hi, _⟩ := (hm i).2 m hs
    obtain ⟨c, e, hi'⟩ := K.update_ok m (mem i) x x.length hi (cf.u _ hu) (Nat.le_refl _) (cf.t _ ht)
    rw [List.take_length] at hi'
    rw [HashImpl.program, e, bind_ok]
    refine ih _ (setVar_all mem i c ?_ fun j hj => ?_)
    · rw [msgs_set, if_pos rfl]
      exact holds_inv K _ _ hi' (by rw [List.length_append]; exact cf.t _ ht)
    · rw [msgs_set, if_neg hj]; exact hm j
  | digest s i m out p os hs ho _ ih =>
    intro mem hm
    obtain ⟨hi, htot⟩ := (hm i).2 m hs
    obtain ⟨c, e, hi'⟩ := K.digest_ok m (mem i) out hi htot (by rw [cf.ds]; exact ho)
    rw [HashImpl.program, e, bind_ok]
    dsimp only
    rw [ih (setVar mem i c) (setVar_all mem i c ?_ fun j hj => ?_), bind_ok, put, K.len]
    · rw [msgs_set, if_pos rfl]; exact ⟨K.wf _ _ hi', fun m e => absurd e (by simp)⟩
    · rw [msgs_set, if_neg hj]; exact hm j
  | assign s d src p os _ ih =>
    intro mem hm
    rw [HashImpl.program]
    refine ih _ (setVar_all mem d _ ?_ fun j hj => ?_)
    · rw [msgs_set, if_pos rfl]; exact hm src
    · rw [msgs_set, if_neg hj]; exact hm j

/-- **C93.** For each of the 16 algorithms, every program that works with any number of contexts of the algorithm,
calls init, update and digest on them in any order and copies them by assignment: if it uses each context as
documented, then no call leaves the defined behaviour, and every digest is the hash of the message that was given
to *that* context - the part given before it was copied from another one included, what was given to the original
after the copy not. -/
theorem C93 (a : Alg) (bits : Nat) (hb : bits < 2 ^ 32) (mem : Nat → (a.impl bits).Ctx)
    (hm : ∀ i, memOK a bits (mem i)) (p : List HashImpl.Step) (os : List (List Byte))
    (hp : Means a bits (fun _ => none) p os) :
    (a.impl bits).program mem p = .ok os := by
  obtain ⟨K, cf⟩ := exists_ok a bits hb
  exact means_ok K cf hp mem fun j => ⟨cf.wf _ (hm j), fun m e => absurd e (by simp)⟩

/-! ## HMAC -/

/-- What is known of an HMAC variable's memory. -/
def MacHolds {I : HashImpl} {H : List Byte → List Byte} (K : HashOK I H) (bs : Nat)
    (v : Option (List Byte × List Byte)) (c : HmacCtx I) : Prop :=
  CtxOK K bs c ∧ ∀ k m, v = some (k, m) → HInv K bs (k.take bs) m c ∧ K.okTot (bs + m.length)

theorem hinv_ctx {I : HashImpl} {H : List Byte → List Byte} (K : HashOK I H) (bs : Nat) (k m : List Byte)
    (c : HmacCtx I) (h : HInv K bs k m c) : CtxOK K bs c :=
  ⟨K.wf _ _ (K.safe _ _ h.inv), h.il, by rw [h.op, xorPad_length _ _ _ h.kl]⟩

theorem macHolds_inv {I : HashImpl} {H : List Byte → List Byte} (K : HashOK I H) (bs : Nat) (k m : List Byte)
    (c : HmacCtx I) (h : HInv K bs (k.take bs) m c) (ht : K.okTot (bs + m.length)) :
    MacHolds K bs (some (k, m)) c :=
  ⟨hinv_ctx K bs _ _ c h, fun k' m' e => by cases e; exact ⟨h, ht⟩⟩

theorem macs_set (s : Macs) (i j : Nat) (v : Option (List Byte × List Byte)) :
    s.set i v j = if j = i then v else s j := rfl

theorem macMeans_ok {a : Alg} (ha : isShake a = false) (K : HashOK (a.impl 0) (libHash a 0))
    (cf : Conf K (memOK a 0) (outSize a 0) (okUpd a) (okTot a)) {s : Macs}
    {p : List (HmacCtx.Step (a.impl 0))} {os : List (List Byte)} (hp : MacMeans a s p os) :
    ∀ mem : Nat → HmacCtx (a.impl 0), (∀ j, MacHolds K (blockBytes a) (s j) (mem j)) →
      HmacCtx.program (a.impl 0) (blockBytes a) (outSize a 0) mem p = .ok os := by
  obtain ⟨h1, h2, h3⟩ := hmac_sizes a ha
  have hd := cf.ds
  have ht0 : K.okTot (blockBytes a) := K.tot_mono _ _ (by omega) (cf.t _ h3)
  induction hp with
  | done s => intro mem _; rfl
  | init s i p os _ ih =>
    intro mem hm
    obtain ⟨c, e, hi⟩ := init_ok K (blockBytes a) (mem i) (hm i).1 (cf.u _ h1) ht0
    rw [HmacCtx.program, e, bind_ok]
    refine ih _ (setVar_all mem i c ?_ fun j hj => ?_)
    · rw [macs_set, if_pos rfl]
      exact macHolds_inv K _ _ _ _ (by rw [List.take_nil]; exact hi) ht0
    · rw [macs_set, if_neg hj]; exact hm j
  | setKey s i k p os _ ih =>
    intro mem hm
    obtain ⟨c, e, hi⟩ := setKey_ok K (blockBytes a) (mem i) (hm i).1 (cf.u _ h1) ht0 k k.length (Nat.le_refl _)
    rw [List.take_length] at hi
    rw [HmacCtx.program, e, bind_ok]
    refine ih _ (setVar_all mem i c ?_ fun j hj => ?_)
    · rw [macs_set, if_pos rfl]
      exact macHolds_inv K _ _ _ _ hi ht0
    · rw [macs_set, if_neg hj]; exact hm j
  | update s i k m x p os hs hu ht _ ih =>
    intro mem hm
    obtain ⟨hi, _⟩ := (hm i).2 k m hs
    obtain ⟨c, e, hi'⟩ := update_ok K (blockBytes a) _ m (mem i) hi x x.length (cf.u _ hu) (Nat.le_refl _) (cf.t _ ht)
    rw [List.take_length] at hi'
    rw [HmacCtx.program, e, bind_ok]
    refine ih _ (setVar_all mem i c ?_ fun j hj => ?_)
    · rw [macs_set, if_pos rfl]
      exact macHolds_inv K _ _ _ _ hi' (by rw [List.length_append, ← Nat.add_assoc]; exact cf.t _ ht)
    · rw [macs_set, if_neg hj]; exact hm j
  | digest s i k m mid inner out p os hs hml hin ho _ ih =>
    intro mem hm
    obtain ⟨hi, htot⟩ := (hm i).2 k m hs
    obtain ⟨c, e, hi'⟩ := digest_ok K (blockBytes a) _ m (mem i) hi mid inner (cf.wf _ hin) (by omega) out (by omega)
      htot (by rw [hd]; exact cf.t _ h3) (cf.u _ h1) (by rw [hd]; exact cf.u _ h2)
    rw [hd] at e
    rw [HmacCtx.program, e, bind_ok]
    dsimp only
    rw [ih (setVar mem i c) (setVar_all mem i c ?_ fun j hj => ?_), bind_ok, put,
      show (hmacShort (libHash a 0) (blockBytes a) (k.take (blockBytes a)) m).length = outSize a 0 from
        (by rw [hmacShort, K.len, hd])]
    · rw [macs_set, if_pos rfl]; exact ⟨hi', fun k m e => absurd e (by simp)⟩
    · rw [macs_set, if_neg hj]; exact hm j
  | assign s d src p os _ ih =>
    intro mem hm
    rw [HmacCtx.program]
    refine ih _ (setVar_all mem d _ ?_ fun j hj => ?_)
    · rw [macs_set, if_pos rfl]; exact hm src
    · rw [macs_set, if_neg hj]; exact hm j

/-- **C93, HMAC.** The same for the HMAC contexts of the twelve algorithms with a fixed output length: in particular
a context that was keyed once can be copied and used for any number of messages. -/
theorem C93_hmac (a : Alg) (ha : isShake a = false) (mem : Nat → HmacCtx (a.impl 0))
    (hm : ∀ i, hmacCtxOK a (mem i)) (p : List (HmacCtx.Step (a.impl 0))) (os : List (List Byte))
    (hp : MacMeans a (fun _ => none) p os) :
    HmacCtx.program (a.impl 0) a.blockSize a.digestSize mem p = .ok os := by
  obtain ⟨K, cf⟩ := exists_ok0 a
  rw [blockSize_eq, digestSize_eq a ha]
  exact macMeans_ok ha K cf hp mem fun j =>
    ⟨⟨cf.wf _ (hm j).1, (hm j).2⟩, fun k m e => absurd e (by simp)⟩

/-! ## Examples -/

/-- Hash a common prefix once, and then three messages that start with it; variable 0 is the prefix. -/
def forked : List HashImpl.Step :=
  [.init 0, .update 0 (str "header"), .assign 1 0, .update 1 (str "-one"), .assign 2 1, .digest 1 (List.replicate 64 0#8),
   .update 2 (str "-two"), .digest 2 (List.replicate 64 0#8), .update 0 (str "-0"), .digest 0 (List.replicate 64 0#8)]

/-- The hypotheses of `C93` are met, for every algorithm: the three messages are "header-one", "header-one-two",
"header-0". -/
theorem C93_example (a : Alg) : (a.impl 256).program (fun _ => freshMem a) forked
    = .ok [put (libHash a 32 (str "header-one")) (List.replicate 64 0#8),
        put (libHash a 32 (str "header-one-two")) (List.replicate 64 0#8),
        put (libHash a 32 (str "header-0")) (List.replicate 64 0#8)] := by
  have hu : ∀ n, 0 < n → n < 100 → okUpd a n := by
    intro n h0 h1
    cases a <;> (simp only [okUpd]; omega)
  have ht : ∀ n, n < 100 → okTot a n := by
    intro n h1
    cases a <;> first | exact trivial | (simp only [okTot]; omega)
  have ho : outSize a 256 ≤ (List.replicate 64 0#8).length := by cases a <;> decide
  refine C93 a 256 (by decide) _ (fun _ => freshMem_ok a) _ _ ?_
  refine .init _ _ _ _ (.update _ _ [] _ _ _ rfl (hu _ (by decide) (by decide)) (ht _ (by decide)) ?_)
  refine .assign _ _ _ _ _ (.update _ _ (str "header") _ _ _ rfl (hu _ (by decide) (by decide)) (ht _ (by decide)) ?_)
  refine .assign _ _ _ _ _ (.digest _ _ (str "header-one") _ _ _ (by decide) ho ?_)
  refine .update _ _ (str "header-one") _ _ _ (by decide) (hu _ (by decide) (by decide)) (ht _ (by decide)) ?_
  refine .digest _ _ (str "header-one-two") _ _ _ (by decide) ho ?_
  refine .update _ _ (str "header") _ _ _ (by decide) (hu _ (by decide) (by decide)) (ht _ (by decide)) ?_
  exact .digest _ _ (str "header-0") _ _ _ (by decide) ho (.done _)

/-- The key is set once; two messages. -/
def keyedOnce (a : Alg) : List (HmacCtx.Step (a.impl 0)) :=
  [.setKey 0 (str "Jefe"), .assign 1 0, .update 1 (str "one"),
   .digest 1 (freshMac a).mid (freshMac a).inner (List.replicate 64 0#8), .assign 1 0, .update 1 (str "two"),
   .digest 1 (freshMac a).mid (freshMac a).inner (List.replicate 64 0#8)]

theorem C93_hmac_example (a : Alg) (ha : isShake a = false) :
    HmacCtx.program (a.impl 0) a.blockSize a.digestSize (fun _ => (freshMac a).ctx) (keyedOnce a)
    = .ok [put (hmacShort (libHash a 0) (blockBytes a) ((str "Jefe").take (blockBytes a)) (str "one")) (List.replicate 64 0#8),
        put (hmacShort (libHash a 0) (blockBytes a) ((str "Jefe").take (blockBytes a)) (str "two")) (List.replicate 64 0#8)] := by
  have hu : ∀ n, 0 < n → n < 100 → okUpd a n := by
    intro n h0 h1
    cases a <;> (simp only [okUpd]; omega)
  have ht : ∀ n, n < 1000 → okTot a n := by
    intro n h1
    cases a <;> first | exact trivial | (simp only [okTot]; omega)
  have ho : outSize a 0 ≤ (List.replicate 64 0#8).length := by cases a <;> decide
  have hb : blockBytes a + 0 + 3 < 1000 := by cases a <;> decide
  obtain ⟨m1, m2, m3⟩ := freshMac_ok a ha
  refine C93_hmac a ha _ (fun _ => m1) _ _ ?_
  refine .setKey _ _ _ _ _ (.assign _ _ _ _ _ ?_)
  refine .update _ _ (str "Jefe") [] _ _ _ rfl (hu _ (by decide) (by decide)) (ht _ hb) ?_
  refine .digest _ _ _ (str "one") _ _ _ _ _ rfl m2 m3 ho ?_
  refine .assign _ _ _ _ _ ?_
  refine .update _ _ (str "Jefe") [] _ _ _ rfl (hu _ (by decide) (by decide)) (ht _ hb) ?_
  exact .digest _ _ _ (str "two") _ _ _ _ _ rfl m2 m3 ho (.done _)

end Pgfe.Props
