import Verif.Props.HmacAgain
import Verif.Props.HmacEncoder
/-!
# C83 for the class `HMACEncoder`
-/
namespace Pgfe.Props
open Pgfe.Model Pgfe.Spec Pgfe.Spec.Again Pgfe.Proofs Pgfe.Proofs.Hash Pgfe.Proofs.Hmac

/-! ## Specification -/

/-- What a call on the object means for the context inside; `reset` means nothing (C63), and the array that
`get_digest` hands out has the size of the digest. -/
def macCallOf (a : Alg) : HmacEnc.Call → List (HmacCtx.MacCall (a.impl 0))
  | .update x => [.update x]
  | .getDigest st => [.digest st.mid (st.inner a) ((List.range a.digestSize).map st.out)]
  | _ => []

/-- Well-defined calls of `update(seq, length)`, `reset` and `get_digest`. -/
def encMacOK (a : Alg) : HmacEnc.Call → Prop
  | .update x => okUpd a x.length
  | .reset => True
  | .getDigest st => hmacStackOK a st
  | _ => False

/-! ## Proof -/

theorem wf_mem (a : Alg) : ∃ K : HashOK (a.impl 0) (libHash a 0),
    Conf K (memOK a 0) (outSize a 0) (okUpd a) (okTot a) ∧ ∀ g, K.WF g → memOK a 0 g := by
  by_cases hk : isKeccak a = true
  · obtain ⟨K, cf⟩ := exists_ok0 a
    refine ⟨K, cf, fun g _ => ?_⟩
    cases a <;> first | trivial | exact absurd hk (by decide)
  · cases a
    case MD5 => exact ⟨Pgfe.Proofs.Md5.hashOK, ⟨fun _ h => h, rfl, fun _ h => h, fun _ h => h⟩, fun _ h => h⟩
    case SHA1 => exact ⟨hashOK_sha1, ⟨fun _ h => h, rfl, fun _ h => h, fun _ h => h⟩, fun _ h => h⟩
    case SHA224 => exact ⟨hashOK_sha224, ⟨fun _ h => h, rfl, fun _ h => h, fun _ h => h⟩, fun _ h => h⟩
    case SHA256 => exact ⟨hashOK_sha256, ⟨fun _ h => h, rfl, fun _ h => h, fun _ h => h⟩, fun _ h => h⟩
    case SHA384 => exact ⟨hashOK_sha384, ⟨fun _ h => h, rfl, fun _ h => h, fun _ h => h⟩, fun _ h => h⟩
    case SHA512 => exact ⟨hashOK_sha512, ⟨fun _ h => h, rfl, fun _ h => h, fun _ h => h⟩, fun _ h => h⟩
    case SHA512_224 => exact ⟨hashOK_sha512_224, ⟨fun _ h => h, rfl, fun _ h => h, fun _ h => h⟩, fun _ h => h⟩
    case SHA512_256 => exact ⟨hashOK_sha512_256, ⟨fun _ h => h, rfl, fun _ h => h, fun _ h => h⟩, fun _ h => h⟩
    all_goals exact absurd rfl hk

theorem enc_outputs (a : Alg) (ha : isShake a = false) (l : List HmacEnc.Call) (hl : ∀ x ∈ l, encMacOK a x) :
    ∀ (o : HmacEnc) (c' : HmacCtx (a.impl 0)) (outs : List (List Byte)), o.curAlg = some a →
      HmacCtx.outputs (a.impl 0) a.blockSize a.digestSize (o.ctx a) (l.flatMap (macCallOf a)) = .ok (c', outs) →
      ∃ o', o.calls l = .ok (o', outs.map some) ∧ o'.curAlg = some a ∧ o'.ctx a = c' := by
  have hs : HmacEnc.spCase a = true := by rw [spCase_eq, ha]; rfl
  induction l with
  | nil =>
    intro o c' outs ho h
    rw [List.flatMap_nil, HmacCtx.outputs, Except.ok.injEq, Prod.mk.injEq] at h
    exact ⟨o, by rw [HmacEnc.calls, ← h.2]; rfl, ho, h.1⟩
  | cons x l ih =>
    intro o c' outs ho h
    have ih := ih (fun y hy => hl y (List.mem_cons_of_mem _ hy))
    have hx := hl x (List.mem_cons_self ..)
    rw [List.flatMap_cons] at h
    cases x with
    | update x =>
      rw [macCallOf, List.singleton_append, HmacCtx.outputs] at h
      rw [HmacEnc.calls, HmacEnc.update, ho]
      dsimp only
      rw [if_pos hs]
      generalize HmacCtx.update (a.impl 0) (o.ctx a) (some x) x.length = z at h ⊢
      cases z with
      | error e => rw [bind_err] at h; cases h
      | ok c1 =>
        rw [bind_ok] at h
        rw [bind_ok, bind_ok]
        exact ih (o.setCtx a c1) c' outs ho (by rw [setCtx_same]; exact h)
    | reset => exact ih o c' outs ho h
    | getDigest st =>
      rw [macCallOf, List.singleton_append, HmacCtx.outputs] at h
      rw [HmacEnc.calls, HmacEnc.getDigest, ho]
      dsimp only
      rw [if_pos hs]
      generalize HmacCtx.digest (a.impl 0) a.blockSize a.digestSize st.mid (st.inner a) (o.ctx a) _ = z at h ⊢
      cases z with
      | error e => rw [bind_err] at h; cases h
      | ok r =>
        rw [bind_ok] at h
        rw [bind_ok, bind_ok]
        cases hr : HmacCtx.outputs (a.impl 0) a.blockSize a.digestSize r.1 (l.flatMap (macCallOf a)) with
        | error e => rw [hr, bind_err] at h; cases h
        | ok s =>
          rw [hr, bind_ok, Except.ok.injEq, Prod.mk.injEq] at h
          obtain ⟨o', e, h1, h2⟩ := ih { HmacEnc.setCtx o a r.1 with output := some r.2 } s.1 s.2 ho (by
            show HmacCtx.outputs _ _ _ ((HmacEnc.setCtx o a r.1).ctx a) _ = _
            rw [setCtx_same]; exact hr)
          dsimp only
          rw [e, bind_ok]
          exact ⟨o', by rw [← h.2]; rfl, h1, by rw [h2]; exact h.1⟩
    | updateC _ => exact absurd hx (by simp [encMacOK])
    | updateS _ => exact absurd hx (by simp [encMacOK])
    | updateSd _ _ => exact absurd hx (by simp [encMacOK])

theorem macTotal_append {I : HashImpl} (l r : List (HmacCtx.MacCall I)) : macTotal (l ++ r) = macTotal l + macTotal r := by
  induction l with
  | nil => simp [macTotal]
  | cons x l ih =>
    cases x with
    | update x => show x.length + macTotal (l ++ r) = x.length + macTotal l + macTotal r; omega
    | digest => exact ih

theorem enc_total (a : Alg) (l : List HmacEnc.Call) (hl : ∀ x ∈ l, encMacOK a x) :
    macTotal (l.flatMap (macCallOf a)) = (hmacInputs l).length := by
  induction l with
  | nil => rfl
  | cons x l ih =>
    have hx := hl x (List.mem_cons_self ..)
    have ih := ih (fun y hy => hl y (List.mem_cons_of_mem _ hy))
    rw [List.flatMap_cons, macTotal_append, ih, show hmacInputs (x :: l) = hmacInputOf x ++ hmacInputs l by simp [hmacInputs],
      List.length_append]
    cases x with
    | update x => rfl
    | reset => rfl
    | getDigest _ => rfl
    | updateC _ => exact absurd hx (by simp [encMacOK])
    | updateS _ => exact absurd hx (by simp [encMacOK])
    | updateSd _ _ => exact absurd hx (by simp [encMacOK])

/-- **C83, HMACEncoder.** An object constructed in any memory, and then any sequence of `update`, `reset` and
`get_digest` calls: `get_digest` returns the answers of the context inside.

What is missing from the property as one would want it: see `C83_violation`. -/
theorem C83_encoder_partial (a : Alg) (ha : isShake a = false) (g : HmacEnc) (hg : hmacGarbageOK g) (key : List Byte)
    (l : List HmacEnc.Call) (hl : ∀ x ∈ l, encMacOK a x) (ht : okTot a (blockBytes a + (hmacInputs l).length)) :
    ∃ o, (HmacEnc.construct g a key key.length >>= fun o => o.calls l) = .ok (o,
      (macAnswers a (key.take (blockBytes a)) (l.flatMap (macCallOf a))).map some) := by
  obtain ⟨K, cf, hwf⟩ := wf_mem a
  obtain ⟨o, e, h1, h2⟩ := select_ok ha K cf g hg
  have hs : HmacEnc.spCase a = true := by rw [spCase_eq, ha]; rfl
  obtain ⟨c', h⟩ := C83_partial a ha (o.ctx a) ⟨hwf _ h2.1, h2.2⟩ key (l.flatMap (macCallOf a)) (by
      intro x hx
      obtain ⟨y, hy, hxy⟩ := List.mem_flatMap.1 hx
      have := hl y hy
      cases y with
      | update y => rw [macCallOf, List.mem_singleton] at hxy; subst hxy; exact this
      | getDigest st =>
        rw [macCallOf, List.mem_singleton] at hxy
        subst hxy
        exact ⟨this.1, this.2, by rw [List.length_map, List.length_range, digestSize_eq a ha]; exact Nat.le_refl _⟩
      | reset => cases hxy
      | updateC _ => exact absurd this (by simp [encMacOK])
      | updateS _ => exact absurd this (by simp [encMacOK])
      | updateSd _ _ => exact absurd this (by simp [encMacOK])) (by rw [enc_total a l hl]; exact ht)
  rw [HmacEnc.construct, e, bind_ok, HmacEnc.setKey, h1]
  dsimp only
  rw [if_pos hs]
  generalize HmacCtx.setKey (a.impl 0) a.blockSize (o.ctx a) key key.length = z at h ⊢
  cases z with
  | error e => rw [bind_err] at h; cases h
  | ok c =>
    rw [bind_ok] at h
    rw [bind_ok, bind_ok]
    obtain ⟨o', e', _⟩ := enc_outputs a ha l hl (o.setCtx a c) c' _ h1 (by rw [setCtx_same]; exact h)
    exact ⟨o', e'⟩

/-- The assumptions are met by RFC 2202 test case 2 with SHA-1 and two `get_digest` calls with a `reset` between
them. -/
theorem C83_encoder_example : ∃ o,
    (HmacEnc.construct someHmacObj .SHA1 (Pgfe.str "Jefe") 4 >>= fun o => o.calls
      [.update jefeMsg, .getDigest someHmacStack, .reset, .getDigest someHmacStack]) = .ok (o,
      (macAnswers .SHA1 (Pgfe.str "Jefe") [.update jefeMsg,
        .digest (List.replicate 21 8#8) (someHeap .SHA1) (List.replicate 20 9#8),
        .digest (List.replicate 21 8#8) (someHeap .SHA1) (List.replicate 20 9#8)]).map some) :=
  C83_encoder_partial .SHA1 rfl someHmacObj someHmacObj_ok (Pgfe.str "Jefe")
    [.update jefeMsg, .getDigest someHmacStack, .reset, .getDigest someHmacStack] (by
      intro x hx
      simp only [List.mem_cons, List.not_mem_nil, or_false] at hx
      rcases hx with rfl | rfl | rfl | rfl
      · show List.length _ < 2 ^ 31; decide
      · exact someHmacStack_ok
      · trivial
      · exact someHmacStack_ok) (by show 8 * _ < 2 ^ 64; decide)

/-- ... and its second answer is not the first one, the MAC. -/
theorem C83_encoder_violation : ∃ o d, d ≠ jefeMac ∧
    (HmacEnc.construct someHmacObj .SHA1 (Pgfe.str "Jefe") 4 >>= fun o => o.calls
      [.update jefeMsg, .getDigest someHmacStack, .reset, .getDigest someHmacStack]) = .ok (o, [some jefeMac, some d]) := by
  have k : ((HmacEnc.construct someHmacObj .SHA1 (Pgfe.str "Jefe") 4 >>= fun o => o.calls
      [.update jefeMsg, .getDigest someHmacStack, .reset, .getDigest someHmacStack]).toOption.map (fun r =>
        (r.2.length, decide (r.2[0]? = some (some jefeMac)), decide (r.2[1]? = some (some jefeMac)), decide (r.2[1]? = some none))))
      = some (2, true, false, false) := by decide +kernel
  generalize (HmacEnc.construct someHmacObj .SHA1 (Pgfe.str "Jefe") 4 >>= fun o => o.calls _) = z at k ⊢
  cases z with
  | error e => simp [Except.toOption] at k
  | ok r =>
    obtain ⟨o, outs⟩ := r
    simp only [Except.toOption, Option.map_some, Option.some.injEq, Prod.mk.injEq, decide_eq_false_iff_not, decide_eq_true_eq] at k
    obtain ⟨k1, k2, k3, k4⟩ := k
    match outs, k1, k2, k3, k4 with
    | [d₁, none], _, _, _, k4 => simp at k4
    | [d₁, some d₂], _, k2, k3, _ =>
      simp at k2 k3
      exact ⟨o, d₂, k3, by rw [k2]⟩

end Pgfe.Props
