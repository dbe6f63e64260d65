import Verif.Props.Blowfish
/-!
# C79: which messages Blowfish confuses, which patterns it shows
-/
namespace Pgfe.Props
open Pgfe.Model Pgfe.Spec Pgfe.Proofs

theorem ecb_inj (ctx : BfCtx) (x y : List Byte) :
    Blowfish.ecb (Blowfish.enc (bfWords ctx)) x = Blowfish.ecb (Blowfish.enc (bfWords ctx)) y ↔
      Blowfish.pad x = Blowfish.pad y := by
  constructor
  · intro h
    have h' := congrArg (Blowfish.ecb (Blowfish.dec (bfWords ctx))) h
    rwa [Bf.ecb_comp, Bf.ecb_comp, Bf.ecb_id _ (fun y => Bf.dec_enc _ y), Bf.ecb_id _ (fun y => Bf.dec_enc _ y)] at h'
  · intro h
    have hl : Blowfish.blocks x.length = Blowfish.blocks y.length := by
      have := congrArg List.length h
      rw [Bf.pad_length, Bf.pad_length] at this
      omega
    rw [Blowfish.ecb, Blowfish.ecb, h, hl]

/-- **C79.** With the same key two messages have the same ciphertext exactly if they are the same after padding with
zero bytes to a multiple of eight. -/
theorem C79 (ctx : BfCtx) (hc : bfCtxOK ctx) (junk junk' : List Byte) (hj : junk.length = 8) (hj' : junk'.length = 8)
    (x y out out' : List Byte) (ho : 8 * ((x.length + 7) / 8) ≤ out.length)
    (ho' : 8 * ((y.length + 7) / 8) ≤ out'.length) :
    ∃ m n c d, Bf.encrypt ctx junk (some x) x.length out = .ok (m, c) ∧
      Bf.encrypt ctx junk' (some y) y.length out' = .ok (n, d) ∧
      (c.take m = d.take n ↔ x ++ List.replicate (8 * ((x.length + 7) / 8) - x.length) 0#8 =
        y ++ List.replicate (8 * ((y.length + 7) / 8) - y.length) 0#8) := by
  have h1 := C44_encrypt ctx hc junk hj x [] out ho
  have h2 := C44_encrypt ctx hc junk' hj' y [] out' ho'
  rw [List.append_nil] at h1 h2
  refine ⟨_, _, _, _, h1, h2, ?_⟩
  rw [List.take_left' (show _ = 8 * ((x.length + 7) / 8) from Bf.ecb_length _ x),
    List.take_left' (show _ = 8 * ((y.length + 7) / 8) from Bf.ecb_length _ y)]
  exact ecb_inj ctx x y

/-- **C79.** In particular messages of the same length are never confused. -/
theorem C79_same_length (ctx : BfCtx) (hc : bfCtxOK ctx) (junk junk' : List Byte) (hj : junk.length = 8)
    (hj' : junk'.length = 8) (x y out out' : List Byte) (hxy : x.length = y.length)
    (ho : 8 * ((x.length + 7) / 8) ≤ out.length) (ho' : 8 * ((y.length + 7) / 8) ≤ out'.length) (hne : x ≠ y) :
    ∃ n c d, Bf.encrypt ctx junk (some x) x.length out = .ok (n, c) ∧
      Bf.encrypt ctx junk' (some y) y.length out' = .ok (n, d) ∧ c.take n ≠ d.take n := by
  obtain ⟨m, n, c, d, h1, h2, h3⟩ := C79 ctx hc junk junk' hj hj' x y out out' ho ho'
  have e1 := C44_encrypt ctx hc junk hj x [] out ho
  have e2 := C44_encrypt ctx hc junk' hj' y [] out' ho'
  rw [List.append_nil, h1, Except.ok.injEq, Prod.mk.injEq] at e1
  rw [List.append_nil, h2, Except.ok.injEq, Prod.mk.injEq] at e2
  have hmn : n = m := by rw [e1.1, e2.1, hxy]
  subst hmn
  refine ⟨n, c, d, h1, h2, fun h => hne ?_⟩
  have h4 := h3.mp h
  exact (List.append_inj h4 hxy).1

/-- **C79, messages of whole blocks.** Every sequence of whole blocks is the ciphertext of exactly one sequence of
whole blocks, namely of what decryption makes of it. -/
theorem C79_permutation (ctx : BfCtx) (hc : bfCtxOK ctx) (junk : List Byte) (hj : junk.length = 8) (y out : List Byte)
    (hy : y.length % 8 = 0) (ho : y.length ≤ out.length) :
    ∃ x, x.length = y.length ∧ (∃ r, Bf.decrypt ctx junk (some y) y.length out = .ok (y.length, x ++ r)) ∧
      ∀ z, z.length = y.length →
        ((∃ r, Bf.encrypt ctx junk (some z) z.length out = .ok (z.length, y ++ r)) ↔ z = x) := by
  have e8 : 8 * ((y.length + 7) / 8) = y.length := by omega
  have hl : ∀ g, (Blowfish.ecb g y).length = y.length := by
    intro g
    have := Bf.ecb_length g y
    rw [Blowfish.blocks, e8] at this
    exact this
  refine ⟨Blowfish.ecb (Blowfish.dec (bfWords ctx)) y, hl _, ⟨out.drop y.length, ?_⟩, fun z hz => ?_⟩
  · have h := C44_decrypt ctx hc junk hj y [] out (by rw [e8]; exact ho)
    rw [List.append_nil, e8] at h
    exact h
  · have h := C44_encrypt ctx hc junk hj z [] out (by rw [hz, e8]; exact ho)
    rw [List.append_nil, hz, e8] at h
    rw [hz, h]
    have hz8 : z.length % 8 = 0 := by rw [hz]; exact hy
    have hlz : (Blowfish.ecb (Blowfish.enc (bfWords ctx)) z).length = y.length := by
      have := Bf.ecb_length (Blowfish.enc (bfWords ctx)) z
      rw [Blowfish.blocks, hz, e8] at this
      exact this
    constructor
    · rintro ⟨r, hr⟩
      rw [Except.ok.injEq, Prod.mk.injEq] at hr
      have e := (List.append_inj hr.2 hlz).1
      rw [← e, Bf.ecb_comp, Bf.ecb_id _ (fun y => Bf.dec_enc _ y), Bf.pad_of_blocks _ hz8]
    · rintro rfl
      refine ⟨out.drop y.length, ?_⟩
      rw [Bf.ecb_comp, Bf.ecb_id _ (fun y => Bf.enc_dec _ y), Bf.pad_of_blocks _ hy]

/-- **C79, patterns.** Two blocks of a ciphertext are equal exactly if the blocks of the padded message are. -/
theorem C79_blocks (ctx : BfCtx) (hc : bfCtxOK ctx) (junk : List Byte) (hj : junk.length = 8)
    (x out : List Byte) (ho : 8 * ((x.length + 7) / 8) ≤ out.length) (i j : Nat) (hi : i < (x.length + 7) / 8)
    (hk : j < (x.length + 7) / 8) :
    ∃ n c, Bf.encrypt ctx junk (some x) x.length out = .ok (n, c) ∧
      ((c.drop (8 * i)).take 8 = (c.drop (8 * j)).take 8 ↔
        ((x ++ List.replicate (8 * ((x.length + 7) / 8) - x.length) 0#8).drop (8 * i)).take 8 =
        ((x ++ List.replicate (8 * ((x.length + 7) / 8) - x.length) 0#8).drop (8 * j)).take 8) := by
  have h1 := C44_encrypt ctx hc junk hj x [] out ho
  rw [List.append_nil] at h1
  refine ⟨_, _, h1, ?_⟩
  have hb : ∀ k, k < (x.length + 7) / 8 → ((Blowfish.ecb (Blowfish.enc (bfWords ctx)) x ++
      out.drop (8 * ((x.length + 7) / 8))).drop (8 * k)).take 8 = Blowfish.onBlock (Blowfish.enc (bfWords ctx))
        (((x ++ List.replicate (8 * ((x.length + 7) / 8) - x.length) 0#8).drop (8 * k)).take 8) := by
    intro k hk
    have hl := Bf.ecb_length (Blowfish.enc (bfWords ctx)) x
    rw [Blowfish.blocks] at hl
    rw [List.drop_append_of_le_length (by omega), List.take_append_of_le_length (by rw [List.length_drop]; omega)]
    exact (C44_blocks _ x k hk).1
  rw [hb i hi, hb j hk]
  constructor
  · intro h
    have h' := congrArg (Blowfish.onBlock (Blowfish.dec (bfWords ctx))) h
    have hlen : ∀ k, k < (x.length + 7) / 8 →
        (((x ++ List.replicate (8 * ((x.length + 7) / 8) - x.length) 0#8).drop (8 * k)).take 8).length = 8 := by
      intro k hk
      simp only [List.length_take, List.length_drop, List.length_append, List.length_replicate]
      omega
    rwa [Bf.onBlock_comp, Bf.onBlock_comp, Bf.onBlock_id _ (fun y => Bf.dec_enc _ y) _ (hlen i hi),
      Bf.onBlock_id _ (fun y => Bf.dec_enc _ y) _ (hlen j hk)] at h'
  · intro h; rw [h]

/-- "abc" and "abc\\0" are confused, "abc" and "abd" are not. -/
theorem C79_example (key : List Byte) (hk : key ≠ []) : ∃ ctx, Bf.init bfMem key key.length = .ok ctx ∧
    (∃ n c d, Bf.encrypt ctx (List.replicate 8 1#8) (some (str "abc")) 3 (List.replicate 8 7#8) = .ok (n, c) ∧
      Bf.encrypt ctx (List.replicate 8 1#8) (some (str "abd")) 3 (List.replicate 8 7#8) = .ok (n, d) ∧ c.take n ≠ d.take n) ∧
    ∃ m n c d, Bf.encrypt ctx (List.replicate 8 1#8) (some (str "abc")) 3 (List.replicate 8 7#8) = .ok (m, c) ∧
      Bf.encrypt ctx (List.replicate 8 1#8) (some (str "abc" ++ [0#8])) 4 (List.replicate 8 7#8) = .ok (n, d) ∧
      c.take m = d.take n := by
  obtain ⟨ctx, h1, h2, _⟩ := C47_init bfMem bfMem_ok key hk
  refine ⟨ctx, h1, ?_, ?_⟩
  · exact C79_same_length ctx h2 _ _ rfl rfl (str "abc") (str "abd") _ _ rfl (by decide) (by decide) (by decide)
  · obtain ⟨m, n, c, d, e1, e2, e3⟩ := C79 ctx h2 (List.replicate 8 1#8) (List.replicate 8 1#8) rfl rfl (str "abc")
      (str "abc" ++ [0#8]) (List.replicate 8 7#8) (List.replicate 8 7#8) (by decide) (by decide)
    exact ⟨m, n, c, d, e1, e2, e3.mpr (by decide)⟩

end Pgfe.Props
