import Verif.Props.Hmac
import Verif.Spec.HmacCollision
/-!
# C82: which keys and messages HMAC confuses
-/
namespace Pgfe.Props
open Pgfe.Model Pgfe.Spec Pgfe.Proofs.Hash

theorem effectiveKey_length (B : Nat) (k : List Byte) : (effectiveKey B k).length = B := by
  rw [effectiveKey, List.length_append, List.length_take, List.length_replicate]; omega

theorem xorPad_effective (B : Nat) (k : List Byte) (u : Byte) :
    xorPad B (k.take B) u = (effectiveKey B k).map (· ^^^ u) := by
  rw [xorPad, effectiveKey, List.length_take, show B - min B k.length = B - k.length by omega]

theorem map_xor_inj (u : Byte) (k l : List Byte) (h : k.map (· ^^^ u) = l.map (· ^^^ u)) : k = l := by
  have := congrArg (List.map (· ^^^ u)) h
  simpa [Function.comp_def, BitVec.xor_assoc] using this

theorem hmacShort_outer (H : List Byte → List Byte) (B : Nat) (k m : List Byte) :
    hmacShort H B (k.take B) m = H (outerInput H B k m) := by
  rw [hmacShort, xorPad_effective, xorPad_effective]; rfl

theorem libHash_len (a : Alg) (ha : isShake a = false) (m : List Byte) : (libHash a 0 m).length = outSize a 0 := by
  obtain ⟨K, c⟩ := exists_ok0 a
  have hd := c.ds
  rw [← hd]
  exact K.len m

/-- **C82.** If two MAC computations (any keys, messages and chunkings, any memory contents) give the same bytes,
then the keys are the same up to the block size and trailing zero bytes and the messages are equal, or the hash
function has a collision: the two strings hashed last, or the two strings hashed first, are different and
have the same hash. -/
theorem C82 (a : Alg) (ha : isShake a = false) (c₁ c₂ : HmacCtx (a.impl 0)) (hc₁ : hmacCtxOK a c₁) (hc₂ : hmacCtxOK a c₂)
    (mid₁ mid₂ : List Byte) (hm₁ : mid₁.length = outSize a 0 + 1) (hm₂ : mid₂.length = outSize a 0 + 1)
    (g₁ g₂ : (a.impl 0).Ctx) (hg₁ : memOK a 0 g₁) (hg₂ : memOK a 0 g₂) (key₁ key₂ : List Byte)
    (parts₁ parts₂ : List (List Byte)) (hp₁ : ∀ p ∈ parts₁, okUpd a p.length) (hp₂ : ∀ p ∈ parts₂, okUpd a p.length)
    (ht₁ : okTot a (blockBytes a + parts₁.flatten.length)) (ht₂ : okTot a (blockBytes a + parts₂.flatten.length))
    (out₁ out₂ : List Byte) (ho₁ : outSize a 0 ≤ out₁.length) (ho₂ : outSize a 0 ≤ out₂.length) :
    ∃ d₁ d₂, HmacCtx.macSession (a.impl 0) a.blockSize a.digestSize mid₁ g₁ c₁ key₁ parts₁ out₁ = .ok d₁ ∧
      HmacCtx.macSession (a.impl 0) a.blockSize a.digestSize mid₂ g₂ c₂ key₂ parts₂ out₂ = .ok d₂ ∧
      (d₁.take (outSize a 0) = d₂.take (outSize a 0) →
        (effectiveKey (blockBytes a) key₁ = effectiveKey (blockBytes a) key₂ ∧ parts₁.flatten = parts₂.flatten) ∨
        HashCollision (libHash a 0) (outerInput (libHash a 0) (blockBytes a) key₁ parts₁.flatten)
          (outerInput (libHash a 0) (blockBytes a) key₂ parts₂.flatten) ∨
        HashCollision (libHash a 0) (innerInput (blockBytes a) key₁ parts₁.flatten)
          (innerInput (blockBytes a) key₂ parts₂.flatten)) := by
  refine ⟨_, _, C33_exact a ha c₁ hc₁ mid₁ hm₁ g₁ hg₁ key₁ parts₁ hp₁ ht₁ out₁ ho₁,
    C33_exact a ha c₂ hc₂ mid₂ hm₂ g₂ hg₂ key₂ parts₂ hp₂ ht₂ out₂ ho₂, ?_⟩
  rw [hmacShort_outer, hmacShort_outer, List.take_left' (libHash_len a ha _), List.take_left' (libHash_len a ha _)]
  intro e
  by_cases ho : outerInput (libHash a 0) (blockBytes a) key₁ parts₁.flatten
      = outerInput (libHash a 0) (blockBytes a) key₂ parts₂.flatten
  · obtain ⟨e1, e2⟩ := List.append_inj ho (by
      rw [List.length_map, List.length_map, effectiveKey_length, effectiveKey_length])
    have hk := map_xor_inj _ _ _ e1
    by_cases hi : innerInput (blockBytes a) key₁ parts₁.flatten = innerInput (blockBytes a) key₂ parts₂.flatten
    · refine .inl ⟨hk, ?_⟩
      exact (List.append_inj hi (by
        rw [List.length_map, List.length_map, effectiveKey_length, effectiveKey_length])).2
    · exact .inr (.inr ⟨hi, e2⟩)
  · exact .inr (.inl ⟨ho, e⟩)

/-- **C82, the other direction.** Keys that are the same up to the block size and trailing zero bytes give the same
MAC of every message. -/
theorem C82_keys (a : Alg) (ha : isShake a = false) (c₁ c₂ : HmacCtx (a.impl 0)) (hc₁ : hmacCtxOK a c₁) (hc₂ : hmacCtxOK a c₂)
    (mid₁ mid₂ : List Byte) (hm₁ : mid₁.length = outSize a 0 + 1) (hm₂ : mid₂.length = outSize a 0 + 1)
    (g₁ g₂ : (a.impl 0).Ctx) (hg₁ : memOK a 0 g₁) (hg₂ : memOK a 0 g₂) (key₁ key₂ : List Byte)
    (hk : effectiveKey (blockBytes a) key₁ = effectiveKey (blockBytes a) key₂)
    (parts : List (List Byte)) (hp : ∀ p ∈ parts, okUpd a p.length)
    (ht : okTot a (blockBytes a + parts.flatten.length)) (out : List Byte) (ho : outSize a 0 ≤ out.length) :
    ∃ d, HmacCtx.macSession (a.impl 0) a.blockSize a.digestSize mid₁ g₁ c₁ key₁ parts out = .ok d ∧
      HmacCtx.macSession (a.impl 0) a.blockSize a.digestSize mid₂ g₂ c₂ key₂ parts out = .ok d := by
  refine ⟨_, C33_exact a ha c₁ hc₁ mid₁ hm₁ g₁ hg₁ key₁ parts hp ht out ho, ?_⟩
  rw [C33_exact a ha c₂ hc₂ mid₂ hm₂ g₂ hg₂ key₂ parts hp ht out ho, hmacShort_outer, hmacShort_outer]
  simp only [outerInput, innerInput, hk]

/-- A key with zero bytes appended, within the block, is the same key. -/
theorem C82_zeros (B : Nat) (k : List Byte) (n : Nat) (h : k.length + n ≤ B) :
    effectiveKey B (k ++ List.replicate n 0#8) = effectiveKey B k := by
  rw [effectiveKey, effectiveKey, List.take_of_length_le (by rw [List.length_append, List.length_replicate]; exact h),
    List.take_of_length_le (by omega), List.append_assoc, List.replicate_append_replicate, List.length_append,
    List.length_replicate, show n + (B - (k.length + n)) = B - k.length by omega]

/-- A concrete case: the keys "Jefe" and "Jefe\0" are confused. -/
theorem C82_example :
    HmacCtx.macSession (Alg.impl .SHA1 0) (Alg.blockSize .SHA1) (Alg.digestSize .SHA1) sha1Mem.mid sha1Mem.inner
      sha1Mem.ctx (str "Jefe" ++ [0#8]) [jefeMsg] (List.replicate 20 0#8) = .ok jefeMac := by
  obtain ⟨d, h₁, h₂⟩ := C82_keys .SHA1 rfl sha1Mem.ctx sha1Mem.ctx sha1Mem_ok.1 sha1Mem_ok.1 _ _ sha1Mem_ok.2.1
    sha1Mem_ok.2.1 _ _ sha1Mem_ok.2.2 sha1Mem_ok.2.2 (str "Jefe" ++ [0#8]) (str "Jefe")
    (C82_zeros 64 (str "Jefe") 1 (by decide)) [jefeMsg] (by show ∀ p ∈ _, List.length p < 2 ^ 31; decide)
    (by show 8 * _ < 2 ^ 64; decide) (List.replicate 20 0#8) (by decide)
  rw [h₁, ← h₂, C33_exact .SHA1 rfl sha1Mem.ctx sha1Mem_ok.1 _ sha1Mem_ok.2.1 _ sha1Mem_ok.2.2 _ _
    (by show ∀ p ∈ _, List.length p < 2 ^ 31; decide) (by show 8 * _ < 2 ^ 64; decide) _ (by decide),
    show (str "Jefe").take (blockBytes .SHA1) = str "Jefe" by decide, show [jefeMsg].flatten = jefeMsg by decide,
    hmac_std .SHA1 rfl _ _ (by decide) (by show _ % 64 < 56; decide)]
  exact congrArg (fun x => Except.ok (x ++ [])) jefeMac_eq

end Pgfe.Props
