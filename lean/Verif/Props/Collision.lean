import Verif.Props.Hash
import Verif.Proofs.Collision
/-!
# C71: collisions of the hash functions are collisions of their compression functions

The library pads messages in its own way (C18 - C20), so the argument of Merkle and Damgård for the standard's
padding does not apply to it as it stands.
-/
namespace Pgfe.Props
open Pgfe.Model Pgfe.Proofs Pgfe.Proofs.Hash Pgfe.Spec

theorem take_digest (d e : List Byte) (n : Nat) (h : d.length = n) : (d ++ e).take n = d := List.take_left' h

/-- **C71, SHA-1.** If two sequences of updates lead to the same 20 digest bytes, then they fed the same message,
or the SHA-1 compression function maps two different inputs that occur in these two computations to the same
value. -/
theorem C71_sha1 (g₁ g₂ : (Alg.impl .SHA1 0).Ctx) (hg₁ : memOK .SHA1 0 g₁) (hg₂ : memOK .SHA1 0 g₂)
    (parts₁ parts₂ : List (List Byte))
    (hp₁ : ∀ p ∈ parts₁, p.length < 2 ^ 31) (hp₂ : ∀ p ∈ parts₂, p.length < 2 ^ 31)
    (ht₁ : 8 * parts₁.flatten.length < 2 ^ 64) (ht₂ : 8 * parts₂.flatten.length < 2 ^ 64)
    (out₁ out₂ : List Byte) (ho₁ : 20 ≤ out₁.length) (ho₂ : 20 ≤ out₂.length) :
    ∃ d₁ d₂, (Alg.impl .SHA1 0).session g₁ parts₁ out₁ = .ok d₁ ∧ (Alg.impl .SHA1 0).session g₂ parts₂ out₂ = .ok d₂ ∧
      (d₁.take 20 = d₂.take 20 → parts₁.flatten = parts₂.flatten ∨
        Collide Sha.sha1Compress (iterates Sha.sha1Compress Sha.sha1H0 (Sha.blocks 64 (Sha.stalePad 64 8 parts₁.flatten)))
          (iterates Sha.sha1Compress Sha.sha1H0 (Sha.blocks 64 (Sha.stalePad 64 8 parts₂.flatten)))) := by
  refine ⟨_, _, C21_session .SHA1 0 (by decide) g₁ hg₁ parts₁ hp₁ ht₁ out₁ ho₁,
    C21_session .SHA1 0 (by decide) g₂ hg₂ parts₂ hp₂ ht₂ out₂ ho₂, ?_⟩
  have l (v : Sha.V5) : v.bytes.length = 20 := by simp [Sha.V5.bytes, Sha.bytesOfWord, Sha.bytesOfNat]
  intro e
  change (Sha.sha1Stale parts₁.flatten ++ _).take 20 = (Sha.sha1Stale parts₂.flatten ++ _).take 20 at e
  rw [take_digest (Sha.sha1Stale parts₁.flatten) _ 20 (l _), take_digest (Sha.sha1Stale parts₂.flatten) _ 20 (l _)] at e
  exact Coll.stale_collision _ _ 64 8 (by decide) _ _ ht₁ ht₂ (Coll.V5_inj _ _ e)

/-- **C71, SHA-256.** -/
theorem C71_sha256 (g₁ g₂ : (Alg.impl .SHA256 0).Ctx) (hg₁ : memOK .SHA256 0 g₁) (hg₂ : memOK .SHA256 0 g₂)
    (parts₁ parts₂ : List (List Byte))
    (hp₁ : ∀ p ∈ parts₁, p.length < 2 ^ 31) (hp₂ : ∀ p ∈ parts₂, p.length < 2 ^ 31)
    (ht₁ : 8 * parts₁.flatten.length < 2 ^ 64) (ht₂ : 8 * parts₂.flatten.length < 2 ^ 64)
    (out₁ out₂ : List Byte) (ho₁ : 32 ≤ out₁.length) (ho₂ : 32 ≤ out₂.length) :
    ∃ d₁ d₂, (Alg.impl .SHA256 0).session g₁ parts₁ out₁ = .ok d₁ ∧
      (Alg.impl .SHA256 0).session g₂ parts₂ out₂ = .ok d₂ ∧
      (d₁.take 32 = d₂.take 32 → parts₁.flatten = parts₂.flatten ∨
        Collide Sha.P256.compress
          (iterates Sha.P256.compress Sha.sha256H0 (Sha.blocks 64 (Sha.stalePad 64 8 parts₁.flatten)))
          (iterates Sha.P256.compress Sha.sha256H0 (Sha.blocks 64 (Sha.stalePad 64 8 parts₂.flatten)))) := by
  refine ⟨_, _, C21_session .SHA256 0 (by decide) g₁ hg₁ parts₁ hp₁ ht₁ out₁ ho₁,
    C21_session .SHA256 0 (by decide) g₂ hg₂ parts₂ hp₂ ht₂ out₂ ho₂, ?_⟩
  have l (v : Sha.V8 32) : v.bytes.length = 32 := Pgfe.Proofs.Sha.bytes8_length v
  intro e
  change (Sha.sha256Stale parts₁.flatten ++ _).take 32 = (Sha.sha256Stale parts₂.flatten ++ _).take 32 at e
  rw [take_digest (Sha.sha256Stale parts₁.flatten) _ 32 (l _), take_digest (Sha.sha256Stale parts₂.flatten) _ 32 (l _)] at e
  exact Coll.stale_collision _ _ 64 8 (by decide) _ _ ht₁ ht₂ (Coll.V8_inj 4 rfl _ _ e)

/-- **C71, SHA-512.** -/
theorem C71_sha512 (g₁ g₂ : (Alg.impl .SHA512 0).Ctx) (hg₁ : memOK .SHA512 0 g₁) (hg₂ : memOK .SHA512 0 g₂)
    (parts₁ parts₂ : List (List Byte))
    (hp₁ : ∀ p ∈ parts₁, p.length < 2 ^ 31) (hp₂ : ∀ p ∈ parts₂, p.length < 2 ^ 31)
    (ht₁ : 8 * parts₁.flatten.length < 2 ^ 128) (ht₂ : 8 * parts₂.flatten.length < 2 ^ 128)
    (out₁ out₂ : List Byte) (ho₁ : 64 ≤ out₁.length) (ho₂ : 64 ≤ out₂.length) :
    ∃ d₁ d₂, (Alg.impl .SHA512 0).session g₁ parts₁ out₁ = .ok d₁ ∧
      (Alg.impl .SHA512 0).session g₂ parts₂ out₂ = .ok d₂ ∧
      (d₁.take 64 = d₂.take 64 → parts₁.flatten = parts₂.flatten ∨
        Collide Sha.P512.compress
          (iterates Sha.P512.compress Sha.sha512H0 (Sha.blocks 128 (Sha.stalePad 128 16 parts₁.flatten)))
          (iterates Sha.P512.compress Sha.sha512H0 (Sha.blocks 128 (Sha.stalePad 128 16 parts₂.flatten)))) := by
  refine ⟨_, _, C21_session .SHA512 0 (by decide) g₁ hg₁ parts₁ hp₁ ht₁ out₁ ho₁,
    C21_session .SHA512 0 (by decide) g₂ hg₂ parts₂ hp₂ ht₂ out₂ ho₂, ?_⟩
  have l (v : Sha.V8 64) : v.bytes.length = 64 := Pgfe.Proofs.Sha.bytes8_length v
  intro e
  change (Sha.sha512Stale parts₁.flatten ++ _).take 64 = (Sha.sha512Stale parts₂.flatten ++ _).take 64 at e
  rw [take_digest (Sha.sha512Stale parts₁.flatten) _ 64 (l _), take_digest (Sha.sha512Stale parts₂.flatten) _ 64 (l _)] at e
  exact Coll.stale_collision _ _ 128 16 (by decide) _ _ ht₁ ht₂ (Coll.V8_inj 8 rfl _ _ e)

/-- **C71, MD5.** Messages of 2^61 bytes and more are excluded: RFC 1321 keeps only 64 bits of the length. -/
theorem C71_md5 (g₁ g₂ : (Alg.impl .MD5 0).Ctx) (hg₁ : memOK .MD5 0 g₁) (hg₂ : memOK .MD5 0 g₂)
    (parts₁ parts₂ : List (List Byte))
    (hp₁ : ∀ p ∈ parts₁, 0 < p.length) (hp₂ : ∀ p ∈ parts₂, 0 < p.length)
    (ht₁ : 8 * parts₁.flatten.length < 2 ^ 64) (ht₂ : 8 * parts₂.flatten.length < 2 ^ 64)
    (out₁ out₂ : List Byte) (ho₁ : 16 ≤ out₁.length) (ho₂ : 16 ≤ out₂.length) :
    ∃ d₁ d₂, (Alg.impl .MD5 0).session g₁ parts₁ out₁ = .ok d₁ ∧ (Alg.impl .MD5 0).session g₂ parts₂ out₂ = .ok d₂ ∧
      (d₁.take 16 = d₂.take 16 → parts₁.flatten = parts₂.flatten ∨
        Collide Md5.compress (iterates Md5.compress Md5.H0 (Sha.blocks 64 (Md5.pad parts₁.flatten)))
          (iterates Md5.compress Md5.H0 (Sha.blocks 64 (Md5.pad parts₂.flatten)))) := by
  refine ⟨_, _, C21_session .MD5 0 (by decide) g₁ hg₁ parts₁ hp₁ trivial out₁ ho₁,
    C21_session .MD5 0 (by decide) g₂ hg₂ parts₂ hp₂ trivial out₂ ho₂, ?_⟩
  have l (v : Md5.V4) : v.bytes.length = 16 := by simp [Md5.V4.bytes, Md5.bytesLE]
  intro e
  change (Md5.md5 parts₁.flatten ++ _).take 16 = (Md5.md5 parts₂.flatten ++ _).take 16 at e
  rw [take_digest (Md5.md5 parts₁.flatten) _ 16 (l _), take_digest (Md5.md5 parts₂.flatten) _ 16 (l _)] at e
  exact Coll.md5_collision _ _ _ _ ht₁ ht₂ (Coll.V4_inj _ _ e)

/-- The padding itself never confuses two messages, with any of the two block sizes. -/
theorem C71_padding (m₁ m₂ : List Byte) :
    (8 * m₁.length < 2 ^ 64 → 8 * m₂.length < 2 ^ 64 → Sha.stalePad 64 8 m₁ = Sha.stalePad 64 8 m₂ → m₁ = m₂) ∧
    (8 * m₁.length < 2 ^ 128 → 8 * m₂.length < 2 ^ 128 → Sha.stalePad 128 16 m₁ = Sha.stalePad 128 16 m₂ → m₁ = m₂) := by
  have g (bs lb : Nat) (hlb : lb < bs) (b₁ : 8 * m₁.length < 256 ^ lb) (b₂ : 8 * m₂.length < 256 ^ lb)
      (e : Sha.stalePad bs lb m₁ = Sha.stalePad bs lb m₂) : m₁ = m₂ := by
    obtain ⟨l₁, q₁, d₁⟩ := Coll.pad_facts bs lb hlb m₁
    obtain ⟨l₂, q₂, d₂⟩ := Coll.pad_facts bs lb hlb m₂
    rw [e, d₂] at d₁
    have := Coll.bytesOfNat_inj lb _ _ b₂ b₁ d₁
    rw [← q₁, ← q₂, e, show m₁.length = m₂.length by omega]
  exact ⟨g 64 8 (by decide), g 128 16 (by decide)⟩

/-- A concrete case: "abcd", cut in two ways; the digests are equal (C21), and the messages are. -/
theorem C71_example : ∃ d,
    (Alg.impl .SHA1 0).session ⟨List.replicate 5 7#32, 1#32, 2#32, 3, List.replicate 64 9#8⟩ [str "a", str "bcd"]
      (List.replicate 20 0#8) = .ok d ∧
    (Alg.impl .SHA1 0).session ⟨List.replicate 5 0#32, 0#32, 0#32, 0, List.replicate 64 0#8⟩ [str "abc", str "d"]
      (List.replicate 20 0#8) = .ok d ∧ [str "a", str "bcd"].flatten = [str "abc", str "d"].flatten := by
  obtain ⟨d, h₁, h₂⟩ := C21 .SHA1 0 (by decide) ⟨List.replicate 5 7#32, 1#32, 2#32, 3, List.replicate 64 9#8⟩
    ⟨List.replicate 5 0#32, 0#32, 0#32, 0, List.replicate 64 0#8⟩ ⟨rfl, rfl⟩ ⟨rfl, rfl⟩ [str "a", str "bcd"]
    [str "abc", str "d"] (by decide) (by show ∀ p ∈ _, List.length p < 2 ^ 31; decide)
    (by show ∀ p ∈ _, List.length p < 2 ^ 31; decide) (by show 8 * List.length _ < 2 ^ 64; decide)
    (List.replicate 20 0#8) (by decide)
  exact ⟨d, h₁, h₂, by decide⟩

end Pgfe.Props
