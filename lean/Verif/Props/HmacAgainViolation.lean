import Verif.Props.HmacAgain
/-!
# C83 does not hold as one would want it: the digest of an HMAC context is not an observer
-/
namespace Pgfe.Props
open Pgfe.Model Pgfe.Spec Pgfe.Spec.Again Pgfe.Proofs.Hash

/-- The memory in which the calls run. -/
def freshMac : (a : Alg) → HmacCtx.Mem (a.impl 0)
  | .MD5 => ⟨⟨(⟨List.replicate 4 7#32, 9#64, List.replicate 64 5#8⟩ : Md5Ctx), List.replicate 64 5#8, List.replicate 64 6#8⟩,
      List.replicate 17 7#8, (⟨List.replicate 4 7#32, 9#64, List.replicate 64 5#8⟩ : Md5Ctx)⟩
  | .SHA1 => sha1Mem
  | .SHA224 => ⟨⟨(⟨List.replicate 8 1#32, 2#32, 3#32, 99, List.replicate 64 4#8⟩ : ShaCtx 32), List.replicate 64 5#8,
      List.replicate 64 6#8⟩, List.replicate 29 7#8, (⟨List.replicate 8 1#32, 2#32, 3#32, 99, List.replicate 64 4#8⟩ : ShaCtx 32)⟩
  | .SHA256 => ⟨⟨(⟨List.replicate 8 1#32, 2#32, 3#32, 99, List.replicate 64 4#8⟩ : ShaCtx 32), List.replicate 64 5#8,
      List.replicate 64 6#8⟩, List.replicate 33 7#8, (⟨List.replicate 8 1#32, 2#32, 3#32, 99, List.replicate 64 4#8⟩ : ShaCtx 32)⟩
  | .SHA384 => ⟨⟨(⟨List.replicate 8 1#64, 2#64, 3#64, 99, List.replicate 128 4#8⟩ : ShaCtx 64), List.replicate 128 5#8,
      List.replicate 128 6#8⟩, List.replicate 49 7#8, (⟨List.replicate 8 1#64, 2#64, 3#64, 99, List.replicate 128 4#8⟩ : ShaCtx 64)⟩
  | .SHA512 => ⟨⟨(⟨List.replicate 8 1#64, 2#64, 3#64, 99, List.replicate 128 4#8⟩ : ShaCtx 64), List.replicate 128 5#8,
      List.replicate 128 6#8⟩, List.replicate 65 7#8, (⟨List.replicate 8 1#64, 2#64, 3#64, 99, List.replicate 128 4#8⟩ : ShaCtx 64)⟩
  | .SHA512_224 => ⟨⟨(⟨List.replicate 8 1#64, 2#64, 3#64, 99, List.replicate 128 4#8⟩ : ShaCtx 64), List.replicate 128 5#8,
      List.replicate 128 6#8⟩, List.replicate 29 7#8, (⟨List.replicate 8 1#64, 2#64, 3#64, 99, List.replicate 128 4#8⟩ : ShaCtx 64)⟩
  | .SHA512_256 => ⟨⟨(⟨List.replicate 8 1#64, 2#64, 3#64, 99, List.replicate 128 4#8⟩ : ShaCtx 64), List.replicate 128 5#8,
      List.replicate 128 6#8⟩, List.replicate 33 7#8, (⟨List.replicate 8 1#64, 2#64, 3#64, 99, List.replicate 128 4#8⟩ : ShaCtx 64)⟩
  | .SHA3_224 => ⟨⟨kGarbage, List.replicate 144 5#8, List.replicate 144 6#8⟩, List.replicate 29 7#8, kGarbage⟩
  | .SHA3_256 => ⟨⟨kGarbage, List.replicate 136 5#8, List.replicate 136 6#8⟩, List.replicate 33 7#8, kGarbage⟩
  | .SHA3_384 => ⟨⟨kGarbage, List.replicate 104 5#8, List.replicate 104 6#8⟩, List.replicate 49 7#8, kGarbage⟩
  | .SHA3_512 => ⟨⟨kGarbage, List.replicate 72 5#8, List.replicate 72 6#8⟩, List.replicate 65 7#8, kGarbage⟩
  | .RawSHAKE128 | .SHAKE128 | .RawSHAKE256 | .SHAKE256 => ⟨⟨kGarbage, [], []⟩, [], kGarbage⟩

theorem freshMac_ok (a : Alg) (ha : isShake a = false) : hmacMemOK a (freshMac a) := by
  cases a <;> first
    | exact ⟨⟨⟨rfl, rfl⟩, rfl, rfl⟩, rfl, ⟨rfl, rfl⟩⟩
    | exact ⟨⟨trivial, rfl, rfl⟩, rfl, trivial⟩
    | exact absurd ha (by decide)

/-- The key "Jefe", the message "abc", and two digest calls. -/
abbrev macTwice (a : Alg) : C (HmacCtx (a.impl 0) × List (List Byte)) :=
  HmacCtx.setKey (a.impl 0) a.blockSize (freshMac a).ctx (str "Jefe") (str "Jefe").length >>= fun c =>
    HmacCtx.outputs (a.impl 0) a.blockSize a.digestSize c [.update (str "abc"),
      .digest (freshMac a).mid (freshMac a).inner (List.replicate 64 0#8),
      .digest (freshMac a).mid (freshMac a).inner (List.replicate 64 0#8)]

theorem two_macs {I : HashImpl} (c : C (HmacCtx I × List (List Byte)))
    (k : c.toOption.map (fun r => (r.2.length, decide (r.2[0]? = r.2[1]?))) = some (2, false)) :
    ∃ d₁ d₂ c', d₁ ≠ d₂ ∧ c = .ok (c', [d₁, d₂]) := by
  cases c with
  | error e => simp [Except.toOption] at k
  | ok r =>
    obtain ⟨c', outs⟩ := r
    simp only [Except.toOption, Option.map_some, Option.some.injEq, Prod.mk.injEq, decide_eq_false_iff_not] at k
    obtain ⟨k1, k2⟩ := k
    match outs, k1, k2 with
    | [d₁, d₂], _, k2 => exact ⟨d₁, d₂, c', by simpa using k2, rfl⟩

theorem macTwice_SHA1 : ∃ d₁ d₂ c', d₁ ≠ d₂ ∧ macTwice .SHA1 = .ok (c', [d₁, d₂]) := two_macs _ (by decide +kernel)
theorem macTwice_SHA224 : ∃ d₁ d₂ c', d₁ ≠ d₂ ∧ macTwice .SHA224 = .ok (c', [d₁, d₂]) := two_macs _ (by decide +kernel)
theorem macTwice_SHA256 : ∃ d₁ d₂ c', d₁ ≠ d₂ ∧ macTwice .SHA256 = .ok (c', [d₁, d₂]) := two_macs _ (by decide +kernel)
theorem macTwice_SHA384 : ∃ d₁ d₂ c', d₁ ≠ d₂ ∧ macTwice .SHA384 = .ok (c', [d₁, d₂]) := two_macs _ (by decide +kernel)
theorem macTwice_SHA512 : ∃ d₁ d₂ c', d₁ ≠ d₂ ∧ macTwice .SHA512 = .ok (c', [d₁, d₂]) := two_macs _ (by decide +kernel)
theorem macTwice_SHA512_224 : ∃ d₁ d₂ c', d₁ ≠ d₂ ∧ macTwice .SHA512_224 = .ok (c', [d₁, d₂]) := two_macs _ (by decide +kernel)
theorem macTwice_SHA512_256 : ∃ d₁ d₂ c', d₁ ≠ d₂ ∧ macTwice .SHA512_256 = .ok (c', [d₁, d₂]) := two_macs _ (by decide +kernel)

theorem macTwice_MD5 : ∃ d₁ d₂ c', d₁ ≠ d₂ ∧ macTwice .MD5 = .ok (c', [d₁, d₂]) := by
  obtain ⟨c', h⟩ := C83_partial .MD5 rfl (freshMac .MD5).ctx (freshMac_ok .MD5 rfl).1 (str "Jefe") [.update (str "abc"),
      .digest (freshMac .MD5).mid (freshMac .MD5).inner (List.replicate 64 0#8),
      .digest (freshMac .MD5).mid (freshMac .MD5).inner (List.replicate 64 0#8)] (by
    intro x hx
    simp only [List.mem_cons, List.not_mem_nil, or_false] at hx
    rcases hx with rfl | rfl | rfl
    · show 0 < List.length _; decide
    · exact ⟨rfl, ⟨rfl, rfl⟩, by decide⟩
    · exact ⟨rfl, ⟨rfl, rfl⟩, by decide⟩) trivial
  refine ⟨put (Md5.md5 (xorPad 64 ((str "Jefe").take 64) 0x5c#8 ++
      put (Md5.md5 ([] ++ xorPad 64 ((str "Jefe").take 64) 0x36#8 ++ str "abc")) [])) (List.replicate 64 0#8),
    put (Md5.md5 (xorPad 64 ((str "Jefe").take 64) 0x5c#8 ++
      put (Md5.md5 (Md5.pad ([] ++ xorPad 64 ((str "Jefe").take 64) 0x36#8 ++ str "abc"))) [])) (List.replicate 64 0#8), c', ?_, h⟩
  decide +kernel

/-- **C83 fails as an observer**: for MD5, SHA-1 and each SHA-2 variant, the MAC of "abc" under the key "Jefe", asked
for twice, is answered with two different values.  (For the SHA-3 variants see `C83_partial`: the second answer is
computed from the next bytes of the inner sponge.) -/
theorem C83_violation (a : Alg) (ha : isKeccak a = false) : ∃ d₁ d₂ c', d₁ ≠ d₂ ∧ macTwice a = .ok (c', [d₁, d₂]) := by
  cases a
  case MD5 => exact macTwice_MD5
  case SHA1 => exact macTwice_SHA1
  case SHA224 => exact macTwice_SHA224
  case SHA256 => exact macTwice_SHA256
  case SHA384 => exact macTwice_SHA384
  case SHA512 => exact macTwice_SHA512
  case SHA512_224 => exact macTwice_SHA512_224
  case SHA512_256 => exact macTwice_SHA512_256
  all_goals exact absurd ha (by decide)

end Pgfe.Props
