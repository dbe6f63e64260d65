import Verif.Proofs.CharSign
/-!
# C98: signed or unsigned `char`, the results are the same

On Linux a `char` is signed on x86 and unsigned on ARM; a byte above 127 compares as a negative
number on the one and as a large one on the other.  `Model/CharSign.lean` has the library's text
functions with the promotion to `int` written out for both.
-/
namespace Pgfe.Props
open Pgfe Pgfe.Model Pgfe.Proofs.CharSign

/-- C98.  For every text, every output array and every other argument, and whichever bytes the text
contains, each text function does the same on a platform with signed `char` as on one with unsigned
`char`: the same return value and the same contents of the output array, or the same undefined
behaviour. -/
theorem C98 :
    (∀ (a : BaseAlg) (text out : List Byte),
      CharKind.signed.decode a text out = CharKind.unsigned.decode a text out) ∧
    (∀ (a : BaseAlg) (S : Slack) (scratch input : List Byte) (n : Nat) (out : List Byte),
      CharKind.signed.encode a S scratch input n out =
        CharKind.unsigned.encode a S scratch input n out) ∧
    (∀ text out : List Byte,
      CharKind.signed.hexStringToHash text out = CharKind.unsigned.hexStringToHash text out) ∧
    (∀ text out : List Byte,
      CharKind.signed.hashStringClean text out = CharKind.unsigned.hashStringClean text out) ∧
    (∀ text : List Byte,
      CharKind.signed.hashStringCleanInPlace text = CharKind.unsigned.hashStringCleanInPlace text) ∧
    (∀ scratch text : List Byte,
      CharKind.signed.hashLength scratch text = CharKind.unsigned.hashLength scratch text) ∧
    (∀ scratch text : List Byte,
      CharKind.signed.fromHexString scratch text = CharKind.unsigned.fromHexString scratch text) := by
  refine ⟨fun a t o => ?_, fun a S g i n o => ?_, fun t o => ?_, fun t o => ?_, fun t => ?_,
    fun g t => ?_, fun g t => ?_⟩
  · rw [decode_eq, decode_eq]
  · rw [encode_eq, encode_eq]
  · rw [hexStringToHash_eq, hexStringToHash_eq]
  · rw [hashStringClean_eq, hashStringClean_eq]
  · rw [hashStringCleanInPlace_eq, hashStringCleanInPlace_eq]
  · rw [hashLength_eq, hashLength_eq]
  · rw [fromHexString_eq, fromHexString_eq]

/-- C98.  On either kind of platform the functions compute what the functions of `Model/Hex.lean`
and `Model/Base.lean` compute, so that the claims about texts (C01–C15, C52, C59, C66, C86, C87)
hold on both. -/
theorem C98_model (k : CharKind) :
    (∀ (a : BaseAlg) (text out : List Byte), k.decode a text out = pgfeDecode a text out) ∧
    (∀ (a : BaseAlg) (S : Slack) (scratch input : List Byte) (n : Nat) (out : List Byte),
      k.encode a S scratch input n out = pgfeEncode a S scratch input n out) ∧
    (∀ text out : List Byte, k.hexStringToHash text out = hexStringToHash text out) ∧
    (∀ text out : List Byte, k.hashStringClean text out = hashStringClean text out) ∧
    (∀ text : List Byte, k.hashStringCleanInPlace text = hashStringCleanInPlace text) ∧
    (∀ scratch text : List Byte, k.hashLength scratch text = hashLength scratch text) ∧
    (∀ scratch text : List Byte, k.fromHexString scratch text = fromHexString scratch text) :=
  ⟨decode_eq k, encode_eq k, hexStringToHash_eq k, hashStringClean_eq k,
    hashStringCleanInPlace_eq k, hashLength_eq k, fromHexString_eq k⟩

/-- C98.  A byte above 127 is no digit of any of the encodings, on either kind of platform: the
decoders and the hexadecimal parser skip it. -/
theorem C98_high (k : CharKind) (b : Byte) (hb : 128 ≤ b.toNat) :
    k.ch2hex b = 0xF1#8 ∧ ∀ a : BaseAlg, k.charFn a b = 0xC0#8 := by
  have hr : ∀ lo hi : Nat, hi < 128 → ¬ (k.int b ≥ (lo : Int) ∧ k.int b ≤ (hi : Int)) := by
    intro lo hi hh h
    have := (int_range k b lo hi hh).1 h
    omega
  have he : ∀ n : Nat, n < 128 → ¬ k.int b = (n : Int) := by
    intro n hn h
    have := (int_ascii k b n hn).1 h
    rw [this] at hb
    simp only [BitVec.toNat_ofNat] at hb
    omega
  have ho : ∀ m n : Nat, m < 128 → n < 128 → ¬ (k.int b = (m : Int) ∨ k.int b = (n : Int)) := by
    intro m n hm hn h
    exact h.elim (he m hm) (he n hn)
  refine ⟨?_, fun a => ?_⟩
  · unfold CharKind.ch2hex
    exact (if_neg (hr 48 57 (by decide))).trans <|
      (if_neg (hr 65 70 (by decide))).trans <|
      (if_neg (hr 97 102 (by decide)))
  · cases a
    · show k.decode16 b = _
      unfold CharKind.decode16
      exact (if_neg (hr 48 57 (by decide))).trans <|
        (if_neg (hr 65 70 (by decide))).trans <|
        (if_neg (hr 97 102 (by decide)))
    · show k.decode32 b = _
      unfold CharKind.decode32
      exact (if_neg (hr 50 55 (by decide))).trans <|
        (if_neg (hr 65 90 (by decide))).trans <|
        (if_neg (hr 97 122 (by decide))).trans <|
        (if_neg (he 61 (by decide)))
    · show k.decode32hex b = _
      unfold CharKind.decode32hex
      exact (if_neg (hr 48 57 (by decide))).trans <|
        (if_neg (hr 65 86 (by decide))).trans <|
        (if_neg (hr 97 118 (by decide))).trans <|
        (if_neg (he 61 (by decide)))
    all_goals
      show k.decode64 b = _
      unfold CharKind.decode64
      exact (if_neg (hr 97 122 (by decide))).trans <|
        (if_neg (hr 48 57 (by decide))).trans <|
        (if_neg (hr 65 90 (by decide))).trans <|
        (if_neg (ho 43 45 (by decide) (by decide))).trans <|
        (if_neg (ho 47 95 (by decide) (by decide))).trans <|
        (if_neg (he 61 (by decide)))

/-- Not empty: the two platforms do see different numbers (the byte 0xE9, `é` in Latin-1). -/
example : CharKind.signed.int 0xE9#8 = -23 ∧ CharKind.unsigned.int 0xE9#8 = 233 := by decide

/-- A text with such bytes, `"4é1"`, decodes as base16 to the byte 0x41 on both. -/
example : CharKind.signed.decode .base16 [0x34#8, 0xE9#8, 0x31#8, 0#8] [7#8, 7#8, 7#8]
      = .ok (1, [0x41#8, 0#8, 7#8]) ∧
    CharKind.unsigned.decode .base16 [0x34#8, 0xE9#8, 0x31#8, 0#8] [7#8, 7#8, 7#8]
      = .ok (1, [0x41#8, 0#8, 7#8]) := by
  decide +kernel

/-- The hypothesis of `C98_high` is met. -/
example : 128 ≤ (0xE9#8).toNat := by decide

end Pgfe.Props
