import Verif.Props.Hmac
import Verif.Proofs.Otp
/-!
# C37 - C39: HOTP values

`rfcHotp mac secret counter digits` is RFC 4226 (Verif/Spec/Otp.lean).  The contents of all memory the
functions do not initialise are arbitrary.
-/
namespace Pgfe.Spec
open Pgfe.Model

/-- The uninitialised local variables of a HOTP computation have their declared sizes; their contents are
arbitrary. -/
def otpStackOK (a : Alg) (m : Totp.Stack a) : Prop :=
  hmacMemOK a m.hmac ∧ m.counterH.length = 8 ∧ m.outHash.length = outSize a 0

/-- RFC 4226 with algorithm `a` of the standards. -/
def stdHotp (a : Alg) (secret : List Byte) (counter digits : Nat) : Nat :=
  rfcHotp (hmac (stdHash a 0) (blockBytes a)) secret counter digits

/-- The offset RFC 4226 computes from the last byte of the MAC. -/
def hotpOffset (a : Alg) (secret : List Byte) (counter : Nat) : Nat :=
  ((hmac (stdHash a 0) (blockBytes a) secret (bytesBE 8 counter)).getLastD 0#8).toNat % 16

end Pgfe.Spec

namespace Pgfe.Props
open Pgfe.Model Pgfe.Spec Pgfe.Proofs Pgfe.Proofs.Hash Pgfe.Proofs.Hmac Pgfe.Proofs.Otp

theorem tenPow_ok (d : Nat) (h : d < 10) : tenPow d = .ok (10 ^ d) := by
  have : ∀ d, d < 10 → tenPow d = .ok (10 ^ d) := by decide
  exact this d h

theorem okUpd8 (a : Alg) : okUpd a 8 ∧ okTot a (blockBytes a + 8) ∧ onePadBlock a 8 := by
  cases a <;> (refine ⟨?_, ?_, ?_⟩ <;> first | exact trivial | (simp only [okUpd, okTot, onePadBlock, blockBytes]; decide))

theorem outSize_pos (a : Alg) (ha : isShake a = false) : 0 < outSize a 0 ∧ outSize a 0 < 2 ^ 64 := by
  cases a <;> first | exact absurd ha (by decide) | exact ⟨by decide, by decide⟩

/-- The counter block the code hashes is the 8-byte big-endian counter. -/
theorem counterBlock (c : W64) (ch : List Byte) (h : ch.length = 8) :
    (do let x ← wrs ch 0 (memBytes8 c)
        reverse x 0 7) = .ok (bytesBE 8 c.toNat) := by
  have hl : (memBytes8 c).length = 8 := by simp [memBytes8]
  rw [wrs_ok (by omega), bind_ok, splice, hl, List.take_zero, List.nil_append, List.drop_eq_nil_of_le (by omega),
    List.append_nil]
  have := reverse_ok (memBytes8 c)
  rw [hl] at this
  rw [this, memBytes8_reverse]

/-- The MAC the code truncates: HMAC over the standard's hash (the message has 8 bytes, so the deviation of
C18-C20 does not show), with the key cut to one block. -/
theorem hotp_mac (a : Alg) (ha : isShake a = false) (g : HmacCtx.Mem (a.impl 0)) (hg : hmacMemOK a g)
    (oh : List Byte) (ho : oh.length = outSize a 0) (secret : List Byte) (n : Nat) (hn : n ≤ secret.length) (c : W64) :
    pgfeHmac a g secret n (bytesBE 8 c.toNat) 8 oh
      = .ok (hmac (stdHash a 0) (blockBytes a) ((secret.take n).take (blockBytes a)) (bytesBE 8 c.toNat)) := by
  obtain ⟨h1, h2, h3⟩ := okUpd8 a
  have hl := bytesBE_length 8 c.toNat
  have hk : ((secret.take n).take (blockBytes a)).length ≤ blockBytes a := by rw [List.length_take]; omega
  rw [C36 a ha g hg secret n hn _ 8 (by omega) h1 h2 oh (by omega), List.drop_eq_nil_of_le (by omega), List.append_nil,
    List.take_of_length_le (l := bytesBE 8 c.toNat) (by omega), hmac_std a ha _ _ hk (by rw [hl]; exact h3), hmac,
    if_neg (by omega)]

theorem hmac_length (a : Alg) (ha : isShake a = false) (k m : List Byte) (hk : k.length ≤ blockBytes a)
    (hm : onePadBlock a m.length) : (hmac (stdHash a 0) (blockBytes a) k m).length = outSize a 0 := by
  obtain ⟨K, cf⟩ := exists_ok0 a
  rw [hmac, if_neg (by omega), ← hmac_std a ha k m hk hm, hmacShort, K.len, cf.ds]

theorem rfcHotp_mod (mac : List Byte → List Byte → List Byte) (s : List Byte) (c d : Nat) (h : 10 ≤ d) :
    DT (mac s (bytesBE 8 c)) = rfcHotp mac s c d := by
  rw [rfcHotp, Nat.mod_eq_of_lt]
  exact Nat.lt_of_lt_of_le (DT_lt _) (Nat.le_trans (by decide : 2 ^ 31 ≤ 10 ^ 10) (Nat.pow_le_pow_right (by decide) h))

/-- **C37, C39, exact.** For every fixed-output algorithm, secret, counter and digit count: the RFC 4226 value
for the secret cut to its first block; undefined behaviour exactly when the four bytes selected by the offset
are not all inside the MAC. -/
theorem C37_exact (a : Alg) (ha : isShake a = false) (m : Totp.Stack a) (hm : otpStackOK a m)
    (secret : List Byte) (n : Nat) (hn : n ≤ secret.length) (c : W64) (d : Nat) :
    hotpGeneric a m.hmac m.counterH m.outHash secret n c d
      = if hotpOffset a ((secret.take n).take (blockBytes a)) c.toNat + 4 ≤ outSize a 0
        then .ok (stdHotp a ((secret.take n).take (blockBytes a)) c.toNat d) else .error .oobRead := by
  obtain ⟨hg, h8, ho⟩ := hm
  have hk : ((secret.take n).take (blockBytes a)).length ≤ blockBytes a := by rw [List.length_take]; omega
  have hcb := counterBlock c m.counterH h8
  have hl8 := bytesBE_length 8 c.toNat
  have hlen := hmac_length a ha _ (bytesBE 8 c.toNat) hk (by rw [hl8]; exact (okUpd8 a).2.2)
  have hmac := hotp_mac a ha m.hmac hg m.outHash ho secret n hn c
  obtain ⟨p0, p1⟩ := outSize_pos a ha
  rw [hotpGeneric, digestSize_eq a ha]
  rw [wrs_ok (by simp [memBytes8]; omega), bind_ok] at hcb
  rw [wrs_ok (by simp [memBytes8]; omega), bind_ok, hcb, bind_ok, hmac, bind_ok]
  rw [stdHotp, hotpOffset]
  generalize hM : Pgfe.Spec.hmac (stdHash a 0) (blockBytes a) ((secret.take n).take (blockBytes a)) (bytesBE 8 c.toNat) = mac
    at hlen
  rw [← hlen]
  by_cases h4 : (mac.getLastD 0#8).toNat % 16 + 4 ≤ mac.length
  · obtain ⟨v, e1, e2⟩ := dynTruncate_ok mac (by omega) (by omega) h4
    rw [if_pos h4, e1, bind_ok]
    by_cases hd : d < 10
    · rw [if_pos hd, tenPow_ok d hd, bind_ok, e2, rfcHotp, hM]
    · rw [if_neg hd, e2, ← rfcHotp_mod _ _ _ d (by omega), hM]
  · rw [if_neg h4, dynTruncate_oob mac (by omega) (by omega) h4, bind_err]

theorem offset_ok (a : Alg) (ha : isShake a = false) (h5 : a ≠ .MD5) (s : List Byte) (c : Nat) :
    hotpOffset a s c + 4 ≤ outSize a 0 := by
  have : hotpOffset a s c < 16 := Nat.mod_lt _ (by decide)
  have h20 : 20 ≤ outSize a 0 := by
    cases a <;> first | exact absurd ha (by decide) | exact absurd rfl h5 | decide
  omega

/-- **C37.** For SHA-1, SHA-2 and SHA-3, every secret of at most one block, every counter and every digit
count, the result is the RFC 4226 value over the standard's hash. -/
theorem C37 (a : Alg) (ha : isShake a = false) (h5 : a ≠ .MD5) (m : Totp.Stack a) (hm : otpStackOK a m)
    (secret : List Byte) (hs : secret.length ≤ blockBytes a) (c : W64) (d : Nat) :
    hotpGeneric a m.hmac m.counterH m.outHash secret secret.length c d = .ok (stdHotp a secret c.toNat d) := by
  rw [C37_exact a ha m hm secret _ (Nat.le_refl _), List.take_length, List.take_of_length_le hs,
    if_pos (offset_ok a ha h5 _ _)]

/-- **C37** for `pgfe_hotp`. -/
theorem C37_hotp (m : Totp.Stack .SHA1) (hm : otpStackOK .SHA1 m) (secret : List Byte) (hs : secret.length ≤ 64)
    (c : W64) (d : Nat) :
    hotp m.hmac m.counterH m.outHash secret secret.length c d = .ok (stdHotp .SHA1 secret c.toNat d) :=
  C37 .SHA1 rfl (by decide) m hm secret hs c d

/-- **C37.** Secrets longer than one block: the value for the secret cut to one block (RFC 2104 hashes such keys
first, see C34). -/
theorem C37_long (a : Alg) (ha : isShake a = false) (h5 : a ≠ .MD5) (m : Totp.Stack a) (hm : otpStackOK a m)
    (secret : List Byte) (c : W64) (d : Nat) :
    hotpGeneric a m.hmac m.counterH m.outHash secret secret.length c d
      = .ok (stdHotp a (secret.take (blockBytes a)) c.toNat d) := by
  rw [C37_exact a ha m hm secret _ (Nat.le_refl _), List.take_length, if_pos (offset_ok a ha h5 _ _)]

/-- Memory for the examples. -/
def sha1Stack : Totp.Stack .SHA1 := ⟨sha1Mem, List.replicate 8 0xcc#8, List.replicate 20 0xdd#8⟩
theorem sha1Stack_ok : otpStackOK .SHA1 sha1Stack := ⟨sha1Mem_ok, rfl, rfl⟩

/-- The secret of the RFC 4226 test vectors. -/
def rfcSecret : List Byte := str "12345678901234567890"

/-- The MAC for counter 0 of RFC 4226, appendix D. -/
theorem rfcMac0 : hmac (stdHash .SHA1 0) (blockBytes .SHA1) rfcSecret (bytesBE 8 0) = [0xcc#8, 0x93#8, 0xcf#8, 0x18#8, 0x50#8, 0x8d#8, 0x94#8, 0x93#8, 0x4c#8, 0x64#8, 0xb6#8, 0x5d#8, 0x8b#8, 0xa7#8, 0x66#8, 0x7f#8, 0xb7#8, 0xcd#8, 0xe4#8, 0xb0#8] := by
  have h1 : Sha.sha1 (xorPad 64 rfcSecret 0x36#8 ++ bytesBE 8 0) = [0x08#8, 0x91#8, 0xd9#8, 0xbe#8, 0x09#8, 0xbb#8, 0x16#8, 0xc7#8, 0xc8#8, 0x72#8, 0x2d#8, 0xf3#8, 0x68#8, 0xd8#8, 0x63#8, 0x50#8, 0x66#8, 0x7e#8, 0x49#8, 0x9e#8] := by
    rw [sha1_eval]; decide +kernel
  have h2 : Sha.sha1 (xorPad 64 rfcSecret 0x5c#8 ++ [0x08#8, 0x91#8, 0xd9#8, 0xbe#8, 0x09#8, 0xbb#8, 0x16#8, 0xc7#8, 0xc8#8, 0x72#8, 0x2d#8, 0xf3#8, 0x68#8, 0xd8#8, 0x63#8, 0x50#8, 0x66#8, 0x7e#8, 0x49#8, 0x9e#8]) = [0xcc#8, 0x93#8, 0xcf#8, 0x18#8, 0x50#8, 0x8d#8, 0x94#8, 0x93#8, 0x4c#8, 0x64#8, 0xb6#8, 0x5d#8, 0x8b#8, 0xa7#8, 0x66#8, 0x7f#8, 0xb7#8, 0xcd#8, 0xe4#8, 0xb0#8] := by
    rw [sha1_eval]; decide +kernel
  show hmac Sha.sha1 64 rfcSecret (bytesBE 8 0) = _
  rw [hmac, if_neg (by decide), hmacShort, h1, h2]

/-- The RFC 4226 value, computed inside the specification. -/
theorem rfcCode0 : stdHotp .SHA1 rfcSecret 0 6 = 755224 := by
  rw [stdHotp, rfcHotp, rfcMac0]
  decide +kernel

/-- The MAC for counter 1 of RFC 4226, appendix D. -/
theorem rfcMac1 : hmac (stdHash .SHA1 0) (blockBytes .SHA1) rfcSecret (bytesBE 8 1) = [0x75#8, 0xa4#8, 0x8a#8, 0x19#8, 0xd4#8, 0xcb#8, 0xe1#8, 0x00#8, 0x64#8, 0x4e#8, 0x8a#8, 0xc1#8, 0x39#8, 0x7e#8, 0xea#8, 0x74#8, 0x7a#8, 0x2d#8, 0x33#8, 0xab#8] := by
  have h1 : Sha.sha1 (xorPad 64 rfcSecret 0x36#8 ++ bytesBE 8 1) = [0xae#8, 0x39#8, 0x8a#8, 0xd2#8, 0xe5#8, 0x39#8, 0xd6#8, 0x5c#8, 0x5d#8, 0xa2#8, 0xda#8, 0x9c#8, 0x8a#8, 0x61#8, 0x34#8, 0x41#8, 0x97#8, 0x39#8, 0x3a#8, 0x8c#8] := by
    rw [sha1_eval]; decide +kernel
  have h2 : Sha.sha1 (xorPad 64 rfcSecret 0x5c#8 ++ [0xae#8, 0x39#8, 0x8a#8, 0xd2#8, 0xe5#8, 0x39#8, 0xd6#8, 0x5c#8, 0x5d#8, 0xa2#8, 0xda#8, 0x9c#8, 0x8a#8, 0x61#8, 0x34#8, 0x41#8, 0x97#8, 0x39#8, 0x3a#8, 0x8c#8]) = [0x75#8, 0xa4#8, 0x8a#8, 0x19#8, 0xd4#8, 0xcb#8, 0xe1#8, 0x00#8, 0x64#8, 0x4e#8, 0x8a#8, 0xc1#8, 0x39#8, 0x7e#8, 0xea#8, 0x74#8, 0x7a#8, 0x2d#8, 0x33#8, 0xab#8] := by
    rw [sha1_eval]; decide +kernel
  show hmac Sha.sha1 64 rfcSecret (bytesBE 8 1) = _
  rw [hmac, if_neg (by decide), hmacShort, h1, h2]

/-- The RFC 4226 value, computed inside the specification. -/
theorem rfcCode1 : stdHotp .SHA1 rfcSecret 1 6 = 287082 := by
  rw [stdHotp, rfcHotp, rfcMac1]
  decide +kernel

/-- RFC 4226 appendix D, counts 0 and 1. -/
theorem C37_example :
    hotp sha1Mem sha1Stack.counterH sha1Stack.outHash rfcSecret 20 0#64 6 = .ok 755224 ∧
    hotp sha1Mem sha1Stack.counterH sha1Stack.outHash rfcSecret 20 1#64 6 = .ok 287082 := by
  refine ⟨?_, ?_⟩
  · have := C37_hotp sha1Stack sha1Stack_ok rfcSecret (by decide) 0#64 6
    rw [show (0#64).toNat = 0 from rfl, rfcCode0] at this; exact this
  · have := C37_hotp sha1Stack sha1Stack_ok rfcSecret (by decide) 1#64 6
    rw [show (1#64).toNat = 1 from rfl, rfcCode1] at this; exact this

/-! ## C38 -/

theorem dynTruncate_lt (h : List Byte) (n : Nat) (v : W32) (e : dynTruncate h n = .ok v) : v.toNat < 2 ^ 31 := by
  rw [dynTruncate] at e
  cases h1 : rd h ((n + 2 ^ 64 - 1) % 2 ^ 64) with
  | error x => rw [h1] at e; exact absurd e (by simp)
  | ok last =>
    rw [h1, bind_ok] at e
    dsimp only at e
    revert e
    generalize forN 4 _ 0#32 = r
    intro e
    cases r with
    | error x => exact absurd e (by simp)
    | ok w =>
      simp only [bind_ok, Except.ok.injEq] at e
      rw [← e, BitVec.toNat_ushiftRight, BitVec.toNat_shiftLeft, Nat.shiftRight_eq_div_pow]
      omega

/-- **C38.** For every algorithm (also those for which it is computed from uninitialised memory), every secret,
counter and digit count: a returned value is below 2^31 and has at most the wanted number of digits. -/
theorem C38 (a : Alg) (g : HmacCtx.Mem (a.impl 0)) (ch oh secret : List Byte) (n : Nat) (c : W64) (d v : Nat)
    (h : hotpGeneric a g ch oh secret n c d = .ok v) : v < 2 ^ 31 ∧ v < 10 ^ d := by
  rw [hotpGeneric] at h
  cases h1 : wrs ch 0 (memBytes8 c) with
  | error x => rw [h1] at h; exact absurd h (by simp)
  | ok ch1 =>
  rw [h1, bind_ok] at h
  cases h2 : reverse ch1 0 7 with
  | error x => rw [h2] at h; exact absurd h (by simp)
  | ok ch2 =>
  rw [h2, bind_ok] at h
  cases h3 : pgfeHmac a g secret n ch2 8 oh with
  | error x => rw [h3] at h; exact absurd h (by simp)
  | ok mac =>
  rw [h3, bind_ok] at h
  cases h4 : dynTruncate mac a.digestSize with
  | error x => rw [h4] at h; exact absurd h (by simp)
  | ok w =>
  have hw := dynTruncate_lt _ _ _ h4
  rw [h4, bind_ok] at h
  by_cases hd : d < 10
  · rw [if_pos hd, tenPow_ok d hd, bind_ok, Except.ok.injEq] at h
    subst h
    exact ⟨Nat.lt_of_le_of_lt (Nat.mod_le _ _) hw, Nat.mod_lt _ (Nat.pow_pos (by decide))⟩
  · rw [if_neg hd, Except.ok.injEq] at h
    subst h
    exact ⟨hw, Nat.lt_of_lt_of_le hw (Nat.le_trans (by decide : 2 ^ 31 ≤ 10 ^ 10)
      (Nat.pow_le_pow_right (by decide) (by omega)))⟩

/-- **C38, fewer digits.**  A code with fewer digits is the end of the code with more digits (for the same memory), so a
server may compute the longest one and compare its last digits. -/
theorem C38_suffix (a : Alg) (g : HmacCtx.Mem (a.impl 0)) (ch oh secret : List Byte) (n : Nat) (c : W64) (d d' v : Nat)
    (hd : d ≤ d') (h : hotpGeneric a g ch oh secret n c d' = .ok v) :
    hotpGeneric a g ch oh secret n c d = .ok (v % 10 ^ d) := by
  have hmod := (C38 a g ch oh secret n c d' v h).2
  rw [hotpGeneric] at h ⊢
  cases h1 : wrs ch 0 (memBytes8 c) with
  | error x => rw [h1] at h; exact absurd h (by simp)
  | ok ch1 =>
  rw [h1, bind_ok] at h
  rw [bind_ok]
  cases h2 : reverse ch1 0 7 with
  | error x => rw [h2] at h; exact absurd h (by simp)
  | ok ch2 =>
  rw [h2, bind_ok] at h
  rw [bind_ok]
  cases h3 : pgfeHmac a g secret n ch2 8 oh with
  | error x => rw [h3] at h; exact absurd h (by simp)
  | ok mac =>
  rw [h3, bind_ok] at h
  rw [bind_ok]
  cases h4 : dynTruncate mac a.digestSize with
  | error x => rw [h4] at h; exact absurd h (by simp)
  | ok w =>
  have hw := dynTruncate_lt _ _ _ h4
  rw [h4, bind_ok] at h
  rw [bind_ok]
  by_cases h10 : d' < 10
  · rw [if_pos h10, tenPow_ok d' h10, bind_ok, Except.ok.injEq] at h
    rw [if_pos (by omega), tenPow_ok d (by omega), bind_ok, ← h, Nat.mod_mod_of_dvd _ (Nat.pow_dvd_pow 10 hd)]
  · rw [if_neg h10, Except.ok.injEq] at h
    subst h
    by_cases h9 : d < 10
    · rw [if_pos h9, tenPow_ok d h9, bind_ok]
    · rw [if_neg h9, Nat.mod_eq_of_lt (Nat.lt_of_lt_of_le hw (Nat.le_trans (by decide : 2 ^ 31 ≤ 10 ^ 10)
        (Nat.pow_le_pow_right (by decide) (by omega))))]

/-- **C38.** `generate_str(d)` with d >= 1 returns exactly d characters, all decimal digits, denoting the number
`generate(d)` returns; in every state of the object. -/
theorem C38_generate_str (a : Alg) (o : Totp a) (mem : Totp.Stack a) (d v : Nat) (hd : 1 ≤ d)
    (h : o.hcall (.generate mem d) = .ok (o, .code v)) :
    ∃ s, o.hcall (.generateStr mem d) = .ok (o, .text s) ∧ s.length = d ∧ (∀ b ∈ s, 0x30#8 ≤ b ∧ b ≤ 0x39#8) ∧
      decVal s = v := by
  have h' : (o.hotpGenerate mem d >>= fun v => (.ok (o, .code v) : C (Totp a × Totp.Res))) = .ok (o, .code v) := h
  cases e : o.hotpGenerate mem d with
  | error x => rw [e] at h'; exact absurd h' (by simp)
  | ok w =>
    rw [e, bind_ok, Except.ok.injEq, Prod.mk.injEq] at h'
    have hwv : w = v := Totp.Res.code.inj h'.2
    subst hwv
    have hb : w < 10 ^ d := by
      rw [Totp.hotpGenerate] at e
      cases hs : o.secret with
      | none => rw [hs] at e; exact absurd e (by simp)
      | some s => rw [hs] at e; exact (C38 _ _ _ _ _ _ _ _ _ e).2
    refine ⟨generateStr w d, ?_, ?_, ?_, ?_⟩
    · show (o.hotpGenerate mem d >>= fun v => (.ok (o, .text (generateStr v d)) : C (Totp a × Totp.Res))) = _
      rw [e]; rfl
    · rw [generateStr_eq w d hd hb, decDigits_length]
    · rw [generateStr_eq w d hd hb]; exact decDigits_isDigit d w
    · rw [generateStr_eq w d hd hb, decVal_decDigits, Nat.mod_eq_of_lt hb]

/-- A digit count of 0 gives the text "0" (one character). -/
theorem C38_zero_digits (a : Alg) (o : Totp a) (mem : Totp.Stack a) (r : Totp a × Totp.Res)
    (h : o.hcall (.generateStr mem 0) = .ok r) : r.2 = .text (str "0") := by
  have h' : (o.hotpGenerate mem 0 >>= fun v => (.ok (o, .text (generateStr v 0)) : C (Totp a × Totp.Res))) = .ok r := h
  cases e : o.hotpGenerate mem 0 with
  | error x => rw [e] at h'; exact absurd h' (by simp)
  | ok w =>
    have hw : w = 0 := by
      rw [Totp.hotpGenerate] at e
      cases hs : o.secret with
      | none => rw [hs] at e; exact absurd e (by simp)
      | some s =>
        rw [hs] at e
        have := (C38 _ _ _ _ _ _ _ _ _ e).2
        rw [Nat.pow_zero] at this
        omega
    rw [e, bind_ok, Except.ok.injEq] at h'
    subst hw
    rw [← h', generateStr, zeroPadLoop, if_neg (by omega), stdToString, if_pos (by decide)]
    rfl

/-- Concrete: the texts of RFC 4226's first value with 6, 8 and 12 digits (1284755224 is the full number). -/
theorem C38_example : decDigits 6 755224 = str "755224" ∧ decDigits 8 84755224 = str "84755224" ∧
    decDigits 12 1284755224 = str "001284755224" := by decide

/-- **C56.** `otp_to_string(otp, out, d)` writes the last d decimal digits of the number and a NUL, and nothing
else, for every number and every array of more than d characters. -/
theorem C56 (otp : W32) (d : Nat) (cs : List Byte) (h : d < cs.length) :
    ∃ s, otpToString otp cs d = .ok (s ++ 0#8 :: cs.drop (d + 1)) ∧ s.length = d ∧
      (∀ b ∈ s, 0x30#8 ≤ b ∧ b ≤ 0x39#8) ∧ decVal s = otp.toNat % 10 ^ d :=
  ⟨_, otpToString_ok otp d cs h, decDigits_length _ _, decDigits_isDigit _ _, decVal_decDigits _ _⟩

/-- Concrete: leading zeros are kept. -/
theorem C56_example : otpToString 1234#32 (List.replicate 8 0xcc#8) 6 = .ok (str "001234" ++ [0#8, 0xcc#8]) := by
  decide

/-! ## C39 -/

/-- **C39.** For SHA-1, SHA-2 and SHA-3: defined for every secret, counter and digit count, and independent of
the contents of uninitialised memory. -/
theorem C39_partial (a : Alg) (ha : isShake a = false) (h5 : a ≠ .MD5) (secret : List Byte) (c : W64) (d : Nat) :
    ∃ v, ∀ m : Totp.Stack a, otpStackOK a m →
      hotpGeneric a m.hmac m.counterH m.outHash secret secret.length c d = .ok v :=
  ⟨_, fun m hm => C37_long a ha h5 m hm secret c d⟩

/-- **C39, MD5, exact.** The call reads behind the 16-byte MAC exactly when the offset exceeds 12. -/
theorem C39_md5 (m : Totp.Stack .MD5) (hm : otpStackOK .MD5 m) (secret : List Byte) (hs : secret.length ≤ 64)
    (c : W64) (d : Nat) :
    hotpGeneric .MD5 m.hmac m.counterH m.outHash secret secret.length c d
      = if hotpOffset .MD5 secret c.toNat ≤ 12 then .ok (stdHotp .MD5 secret c.toNat d) else .error .oobRead := by
  rw [C37_exact .MD5 rfl m hm secret _ (Nat.le_refl _), List.take_length, List.take_of_length_le (by exact hs),
    show outSize .MD5 0 = 16 from rfl]
  by_cases h : hotpOffset .MD5 secret c.toNat ≤ 12
  · rw [if_pos h, if_pos (by omega)]
  · rw [if_neg h, if_neg (by omega)]

theorem md5Mac0 : hmac (stdHash .MD5 0) (blockBytes .MD5) rfcSecret (bytesBE 8 0) = [0x1c#8, 0x09#8, 0x13#8, 0x81#8, 0x3e#8, 0xe6#8, 0x6c#8, 0x1c#8, 0x88#8, 0x1e#8, 0xb6#8, 0x2b#8, 0xb5#8, 0xbe#8, 0x68#8, 0xef#8] := by
  have h1 : Md5.md5 (xorPad 64 rfcSecret 0x36#8 ++ bytesBE 8 0) = [0x5c#8, 0x9e#8, 0x34#8, 0x1b#8, 0xbb#8, 0x3f#8, 0xbd#8, 0xc4#8, 0xbb#8, 0x62#8, 0x71#8, 0x12#8, 0xa6#8, 0xc3#8, 0xb5#8, 0x8e#8] := by
    decide +kernel
  have h2 : Md5.md5 (xorPad 64 rfcSecret 0x5c#8 ++ [0x5c#8, 0x9e#8, 0x34#8, 0x1b#8, 0xbb#8, 0x3f#8, 0xbd#8, 0xc4#8, 0xbb#8, 0x62#8, 0x71#8, 0x12#8, 0xa6#8, 0xc3#8, 0xb5#8, 0x8e#8]) = [0x1c#8, 0x09#8, 0x13#8, 0x81#8, 0x3e#8, 0xe6#8, 0x6c#8, 0x1c#8, 0x88#8, 0x1e#8, 0xb6#8, 0x2b#8, 0xb5#8, 0xbe#8, 0x68#8, 0xef#8] := by
    decide +kernel
  show hmac Md5.md5 64 rfcSecret (bytesBE 8 0) = _
  rw [hmac, if_neg (by decide), hmacShort, h1, h2]

theorem md5Mac1 : hmac (stdHash .MD5 0) (blockBytes .MD5) rfcSecret (bytesBE 8 1) = [0x5e#8, 0x16#8, 0x7c#8, 0xad#8, 0xb4#8, 0x00#8, 0xf2#8, 0x5b#8, 0x38#8, 0x48#8, 0x39#8, 0xdc#8, 0x5f#8, 0x27#8, 0x4c#8, 0x70#8] := by
  have h1 : Md5.md5 (xorPad 64 rfcSecret 0x36#8 ++ bytesBE 8 1) = [0xba#8, 0xc7#8, 0x51#8, 0x99#8, 0xb7#8, 0x3a#8, 0x02#8, 0xdd#8, 0x9b#8, 0x20#8, 0x53#8, 0xc7#8, 0xdf#8, 0xe3#8, 0x99#8, 0xe5#8] := by
    decide +kernel
  have h2 : Md5.md5 (xorPad 64 rfcSecret 0x5c#8 ++ [0xba#8, 0xc7#8, 0x51#8, 0x99#8, 0xb7#8, 0x3a#8, 0x02#8, 0xdd#8, 0x9b#8, 0x20#8, 0x53#8, 0xc7#8, 0xdf#8, 0xe3#8, 0x99#8, 0xe5#8]) = [0x5e#8, 0x16#8, 0x7c#8, 0xad#8, 0xb4#8, 0x00#8, 0xf2#8, 0x5b#8, 0x38#8, 0x48#8, 0x39#8, 0xdc#8, 0x5f#8, 0x27#8, 0x4c#8, 0x70#8] := by
    decide +kernel
  show hmac Md5.md5 64 rfcSecret (bytesBE 8 1) = _
  rw [hmac, if_neg (by decide), hmacShort, h1, h2]

/-- **C39, violation.** MD5 with the RFC test secret: counter 0 reads outside, counter 1 does not. -/
theorem C39_md5_violation (m : Totp.Stack .MD5) (hm : otpStackOK .MD5 m) :
    hotpGeneric .MD5 m.hmac m.counterH m.outHash rfcSecret 20 0#64 6 = .error .oobRead ∧
    ∃ v, hotpGeneric .MD5 m.hmac m.counterH m.outHash rfcSecret 20 1#64 6 = .ok v := by
  have h0 := C39_md5 m hm rfcSecret (by decide) 0#64 6
  have h1 := C39_md5 m hm rfcSecret (by decide) 1#64 6
  rw [if_neg (by rw [hotpOffset, show (0#64).toNat = 0 from rfl, md5Mac0]; decide)] at h0
  rw [if_pos (by rw [hotpOffset, show (1#64).toNat = 1 from rfl, md5Mac1]; decide)] at h1
  exact ⟨h0, _, h1⟩

/-- **C39, violation.** For the four SHAKE variants the value is a function of the uninitialised array alone:
neither the secret nor the counter has any influence. -/
theorem C39_shake (a : Alg) (ha : isShake a = true) (g : HmacCtx.Mem (a.impl 0)) (ch oh : List Byte)
    (h8 : ch.length = 8) (ho : oh.length = a.digestSize) (secret : List Byte) (n : Nat) (c : W64) (d : Nat) :
    hotpGeneric a g ch oh secret n c d = .ok (DT oh % 10 ^ d) := by
  have h32 : 32 ≤ a.digestSize ∧ a.digestSize ≤ 64 := by
    cases a <;> first | exact absurd ha (by decide) | decide
  have hcb := counterBlock c ch h8
  rw [wrs_ok (by simp [memBytes8]; omega), bind_ok] at hcb
  rw [hotpGeneric, wrs_ok (by simp [memBytes8]; omega), bind_ok, hcb, bind_ok, C36_shake a ha, bind_ok, ← ho]
  have ho16 : (oh.getLastD 0#8).toNat % 16 < 16 := Nat.mod_lt _ (by decide)
  obtain ⟨v, e1, e2⟩ := dynTruncate_ok oh (by omega) (by omega) (by omega)
  rw [e1, bind_ok]
  by_cases hd : d < 10
  · rw [if_pos hd, tenPow_ok d hd, bind_ok, e2]
  · rw [if_neg hd, e2, Nat.mod_eq_of_lt (Nat.lt_of_lt_of_le (DT_lt oh)
      (Nat.le_trans (by decide : 2 ^ 31 ≤ 10 ^ 10) (Nat.pow_le_pow_right (by decide) (by omega))))]

/-- Hence the two contents of the array shown give different codes for the same call. -/
theorem C39_shake_example (g : HmacCtx.Mem (Alg.impl .SHAKE128 0)) (secret : List Byte) (n : Nat) (c : W64) :
    hotpGeneric .SHAKE128 g (List.replicate 8 0#8) (List.replicate 32 0#8) secret n c 6 = .ok 0 ∧
    hotpGeneric .SHAKE128 g (List.replicate 8 0#8) (List.replicate 32 1#8) secret n c 6 = .ok 843009 := by
  refine ⟨?_, ?_⟩
  · rw [C39_shake .SHAKE128 rfl g _ _ rfl rfl]; decide
  · rw [C39_shake .SHAKE128 rfl g _ _ rfl rfl]; decide

end Pgfe.Props
