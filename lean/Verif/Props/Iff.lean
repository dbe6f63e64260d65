import Verif.Props.Totp
/-!
# C08, C59: exactly when the properties hold
-/
namespace Pgfe.Props
open Pgfe.Model Pgfe.Spec Pgfe.Proofs

/-! ## C08 -/

theorem takeWhile_eq_iff (l : List Byte) : l.takeWhile (· != 0#8) = l ↔ 0#8 ∉ l := by
  constructor
  · intro h hm
    have := List.all_takeWhile (p := (· != 0#8)) (l := l)
    rw [h, List.all_eq_true] at this
    simpa using this _ hm
  · exact takeWhile_nozero l

theorem cutLast_eq_iff (u : Nat) (x : List Byte) : cutLast u x = x ↔ 0#8 ∉ x.drop ((x.length - 1) / u * u) := by
  rw [← takeWhile_eq_iff]
  unfold cutLast
  dsimp only
  constructor
  · intro h
    have h' : x = x.take ((x.length - 1) / u * u) ++ x.drop ((x.length - 1) / u * u) := (List.take_append_drop _ _).symm
    exact List.append_cancel_left (h.trans h')
  · intro h
    rw [h, List.take_append_drop]

/-- **C08, exactly when.**  Decoding the text of a non-empty input gives back the input if and only if its last group
(the bytes after the last complete group before the end) contains no zero byte. -/
theorem C08_iff (al : BaseAlg) (S : Slack) (hS : Roomy S) (g x junk out text rest dout : List Byte)
    (n : Nat) (hg : Scratch al g) (ho : Fits al x.length out) (hx : x ≠ [])
    (he : pgfeEncode al S g (x ++ junk) x.length out = .ok (n, text ++ 0#8 :: rest))
    (hn : text.length = n) (hd : DecFits al n dout) :
    Decoded (pgfeDecode al (text ++ 0#8 :: rest) dout) x ↔
      0#8 ∉ x.drop ((x.length - 1) / (specOf al).unit * (specOf al).unit) := by
  have h := C08_exact al S hS g x junk out text rest dout n hg ho hx he hn hd
  rw [← cutLast_eq_iff]
  exact ⟨fun h' => decoded_unique h h', fun e => by rwa [e] at h⟩

/-! ## C59 -/

/-- **C59, exactly when.**  A secret given as its base32 text is the secret of the object afterwards if and only if its
last group of five bytes contains no zero byte. -/
theorem C59_iff (a : Alg) (o : Totp a) (he : EncIdle o.base32) (hd : DecIdle o.base32) (x t : List Byte) (k : Nat)
    (hx : x ≠ []) (ht : rfcBase32.encode x = t ++ List.replicate k padChar)
    (hk : (rfcBase32.digits x).length ≤ t.length) (arg : Totp.SecretArg)
    (harg : (∃ rest, arg = .base32Cs .leftFirst (t ++ 0#8 :: rest)) ∨ arg = .base32Str .leftFirst t) :
    (∃ o', o.setSecretArg arg = .ok o' ∧ o'.secret = some x) ↔ 0#8 ∉ x.drop ((x.length - 1) / 5 * 5) := by
  obtain ⟨b, h, _⟩ := C59_exact a o he hd x t k hx ht hk arg harg
  rw [← cutLast_eq_iff, h]
  constructor
  · rintro ⟨o', e, hs⟩
    rw [Except.ok.injEq] at e
    rw [← e] at hs
    exact Option.some.inj hs
  · intro e
    exact ⟨_, rfl, by rw [e]⟩

theorem hmac_zeros (H : List Byte → List Byte) (B : Nat) (k : List Byte) (z : Nat) (text : List Byte)
    (h : k.length + z ≤ B) : hmac H B (k ++ List.replicate z 0#8) text = hmac H B k text := by
  have e : ∀ u, xorPad B (k ++ List.replicate z 0#8) u = xorPad B k u := by
    intro u
    unfold xorPad
    rw [List.append_assoc, List.replicate_append_replicate, List.length_append, List.length_replicate,
      show z + (B - (k.length + z)) = B - k.length by omega]
  unfold hmac
  rw [if_neg (by rw [List.length_append, List.length_replicate]; omega), if_neg (by omega)]
  unfold hmacShort
  rw [e, e]

/-- **C59, codes.**  If the zero bytes in the last group of the secret are at its end, and the secret is not longer than
a block, the codes are nevertheless those of the whole secret, for every counter and number of digits: HMAC completes the
key with zero bytes. -/
theorem C59_codes (a : Alg) (x p : List Byte) (z : Nat) (hx : x = p ++ List.replicate z 0#8)
    (hp : 0#8 ∉ p.drop ((x.length - 1) / 5 * 5)) (hz : (x.length - 1) / 5 * 5 ≤ p.length) (hl : x.length ≤ blockBytes a)
    (counter digits : Nat) : stdHotp a (cutLast 5 x) counter digits = stdHotp a x counter digits := by
  have hc : cutLast 5 x = p := by
    unfold cutLast
    dsimp only
    generalize (x.length - 1) / 5 * 5 = n at *
    rw [hx, List.take_append_of_le_length hz, List.drop_append_of_le_length hz, takeWhile_zeros, takeWhile_nozero _ hp,
      List.take_append_drop]
  rw [hc, hx]
  unfold stdHotp rfcHotp
  rw [hmac_zeros]
  rw [hx, List.length_append, List.length_replicate] at hl
  exact hl

/-- A six-byte secret with four zero bytes at the end, and one where the zero byte stands before another one. -/
theorem C59_iff_example :
    (0#8 ∈ (str "123456" ++ List.replicate 4 0#8).drop 5) ∧ cutLast 5 (str "123456" ++ List.replicate 4 0#8) = str "123456" ∧
    stdHotp .SHA1 (str "123456") 0 6 = stdHotp .SHA1 (str "123456" ++ List.replicate 4 0#8) 0 6 ∧
    stdHotp .SHA1 (cutLast 5 zsec) 0 6 ≠ stdHotp .SHA1 zsec 0 6 := by
  have hc : cutLast 5 (str "123456" ++ List.replicate 4 0#8) = str "123456" := by decide +kernel
  refine ⟨by decide +kernel, hc, ?_, ?_⟩
  · have := C59_codes .SHA1 (str "123456" ++ List.replicate 4 0#8) (str "123456") 4 rfl (by decide +kernel)
      (by decide +kernel) (by decide +kernel) 0 6
    rwa [hc] at this
  · rw [show cutLast 5 zsec = str "123456" by decide +kernel, zsecCutCode, zsecCode]
    decide

end Pgfe.Props
