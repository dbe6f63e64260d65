import Verif.Props.Base
import Verif.Props.BaseClasses
import Verif.Props.Hex
import Verif.Props.Keccak
import Verif.Props.Totp
import Verif.Props.HmacEncoder
import Verif.Props.Blowfish
import Verif.Props.SdArgs
/-!
# Concrete cases

For the theorems that have no example next to them: applications to concrete, non-trivial arguments, with every
hypothesis discharged.
-/
namespace Pgfe.Props
open Pgfe Pgfe.Model Pgfe.Spec Pgfe.Proofs

/-- Three digits with prefix and suffix: two bytes. -/
theorem C05_example :
    hashLength (List.replicate 9 7#8) (str "0xabch" ++ [0#8]) = .ok 2 ∧
    (hexStringToHash (str "0xabch" ++ [0#8]) [0xee#8, 0xee#8, 0xee#8]).map (·.1) = .ok 2 ∧
    ∃ bytes, fromHexString (List.replicate 5 7#8) (str "xh zz9" ++ [0#8]) = .ok bytes ∧ bytes.length ≤ 3 := by
  obtain ⟨h1, h2⟩ := C05_length (str "0x") (str "abc") (str "h") [] (List.replicate 9 7#8) [0xee#8, 0xee#8, 0xee#8]
    (.inr (.inl rfl)) (.inr (.inl rfl)) (by unfold AllDigits; decide) (by decide) (by decide) (by decide)
  exact ⟨h1, h2, C05_from_hex_safe (str "xh zz9") [] (List.replicate 5 7#8) (by decide) (by decide) (by decide)⟩

/-- Seven bytes with zero bytes in both groups, base32: sixteen characters of the alphabet. -/
theorem C07_example : ∃ text,
    pgfeEncode .base32 ⟨[1#8], [2#8, 3#8]⟩ (List.replicate 8 7#8) [0#8, 1#8, 0#8, 0#8, 2#8, 0#8, 0#8] 7
      (List.replicate 18 9#8) = .ok (16, text ++ [0#8, 9#8]) ∧ text.length = 16 ∧ ∀ c ∈ text, InAlphabet .base32 c := by
  obtain ⟨text, h1, h2, h3⟩ := C07 .base32 ⟨[1#8], [2#8, 3#8]⟩ ⟨by decide, by decide⟩ (List.replicate 8 7#8)
    [0#8, 1#8, 0#8, 0#8, 2#8, 0#8, 0#8] [] (List.replicate 18 9#8) (by unfold Scratch; decide) (by unfold Fits; decide)
  have h2' : text.length = 16 := h2
  rw [h2'] at h1
  exact ⟨text, h1, h2', h3⟩

/-- "mzxW6==" against "MZXW6==", and the two base64 alphabets. -/
theorem C10_example :
    SameDecode (pgfeDecode .base32 (str "mzxW6===" ++ [0#8]) (List.replicate 6 1#8))
      (pgfeDecode .base32 (str "MZXW6===" ++ [0#8]) (List.replicate 9 2#8)) ∧
    SameDecode (pgfeDecode .base64 (str "a+/b" ++ [0#8]) (List.replicate 4 1#8))
      (pgfeDecode .base64 (str "a-_b" ++ [0#8]) (List.replicate 5 2#8)) :=
  ⟨C10_case .base32 (.inr (.inl rfl)) (str "mzxW6===") [] [] _ _ (by decide) (by decide)
      (by unfold DecFits; decide) (by unfold DecFits; decide),
    C10_url (str "a+/b") [] [] _ _ (by decide) (by decide) (by unfold DecFits; decide) (by unfold DecFits; decide)⟩

/-- With nothing behind the scratch arrays "f" is out of bounds; with three bytes there it is not. -/
theorem C11_example :
    (∃ e, pgfeEncode .base64 strictC (List.replicate 4 7#8) (str "f") 1 (List.replicate 9 0#8) = .error e ∧
      (e = .oobRead ∨ e = .oobWrite)) ∧
    ∃ r, pgfeEncode .base64 ⟨[1#8], [2#8, 3#8]⟩ (List.replicate 4 7#8) (str "f") 1 (List.replicate 9 0#8) = .ok r :=
  ⟨C11_overrun .base64 strictC (by rintro ⟨h, _⟩; exact absurd h (by decide)) (List.replicate 4 7#8) (str "f") [] _
      (by decide) (by unfold Scratch; decide),
    (C11_partial .base64 ⟨[1#8], [2#8, 3#8]⟩ ⟨[1#8], [2#8, 3#8]⟩ ⟨by decide, by decide⟩ ⟨by decide, by decide⟩
      (List.replicate 4 7#8) (List.replicate 4 7#8) (str "f") [] [] (List.replicate 9 0#8) (by unfold Scratch; decide)
      (by unfold Scratch; decide) (by unfold Fits; decide)).2⟩

/-- Five characters and seven bytes of output: base64 writes at most seven. -/
theorem C12_example : ∃ n o, pgfeDecode .base64 (str "Zm9vY" ++ [0#8]) (List.replicate 9 1#8) = .ok (n, o) ∧ o.length = 9 ∧
    n ≤ 6 ∧ o.drop 7 = [1#8, 1#8] :=
  C12 .base64 (str "Zm9vY") [] (List.replicate 9 1#8) (by decide) (by decide) (by unfold DecFits; decide)

/-- Two threads, one encoding twice, one decoding and encoding, and a schedule that interleaves them. -/
def twoThreads : Nat → List BaseCall
  | 0 => [.enc ⟨[0#8], [0#8, 0#8]⟩ (List.replicate 8 1#8) (str "foobar"), .enc ⟨[4#8], [0#8, 0#8]⟩ (List.replicate 8 0#8) [0#8]]
  | 1 => [.dec (str "MZXW6YTBOI"), .enc ⟨[0#8], [0#8, 0#8]⟩ (List.replicate 8 2#8) (List.replicate 100 3#8)]
  | _ => []

theorem twoThreads_ok : ∀ i, ∀ c ∈ twoThreads i, ValidCall (libBase .base32) c := by
  intro i c hc
  match i, hc with
  | 0, hc =>
    simp only [twoThreads, List.mem_cons, List.not_mem_nil, or_false] at hc
    rcases hc with rfl | rfl
    · exact ⟨⟨by decide, by decide⟩, by unfold Scratch; decide⟩
    · exact ⟨⟨by decide, by decide⟩, by unfold Scratch; decide⟩
  | 1, hc =>
    simp only [twoThreads, List.mem_cons, List.not_mem_nil, or_false] at hc
    rcases hc with rfl | rfl
    · exact ⟨by decide, by decide⟩
    · exact ⟨⟨by decide, by decide⟩, by unfold Scratch; decide⟩
  | n + 2, hc => simp [twoThreads] at hc

theorem C14_example : ∃ s, sysRun (libBase .base32) [0, 1, 1, 0, 0, 0, 1, 1, 0, 1, 1, 0, 0, 1] (sysInit twoThreads) = .ok s ∧
    ∀ i, ∀ cr ∈ (s.threads i).done, IsResult (libBase .base32) cr.1 cr.2 := by
  obtain ⟨s, h1, h2, _⟩ := C14_double .base32 twoThreads twoThreads_ok [0, 1, 1, 0, 0, 0, 1, 1, 0, 1, 1, 0, 0, 1]
  exact ⟨s, h1, h2⟩

/-- A SHA3-256 context with three bytes, then a digest, further updates and a second digest: as without the
updates. -/
theorem C25_example (c : KeccakCtx) :
    kcalls (fun _ => sha3Digest) c [.digest 0 (List.replicate 32 0#8), .update (str "more"), .digest 0 (List.replicate 32 0#8)]
      = kcalls (fun _ => sha3Digest) c [.digest 0 (List.replicate 32 0#8), .digest 0 (List.replicate 32 0#8)] :=
  C25_sha3 c 0 _ [.update (str "more"), .digest 0 (List.replicate 32 0#8)]

/-- SHA-384, after a history with two digests and 300 bytes. -/
theorem C30_example : ∃ c₁ c₂ outs,
    (do let c ← (Alg.impl .SHA384 0).init ⟨List.replicate 8 3#64, 8#64, 9#64, 7, List.replicate 128 0xff#8⟩
        let r ← (Alg.impl .SHA384 0).calls c [.update (List.replicate 300 5#8), .digest (List.replicate 48 0#8),
          .digest (List.replicate 50 1#8)]
        let c ← (Alg.impl .SHA384 0).init r.1
        (Alg.impl .SHA384 0).calls c [.update (str "abc"), .digest (List.replicate 48 0#8)]) = .ok (c₁, outs) ∧
    (do let c ← (Alg.impl .SHA384 0).init ⟨List.replicate 8 0#64, 0#64, 0#64, 0, List.replicate 128 0#8⟩
        (Alg.impl .SHA384 0).calls c [.update (str "abc"), .digest (List.replicate 48 0#8)]) = .ok (c₂, outs) := by
  refine C30_history .SHA384 0 (by decide) _ _ ⟨rfl, rfl⟩ ⟨rfl, rfl⟩ _ _
    (by show 8 * _ < _; simp only [totalInput, List.map_cons, List.map_nil, List.sum_cons, List.sum_nil, List.length_replicate]; decide) (by show 8 * _ < _; decide) ?_ ?_
  · intro x hx
    simp only [List.cons_append, List.nil_append, List.mem_cons, List.not_mem_nil, or_false, HashImpl.Call.update.injEq,
      reduceCtorEq, false_or] at hx
    rcases hx with rfl | rfl
    · show List.length _ < 2 ^ 31; rw [List.length_replicate]; decide
    · show List.length _ < 2 ^ 31; decide
  · intro x hx
    simp only [List.cons_append, List.nil_append, List.mem_cons, List.not_mem_nil, or_false, HashImpl.Call.digest.injEq,
      reduceCtorEq, false_or] at hx
    rcases hx with rfl | rfl | rfl <;> rw [List.length_replicate] <;> decide

/-- SHAKE128 with 80 bits of output into buffers of 10 and 12 bytes. -/
theorem C54_example (g : KeccakCtx) : ∃ d : List Byte, d.length = 10 ∧
    (Alg.impl .SHAKE128 80).session g [str "ab", [], str "c"] (List.replicate 10 0#8) = .ok d ∧
    (Alg.impl .SHAKE128 80).session g [str "ab", [], str "c"] (List.replicate 12 9#8) = .ok (d ++ [9#8, 9#8]) := by
  have hp : ∀ p ∈ [str "ab", [], str "c"], okUpd .SHAKE128 p.length := by
    intro p hp
    simp only [List.mem_cons, List.not_mem_nil, or_false] at hp
    rcases hp with rfl | rfl | rfl <;> (show List.length _ ≤ _; decide)
  obtain ⟨d, hd, h⟩ := C54 .SHAKE128 80 (by decide) g trivial _ hp trivial
  refine ⟨d, hd, ?_, h (List.replicate 12 9#8) (by decide)⟩
  have := h (List.replicate 10 0#8) (by decide)
  rw [this]
  show Except.ok (d ++ []) = _
  rw [List.append_nil]

/-- HMAC-SHA-1 without `set_key`, "abc" in two parts. -/
theorem C55_example :
    HmacCtx.noKeySession (Alg.impl .SHA1 0) (Alg.blockSize .SHA1) (Alg.digestSize .SHA1) sha1Mem.mid sha1Mem.inner sha1Mem.ctx
      [str "a", str "bc"] (List.replicate 20 0#8) = .ok (hmac (libHash .SHA1 0) 64 [] (str "abc")) := by
  rw [C55 .SHA1 rfl sha1Mem.ctx sha1Mem_ok.1 _ sha1Mem_ok.2.1 _ sha1Mem_ok.2.2 [str "a", str "bc"]
    (by show ∀ p ∈ _, List.length p < 2 ^ 31; decide) (by show 8 * _ < 2 ^ 64; decide) _ (by decide)]
  show Except.ok (_ ++ []) = _
  rw [List.append_nil]
  rfl

/-- The secret is changed after a code was generated at time 30. -/
theorem C57_example : ∃ o o' v : _, exObj.generate 30 30 sha1Stack 6 = .ok (o, 287082) ∧
    (o.setSecret (str "other")).generate 30 30 sha1Stack 6 = .ok (o', v) ∧ v = stdHotp .SHA1 (str "other") o'.co.toNat 6 := by
  have hr : (({ exObj with updateTime := 30, co := 1#64, delta := 30 } : Totp .SHA1).setSecret (str "other")).remainingTime 30
      = .ok 30 := by decide
  have h : (({ exObj with updateTime := 30, co := 1#64, delta := 30 } : Totp .SHA1).setSecret (str "other")).generate 30 30 sha1Stack 6
      = .ok (({ exObj with updateTime := 30, co := 1#64, delta := 30 } : Totp .SHA1).setSecret (str "other"),
          stdHotp .SHA1 (str "other") 1 6) := by
    rw [Totp.generate, Totp.refresh, hr, bind_ok, if_neg (by decide), bind_ok,
      hotpGenerate_ok .SHA1 rfl (by decide) _ (str "other") rfl sha1Stack sha1Stack_ok 6, bind_ok,
      show (str "other").take (blockBytes .SHA1) = str "other" by decide]
    rfl
  refine ⟨_, _, _, exGen30, h, ?_⟩
  have := (C57 .SHA1 rfl (by decide) _ _ sha1Stack sha1Stack sha1Stack_ok sha1Stack_ok 6 6 30 30 _ _ h).1
  rw [show (str "other").take (blockBytes .SHA1) = str "other" by decide] at this
  exact this

/-- Five seconds before T0, interval 30. -/
theorem C60_example : calcPeriodicCounter 95 30 100 = .ok (0#64, 35) :=
  C40_before 95 100 30 (by decide) (by decide) (by decide)

/-- SHA-256 on memory that held SHA-1. -/
theorem C64_example : ∃ o, HmacEnc.construct someHmacObj .SHA256 (str "key") 3 = .ok o ∧ o.curAlg = some .SHA256 ∧
    o.digsz = 32 ∧ o.blocksz = 64 :=
  C64_hmac_partial .SHA256 rfl someHmacObj someHmacObj_ok (by decide) (str "key") 3 (by decide)

/-- A new object, interval 30 replaced by 60: the next code is that of step 1 of the new intervals. -/
theorem C42_example : ∃ o', ((exObj.setInterval 60).setInitialTime 0).generate 90 90 sha1Stack 6 = .ok (o', 287082) := by
  obtain ⟨o', h⟩ := C42_partial .SHA1 rfl (by decide) exObj rfcSecret rfl sha1Stack sha1Stack_ok 6 90 90
    ⟨by decide, by decide⟩ ⟨by decide, by decide⟩ ⟨by decide, by decide⟩ ⟨by decide, by decide⟩ 60 (by decide) (by decide) 0
    ⟨by decide, by decide⟩ (by decide) (-90) (by decide) (by decide)
  refine ⟨o', ?_⟩
  rw [h, show (timeStep 90 0 60).toNat = 1 by decide, show rfcSecret.take (blockBytes .SHA1) = rfcSecret by decide, rfcCode1]

/-- The base32 text of the RFC 4226 secret, without padding. -/
theorem C59_example : ∃ o', (Totp.create .SHA1 0#64 0).setSecretArg
      (.base32Str .leftFirst (str "GEZDGNBVGY3TQOJQGEZDGNBVGY3TQOJQ")) = .ok o' ∧ o'.secret = some rfcSecret := by
  have henc : rfcBase32.encode rfcSecret = str "GEZDGNBVGY3TQOJQGEZDGNBVGY3TQOJQ" := by decide +kernel
  exact C59_partial .SHA1 (Totp.create .SHA1 0#64 0) init_idle.1 init_idle.2 rfcSecret _ 0 (by decide)
    (by rw [henc]; decide) (by decide +kernel) (by decide) _ (.inr rfl)

/-- Twelve bytes and two: the first fit, the second overflow. -/
theorem C46_example :
    (∃ y, Bf.encryptArg bfMem (List.replicate 8 0xaa#8) (.str (str "twelve bytes")) = .ok y) ∧
    ¬ ∃ y, Bf.encryptArg bfMem (List.replicate 8 0xaa#8) (.str (str "no")) = .ok y :=
  ⟨(C46_exact bfMem bfMem_ok _ rfl (.str (str "twelve bytes")) trivial).mpr (by decide),
    fun h => (C46_exact bfMem bfMem_ok _ rfl (.str (str "no")) trivial).mp h (by decide)⟩

/-- A file of 2048 bytes, and the empty one. -/
theorem C17_example : md5Impl.encodeF ⟨List.replicate 4 1#32, 0#64, List.replicate 64 3#8⟩ (List.replicate 1024 5#8)
      (List.replicate 2048 0x61#8) (List.replicate 16 0#8) = .error .uninit ∧
    md5Impl.session ⟨List.replicate 4 1#32, 0#64, List.replicate 64 3#8⟩ [] (List.replicate 17 7#8)
      = .ok (Pgfe.Spec.Md5.md5 [] ++ [7#8]) :=
  ⟨C17_encode_f _ rfl List.length_replicate _ _ _ List.length_replicate (by rw [List.length_replicate]),
    (C17_partial _ rfl List.length_replicate (List.replicate 17 7#8) (by decide)).1⟩

/-- A MAC with a SHAKE choice leaves the buffer as it was. -/
theorem C36_shake_example (g) : pgfeHmac .SHAKE256 g (str "key") 3 (str "data") 4 [1#8, 2#8] = .ok [1#8, 2#8] :=
  C36_shake .SHAKE256 rfl g _ _ _ _ _

end Pgfe.Props
