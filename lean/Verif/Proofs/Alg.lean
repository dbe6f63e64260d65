import Verif.Spec.Alg
import Verif.Props.Sha
import Verif.Proofs.Md5Hash
import Verif.Proofs.KeccakHash
/-!
# Every algorithm is a correct hash implementation
-/
namespace Pgfe.Proofs.Hash
open Pgfe.Model Pgfe.Spec Pgfe.Props
open Pgfe.Proofs.Keccak (Fam sha3Fam shakeFam rawFam H_eq domSep_sha3 domSep_shake domSep_raw)

/-- The same implementation computes an equal function. -/
def HashOK.congr {I : HashImpl} {H H' : List Byte → List Byte} (K : HashOK I H) (h : H = H') : HashOK I H' :=
  h ▸ K

/-- The parameters a client sees. -/
structure Conf {I : HashImpl} {H : List Byte → List Byte} (K : HashOK I H) (WF : I.Ctx → Prop) (ds : Nat)
    (u t : Nat → Prop) : Prop where
  wf : ∀ g, WF g → K.WF g
  ds : K.ds = ds
  u : ∀ n, u n → K.okUpd n
  t : ∀ n, t n → K.okTot n

end Pgfe.Proofs.Hash

namespace Pgfe.Spec
open Pgfe.Model

/-- The context's arrays have the sizes of their declarations (for the KECCAK contexts nothing needs
to be assumed, since init overwrites all of it). -/
def memOK (a : Alg) (bits : Nat) : (a.impl bits).Ctx → Prop :=
  match a with
  | .MD5 => fun (g : Md5Ctx) => g.state.length = 4 ∧ g.block.length = 64
  | .SHA1 => fun (g : ShaCtx 32) => g.state.length = 5 ∧ g.block.length = 64
  | .SHA224 | .SHA256 => fun (g : ShaCtx 32) => g.state.length = 8 ∧ g.block.length = 64
  | .SHA384 | .SHA512 | .SHA512_224 | .SHA512_256 =>
    fun (g : ShaCtx 64) => g.state.length = 8 ∧ g.block.length = 128
  | .SHA3_224 | .SHA3_256 | .SHA3_384 | .SHA3_512 => fun (_ : KeccakCtx) => True
  | .RawSHAKE128 | .SHAKE128 | .RawSHAKE256 | .SHAKE256 => fun (_ : KeccakCtx) => True

end Pgfe.Spec

namespace Pgfe.Proofs.Hash
open Pgfe.Model Pgfe.Spec Pgfe.Props
open Pgfe.Proofs.Keccak (Fam sha3Fam shakeFam rawFam H_eq domSep_sha3 domSep_shake domSep_raw)

/-- The KECCAK family member of an algorithm. -/
def kfam (a : Alg) (bits : Nat) (hb : bits < 2 ^ 32) : Fam :=
  match a with
  | .SHA3_224 => sha3Fam 448 18 224 rfl (by decide) (by decide) (by decide)
  | .SHA3_256 => sha3Fam 512 17 256 rfl (by decide) (by decide) (by decide)
  | .SHA3_384 => sha3Fam 768 13 384 rfl (by decide) (by decide) (by decide)
  | .SHA3_512 => sha3Fam 1024 9 512 rfl (by decide) (by decide) (by decide)
  | .RawSHAKE128 => rawFam 256 21 bits rfl (by decide) (by decide) hb
  | .RawSHAKE256 => rawFam 512 17 bits rfl (by decide) (by decide) hb
  | .SHAKE256 => shakeFam 512 17 bits rfl (by decide) (by decide) hb
  | _ => shakeFam 256 21 bits rfl (by decide) (by decide) hb

theorem dsep3 : Keccak.DomSep [false, true] (Keccak.dsep 0x02#8 2) := by
  rw [show Keccak.dsep 0x02#8 2 = 0x06#8 by decide]; exact domSep_sha3
theorem dsepS : Keccak.DomSep [true, true, true, true] (Keccak.dsep 0x0f#8 4) := by
  rw [show Keccak.dsep 0x0f#8 4 = 0x1f#8 by decide]; exact domSep_shake
theorem dsepR : Keccak.DomSep [true, true] (Keccak.dsep 0x03#8 2) := by
  rw [show Keccak.dsep 0x03#8 2 = 0x07#8 by decide]; exact domSep_raw

theorem kfam_H (a : Alg) (ha : isKeccak a = true) (bits : Nat) (hb : bits < 2 ^ 32) :
    (kfam a bits hb).H = libHash a (bits / 8) := by
  funext m
  cases a
  case SHA3_224 =>
    have h := H_eq (kfam .SHA3_224 bits hb) 448 rfl _ dsep3 m
    rw [show 8 * ((kfam .SHA3_224 bits hb).bits / 8) = 224 from (by decide : 8 * ((224 : Nat) / 8) = 224)] at h
    exact h
  case SHA3_256 =>
    have h := H_eq (kfam .SHA3_256 bits hb) 512 rfl _ dsep3 m
    rw [show 8 * ((kfam .SHA3_256 bits hb).bits / 8) = 256 from (by decide : 8 * ((256 : Nat) / 8) = 256)] at h
    exact h
  case SHA3_384 =>
    have h := H_eq (kfam .SHA3_384 bits hb) 768 rfl _ dsep3 m
    rw [show 8 * ((kfam .SHA3_384 bits hb).bits / 8) = 384 from (by decide : 8 * ((384 : Nat) / 8) = 384)] at h
    exact h
  case SHA3_512 =>
    have h := H_eq (kfam .SHA3_512 bits hb) 1024 rfl _ dsep3 m
    rw [show 8 * ((kfam .SHA3_512 bits hb).bits / 8) = 512 from (by decide : 8 * ((512 : Nat) / 8) = 512)] at h
    exact h
  case RawSHAKE128 => exact H_eq (kfam .RawSHAKE128 bits hb) 256 rfl _ dsepR m
  case RawSHAKE256 => exact H_eq (kfam .RawSHAKE256 bits hb) 512 rfl _ dsepR m
  case SHAKE128 => exact H_eq (kfam .SHAKE128 bits hb) 256 rfl _ dsepS m
  case SHAKE256 => exact H_eq (kfam .SHAKE256 bits hb) 512 rfl _ dsepS m
  all_goals exact absurd ha (by decide)

theorem kfam_I (a : Alg) (ha : isKeccak a = true) (bits : Nat) (hb : bits < 2 ^ 32) :
    (kfam a bits hb).I = a.impl bits := by
  cases a <;> first | exact absurd ha (by decide) | rfl

theorem kfam_n (a : Alg) (ha : isKeccak a = true) (bits : Nat) (hb : bits < 2 ^ 32) :
    8 * (kfam a bits hb).n = a.blockSize := by
  cases a <;> first | exact absurd ha (by decide) | rfl

/-- All of them. -/
theorem exists_ok (a : Alg) (bits : Nat) (hb : bits < 2 ^ 32) :
    ∃ K : HashOK (a.impl bits) (libHash a (bits / 8)),
      Conf K (memOK a bits) (outSize a bits) (okUpd a) (okTot a) := by
  have hk : ∀ n : Nat, n ≤ 2 ^ 29 - 192 → 8 * n + 1536 ≤ 2 ^ 32 := by intro n h; omega
  cases a
  case MD5 => exact ⟨Pgfe.Proofs.Md5.hashOK, fun _ h => h, rfl, fun _ h => h, fun _ h => h⟩
  case SHA1 => exact ⟨hashOK_sha1, fun _ h => h, rfl, fun _ h => h, fun _ h => h⟩
  case SHA224 => exact ⟨hashOK_sha224, fun _ h => h, rfl, fun _ h => h, fun _ h => h⟩
  case SHA256 => exact ⟨hashOK_sha256, fun _ h => h, rfl, fun _ h => h, fun _ h => h⟩
  case SHA384 => exact ⟨hashOK_sha384, fun _ h => h, rfl, fun _ h => h, fun _ h => h⟩
  case SHA512 => exact ⟨hashOK_sha512, fun _ h => h, rfl, fun _ h => h, fun _ h => h⟩
  case SHA512_224 => exact ⟨hashOK_sha512_224, fun _ h => h, rfl, fun _ h => h, fun _ h => h⟩
  case SHA512_256 => exact ⟨hashOK_sha512_256, fun _ h => h, rfl, fun _ h => h, fun _ h => h⟩
  case SHA3_224 =>
    rw [← kfam_H .SHA3_224 rfl bits hb]
    exact ⟨(kfam .SHA3_224 bits hb).hashOK, fun _ _ => trivial,
      (by decide : (224 : Nat) / 8 = 28), hk, fun _ _ => trivial⟩
  case SHA3_256 =>
    rw [← kfam_H .SHA3_256 rfl bits hb]
    exact ⟨(kfam .SHA3_256 bits hb).hashOK, fun _ _ => trivial,
      (by decide : (256 : Nat) / 8 = 32), hk, fun _ _ => trivial⟩
  case SHA3_384 =>
    rw [← kfam_H .SHA3_384 rfl bits hb]
    exact ⟨(kfam .SHA3_384 bits hb).hashOK, fun _ _ => trivial,
      (by decide : (384 : Nat) / 8 = 48), hk, fun _ _ => trivial⟩
  case SHA3_512 =>
    rw [← kfam_H .SHA3_512 rfl bits hb]
    exact ⟨(kfam .SHA3_512 bits hb).hashOK, fun _ _ => trivial,
      (by decide : (512 : Nat) / 8 = 64), hk, fun _ _ => trivial⟩
  case RawSHAKE128 =>
    rw [← kfam_H .RawSHAKE128 rfl bits hb]
    exact ⟨(kfam .RawSHAKE128 bits hb).hashOK, fun _ _ => trivial, rfl, hk, fun _ _ => trivial⟩
  case RawSHAKE256 =>
    rw [← kfam_H .RawSHAKE256 rfl bits hb]
    exact ⟨(kfam .RawSHAKE256 bits hb).hashOK, fun _ _ => trivial, rfl, hk, fun _ _ => trivial⟩
  case SHAKE128 =>
    rw [← kfam_H .SHAKE128 rfl bits hb]
    exact ⟨(kfam .SHAKE128 bits hb).hashOK, fun _ _ => trivial, rfl, hk, fun _ _ => trivial⟩
  case SHAKE256 =>
    rw [← kfam_H .SHAKE256 rfl bits hb]
    exact ⟨(kfam .SHAKE256 bits hb).hashOK, fun _ _ => trivial, rfl, hk, fun _ _ => trivial⟩

end Pgfe.Proofs.Hash
