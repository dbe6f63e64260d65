import Verif.Props.Sha
import Verif.Proofs.Collision
/-!
# C18, C19, C20: when exactly a SHA digest is the standard's

When a second padding block is needed, the library compresses a last block that begins with message bytes where the
standard has zeros.  The digest is right if and only if that makes no difference to the compression function.
-/
namespace Pgfe.Props
open Pgfe.Model Pgfe.Proofs Pgfe.Proofs.Hash Pgfe.Proofs.Sha
open Pgfe.Spec.Sha (natOfBytes bytesOfNat bytesOfWord blocks padZeros pad stalePad V5 V8 P256 P512 Sha2)

/-- Everything before the last block of the padded message, when a second padding block is needed: the message, the
byte 0x80 and zeros up to the end of the block. -/
def filled (bs : Nat) (m : List Byte) : List Byte :=
  m ++ [0x80#8] ++ List.replicate (bs - m.length % bs - 1) 0x00#8

/-- The last block the standard prescribes in that case: zeros and the length. -/
def lastStd (bs lb : Nat) (m : List Byte) : List Byte :=
  List.replicate (bs - lb) 0x00#8 ++ bytesOfNat lb (8 * m.length)

/-- The last block the library uses: the beginning of the unfinished block of the message, and the length. -/
def lastLib (bs lb : Nat) (m : List Byte) : List Byte :=
  (m.drop (m.length / bs * bs)).take (bs - lb) ++ bytesOfNat lb (8 * m.length)

theorem filled_mod (bs : Nat) (hb : 0 < bs) (m : List Byte) : (filled bs m).length % bs = 0 := by
  have h1 := Nat.mod_lt m.length hb
  have h2 := Nat.div_add_mod m.length bs
  have e : (filled bs m).length = bs * (m.length / bs + 1) := by
    rw [filled, List.length_append, List.length_append, List.length_replicate, List.length_singleton, Nat.mul_succ]
    omega
  rw [e, Nat.mul_mod_right]

theorem pad_filled (bs lb : Nat) (hlb : lb < bs) (m : List Byte) (h : bs - lb ≤ m.length % bs) :
    pad bs lb m = filled bs m ++ lastStd bs lb m := by
  have h1 := Nat.mod_lt m.length (by omega : 0 < bs)
  have h2 := Nat.div_add_mod m.length bs
  have e : (m.length + 1 + lb) % bs = m.length % bs + 1 + lb - bs := by
    have : m.length + 1 + lb = (m.length % bs + 1 + lb - bs) + bs * (m.length / bs + 1) := by
      rw [Nat.mul_succ]; omega
    rw [this, Nat.add_mul_mod_self_left, Nat.mod_eq_of_lt (by omega)]
  have e2 : padZeros bs lb m.length = (bs - m.length % bs - 1) + (bs - lb) := by
    rw [padZeros, e, Nat.mod_eq_of_lt (by omega)]; omega
  rw [pad, e2, ← List.replicate_append_replicate, filled, lastStd]
  simp only [List.append_assoc]

theorem stalePad_filled (bs lb : Nat) (m : List Byte) (h : bs - lb ≤ m.length % bs) :
    stalePad bs lb m = filled bs m ++ lastLib bs lb m := by
  rw [stalePad, if_neg (by omega), filled, lastLib]
  simp only [List.append_assoc]

theorem tailPart_length (bs lb : Nat) (m : List Byte) (h : bs - lb ≤ m.length % bs) :
    ((m.drop (m.length / bs * bs)).take (bs - lb)).length = bs - lb := by
  have h2 := Nat.div_add_mod m.length bs
  rw [List.length_take, List.length_drop, Nat.mul_comm]
  omega

theorem fold_std {α : Type} (f : α → List Byte → α) (H : α) (bs lb : Nat) (hlb : lb < bs) (m : List Byte)
    (h : bs - lb ≤ m.length % bs) :
    (blocks bs (pad bs lb m)).foldl f H = f ((blocks bs (filled bs m)).foldl f H) (lastStd bs lb m) := by
  rw [pad_filled bs lb hlb m h, blocks_append bs (by omega) _ _ (filled_mod bs (by omega) m), List.foldl_append,
    blocks_one bs (by omega) (lastStd bs lb m) (by
      rw [lastStd, List.length_append, List.length_replicate]; simp [bytesOfNat]; omega)]
  rfl

theorem fold_lib {α : Type} (f : α → List Byte → α) (H : α) (bs lb : Nat) (hlb : lb < bs) (m : List Byte)
    (h : bs - lb ≤ m.length % bs) :
    (blocks bs (stalePad bs lb m)).foldl f H = f ((blocks bs (filled bs m)).foldl f H) (lastLib bs lb m) := by
  rw [stalePad_filled bs lb m h, blocks_append bs (by omega) _ _ (filled_mod bs (by omega) m), List.foldl_append,
    blocks_one bs (by omega) (lastLib bs lb m) (by
      rw [lastLib, List.length_append, tailPart_length bs lb m h]; simp [bytesOfNat]; omega)]
  rfl

/-- The two last blocks are the same if and only if the message bytes are zeros. -/
theorem last_eq (bs lb : Nat) (m : List Byte) (h : bs - lb ≤ m.length % bs) :
    lastLib bs lb m = lastStd bs lb m ↔ ∀ b ∈ (m.drop (m.length / bs * bs)).take (bs - lb), b = 0#8 := by
  rw [lastLib, lastStd, List.append_cancel_right_eq, List.eq_replicate_iff]
  exact ⟨fun e => e.2, fun e => ⟨tailPart_length bs lb m h, e⟩⟩

theorem append_iff (a b x : List Byte) : (Except.ok (a ++ x) : C (List Byte)) = .ok (b ++ x) ↔ a = b := by
  rw [Except.ok.injEq, List.append_cancel_right_eq]

/-- **C18, exactly when (SHA-1).** For every message that needs a second padding block, the digest is the standard's
if and only if the compression function, continued from the state `H` after the message, has the same value at the
library's last block and at the standard's, which differ unless the message bytes in question are zeros
(`C18_last_blocks`). -/
theorem C18_sha1_iff (g : ShaCtx 32) (hs : g.state.length = 5) (hb : g.block.length = 64)
    (parts : List (List Byte)) (hp : ∀ p ∈ parts, p.length < 2 ^ 31)
    (ht : 8 * parts.flatten.length < 2 ^ 64) (out : List Byte) (ho : 20 ≤ out.length)
    (hr : 56 ≤ parts.flatten.length % 64) :
    let H := (blocks 64 (filled 64 parts.flatten)).foldl Pgfe.Spec.Sha.sha1Compress Pgfe.Spec.Sha.sha1H0
    sha1Impl.session g parts out = .ok (Pgfe.Spec.Sha.sha1 parts.flatten ++ out.drop 20) ↔
      Pgfe.Spec.Sha.sha1Compress H (lastLib 64 8 parts.flatten)
        = Pgfe.Spec.Sha.sha1Compress H (lastStd 64 8 parts.flatten) := by
  intro H
  rw [C18_sha1_exact g hs hb parts hp ht out ho, append_iff]
  show (List.foldl Pgfe.Spec.Sha.sha1Compress Pgfe.Spec.Sha.sha1H0 (blocks 64 (stalePad 64 8 parts.flatten))).bytes
    = (List.foldl Pgfe.Spec.Sha.sha1Compress Pgfe.Spec.Sha.sha1H0 (blocks 64 (pad 64 8 parts.flatten))).bytes ↔ _
  rw [fold_std _ _ 64 8 (by decide) _ hr, fold_lib _ _ 64 8 (by decide) _ hr]
  exact ⟨fun e => Pgfe.Proofs.Coll.V5_inj _ _ e, fun e => by rw [e]⟩

/-- **C18–C20, the two last blocks.** They differ if and only if one of the message bytes that the library leaves in
the block is not zero; so for such a message a digest that agrees with the standard's is a collision. -/
theorem C18_last_blocks (bs lb : Nat) (m : List Byte) (h : bs - lb ≤ m.length % bs) :
    lastLib bs lb m ≠ lastStd bs lb m ↔ ∃ b ∈ (m.drop (m.length / bs * bs)).take (bs - lb), b ≠ 0#8 := by
  rw [ne_eq, last_eq bs lb m h]
  constructor
  · intro h
    refine Classical.byContradiction fun h2 => h fun b hb => ?_
    exact Classical.byContradiction fun h3 => h2 ⟨b, hb, h3⟩
  · intro ⟨b, hb, h1⟩ h2
    exact h1 (h2 b hb)

/-- **C19, exactly when (SHA-224).** For every message that needs a second padding block, the digest is the standard's
if and only if the compression function, continued from the state `H` after the message, has values with the same first 28 bytes at the
library's last block and at the standard's. -/
theorem C19_sha224_iff (g : ShaCtx 32) (hs : g.state.length = 8) (hb : g.block.length = 64)
    (parts : List (List Byte)) (hp : ∀ p ∈ parts, p.length < 2 ^ 31)
    (ht : 8 * parts.flatten.length < 2 ^ 64) (out : List Byte) (ho : 28 ≤ out.length)
    (hr : 56 ≤ parts.flatten.length % 64) :
    let H := (blocks 64 (filled 64 parts.flatten)).foldl P256.compress Pgfe.Spec.Sha.sha224H0
    sha224Impl.session g parts out = .ok (Pgfe.Spec.Sha.sha224 parts.flatten ++ out.drop 28) ↔
      (P256.compress H (lastLib 64 8 parts.flatten)).bytes.take 28
        = (P256.compress H (lastStd 64 8 parts.flatten)).bytes.take 28 := by
  intro H
  rw [C19_sha224_exact g hs hb parts hp ht out ho, append_iff]
  show (List.foldl P256.compress Pgfe.Spec.Sha.sha224H0 (blocks 64 (stalePad 64 8 parts.flatten))).bytes.take 28
    = (List.foldl P256.compress Pgfe.Spec.Sha.sha224H0 (blocks 64 (pad 64 8 parts.flatten))).bytes.take 28 ↔ _
  rw [fold_std _ _ 64 8 (by decide) _ hr, fold_lib _ _ 64 8 (by decide) _ hr]

/-- **C19, exactly when (SHA-256).** For every message that needs a second padding block, the digest is the standard's
if and only if the compression function, continued from the state `H` after the message, has the same value at the library's last
block and at the standard's. -/
theorem C19_sha256_iff (g : ShaCtx 32) (hs : g.state.length = 8) (hb : g.block.length = 64)
    (parts : List (List Byte)) (hp : ∀ p ∈ parts, p.length < 2 ^ 31)
    (ht : 8 * parts.flatten.length < 2 ^ 64) (out : List Byte) (ho : 32 ≤ out.length)
    (hr : 56 ≤ parts.flatten.length % 64) :
    let H := (blocks 64 (filled 64 parts.flatten)).foldl P256.compress Pgfe.Spec.Sha.sha256H0
    sha256Impl.session g parts out = .ok (Pgfe.Spec.Sha.sha256 parts.flatten ++ out.drop 32) ↔
      P256.compress H (lastLib 64 8 parts.flatten) = P256.compress H (lastStd 64 8 parts.flatten) := by
  intro H
  rw [C19_sha256_exact g hs hb parts hp ht out ho, append_iff]
  show (List.foldl P256.compress Pgfe.Spec.Sha.sha256H0 (blocks 64 (stalePad 64 8 parts.flatten))).bytes
    = (List.foldl P256.compress Pgfe.Spec.Sha.sha256H0 (blocks 64 (pad 64 8 parts.flatten))).bytes ↔ _
  rw [fold_std _ _ 64 8 (by decide) _ hr, fold_lib _ _ 64 8 (by decide) _ hr]
  exact ⟨fun e => Pgfe.Proofs.Coll.V8_inj 4 (by decide) _ _ e, fun e => by rw [e]⟩

/-- **C20, exactly when (SHA-384).** For every message that needs a second padding block, the digest is the standard's
if and only if the compression function, continued from the state `H` after the message, has values with the same first 48 bytes at the
library's last block and at the standard's. -/
theorem C20_sha384_iff (g : ShaCtx 64) (hs : g.state.length = 8) (hb : g.block.length = 128)
    (parts : List (List Byte)) (hp : ∀ p ∈ parts, p.length < 2 ^ 31)
    (ht : 8 * parts.flatten.length < 2 ^ 128) (out : List Byte) (ho : 48 ≤ out.length)
    (hr : 112 ≤ parts.flatten.length % 128) :
    let H := (blocks 128 (filled 128 parts.flatten)).foldl P512.compress Pgfe.Spec.Sha.sha384H0
    sha384Impl.session g parts out = .ok (Pgfe.Spec.Sha.sha384 parts.flatten ++ out.drop 48) ↔
      (P512.compress H (lastLib 128 16 parts.flatten)).bytes.take 48
        = (P512.compress H (lastStd 128 16 parts.flatten)).bytes.take 48 := by
  intro H
  rw [C20_sha384_exact g hs hb parts hp ht out ho, append_iff]
  show (List.foldl P512.compress Pgfe.Spec.Sha.sha384H0 (blocks 128 (stalePad 128 16 parts.flatten))).bytes.take 48
    = (List.foldl P512.compress Pgfe.Spec.Sha.sha384H0 (blocks 128 (pad 128 16 parts.flatten))).bytes.take 48 ↔ _
  rw [fold_std _ _ 128 16 (by decide) _ hr, fold_lib _ _ 128 16 (by decide) _ hr]

/-- **C20, exactly when (SHA-512).** For every message that needs a second padding block, the digest is the standard's
if and only if the compression function, continued from the state `H` after the message, has the same value at the library's last
block and at the standard's. -/
theorem C20_sha512_iff (g : ShaCtx 64) (hs : g.state.length = 8) (hb : g.block.length = 128)
    (parts : List (List Byte)) (hp : ∀ p ∈ parts, p.length < 2 ^ 31)
    (ht : 8 * parts.flatten.length < 2 ^ 128) (out : List Byte) (ho : 64 ≤ out.length)
    (hr : 112 ≤ parts.flatten.length % 128) :
    let H := (blocks 128 (filled 128 parts.flatten)).foldl P512.compress Pgfe.Spec.Sha.sha512H0
    sha512Impl.session g parts out = .ok (Pgfe.Spec.Sha.sha512 parts.flatten ++ out.drop 64) ↔
      P512.compress H (lastLib 128 16 parts.flatten) = P512.compress H (lastStd 128 16 parts.flatten) := by
  intro H
  rw [C20_sha512_exact g hs hb parts hp ht out ho, append_iff]
  show (List.foldl P512.compress Pgfe.Spec.Sha.sha512H0 (blocks 128 (stalePad 128 16 parts.flatten))).bytes
    = (List.foldl P512.compress Pgfe.Spec.Sha.sha512H0 (blocks 128 (pad 128 16 parts.flatten))).bytes ↔ _
  rw [fold_std _ _ 128 16 (by decide) _ hr, fold_lib _ _ 128 16 (by decide) _ hr]
  exact ⟨fun e => Pgfe.Proofs.Coll.V8_inj 8 (by decide) _ _ e, fun e => by rw [e]⟩

/-- **C20, exactly when (SHA-512/224).** For every message that needs a second padding block, the digest is the standard's
if and only if the compression function, continued from the state `H` after the message, has values with the same first 28 bytes at the
library's last block and at the standard's. -/
theorem C20_sha512_224_iff (g : ShaCtx 64) (hs : g.state.length = 8) (hb : g.block.length = 128)
    (parts : List (List Byte)) (hp : ∀ p ∈ parts, p.length < 2 ^ 31)
    (ht : 8 * parts.flatten.length < 2 ^ 128) (out : List Byte) (ho : 28 ≤ out.length)
    (hr : 112 ≤ parts.flatten.length % 128) :
    let H := (blocks 128 (filled 128 parts.flatten)).foldl P512.compress (Pgfe.Spec.Sha.sha512tH0 "SHA-512/224")
    sha512_224Impl.session g parts out = .ok (Pgfe.Spec.Sha.sha512_224 parts.flatten ++ out.drop 28) ↔
      (P512.compress H (lastLib 128 16 parts.flatten)).bytes.take 28
        = (P512.compress H (lastStd 128 16 parts.flatten)).bytes.take 28 := by
  intro H
  rw [C20_sha512_224_exact g hs hb parts hp ht out ho, append_iff]
  show (List.foldl P512.compress (Pgfe.Spec.Sha.sha512tH0 "SHA-512/224") (blocks 128 (stalePad 128 16 parts.flatten))).bytes.take 28
    = (List.foldl P512.compress (Pgfe.Spec.Sha.sha512tH0 "SHA-512/224") (blocks 128 (pad 128 16 parts.flatten))).bytes.take 28 ↔ _
  rw [fold_std _ _ 128 16 (by decide) _ hr, fold_lib _ _ 128 16 (by decide) _ hr]

/-- **C20, exactly when (SHA-512/256).** For every message that needs a second padding block, the digest is the standard's
if and only if the compression function, continued from the state `H` after the message, has values with the same first 32 bytes at the
library's last block and at the standard's. -/
theorem C20_sha512_256_iff (g : ShaCtx 64) (hs : g.state.length = 8) (hb : g.block.length = 128)
    (parts : List (List Byte)) (hp : ∀ p ∈ parts, p.length < 2 ^ 31)
    (ht : 8 * parts.flatten.length < 2 ^ 128) (out : List Byte) (ho : 32 ≤ out.length)
    (hr : 112 ≤ parts.flatten.length % 128) :
    let H := (blocks 128 (filled 128 parts.flatten)).foldl P512.compress (Pgfe.Spec.Sha.sha512tH0 "SHA-512/256")
    sha512_256Impl.session g parts out = .ok (Pgfe.Spec.Sha.sha512_256 parts.flatten ++ out.drop 32) ↔
      (P512.compress H (lastLib 128 16 parts.flatten)).bytes.take 32
        = (P512.compress H (lastStd 128 16 parts.flatten)).bytes.take 32 := by
  intro H
  rw [C20_sha512_256_exact g hs hb parts hp ht out ho, append_iff]
  show (List.foldl P512.compress (Pgfe.Spec.Sha.sha512tH0 "SHA-512/256") (blocks 128 (stalePad 128 16 parts.flatten))).bytes.take 32
    = (List.foldl P512.compress (Pgfe.Spec.Sha.sha512tH0 "SHA-512/256") (blocks 128 (pad 128 16 parts.flatten))).bytes.take 32 ↔ _
  rw [fold_std _ _ 128 16 (by decide) _ hr, fold_lib _ _ 128 16 (by decide) _ hr]

/-- 60 bytes need a second padding block; when the first of the 56 left is not zero, the last blocks differ. -/
theorem C18_iff_example : 56 ≤ (str "a" ++ List.replicate 59 0#8).length % 64 ∧
    lastLib 64 8 (str "a" ++ List.replicate 59 0#8) ≠ lastStd 64 8 (str "a" ++ List.replicate 59 0#8) ∧
    lastLib 64 8 (List.replicate 60 0#8) = lastStd 64 8 (List.replicate 60 0#8) := by decide

end Pgfe.Props
