import Verif.Model.ShaImpl
import Verif.Proofs.ShaStd
/-!
# C18, C19, C20, C31, C32: SHA-1 and SHA-2

`sha1Impl.session g parts out` is `pgfe_sha1_init` on a context whose memory contains `g`, one
`pgfe_sha1_update` per element of `parts`, `pgfe_sha1_digest` into the buffer `out`; likewise for the
others.  The result is the content of the output buffer.
-/
namespace Pgfe.Props
open Pgfe.Model Pgfe.Proofs Pgfe.Proofs.Hash Pgfe.Proofs.Sha
open Pgfe.Spec.Sha (natOfBytes bytesOfNat bytesOfWord blocks padZeros pad stalePad V5 V8 P256 P512 Sha2)

/-! ## The specification's padding -/

/-- The specification uses the smallest number of zero bytes that fills the last block, as section
5.1 of the standard requires. -/
theorem C18_padZeros_smallest (bs lb n : Nat) (hb : 0 < bs) :
    (n + 1 + padZeros bs lb n + lb) % bs = 0 ∧
      ∀ z, (n + 1 + z + lb) % bs = 0 → padZeros bs lb n ≤ z := by
  have e : ∀ z, (n + 1 + z + lb) % bs = ((n + 1 + lb) % bs + z) % bs := by
    intro z
    rw [Nat.mod_add_mod]; congr 1; omega
  have hm := Nat.mod_lt (n + 1 + lb) hb
  rw [e, padZeros]
  generalize (n + 1 + lb) % bs = r at hm e
  constructor
  · by_cases h : r = 0
    · subst h; simp
    · rw [Nat.mod_eq_of_lt (by omega : bs - r < bs)]
      have : r + (bs - r) = bs := by omega
      rw [this, Nat.mod_self]
  · intro z hz
    rw [e] at hz
    by_cases h : r = 0
    · subst h; simp
    · rw [Nat.mod_eq_of_lt (by omega : bs - r < bs)]
      by_cases h2 : r + z < bs
      · rw [Nat.mod_eq_of_lt h2] at hz; omega
      · omega

/-- When the padding the library applies is the standard's: no second padding block is needed, or the
message bytes left in the block happen to be zeros. -/
theorem C18_padding_exact (bs lb : Nat) (hlb : lb < bs) (m : List Byte) :
    stalePad bs lb m = pad bs lb m ↔
      (m.length % bs < bs - lb ∨ ∀ b ∈ (m.drop (m.length / bs * bs)).take (bs - lb), b = 0#8) := by
  constructor
  · intro h
    by_cases h1 : m.length % bs < bs - lb
    · exact .inl h1
    · refine .inr fun b hb => ?_
      by_cases h2 : b = 0#8
      · exact h2
      · exact absurd h (stalePad_ne bs lb hlb m h1 ⟨b, hb, h2⟩)
  · exact stalePad_eq bs lb hlb m

/-! ## Evaluating the standard's functions -/

def evalBlocks {w : Nat} (process : ShaCtx w → C (ShaCtx w)) (s : List (BitVec w)) :
    List (List Byte) → C (List (BitVec w))
  | [] => .ok s
  | b :: r => do
    let c ← process ⟨s, 0#w, 0#w, 0, b⟩
    evalBlocks process c.state r

theorem evalBlocks_ok {w : Nat} (F : Fam w) (l : List (List Byte)) :
    ∀ s : List (BitVec w), s.length = F.ns → (∀ b ∈ l, b.length = F.bs) →
    evalBlocks F.process s l = .ok (l.foldl F.compress s) := by
  induction l with
  | nil => intro s _ _; rfl
  | cons b l ih =>
    intro s hs hb
    rw [evalBlocks, F.process_mk _ _ _ _ _ hs (hb b (List.mem_cons_self ..)), bind_ok]
    dsimp only
    rw [ih _ (F.hlen _ _ hs (hb b (List.mem_cons_self ..))) (fun x hx => hb x (List.mem_cons_of_mem _ hx))]
    rfl

theorem take_ne_of_take_append_ne {a b x : List Byte} (hl : a.length = b.length) (h : a ≠ b) :
    a ++ x ≠ b ++ x := by
  intro e
  exact h (List.append_inj_left e hl)

def evalBytes {w : Nat} (process : ShaCtx w → C (ShaCtx w)) (s : List (BitVec w)) (n : Nat)
    (l : List (List Byte)) : List Byte :=
  match evalBlocks process s l with
  | .ok s => (s.flatMap bytesOfWord).take n
  | .error _ => []

theorem evalBytes_ok {w : Nat} (F : Fam w) (s : List (BitVec w)) (n : Nat) (l : List (List Byte))
    (hs : s.length = F.ns) (hb : ∀ b ∈ l, b.length = F.bs) :
    evalBytes F.process s n l = ((l.foldl F.compress s).flatMap bytesOfWord).take n := by
  rw [evalBytes, evalBlocks_ok F l s hs hb]

/-! ## SHA-1 -/
theorem libHash_sha1 : F1.libHash sha1H0 20 = Pgfe.Spec.Sha.sha1Stale := by
  funext m
  rw [sha1H0_eq, libHash1]; rfl

/-- The library's SHA-1 is a correct implementation of the function `sha1Stale`. -/
def hashOK_sha1 : HashOK sha1Impl Pgfe.Spec.Sha.sha1Stale :=
  F1.ok sha1H0 (by decide +kernel) 4 rfl 20 (by decide) sha1Digest true
    (digest1_ok) _ (fun m => congrFun libHash_sha1 m)

/-- **C18, exact (SHA-1).** For every content `g` of the context memory, every message and every way
of cutting it into updates, the library writes SHA-1 computed with `stalePad` in place of the
standard's padding, and nothing else. -/
theorem C18_sha1_exact (g : ShaCtx 32) (hs : g.state.length = 5) (hb : g.block.length = 64)
    (parts : List (List Byte)) (hp : ∀ p ∈ parts, p.length < 2 ^ 31)
    (ht : 8 * parts.flatten.length < 2 ^ 64) (out : List Byte) (ho : 20 ≤ out.length) :
    sha1Impl.session g parts out
      = .ok (Pgfe.Spec.Sha.sha1Stale parts.flatten ++ out.drop 20) :=
  hashOK_sha1.session_ok g ⟨hs, hb⟩ parts out hp ht ho

theorem sha1Stale_eq (m : List Byte) (h : m.length % 64 < 56 ∨
    ∀ b ∈ (m.drop (m.length / 64 * 64)).take 56, b = 0#8) :
    Pgfe.Spec.Sha.sha1Stale m = Pgfe.Spec.Sha.sha1 m := by
  have e : stalePad 64 8 m = pad 64 8 m := stalePad_eq 64 8 (by decide) m h
  rw [Pgfe.Spec.Sha.sha1Stale, Pgfe.Spec.Sha.sha1, e]

/-- **C18 (partial, SHA-1).** Conformance to FIPS 180-4 for every message whose last block leaves room
for the length field, or has zeros where the stale bytes are read.  Missing for the full claim: the
other messages, for which it is false, see `C18_sha1_violation`. -/
theorem C18_sha1_partial (g : ShaCtx 32) (hs : g.state.length = 5) (hb : g.block.length = 64)
    (parts : List (List Byte)) (hp : ∀ p ∈ parts, p.length < 2 ^ 31)
    (ht : 8 * parts.flatten.length < 2 ^ 64) (out : List Byte) (ho : 20 ≤ out.length)
    (h : parts.flatten.length % 64 < 56 ∨
      ∀ b ∈ (parts.flatten.drop (parts.flatten.length / 64 * 64)).take 56, b = 0#8) :
    sha1Impl.session g parts out = .ok (Pgfe.Spec.Sha.sha1 parts.flatten ++ out.drop 20) := by
  rw [C18_sha1_exact g hs hb parts hp ht out ho, sha1Stale_eq _ h]

/-- A concrete case: "ab", "", "c" in a context full of garbage. -/
theorem C18_sha1_example : sha1Impl.session
    ⟨List.replicate 5 0xdeadbeef#32, 7#32, 9#32, 3, List.replicate 64 0xff#8⟩
    [str "ab", [], str "c"] (List.replicate 21 0xee#8) = .ok [0xa9#8, 0x99#8, 0x3e#8, 0x36#8, 0x47#8, 0x06#8, 0x81#8, 0x6a#8, 0xba#8, 0x3e#8, 0x25#8, 0x71#8, 0x78#8, 0x50#8, 0xc2#8, 0x6c#8, 0x9c#8, 0xd0#8, 0xd8#8, 0x9d#8, 0xee#8] := by
  decide +kernel

theorem sha1_blocks_len (m : List Byte) (p : List Byte) (_hp : p = pad 64 8 m ∨ p = stalePad 64 8 m) :
    ∀ b ∈ blocks 64 p, b.length = 64 := by
  intro b hb
  obtain ⟨i, hi, rfl⟩ := List.mem_map.1 hb
  have hi := List.mem_range.1 hi
  have h2 := Nat.div_mul_le_self p.length 64
  rw [List.length_take, List.length_drop]; omega

theorem sha1_eval (m : List Byte) : Pgfe.Spec.Sha.sha1 m
    = evalBytes sha1ProcessBlock sha1H0 20 (blocks 64 (pad 64 8 m)) := by
  have h := evalBytes_ok F1 sha1H0 20 _ (by decide +kernel) (sha1_blocks_len m _ (.inl rfl))
  have h : evalBytes sha1ProcessBlock sha1H0 20 (blocks 64 (pad 64 8 m)) = _ := h
  rw [h, sha1H0_eq]
  have e : F1.compress = comp5 := rfl
  rw [e, fold_comp5, bytes5]
  rw [List.take_of_length_le (by simp [V5.bytes, bytesOfWord_length])]; rfl

theorem sha1Stale_eval (m : List Byte) : Pgfe.Spec.Sha.sha1Stale m
    = evalBytes sha1ProcessBlock sha1H0 20 (blocks 64 (stalePad 64 8 m)) := by
  have h := evalBytes_ok F1 sha1H0 20 _ (by decide +kernel) (sha1_blocks_len m _ (.inr rfl))
  have h : evalBytes sha1ProcessBlock sha1H0 20 (blocks 64 (stalePad 64 8 m)) = _ := h
  rw [h, sha1H0_eq]
  have e : F1.compress = comp5 := rfl
  rw [e, fold_comp5, bytes5]
  rw [List.take_of_length_le (by simp [V5.bytes, bytesOfWord_length])]; rfl

theorem sha1_length (m : List Byte) : (Pgfe.Spec.Sha.sha1 m).length = 20 := by
  simp [Pgfe.Spec.Sha.sha1, V5.bytes, bytesOfWord_length]

theorem sha1Stale_length (m : List Byte) : (Pgfe.Spec.Sha.sha1Stale m).length = 20 := by
  simp [Pgfe.Spec.Sha.sha1Stale, V5.bytes, bytesOfWord_length]

theorem sha1_differ : evalBytes sha1ProcessBlock sha1H0 20
      (blocks 64 (pad 64 8 (List.replicate 56 0x61#8)))
    ≠ evalBytes sha1ProcessBlock sha1H0 20
      (blocks 64 (stalePad 64 8 (List.replicate 56 0x61#8))) := by
  decide +kernel

/-- **C18, violation (SHA-1).** For the 56-byte message "aa...a" the digest is not the
standard's. -/
theorem C18_sha1_violation (g : ShaCtx 32) (out : List Byte) (hs : g.state.length = 5)
    (hb : g.block.length = 64) (ho : 20 ≤ out.length) :
    ∃ m, m = List.replicate 56 0x61#8 ∧
      sha1Impl.session g [m] out ≠ .ok (Pgfe.Spec.Sha.sha1 m ++ out.drop 20) := by
  refine ⟨List.replicate 56 0x61#8, rfl, ?_⟩
  intro h
  have hfl : [List.replicate 56 0x61#8].flatten = List.replicate 56 0x61#8 := by simp
  rw [C18_sha1_exact g hs hb _ (by
      intro p hp; rw [List.mem_singleton] at hp; subst hp; rw [List.length_replicate]; decide)
      (by rw [hfl, List.length_replicate]; decide) out ho, hfl] at h
  have h := Except.ok.inj h
  have h3 := sha1_differ
  rw [← sha1_eval, ← sha1Stale_eval] at h3
  exact take_ne_of_take_append_ne (by rw [sha1Stale_length, sha1_length]) (Ne.symm h3) h

/-! ## SHA-224 -/
theorem libHash_sha224 : F256.libHash sha224H0 28 = Pgfe.Spec.Sha.sha224Stale := by
  funext m
  rw [sha224H0_eq, libHash256]; rfl

/-- The library's SHA-224 is a correct implementation of the function `sha224Stale`. -/
def hashOK_sha224 : HashOK sha224Impl Pgfe.Spec.Sha.sha224Stale :=
  F256.ok sha224H0 (by decide +kernel) 4 rfl 28 (by decide) sha224Digest false
    (digest256_ok 28 (by decide)) _ (fun m => congrFun libHash_sha224 m)

/-- **C19, exact (SHA-224).** For every content `g` of the context memory, every message and every way
of cutting it into updates, the library writes SHA-224 computed with `stalePad` in place of the
standard's padding, and nothing else. -/
theorem C19_sha224_exact (g : ShaCtx 32) (hs : g.state.length = 8) (hb : g.block.length = 64)
    (parts : List (List Byte)) (hp : ∀ p ∈ parts, p.length < 2 ^ 31)
    (ht : 8 * parts.flatten.length < 2 ^ 64) (out : List Byte) (ho : 28 ≤ out.length) :
    sha224Impl.session g parts out
      = .ok (Pgfe.Spec.Sha.sha224Stale parts.flatten ++ out.drop 28) :=
  hashOK_sha224.session_ok g ⟨hs, hb⟩ parts out hp ht ho

theorem sha224Stale_eq (m : List Byte) (h : m.length % 64 < 56 ∨
    ∀ b ∈ (m.drop (m.length / 64 * 64)).take 56, b = 0#8) :
    Pgfe.Spec.Sha.sha224Stale m = Pgfe.Spec.Sha.sha224 m := by
  have e : stalePad 64 8 m = pad 64 8 m := stalePad_eq 64 8 (by decide) m h
  have e : stalePad (2 * 32) (32 / 4) m = pad (2 * 32) (32 / 4) m := e
  rw [Pgfe.Spec.Sha.sha224Stale, Pgfe.Spec.Sha.sha224, Sha2.hashStale, Sha2.hash, e]

/-- **C19 (partial, SHA-224).** Conformance to FIPS 180-4 for every message whose last block leaves room
for the length field, or has zeros where the stale bytes are read.  Missing for the full claim: the
other messages, for which it is false, see `C19_sha224_violation`. -/
theorem C19_sha224_partial (g : ShaCtx 32) (hs : g.state.length = 8) (hb : g.block.length = 64)
    (parts : List (List Byte)) (hp : ∀ p ∈ parts, p.length < 2 ^ 31)
    (ht : 8 * parts.flatten.length < 2 ^ 64) (out : List Byte) (ho : 28 ≤ out.length)
    (h : parts.flatten.length % 64 < 56 ∨
      ∀ b ∈ (parts.flatten.drop (parts.flatten.length / 64 * 64)).take 56, b = 0#8) :
    sha224Impl.session g parts out = .ok (Pgfe.Spec.Sha.sha224 parts.flatten ++ out.drop 28) := by
  rw [C19_sha224_exact g hs hb parts hp ht out ho, sha224Stale_eq _ h]

/-- A concrete case: "ab", "", "c" in a context full of garbage. -/
theorem C19_sha224_example : sha224Impl.session
    ⟨List.replicate 8 0xdeadbeef#32, 7#32, 9#32, 3, List.replicate 64 0xff#8⟩
    [str "ab", [], str "c"] (List.replicate 29 0xee#8) = .ok [0x23#8, 0x09#8, 0x7d#8, 0x22#8, 0x34#8, 0x05#8, 0xd8#8, 0x22#8, 0x86#8, 0x42#8, 0xa4#8, 0x77#8, 0xbd#8, 0xa2#8, 0x55#8, 0xb3#8, 0x2a#8, 0xad#8, 0xbc#8, 0xe4#8, 0xbd#8, 0xa0#8, 0xb3#8, 0xf7#8, 0xe3#8, 0x6c#8, 0x9d#8, 0xa7#8, 0xee#8] := by
  decide +kernel

theorem sha224_blocks_len (m : List Byte) (p : List Byte) (_hp : p = pad 64 8 m ∨ p = stalePad 64 8 m) :
    ∀ b ∈ blocks 64 p, b.length = 64 := by
  intro b hb
  obtain ⟨i, hi, rfl⟩ := List.mem_map.1 hb
  have hi := List.mem_range.1 hi
  have h2 := Nat.div_mul_le_self p.length 64
  rw [List.length_take, List.length_drop]; omega

theorem sha224_eval (m : List Byte) : Pgfe.Spec.Sha.sha224 m
    = evalBytes sha256ProcessBlock sha224H0 28 (blocks 64 (pad 64 8 m)) := by
  have h := evalBytes_ok F256 sha224H0 28 _ (by decide +kernel) (sha224_blocks_len m _ (.inl rfl))
  have h : evalBytes sha256ProcessBlock sha224H0 28 (blocks 64 (pad 64 8 m)) = _ := h
  rw [h, sha224H0_eq]
  have e : F256.compress = comp8 P256 := rfl
  rw [e, fold_comp8]
  rfl

theorem sha224Stale_eval (m : List Byte) : Pgfe.Spec.Sha.sha224Stale m
    = evalBytes sha256ProcessBlock sha224H0 28 (blocks 64 (stalePad 64 8 m)) := by
  have h := evalBytes_ok F256 sha224H0 28 _ (by decide +kernel) (sha224_blocks_len m _ (.inr rfl))
  have h : evalBytes sha256ProcessBlock sha224H0 28 (blocks 64 (stalePad 64 8 m)) = _ := h
  rw [h, sha224H0_eq]
  have e : F256.compress = comp8 P256 := rfl
  rw [e, fold_comp8]
  rfl

theorem sha224_length (m : List Byte) : (Pgfe.Spec.Sha.sha224 m).length = 28 := by
  rw [Pgfe.Spec.Sha.sha224, List.length_take, bytes8_length]; decide

theorem sha224Stale_length (m : List Byte) : (Pgfe.Spec.Sha.sha224Stale m).length = 28 := by
  rw [Pgfe.Spec.Sha.sha224Stale, List.length_take, bytes8_length]; decide

theorem sha224_differ : evalBytes sha256ProcessBlock sha224H0 28
      (blocks 64 (pad 64 8 (List.replicate 56 0x61#8)))
    ≠ evalBytes sha256ProcessBlock sha224H0 28
      (blocks 64 (stalePad 64 8 (List.replicate 56 0x61#8))) := by
  decide +kernel

/-- **C19, violation (SHA-224).** For the 56-byte message "aa...a" the digest is not the
standard's. -/
theorem C19_sha224_violation (g : ShaCtx 32) (out : List Byte) (hs : g.state.length = 8)
    (hb : g.block.length = 64) (ho : 28 ≤ out.length) :
    ∃ m, m = List.replicate 56 0x61#8 ∧
      sha224Impl.session g [m] out ≠ .ok (Pgfe.Spec.Sha.sha224 m ++ out.drop 28) := by
  refine ⟨List.replicate 56 0x61#8, rfl, ?_⟩
  intro h
  have hfl : [List.replicate 56 0x61#8].flatten = List.replicate 56 0x61#8 := by simp
  rw [C19_sha224_exact g hs hb _ (by
      intro p hp; rw [List.mem_singleton] at hp; subst hp; rw [List.length_replicate]; decide)
      (by rw [hfl, List.length_replicate]; decide) out ho, hfl] at h
  have h := Except.ok.inj h
  have h3 := sha224_differ
  rw [← sha224_eval, ← sha224Stale_eval] at h3
  exact take_ne_of_take_append_ne (by rw [sha224Stale_length, sha224_length]) (Ne.symm h3) h

/-! ## SHA-256 -/
theorem libHash_sha256 : F256.libHash sha256H0 32 = Pgfe.Spec.Sha.sha256Stale := by
  funext m
  rw [sha256H0_eq, libHash256, List.take_of_length_le (by rw [bytes8_length]; decide)]; rfl

/-- The library's SHA-256 is a correct implementation of the function `sha256Stale`. -/
def hashOK_sha256 : HashOK sha256Impl Pgfe.Spec.Sha.sha256Stale :=
  F256.ok sha256H0 (by decide +kernel) 4 rfl 32 (by decide) sha256Digest false
    (digest256_ok 32 (by decide)) _ (fun m => congrFun libHash_sha256 m)

/-- **C19, exact (SHA-256).** For every content `g` of the context memory, every message and every way
of cutting it into updates, the library writes SHA-256 computed with `stalePad` in place of the
standard's padding, and nothing else. -/
theorem C19_sha256_exact (g : ShaCtx 32) (hs : g.state.length = 8) (hb : g.block.length = 64)
    (parts : List (List Byte)) (hp : ∀ p ∈ parts, p.length < 2 ^ 31)
    (ht : 8 * parts.flatten.length < 2 ^ 64) (out : List Byte) (ho : 32 ≤ out.length) :
    sha256Impl.session g parts out
      = .ok (Pgfe.Spec.Sha.sha256Stale parts.flatten ++ out.drop 32) :=
  hashOK_sha256.session_ok g ⟨hs, hb⟩ parts out hp ht ho

theorem sha256Stale_eq (m : List Byte) (h : m.length % 64 < 56 ∨
    ∀ b ∈ (m.drop (m.length / 64 * 64)).take 56, b = 0#8) :
    Pgfe.Spec.Sha.sha256Stale m = Pgfe.Spec.Sha.sha256 m := by
  have e : stalePad 64 8 m = pad 64 8 m := stalePad_eq 64 8 (by decide) m h
  have e : stalePad (2 * 32) (32 / 4) m = pad (2 * 32) (32 / 4) m := e
  rw [Pgfe.Spec.Sha.sha256Stale, Pgfe.Spec.Sha.sha256, Sha2.hashStale, Sha2.hash, e]

/-- **C19 (partial, SHA-256).** Conformance to FIPS 180-4 for every message whose last block leaves room
for the length field, or has zeros where the stale bytes are read.  Missing for the full claim: the
other messages, for which it is false, see `C19_sha256_violation`. -/
theorem C19_sha256_partial (g : ShaCtx 32) (hs : g.state.length = 8) (hb : g.block.length = 64)
    (parts : List (List Byte)) (hp : ∀ p ∈ parts, p.length < 2 ^ 31)
    (ht : 8 * parts.flatten.length < 2 ^ 64) (out : List Byte) (ho : 32 ≤ out.length)
    (h : parts.flatten.length % 64 < 56 ∨
      ∀ b ∈ (parts.flatten.drop (parts.flatten.length / 64 * 64)).take 56, b = 0#8) :
    sha256Impl.session g parts out = .ok (Pgfe.Spec.Sha.sha256 parts.flatten ++ out.drop 32) := by
  rw [C19_sha256_exact g hs hb parts hp ht out ho, sha256Stale_eq _ h]

/-- A concrete case: "ab", "", "c" in a context full of garbage. -/
theorem C19_sha256_example : sha256Impl.session
    ⟨List.replicate 8 0xdeadbeef#32, 7#32, 9#32, 3, List.replicate 64 0xff#8⟩
    [str "ab", [], str "c"] (List.replicate 33 0xee#8) = .ok [0xba#8, 0x78#8, 0x16#8, 0xbf#8, 0x8f#8, 0x01#8, 0xcf#8, 0xea#8, 0x41#8, 0x41#8, 0x40#8, 0xde#8, 0x5d#8, 0xae#8, 0x22#8, 0x23#8, 0xb0#8, 0x03#8, 0x61#8, 0xa3#8, 0x96#8, 0x17#8, 0x7a#8, 0x9c#8, 0xb4#8, 0x10#8, 0xff#8, 0x61#8, 0xf2#8, 0x00#8, 0x15#8, 0xad#8, 0xee#8] := by
  decide +kernel

theorem sha256_blocks_len (m : List Byte) (p : List Byte) (_hp : p = pad 64 8 m ∨ p = stalePad 64 8 m) :
    ∀ b ∈ blocks 64 p, b.length = 64 := by
  intro b hb
  obtain ⟨i, hi, rfl⟩ := List.mem_map.1 hb
  have hi := List.mem_range.1 hi
  have h2 := Nat.div_mul_le_self p.length 64
  rw [List.length_take, List.length_drop]; omega

theorem sha256_eval (m : List Byte) : Pgfe.Spec.Sha.sha256 m
    = evalBytes sha256ProcessBlock sha256H0 32 (blocks 64 (pad 64 8 m)) := by
  have h := evalBytes_ok F256 sha256H0 32 _ (by decide +kernel) (sha256_blocks_len m _ (.inl rfl))
  have h : evalBytes sha256ProcessBlock sha256H0 32 (blocks 64 (pad 64 8 m)) = _ := h
  rw [h, sha256H0_eq]
  have e : F256.compress = comp8 P256 := rfl
  rw [e, fold_comp8]
  show _ = List.take _ (V8.bytes _)
  rw [List.take_of_length_le (by rw [bytes8_length]; decide)]; rfl

theorem sha256Stale_eval (m : List Byte) : Pgfe.Spec.Sha.sha256Stale m
    = evalBytes sha256ProcessBlock sha256H0 32 (blocks 64 (stalePad 64 8 m)) := by
  have h := evalBytes_ok F256 sha256H0 32 _ (by decide +kernel) (sha256_blocks_len m _ (.inr rfl))
  have h : evalBytes sha256ProcessBlock sha256H0 32 (blocks 64 (stalePad 64 8 m)) = _ := h
  rw [h, sha256H0_eq]
  have e : F256.compress = comp8 P256 := rfl
  rw [e, fold_comp8]
  show _ = List.take _ (V8.bytes _)
  rw [List.take_of_length_le (by rw [bytes8_length]; decide)]; rfl

theorem sha256_length (m : List Byte) : (Pgfe.Spec.Sha.sha256 m).length = 32 := by
  rw [Pgfe.Spec.Sha.sha256, bytes8_length]

theorem sha256Stale_length (m : List Byte) : (Pgfe.Spec.Sha.sha256Stale m).length = 32 := by
  rw [Pgfe.Spec.Sha.sha256Stale, bytes8_length]

theorem sha256_differ : evalBytes sha256ProcessBlock sha256H0 32
      (blocks 64 (pad 64 8 (List.replicate 56 0x61#8)))
    ≠ evalBytes sha256ProcessBlock sha256H0 32
      (blocks 64 (stalePad 64 8 (List.replicate 56 0x61#8))) := by
  decide +kernel

/-- **C19, violation (SHA-256).** For the 56-byte message "aa...a" the digest is not the
standard's. -/
theorem C19_sha256_violation (g : ShaCtx 32) (out : List Byte) (hs : g.state.length = 8)
    (hb : g.block.length = 64) (ho : 32 ≤ out.length) :
    ∃ m, m = List.replicate 56 0x61#8 ∧
      sha256Impl.session g [m] out ≠ .ok (Pgfe.Spec.Sha.sha256 m ++ out.drop 32) := by
  refine ⟨List.replicate 56 0x61#8, rfl, ?_⟩
  intro h
  have hfl : [List.replicate 56 0x61#8].flatten = List.replicate 56 0x61#8 := by simp
  rw [C19_sha256_exact g hs hb _ (by
      intro p hp; rw [List.mem_singleton] at hp; subst hp; rw [List.length_replicate]; decide)
      (by rw [hfl, List.length_replicate]; decide) out ho, hfl] at h
  have h := Except.ok.inj h
  have h3 := sha256_differ
  rw [← sha256_eval, ← sha256Stale_eval] at h3
  exact take_ne_of_take_append_ne (by rw [sha256Stale_length, sha256_length]) (Ne.symm h3) h

/-! ## SHA-384 -/
theorem libHash_sha384 : F512.libHash (words64 sha384H0) 48 = Pgfe.Spec.Sha.sha384Stale := by
  funext m
  rw [sha384H0_eq, libHash512]; rfl

/-- The library's SHA-384 is a correct implementation of the function `sha384Stale`. -/
def hashOK_sha384 : HashOK sha384Impl Pgfe.Spec.Sha.sha384Stale :=
  F512.ok (words64 sha384H0) (by decide +kernel) 8 rfl 48 (by decide) sha384Digest false
    (digest512_ok 48 (by decide)) _ (fun m => congrFun libHash_sha384 m)

/-- **C20, exact (SHA-384).** For every content `g` of the context memory, every message and every way
of cutting it into updates, the library writes SHA-384 computed with `stalePad` in place of the
standard's padding, and nothing else. -/
theorem C20_sha384_exact (g : ShaCtx 64) (hs : g.state.length = 8) (hb : g.block.length = 128)
    (parts : List (List Byte)) (hp : ∀ p ∈ parts, p.length < 2 ^ 31)
    (ht : 8 * parts.flatten.length < 2 ^ 128) (out : List Byte) (ho : 48 ≤ out.length) :
    sha384Impl.session g parts out
      = .ok (Pgfe.Spec.Sha.sha384Stale parts.flatten ++ out.drop 48) :=
  hashOK_sha384.session_ok g ⟨hs, hb⟩ parts out hp ht ho

theorem sha384Stale_eq (m : List Byte) (h : m.length % 128 < 112 ∨
    ∀ b ∈ (m.drop (m.length / 128 * 128)).take 112, b = 0#8) :
    Pgfe.Spec.Sha.sha384Stale m = Pgfe.Spec.Sha.sha384 m := by
  have e : stalePad 128 16 m = pad 128 16 m := stalePad_eq 128 16 (by decide) m h
  have e : stalePad (2 * 64) (64 / 4) m = pad (2 * 64) (64 / 4) m := e
  rw [Pgfe.Spec.Sha.sha384Stale, Pgfe.Spec.Sha.sha384, Sha2.hashStale, Sha2.hash, e]

/-- **C20 (partial, SHA-384).** Conformance to FIPS 180-4 for every message whose last block leaves room
for the length field, or has zeros where the stale bytes are read.  Missing for the full claim: the
other messages, for which it is false, see `C20_sha384_violation`. -/
theorem C20_sha384_partial (g : ShaCtx 64) (hs : g.state.length = 8) (hb : g.block.length = 128)
    (parts : List (List Byte)) (hp : ∀ p ∈ parts, p.length < 2 ^ 31)
    (ht : 8 * parts.flatten.length < 2 ^ 128) (out : List Byte) (ho : 48 ≤ out.length)
    (h : parts.flatten.length % 128 < 112 ∨
      ∀ b ∈ (parts.flatten.drop (parts.flatten.length / 128 * 128)).take 112, b = 0#8) :
    sha384Impl.session g parts out = .ok (Pgfe.Spec.Sha.sha384 parts.flatten ++ out.drop 48) := by
  rw [C20_sha384_exact g hs hb parts hp ht out ho, sha384Stale_eq _ h]

/-- A concrete case: "ab", "", "c" in a context full of garbage. -/
theorem C20_sha384_example : sha384Impl.session
    ⟨List.replicate 8 0xdeadbeef#64, 7#64, 9#64, 3, List.replicate 128 0xff#8⟩
    [str "ab", [], str "c"] (List.replicate 49 0xee#8) = .ok [0xcb#8, 0x00#8, 0x75#8, 0x3f#8, 0x45#8, 0xa3#8, 0x5e#8, 0x8b#8, 0xb5#8, 0xa0#8, 0x3d#8, 0x69#8, 0x9a#8, 0xc6#8, 0x50#8, 0x07#8, 0x27#8, 0x2c#8, 0x32#8, 0xab#8, 0x0e#8, 0xde#8, 0xd1#8, 0x63#8, 0x1a#8, 0x8b#8, 0x60#8, 0x5a#8, 0x43#8, 0xff#8, 0x5b#8, 0xed#8, 0x80#8, 0x86#8, 0x07#8, 0x2b#8, 0xa1#8, 0xe7#8, 0xcc#8, 0x23#8, 0x58#8, 0xba#8, 0xec#8, 0xa1#8, 0x34#8, 0xc8#8, 0x25#8, 0xa7#8, 0xee#8] := by
  decide +kernel

theorem sha384_blocks_len (m : List Byte) (p : List Byte) (_hp : p = pad 128 16 m ∨ p = stalePad 128 16 m) :
    ∀ b ∈ blocks 128 p, b.length = 128 := by
  intro b hb
  obtain ⟨i, hi, rfl⟩ := List.mem_map.1 hb
  have hi := List.mem_range.1 hi
  have h2 := Nat.div_mul_le_self p.length 128
  rw [List.length_take, List.length_drop]; omega

theorem sha384_eval (m : List Byte) : Pgfe.Spec.Sha.sha384 m
    = evalBytes sha512ProcessBlock (words64 sha384H0) 48 (blocks 128 (pad 128 16 m)) := by
  have h := evalBytes_ok F512 (words64 sha384H0) 48 _ (by decide +kernel) (sha384_blocks_len m _ (.inl rfl))
  have h : evalBytes sha512ProcessBlock (words64 sha384H0) 48 (blocks 128 (pad 128 16 m)) = _ := h
  rw [h, sha384H0_eq]
  have e : F512.compress = comp8 P512 := rfl
  rw [e, fold_comp8]
  rfl

theorem sha384Stale_eval (m : List Byte) : Pgfe.Spec.Sha.sha384Stale m
    = evalBytes sha512ProcessBlock (words64 sha384H0) 48 (blocks 128 (stalePad 128 16 m)) := by
  have h := evalBytes_ok F512 (words64 sha384H0) 48 _ (by decide +kernel) (sha384_blocks_len m _ (.inr rfl))
  have h : evalBytes sha512ProcessBlock (words64 sha384H0) 48 (blocks 128 (stalePad 128 16 m)) = _ := h
  rw [h, sha384H0_eq]
  have e : F512.compress = comp8 P512 := rfl
  rw [e, fold_comp8]
  rfl

theorem sha384_length (m : List Byte) : (Pgfe.Spec.Sha.sha384 m).length = 48 := by
  rw [Pgfe.Spec.Sha.sha384, List.length_take, bytes8_length]; decide

theorem sha384Stale_length (m : List Byte) : (Pgfe.Spec.Sha.sha384Stale m).length = 48 := by
  rw [Pgfe.Spec.Sha.sha384Stale, List.length_take, bytes8_length]; decide

theorem sha384_differ : evalBytes sha512ProcessBlock (words64 sha384H0) 48
      (blocks 128 (pad 128 16 (List.replicate 112 0x61#8)))
    ≠ evalBytes sha512ProcessBlock (words64 sha384H0) 48
      (blocks 128 (stalePad 128 16 (List.replicate 112 0x61#8))) := by
  decide +kernel

/-- **C20, violation (SHA-384).** For the 112-byte message "aa...a" the digest is not the
standard's. -/
theorem C20_sha384_violation (g : ShaCtx 64) (out : List Byte) (hs : g.state.length = 8)
    (hb : g.block.length = 128) (ho : 48 ≤ out.length) :
    ∃ m, m = List.replicate 112 0x61#8 ∧
      sha384Impl.session g [m] out ≠ .ok (Pgfe.Spec.Sha.sha384 m ++ out.drop 48) := by
  refine ⟨List.replicate 112 0x61#8, rfl, ?_⟩
  intro h
  have hfl : [List.replicate 112 0x61#8].flatten = List.replicate 112 0x61#8 := by simp
  rw [C20_sha384_exact g hs hb _ (by
      intro p hp; rw [List.mem_singleton] at hp; subst hp; rw [List.length_replicate]; decide)
      (by rw [hfl, List.length_replicate]; decide) out ho, hfl] at h
  have h := Except.ok.inj h
  have h3 := sha384_differ
  rw [← sha384_eval, ← sha384Stale_eval] at h3
  exact take_ne_of_take_append_ne (by rw [sha384Stale_length, sha384_length]) (Ne.symm h3) h

/-! ## SHA-512 -/
theorem libHash_sha512 : F512.libHash (words64 sha512H0) 64 = Pgfe.Spec.Sha.sha512Stale := by
  funext m
  rw [sha512H0_eq, libHash512, List.take_of_length_le (by rw [bytes8_length]; decide)]; rfl

/-- The library's SHA-512 is a correct implementation of the function `sha512Stale`. -/
def hashOK_sha512 : HashOK sha512Impl Pgfe.Spec.Sha.sha512Stale :=
  F512.ok (words64 sha512H0) (by decide +kernel) 8 rfl 64 (by decide) sha512Digest false
    (digest512_ok 64 (by decide)) _ (fun m => congrFun libHash_sha512 m)

/-- **C20, exact (SHA-512).** For every content `g` of the context memory, every message and every way
of cutting it into updates, the library writes SHA-512 computed with `stalePad` in place of the
standard's padding, and nothing else. -/
theorem C20_sha512_exact (g : ShaCtx 64) (hs : g.state.length = 8) (hb : g.block.length = 128)
    (parts : List (List Byte)) (hp : ∀ p ∈ parts, p.length < 2 ^ 31)
    (ht : 8 * parts.flatten.length < 2 ^ 128) (out : List Byte) (ho : 64 ≤ out.length) :
    sha512Impl.session g parts out
      = .ok (Pgfe.Spec.Sha.sha512Stale parts.flatten ++ out.drop 64) :=
  hashOK_sha512.session_ok g ⟨hs, hb⟩ parts out hp ht ho

theorem sha512Stale_eq (m : List Byte) (h : m.length % 128 < 112 ∨
    ∀ b ∈ (m.drop (m.length / 128 * 128)).take 112, b = 0#8) :
    Pgfe.Spec.Sha.sha512Stale m = Pgfe.Spec.Sha.sha512 m := by
  have e : stalePad 128 16 m = pad 128 16 m := stalePad_eq 128 16 (by decide) m h
  have e : stalePad (2 * 64) (64 / 4) m = pad (2 * 64) (64 / 4) m := e
  rw [Pgfe.Spec.Sha.sha512Stale, Pgfe.Spec.Sha.sha512, Sha2.hashStale, Sha2.hash, e]

/-- **C20 (partial, SHA-512).** Conformance to FIPS 180-4 for every message whose last block leaves room
for the length field, or has zeros where the stale bytes are read.  Missing for the full claim: the
other messages, for which it is false, see `C20_sha512_violation`. -/
theorem C20_sha512_partial (g : ShaCtx 64) (hs : g.state.length = 8) (hb : g.block.length = 128)
    (parts : List (List Byte)) (hp : ∀ p ∈ parts, p.length < 2 ^ 31)
    (ht : 8 * parts.flatten.length < 2 ^ 128) (out : List Byte) (ho : 64 ≤ out.length)
    (h : parts.flatten.length % 128 < 112 ∨
      ∀ b ∈ (parts.flatten.drop (parts.flatten.length / 128 * 128)).take 112, b = 0#8) :
    sha512Impl.session g parts out = .ok (Pgfe.Spec.Sha.sha512 parts.flatten ++ out.drop 64) := by
  rw [C20_sha512_exact g hs hb parts hp ht out ho, sha512Stale_eq _ h]

/-- A concrete case: "ab", "", "c" in a context full of garbage. -/
theorem C20_sha512_example : sha512Impl.session
    ⟨List.replicate 8 0xdeadbeef#64, 7#64, 9#64, 3, List.replicate 128 0xff#8⟩
    [str "ab", [], str "c"] (List.replicate 65 0xee#8) = .ok [0xdd#8, 0xaf#8, 0x35#8, 0xa1#8, 0x93#8, 0x61#8, 0x7a#8, 0xba#8, 0xcc#8, 0x41#8, 0x73#8, 0x49#8, 0xae#8, 0x20#8, 0x41#8, 0x31#8, 0x12#8, 0xe6#8, 0xfa#8, 0x4e#8, 0x89#8, 0xa9#8, 0x7e#8, 0xa2#8, 0x0a#8, 0x9e#8, 0xee#8, 0xe6#8, 0x4b#8, 0x55#8, 0xd3#8, 0x9a#8, 0x21#8, 0x92#8, 0x99#8, 0x2a#8, 0x27#8, 0x4f#8, 0xc1#8, 0xa8#8, 0x36#8, 0xba#8, 0x3c#8, 0x23#8, 0xa3#8, 0xfe#8, 0xeb#8, 0xbd#8, 0x45#8, 0x4d#8, 0x44#8, 0x23#8, 0x64#8, 0x3c#8, 0xe8#8, 0x0e#8, 0x2a#8, 0x9a#8, 0xc9#8, 0x4f#8, 0xa5#8, 0x4c#8, 0xa4#8, 0x9f#8, 0xee#8] := by
  decide +kernel

theorem sha512_blocks_len (m : List Byte) (p : List Byte) (_hp : p = pad 128 16 m ∨ p = stalePad 128 16 m) :
    ∀ b ∈ blocks 128 p, b.length = 128 := by
  intro b hb
  obtain ⟨i, hi, rfl⟩ := List.mem_map.1 hb
  have hi := List.mem_range.1 hi
  have h2 := Nat.div_mul_le_self p.length 128
  rw [List.length_take, List.length_drop]; omega

theorem sha512_eval (m : List Byte) : Pgfe.Spec.Sha.sha512 m
    = evalBytes sha512ProcessBlock (words64 sha512H0) 64 (blocks 128 (pad 128 16 m)) := by
  have h := evalBytes_ok F512 (words64 sha512H0) 64 _ (by decide +kernel) (sha512_blocks_len m _ (.inl rfl))
  have h : evalBytes sha512ProcessBlock (words64 sha512H0) 64 (blocks 128 (pad 128 16 m)) = _ := h
  rw [h, sha512H0_eq]
  have e : F512.compress = comp8 P512 := rfl
  rw [e, fold_comp8]
  show _ = List.take _ (V8.bytes _)
  rw [List.take_of_length_le (by rw [bytes8_length]; decide)]; rfl

theorem sha512Stale_eval (m : List Byte) : Pgfe.Spec.Sha.sha512Stale m
    = evalBytes sha512ProcessBlock (words64 sha512H0) 64 (blocks 128 (stalePad 128 16 m)) := by
  have h := evalBytes_ok F512 (words64 sha512H0) 64 _ (by decide +kernel) (sha512_blocks_len m _ (.inr rfl))
  have h : evalBytes sha512ProcessBlock (words64 sha512H0) 64 (blocks 128 (stalePad 128 16 m)) = _ := h
  rw [h, sha512H0_eq]
  have e : F512.compress = comp8 P512 := rfl
  rw [e, fold_comp8]
  show _ = List.take _ (V8.bytes _)
  rw [List.take_of_length_le (by rw [bytes8_length]; decide)]; rfl

theorem sha512_length (m : List Byte) : (Pgfe.Spec.Sha.sha512 m).length = 64 := by
  rw [Pgfe.Spec.Sha.sha512, bytes8_length]

theorem sha512Stale_length (m : List Byte) : (Pgfe.Spec.Sha.sha512Stale m).length = 64 := by
  rw [Pgfe.Spec.Sha.sha512Stale, bytes8_length]

theorem sha512_differ : evalBytes sha512ProcessBlock (words64 sha512H0) 64
      (blocks 128 (pad 128 16 (List.replicate 112 0x61#8)))
    ≠ evalBytes sha512ProcessBlock (words64 sha512H0) 64
      (blocks 128 (stalePad 128 16 (List.replicate 112 0x61#8))) := by
  decide +kernel

/-- **C20, violation (SHA-512).** For the 112-byte message "aa...a" the digest is not the
standard's. -/
theorem C20_sha512_violation (g : ShaCtx 64) (out : List Byte) (hs : g.state.length = 8)
    (hb : g.block.length = 128) (ho : 64 ≤ out.length) :
    ∃ m, m = List.replicate 112 0x61#8 ∧
      sha512Impl.session g [m] out ≠ .ok (Pgfe.Spec.Sha.sha512 m ++ out.drop 64) := by
  refine ⟨List.replicate 112 0x61#8, rfl, ?_⟩
  intro h
  have hfl : [List.replicate 112 0x61#8].flatten = List.replicate 112 0x61#8 := by simp
  rw [C20_sha512_exact g hs hb _ (by
      intro p hp; rw [List.mem_singleton] at hp; subst hp; rw [List.length_replicate]; decide)
      (by rw [hfl, List.length_replicate]; decide) out ho, hfl] at h
  have h := Except.ok.inj h
  have h3 := sha512_differ
  rw [← sha512_eval, ← sha512Stale_eval] at h3
  exact take_ne_of_take_append_ne (by rw [sha512Stale_length, sha512_length]) (Ne.symm h3) h

/-! ## SHA-512/224 -/
theorem libHash_sha512_224 : F512.libHash (words64 sha512H0_224) 28 = Pgfe.Spec.Sha.sha512_224Stale := by
  funext m
  rw [sha512H0_224_eq, libHash512]; rfl

/-- The library's SHA-512/224 is a correct implementation of the function `sha512_224Stale`. -/
def hashOK_sha512_224 : HashOK sha512_224Impl Pgfe.Spec.Sha.sha512_224Stale :=
  F512.ok (words64 sha512H0_224) (by decide +kernel) 8 rfl 28 (by decide) sha512_224Digest false
    (digest512_ok 28 (by decide)) _ (fun m => congrFun libHash_sha512_224 m)

/-- **C20, exact (SHA-512/224).** For every content `g` of the context memory, every message and every way
of cutting it into updates, the library writes SHA-512/224 computed with `stalePad` in place of the
standard's padding, and nothing else. -/
theorem C20_sha512_224_exact (g : ShaCtx 64) (hs : g.state.length = 8) (hb : g.block.length = 128)
    (parts : List (List Byte)) (hp : ∀ p ∈ parts, p.length < 2 ^ 31)
    (ht : 8 * parts.flatten.length < 2 ^ 128) (out : List Byte) (ho : 28 ≤ out.length) :
    sha512_224Impl.session g parts out
      = .ok (Pgfe.Spec.Sha.sha512_224Stale parts.flatten ++ out.drop 28) :=
  hashOK_sha512_224.session_ok g ⟨hs, hb⟩ parts out hp ht ho

theorem sha512_224Stale_eq (m : List Byte) (h : m.length % 128 < 112 ∨
    ∀ b ∈ (m.drop (m.length / 128 * 128)).take 112, b = 0#8) :
    Pgfe.Spec.Sha.sha512_224Stale m = Pgfe.Spec.Sha.sha512_224 m := by
  have e : stalePad 128 16 m = pad 128 16 m := stalePad_eq 128 16 (by decide) m h
  have e : stalePad (2 * 64) (64 / 4) m = pad (2 * 64) (64 / 4) m := e
  rw [Pgfe.Spec.Sha.sha512_224Stale, Pgfe.Spec.Sha.sha512_224, Sha2.hashStale, Sha2.hash, e]

/-- **C20 (partial, SHA-512/224).** Conformance to FIPS 180-4 for every message whose last block leaves room
for the length field, or has zeros where the stale bytes are read.  Missing for the full claim: the
other messages, for which it is false, see `C20_sha512_224_violation`. -/
theorem C20_sha512_224_partial (g : ShaCtx 64) (hs : g.state.length = 8) (hb : g.block.length = 128)
    (parts : List (List Byte)) (hp : ∀ p ∈ parts, p.length < 2 ^ 31)
    (ht : 8 * parts.flatten.length < 2 ^ 128) (out : List Byte) (ho : 28 ≤ out.length)
    (h : parts.flatten.length % 128 < 112 ∨
      ∀ b ∈ (parts.flatten.drop (parts.flatten.length / 128 * 128)).take 112, b = 0#8) :
    sha512_224Impl.session g parts out = .ok (Pgfe.Spec.Sha.sha512_224 parts.flatten ++ out.drop 28) := by
  rw [C20_sha512_224_exact g hs hb parts hp ht out ho, sha512_224Stale_eq _ h]

/-- A concrete case: "ab", "", "c" in a context full of garbage. -/
theorem C20_sha512_224_example : sha512_224Impl.session
    ⟨List.replicate 8 0xdeadbeef#64, 7#64, 9#64, 3, List.replicate 128 0xff#8⟩
    [str "ab", [], str "c"] (List.replicate 29 0xee#8) = .ok [0x46#8, 0x34#8, 0x27#8, 0x0f#8, 0x70#8, 0x7b#8, 0x6a#8, 0x54#8, 0xda#8, 0xae#8, 0x75#8, 0x30#8, 0x46#8, 0x08#8, 0x42#8, 0xe2#8, 0x0e#8, 0x37#8, 0xed#8, 0x26#8, 0x5c#8, 0xee#8, 0xe9#8, 0xa4#8, 0x3e#8, 0x89#8, 0x24#8, 0xaa#8, 0xee#8] := by
  decide +kernel

theorem sha512_224_blocks_len (m : List Byte) (p : List Byte) (_hp : p = pad 128 16 m ∨ p = stalePad 128 16 m) :
    ∀ b ∈ blocks 128 p, b.length = 128 := by
  intro b hb
  obtain ⟨i, hi, rfl⟩ := List.mem_map.1 hb
  have hi := List.mem_range.1 hi
  have h2 := Nat.div_mul_le_self p.length 128
  rw [List.length_take, List.length_drop]; omega

theorem sha512_224_eval (m : List Byte) : Pgfe.Spec.Sha.sha512_224 m
    = evalBytes sha512ProcessBlock (words64 sha512H0_224) 28 (blocks 128 (pad 128 16 m)) := by
  have h := evalBytes_ok F512 (words64 sha512H0_224) 28 _ (by decide +kernel) (sha512_224_blocks_len m _ (.inl rfl))
  have h : evalBytes sha512ProcessBlock (words64 sha512H0_224) 28 (blocks 128 (pad 128 16 m)) = _ := h
  rw [h, sha512H0_224_eq]
  have e : F512.compress = comp8 P512 := rfl
  rw [e, fold_comp8]
  rfl

theorem sha512_224Stale_eval (m : List Byte) : Pgfe.Spec.Sha.sha512_224Stale m
    = evalBytes sha512ProcessBlock (words64 sha512H0_224) 28 (blocks 128 (stalePad 128 16 m)) := by
  have h := evalBytes_ok F512 (words64 sha512H0_224) 28 _ (by decide +kernel) (sha512_224_blocks_len m _ (.inr rfl))
  have h : evalBytes sha512ProcessBlock (words64 sha512H0_224) 28 (blocks 128 (stalePad 128 16 m)) = _ := h
  rw [h, sha512H0_224_eq]
  have e : F512.compress = comp8 P512 := rfl
  rw [e, fold_comp8]
  rfl

theorem sha512_224_length (m : List Byte) : (Pgfe.Spec.Sha.sha512_224 m).length = 28 := by
  rw [Pgfe.Spec.Sha.sha512_224, List.length_take, bytes8_length]; decide

theorem sha512_224Stale_length (m : List Byte) : (Pgfe.Spec.Sha.sha512_224Stale m).length = 28 := by
  rw [Pgfe.Spec.Sha.sha512_224Stale, List.length_take, bytes8_length]; decide

theorem sha512_224_differ : evalBytes sha512ProcessBlock (words64 sha512H0_224) 28
      (blocks 128 (pad 128 16 (List.replicate 112 0x61#8)))
    ≠ evalBytes sha512ProcessBlock (words64 sha512H0_224) 28
      (blocks 128 (stalePad 128 16 (List.replicate 112 0x61#8))) := by
  decide +kernel

/-- **C20, violation (SHA-512/224).** For the 112-byte message "aa...a" the digest is not the
standard's. -/
theorem C20_sha512_224_violation (g : ShaCtx 64) (out : List Byte) (hs : g.state.length = 8)
    (hb : g.block.length = 128) (ho : 28 ≤ out.length) :
    ∃ m, m = List.replicate 112 0x61#8 ∧
      sha512_224Impl.session g [m] out ≠ .ok (Pgfe.Spec.Sha.sha512_224 m ++ out.drop 28) := by
  refine ⟨List.replicate 112 0x61#8, rfl, ?_⟩
  intro h
  have hfl : [List.replicate 112 0x61#8].flatten = List.replicate 112 0x61#8 := by simp
  rw [C20_sha512_224_exact g hs hb _ (by
      intro p hp; rw [List.mem_singleton] at hp; subst hp; rw [List.length_replicate]; decide)
      (by rw [hfl, List.length_replicate]; decide) out ho, hfl] at h
  have h := Except.ok.inj h
  have h3 := sha512_224_differ
  rw [← sha512_224_eval, ← sha512_224Stale_eval] at h3
  exact take_ne_of_take_append_ne (by rw [sha512_224Stale_length, sha512_224_length]) (Ne.symm h3) h

/-! ## SHA-512/256 -/
theorem libHash_sha512_256 : F512.libHash (words64 sha512H0_256) 32 = Pgfe.Spec.Sha.sha512_256Stale := by
  funext m
  rw [sha512H0_256_eq, libHash512]; rfl

/-- The library's SHA-512/256 is a correct implementation of the function `sha512_256Stale`. -/
def hashOK_sha512_256 : HashOK sha512_256Impl Pgfe.Spec.Sha.sha512_256Stale :=
  F512.ok (words64 sha512H0_256) (by decide +kernel) 8 rfl 32 (by decide) sha512_256Digest false
    (digest512_ok 32 (by decide)) _ (fun m => congrFun libHash_sha512_256 m)

/-- **C20, exact (SHA-512/256).** For every content `g` of the context memory, every message and every way
of cutting it into updates, the library writes SHA-512/256 computed with `stalePad` in place of the
standard's padding, and nothing else. -/
theorem C20_sha512_256_exact (g : ShaCtx 64) (hs : g.state.length = 8) (hb : g.block.length = 128)
    (parts : List (List Byte)) (hp : ∀ p ∈ parts, p.length < 2 ^ 31)
    (ht : 8 * parts.flatten.length < 2 ^ 128) (out : List Byte) (ho : 32 ≤ out.length) :
    sha512_256Impl.session g parts out
      = .ok (Pgfe.Spec.Sha.sha512_256Stale parts.flatten ++ out.drop 32) :=
  hashOK_sha512_256.session_ok g ⟨hs, hb⟩ parts out hp ht ho

theorem sha512_256Stale_eq (m : List Byte) (h : m.length % 128 < 112 ∨
    ∀ b ∈ (m.drop (m.length / 128 * 128)).take 112, b = 0#8) :
    Pgfe.Spec.Sha.sha512_256Stale m = Pgfe.Spec.Sha.sha512_256 m := by
  have e : stalePad 128 16 m = pad 128 16 m := stalePad_eq 128 16 (by decide) m h
  have e : stalePad (2 * 64) (64 / 4) m = pad (2 * 64) (64 / 4) m := e
  rw [Pgfe.Spec.Sha.sha512_256Stale, Pgfe.Spec.Sha.sha512_256, Sha2.hashStale, Sha2.hash, e]

/-- **C20 (partial, SHA-512/256).** Conformance to FIPS 180-4 for every message whose last block leaves room
for the length field, or has zeros where the stale bytes are read.  Missing for the full claim: the
other messages, for which it is false, see `C20_sha512_256_violation`. -/
theorem C20_sha512_256_partial (g : ShaCtx 64) (hs : g.state.length = 8) (hb : g.block.length = 128)
    (parts : List (List Byte)) (hp : ∀ p ∈ parts, p.length < 2 ^ 31)
    (ht : 8 * parts.flatten.length < 2 ^ 128) (out : List Byte) (ho : 32 ≤ out.length)
    (h : parts.flatten.length % 128 < 112 ∨
      ∀ b ∈ (parts.flatten.drop (parts.flatten.length / 128 * 128)).take 112, b = 0#8) :
    sha512_256Impl.session g parts out = .ok (Pgfe.Spec.Sha.sha512_256 parts.flatten ++ out.drop 32) := by
  rw [C20_sha512_256_exact g hs hb parts hp ht out ho, sha512_256Stale_eq _ h]

/-- A concrete case: "ab", "", "c" in a context full of garbage. -/
theorem C20_sha512_256_example : sha512_256Impl.session
    ⟨List.replicate 8 0xdeadbeef#64, 7#64, 9#64, 3, List.replicate 128 0xff#8⟩
    [str "ab", [], str "c"] (List.replicate 33 0xee#8) = .ok [0x53#8, 0x04#8, 0x8e#8, 0x26#8, 0x81#8, 0x94#8, 0x1e#8, 0xf9#8, 0x9b#8, 0x2e#8, 0x29#8, 0xb7#8, 0x6b#8, 0x4c#8, 0x7d#8, 0xab#8, 0xe4#8, 0xc2#8, 0xd0#8, 0xc6#8, 0x34#8, 0xfc#8, 0x6d#8, 0x46#8, 0xe0#8, 0xe2#8, 0xf1#8, 0x31#8, 0x07#8, 0xe7#8, 0xaf#8, 0x23#8, 0xee#8] := by
  decide +kernel

theorem sha512_256_blocks_len (m : List Byte) (p : List Byte) (_hp : p = pad 128 16 m ∨ p = stalePad 128 16 m) :
    ∀ b ∈ blocks 128 p, b.length = 128 := by
  intro b hb
  obtain ⟨i, hi, rfl⟩ := List.mem_map.1 hb
  have hi := List.mem_range.1 hi
  have h2 := Nat.div_mul_le_self p.length 128
  rw [List.length_take, List.length_drop]; omega

theorem sha512_256_eval (m : List Byte) : Pgfe.Spec.Sha.sha512_256 m
    = evalBytes sha512ProcessBlock (words64 sha512H0_256) 32 (blocks 128 (pad 128 16 m)) := by
  have h := evalBytes_ok F512 (words64 sha512H0_256) 32 _ (by decide +kernel) (sha512_256_blocks_len m _ (.inl rfl))
  have h : evalBytes sha512ProcessBlock (words64 sha512H0_256) 32 (blocks 128 (pad 128 16 m)) = _ := h
  rw [h, sha512H0_256_eq]
  have e : F512.compress = comp8 P512 := rfl
  rw [e, fold_comp8]
  rfl

theorem sha512_256Stale_eval (m : List Byte) : Pgfe.Spec.Sha.sha512_256Stale m
    = evalBytes sha512ProcessBlock (words64 sha512H0_256) 32 (blocks 128 (stalePad 128 16 m)) := by
  have h := evalBytes_ok F512 (words64 sha512H0_256) 32 _ (by decide +kernel) (sha512_256_blocks_len m _ (.inr rfl))
  have h : evalBytes sha512ProcessBlock (words64 sha512H0_256) 32 (blocks 128 (stalePad 128 16 m)) = _ := h
  rw [h, sha512H0_256_eq]
  have e : F512.compress = comp8 P512 := rfl
  rw [e, fold_comp8]
  rfl

theorem sha512_256_length (m : List Byte) : (Pgfe.Spec.Sha.sha512_256 m).length = 32 := by
  rw [Pgfe.Spec.Sha.sha512_256, List.length_take, bytes8_length]; decide

theorem sha512_256Stale_length (m : List Byte) : (Pgfe.Spec.Sha.sha512_256Stale m).length = 32 := by
  rw [Pgfe.Spec.Sha.sha512_256Stale, List.length_take, bytes8_length]; decide

theorem sha512_256_differ : evalBytes sha512ProcessBlock (words64 sha512H0_256) 32
      (blocks 128 (pad 128 16 (List.replicate 112 0x61#8)))
    ≠ evalBytes sha512ProcessBlock (words64 sha512H0_256) 32
      (blocks 128 (stalePad 128 16 (List.replicate 112 0x61#8))) := by
  decide +kernel

/-- **C20, violation (SHA-512/256).** For the 112-byte message "aa...a" the digest is not the
standard's. -/
theorem C20_sha512_256_violation (g : ShaCtx 64) (out : List Byte) (hs : g.state.length = 8)
    (hb : g.block.length = 128) (ho : 32 ≤ out.length) :
    ∃ m, m = List.replicate 112 0x61#8 ∧
      sha512_256Impl.session g [m] out ≠ .ok (Pgfe.Spec.Sha.sha512_256 m ++ out.drop 32) := by
  refine ⟨List.replicate 112 0x61#8, rfl, ?_⟩
  intro h
  have hfl : [List.replicate 112 0x61#8].flatten = List.replicate 112 0x61#8 := by simp
  rw [C20_sha512_256_exact g hs hb _ (by
      intro p hp; rw [List.mem_singleton] at hp; subst hp; rw [List.length_replicate]; decide)
      (by rw [hfl, List.length_replicate]; decide) out ho, hfl] at h
  have h := Except.ok.inj h
  have h3 := sha512_256_differ
  rw [← sha512_256_eval, ← sha512_256Stale_eval] at h3
  exact take_ne_of_take_append_ne (by rw [sha512_256Stale_length, sha512_256_length]) (Ne.symm h3) h

end Pgfe.Props
