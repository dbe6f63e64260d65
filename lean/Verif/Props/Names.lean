import Verif.Props.Hash
/-!
# C53: algorithm names, digest sizes, block sizes
-/
namespace Pgfe.Spec
open Pgfe.Model (Alg)

/-- The input bytes a context holds back, not yet compressed. -/
def held (a : Alg) (bits : Nat) : (a.impl bits).Ctx → List Byte :=
  match a with
  | .MD5 => fun (c : Pgfe.Model.Md5Ctx) => c.block.take (Pgfe.Model.md5Offset c)
  | .SHA1 | .SHA224 | .SHA256 => fun (c : Pgfe.Model.ShaCtx 32) => c.block.take c.index
  | .SHA384 | .SHA512 | .SHA512_224 | .SHA512_256 => fun (c : Pgfe.Model.ShaCtx 64) => c.block.take c.index
  | .SHA3_224 | .SHA3_256 | .SHA3_384 | .SHA3_512 | .RawSHAKE128 | .SHAKE128 | .RawSHAKE256 | .SHAKE256 =>
    fun (c : Pgfe.Model.KeccakCtx) => c.dataQueue.take (c.inqueueBits / 8)

end Pgfe.Spec

namespace Pgfe.Props
open Pgfe.Model Pgfe.Spec Pgfe.Proofs.Hash

/-- The table has the two spellings of every algorithm and nothing else. -/
theorem optionMap_mem (s : List Byte) (a : Alg) : (s, a) ∈ optionMap ↔ s ∈ names a := by
  have h : ∀ p ∈ optionMap, p.1 ∈ names p.2 := by decide
  have h2 : ∀ a, ∀ s ∈ names a, (s, a) ∈ optionMap := by intro a; cases a <;> decide
  exact ⟨fun hs => h _ hs, fun hs => h2 a s hs⟩

theorem optionMap_find (s : List Byte) (a : Alg) (h : (s, a) ∈ optionMap) :
    optionMap.find? (fun p => p.1 = s) = some (s, a) := by
  have h2 : ∀ p ∈ optionMap, optionMap.find? (fun q => q.1 = p.1) = some p := by decide
  exact h2 _ h

/-- **C53.** A string selects an algorithm if and only if it is its canonical spelling or that spelling
in lower case. -/
theorem C53_names (s : List Byte) (a : Alg) : algstr s = .ok a ↔ s ∈ names a := by
  rw [← optionMap_mem, algstr, mapAt]
  constructor
  · intro h
    cases hf : optionMap.find? (fun p => p.1 = s) with
    | none => rw [hf] at h; cases h
    | some p =>
      rw [hf] at h
      have h1 := List.find?_some hf
      have h2 := List.mem_of_find?_eq_some hf
      obtain ⟨x, y⟩ := p
      simp only [decide_eq_true_eq] at h1
      subst h1
      cases h
      exact h2
  · intro h; rw [optionMap_find s a h]

/-- **C53.** Every other string is rejected with an exception. -/
theorem C53_reject (s : List Byte) (h : ∀ a, s ∉ names a) : algstr s = .error .thrown := by
  rw [algstr, mapAt]
  cases hf : optionMap.find? (fun p => p.1 = s) with
  | none => rfl
  | some p =>
    have h1 := List.find?_some hf
    have h2 := List.mem_of_find?_eq_some hf
    obtain ⟨x, y⟩ := p
    simp only [decide_eq_true_eq] at h1
    subst h1
    exact absurd ((optionMap_mem _ _).1 h2) (h y)

/-- **C53.** The same for C strings. -/
theorem C53_cstring (s rest : List Byte) (h0 : 0#8 ∉ s) (a : Alg) :
    (algstrC (s ++ 0#8 :: rest) = .ok a ↔ s ∈ names a) ∧
    ((∀ a, s ∉ names a) → algstrC (s ++ 0#8 :: rest) = .error .thrown) := by
  have e : algstrC (s ++ 0#8 :: rest) = algstr s := by
    rw [algstrC, Pgfe.Proofs.strlen_cstr s rest h0, bind_ok, List.take_left]
  rw [e]
  exact ⟨C53_names s a, C53_reject s⟩

/-- **C53.** No two algorithms share a spelling. -/
theorem C53_distinct (s : List Byte) (a b : Alg) (ha : s ∈ names a) (hb : s ∈ names b) : a = b := by
  have h1 := (C53_names s a).2 ha
  rw [(C53_names s b).2 hb] at h1
  exact (Except.ok.inj h1).symm

/-- Concrete names: accepted ones and rejected ones. -/
theorem C53_example : algstr (str "sha3_256") = .ok .SHA3_256 ∧ algstr (str "RawSHAKE128") = .ok .RawSHAKE128 ∧
    algstr (str "Sha1") = .error .thrown ∧ algstr [] = .error .thrown := by
  refine ⟨(C53_names _ _).2 (by decide), (C53_names _ _).2 (by decide), C53_reject _ ?_, C53_reject _ ?_⟩ <;>
    (intro a; cases a <;> decide)

/-- The published block sizes are the standards' (`pgfe_block_length`). -/
theorem C53_blockLength (a : Alg) : mapAt blockLengthMap a = .ok (blockBytes a) := by
  cases a <;> rfl

/-- The published digest sizes are what the digest functions write for the library's default output
lengths. -/
theorem C53_digestLength (a : Alg) :
    mapAt digestLengthMap a = .ok (outSize a (if a = .SHAKE128 ∨ a = .RawSHAKE128 then 256 else 512)) :=
  C54_sizes a _ (fun _ => rfl)

theorem exists_held (a : Alg) (bits : Nat) (hb : bits < 2 ^ 32) :
    ∃ K : HashOK (a.impl bits) (libHash a (bits / 8)),
      Conf K (memOK a bits) (outSize a bits) (okUpd a) (okTot a) ∧
      ∀ m c, K.Inv m c → held a bits c = Pgfe.Proofs.Sha.tail a.blockSize m := by
  have hk : ∀ n : Nat, n ≤ 2 ^ 29 - 192 → 8 * n + 1536 ≤ 2 ^ 32 := by intro n h; omega
  have hq : ∀ (a : Alg) (ha : isKeccak a = true) (m : List Byte) (c : KeccakCtx),
      (kfam a bits hb).Inv m c → c.dataQueue.take (c.inqueueBits / 8) = Pgfe.Proofs.Sha.tail a.blockSize m := by
    intro a ha m c h
    have h : Pgfe.Proofs.Keccak.Abs _ _ _ _ c _ _ := h
    have h2 := h.q
    rw [kfam_n a ha] at h2
    have h3 := h.inq
    rw [kfam_n a ha] at h3
    rw [h3, Nat.mul_div_cancel_left _ (by decide)]
    exact h2
  cases a
  case MD5 =>
    have key : ∀ (m : List Byte) (c : Md5Ctx), Pgfe.Proofs.Md5.Inv m c →
        c.block.take (md5Offset c) = Pgfe.Proofs.Sha.tail 64 m := by
      intro m c h
      have h : Pgfe.Proofs.Md5.Abs c _ _ (Pgfe.Proofs.Sha.tail 64 m) := h
      rw [Pgfe.Proofs.Md5.offset_eq, h.hl, h.ht]
    exact ⟨Pgfe.Proofs.Md5.hashOK, ⟨fun _ h => h, rfl, fun _ h => h, fun _ h => h⟩, key⟩
  case SHA1 => exact ⟨hashOK_sha1, ⟨fun _ h => h, rfl, fun _ h => h, fun _ h => h⟩, fun _ _ h => h.2.2.2.1⟩
  case SHA224 => exact ⟨hashOK_sha224, ⟨fun _ h => h, rfl, fun _ h => h, fun _ h => h⟩, fun _ _ h => h.2.2.2.1⟩
  case SHA256 => exact ⟨hashOK_sha256, ⟨fun _ h => h, rfl, fun _ h => h, fun _ h => h⟩, fun _ _ h => h.2.2.2.1⟩
  case SHA384 => exact ⟨hashOK_sha384, ⟨fun _ h => h, rfl, fun _ h => h, fun _ h => h⟩, fun _ _ h => h.2.2.2.1⟩
  case SHA512 => exact ⟨hashOK_sha512, ⟨fun _ h => h, rfl, fun _ h => h, fun _ h => h⟩, fun _ _ h => h.2.2.2.1⟩
  case SHA512_224 => exact ⟨hashOK_sha512_224, ⟨fun _ h => h, rfl, fun _ h => h, fun _ h => h⟩, fun _ _ h => h.2.2.2.1⟩
  case SHA512_256 => exact ⟨hashOK_sha512_256, ⟨fun _ h => h, rfl, fun _ h => h, fun _ h => h⟩, fun _ _ h => h.2.2.2.1⟩
  case SHA3_224 =>
    rw [← kfam_H .SHA3_224 rfl bits hb]
    exact ⟨(kfam .SHA3_224 bits hb).hashOK, ⟨fun _ _ => trivial,
      (by decide : (224 : Nat) / 8 = 28), hk, fun _ _ => trivial⟩, hq .SHA3_224 rfl⟩
  case SHA3_256 =>
    rw [← kfam_H .SHA3_256 rfl bits hb]
    exact ⟨(kfam .SHA3_256 bits hb).hashOK, ⟨fun _ _ => trivial,
      (by decide : (256 : Nat) / 8 = 32), hk, fun _ _ => trivial⟩, hq .SHA3_256 rfl⟩
  case SHA3_384 =>
    rw [← kfam_H .SHA3_384 rfl bits hb]
    exact ⟨(kfam .SHA3_384 bits hb).hashOK, ⟨fun _ _ => trivial,
      (by decide : (384 : Nat) / 8 = 48), hk, fun _ _ => trivial⟩, hq .SHA3_384 rfl⟩
  case SHA3_512 =>
    rw [← kfam_H .SHA3_512 rfl bits hb]
    exact ⟨(kfam .SHA3_512 bits hb).hashOK, ⟨fun _ _ => trivial,
      (by decide : (512 : Nat) / 8 = 64), hk, fun _ _ => trivial⟩, hq .SHA3_512 rfl⟩
  case RawSHAKE128 =>
    rw [← kfam_H .RawSHAKE128 rfl bits hb]
    exact ⟨(kfam .RawSHAKE128 bits hb).hashOK, ⟨fun _ _ => trivial, rfl, hk, fun _ _ => trivial⟩,
      hq .RawSHAKE128 rfl⟩
  case RawSHAKE256 =>
    rw [← kfam_H .RawSHAKE256 rfl bits hb]
    exact ⟨(kfam .RawSHAKE256 bits hb).hashOK, ⟨fun _ _ => trivial, rfl, hk, fun _ _ => trivial⟩,
      hq .RawSHAKE256 rfl⟩
  case SHAKE128 =>
    rw [← kfam_H .SHAKE128 rfl bits hb]
    exact ⟨(kfam .SHAKE128 bits hb).hashOK, ⟨fun _ _ => trivial, rfl, hk, fun _ _ => trivial⟩,
      hq .SHAKE128 rfl⟩
  case SHAKE256 =>
    rw [← kfam_H .SHAKE256 rfl bits hb]
    exact ⟨(kfam .SHAKE256 bits hb).hashOK, ⟨fun _ _ => trivial, rfl, hk, fun _ _ => trivial⟩,
      hq .SHAKE256 rfl⟩

/-- **C53.** The published block size is the one the implementation uses: after any sequence of updates
the context has compressed all complete blocks of that size and holds back exactly the bytes of the
incomplete last one. -/
theorem C53_blocks (a : Alg) (bits : Nat) (hb : bits < 2 ^ 32) (g : (a.impl bits).Ctx)
    (hg : memOK a bits g) (parts : List (List Byte)) (hp : ∀ p ∈ parts, okUpd a p.length)
    (ht : okTot a parts.flatten.length) :
    ∃ bs c, mapAt blockLengthMap a = .ok bs ∧
      ((a.impl bits).init g >>= fun c => (a.impl bits).feed c parts) = .ok c ∧
      held a bits c = parts.flatten.drop (parts.flatten.length / bs * bs) := by
  obtain ⟨K, cf, hh⟩ := exists_held a bits hb
  obtain ⟨c1, h1, h2⟩ := K.init_ok g (cf.wf _ hg)
  obtain ⟨c2, h3, h4⟩ := K.feed_ok parts [] c1 h2 (fun p h => cf.u _ (hp p h))
    (by simpa using cf.t _ ht)
  rw [List.nil_append] at h4
  have e : a.blockSize = blockBytes a := by cases a <;> rfl
  refine ⟨blockBytes a, c2, C53_blockLength a, by rw [h1, bind_ok]; exact h3, ?_⟩
  rw [hh _ _ h4, e]; rfl

/-- A concrete case: 150 bytes in two updates, SHA3-384 (blocks of 104 bytes): 46 bytes are held. -/
theorem C53_blocks_example : ∃ c, (Alg.impl .SHA3_384 0).init kGarbage = .ok c ∧
    ∃ c', (Alg.impl .SHA3_384 0).feed c [List.replicate 100 1#8, List.replicate 50 2#8] = .ok c' ∧
      held .SHA3_384 0 c' = List.replicate 46 2#8 := by
  obtain ⟨bs, c, h1, h2, h3⟩ := C53_blocks .SHA3_384 0 (by decide) kGarbage trivial
    [List.replicate 100 1#8, List.replicate 50 2#8] (by
      intro p hp
      simp only [List.mem_cons, List.not_mem_nil, or_false] at hp
      rcases hp with rfl | rfl <;> (show List.length _ ≤ 2 ^ 29 - 192; rw [List.length_replicate]; decide)) trivial
  have e : bs = 104 := (Except.ok.inj ((C53_blockLength .SHA3_384).symm.trans h1)).symm
  subst e
  cases hi : (Alg.impl .SHA3_384 0).init kGarbage with
  | error e => rw [hi] at h2; cases h2
  | ok c0 =>
    rw [hi] at h2
    exact ⟨c0, rfl, c, h2, by rw [h3]; decide +kernel⟩

end Pgfe.Props
