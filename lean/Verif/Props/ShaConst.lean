import Verif.Props.Sha
/-!
# C31, C32: updates of 2^31 bytes or more; the constants
-/
namespace Pgfe.Props
open Pgfe.Model Pgfe.Proofs Pgfe.Proofs.Hash Pgfe.Proofs.Sha

/-! ## C31: updates of 2^31 bytes or more -/

/-- **C31, violation.** In every context that init and further calls can produce, an update of 2^31 or
more bytes (the total staying within what the standard allows) overflows the `int` loop counter. -/
theorem C31_sha1_violation (c : ShaCtx 32) (hs : c.state.length = 5) (hb : c.block.length = 64)
    (hi : c.index < 64) (input : List Byte) (n : Nat) (hn : n ≤ input.length) (h31 : 2 ^ 31 ≤ n)
    (ht : c.lenHigh.toNat * 2 ^ 32 + c.lenLow.toNat + 8 * n < 2 ^ 64) :
    sha1Update c (some input) n = .error .intOverflow :=
  F1.update_overflow c ⟨hs, hb⟩ hi input n hn h31 ht

theorem C31_sha224_256_violation (c : ShaCtx 32) (hs : c.state.length = 8) (hb : c.block.length = 64)
    (hi : c.index < 64) (input : List Byte) (n : Nat) (hn : n ≤ input.length) (h31 : 2 ^ 31 ≤ n)
    (ht : c.lenHigh.toNat * 2 ^ 32 + c.lenLow.toNat + 8 * n < 2 ^ 64) :
    sha224Update c (some input) n = .error .intOverflow ∧
      sha256Update c (some input) n = .error .intOverflow :=
  ⟨F256.update_overflow c ⟨hs, hb⟩ hi input n hn h31 ht,
    F256.update_overflow c ⟨hs, hb⟩ hi input n hn h31 ht⟩

/-- `sha512Update` is the update function of SHA-384, SHA-512, SHA-512/224 and SHA-512/256. -/
theorem C31_sha512_violation (c : ShaCtx 64) (hs : c.state.length = 8) (hb : c.block.length = 128)
    (hi : c.index < 128) (input : List Byte) (n : Nat) (hn : n ≤ input.length) (h31 : 2 ^ 31 ≤ n)
    (ht : c.lenHigh.toNat * 2 ^ 64 + c.lenLow.toNat + 8 * n < 2 ^ 128) :
    sha512Update c (some input) n = .error .intOverflow :=
  F512.update_overflow c ⟨hs, hb⟩ hi input n hn h31 ht

/-- The hypotheses are met by the context that init produces and any input of 2^31 bytes. -/
theorem C31_example (g : ShaCtx 32) (hg : g.state.length = 5) (hb : g.block.length = 64)
    (input : List Byte) (hin : input.length = 2 ^ 31) :
    (sha1Init g >>= fun c => sha1Update c (some input) input.length) = .error .intOverflow := by
  have h2 : sha1Init g = .ok ⟨sha1H0, 0#32, 0#32, 0, g.block⟩ := F1.init_eq sha1H0 rfl g ⟨hg, hb⟩
  rw [h2, bind_ok]
  generalize hn : input.length = n at hin
  exact C31_sha1_violation ⟨sha1H0, 0#32, 0#32, 0, g.block⟩ rfl hb (by dsimp only; decide) input n (by omega)
    (by omega) (by dsimp only; rw [hin]; decide)

/-- **C31 (partial).** Below 2^31 bytes an update is complete: it leaves the same context as
absorbing the bytes in two updates cut anywhere.  (That the digest then covers all bytes is
`C18_sha1_exact` etc.)  Missing: lengths of 2^31 and more, for which the claim is false. -/
theorem C31_partial {w : Nat} (F : Fam w) (c : ShaCtx w) (hc : F.WF c) (hi : c.index < F.bs)
    (a b : List Byte) (hl : a.length + b.length < 2 ^ 31)
    (ht : Fam.val c + 8 * (a.length + b.length) < 2 ^ (2 * w)) :
    ∃ c₁ c₂, shaUpdate F.process F.bs c (some a) a.length = .ok c₁ ∧
      shaUpdate F.process F.bs c₁ (some b) b.length = .ok c₂ ∧
      shaUpdate F.process F.bs c (some (a ++ b)) (a ++ b).length = .ok c₂ := by
  have e1 := F.update_ok c hc hi a a.length (Nat.le_refl _) (by omega) (by omega)
  rw [List.take_length] at e1
  obtain ⟨w1, i1, v1⟩ := F.foldl_push a c hc hi (by omega)
  have e2 := F.update_ok (a.foldl F.push c) w1 i1 b b.length (Nat.le_refl _) (by omega) (by omega)
  rw [List.take_length] at e2
  have e3 := F.update_ok c hc hi (a ++ b) (a ++ b).length (Nat.le_refl _)
    (by rw [List.length_append]; omega) (by rw [List.length_append]; omega)
  rw [List.take_length, List.foldl_append] at e3
  exact ⟨_, _, e1, e2, e3⟩

/-! ## C32: the constants -/

/-- A prime, by trial division. -/
def isPrime (p : Nat) : Bool := decide (2 ≤ p) && (List.range p).all (fun d => d < 2 || p % d != 0)
/-- The first 80 primes: all primes below 410. -/
def firstPrimes : List Nat := (List.range 410).filter isPrime
/-- `x` consists of the first `w` bits of the fractional part of the `e`-th root of `p`:
`a + x / 2^w <= root < a + (x + 1) / 2^w` for an integer `a`. -/
def IsFracRoot (e w p x : Nat) : Prop :=
  x < 2 ^ w ∧ ∃ a, (a * 2 ^ w + x) ^ e ≤ p * 2 ^ (e * w) ∧ p * 2 ^ (e * w) < (a * 2 ^ w + x + 1) ^ e

theorem C32_firstPrimes : firstPrimes.length = 80 ∧ firstPrimes.take 10 = [2, 3, 5, 7, 11, 13, 17, 19, 23, 29]
    ∧ (∀ p, p ∈ firstPrimes ↔ p < 410 ∧ 2 ≤ p ∧ ∀ d, 2 ≤ d → d < p → ¬ d ∣ p) := by
  refine ⟨by decide +kernel, by decide +kernel, fun p => ?_⟩
  rw [firstPrimes, List.mem_filter, List.mem_range, isPrime, Bool.and_eq_true, decide_eq_true_eq,
    List.all_eq_true]
  constructor
  · rintro ⟨h1, h2, h3⟩
    refine ⟨h1, h2, fun d hd hp hdvd => ?_⟩
    have := h3 d (List.mem_range.2 hp)
    rw [Nat.mod_eq_zero_of_dvd hdvd] at this
    simp at this
    omega
  · rintro ⟨h1, h2, h3⟩
    refine ⟨h1, h2, fun d hd => ?_⟩
    have hd := List.mem_range.1 hd
    by_cases h4 : d < 2
    · simp [h4]
    · have := h3 d (by omega) hd
      rw [Nat.dvd_iff_mod_eq_zero] at this
      simp [this]

def isFracRootB (e w p x : Nat) : Bool :=
  decide (x < 2 ^ w) && (List.range 32).any (fun a =>
    decide ((a * 2 ^ w + x) ^ e ≤ p * 2 ^ (e * w)) && decide (p * 2 ^ (e * w) < (a * 2 ^ w + x + 1) ^ e))

theorem isFracRootB_iff (e w p x : Nat) (h : isFracRootB e w p x = true) : IsFracRoot e w p x := by
  rw [isFracRootB, Bool.and_eq_true, decide_eq_true_eq, List.any_eq_true] at h
  obtain ⟨h1, a, _, h2⟩ := h
  rw [Bool.and_eq_true, decide_eq_true_eq, decide_eq_true_eq] at h2
  exact ⟨h1, a, h2⟩

/-- **C32 (SHA-1).** The round constants are the integer parts of 2^30 times the square roots of 2, 3,
5 and 10. -/
theorem C32_sha1K : sha1K.length = 4 ∧ ∀ (i : Nat) (k : W32) (p : Nat), sha1K[i]? = some k → [2, 3, 5, 10][i]? = some p →
    k.toNat ^ 2 ≤ p * 2 ^ 60 ∧ p * 2 ^ 60 < (k.toNat + 1) ^ 2 := by
  refine ⟨rfl, ?_⟩
  intro i k p h1 h2
  match i, h1, h2 with
  | 0, h1, h2 => cases h1; cases h2; decide +kernel
  | 1, h1, h2 => cases h1; cases h2; decide +kernel
  | 2, h1, h2 => cases h1; cases h2; decide +kernel
  | 3, h1, h2 => cases h1; cases h2; decide +kernel

theorem fracRoots {w : Nat} (e : Nat) (l : List (BitVec w)) (ps : List Nat)
    (h : (l.zip ps).all (fun q => isFracRootB e w q.2 q.1.toNat) = true) (_hl : l.length = ps.length) :
    ∀ (i : Nat) (k : BitVec w) (p : Nat), l[i]? = some k → ps[i]? = some p → IsFracRoot e w p k.toNat := by
  intro i k p h1 h2
  apply isFracRootB_iff
  have hm : (k, p) ∈ l.zip ps := by
    rw [List.mem_iff_getElem?]
    exact ⟨i, by rw [List.getElem?_zip_eq_some]; exact ⟨h1, h2⟩⟩
  exact List.all_eq_true.1 h _ hm

/-- **C32 (SHA-224, SHA-256).** The 64 round constants are the first 32 bits of the fractional parts of
the cube roots of the first 64 primes. -/
theorem C32_sha256K : sha256K.length = 64 ∧ ∀ (i : Nat) (k : W32) (p : Nat), sha256K[i]? = some k →
    (firstPrimes.take 64)[i]? = some p → IsFracRoot 3 32 p k.toNat :=
  ⟨rfl, fracRoots 3 sha256K (firstPrimes.take 64) (by decide +kernel) (by decide +kernel)⟩

/-- **C32 (SHA-384, SHA-512, SHA-512/t).** The 80 round constants are the first 64 bits of the
fractional parts of the cube roots of the first 80 primes. -/
theorem C32_sha512K : (words64 sha512K).length = 80 ∧ ∀ (i : Nat) (k : W64) (p : Nat), (words64 sha512K)[i]? = some k →
    firstPrimes[i]? = some p → IsFracRoot 3 64 p k.toNat :=
  ⟨by decide +kernel, fracRoots 3 (words64 sha512K) firstPrimes (by decide +kernel) (by decide +kernel)⟩

/-- **C32 (SHA-256).** The initial value: 32 bits of the square roots of the first 8 primes. -/
theorem C32_sha256H0 : sha256H0.length = 8 ∧ ∀ (i : Nat) (k : W32) (p : Nat), sha256H0[i]? = some k →
    (firstPrimes.take 8)[i]? = some p → IsFracRoot 2 32 p k.toNat :=
  ⟨rfl, fracRoots 2 sha256H0 (firstPrimes.take 8) (by decide +kernel) (by decide +kernel)⟩

/-- **C32 (SHA-512).** The initial value: 64 bits of the square roots of the first 8 primes. -/
theorem C32_sha512H0 : (words64 sha512H0).length = 8 ∧ ∀ (i : Nat) (k : W64) (p : Nat), (words64 sha512H0)[i]? = some k →
    (firstPrimes.take 8)[i]? = some p → IsFracRoot 2 64 p k.toNat :=
  ⟨rfl, fracRoots 2 (words64 sha512H0) (firstPrimes.take 8) (by decide +kernel) (by decide +kernel)⟩

/-- **C32 (SHA-384).** The initial value: 64 bits of the square roots of the 9th to 16th primes. -/
theorem C32_sha384H0 : (words64 sha384H0).length = 8 ∧ ∀ (i : Nat) (k : W64) (p : Nat), (words64 sha384H0)[i]? = some k →
    ((firstPrimes.drop 8).take 8)[i]? = some p → IsFracRoot 2 64 p k.toNat :=
  ⟨rfl, fracRoots 2 (words64 sha384H0) ((firstPrimes.drop 8).take 8) (by decide +kernel) (by decide +kernel)⟩

/-- **C32 (SHA-224).** The initial value: the second 32 bits of the same square roots, i.e. the low
halves of 64-bit words that are the first 64 bits. -/
theorem C32_sha224H0 : sha224H0.length = 8 ∧ ∀ (i : Nat) (k : W32) (p : Nat), sha224H0[i]? = some k →
    ((firstPrimes.drop 8).take 8)[i]? = some p → ∃ hi, IsFracRoot 2 64 p (hi * 2 ^ 32 + k.toNat) := by
  refine ⟨rfl, ?_⟩
  intro i k p h1 h2
  have e : sha224H0 = (words64 sha384H0).map (fun x => x.setWidth 32) := by decide +kernel
  rw [e, List.getElem?_map] at h1
  cases h3 : (words64 sha384H0)[i]? with
  | none => rw [h3] at h1; cases h1
  | some x =>
    rw [h3] at h1
    cases h1
    refine ⟨x.toNat / 2 ^ 32, ?_⟩
    have : x.toNat / 2 ^ 32 * 2 ^ 32 + (x.setWidth 32).toNat = x.toNat := by
      rw [BitVec.toNat_setWidth, Nat.mul_comm]; exact Nat.div_add_mod ..
    rw [this]
    exact C32_sha384H0.2 i x p h3 h2

/-- **C32 (SHA-512/224, SHA-512/256).** The initial values are those the standard's IV generation
function yields. -/
theorem C32_sha512t : words64 sha512H0_224 = (Pgfe.Spec.Sha.sha512tH0 "SHA-512/224").words ∧
    words64 sha512H0_256 = (Pgfe.Spec.Sha.sha512tH0 "SHA-512/256").words :=
  ⟨sha512H0_224_eq, sha512H0_256_eq⟩

/-- The tables of the specification are those of the code (so that the roots characterise them, too). -/
theorem C32_spec : sha256K = Pgfe.Spec.Sha.K256 ∧ words64 sha512K = Pgfe.Spec.Sha.K512 ∧
    sha1H0 = [Pgfe.Spec.Sha.sha1H0.a, Pgfe.Spec.Sha.sha1H0.b, Pgfe.Spec.Sha.sha1H0.c,
      Pgfe.Spec.Sha.sha1H0.d, Pgfe.Spec.Sha.sha1H0.e] := by decide +kernel

end Pgfe.Props
