import Verif.Props.Hash
import Verif.Props.Keccak
import Verif.Proofs.KeccakInj
/-!
# C81: the KECCAK functions confuse messages, or one another, only through collisions inside the sponge
-/
namespace Pgfe.Props
open Pgfe.Model Pgfe.Spec Pgfe.Proofs.Hash Pgfe.Proofs.KInj
open Pgfe.Spec.Keccak (bitsOf bytesOf keccak squeeze absorb bitBlocks pad10star1)
open Pgfe.Proofs.Keccak (RepS DomSep domSep_sha3 domSep_shake domSep_raw fin_repS strm fin perms perms_repS rep_bytes
  out_strm bitsOf_flatMap bitsOf_take padB pad_bits bitBlocks_bitsOf stBytes padTail padTail_length)

/-- The rate in bytes and the byte that starts the padding. -/
theorem keccak_params (a : Alg) (ha : isKeccak a = true) :
    ∃ rb d, 1600 - capacity a = 8 * rb ∧ 0 < rb ∧ rb ≤ 200 ∧ DomSep (suffix a) d := by
  cases a <;> first
    | exact absurd ha (by decide)
    | exact ⟨144, _, rfl, by decide, by decide, domSep_sha3⟩
    | exact ⟨136, _, rfl, by decide, by decide, domSep_sha3⟩
    | exact ⟨104, _, rfl, by decide, by decide, domSep_sha3⟩
    | exact ⟨72, _, rfl, by decide, by decide, domSep_sha3⟩
    | exact ⟨168, _, rfl, by decide, by decide, domSep_raw⟩
    | exact ⟨168, _, rfl, by decide, by decide, domSep_shake⟩
    | exact ⟨136, _, rfl, by decide, by decide, domSep_raw⟩
    | exact ⟨136, _, rfl, by decide, by decide, domSep_shake⟩

theorem libHash_keccak (a : Alg) (ha : isKeccak a = true) (bits : Nat) (m : List Byte) :
    libHash a (bits / 8) m = bytesOf (keccak (capacity a) (bitsOf m ++ suffix a) (8 * outSize a bits)) := by
  cases a <;> first
    | exact absurd ha (by decide)
    | rfl

/-- What is squeezed is the bits of a byte string. -/
theorem squeeze_bits (rb n : Nat) (hrb : 0 < rb) (h200 : rb ≤ 200) (f : Nat → W64) (S : List Bool) (h : RepS f S) :
    squeeze (8 * rb) S (8 * n) = bitsOf ((List.range n).map (strm rb f)) := by
  have e : (fun k => (Keccak.keccakFs k S).take (8 * rb)) = fun k => bitsOf ((stBytes (perms k f)).take rb) := by
    funext k
    rw [← rep_bytes (perms_repS h k), bitsOf_take]
  rw [squeeze, e, bitsOf_flatMap, Nat.mul_div_mul_left _ _ (by decide : 0 < 8), bitsOf_take, out_strm rb hrb h200]

theorem state_absorb (a : Alg) (m : List Byte) :
    stateAfter (1600 - capacity a) (spongeBlocks a m) = absorb (1600 - capacity a) (bitsOf m ++ suffix a) := by
  unfold stateAfter spongeBlocks absorb
  rfl

/-- The first `k` bytes of the digest, as squeezed from the final state. -/
theorem digest_bits (a : Alg) (ha : isKeccak a = true) (bits k : Nat) (hk : k ≤ outSize a bits) (m : List Byte) :
    bitsOf ((libHash a (bits / 8) m).take k)
      = squeeze (1600 - capacity a) (stateAfter (1600 - capacity a) (spongeBlocks a m)) (8 * k) := by
  obtain ⟨rb, d, hc, h0, h200, hd⟩ := keccak_params a ha
  have hr := fin_repS rb h0 h200 _ d hd m
  rw [libHash_keccak a ha, Pgfe.Proofs.Keccak.keccak_bytes _ rb _ hc h0 h200 _ d hd, ← List.map_take, List.take_range,
    Nat.min_eq_left hk, state_absorb, hc, squeeze_bits rb k h0 h200 _ _ hr]

theorem blocks_facts (a : Alg) (ha : isKeccak a = true) (m : List Byte) :
    (∀ b ∈ spongeBlocks a m, b.length = 1600 - capacity a) ∧ spongeBlocks a m ≠ [] ∧
      (spongeBlocks a m).flatten = (bitsOf m ++ suffix a) ++ pad10star1 (1600 - capacity a) (bitsOf m ++ suffix a).length := by
  obtain ⟨rb, d, hc, h0, h200, hd⟩ := keccak_params a ha
  have hl : (padB rb d m).length = (m.length / rb + 1) * rb := by
    have := Nat.div_add_mod m.length rb
    have hm := Nat.mod_lt m.length h0
    rw [padB, List.length_append, padTail_length _ _ (by omega), Nat.succ_mul, Nat.mul_comm]
    omega
  have e : spongeBlocks a m = bitBlocks (8 * rb) (bitsOf (padB rb d m)) := by
    rw [spongeBlocks, hc, pad_bits rb h0 _ d hd]
  have hb : (bitsOf (padB rb d m)).length = (m.length / rb + 1) * (8 * rb) := by
    rw [Pgfe.Proofs.Keccak.bitsOf_length, hl, Nat.mul_left_comm]
  refine ⟨?_, ?_, ?_⟩
  · intro b hbm
    rw [e, bitBlocks_bitsOf] at hbm
    obtain ⟨x, hx, rfl⟩ := List.mem_map.1 hbm
    rw [Pgfe.Proofs.Keccak.bitsOf_length, Pgfe.Proofs.Keccak.blocks_len rb _ x hx, hc]
  · rw [e, bitBlocks, hb, Nat.mul_div_cancel _ (by omega)]
    simp
  · rw [e, flatten_bitBlocks (8 * rb) _ (by omega) _ hb, hc, pad_bits rb h0 _ d hd]

/-- Different messages, and equal messages hashed by different functions with the same capacity, are absorbed
as different sequences of blocks. -/
theorem C81_padding (a₁ a₂ : Alg) (h₁ : isKeccak a₁ = true) (h₂ : isKeccak a₂ = true) (hc : capacity a₁ = capacity a₂)
    (m₁ m₂ : List Byte) (h : spongeBlocks a₁ m₁ = spongeBlocks a₂ m₂) : a₁ = a₂ ∧ m₁ = m₂ := by
  have f₁ := (blocks_facts a₁ h₁ m₁).2.2
  have f₂ := (blocks_facts a₂ h₂ m₂).2.2
  rw [h, f₂, ← hc] at f₁
  have e := pad_inj _ _ _ f₁
  have el := congrArg List.length e
  rw [List.length_append, List.length_append, Pgfe.Proofs.Keccak.bitsOf_length, Pgfe.Proofs.Keccak.bitsOf_length] at el
  have s₁ : (suffix a₁).length = 2 ∨ (suffix a₁).length = 4 := by
    cases a₁ <;> first | exact absurd h₁ (by decide) | exact .inl rfl | exact .inr rfl
  have s₂ : (suffix a₂).length = 2 ∨ (suffix a₂).length = 4 := by
    cases a₂ <;> first | exact absurd h₂ (by decide) | exact .inl rfl | exact .inr rfl
  have hm : m₂.length = m₁.length := by omega
  obtain ⟨e1, e2⟩ := List.append_inj e (by rw [Pgfe.Proofs.Keccak.bitsOf_length, Pgfe.Proofs.Keccak.bitsOf_length, hm])
  refine ⟨?_, (bitsOf_inj e1).symm⟩
  revert hc e2
  clear * - h₁ h₂
  revert h₁ h₂
  cases a₁ <;> cases a₂ <;> decide

/-- **C81.** Two hash computations with KECCAK functions of the same capacity, each from any memory and with any
sequence of updates.  If the first `k` bytes of the digests agree (`k` at most the size of either), then they
are the same function on the same message, or there is a collision inside the sponge: two different sequences
of blocks at the start of the computations lead to the same inner state, or two different final states give
the same output. -/
theorem C81 (a₁ a₂ : Alg) (h₁ : isKeccak a₁ = true) (h₂ : isKeccak a₂ = true) (hc : capacity a₁ = capacity a₂)
    (bits₁ bits₂ : Nat) (hb₁ : bits₁ < 2 ^ 32) (hb₂ : bits₂ < 2 ^ 32)
    (g₁ : (a₁.impl bits₁).Ctx) (g₂ : (a₂.impl bits₂).Ctx) (hg₁ : memOK a₁ bits₁ g₁) (hg₂ : memOK a₂ bits₂ g₂)
    (parts₁ parts₂ : List (List Byte)) (hp₁ : ∀ p ∈ parts₁, p.length ≤ 2 ^ 29 - 192) (hp₂ : ∀ p ∈ parts₂, p.length ≤ 2 ^ 29 - 192)
    (out₁ out₂ : List Byte) (ho₁ : outSize a₁ bits₁ ≤ out₁.length) (ho₂ : outSize a₂ bits₂ ≤ out₂.length)
    (k : Nat) (hk₁ : k ≤ outSize a₁ bits₁) (hk₂ : k ≤ outSize a₂ bits₂) :
    ∃ d₁ d₂, (a₁.impl bits₁).session g₁ parts₁ out₁ = .ok d₁ ∧ (a₂.impl bits₂).session g₂ parts₂ out₂ = .ok d₂ ∧
      (d₁.take k = d₂.take k → (a₁ = a₂ ∧ parts₁.flatten = parts₂.flatten) ∨
        InnerCollision (1600 - capacity a₁) (spongeBlocks a₁ parts₁.flatten) (spongeBlocks a₂ parts₂.flatten) ∨
        OutputCollision (1600 - capacity a₁) (8 * k) (spongeBlocks a₁ parts₁.flatten) (spongeBlocks a₂ parts₂.flatten)) := by
  have upd (a : Alg) (h : isKeccak a = true) (n : Nat) (hn : n ≤ 2 ^ 29 - 192) : okUpd a n := by
    cases a <;> first | exact absurd h (by decide) | exact hn
  have tot (a : Alg) (h : isKeccak a = true) (n : Nat) : okTot a n := by
    cases a <;> first | exact absurd h (by decide) | trivial
  have len (a : Alg) (h : isKeccak a = true) (bits : Nat) (m : List Byte) : (libHash a (bits / 8) m).length = outSize a bits := by
    obtain ⟨rb, d, hc, h0, h200, hd⟩ := keccak_params a h
    rw [libHash_keccak a h, Pgfe.Proofs.Keccak.keccak_bytes _ rb _ hc h0 h200 _ d hd]
    simp
  refine ⟨_, _, C21_session a₁ bits₁ hb₁ g₁ hg₁ parts₁ (fun p hp => upd a₁ h₁ _ (hp₁ p hp)) (tot a₁ h₁ _) out₁ ho₁,
    C21_session a₂ bits₂ hb₂ g₂ hg₂ parts₂ (fun p hp => upd a₂ h₂ _ (hp₂ p hp)) (tot a₂ h₂ _) out₂ ho₂, ?_⟩
  intro e
  rw [List.take_append_of_le_length (by rw [len a₁ h₁]; exact hk₁),
    List.take_append_of_le_length (by rw [len a₂ h₂]; exact hk₂)] at e
  have e' := congrArg bitsOf e
  rw [digest_bits a₁ h₁ _ _ hk₁, digest_bits a₂ h₂ _ _ hk₂, ← hc] at e'
  by_cases hs : stateAfter (1600 - capacity a₁) (spongeBlocks a₁ parts₁.flatten)
      = stateAfter (1600 - capacity a₁) (spongeBlocks a₂ parts₂.flatten)
  · by_cases hne : spongeBlocks a₁ parts₁.flatten = spongeBlocks a₂ parts₂.flatten
    · exact .inl (C81_padding a₁ a₂ h₁ h₂ hc _ _ hne)
    · have f₁ := blocks_facts a₁ h₁ parts₁.flatten
      have f₂ := blocks_facts a₂ h₂ parts₂.flatten
      rw [← hc] at f₂
      exact .inr (.inl (inner _ (by omega) _ _ f₁.1 f₂.1 f₁.2.1 f₂.2.1 hne hs))
  · exact .inr (.inr ⟨hs, e'⟩)

/-! ## The permutation -/
open Pgfe.Proofs.Keccak (lst lst_eta lst_congr lst_length perm_lst permF perm_rep Rep Agree)

/-- **C81, the permutation.** The 24 rounds of the library's state transformation never fail on the 25 lanes of a
state, different states stay different, and every state is reached. -/
theorem C81_permutation :
    (∀ A : List W64, A.length = 25 → ∃ B, B.length = 25 ∧ keccakPermutation A 24 = .ok B) ∧
    (∀ A A' : List W64, A.length = 25 → A'.length = 25 → keccakPermutation A 24 = keccakPermutation A' 24 → A = A') ∧
    (∀ B : List W64, B.length = 25 → ∃ A, A.length = 25 ∧ keccakPermutation A 24 = .ok B) := by
  have tot : ∀ A : List W64, A.length = 25 → ∃ B, B.length = 25 ∧ keccakPermutation A 24 = .ok B := by
    intro A hA
    rw [lst_eta A hA, perm_lst]
    exact ⟨_, lst_length _, rfl⟩
  have inj : ∀ A A' : List W64, A.length = 25 → A'.length = 25 → keccakPermutation A 24 = keccakPermutation A' 24 → A = A' := by
    intro A A' hA hA' h
    rw [lst_eta A hA, lst_eta A' hA'] at h ⊢
    generalize (fun i => A.getD i 0#64) = f at h ⊢
    generalize (fun i => A'.getD i 0#64) = f' at h ⊢
    rw [perm_lst, perm_lst, Except.ok.injEq] at h
    have ext (f : Nat → W64) : Rep f (fun x y z => (f (5 * x + y)).getLsbD z) := fun _ _ _ _ _ _ => rfl
    have r := perm_rep (ext f)
    have r' := perm_rep (ext f')
    have ag : Agree (fun x y z => (f (5 * x + y)).getLsbD z) (fun x y z => (f' (5 * x + y)).getLsbD z) := by
      apply rounds_inj (List.range 24)
      intro x y z hx hy hz
      rw [← r x y z hx hy hz, ← r' x y z hx hy hz]
      have := congrArg (fun l : List W64 => (l.getD (5 * x + y) 0#64).getLsbD z) h
      simp only [Pgfe.Proofs.Keccak.lst_getD _ _ (show 5 * x + y < 25 by omega)] at this
      exact this
    apply lst_congr
    intro i hi
    apply BitVec.eq_of_getLsbD_eq
    intro z hz
    have := ag (i / 5) (i % 5) z (by omega) (by omega) hz
    simp only [show 5 * (i / 5) + i % 5 = i by omega] at this
    exact this
  refine ⟨tot, inj, ?_⟩
  let F : List.Vector W64 25 → List.Vector W64 25 := fun A =>
    ⟨(tot A.1 A.2).choose, (tot A.1 A.2).choose_spec.1⟩
  have hF (A : List.Vector W64 25) : keccakPermutation A.1 24 = .ok (F A).1 := (tot A.1 A.2).choose_spec.2
  have hi : Function.Injective F := by
    intro A B h
    apply Subtype.ext
    apply inj _ _ A.2 B.2
    rw [hF, hF, h]
  haveI : Fintype W64 := Fintype.ofInjective BitVec.toFin (fun _ _ h => BitVec.eq_of_toFin_eq h)
  intro B hB
  obtain ⟨A, hA⟩ := (Finite.injective_iff_surjective.1 hi) ⟨B, hB⟩
  exact ⟨A.1, A.2, by rw [hF, hA]⟩

/-- A concrete case: SHA3-256 of "abc" in two pieces and SHAKE256 of "abc".  Both computations succeed, and if
the digests agreed there would be a collision inside the sponge. -/
theorem C81_example : ∃ d₁ d₂,
    (Alg.impl .SHA3_256 0).session kGarbage [str "a", str "bc"] (List.replicate 32 0#8) = .ok d₁ ∧
    (Alg.impl .SHAKE256 256).session kGarbage [str "abc"] (List.replicate 32 0#8) = .ok d₂ ∧
    (d₁.take 32 = d₂.take 32 →
      InnerCollision 1088 (spongeBlocks .SHA3_256 (str "abc")) (spongeBlocks .SHAKE256 (str "abc")) ∨
      OutputCollision 1088 256 (spongeBlocks .SHA3_256 (str "abc")) (spongeBlocks .SHAKE256 (str "abc"))) := by
  obtain ⟨d₁, d₂, h₁, h₂, h⟩ := C81 .SHA3_256 .SHAKE256 rfl rfl rfl 0 256 (by decide) (by decide) kGarbage kGarbage
    trivial trivial [str "a", str "bc"] [str "abc"] (by decide) (by decide) (List.replicate 32 0#8) (List.replicate 32 0#8)
    (by decide) (by decide) 32 (by decide) (by decide)
  refine ⟨d₁, d₂, h₁, h₂, fun e => ?_⟩
  rcases h e with h | h
  · exact absurd h.1 (by decide)
  · exact h

end Pgfe.Props
