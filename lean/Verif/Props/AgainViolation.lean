import Verif.Props.Again
/-!
# C80 does not hold as one would want it: digest calls are not observers
-/
namespace Pgfe.Props
open Pgfe.Model Pgfe.Spec Pgfe.Spec.Again Pgfe.Proofs.Hash Pgfe.Proofs.Again
open Pgfe.Model.HashImpl (Call)

/-- The memory of a new context. -/
def freshMem : (a : Alg) → (a.impl 256).Ctx
  | .MD5 => (⟨List.replicate 4 7#32, 9#64, List.replicate 64 5#8⟩ : Md5Ctx)
  | .SHA1 => (⟨List.replicate 5 1#32, 2#32, 3#32, 99, List.replicate 64 4#8⟩ : ShaCtx 32)
  | .SHA224 | .SHA256 => (⟨List.replicate 8 1#32, 2#32, 3#32, 99, List.replicate 64 4#8⟩ : ShaCtx 32)
  | .SHA384 | .SHA512 | .SHA512_224 | .SHA512_256 =>
    (⟨List.replicate 8 1#64, 2#64, 3#64, 99, List.replicate 128 4#8⟩ : ShaCtx 64)
  | .SHA3_224 | .SHA3_256 | .SHA3_384 | .SHA3_512 => kGarbage
  | .RawSHAKE128 | .SHAKE128 | .RawSHAKE256 | .SHAKE256 => kGarbage

theorem freshMem_ok (a : Alg) : memOK a 256 (freshMem a) := by
  cases a <;> first | exact ⟨rfl, rfl⟩ | exact trivial

theorem stream_moves (cap n : Nat) (hc : 1600 - cap = 64 * n) (h0 : 0 < n) (hn : n ≤ 25) (sfx : List Bool) (d : Byte)
    (hd : Pgfe.Proofs.Keccak.DomSep sfx d) (m : List Byte) (ds k : Nat) (hds : ds + ds ≤ k * (8 * n))
    (e : (Pgfe.Proofs.Keccak.kEval n d m k).toOption.map
      (fun l => decide (l.take ds = (l.take (ds + ds)).drop ds)) = some false) :
    Keccak.bytesOf (Keccak.keccak cap (Keccak.bitsOf m ++ sfx) (8 * ds))
      ≠ (Keccak.bytesOf (Keccak.keccak cap (Keccak.bitsOf m ++ sfx) (8 * (ds + ds)))).drop ds := by
  rw [Pgfe.Proofs.Keccak.kEval_ok n h0 hn] at e
  simp only [Except.toOption, Option.map_some, Option.some.injEq, decide_eq_false_iff_not] at e
  rw [Pgfe.Proofs.Keccak.piece_take _ _ _ _ _ (by omega), Pgfe.Proofs.Keccak.piece_take _ _ _ _ _ hds] at e
  have kb : ∀ j, Keccak.bytesOf (Keccak.keccak cap (Keccak.bitsOf m ++ sfx) (8 * j))
      = Pgfe.Proofs.Keccak.piece (8 * n) (Pgfe.Proofs.Keccak.fin (8 * n) d m) 0 j := by
    intro j
    rw [Pgfe.Proofs.Keccak.keccak_bytes cap (8 * n) j (by omega) (by omega) (by omega) sfx d hd,
      Pgfe.Proofs.Keccak.piece]
    simp only [Nat.zero_add]
  rw [kb, kb]
  exact e

theorem put_ne (d e out : List Byte) (hl : d.length = e.length) (h : d ≠ e) : put d out ≠ put e out := by
  intro he
  rw [put, put, hl] at he
  exact h (List.append_cancel_right he)

theorem two_of_calls {I : HashImpl} (c : C (I.Ctx × List (List Byte)))
    (k : c.toOption.map (fun r => (r.2.length, decide (r.2[0]? = r.2[1]?))) = some (2, false)) :
    ∃ d₁ d₂ c', d₁ ≠ d₂ ∧ c = .ok (c', [d₁, d₂]) := by
  cases c with
  | error e => simp [Except.toOption] at k
  | ok r =>
    obtain ⟨c', outs⟩ := r
    simp only [Except.toOption, Option.map_some, Option.some.injEq, Prod.mk.injEq, decide_eq_false_iff_not] at k
    obtain ⟨k1, k2⟩ := k
    match outs, k1, k2 with
    | [d₁, d₂], _, k2 => exact ⟨d₁, d₂, c', by simpa using k2, rfl⟩

/-- Hashing "abc" and asking for the digest twice. -/
abbrev twice : List Call :=
  [.update (str "abc"), .digest (List.replicate 64 0#8), .digest (List.replicate 64 0#8)]

theorem twice_answers (a : Alg) : ∃ c', ((a.impl 256).init (freshMem a) >>= fun c => (a.impl 256).calls c twice)
    = .ok (c', answers a (256 / 8) twice) := by
  refine C80_partial a 256 (by decide) (fun _ => by decide) _ (freshMem_ok a) twice ?_ ?_ ?_
  · intro x hx
    simp only [List.mem_cons, List.not_mem_nil, or_false, reduceCtorEq, HashImpl.Call.update.injEq] at hx
    subst hx
    cases a <;> first | (show 0 < List.length _; decide) | (show List.length _ < 2 ^ 31; decide) |
      (show List.length _ ≤ 2 ^ 29 - 192; decide)
  · cases a <;> first | exact trivial | (show 8 * _ < 2 ^ 64; decide) | (show 8 * _ < 2 ^ 128; decide)
  · intro o ho
    simp only [List.mem_cons, List.not_mem_nil, or_false, reduceCtorEq, false_or, HashImpl.Call.digest.injEq, or_self] at ho
    subst ho
    rw [List.length_replicate]
    cases a <;> decide

theorem sponge_twice (a : Alg) (cap n : Nat) (hc : 1600 - cap = 64 * n) (h0 : 0 < n) (hn : n ≤ 25) (sfx : List Bool)
    (d : Byte) (hd : Pgfe.Proofs.Keccak.DomSep sfx d) (ds k : Nat) (hds : ds + ds ≤ k * (8 * n))
    (e : (Pgfe.Proofs.Keccak.kEval n d (str "abc") k).toOption.map
      (fun l => decide (l.take ds = (l.take (ds + ds)).drop ds)) = some false)
    (stream : Nat → List Byte → List Byte)
    (hs : stream = fun k m => Keccak.bytesOf (Keccak.keccak cap (Keccak.bitsOf m ++ sfx) (8 * k)))
    (ha : answers a (256 / 8) twice = spongeAnswers stream ds [] none twice) :
    ∃ d₁ d₂ c', d₁ ≠ d₂ ∧
      ((a.impl 256).init (freshMem a) >>= fun c => (a.impl 256).calls c twice) = .ok (c', [d₁, d₂]) := by
  obtain ⟨c', h⟩ := twice_answers a
  rw [ha] at h
  refine ⟨_, _, c', ?_, h⟩
  rw [hs]
  refine put_ne _ _ _ ?_ (stream_moves cap n hc h0 hn sfx d hd _ ds k hds e)
  dsimp only
  rw [List.length_drop,
    Pgfe.Proofs.Keccak.keccak_bytes cap (8 * n) _ (by omega) (by omega) (by omega) sfx d hd,
    Pgfe.Proofs.Keccak.keccak_bytes cap (8 * n) _ (by omega) (by omega) (by omega) sfx d hd]
  simp

theorem md5_twice : Md5.md5 ([] ++ str "abc") ≠ Md5.md5 (Md5.pad ([] ++ str "abc")) := by decide +kernel

theorem twice_SHA1 : ((Alg.impl .SHA1 256).init (freshMem .SHA1) >>= fun c =>
    (Alg.impl .SHA1 256).calls c twice).toOption.map (fun r => (r.2.length, decide (r.2[0]? = r.2[1]?)))
      = some (2, false) := by decide +kernel
theorem twice_SHA224 : ((Alg.impl .SHA224 256).init (freshMem .SHA224) >>= fun c =>
    (Alg.impl .SHA224 256).calls c twice).toOption.map (fun r => (r.2.length, decide (r.2[0]? = r.2[1]?)))
      = some (2, false) := by decide +kernel
theorem twice_SHA256 : ((Alg.impl .SHA256 256).init (freshMem .SHA256) >>= fun c =>
    (Alg.impl .SHA256 256).calls c twice).toOption.map (fun r => (r.2.length, decide (r.2[0]? = r.2[1]?)))
      = some (2, false) := by decide +kernel
theorem twice_SHA384 : ((Alg.impl .SHA384 256).init (freshMem .SHA384) >>= fun c =>
    (Alg.impl .SHA384 256).calls c twice).toOption.map (fun r => (r.2.length, decide (r.2[0]? = r.2[1]?)))
      = some (2, false) := by decide +kernel
theorem twice_SHA512 : ((Alg.impl .SHA512 256).init (freshMem .SHA512) >>= fun c =>
    (Alg.impl .SHA512 256).calls c twice).toOption.map (fun r => (r.2.length, decide (r.2[0]? = r.2[1]?)))
      = some (2, false) := by decide +kernel
theorem twice_SHA512_224 : ((Alg.impl .SHA512_224 256).init (freshMem .SHA512_224) >>= fun c =>
    (Alg.impl .SHA512_224 256).calls c twice).toOption.map (fun r => (r.2.length, decide (r.2[0]? = r.2[1]?)))
      = some (2, false) := by decide +kernel
theorem twice_SHA512_256 : ((Alg.impl .SHA512_256 256).init (freshMem .SHA512_256) >>= fun c =>
    (Alg.impl .SHA512_256 256).calls c twice).toOption.map (fun r => (r.2.length, decide (r.2[0]? = r.2[1]?)))
      = some (2, false) := by decide +kernel

theorem twice_SHA3_224 : ∃ d₁ d₂ c', d₁ ≠ d₂ ∧ ((Alg.impl .SHA3_224 256).init (freshMem .SHA3_224) >>= fun c =>
    (Alg.impl .SHA3_224 256).calls c twice) = .ok (c', [d₁, d₂]) :=
  sponge_twice .SHA3_224 448 18 rfl (by decide) (by decide) _ _ dsep3 28 1 (by decide)
  (by decide +kernel) (sha3Stream 448) rfl (by simp only [answers])
theorem twice_SHA3_256 : ∃ d₁ d₂ c', d₁ ≠ d₂ ∧ ((Alg.impl .SHA3_256 256).init (freshMem .SHA3_256) >>= fun c =>
    (Alg.impl .SHA3_256 256).calls c twice) = .ok (c', [d₁, d₂]) :=
  sponge_twice .SHA3_256 512 17 rfl (by decide) (by decide) _ _ dsep3 32 1 (by decide)
  (by decide +kernel) (sha3Stream 512) rfl (by simp only [answers])
theorem twice_SHA3_384 : ∃ d₁ d₂ c', d₁ ≠ d₂ ∧ ((Alg.impl .SHA3_384 256).init (freshMem .SHA3_384) >>= fun c =>
    (Alg.impl .SHA3_384 256).calls c twice) = .ok (c', [d₁, d₂]) :=
  sponge_twice .SHA3_384 768 13 rfl (by decide) (by decide) _ _ dsep3 48 1 (by decide)
  (by decide +kernel) (sha3Stream 768) rfl (by simp only [answers])
theorem twice_SHA3_512 : ∃ d₁ d₂ c', d₁ ≠ d₂ ∧ ((Alg.impl .SHA3_512 256).init (freshMem .SHA3_512) >>= fun c =>
    (Alg.impl .SHA3_512 256).calls c twice) = .ok (c', [d₁, d₂]) :=
  sponge_twice .SHA3_512 1024 9 rfl (by decide) (by decide) _ _ dsep3 64 2 (by decide)
  (by decide +kernel) (sha3Stream 1024) rfl (by simp only [answers])
theorem twice_RawSHAKE128 : ∃ d₁ d₂ c', d₁ ≠ d₂ ∧ ((Alg.impl .RawSHAKE128 256).init (freshMem .RawSHAKE128) >>= fun c =>
    (Alg.impl .RawSHAKE128 256).calls c twice) = .ok (c', [d₁, d₂]) :=
  sponge_twice .RawSHAKE128 256 21 rfl (by decide) (by decide) _ _ dsepR 32 1 (by decide)
  (by decide +kernel) (Keccak.rawshake128) rfl (by simp only [answers])
theorem twice_SHAKE128 : ∃ d₁ d₂ c', d₁ ≠ d₂ ∧ ((Alg.impl .SHAKE128 256).init (freshMem .SHAKE128) >>= fun c =>
    (Alg.impl .SHAKE128 256).calls c twice) = .ok (c', [d₁, d₂]) :=
  sponge_twice .SHAKE128 256 21 rfl (by decide) (by decide) _ _ dsepS 32 1 (by decide)
  (by decide +kernel) (Keccak.shake128) rfl (by simp only [answers])
theorem twice_RawSHAKE256 : ∃ d₁ d₂ c', d₁ ≠ d₂ ∧ ((Alg.impl .RawSHAKE256 256).init (freshMem .RawSHAKE256) >>= fun c =>
    (Alg.impl .RawSHAKE256 256).calls c twice) = .ok (c', [d₁, d₂]) :=
  sponge_twice .RawSHAKE256 512 17 rfl (by decide) (by decide) _ _ dsepR 32 1 (by decide)
  (by decide +kernel) (Keccak.rawshake256) rfl (by simp only [answers])
theorem twice_SHAKE256 : ∃ d₁ d₂ c', d₁ ≠ d₂ ∧ ((Alg.impl .SHAKE256 256).init (freshMem .SHAKE256) >>= fun c =>
    (Alg.impl .SHAKE256 256).calls c twice) = .ok (c', [d₁, d₂]) :=
  sponge_twice .SHAKE256 512 17 rfl (by decide) (by decide) _ _ dsepS 32 1 (by decide)
  (by decide +kernel) (Keccak.shake256) rfl (by simp only [answers])

/-- **C80 fails as an observer**: for each of the 16 algorithms, hashing "abc" and asking for the digest
twice gives two different answers (32 bytes from the SHAKE variants). -/
theorem C80_violation (a : Alg) : ∃ d₁ d₂ c', d₁ ≠ d₂ ∧
    ((a.impl 256).init (freshMem a) >>= fun c => (a.impl 256).calls c
      [.update (str "abc"), .digest (List.replicate 64 0#8), .digest (List.replicate 64 0#8)]) = .ok (c', [d₁, d₂]) := by
  cases a
  case MD5 =>
    obtain ⟨c', h⟩ := twice_answers .MD5
    refine ⟨_, _, c', ?_, h⟩
    exact put_ne _ _ _ (by rw [Pgfe.Proofs.Md5.md5_length, Pgfe.Proofs.Md5.md5_length]) md5_twice
  case SHA1 => exact two_of_calls _ twice_SHA1
  case SHA224 => exact two_of_calls _ twice_SHA224
  case SHA256 => exact two_of_calls _ twice_SHA256
  case SHA384 => exact two_of_calls _ twice_SHA384
  case SHA512 => exact two_of_calls _ twice_SHA512
  case SHA512_224 => exact two_of_calls _ twice_SHA512_224
  case SHA512_256 => exact two_of_calls _ twice_SHA512_256
  case SHA3_224 => exact twice_SHA3_224
  case SHA3_256 => exact twice_SHA3_256
  case SHA3_384 => exact twice_SHA3_384
  case SHA3_512 => exact twice_SHA3_512
  case RawSHAKE128 => exact twice_RawSHAKE128
  case SHAKE128 => exact twice_SHAKE128
  case RawSHAKE256 => exact twice_RawSHAKE256
  case SHAKE256 => exact twice_SHAKE256

end Pgfe.Props
