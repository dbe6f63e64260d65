import Verif.Proofs.Again
import Verif.Props.HashEncoder
/-!
# C80: a hash context that goes on being used after a digest
-/
namespace Pgfe.Props
open Pgfe.Model Pgfe.Spec Pgfe.Spec.Again Pgfe.Proofs.Hash Pgfe.Proofs.Again
open Pgfe.Model.HashImpl (Call)
open Pgfe.Spec.Sha (blocks V5 V8 P256 P512 stalePad)
open Pgfe.Proofs.Sha (F1 F256 F512)

theorem total_eq (l : List Call) : HashOK.absorbed l = total l := by
  induction l with
  | nil => rfl
  | cons a l ih =>
    cases a with
    | update x => rw [total, ← ih]; rfl
    | digest o => rw [total, ← ih]; simp [HashOK.absorbed]

/-- **C80, what every history returns.** For each of the 16 algorithms: init on any memory, and then any
sequence of update and digest calls (with update lengths that are well defined, `okUpd`, `okTot`; for the
SHAKE variants a whole number of bytes).  No call leaves the defined behaviour, and the digest calls
return what the abstract machine of the algorithm answers.

What is missing from the property as one would want it: the machines are not observers.  A digest call
changes what the following calls see (`C80_violation`). -/
theorem C80_partial (a : Alg) (bits : Nat) (hb : bits < 2 ^ 32) (h8 : isShake a = true → bits % 8 = 0)
    (g : (a.impl bits).Ctx) (hg : memOK a bits g) (l : List Call)
    (hu : ∀ x, Call.update x ∈ l → okUpd a x.length) (ht : okTot a (total l))
    (ho : ∀ o, Call.digest o ∈ l → outSize a bits ≤ o.length) :
    ∃ c', ((a.impl bits).init g >>= fun c => (a.impl bits).calls c l) = .ok (c', answers a (bits / 8) l) := by
  cases a
  case MD5 =>
    obtain ⟨c, e, h⟩ := Pgfe.Proofs.Md5.hashOK.init_ok g hg
    show ∃ c', (md5Impl.init g >>= fun c => md5Impl.calls c l) = .ok (c', md5Answers [] l)
    rw [e, bind_ok]
    exact md5_calls l [] c h hu ho
  case SHA1 =>
    exact sha_all F1 match1 4 rfl sha1H0 _ Pgfe.Proofs.Sha.sha1H0_eq 20 (by decide) true _
      Pgfe.Proofs.Sha.digest1_ok g hg l (by rw [total_eq]; exact ht) hu ho
  case SHA224 =>
    exact sha_all F256 (match256 Pgfe.Spec.Sha.sha224H0) 4 rfl sha224H0 _ Pgfe.Proofs.Sha.sha224H0_eq 28 (by decide) false _
      (Pgfe.Proofs.Sha.digest256_ok 28 (by decide)) g hg l (by rw [total_eq]; exact ht) hu ho
  case SHA256 =>
    exact sha_all F256 (match256 Pgfe.Spec.Sha.sha256H0) 4 rfl sha256H0 _ Pgfe.Proofs.Sha.sha256H0_eq 32 (by decide) false _
      (Pgfe.Proofs.Sha.digest256_ok 32 (by decide)) g hg l (by rw [total_eq]; exact ht) hu ho
  case SHA384 =>
    exact sha_all F512 (match512 Pgfe.Spec.Sha.sha384H0) 8 rfl (words64 sha384H0) _ Pgfe.Proofs.Sha.sha384H0_eq 48
      (by decide) false _ (Pgfe.Proofs.Sha.digest512_ok 48 (by decide)) g hg l (by rw [total_eq]; exact ht) hu ho
  case SHA512 =>
    exact sha_all F512 (match512 Pgfe.Spec.Sha.sha512H0) 8 rfl (words64 sha512H0) _ Pgfe.Proofs.Sha.sha512H0_eq 64
      (by decide) false _ (Pgfe.Proofs.Sha.digest512_ok 64 (by decide)) g hg l (by rw [total_eq]; exact ht) hu ho
  case SHA512_224 =>
    exact sha_all F512 (match512 (Pgfe.Spec.Sha.sha512tH0 "SHA-512/224")) 8 rfl (words64 sha512H0_224) _
      Pgfe.Proofs.Sha.sha512H0_224_eq 28
      (by decide) false _ (Pgfe.Proofs.Sha.digest512_ok 28 (by decide)) g hg l (by rw [total_eq]; exact ht) hu ho
  case SHA512_256 =>
    exact sha_all F512 (match512 (Pgfe.Spec.Sha.sha512tH0 "SHA-512/256")) 8 rfl (words64 sha512H0_256) _
      Pgfe.Proofs.Sha.sha512H0_256_eq 32
      (by decide) false _ (Pgfe.Proofs.Sha.digest512_ok 32 (by decide)) g hg l (by rw [total_eq]; exact ht) hu ho
  case SHA3_224 =>
    exact sponge_all (kfam .SHA3_224 bits hb) (by decide : (224 : Nat) % 8 = 0) 28 (by decide : (224 : Nat) / 8 = 28) 448 rfl _ dsep3 (sha3Stream 448) (fun _ _ => rfl) g l hu ho
  case SHA3_256 =>
    exact sponge_all (kfam .SHA3_256 bits hb) (by decide : (256 : Nat) % 8 = 0) 32 (by decide : (256 : Nat) / 8 = 32) 512 rfl _ dsep3 (sha3Stream 512) (fun _ _ => rfl) g l hu ho
  case SHA3_384 =>
    exact sponge_all (kfam .SHA3_384 bits hb) (by decide : (384 : Nat) % 8 = 0) 48 (by decide : (384 : Nat) / 8 = 48) 768 rfl _ dsep3 (sha3Stream 768) (fun _ _ => rfl) g l hu ho
  case SHA3_512 =>
    exact sponge_all (kfam .SHA3_512 bits hb) (by decide : (512 : Nat) % 8 = 0) 64 (by decide : (512 : Nat) / 8 = 64) 1024 rfl _ dsep3 (sha3Stream 1024) (fun _ _ => rfl) g l hu ho
  case RawSHAKE128 =>
    exact sponge_all (kfam .RawSHAKE128 bits hb) (h8 rfl) _ rfl 256 rfl _ dsepR Keccak.rawshake128 (fun _ _ => rfl) g l hu ho
  case RawSHAKE256 =>
    exact sponge_all (kfam .RawSHAKE256 bits hb) (h8 rfl) _ rfl 512 rfl _ dsepR Keccak.rawshake256 (fun _ _ => rfl) g l hu ho
  case SHAKE128 =>
    exact sponge_all (kfam .SHAKE128 bits hb) (h8 rfl) _ rfl 256 rfl _ dsepS Keccak.shake128 (fun _ _ => rfl) g l hu ho
  case SHAKE256 =>
    exact sponge_all (kfam .SHAKE256 bits hb) (h8 rfl) _ rfl 512 rfl _ dsepS Keccak.shake256 (fun _ _ => rfl) g l hu ho

/-! ## The machines say the right thing up to the first digest -/

theorem md5_updates (parts : List (List Byte)) (r : List Call) : ∀ m,
    md5Answers m (parts.map .update ++ r) = md5Answers (m ++ parts.flatten) r := by
  induction parts with
  | nil => intro m; simp
  | cons p ps ih =>
    intro m
    rw [List.map_cons, List.cons_append, md5Answers, ih, List.flatten_cons, List.append_assoc]

theorem md_updates (M : MD) (wipe : Bool) (ds : Nat) (h : M.V) (n : Nat) (parts : List (List Byte)) (r : List Call) :
    ∀ y, M.answers wipe ds h n y (parts.map .update ++ r) = M.answers wipe ds h n (y ++ parts.flatten) r := by
  induction parts with
  | nil => intro m; simp
  | cons p ps ih =>
    intro m
    rw [List.map_cons, List.cons_append, MD.answers, ih, List.flatten_cons, List.append_assoc]

theorem sponge_updates (stream : Nat → List Byte → List Byte) (ds : Nat) (parts : List (List Byte)) (r : List Call) :
    ∀ m, spongeAnswers stream ds m none (parts.map .update ++ r) = spongeAnswers stream ds (m ++ parts.flatten) none r := by
  induction parts with
  | nil => intro m; simp
  | cons p ps ih =>
    intro m
    rw [List.map_cons, List.cons_append, spongeAnswers, ih, List.flatten_cons, List.append_assoc]

theorem closing_stale (bs lb : Nat) (hlb : lb < bs) (m : List Byte) :
    closing bs lb (0 + m.length) m = stalePad bs lb m := by
  rw [closing, stalePad, Nat.zero_add]
  by_cases h : m.length % bs < bs - lb
  · rw [if_pos h, if_pos h, Pgfe.Spec.Sha.pad]
    have e : Pgfe.Spec.Sha.padZeros bs lb m.length = bs - lb - m.length % bs - 1 := by
      rw [Pgfe.Spec.Sha.padZeros]
      have : (m.length + 1 + lb) % bs = (m.length % bs + 1 + lb) % bs := by
        rw [Nat.add_assoc, Nat.add_assoc, Nat.mod_add_mod]
      rw [this]
      by_cases h2 : m.length % bs + 1 + lb = bs
      · rw [h2, Nat.mod_self, Nat.sub_zero, Nat.mod_self]; omega
      · rw [Nat.mod_eq_of_lt (by omega : m.length % bs + 1 + lb < bs), Nat.mod_eq_of_lt (by omega)]; omega
    rw [e]
  · rw [if_neg h, if_neg h]

theorem md_first (M : MD) (wipe : Bool) (ds : Nat) (h : M.V) (parts : List (List Byte)) (out : List Byte)
    (r : List Call) (hlb : M.lb < M.bs) :
    (M.answers wipe ds h 0 [] (parts.map .update ++ .digest out :: r)).head?
      = some (put ((M.bytes ((blocks M.bs (stalePad M.bs M.lb parts.flatten)).foldl M.f h)).take ds) out) := by
  rw [md_updates, MD.answers, List.head?_cons, MD.close, List.nil_append, closing_stale _ _ hlb]

/-- The first answer of the machines: the message is hashed (`libHash`, the function of C16-C23). -/
theorem first_answer (a : Alg) (bits : Nat) (parts : List (List Byte)) (out : List Byte) (r : List Call) :
    (answers a (bits / 8) (parts.map .update ++ .digest out :: r)).head?
      = some (put (libHash a (bits / 8) parts.flatten) out) := by
  cases a
  case MD5 => simp only [answers, md5_updates]; rfl
  case SHA1 =>
    refine (md_first sha1MD true 20 Pgfe.Spec.Sha.sha1H0 parts out r (by decide)).trans ?_
    show some (put (List.take 20 (Pgfe.Spec.Sha.sha1Stale parts.flatten)) out) = _
    rw [List.take_of_length_le (by rw [sha1Stale_length]; exact Nat.le_refl _)]
    rfl
  case SHA224 => exact md_first (sha2MD P256 Pgfe.Spec.Sha.sha224H0) false 28 Pgfe.Spec.Sha.sha224H0 parts out r (by decide)
  case SHA256 =>
    refine (md_first (sha2MD P256 Pgfe.Spec.Sha.sha256H0) false 32 Pgfe.Spec.Sha.sha256H0 parts out r (by decide)).trans ?_
    show some (put (List.take 32 (Pgfe.Spec.Sha.sha256Stale parts.flatten)) out) = _
    rw [List.take_of_length_le (by rw [sha256Stale_length]; exact Nat.le_refl _)]
    rfl
  case SHA384 => exact md_first (sha2MD P512 Pgfe.Spec.Sha.sha384H0) false 48 Pgfe.Spec.Sha.sha384H0 parts out r (by decide)
  case SHA512 =>
    refine (md_first (sha2MD P512 Pgfe.Spec.Sha.sha512H0) false 64 Pgfe.Spec.Sha.sha512H0 parts out r (by decide)).trans ?_
    show some (put (List.take 64 (Pgfe.Spec.Sha.sha512Stale parts.flatten)) out) = _
    rw [List.take_of_length_le (by rw [sha512Stale_length]; exact Nat.le_refl _)]
    rfl
  case SHA512_224 =>
    exact md_first (sha2MD P512 (Pgfe.Spec.Sha.sha512tH0 "SHA-512/224")) false 28 (Pgfe.Spec.Sha.sha512tH0 "SHA-512/224")
      parts out r (show 64 / 4 < 2 * 64 by decide)
  case SHA512_256 =>
    exact md_first (sha2MD P512 (Pgfe.Spec.Sha.sha512tH0 "SHA-512/256")) false 32 (Pgfe.Spec.Sha.sha512tH0 "SHA-512/256")
      parts out r (show 64 / 4 < 2 * 64 by decide)
  all_goals
    simp only [answers, sponge_updates]
    rfl

/-- **C80, up to the first digest**: whatever follows, the first digest of a context is the hash of the
bytes of the updates before it. -/
theorem C80_first (a : Alg) (bits : Nat) (hb : bits < 2 ^ 32) (h8 : isShake a = true → bits % 8 = 0)
    (g : (a.impl bits).Ctx) (hg : memOK a bits g) (parts : List (List Byte)) (out : List Byte) (r : List Call)
    (hu : ∀ x, Call.update x ∈ parts.map .update ++ .digest out :: r → okUpd a x.length)
    (ht : okTot a (total (parts.map .update ++ .digest out :: r)))
    (ho : ∀ o, Call.digest o ∈ parts.map .update ++ .digest out :: r → outSize a bits ≤ o.length) :
    ∃ c' later, ((a.impl bits).init g >>= fun c => (a.impl bits).calls c (parts.map .update ++ .digest out :: r))
      = .ok (c', put (libHash a (bits / 8) parts.flatten) out :: later) := by
  obtain ⟨c', h⟩ := C80_partial a bits hb h8 g hg _ hu ht ho
  have hf := first_answer a bits parts out r
  cases hA : answers a (bits / 8) (parts.map .update ++ .digest out :: r) with
  | nil => rw [hA] at hf; cases hf
  | cons x later =>
    rw [hA, List.head?_cons, Option.some.injEq] at hf
    rw [hA, hf] at h
    exact ⟨c', later, h⟩

/-! ## After a digest -/

/-- **C80, MD5.** The digest after the digest of `m` and the bytes `x` is the MD5 of the padded `m` and
`x`: the length extension of `m`. -/
theorem C80_md5 (g : md5Impl.Ctx) (hg : memOK .MD5 0 g) (m x o₁ o₂ : List Byte) (hm : okUpd .MD5 m.length)
    (hx : okUpd .MD5 x.length) (h₁ : 16 ≤ o₁.length) (h₂ : 16 ≤ o₂.length) :
    ∃ c', (md5Impl.init g >>= fun c => md5Impl.calls c [.update m, .digest o₁, .update x, .digest o₂])
      = .ok (c', [put (Md5.md5 m) o₁, put (Md5.md5 (Md5.pad m ++ x)) o₂]) :=
  C80_partial .MD5 0 (by decide) (by decide) g hg [.update m, .digest o₁, .update x, .digest o₂]
    (by intro y h; simp at h; rcases h with rfl | rfl <;> assumption)
    trivial
    (by intro y h; simp at h; rcases h with rfl | rfl <;> assumption)

/-- **C80, KECCAK.** With SHAKE128 the digest after a digest is the next piece of the output, whatever is
updated in between. -/
theorem C80_shake (bits : Nat) (hb : bits < 2 ^ 32) (h8 : bits % 8 = 0) (g : (Alg.impl .SHAKE128 bits).Ctx)
    (hg : memOK .SHAKE128 bits g) (m x o₁ o₂ : List Byte) (hm : okUpd .SHAKE128 m.length)
    (hx : okUpd .SHAKE128 x.length) (h₁ : bits / 8 ≤ o₁.length) (h₂ : bits / 8 ≤ o₂.length) :
    ∃ c', ((Alg.impl .SHAKE128 bits).init g >>= fun c =>
        (Alg.impl .SHAKE128 bits).calls c [.update m, .digest o₁, .update x, .digest o₂])
      = .ok (c', [put (Keccak.shake128 (bits / 8) m) o₁,
          put ((Keccak.shake128 (bits / 8 + bits / 8) m).drop (bits / 8)) o₂]) :=
  C80_partial .SHAKE128 bits hb (fun _ => h8) g hg [.update m, .digest o₁, .update x, .digest o₂]
    (by intro y h; simp at h; rcases h with rfl | rfl <;> assumption)
    trivial
    (by intro y h; simp at h; rcases h with rfl | rfl <;> assumption)

/-! ## HashEncoder -/

/-- The calls of the C functions that calls on a `HashEncoder` object stand for: `update(seq, length)`, and
`get_digest()` into an array of the size of the digest. -/
def encCall : Call → HashEnc.Call
  | .update x => .update x
  | .digest o => .getDigest 0 (fun i => o.getD i 0#8)

theorem api_calls (a : Alg) (ha : isShake a = false) (l : List Call)
    (ho : ∀ o, Call.digest o ∈ l → o.length = outSize a 0) :
    ∀ c, apiCalls a c (l.map encCall) = (a.impl 0).calls c l := by
  induction l with
  | nil => intro c; rfl
  | cons x l ih =>
    intro c
    have ih := ih (fun o h => ho o (List.mem_cons_of_mem _ h))
    cases x with
    | update x =>
      show ((a.impl 0).update c (some x) x.length >>= fun c => apiCalls a c (l.map encCall)) = _
      rw [HashImpl.calls]
      cases (a.impl 0).update c (some x) x.length with
      | error e => rfl
      | ok d => rw [bind_ok, bind_ok, ih]
    | digest o =>
      have hlen := ho o (List.mem_cons_self ..)
      have hbuf : (List.range (digestLen a 0)).map (fun i => o.getD i 0#8) = o := by
        have e : digestLen a 0 = o.length := by rw [hlen, digestLen, ha]; simp
        rw [e]
        apply List.ext_getElem (by simp)
        intro i h1 h2
        simp [h2]
      have hdig : ∀ b, a.digestWith b = (a.impl 0).digest := by
        intro b
        cases a <;> first | rfl | exact absurd ha (by decide)
      show (a.digestWith _ c ((List.range (digestLen a 0)).map (fun i => o.getD i 0#8)) >>= fun d =>
        apiCalls a d.1 (l.map encCall) >>= fun s => .ok (s.1, d.2 :: s.2)) = _
      rw [hbuf, hdig, HashImpl.calls]
      cases (a.impl 0).digest c o with
      | error e => rfl
      | ok d => rw [bind_ok, bind_ok, ih]

/-- **C80, HashEncoder.** A `HashEncoder` object of an algorithm with a fixed digest size, in every history
of `update` and `get_digest` calls: the `get_digest` calls return the answers of the algorithm's machine
(the arrays `get_digest` hands out have the size of the digest; `o` is what they contain before). -/
theorem C80_encoder_partial (heap : Heap) (g : HashEnc) (a : Alg) (ha : isShake a = false) (hh : memOK a 0 (heap a))
    (l : List Call) (hu : ∀ x, Call.update x ∈ l → okUpd a x.length) (ht : okTot a (total l))
    (ho : ∀ o, Call.digest o ∈ l → o.length = outSize a 0) :
    HashEnc.life heap g a (l.map encCall) = .ok (answers a 0 l) := by
  obtain ⟨c', h⟩ := C80_partial a 0 (by decide) (fun h => by rw [ha] at h) (heap a) hh l hu ht
    (fun o h => Nat.le_of_eq (ho o h).symm)
  rw [C49_api]
  generalize (a.impl 0).init (heap a) = z at h ⊢
  cases z with
  | error e => rw [bind_err] at h; cases h
  | ok c =>
    rw [bind_ok] at h ⊢
    rw [api_calls a ha l ho, h]
    rfl

end Pgfe.Props
