import Verif.Model.Null
import Verif.Props.HmacAgainViolation
/-!
# C91: NULL pointers
-/
namespace Pgfe.Props
open Pgfe.Model Pgfe.Spec Pgfe.Spec.Again Pgfe.Proofs.Hash
open Pgfe.Model.Null (PCall)

/-! ## Specification -/

/-- A call with a NULL pointer among its arguments. -/
def usesNull : PCall → Bool
  | .init onNull => onNull
  | .update onNull input _ => onNull || input.isNone
  | .digest onNull output => onNull || output.isNone

/-- The bytes a call adds to the message: those of an update of the client's context from a pointer that is
not NULL. -/
def addedBytes : PCall → List Byte
  | .update false (some x) n => x.take n
  | _ => []

/-! ## Proofs -/

theorem tests_eq (a : Alg) (ha : isKeccak a = false) :
    a.initTests = true ∧ a.updateTests = true ∧ a.digestTests = true := by
  cases a <;> first | exact ⟨rfl, rfl, rfl⟩ | exact absurd ha (by decide)

theorem update_none (a : Alg) (bits : Nat) (ha : isKeccak a = false) (c : (a.impl bits).Ctx) (n : Nat) :
    (a.impl bits).update c none n = .ok c := by
  cases a <;> first | rfl | exact absurd ha (by decide)

/-- A call with a NULL argument does nothing (MD5, SHA-1, SHA-2). -/
theorem call_null (a : Alg) (bits : Nat) (ha : isKeccak a = false) (c : (a.impl bits).Ctx) (p : PCall)
    (h : usesNull p = true) : Null.call a bits c p = .ok (c, none) := by
  obtain ⟨t1, t2, t3⟩ := tests_eq a ha
  cases p with
  | init b =>
    cases b with
    | false => cases h
    | true => simp [Null.call, Null.init, t1]
  | update b i n =>
    cases b with
    | true => simp [Null.call, Null.update, t2]
    | false =>
      cases i with
      | some x => cases h
      | none => simp [Null.call, Null.update, update_none a bits ha]
  | digest b o =>
    cases b with
    | true => cases o <;> simp [Null.call, Null.digest, t3]
    | false =>
      cases o with
      | some x => cases h
      | none => simp [Null.call, Null.digest, t3]

/-- **C91, MD5, SHA-1 and SHA-2.** For every context, in whatever state, and every sequence of init, update
and digest calls: the calls with a NULL pointer among their arguments can be left out; what is returned,
and the context at the end, are the same.

What is missing from the property: SHA-3 and SHAKE (`C91_violation`), and the HMAC functions
(`C91_mac_violation`). -/
theorem C91_partial (a : Alg) (bits : Nat) (ha : isKeccak a = false) (c : (a.impl bits).Ctx) (l : List PCall) :
    Null.calls a bits c l = Null.calls a bits c (l.filter (fun p => !usesNull p)) := by
  induction l generalizing c with
  | nil => rfl
  | cons p l ih =>
    cases h : usesNull p with
    | true =>
      rw [List.filter_cons_of_neg (by simp [h]), ← ih, Null.calls, call_null a bits ha c p h, bind_ok]
      dsimp only
      generalize Null.calls a bits c l = z
      cases z <;> rfl
    | false =>
      rw [List.filter_cons_of_pos (by simp [h]), Null.calls, Null.calls]
      generalize Null.call a bits c p = z
      cases z with
      | error e => rfl
      | ok r => rw [bind_ok, bind_ok, ih]

/-- The calls of a session between init and digest: updates, and calls with NULL pointers; for the KECCAK
functions only updates, with a NULL pointer only if the length is 0. -/
def betweenOK (a : Alg) : PCall → Prop
  | .update false (some x) n => okUpd a n ∧ n ≤ x.length
  | .update false none n => isKeccak a = true → n = 0
  | p => isKeccak a = false ∧ usesNull p = true

theorem between_step (a : Alg) (bits : Nat) {H : List Byte → List Byte} (K : HashOK (a.impl bits) H)
    (hu : ∀ n, okUpd a n → K.okUpd n) (m : List Byte) (c : (a.impl bits).Ctx) (h : K.Inv m c) (p : PCall)
    (hp : betweenOK a p) (ht : K.okTot (m ++ addedBytes p).length) :
    ∃ c', Null.call a bits c p = .ok (c', none) ∧ K.Inv (m ++ addedBytes p) c' := by
  match p, hp, ht with
  | .update false (some x) n, hp, ht =>
    obtain ⟨h1, h2⟩ := hp
    have e : addedBytes (.update false (some x) n) = x.take n := rfl
    rw [e, List.length_append, List.length_take, Nat.min_eq_left h2] at ht
    obtain ⟨c', e1, e2⟩ := K.update_ok m c x n h (hu n h1) h2 ht
    exact ⟨c', by simp [Null.call, Null.update, e1], e2⟩
  | .update false none n, hp, _ =>
    refine ⟨c, ?_, by simpa [addedBytes] using h⟩
    cases ha : isKeccak a with
    | false => exact call_null a bits ha c _ rfl
    | true =>
      have hn : n = 0 := hp ha
      subst hn
      have k0 : ∀ c : KeccakCtx, keccakUpdate c none 0 = .ok c := by
        intro c; simp [keccakUpdate]
      have e : (a.impl bits).update c none 0 = .ok c := by
        cases a <;> first | exact absurd ha (by decide) | exact k0 c
      simp [Null.call, Null.update, e]
  | .update true i n, hp, _ =>
    exact ⟨c, call_null a bits hp.1 c _ rfl, by simpa [addedBytes] using h⟩
  | .init b, hp, _ =>
    exact ⟨c, call_null a bits hp.1 c _ hp.2, by simpa [addedBytes] using h⟩
  | .digest b o, hp, _ =>
    exact ⟨c, call_null a bits hp.1 c _ hp.2, by simpa [addedBytes] using h⟩

theorem between_all (a : Alg) (bits : Nat) {H : List Byte → List Byte} (K : HashOK (a.impl bits) H)
    (hu : ∀ n, okUpd a n → K.okUpd n) (tail : List PCall) : ∀ (l : List PCall) (m : List Byte) (c : (a.impl bits).Ctx),
    K.Inv m c → (∀ p ∈ l, betweenOK a p) → K.okTot (m ++ l.flatMap addedBytes).length →
    ∃ c', Null.calls a bits c (l ++ tail) = Null.calls a bits c' tail ∧ K.Inv (m ++ l.flatMap addedBytes) c' := by
  intro l
  induction l with
  | nil => intro m c h _ _; exact ⟨c, rfl, by simpa using h⟩
  | cons p l ih =>
    intro m c h hp ht
    rw [List.flatMap_cons, ← List.append_assoc] at ht ⊢
    obtain ⟨c1, e1, h1⟩ := between_step a bits K hu m c h p (hp p (List.mem_cons_self ..))
      (K.tot_mono _ _ (by simp only [List.length_append]; omega) ht)
    obtain ⟨c2, e2, h2⟩ := ih _ c1 h1 (fun q hq => hp q (List.mem_cons_of_mem _ hq)) ht
    refine ⟨c2, ?_, h2⟩
    rw [List.cons_append, Null.calls, e1, bind_ok]
    dsimp only
    rw [← e2]
    generalize Null.calls a bits c1 (l ++ tail) = z
    cases z <;> rfl

/-- **C91, the digest.** All 16 functions: init on any memory; any sequence of updates from pointers that
may be NULL (SHA-3 and SHAKE: NULL with length 0 only), interspersed, for MD5, SHA-1 and SHA-2, with
calls of all three functions on a NULL context or into a NULL output; then digest.  The result is the hash of
the bytes of the updates that did not pass NULL. -/
theorem C91_message (a : Alg) (bits : Nat) (hb : bits < 2 ^ 32) (g : (a.impl bits).Ctx) (hg : memOK a bits g)
    (l : List PCall) (hl : ∀ p ∈ l, betweenOK a p) (ht : okTot a (l.flatMap addedBytes).length) (out : List Byte)
    (ho : outSize a bits ≤ out.length) :
    ∃ c', Null.calls a bits g (.init false :: (l ++ [.digest false (some out)]))
      = .ok (c', [put (libHash a (bits / 8) (l.flatMap addedBytes)) out]) := by
  obtain ⟨K, hK⟩ := exists_ok a bits hb
  obtain ⟨c, e, h⟩ := K.init_ok g (hK.wf g hg)
  obtain ⟨c1, e1, h1⟩ := between_all a bits K hK.u [.digest false (some out)] l [] c h hl
    (by simpa using hK.t _ ht)
  rw [List.nil_append] at h1
  obtain ⟨c2, e2, _⟩ := K.digest_ok _ c1 out h1 (hK.t _ ht) (by rw [hK.ds]; exact ho)
  refine ⟨c2, ?_⟩
  have e3 : Null.call a bits g (.init false) = .ok (c, none) := by simp [Null.call, Null.init, e]
  have e4 : Null.call a bits c1 (.digest false (some out))
      = .ok (c2, some (libHash a (bits / 8) (l.flatMap addedBytes) ++ out.drop K.ds)) := by
    simp [Null.call, Null.digest, e2]
  rw [Null.calls, e3, bind_ok]
  dsimp only
  rw [e1, Null.calls, e4, bind_ok]
  have := K.len (l.flatMap addedBytes)
  simp [Null.calls, put, this]

/-- **C91, one call, no data.** `pgfe_<name>_encode` with a NULL data pointer gives the hash of the empty
message: MD5, SHA-1 and SHA-2 whatever length is passed with it, SHA-3 and SHAKE for length 0.  (For MD5
this is the only way: an empty message at an address that is not NULL is undefined, C17.) -/
theorem C91_encode_null (a : Alg) (bits : Nat) (hb : bits < 2 ^ 32) (g : (a.impl bits).Ctx) (hg : memOK a bits g)
    (n : Nat) (hn : isKeccak a = true → n = 0) (out : List Byte) (ho : outSize a bits ≤ out.length) :
    Null.encode a bits g none n (some out) = .ok (some (put (libHash a (bits / 8) []) out)) := by
  obtain ⟨K, hK⟩ := exists_ok a bits hb
  obtain ⟨c, e, h⟩ := K.init_ok g (hK.wf g hg)
  obtain ⟨c1, e1, h1⟩ := between_step a bits K hK.u [] c h (.update false none n) hn
    (by simpa [addedBytes] using K.tot_zero)
  obtain ⟨c2, e2, _⟩ := K.digest_ok _ c1 out h1 (by simpa [addedBytes] using K.tot_zero) (by rw [hK.ds]; exact ho)
  have e4 : (a.impl bits).update c none n = .ok c1 := by
    simp only [Null.call, Null.update] at e1
    generalize (a.impl bits).update c none n = z at e1 ⊢
    cases z with
    | error e => rw [bind_err, bind_err] at e1; cases e1
    | ok r => simp only [bind_ok, Option.getD_some, Except.ok.injEq, Prod.mk.injEq, and_true] at e1; rw [e1]
  have := K.len []
  have e5 : ([] : List Byte) ++ addedBytes (.update false none n) = [] := rfl
  rw [e5] at e2
  simp [Null.encode, Null.init, Null.update, Null.digest, e, e4, e2, put, this]

/-- **C91, one call, no output.** `pgfe_<name>_encode` and `pgfe_<name>_encode_multiple` of MD5, SHA-1 and
SHA-2 with a NULL output: nothing is written, and the call is well defined. -/
theorem C91_no_output (a : Alg) (bits : Nat) (hb : bits < 2 ^ 32) (ha : isKeccak a = false) (g : (a.impl bits).Ctx)
    (hg : memOK a bits g) (parts : List (Option (List Byte) × Nat))
    (hp : ∀ p ∈ parts, ∀ x, p.1 = some x → okUpd a p.2 ∧ p.2 ≤ x.length) (ht : okTot a (concatParts parts).length) :
    Null.encodeMultiple a bits g none parts = .ok none ∧
    ∀ data n, parts = [(data, n)] → Null.encode a bits g data n none = .ok none := by
  obtain ⟨K, hK⟩ := exists_ok a bits hb
  obtain ⟨c, e, h⟩ := K.init_ok g (hK.wf g hg)
  have t3 := (tests_eq a ha).2.2
  have loop : ∀ (parts : List (Option (List Byte) × Nat)) m c, K.Inv m c →
      (∀ p ∈ parts, ∀ x, p.1 = some x → okUpd a p.2 ∧ p.2 ≤ x.length) →
      K.okTot (m ++ concatParts parts).length → ∃ c', Null.multipleLoop a bits (some c) parts = .ok (some c') := by
    intro parts
    induction parts with
    | nil => intro m c _ _ _; exact ⟨c, rfl⟩
    | cons p r ih =>
      intro m c hI hp ht
      obtain ⟨q, n⟩ := p
      cases q with
      | none => exact ih m c hI (fun p h => hp p (List.mem_cons_of_mem _ h)) ht
      | some x =>
        rw [concatParts, ← List.append_assoc] at ht
        obtain ⟨h1, h2⟩ := hp (some x, n) (List.mem_cons_self ..) x rfl
        obtain ⟨c1, e1, i1⟩ := K.update_ok m c x n hI (hK.u n h1) h2
          (K.tot_mono _ _ (by simp only [List.length_append, List.length_take, Nat.min_eq_left h2]; omega) ht)
        obtain ⟨c2, e2⟩ := ih _ c1 i1 (fun p h => hp p (List.mem_cons_of_mem _ h)) ht
        exact ⟨c2, by simp [Null.multipleLoop, Null.update, e1, e2]⟩
  constructor
  · obtain ⟨c1, e1⟩ := loop parts [] c h hp (by simpa using hK.t _ ht)
    simp [Null.encodeMultiple, Null.init, Null.digest, e, e1, t3]
  · intro data n hd
    subst hd
    cases data with
    | none => simp [Null.encode, Null.init, Null.update, Null.digest, e, update_none a bits ha, t3]
    | some x =>
      obtain ⟨h1, h2⟩ := hp (some x, n) (List.mem_cons_self ..) x rfl
      obtain ⟨c1, e1, _⟩ := K.update_ok [] c x n h (hK.u n h1) h2 (by
        have := hK.t _ ht
        simpa [concatParts, Nat.min_eq_left h2] using this)
      simp [Null.encode, Null.init, Null.update, Null.digest, e, e1, t3]

/-- **C91 does not hold for SHA-3 and SHAKE**: any call on a NULL context dereferences it; so does an update
from a NULL pointer with a length between 1 and 2^61 - 1 on a context that is not yet squeezing, such as
one that was just initialised; and so does a digest into a NULL output if any output is asked for. -/
theorem C91_violation (a : Alg) (bits : Nat) (ha : isKeccak a = true) :
    Null.init a bits none = .error .nullDeref ∧
    (∀ input n, Null.update a bits none input n = .error .nullDeref) ∧
    (∀ output, Null.digest a bits none output = .error .nullDeref) ∧
    (∀ g n, 0 < n → n < 2 ^ 61 →
      (Null.init a bits (some g) >>= fun c => Null.update a bits c none n) = .error .nullDeref) ∧
    (bits % 2 ^ 32 ≠ 0 ∨ isShake a = false → ∀ c, Null.digest a bits (some c) none = .error .nullDeref) := by
  have hn : ∀ n, 0 < n → n < 2 ^ 61 → ¬ n * 8 % 2 ^ 64 = 0 := by intro n h0 h1; omega
  refine ⟨?_, ?_, ?_, ?_, ?_⟩
  · cases a <;> first | rfl | exact absurd ha (by decide)
  · intro i n
    cases a <;> first | rfl | exact absurd ha (by decide)
  · intro o
    cases a <;> first | (cases o <;> rfl) | exact absurd ha (by decide)
  · intro g n h0 h1
    have := hn n h0 h1
    cases a
    case SHA3_224 | SHA3_256 | SHA3_384 | SHA3_512 | RawSHAKE128 | SHAKE128 | RawSHAKE256 | SHAKE256 =>
      simp [Null.init, Null.update, Alg.impl, sha3Init, shakeInit, rawshakeInit, keccakInit, keccakUpdate, this]
    all_goals exact absurd ha (by decide)
  · intro h c
    cases a
    case SHA3_224 | SHA3_256 | SHA3_384 | SHA3_512 => rfl
    case RawSHAKE128 | SHAKE128 | RawSHAKE256 | SHAKE256 =>
      have h : bits % 2 ^ 32 ≠ 0 := by
        rcases h with h | h
        · exact h
        · exact absurd h (by decide)
      exact if_neg h
    all_goals exact absurd ha (by decide)

/-! ## HMAC -/

theorem multipleLoop_eq (a : Alg) (bits : Nat) : ∀ (parts : List (Option (List Byte) × Nat)) (c : (a.impl bits).Ctx),
    Null.multipleLoop a bits (some c) parts = ((a.impl bits).encodeMultipleLoop c parts >>= fun c => .ok (some c)) := by
  intro parts
  induction parts with
  | nil => intro c; rfl
  | cons p r ih =>
    intro c
    obtain ⟨q, n⟩ := p
    cases q with
    | none => exact ih c
    | some x =>
      simp only [Null.multipleLoop, Null.update, HashImpl.encodeMultipleLoop]
      generalize (a.impl bits).update c (some x) n = z
      cases z with
      | error e => rfl
      | ok c => simp only [bind_ok]; exact ih c

/-- What the outer hash does with a NULL output, given that it works with some output. -/
theorem outer_null (a : Alg) (ha : isKeccak a = false) (g : (a.impl 0).Ctx) (out o : List Byte)
    (parts : List (Option (List Byte) × Nat)) (h : (a.impl 0).encodeMultiple g out parts = .ok o) :
    Null.encodeMultiple a 0 g none parts = .ok none ∧ Null.encodeMultiple a 0 g (some out) parts = .ok (some o) := by
  have t3 := (tests_eq a ha).2.2
  simp only [HashImpl.encodeMultiple] at h
  simp only [Null.encodeMultiple, Null.init]
  generalize (a.impl 0).init g = z at h ⊢
  cases z with
  | error e => rw [bind_err] at h; cases h
  | ok c =>
    rw [bind_ok] at h
    simp only [bind_ok]
    rw [multipleLoop_eq]
    generalize (a.impl 0).encodeMultipleLoop c parts = y at h ⊢
    cases y with
    | error e => rw [bind_err] at h; cases h
    | ok c =>
      rw [bind_ok] at h
      simp only [bind_ok, Null.digest, t3, if_true, true_and]
      generalize (a.impl 0).digest c out = x at h ⊢
      cases x with
      | error e => rw [bind_err] at h; cases h
      | ok r => rw [bind_ok] at h ⊢; cases h; rfl

/-- **C91, HMAC.** With MD5, SHA-1 or SHA-2, `pgfe_hmac_<name>_digest` with a NULL output writes nothing, but
it leaves the context exactly as a digest into a buffer does. -/
theorem C91_mac (a : Alg) (ha : isKeccak a = false) (mid : List Byte) (g : (a.impl 0).Ctx) (c c' : HmacCtx (a.impl 0))
    (out o : List Byte) (h : HmacCtx.digest (a.impl 0) a.blockSize a.digestSize mid g c out = .ok (c', o)) :
    Null.macDigest a mid g c none = .ok (c', none) ∧ Null.macDigest a mid g c (some out) = .ok (c', some o) := by
  simp only [HmacCtx.digest] at h
  simp only [Null.macDigest]
  generalize (a.impl 0).digest c.hash mid = z at h ⊢
  cases z with
  | error e => rw [bind_err] at h; cases h
  | ok r =>
    rw [bind_ok] at h
    simp only [bind_ok]
    generalize hy : (a.impl 0).encodeMultiple g out [(some c.kOPad, a.blockSize), (some r.2, a.digestSize)] = y at h
    cases y with
    | error e => rw [bind_err] at h; cases h
    | ok o' =>
      rw [bind_ok] at h
      cases h
      obtain ⟨h1, h2⟩ := outer_null a ha g out _ _ hy
      rw [h1, h2]
      exact ⟨rfl, rfl⟩

/-- A context with the key "Jefe" and the message "abc". -/
abbrev macAbc (a : Alg) : C (HmacCtx (a.impl 0)) :=
  HmacCtx.setKey (a.impl 0) a.blockSize (freshMac a).ctx (str "Jefe") (str "Jefe").length >>= fun c =>
    HmacCtx.update (a.impl 0) c (some (str "abc")) (str "abc").length

/-- Digest of an HMAC context. -/
abbrev macDig (a : Alg) (c : HmacCtx (a.impl 0)) (out : Option (List Byte)) :
    C (HmacCtx (a.impl 0) × Option (List Byte)) :=
  Null.macDigest a (freshMac a).mid (freshMac a).inner c out

/-- **C91 does not hold for HMAC** with MD5, SHA-1 and SHA-2: a digest call with a NULL output is not without
effect.  It ends the inner hash, so that the MAC returned by the next call is another one. -/
theorem C91_mac_violation (a : Alg) (ha : isKeccak a = false) : ∃ c c' c₁ c₂ d₁ d₂, d₁ ≠ d₂ ∧ macAbc a = .ok c ∧
    macDig a c (some (List.replicate 64 0#8)) = .ok (c₁, some d₁) ∧
    macDig a c none = .ok (c', none) ∧
    macDig a c' (some (List.replicate 64 0#8)) = .ok (c₂, some d₂) := by
  obtain ⟨d₁, d₂, c₂, hne, h⟩ := C83_violation a ha
  simp only [macTwice, HmacCtx.outputs] at h
  unfold macAbc
  generalize HmacCtx.setKey (a.impl 0) a.blockSize (freshMac a).ctx (str "Jefe") (str "Jefe").length = z at h ⊢
  cases z with
  | error e => rw [bind_err] at h; cases h
  | ok c0 =>
    rw [bind_ok] at h ⊢
    generalize HmacCtx.update (a.impl 0) c0 (some (str "abc")) (str "abc").length = y at h ⊢
    cases y with
    | error e => rw [bind_err] at h; cases h
    | ok c =>
      rw [bind_ok] at h
      generalize hx : HmacCtx.digest (a.impl 0) a.blockSize a.digestSize (freshMac a).mid (freshMac a).inner c
        (List.replicate 64 0#8) = x at h
      cases x with
      | error e => rw [bind_err] at h; cases h
      | ok r =>
        obtain ⟨c1, o1⟩ := r
        rw [bind_ok] at h
        dsimp only at h
        generalize hw : HmacCtx.digest (a.impl 0) a.blockSize a.digestSize (freshMac a).mid (freshMac a).inner c1
          (List.replicate 64 0#8) = w at h
        cases w with
        | error e => rw [bind_err, bind_err] at h; cases h
        | ok r2 =>
          obtain ⟨c3, o2⟩ := r2
          simp only [bind_ok, Except.ok.injEq, Prod.mk.injEq, List.cons.injEq, and_true] at h
          obtain ⟨_, rfl, rfl⟩ := h
          obtain ⟨k1, k2⟩ := C91_mac a ha _ _ _ _ _ _ hx
          obtain ⟨_, k4⟩ := C91_mac a ha _ _ _ _ _ _ hw
          exact ⟨c, c1, c1, c3, o1, o2, hne, rfl, k2, k1, k4⟩

/-! ## The hypotheses are met -/

/-- A session as in `C91_message`: the message "abc" in two parts, and five calls with NULL pointers. -/
example : ∀ p ∈ ([.update false (some (str "ab")) 2, .digest false none, .update false none 77, .init true,
    .update true (some (str "zz")) 2, .digest true (some []), .update false (some (str "cde")) 1] : List PCall),
    betweenOK .SHA256 p := by
  intro p hp
  simp only [List.mem_cons, List.not_mem_nil, or_false] at hp
  rcases hp with rfl | rfl | rfl | rfl | rfl | rfl | rfl
  · exact ⟨by show 2 < 2 ^ 31; decide, by decide⟩
  · exact ⟨rfl, rfl⟩
  · exact fun h => absurd h (by decide)
  · exact ⟨rfl, rfl⟩
  · exact ⟨rfl, rfl⟩
  · exact ⟨rfl, rfl⟩
  · exact ⟨by show 1 < 2 ^ 31; decide, by decide⟩

example : ([.update false (some (str "ab")) 2, .digest false none, .update false none 77, .init true,
    .update true (some (str "zz")) 2, .digest true (some []), .update false (some (str "cde")) 1] : List PCall).flatMap addedBytes
    = str "abc" := by decide

end Pgfe.Props
