import Verif.Proofs.Alg
import Verif.Proofs.KeccakEval
/-!
# C22 - C26: SHA-3, SHAKE and RawSHAKE

`I.session g parts out` is init on a context whose memory contains `g`, one update per element of
`parts`, digest into the buffer `out`; the result is the content of the output buffer.
-/
namespace Pgfe.Props
open Pgfe.Model Pgfe.Spec Pgfe.Spec.Keccak Pgfe.Proofs Pgfe.Proofs.Hash Pgfe.Proofs.Keccak

/-! ## C22 -/

theorem keccak_session (a : Alg) (bits : Nat) (hb : bits < 2 ^ 32) (g : (a.impl bits).Ctx)
    (hg : memOK a bits g) (parts : List (List Byte)) (hp : ∀ p ∈ parts, okUpd a p.length)
    (ht : okTot a parts.flatten.length) (out : List Byte) (ho : outSize a bits ≤ out.length) :
    (a.impl bits).session g parts out
      = .ok (libHash a (bits / 8) parts.flatten ++ out.drop (outSize a bits)) := by
  obtain ⟨K, c⟩ := exists_ok a bits hb
  have := K.session_ok g (c.wf g hg) parts out (fun p h => c.u _ (hp p h)) (c.t _ ht) (by rw [c.ds]; exact ho)
  rw [c.ds] at this
  exact this

/-- **C22 (SHA3-224).** For every content of the context memory, every message and every way of
cutting it into updates of at most 2^29 - 192 bytes, the library writes SHA3-224 of the message, as
FIPS 202 defines it, and nothing else. -/
theorem C22_sha3_224 (g : KeccakCtx) (parts : List (List Byte)) (hp : ∀ p ∈ parts, p.length ≤ 2 ^ 29 - 192)
    (out : List Byte) (ho : 28 ≤ out.length) :
    sha3_224Impl.session g parts out = .ok (sha3_224 parts.flatten ++ out.drop 28) :=
  keccak_session .SHA3_224 0 (by decide) g trivial parts hp trivial out ho

theorem C22_sha3_256 (g : KeccakCtx) (parts : List (List Byte)) (hp : ∀ p ∈ parts, p.length ≤ 2 ^ 29 - 192)
    (out : List Byte) (ho : 32 ≤ out.length) :
    sha3_256Impl.session g parts out = .ok (sha3_256 parts.flatten ++ out.drop 32) :=
  keccak_session .SHA3_256 0 (by decide) g trivial parts hp trivial out ho

theorem C22_sha3_384 (g : KeccakCtx) (parts : List (List Byte)) (hp : ∀ p ∈ parts, p.length ≤ 2 ^ 29 - 192)
    (out : List Byte) (ho : 48 ≤ out.length) :
    sha3_384Impl.session g parts out = .ok (sha3_384 parts.flatten ++ out.drop 48) :=
  keccak_session .SHA3_384 0 (by decide) g trivial parts hp trivial out ho

theorem C22_sha3_512 (g : KeccakCtx) (parts : List (List Byte)) (hp : ∀ p ∈ parts, p.length ≤ 2 ^ 29 - 192)
    (out : List Byte) (ho : 64 ≤ out.length) :
    sha3_512Impl.session g parts out = .ok (sha3_512 parts.flatten ++ out.drop 64) :=
  keccak_session .SHA3_512 0 (by decide) g trivial parts hp trivial out ho

/-- A context full of garbage. -/
def kGarbage : KeccakCtx :=
  ⟨List.replicate 25 0xdeadbeefdeadbeef#64, List.replicate 192 0xff#8, 17, 3, 99, 5, 7, true, 55, 0x77#8, 9, true⟩

/-- A concrete case: SHA3-256 of "abc", in three updates, one of them empty (the value published by
NIST). -/
theorem C22_example : sha3_256Impl.session kGarbage [str "ab", [], str "c"] (List.replicate 33 0xee#8)
    = .ok [0x3a#8, 0x98#8, 0x5d#8, 0xa7#8, 0x4f#8, 0xe2#8, 0x25#8, 0xb2#8, 0x04#8, 0x5c#8, 0x17#8, 0x2d#8,
      0x6b#8, 0xd3#8, 0x90#8, 0xbd#8, 0x85#8, 0x5f#8, 0x08#8, 0x6e#8, 0x3e#8, 0x9d#8, 0x52#8, 0x5b#8, 0x46#8,
      0xbf#8, 0xe2#8, 0x45#8, 0x11#8, 0x43#8, 0x15#8, 0x32#8, 0xee#8] := by
  rw [C22_sha3_256 _ _ (by decide) _ (by decide), sha3_256]
  have h := keccak_eval 512 17 rfl (by decide) (by decide) _ _ domSep_sha3 (str "abc") 32 [0x3a#8, 0x98#8,
      0x5d#8, 0xa7#8, 0x4f#8, 0xe2#8, 0x25#8, 0xb2#8, 0x04#8, 0x5c#8, 0x17#8, 0x2d#8,
      0x6b#8, 0xd3#8, 0x90#8, 0xbd#8, 0x85#8, 0x5f#8, 0x08#8, 0x6e#8, 0x3e#8, 0x9d#8, 0x52#8, 0x5b#8, 0x46#8,
      0xbf#8, 0xe2#8, 0x45#8, 0x11#8, 0x43#8, 0x15#8, 0x32#8] (by decide +kernel)
  rw [show [str "ab", [], str "c"].flatten = str "abc" by decide, h]
  decide +kernel

/-! ## C23 -/

/-- **C23 (SHAKE128).** For every message and every number of bits below 2^32, the library writes the
first `bits / 8` bytes of SHAKE128 (thus all of the output when `bits` is a multiple of 8) and nothing
else. -/
theorem C23_shake128 (bits : Nat) (hb : bits < 2 ^ 32) (g : KeccakCtx) (parts : List (List Byte))
    (hp : ∀ p ∈ parts, p.length ≤ 2 ^ 29 - 192) (out : List Byte) (ho : bits / 8 ≤ out.length) :
    (shake128Impl bits).session g parts out
      = .ok (shake128 (bits / 8) parts.flatten ++ out.drop (bits / 8)) :=
  keccak_session .SHAKE128 bits hb g trivial parts hp trivial out ho

theorem C23_shake256 (bits : Nat) (hb : bits < 2 ^ 32) (g : KeccakCtx) (parts : List (List Byte))
    (hp : ∀ p ∈ parts, p.length ≤ 2 ^ 29 - 192) (out : List Byte) (ho : bits / 8 ≤ out.length) :
    (shake256Impl bits).session g parts out
      = .ok (shake256 (bits / 8) parts.flatten ++ out.drop (bits / 8)) :=
  keccak_session .SHAKE256 bits hb g trivial parts hp trivial out ho

theorem C23_rawshake128 (bits : Nat) (hb : bits < 2 ^ 32) (g : KeccakCtx) (parts : List (List Byte))
    (hp : ∀ p ∈ parts, p.length ≤ 2 ^ 29 - 192) (out : List Byte) (ho : bits / 8 ≤ out.length) :
    (rawshake128Impl bits).session g parts out
      = .ok (rawshake128 (bits / 8) parts.flatten ++ out.drop (bits / 8)) :=
  keccak_session .RawSHAKE128 bits hb g trivial parts hp trivial out ho

theorem C23_rawshake256 (bits : Nat) (hb : bits < 2 ^ 32) (g : KeccakCtx) (parts : List (List Byte))
    (hp : ∀ p ∈ parts, p.length ≤ 2 ^ 29 - 192) (out : List Byte) (ho : bits / 8 ≤ out.length) :
    (rawshake256Impl bits).session g parts out
      = .ok (rawshake256 (bits / 8) parts.flatten ++ out.drop (bits / 8)) :=
  keccak_session .RawSHAKE256 bits hb g trivial parts hp trivial out ho

/-- **C23, beyond the range.** The length argument of the four digest functions is a `size_t`, but only
its low 32 bits count. -/
theorem C23_truncated (bits : Nat) (c : KeccakCtx) (out : List Byte) :
    shakeDigest bits c out = shakeDigest (bits % 2 ^ 32) c out := by
  rw [shakeDigest, shakeDigest, Nat.mod_mod]

/-- A concrete case: 10 bytes of SHAKE128 of the empty message. -/
theorem C23_example : (shake128Impl 80).session kGarbage [] (List.replicate 12 0xee#8)
    = .ok [0x7f#8, 0x9c#8, 0x2b#8, 0xa4#8, 0xe8#8, 0x8f#8, 0x82#8, 0x7d#8, 0x61#8, 0x60#8, 0xee#8, 0xee#8] := by
  rw [C23_shake128 _ (by decide) _ _ (by decide) _ (by decide), shake128]
  have h := keccak_eval 256 21 rfl (by decide) (by decide) _ _ domSep_shake [] 10 [0x7f#8, 0x9c#8, 0x2b#8,
      0xa4#8, 0xe8#8, 0x8f#8, 0x82#8, 0x7d#8, 0x61#8, 0x60#8] (by decide +kernel)
  rw [show 80 / 8 = 10 by decide, show ([] : List (List Byte)).flatten = [] by decide, h]
  decide +kernel

/-! ## C24 -/

/-- The four extendable-output functions: initialisation and the function of the standard. -/
def xofs : List ((KeccakCtx → C KeccakCtx) × (Nat → List Byte → List Byte)) :=
  [(shakeInit 256, shake128), (shakeInit 512, shake256), (rawshakeInit 256, rawshake128),
   (rawshakeInit 512, rawshake256)]

/-- Each piece overwrites the beginning of its buffer. -/
def fill (pieces bufs : List (List Byte)) : List (List Byte) :=
  List.zipWith (fun (p o : List Byte) => p ++ o.drop p.length) pieces bufs

theorem fill_cons (p o : List Byte) (ps os : List (List Byte)) :
    fill (p :: ps) (o :: os) = (p ++ o.drop p.length) :: fill ps os := rfl

theorem squeezes_at (n : Nat) (F : Nat → W64) (reqs : List (Nat × List Byte)) :
    ∀ o pos c k, At n o F pos c → (∀ r ∈ reqs, r.1 < 2 ^ 29 ∧ r.1 ≤ r.2.length) →
    (reqs.map Prod.fst).sum ≤ k →
    ∃ c', kcalls shakeDigest c (reqs.map (fun r : Nat × List Byte => .digest (8 * r.1) r.2))
      = .ok (c', fill (cut (reqs.map Prod.fst) (piece (8 * n) F pos k)) (reqs.map Prod.snd)) := by
  induction reqs with
  | nil => intro o pos c k _ _ _; exact ⟨c, rfl⟩
  | cons r rs ih =>
    intro o pos c k h hr hk
    obtain ⟨h1, h2⟩ := hr r (List.mem_cons_self ..)
    rw [List.map_cons, List.sum_cons] at hk
    have h8 : 8 * r.1 / 8 = r.1 := by omega
    obtain ⟨c1, e1, hA⟩ := squeeze_at h (8 * r.1) (by omega) r.2 (by omega)
    rw [h8] at e1 hA
    have e1 : shakeDigest (8 * r.1) c r.2 = .ok (c1, piece (8 * n) F pos r.1 ++ r.2.drop r.1) := by
      rw [shakeDigest, Nat.mod_eq_of_lt (by omega)]; exact e1
    obtain ⟨c', e2⟩ := ih _ (pos + r.1) c1 (k - r.1) (hA (by omega)) (fun r h => hr r (List.mem_cons_of_mem _ h))
      (by omega)
    refine ⟨c', ?_⟩
    rw [List.map_cons, kcalls, e1, bind_ok, e2, bind_ok]
    rw [List.map_cons, List.map_cons, cut, fill_cons, piece_take _ _ _ _ _ (by omega), piece_length]
    obtain ⟨j, rfl⟩ := Nat.exists_eq_add_of_le (by omega : r.1 ≤ k)
    rw [piece_add, List.drop_left' (piece_length ..), Nat.add_sub_cancel_left]

/-- **C24.** For each of the four extendable-output functions: init on any memory, updates with the
parts of a message, and then any number of digest calls, the i-th asking for `n_i` bytes (below 2^29
each) into the i-th buffer.  The i-th buffer receives the i-th of the consecutive pieces of lengths
`n_1, n_2, ...` of the function's output stream, and nothing else. -/
theorem C24 (x : (KeccakCtx → C KeccakCtx) × (Nat → List Byte → List Byte)) (hx : x ∈ xofs)
    (g : KeccakCtx) (parts : List (List Byte)) (hp : ∀ p ∈ parts, p.length ≤ 2 ^ 29 - 192)
    (reqs : List (Nat × List Byte)) (hr : ∀ r ∈ reqs, r.1 < 2 ^ 29 ∧ r.1 ≤ r.2.length) :
    xofSession x.1 g parts reqs = .ok (fill (cut (reqs.map Prod.fst)
      (x.2 (reqs.map Prod.fst).sum parts.flatten)) (reqs.map Prod.snd)) := by
  have main : ∀ (P : Fam) (cap : Nat) (sfx : List Bool), 1600 - cap = 64 * P.n →
      DomSep sfx (dsep P.ap P.al) → P.digest = shakeDigest 0 →
      (∀ m, x.2 (reqs.map Prod.fst).sum m
        = bytesOf (keccak cap (bitsOf m ++ sfx) (8 * (reqs.map Prod.fst).sum))) →
      P.init = x.1 → xofSession x.1 g parts reqs = .ok (fill (cut (reqs.map Prod.fst)
        (x.2 (reqs.map Prod.fst).sum parts.flatten)) (reqs.map Prod.snd)) := by
    intro P cap sfx hc hd hdig hx2 hi
    obtain ⟨c0, h1, h2⟩ := P.hashOK.init_ok g trivial
    have h1 : P.init g = .ok c0 := h1
    obtain ⟨c1, h3, h4⟩ := P.hashOK.feed_ok parts [] c0 h2
      (fun p hp' => by have := hp p hp'; show 8 * p.length + 1536 ≤ 2 ^ 32; omega) trivial
    have h3 : (⟨KeccakCtx, P.init, keccakUpdate, P.digest⟩ : HashImpl).feed c0 parts = .ok c1 := h3
    rw [hi, hdig] at h3
    rw [xofSession, ← hi, h1, bind_ok, hi, h3, bind_ok]
    rw [List.nil_append] at h4
    have h4 : P.Inv parts.flatten c1 := h4
    have hF : x.2 (reqs.map Prod.fst).sum parts.flatten
        = piece (8 * P.n) (fin (8 * P.n) (dsep P.ap P.al) parts.flatten) 0 (reqs.map Prod.fst).sum := by
      rw [hx2, keccak_bytes cap (8 * P.n) _ (by omega) P.n0 (by have := P.h0.n24; omega) sfx _ hd, piece]
      simp only [Nat.zero_add]
    rw [hF]
    cases reqs with
    | nil => rfl
    | cons r rs =>
      obtain ⟨r1, r2⟩ := hr r (List.mem_cons_self ..)
      have hab := squeeze_abs h4 P.al0 P.al4 (8 * r.1) (by omega) r.2 (by omega)
      rw [Fam.fin_eq _ P.h0.n0] at hab
      have h8 : 8 * r.1 / 8 = r.1 := by omega
      rw [h8] at hab
      obtain ⟨c2, e1, hA, _⟩ := hab
      have e1 : shakeDigest (8 * r.1) c1 r.2 = .ok (c2, piece (8 * P.n)
          (fin (8 * P.n) (dsep P.ap P.al) parts.flatten) 0 r.1 ++ r.2.drop r.1) := by
        rw [shakeDigest, Nat.mod_eq_of_lt (by omega)]; exact e1
      obtain ⟨c', e2⟩ := squeezes_at P.n _ rs _ r.1 c2 ((rs.map Prod.fst).sum) (hA (by omega))
        (fun r h => hr r (List.mem_cons_of_mem _ h)) (Nat.le_refl _)
      rw [List.map_cons, kcalls, e1, bind_ok, e2, bind_ok, bind_ok]
      rw [List.map_cons, List.map_cons, cut, fill_cons, List.sum_cons,
        piece_take _ _ _ _ _ (by omega), piece_length, piece_add, List.drop_left' (piece_length ..), Nat.zero_add]
  simp only [xofs, List.mem_cons, List.not_mem_nil, or_false] at hx
  rcases hx with rfl | rfl | rfl | rfl
  · exact main (kfam .SHAKE128 0 (by decide)) 256 _ rfl dsepS rfl (fun _ => rfl) rfl
  · exact main (kfam .SHAKE256 0 (by decide)) 512 _ rfl dsepS rfl (fun _ => rfl) rfl
  · exact main (kfam .RawSHAKE128 0 (by decide)) 256 _ rfl dsepR rfl (fun _ => rfl) rfl
  · exact main (kfam .RawSHAKE256 0 (by decide)) 512 _ rfl dsepR rfl (fun _ => rfl) rfl

/-- A concrete case: SHAKE128 of "abc" in pieces of 3, 0, 170 and 5 bytes; the third piece crosses the
168-byte blocks of the output. -/
theorem C24_example : (xofSession (shakeInit 256) kGarbage [str "a", str "bc"] [(3, List.replicate 4 0xee#8),
    (0, []), (170, List.replicate 170 0#8), (5, List.replicate 5 0xee#8)]).map
      (fun l => l.map (fun o => (o.take 5, o.length)))
    = .ok [([0x58#8, 0x81#8, 0x09#8, 0xee#8], 4), ([], 0), ([0x2d#8, 0xd8#8, 0x18#8, 0xbf#8, 0x5c#8], 170),
      ([0xf0#8, 0x57#8, 0x80#8, 0x5f#8, 0x97#8], 5)] := by
  rw [C24 (shakeInit 256, shake128) (by simp [xofs]) kGarbage _ (by decide) _ (by decide +kernel)]
  have e : shake128 178 (str "abc") = (piece 168 (fin 168 0x1f#8 (str "abc")) 0 336).take 178 := by
    rw [shake128, keccak_bytes 256 168 178 rfl (by decide) (by decide) _ _ domSep_shake,
      piece_take _ _ _ _ _ (by decide), piece]
    simp only [Nat.zero_add]
  have k : (kEval 21 0x1f#8 (str "abc") 2).map (fun l => (fill (cut [3, 0, 170, 5] (l.take 178))
      [List.replicate 4 0xee#8, [], List.replicate 170 0#8, List.replicate 5 0xee#8]).map
        (fun o => (o.take 5, o.length))) = .ok [([0x58#8, 0x81#8, 0x09#8, 0xee#8], 4), ([], 0),
      ([0x2d#8, 0xd8#8, 0x18#8, 0xbf#8, 0x5c#8], 170), ([0xf0#8, 0x57#8, 0x80#8, 0x5f#8, 0x97#8], 5)] := by decide +kernel
  rw [kEval_ok 21 (by decide) (by decide)] at k
  have k : Except.ok _ = Except.ok _ := k
  dsimp only at k
  rw [show 8 * 21 = 168 by decide, show 2 * 168 = 336 by decide, ← e] at k
  rw [show [str "a", str "bc"].flatten = str "abc" by decide]
  simp only [List.map_cons, List.map_nil, List.sum_cons, List.sum_nil, Nat.reduceAdd]
  rw [Except.map]
  exact k

/-! ## C25 -/

/-- Is it a digest call? -/
def isDigest : KCall → Bool
  | .digest .. => true
  | .update _ => false

theorem kcalls_ignored (dig : Nat → KeccakCtx → List Byte → C (KeccakCtx × List Byte))
    (hd : ∀ b c o c' o', dig b c o = .ok (c', o') → c'.squeezing = true) (l : List KCall) :
    ∀ c, c.squeezing = true → kcalls dig c l = kcalls dig c (l.filter isDigest) := by
  induction l with
  | nil => intro c _; rfl
  | cons a l ih =>
    intro c h
    cases a with
    | update x =>
      rw [kcalls, update_ignored h, bind_ok, ih c h]
      rfl
    | digest b o =>
      have e : (KCall.digest b o :: l).filter isDigest = .digest b o :: l.filter isDigest := rfl
      rw [e, kcalls, kcalls]
      cases h1 : dig b c o with
      | error e => rw [bind_err, bind_err]
      | ok r => rw [bind_ok, bind_ok, ih r.1 (hd b c o r.1 r.2 h1)]

/-- **C25.** On a context of any content: after a digest call, every further sequence of calls gives the
outputs (and the same context, and the same undefined behaviour, if any) that the digest calls among
them alone would have given.  The SHA-3 digest functions. -/
theorem C25_sha3 (c : KeccakCtx) (b : Nat) (o : List Byte) (l : List KCall) :
    kcalls (fun _ => sha3Digest) c (.digest b o :: l)
      = kcalls (fun _ => sha3Digest) c (.digest b o :: l.filter isDigest) := by
  have hd : ∀ (b : Nat) c o c' o', sha3Digest c o = .ok (c', o') → c'.squeezing = true :=
    fun _ c o c' o' h => squeeze_sq h
  rw [kcalls, kcalls]
  cases h1 : sha3Digest c o with
  | error e => rw [bind_err, bind_err]
  | ok r => rw [bind_ok, bind_ok, kcalls_ignored _ hd l r.1 (hd b c o r.1 r.2 h1)]

/-- **C25.** The same for the SHAKE and RawSHAKE digest functions, with any output lengths. -/
theorem C25_shake (c : KeccakCtx) (b : Nat) (o : List Byte) (l : List KCall) :
    kcalls shakeDigest c (.digest b o :: l) = kcalls shakeDigest c (.digest b o :: l.filter isDigest) := by
  have hd : ∀ (b : Nat) c o c' o', shakeDigest b c o = .ok (c', o') → c'.squeezing = true :=
    fun _ c o c' o' h => squeeze_sq h
  rw [kcalls, kcalls]
  cases h1 : shakeDigest b c o with
  | error e => rw [bind_err, bind_err]
  | ok r => rw [bind_ok, bind_ok, kcalls_ignored _ hd l r.1 (hd b c o r.1 r.2 h1)]

/-- **C25**, one update: after any digest call it leaves the context as it is. -/
theorem C25_update (c c' : KeccakCtx) (o o' : List Byte) (h : keccakSqueeze c o = .ok (c', o'))
    (x : List Byte) (n : Nat) : keccakUpdate c' (some x) n = .ok c' :=
  update_ignored (squeeze_sq h) x n

/-! ## C26 -/

/-- An update of `L` bytes on a context that holds back `u` bytes, with blocks of `rate` bytes, is
processed correctly: nothing is held back, or the 32-bit arithmetic on the number of bits is harmless. -/
def fits (rate u L : Nat) : Prop :=
  u = 0 ∨ (8 * L % 2 ^ 32 + 8 * u < 2 ^ 32 ∧ (8 * L < 2 ^ 32 ∨ 8 * rate ≤ 8 * L % 2 ^ 32 + 8 * u))

/-- All the updates of a sequence are, after `tot` bytes; each is below 2^61 bytes. -/
def fitsAll (rate : Nat) : Nat → List Nat → Prop
  | _, [] => True
  | tot, L :: r => L < 2 ^ 61 ∧ fits rate (tot % rate) L ∧ fitsAll rate (tot + L) r

theorem good_of_fits (n u L : Nat) (h : fits (8 * n) u L) : Good n u L := by
  rw [fits] at h; rw [Good]; omega

theorem fits_of_good (n u L : Nat) (h : Good n u L) : fits (8 * n) u L := by
  rw [Good] at h; rw [fits]; omega

theorem fam_feed (P : Fam) (parts : List (List Byte)) : ∀ m c, P.Inv m c →
    fitsAll (8 * P.n) m.length (parts.map List.length) →
    ∃ c', P.I.feed c parts = .ok c' ∧ P.Inv (m ++ parts.flatten) c' := by
  induction parts with
  | nil => intro m c h _; exact ⟨c, rfl, by simpa using h⟩
  | cons p ps ih =>
    intro m c h hf
    obtain ⟨f1, f2, f3⟩ := hf
    obtain ⟨c1, h1, h2⟩ := P.update_inv m c h p p.length (Nat.le_refl _) f1 (good_of_fits _ _ _ f2)
    rw [List.take_length] at h2
    obtain ⟨c2, h3, h4⟩ := ih (m ++ p) c1 h2 (by rw [List.length_append]; exact f3)
    refine ⟨c2, ?_, by rw [List.flatten_cons, ← List.append_assoc]; exact h4⟩
    have h3 : P.I.updates c1 (ps.map (fun p => (some p, p.length))) = .ok c2 := h3
    rw [HashImpl.feed, List.map_cons, HashImpl.updates]
    have h1 : P.I.update c (some p) p.length = .ok c1 := h1
    rw [h1, bind_ok, h3]

theorem fam_session (P : Fam) (g : KeccakCtx) (parts : List (List Byte)) (out : List Byte)
    (hf : fitsAll (8 * P.n) 0 (parts.map List.length)) (ho : P.bits / 8 ≤ out.length) :
    P.I.session g parts out = .ok (P.H parts.flatten ++ out.drop (P.bits / 8)) := by
  obtain ⟨c0, h1, h2⟩ := P.hashOK.init_ok g trivial
  obtain ⟨c1, h3, h4⟩ := fam_feed P parts [] c0 h2 hf
  rw [List.nil_append] at h4
  obtain ⟨c2, h5, _⟩ := P.digest_inv _ c1 h4 out ho
  have h5 : P.I.digest c1 out = .ok (c2, P.H parts.flatten ++ out.drop (P.bits / 8)) := h5
  rw [HashImpl.session, h1, bind_ok, h3, bind_ok, h5, bind_ok]

/-- What an update does that does not fit. -/
def badUpdate (u L : Nat) : UB := if 8 * L % 2 ^ 32 + 8 * u < 2 ^ 32 then .diverge else .oobWrite

theorem fam_bad (P : Fam) (g : KeccakCtx) (parts rest : List (List Byte)) (x out : List Byte)
    (hf : fitsAll (8 * P.n) 0 (parts.map List.length)) (hx : x.length < 2 ^ 61)
    (hb : ¬ fits (8 * P.n) (parts.flatten.length % (8 * P.n)) x.length) :
    P.I.session g (parts ++ x :: rest) out
      = .error (badUpdate (parts.flatten.length % (8 * P.n)) x.length) := by
  obtain ⟨c0, h1, h2⟩ := P.hashOK.init_ok g trivial
  obtain ⟨c1, h3, h4⟩ := fam_feed P parts [] c0 h2 hf
  rw [List.nil_append] at h4
  have hA : Abs P.n P.ap P.al P.o c1 _ _ := h4
  have hl := Pgfe.Proofs.Sha.tail_length (8 * P.n) parts.flatten
  have hu : keccakUpdate c1 (some x) x.length
      = .error (badUpdate (parts.flatten.length % (8 * P.n)) x.length) := by
    rw [keccakUpdate]
    rw [keccakAbsorb, if_neg (by rw [hA.inq, hA.sq]; simp), show x.length * 8 % 2 ^ 64 = 8 * x.length by omega]
    have := loop_bad hA x x.length (Nat.le_refl _) (fun hg => hb (by rw [← hl]; exact fits_of_good _ _ _ hg))
    rw [hl] at this
    rcases this with ⟨a, b⟩ | ⟨a, b⟩
    · rw [b, badUpdate, if_pos a]
    · rw [b, badUpdate, if_neg (by omega)]
  have hfeed : ∀ (ps : List (List Byte)) c c', P.I.feed c ps = .ok c' →
      P.I.feed c (ps ++ x :: rest) = P.I.feed c' (x :: rest) := by
    intro ps
    induction ps with
    | nil => intro c c' h; cases h; rfl
    | cons p ps ih =>
      intro c c' h
      rw [HashImpl.feed, List.map_cons, HashImpl.updates] at h
      rw [HashImpl.feed, List.cons_append, List.map_cons, HashImpl.updates]
      cases h1 : P.I.update c (some p) p.length with
      | error e => rw [h1, bind_err] at h; cases h
      | ok c1 =>
        rw [h1, bind_ok] at h
        rw [bind_ok]
        exact ih c1 c' h
  rw [HashImpl.session, h1, bind_ok, hfeed parts c0 c1 h3]
  have hu : P.I.update c1 (some x) x.length
    = .error (badUpdate (parts.flatten.length % (8 * P.n)) x.length) := hu
  rw [HashImpl.feed, List.map_cons, HashImpl.updates, hu, bind_err, bind_err]

/-- **C26 (partial).** For every KECCAK-based algorithm and every sequence of updates that fit, of any
size below 2^61 bytes, all of the input is absorbed and the digest is the standard's.  Missing for the
full claim: updates that do not fit, for which it is false (`C26_exact`). -/
theorem C26_partial (a : Alg) (ha : isKeccak a = true) (bits : Nat) (hb : bits < 2 ^ 32)
    (g : (a.impl bits).Ctx) (parts : List (List Byte)) (hf : fitsAll a.blockSize 0 (parts.map List.length))
    (out : List Byte) (ho : outSize a bits ≤ out.length) :
    (a.impl bits).session g parts out
      = .ok (stdHash a (bits / 8) parts.flatten ++ out.drop (outSize a bits)) := by
  have hH : stdHash a (bits / 8) = (kfam a bits hb).H := by
    rw [kfam_H a ha]; cases a <;> first | rfl | exact absurd ha (by decide)
  have hS : outSize a bits = (kfam a bits hb).bits / 8 := by
    cases a
    case SHA3_224 => exact (by decide : 28 = 224 / 8)
    case SHA3_256 => exact (by decide : 32 = 256 / 8)
    case SHA3_384 => exact (by decide : 48 = 384 / 8)
    case SHA3_512 => exact (by decide : 64 = 512 / 8)
    all_goals first | exact absurd ha (by decide) | rfl
  rw [hS] at ho
  rw [hH, hS]
  cases a
  case SHA3_224 => exact fam_session (kfam .SHA3_224 bits hb) g parts out hf ho
  case SHA3_256 => exact fam_session (kfam .SHA3_256 bits hb) g parts out hf ho
  case SHA3_384 => exact fam_session (kfam .SHA3_384 bits hb) g parts out hf ho
  case SHA3_512 => exact fam_session (kfam .SHA3_512 bits hb) g parts out hf ho
  case RawSHAKE128 => exact fam_session (kfam .RawSHAKE128 bits hb) g parts out hf ho
  case RawSHAKE256 => exact fam_session (kfam .RawSHAKE256 bits hb) g parts out hf ho
  case SHAKE128 => exact fam_session (kfam .SHAKE128 bits hb) g parts out hf ho
  case SHAKE256 => exact fam_session (kfam .SHAKE256 bits hb) g parts out hf ho
  all_goals exact absurd ha (by decide)

/-- **C26, exact.** The first update that does not fit ends in an infinite loop or in a write outside
the queue, as `badUpdate` says, whatever the rest of the session. -/
theorem C26_exact (a : Alg) (ha : isKeccak a = true) (bits : Nat) (hb : bits < 2 ^ 32)
    (g : (a.impl bits).Ctx) (parts rest : List (List Byte)) (x out : List Byte)
    (hf : fitsAll a.blockSize 0 (parts.map List.length)) (hx : x.length < 2 ^ 61)
    (hn : ¬ fits a.blockSize (parts.flatten.length % a.blockSize) x.length) :
    (a.impl bits).session g (parts ++ x :: rest) out
      = .error (badUpdate (parts.flatten.length % a.blockSize) x.length) := by
  cases a
  case SHA3_224 => exact fam_bad (kfam .SHA3_224 bits hb) g parts rest x out hf hx hn
  case SHA3_256 => exact fam_bad (kfam .SHA3_256 bits hb) g parts rest x out hf hx hn
  case SHA3_384 => exact fam_bad (kfam .SHA3_384 bits hb) g parts rest x out hf hx hn
  case SHA3_512 => exact fam_bad (kfam .SHA3_512 bits hb) g parts rest x out hf hx hn
  case RawSHAKE128 => exact fam_bad (kfam .RawSHAKE128 bits hb) g parts rest x out hf hx hn
  case RawSHAKE256 => exact fam_bad (kfam .RawSHAKE256 bits hb) g parts rest x out hf hx hn
  case SHAKE128 => exact fam_bad (kfam .SHAKE128 bits hb) g parts rest x out hf hx hn
  case SHAKE256 => exact fam_bad (kfam .SHAKE256 bits hb) g parts rest x out hf hx hn
  all_goals exact absurd ha (by decide)

/-- **C26, violation.** For every KECCAK-based algorithm: one byte, and then an update of exactly 2^29
bytes never returns. -/
theorem C26_violation_diverge (a : Alg) (ha : isKeccak a = true) (bits : Nat) (hb : bits < 2 ^ 32)
    (g : (a.impl bits).Ctx) (b : Byte) (x out : List Byte) (hx : x.length = 2 ^ 29) :
    (a.impl bits).session g [[b], x] out = .error .diverge := by
  have h := C26_exact a ha bits hb g [[b]] [] x out
    ⟨show 1 < 2 ^ 61 by decide, Or.inl (Nat.zero_mod _), trivial⟩ (by rw [hx]; decide)
    (by rw [hx, show [[b]].flatten.length = 1 from rfl, fits]; cases a <;> decide)
  rw [hx] at h
  have e : badUpdate ([[b]].flatten.length % a.blockSize) (2 ^ 29) = .diverge := by
    rw [show [[b]].flatten.length = 1 from rfl]; cases a <;> decide
  rw [e] at h
  exact h

/-- **C26, violation.** One byte, and then an update of 2^29 - 1 bytes writes outside the queue. -/
theorem C26_violation_overflow (a : Alg) (ha : isKeccak a = true) (bits : Nat) (hb : bits < 2 ^ 32)
    (g : (a.impl bits).Ctx) (b : Byte) (x out : List Byte) (hx : x.length = 2 ^ 29 - 1) :
    (a.impl bits).session g [[b], x] out = .error .oobWrite := by
  have h := C26_exact a ha bits hb g [[b]] [] x out
    ⟨show 1 < 2 ^ 61 by decide, Or.inl (Nat.zero_mod _), trivial⟩ (by rw [hx]; decide)
    (by rw [hx, show [[b]].flatten.length = 1 from rfl, fits]; cases a <;> decide)
  rw [hx] at h
  have e : badUpdate ([[b]].flatten.length % a.blockSize) (2 ^ 29 - 1) = .oobWrite := by
    rw [show [[b]].flatten.length = 1 from rfl]; cases a <;> decide
  rw [e] at h
  exact h

theorem exists_length (n : Nat) : ∃ x : List Byte, x.length = n := ⟨List.replicate n 0#8, List.length_replicate⟩

/-- Such an input exists. -/
theorem C26_violation_satisfiable (g : KeccakCtx) (out : List Byte) :
    ∃ x : List Byte, sha3_256Impl.session g [[0x61#8], x] out = .error .diverge := by
  obtain ⟨x, hx⟩ := exists_length (2 ^ 29)
  exact ⟨x, C26_violation_diverge .SHA3_256 rfl 0 (by decide) g _ x out hx⟩

/-- Fitting updates above 2^29 bytes exist: for instance 2^30 bytes on a fresh context, and 2^29 + 200
bytes after one byte. -/
theorem C26_partial_satisfiable : fitsAll 136 0 [2 ^ 30] ∧ fitsAll 136 0 [1, 2 ^ 29 + 200] := by
  simp only [fitsAll, fits]; decide

end Pgfe.Props
