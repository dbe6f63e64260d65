import Verif.Props.Keccak
import Verif.Props.Md5
/-!
# C21, C27 - C30, C53, C54: all sixteen hash functions

`a.impl bits` are the functions of algorithm `a` (`bits` is the output length passed to the digest
function of the SHAKE variants and ignored otherwise).  `memOK a bits g` only says that the arrays of
the context `g` have their declared sizes; their contents are arbitrary.  `okUpd`, `okTot`, `outSize`,
`stdHash`, `libHash`: Verif/Spec/Alg.lean.
-/
namespace Pgfe.Props
open Pgfe.Model Pgfe.Spec Pgfe.Proofs Pgfe.Proofs.Hash

/-! ## What is computed -/

/-- For messages that need no second padding block, the function the library computes is the
standard's. -/
theorem libHash_std (a : Alg) (n : Nat) (m : List Byte) (h : onePadBlock a m.length) :
    libHash a n m = stdHash a n m := by
  cases a
  case SHA1 => exact sha1Stale_eq m (.inl h)
  case SHA224 => exact sha224Stale_eq m (.inl h)
  case SHA256 => exact sha256Stale_eq m (.inl h)
  case SHA384 => exact sha384Stale_eq m (.inl h)
  case SHA512 => exact sha512Stale_eq m (.inl h)
  case SHA512_224 => exact sha512_224Stale_eq m (.inl h)
  case SHA512_256 => exact sha512_256Stale_eq m (.inl h)
  all_goals rfl

/-- All sixteen: init on any memory, updates, digest. -/
theorem C21_session (a : Alg) (bits : Nat) (hb : bits < 2 ^ 32) (g : (a.impl bits).Ctx)
    (hg : memOK a bits g) (parts : List (List Byte)) (hp : ∀ p ∈ parts, okUpd a p.length)
    (ht : okTot a parts.flatten.length) (out : List Byte) (ho : outSize a bits ≤ out.length) :
    (a.impl bits).session g parts out
      = .ok (libHash a (bits / 8) parts.flatten ++ out.drop (outSize a bits)) :=
  keccak_session a bits hb g hg parts hp ht out ho

/-- **C21.** Two sequences of updates with the same concatenation give the same digest (and succeed),
whatever the contexts contained before init. -/
theorem C21 (a : Alg) (bits : Nat) (hb : bits < 2 ^ 32) (g₁ g₂ : (a.impl bits).Ctx)
    (hg₁ : memOK a bits g₁) (hg₂ : memOK a bits g₂) (parts₁ parts₂ : List (List Byte))
    (h : parts₁.flatten = parts₂.flatten)
    (hp₁ : ∀ p ∈ parts₁, okUpd a p.length) (hp₂ : ∀ p ∈ parts₂, okUpd a p.length)
    (ht : okTot a parts₁.flatten.length) (out : List Byte) (ho : outSize a bits ≤ out.length) :
    ∃ d, (a.impl bits).session g₁ parts₁ out = .ok d ∧ (a.impl bits).session g₂ parts₂ out = .ok d := by
  refine ⟨_, C21_session a bits hb g₁ hg₁ parts₁ hp₁ ht out ho, ?_⟩
  rw [h] at ht ⊢
  exact C21_session a bits hb g₂ hg₂ parts₂ hp₂ ht out ho

/-- A concrete case: "abcd" cut in two ways, MD5. -/
theorem C21_example : ∃ d,
    (Alg.impl .MD5 0).session ⟨List.replicate 4 7#32, 1#64, List.replicate 64 9#8⟩ [str "a", str "bcd"]
      (List.replicate 16 0#8) = .ok d ∧
    (Alg.impl .MD5 0).session ⟨List.replicate 4 0#32, 0#64, List.replicate 64 0#8⟩ [str "abc", str "d"]
      (List.replicate 16 0#8) = .ok d :=
  C21 .MD5 0 (by decide) _ _ ⟨rfl, rfl⟩ ⟨rfl, rfl⟩ _ _ (by decide)
    (by show ∀ p ∈ _, 0 < List.length p; decide) (by show ∀ p ∈ _, 0 < List.length p; decide) trivial _
    (by decide)

/-! ## C27: files -/

/-- **C27.** For every file content, `pgfe_<alg>_encode_f` gives the digest `pgfe_<alg>_encode` gives
for the whole content in memory (in one update, if such an update is allowed); the only hypothesis on
the length concerns the last read, which for MD5 must not be empty. -/
theorem C27 (a : Alg) (bits : Nat) (hb : bits < 2 ^ 32) (g₁ g₂ : (a.impl bits).Ctx)
    (hg₁ : memOK a bits g₁) (hg₂ : memOK a bits g₂) (buf file out : List Byte) (hbuf : buf.length = 1024)
    (hm : a = .MD5 → file.length % 1024 ≠ 0) (ht : okTot a file.length) (hu : okUpd a file.length)
    (ho : outSize a bits ≤ out.length) :
    ∃ d, (a.impl bits).encodeF g₁ buf file out = .ok d ∧
      (a.impl bits).encode g₂ (some file) file.length out = .ok d := by
  obtain ⟨K, c⟩ := exists_ok a bits hb
  have ho' : K.ds ≤ out.length := by rw [c.ds]; exact ho
  have hk : okUpd a 1024 := by cases a <;> (simp only [okUpd]; try decide)
  have hk' : okUpd a (file.length % 1024) := by
    have := Nat.mod_lt file.length (by decide : 0 < 1024)
    cases a <;> first
      | (show 0 < _; have := hm rfl; omega)
      | (show _ < 2 ^ 31; omega)
      | (show _ ≤ 2 ^ 29 - 192; omega)
  refine ⟨_, K.encodeF_ok g₁ (c.wf _ hg₁) buf file out hbuf (c.u _ hk) (c.u _ hk') (c.t _ ht) ho', ?_⟩
  have := K.encode_ok g₂ (c.wf _ hg₂) file file.length out (Nat.le_refl _) (c.u _ hu) (c.t _ ht) ho'
  rw [List.take_length] at this
  exact this

/-- **C27**, stronger: for a file of any length, and the value. -/
theorem C27_value (a : Alg) (bits : Nat) (hb : bits < 2 ^ 32) (g : (a.impl bits).Ctx)
    (hg : memOK a bits g) (buf file out : List Byte) (hbuf : buf.length = 1024)
    (hm : a = .MD5 → file.length % 1024 ≠ 0) (ht : okTot a file.length)
    (ho : outSize a bits ≤ out.length) :
    (a.impl bits).encodeF g buf file out
      = .ok (libHash a (bits / 8) file ++ out.drop (outSize a bits)) := by
  obtain ⟨K, c⟩ := exists_ok a bits hb
  have ho' : K.ds ≤ out.length := by rw [c.ds]; exact ho
  have hk : okUpd a 1024 := by cases a <;> (simp only [okUpd]; try decide)
  have hk' : okUpd a (file.length % 1024) := by
    have := Nat.mod_lt file.length (by decide : 0 < 1024)
    cases a <;> first
      | (show 0 < _; have := hm rfl; omega)
      | (show _ < 2 ^ 31; omega)
      | (show _ ≤ 2 ^ 29 - 192; omega)
  have := K.encodeF_ok g (c.wf _ hg) buf file out hbuf (c.u _ hk) (c.u _ hk') (c.t _ ht) ho'
  rw [c.ds] at this
  exact this

/-- A concrete case: a file of exactly 1024 bytes (two reads), SHA3-256. -/
theorem C27_example : ∃ d,
    (Alg.impl .SHA3_256 0).encodeF kGarbage (List.replicate 1024 1#8) (List.replicate 1024 0x61#8)
      (List.replicate 32 0#8) = .ok d ∧
    (Alg.impl .SHA3_256 0).encode kGarbage (some (List.replicate 1024 0x61#8)) 1024
      (List.replicate 32 0#8) = .ok d := by
  have h := C27 .SHA3_256 0 (by decide) kGarbage kGarbage trivial trivial (List.replicate 1024 1#8)
    (List.replicate 1024 0x61#8) (List.replicate 32 0#8) List.length_replicate (by intro h; cases h) trivial
    (by show List.length _ ≤ 2 ^ 29 - 192; rw [List.length_replicate]; decide) (by decide)
  rw [List.length_replicate] at h
  exact h

/-! ## C28: several parts; C strings -/

theorem concat_eq (parts : List (Option (List Byte) × Nat)) : concatParts parts = HashOK.content parts := by
  induction parts with
  | nil => rfl
  | cons p r ih =>
    obtain ⟨q, n⟩ := p
    cases q <;> simp [concatParts, HashOK.content, ih]

/-- **C28.** `pgfe_<alg>_encode_multiple` of a list of (pointer, length) pairs gives the digest of the
concatenation of the parts whose pointer is not NULL. -/
theorem C28_multiple (a : Alg) (bits : Nat) (hb : bits < 2 ^ 32) (g : (a.impl bits).Ctx)
    (hg : memOK a bits g) (parts : List (Option (List Byte) × Nat)) (out : List Byte)
    (hp : ∀ p ∈ parts, ∀ x, p.1 = some x → okUpd a p.2 ∧ p.2 ≤ x.length)
    (m : List Byte) (hm : m = concatParts parts)
    (ht : okTot a m.length) (ho : outSize a bits ≤ out.length) :
    (a.impl bits).encodeMultiple g out parts
      = .ok (libHash a (bits / 8) m ++ out.drop (outSize a bits)) := by
  obtain ⟨K, c⟩ := exists_ok a bits hb
  have e : m = HashOK.content parts := by rw [hm, concat_eq]
  rw [e] at ht ⊢
  have := K.encodeMultiple_ok g (c.wf _ hg) parts out
    (fun p h x hx => ⟨c.u _ (hp p h x hx).1, (hp p h x hx).2⟩) (c.t _ ht) (by rw [c.ds]; exact ho)
  rw [c.ds] at this
  exact this

/-- **C28.** ... which is the digest the one-shot function gives for that concatenation. -/
theorem C28_multiple_encode (a : Alg) (bits : Nat) (hb : bits < 2 ^ 32) (g₁ g₂ : (a.impl bits).Ctx)
    (hg₁ : memOK a bits g₁) (hg₂ : memOK a bits g₂) (parts : List (Option (List Byte) × Nat)) (out : List Byte)
    (hp : ∀ p ∈ parts, ∀ x, p.1 = some x → okUpd a p.2 ∧ p.2 ≤ x.length)
    (m : List Byte) (hm : m = concatParts parts)
    (ht : okTot a m.length) (hu : okUpd a m.length) (ho : outSize a bits ≤ out.length) :
    ∃ d, (a.impl bits).encodeMultiple g₁ out parts = .ok d ∧
      (a.impl bits).encode g₂ (some m) m.length out = .ok d := by
  refine ⟨_, C28_multiple a bits hb g₁ hg₁ parts out hp m hm ht ho, ?_⟩
  obtain ⟨K, c⟩ := exists_ok a bits hb
  have := K.encode_ok g₂ (c.wf _ hg₂) m m.length out (Nat.le_refl _) (c.u _ hu) (c.t _ ht)
    (by rw [c.ds]; exact ho)
  rw [List.take_length, c.ds] at this
  exact this

/-- **C28.** `pgfe_<alg>_encode_default` of a C string: the digest of the characters before the NUL. -/
theorem C28_default (a : Alg) (bits : Nat) (hb : bits < 2 ^ 32) (g : (a.impl bits).Ctx)
    (hg : memOK a bits g) (s rest out : List Byte) (hs : 0#8 ∉ s) (hu : okUpd a s.length)
    (ht : okTot a s.length) (ho : outSize a bits ≤ out.length) :
    (a.impl bits).encodeDefault g (s ++ 0#8 :: rest) out
      = .ok (libHash a (bits / 8) s ++ out.drop (outSize a bits)) := by
  obtain ⟨K, c⟩ := exists_ok a bits hb
  have := K.encodeDefault_ok g (c.wf _ hg) s out hs rest (c.u _ hu) (c.t _ ht) (by rw [c.ds]; exact ho)
  rw [c.ds] at this
  exact this

/-- A concrete case: "ab", NULL, and the first byte of "cd", MD5: the value is MD5("abc"). -/
theorem C28_example : (Alg.impl .MD5 0).encodeMultiple
    ⟨List.replicate 4 0xdeadbeef#32, 77#64, List.replicate 64 0xff#8⟩ (List.replicate 16 0#8)
    [(some (str "ab"), 2), (none, 5), (some (str "cd"), 1)]
    = .ok [0x90#8, 0x01#8, 0x50#8, 0x98#8, 0x3c#8, 0xd2#8, 0x4f#8, 0xb0#8,
      0xd6#8, 0x96#8, 0x3f#8, 0x7d#8, 0x28#8, 0xe1#8, 0x7f#8, 0x72#8] := by decide +kernel

/-! ## C29: every history of calls -/

/-- Number of bytes passed to the update calls of a history. -/
def totalInput (l : List HashImpl.Call) : Nat :=
  (l.map (fun | .update x => x.length | .digest _ => 0)).sum

theorem absorbed_eq (l : List HashImpl.Call) : HashOK.absorbed l = totalInput l := rfl

/-- **C29.** Init on any memory and then any sequence of update and digest calls, in any order: no
undefined behaviour, that is no access outside a buffer, no use of uninitialised memory, no infinite
loop. -/
theorem C29 (a : Alg) (bits : Nat) (hb : bits < 2 ^ 32) (g : (a.impl bits).Ctx) (hg : memOK a bits g)
    (l : List HashImpl.Call) (ht : okTot a (totalInput l))
    (hu : ∀ x, HashImpl.Call.update x ∈ l → okUpd a x.length)
    (hd : ∀ o, HashImpl.Call.digest o ∈ l → outSize a bits ≤ o.length) :
    ∃ c outs, ((a.impl bits).init g >>= fun c => (a.impl bits).calls c l) = .ok (c, outs) := by
  obtain ⟨K, c⟩ := exists_ok a bits hb
  obtain ⟨c1, h1, h2⟩ := K.init_ok g (c.wf _ hg)
  obtain ⟨c2, outs, h3, _⟩ := K.calls_ok l 0 c1 (K.safe _ _ h2) (by rw [Nat.zero_add]; exact c.t _ ht)
    (fun x hx => c.u _ (hu x hx)) (fun o ho => by rw [c.ds]; exact hd o ho)
  exact ⟨c2, outs, by rw [h1, bind_ok]; exact h3⟩

/-- A concrete history: digest of nothing, updates, two digests, update, digest. -/
theorem C29_example : ∃ c outs,
    ((Alg.impl .SHA384 0).init ⟨List.replicate 8 3#64, 8#64, 9#64, 7, List.replicate 128 0xff#8⟩ >>= fun c =>
      (Alg.impl .SHA384 0).calls c [.digest (List.replicate 48 0#8), .update (str "abc"), .update [],
        .digest (List.replicate 50 0#8), .digest (List.replicate 48 0#8), .update (List.replicate 300 5#8),
        .digest (List.replicate 48 0#8)]) = .ok (c, outs) := by
  refine C29 .SHA384 0 (by decide) _ ⟨rfl, rfl⟩ _ (by show 8 * _ < 2 ^ 128; decide +kernel) ?_ ?_
  · intro x hx
    simp only [List.mem_cons, List.not_mem_nil, or_false, reduceCtorEq, false_or,
      HashImpl.Call.update.injEq] at hx
    rcases hx with rfl | rfl | rfl <;> (show List.length _ < 2 ^ 31; decide +kernel)
  · intro o ho
    simp only [List.mem_cons, List.not_mem_nil, or_false, reduceCtorEq, false_or,
      HashImpl.Call.digest.injEq] at ho
    rcases ho with rfl | rfl | rfl | rfl <;> decide

/-! ## C30: init resets -/

/-- **C30.** After init, the outputs of every further sequence of calls do not depend on what the
context contained before. -/
theorem C30 (a : Alg) (bits : Nat) (hb : bits < 2 ^ 32) (g₁ g₂ : (a.impl bits).Ctx)
    (hg₁ : memOK a bits g₁) (hg₂ : memOK a bits g₂) (l : List HashImpl.Call) (ht : okTot a (totalInput l))
    (hu : ∀ x, HashImpl.Call.update x ∈ l → okUpd a x.length)
    (hd : ∀ o, HashImpl.Call.digest o ∈ l → outSize a bits ≤ o.length) :
    ∃ c₁ c₂ outs, ((a.impl bits).init g₁ >>= fun c => (a.impl bits).calls c l) = .ok (c₁, outs) ∧
      ((a.impl bits).init g₂ >>= fun c => (a.impl bits).calls c l) = .ok (c₂, outs) := by
  obtain ⟨K, c⟩ := exists_ok a bits hb
  obtain ⟨_, _, c₁, c₂, outs, h1, h2, _⟩ := K.reset_ok g₁ g₂ (c.wf _ hg₁) (c.wf _ hg₂) l (c.t _ ht)
    (fun x hx => c.u _ (hu x hx)) (fun o ho => by rw [c.ds]; exact hd o ho)
  exact ⟨c₁, c₂, outs, h1, h2⟩

/-- **C30**, with the history spelled out: any calls `l₁` on the context before, then init, then any
calls `l₂`; the outputs of `l₂` are those on a fresh context. -/
theorem C30_history (a : Alg) (bits : Nat) (hb : bits < 2 ^ 32) (g₁ g₂ : (a.impl bits).Ctx)
    (hg₁ : memOK a bits g₁) (hg₂ : memOK a bits g₂) (l₁ l₂ : List HashImpl.Call)
    (ht₁ : okTot a (totalInput l₁)) (ht₂ : okTot a (totalInput l₂))
    (hu : ∀ x, HashImpl.Call.update x ∈ l₁ ++ l₂ → okUpd a x.length)
    (hd : ∀ o, HashImpl.Call.digest o ∈ l₁ ++ l₂ → outSize a bits ≤ o.length) :
    ∃ c₁ c₂ outs,
      (do let c ← (a.impl bits).init g₁
          let r ← (a.impl bits).calls c l₁
          let c ← (a.impl bits).init r.1
          (a.impl bits).calls c l₂) = .ok (c₁, outs) ∧
      (do let c ← (a.impl bits).init g₂
          (a.impl bits).calls c l₂) = .ok (c₂, outs) := by
  obtain ⟨K, c⟩ := exists_ok a bits hb
  obtain ⟨c1, h1, h2⟩ := K.init_ok g₁ (c.wf _ hg₁)
  obtain ⟨c2, outs, h3, h4⟩ := K.calls_ok l₁ 0 c1 (K.safe _ _ h2) (by rw [Nat.zero_add]; exact c.t _ ht₁)
    (fun x hx => c.u _ (hu x (List.mem_append_left _ hx)))
    (fun o ho => by rw [c.ds]; exact hd o (List.mem_append_left _ ho))
  obtain ⟨_, _, c₁, c₂, outs', h5, h6, _⟩ := K.reset_ok c2 g₂ (K.wf _ _ h4) (c.wf _ hg₂) l₂ (c.t _ ht₂)
    (fun x hx => c.u _ (hu x (List.mem_append_right _ hx)))
    (fun o ho => by rw [c.ds]; exact hd o (List.mem_append_right _ ho))
  exact ⟨c₁, c₂, outs', by rw [h1, bind_ok, h3, bind_ok]; exact h5, h6⟩

/-! ## C54: what digest writes -/

/-- The output buffers passed to the digest calls of a history. -/
def buffers : List HashImpl.Call → List (List Byte)
  | [] => []
  | .update _ :: l => buffers l
  | .digest o :: l => o :: buffers l

theorem calls_written {I : HashImpl} {H : List Byte → List Byte} (K : HashOK I H) (l : List HashImpl.Call) :
    ∀ k c, K.Safe k c → K.okTot (k + HashOK.absorbed l) →
    (∀ x, HashImpl.Call.update x ∈ l → K.okUpd x.length) →
    (∀ o, HashImpl.Call.digest o ∈ l → K.ds ≤ o.length) →
    ∃ c' ds, I.calls c l = .ok (c', List.zipWith (fun (d o : List Byte) => d ++ o.drop K.ds) ds (buffers l)) ∧
      ds.length = (buffers l).length ∧ ∀ d ∈ ds, d.length = K.ds := by
  induction l with
  | nil => intro k c _ _ _ _; exact ⟨c, [], rfl, rfl, by simp⟩
  | cons a l ih =>
    intro k c h ht hu hd
    cases a with
    | update x =>
      have e : HashOK.absorbed (.update x :: l) = x.length + HashOK.absorbed l := rfl
      rw [e] at ht
      obtain ⟨c1, h1, h2⟩ := K.safe_update k c x x.length h (hu x (List.mem_cons_self ..))
        (Nat.le_refl _) (K.tot_mono _ _ (by omega) ht)
      obtain ⟨c', ds, h3, h4, h5⟩ := ih (k + x.length) c1 h2 (by rw [Nat.add_assoc]; exact ht)
        (fun y hy => hu y (List.mem_cons_of_mem _ hy)) (fun y hy => hd y (List.mem_cons_of_mem _ hy))
      exact ⟨c', ds, by rw [HashImpl.calls, h1, bind_ok, h3]; rfl, h4, h5⟩
    | digest o =>
      have e : HashOK.absorbed (.digest o :: l) = HashOK.absorbed l := by simp [HashOK.absorbed]
      rw [e] at ht
      obtain ⟨c1, d, h1, hl, h2⟩ := K.safe_digest k c o h (K.tot_mono _ _ (by omega) ht)
        (hd o (List.mem_cons_self ..))
      obtain ⟨c', ds, h3, h4, h5⟩ := ih k c1 h2 ht
        (fun y hy => hu y (List.mem_cons_of_mem _ hy)) (fun y hy => hd y (List.mem_cons_of_mem _ hy))
      refine ⟨c', d :: ds, ?_, ?_, ?_⟩
      · rw [HashImpl.calls, h1, bind_ok, h3, bind_ok]; rfl
      · rw [buffers, List.length_cons, List.length_cons, h4]
      · intro x hx
        rcases List.mem_cons.1 hx with rfl | hx
        · exact hl
        · exact h5 x hx

/-- **C54.** For every message, chunking and buffer, what digest writes is exactly `outSize a bits`
bytes at the beginning of the buffer; they do not depend on the buffer's previous content (so all of
them are really written). -/
theorem C54 (a : Alg) (bits : Nat) (hb : bits < 2 ^ 32) (g : (a.impl bits).Ctx)
    (hg : memOK a bits g) (parts : List (List Byte)) (hp : ∀ p ∈ parts, okUpd a p.length)
    (ht : okTot a parts.flatten.length) :
    ∃ d : List Byte, d.length = outSize a bits ∧ ∀ out : List Byte, outSize a bits ≤ out.length →
      (a.impl bits).session g parts out = .ok (d ++ out.drop (outSize a bits)) := by
  refine ⟨libHash a (bits / 8) parts.flatten, ?_, fun out ho =>
    C21_session a bits hb g hg parts hp ht out ho⟩
  obtain ⟨K, c⟩ := exists_ok a bits hb
  rw [K.len, c.ds]

/-- **C54**, in every history: the i-th digest call overwrites exactly the first `outSize a bits` bytes
of its buffer. -/
theorem C54_history (a : Alg) (bits : Nat) (hb : bits < 2 ^ 32) (g : (a.impl bits).Ctx) (hg : memOK a bits g)
    (l : List HashImpl.Call) (ht : okTot a (totalInput l))
    (hu : ∀ x, HashImpl.Call.update x ∈ l → okUpd a x.length)
    (hd : ∀ o, HashImpl.Call.digest o ∈ l → outSize a bits ≤ o.length) :
    ∃ c ds, ((a.impl bits).init g >>= fun c => (a.impl bits).calls c l)
        = .ok (c, List.zipWith (fun (d o : List Byte) => d ++ o.drop (outSize a bits)) ds (buffers l)) ∧
      ds.length = (buffers l).length ∧ ∀ d ∈ ds, d.length = outSize a bits := by
  obtain ⟨K, c⟩ := exists_ok a bits hb
  obtain ⟨c1, h1, h2⟩ := K.init_ok g (c.wf _ hg)
  have := calls_written K l 0 c1 (K.safe _ _ h2) (by rw [Nat.zero_add]; exact c.t _ ht)
    (fun x hx => c.u _ (hu x hx)) (fun o ho => by rw [c.ds]; exact hd o ho)
  rw [c.ds] at this
  obtain ⟨c2, ds, h3, h4⟩ := this
  exact ⟨c2, ds, by rw [h1, bind_ok]; exact h3, h4⟩

/-- The published digest sizes are the number of bytes written, for the twelve fixed-output functions
(`pgfe_digest_length`); for the SHAKE variants they are the number of bytes for which the library
itself asks by default (256 and 512 bits). -/
theorem C54_sizes (a : Alg) (bits : Nat) (h : isShake a = true → bits = if a = .SHAKE128 ∨ a = .RawSHAKE128 then 256 else 512) :
    mapAt digestLengthMap a = .ok (outSize a bits) := by
  cases a <;> first
    | rfl
    | (rw [h rfl]; decide)

end Pgfe.Props
