import Verif.Model.Stream
import Verif.Props.Hash
/-!
# C75: hashing streams with short reads and read errors
-/
namespace Pgfe.Props
open Pgfe.Model Pgfe.Spec Pgfe.Proofs Pgfe.Proofs.Hash

/-! ## Specification -/

/-- The bytes delivered up to and including the first read of fewer than 1024 bytes. -/
def delivered : List (List Byte) → List Byte
  | [] => []
  | r :: rs => if r.length ≥ 1024 then r ++ delivered rs else r

/-- The read at which the loop stops. -/
def lastRead : List (List Byte) → List Byte
  | [] => []
  | r :: rs => if r.length ≥ 1024 then lastRead rs else r

/-- What `fread` delivers of a file that can be read: pieces of 1024 bytes, then the rest. -/
def fileReads (file : List Byte) : List (List Byte) :=
  if _h : 1024 ≤ file.length then file.take 1024 :: fileReads (file.drop 1024) else [file]
termination_by file.length
decreasing_by rw [List.length_drop]; omega

/-- What it delivers of a file of which only the first `k` bytes can be read before an error. -/
def failingReads (file : List Byte) (k : Nat) : List (List Byte) := fileReads (file.take k)

/-! ## Proofs -/

theorem lastRead_length (reads : List (List Byte)) : (lastRead reads).length < 1024 := by
  induction reads with
  | nil => decide
  | cons r rs ih => unfold lastRead; split <;> omega

theorem readLoop_ok {I : HashImpl} {H : List Byte → List Byte} (K : HashOK I H) (hu : K.okUpd 1024)
    (reads : List (List Byte)) : ∀ m c (buf : List Byte), K.Inv m c → buf.length = 1024 →
    (∀ r ∈ reads, r.length ≤ 1024) → K.okUpd (lastRead reads).length →
    K.okTot (m.length + (delivered reads).length) →
    ∃ c', I.readLoop c buf reads = .ok c' ∧ K.Inv (m ++ delivered reads) c' := by
  induction reads with
  | nil =>
    intro m c buf h hb _ hl ht
    obtain ⟨c', e, h'⟩ := K.update_ok m c buf 0 h hl (Nat.zero_le _) ht
    rw [List.take_zero] at h'
    exact ⟨c', e, h'⟩
  | cons r rs ih =>
    intro m c buf h hb hr hl ht
    have hrl := hr r (by simp)
    have hsl : (splice buf 0 r).length = 1024 := by rw [splice_length (by omega), hb]
    have htk : (splice buf 0 r).take r.length = r := by
      rw [splice, List.take_zero, List.nil_append, List.take_append_of_le_length (Nat.le_refl _),
        List.take_length]
    unfold HashImpl.readLoop
    rw [wrs_ok (by omega), bind_ok]
    unfold delivered at ht ⊢
    unfold lastRead at hl
    by_cases hge : r.length ≥ 1024
    · rw [if_pos hge] at hl ht ⊢
      have h1024 : r.length = 1024 := by omega
      rw [List.length_append] at ht
      obtain ⟨c1, e1, h1⟩ := K.update_ok m c (splice buf 0 r) r.length h (by rw [h1024]; exact hu)
        (by omega) (K.tot_mono _ _ (by omega) ht)
      rw [htk] at h1
      rw [e1, bind_ok, if_pos hge]
      obtain ⟨c2, e2, h2⟩ := ih (m ++ r) c1 _ h1 hsl (fun r h => hr r (by simp [h])) hl
        (by rw [List.length_append]; rw [Nat.add_assoc]; exact ht)
      rw [List.append_assoc] at h2
      exact ⟨c2, e2, h2⟩
    · rw [if_neg hge] at hl ht ⊢
      obtain ⟨c1, e1, h1⟩ := K.update_ok m c (splice buf 0 r) r.length h hl (by omega) ht
      rw [htk] at h1
      rw [e1, bind_ok, if_neg hge]
      exact ⟨c1, rfl, h1⟩

/-- **C75, what is computed.**  Whatever the `fread` calls deliver, `pgfe_<alg>_encode_f` ends with the
digest of the bytes delivered up to and including the first incomplete read (for MD5 that read must
not be empty, C17). -/
theorem C75 (a : Alg) (bits : Nat) (hb : bits < 2 ^ 32) (g : (a.impl bits).Ctx)
    (hg : memOK a bits g) (buf : List Byte) (reads : List (List Byte)) (out : List Byte)
    (hbuf : buf.length = 1024) (hr : ∀ r ∈ reads, r.length ≤ 1024)
    (hm : a = .MD5 → lastRead reads ≠ []) (ht : okTot a (delivered reads).length)
    (ho : outSize a bits ≤ out.length) :
    (a.impl bits).encodeStream g buf reads out
      = .ok (libHash a (bits / 8) (delivered reads) ++ out.drop (outSize a bits)) := by
  obtain ⟨K, c⟩ := exists_ok a bits hb
  have ho' : K.ds ≤ out.length := by rw [c.ds]; exact ho
  have hk : okUpd a 1024 := by cases a <;> (simp only [okUpd]; try decide)
  have hk' : okUpd a (lastRead reads).length := by
    have := lastRead_length reads
    cases a <;> first
      | (show 0 < _; exact List.length_pos_iff.mpr (hm rfl))
      | (show _ < 2 ^ 31; omega)
      | (show _ ≤ 2 ^ 29 - 192; omega)
  obtain ⟨c0, e0, h0⟩ := K.init_ok g (c.wf _ hg)
  obtain ⟨c1, e1, h1⟩ := readLoop_ok K (c.u _ hk) reads [] c0 buf h0 hbuf hr (c.u _ hk')
    (by simpa using c.t _ ht)
  rw [List.nil_append] at h1
  obtain ⟨c2, e2, _⟩ := K.digest_ok _ c1 out h1 (c.t _ ht) ho'
  unfold HashImpl.encodeStream
  rw [e0, bind_ok, e1, bind_ok, e2, bind_ok, c.ds]

theorem fileReads_spec (file : List Byte) : delivered (fileReads file) = file ∧
    (lastRead (fileReads file)).length = file.length % 1024 ∧ ∀ r ∈ fileReads file, r.length ≤ 1024 := by
  induction hn : file.length using Nat.strongRecOn generalizing file with
  | _ n ih =>
    subst hn
    rw [fileReads]
    by_cases h : 1024 ≤ file.length
    · rw [dif_pos h]
      obtain ⟨h1, h2, h3⟩ := ih (file.drop 1024).length (by rw [List.length_drop]; omega) _ rfl
      have hl : (file.take 1024).length = 1024 := by rw [List.length_take]; omega
      refine ⟨?_, ?_, ?_⟩
      · unfold delivered; rw [if_pos (by omega), h1, List.take_append_drop]
      · unfold lastRead; rw [if_pos (by omega), h2, List.length_drop]; omega
      · intro r hr
        rcases List.mem_cons.mp hr with rfl | hr
        · omega
        · exact h3 r hr
    · rw [dif_neg h]
      refine ⟨?_, ?_, ?_⟩
      · unfold delivered; rw [if_neg (by omega)]
      · unfold lastRead; rw [if_neg (by omega)]; omega
      · intro r hr; rw [List.mem_singleton] at hr; subst hr; omega

/-- The model of C27 is the case of a file that can be read. -/
theorem C75_readable (a : Alg) (bits : Nat) (hb : bits < 2 ^ 32) (g : (a.impl bits).Ctx)
    (hg : memOK a bits g) (buf file out : List Byte) (hbuf : buf.length = 1024)
    (hm : a = .MD5 → file.length % 1024 ≠ 0) (ht : okTot a file.length)
    (ho : outSize a bits ≤ out.length) :
    (a.impl bits).encodeStream g buf (fileReads file) out = (a.impl bits).encodeF g buf file out := by
  obtain ⟨h1, h2, h3⟩ := fileReads_spec file
  rw [C75 a bits hb g hg buf _ out hbuf h3
      (fun e h => hm e (by rw [← h2, h]; rfl)) (by rw [h1]; exact ht) ho, h1,
    C27_value a bits hb g hg buf file out hbuf hm ht ho]

/-- **C75, read errors.**  If only the first `k` bytes of a file can be read, the result is the digest
of these `k` bytes: exactly what a file consisting of them gives, so that no caller can notice the
error from the result. -/
theorem C75_error (a : Alg) (bits : Nat) (hb : bits < 2 ^ 32) (g : (a.impl bits).Ctx)
    (hg : memOK a bits g) (buf file out : List Byte) (k : Nat) (hk : k ≤ file.length)
    (hbuf : buf.length = 1024) (hm : a = .MD5 → k % 1024 ≠ 0) (ht : okTot a k)
    (ho : outSize a bits ≤ out.length) :
    (a.impl bits).encodeStream g buf (failingReads file k) out
        = .ok (libHash a (bits / 8) (file.take k) ++ out.drop (outSize a bits)) ∧
      (a.impl bits).encodeStream g buf (failingReads file k) out
        = (a.impl bits).encodeStream g buf (fileReads (file.take k)) out := by
  have hl : (file.take k).length = k := by rw [List.length_take]; omega
  refine ⟨?_, rfl⟩
  unfold failingReads
  rw [C75_readable a bits hb g hg buf (file.take k) out hbuf (by rw [hl]; exact hm)
    (by rw [hl]; exact ht) ho]
  exact C27_value a bits hb g hg buf (file.take k) out hbuf (by rw [hl]; exact hm) (by rw [hl]; exact ht) ho

/-- A SHA-1 context with arbitrary contents. -/
def streamMem : ShaCtx 32 := ⟨List.replicate 5 1#32, 2#32, 3#32, 99, List.replicate 64 4#8⟩

/-- **C75 fails** as "the result is the digest of the file": a file of two bytes, SHA-1, of which one
byte can be read, gives a digest that is not the one of the file. -/
theorem C75_violation : ∃ (file : List Byte) (k : Nat) (d : List Byte), k < file.length ∧
    (Alg.impl .SHA1 0).encodeStream streamMem (List.replicate 1024 0#8) (failingReads file k)
      (List.replicate 20 0#8) = .ok d ∧ d ≠ stdHash .SHA1 0 file := by
  refine ⟨[0x61#8, 0x62#8], 1, libHash .SHA1 0 [0x61#8], by decide, ?_, ?_⟩
  · have h := (C75_error .SHA1 0 (by decide) streamMem ⟨rfl, rfl⟩ (List.replicate 1024 0#8)
      [0x61#8, 0x62#8] (List.replicate 20 0#8) 1 (by decide) List.length_replicate
      (by intro h; cases h) (by show 8 * _ < 2 ^ 64; decide) (by decide)).1
    rw [h]
    rw [List.drop_of_length_le (by show 20 ≤ 20; decide), List.append_nil]
    rfl
  · rw [libHash_std .SHA1 0 [0x61#8] (by show _ % _ < _; decide)]
    show Pgfe.Spec.Sha.sha1 _ ≠ Pgfe.Spec.Sha.sha1 _
    rw [sha1_eval, sha1_eval]
    decide +kernel

/-- A stream with two complete reads, an incomplete one and a further one that is never asked for. -/
theorem C75_example (x y z w : List Byte) (hx : x.length = 1024) (hy : y.length = 1024)
    (hz : z.length = 7) :
    delivered [x, y, z, w] = x ++ (y ++ z) ∧ lastRead [x, y, z, w] = z := by
  simp [delivered, lastRead, hx, hy, hz]

end Pgfe.Props
