import Verif.Proofs.ShaHash
/-!
# The library's SHA digests in terms of the standard's functions
-/
namespace Pgfe.Proofs.Sha
open Pgfe.Model Pgfe.Proofs.Hash
open Pgfe.Spec.Sha (natOfBytes bytesOfNat bytesOfWord blocks padZeros pad stalePad V5 V8 P256 P512 Sha2)

theorem stalePad_blocks (bs lb : Nat) (hlb : lb < bs) (m : List Byte) :
    blocks bs (stalePad bs lb m) = blocks bs m ++
      Fam.libPad bs (bs - lb) (tail bs m) (bytesOfNat lb (8 * m.length)) := by
  have hp : 0 < bs := by omega
  have htl := tail_length bs m
  have htb : (tail bs m).length < bs := by rw [htl]; exact Nat.mod_lt _ hp
  have hlen : (bytesOfNat lb (8 * m.length)).length = lb := by simp [bytesOfNat]
  rw [stalePad, Fam.libPad]
  by_cases h : m.length % bs < bs - lb
  · rw [if_pos h, if_pos (by omega), pad_blocks bs lb hlb, stdPad, if_pos (by omega)]
  · rw [if_neg h, if_neg (by omega), ← htl]
    have e : m.drop (m.length / bs * bs) = tail bs m := rfl
    rw [e]
    generalize bytesOfNat lb (8 * m.length) = len at hlen
    rw [List.append_assoc, List.append_assoc, List.append_assoc, blocks_tail bs hp]
    congr 1
    generalize tail bs m = t at htl htb
    have e2 : t ++ ([0x80#8] ++ (List.replicate (bs - t.length - 1) 0#8 ++ (t.take (bs - lb) ++ len)))
        = (t ++ [0x80#8] ++ List.replicate (bs - t.length - 1) 0#8) ++ (t.take (bs - lb) ++ len) := by
      simp
    have l1 : (t ++ [0x80#8] ++ List.replicate (bs - t.length - 1) 0#8).length = bs := by simp; omega
    rw [e2, blocks_append bs hp _ _ (by rw [l1]; exact Nat.mod_self _), blocks_one bs hp _ l1,
      blocks_one bs hp _ (by simp [hlen]; omega)]
    rfl

/-- The two paddings agree when no second block is needed, or when the stale bytes are zeros. -/
theorem stalePad_eq (bs lb : Nat) (hlb : lb < bs) (m : List Byte)
    (h : m.length % bs < bs - lb ∨
      ∀ b ∈ (m.drop (m.length / bs * bs)).take (bs - lb), b = 0#8) :
    stalePad bs lb m = pad bs lb m := by
  have hp : 0 < bs := by omega
  rw [stalePad]
  by_cases h1 : m.length % bs < bs - lb
  · rw [if_pos h1]
  · rw [if_neg h1, pad]
    have h := h.resolve_left h1
    have hz : (m.drop (m.length / bs * bs)).take (bs - lb) = List.replicate (bs - lb) 0#8 := by
      apply List.eq_replicate_iff.2
      refine ⟨?_, h⟩
      have htl := tail_length bs m
      rw [tail] at htl
      rw [List.length_take, htl]; omega
    rw [hz]
    have hm := Nat.mod_lt m.length hp
    have e : padZeros bs lb m.length = (bs - m.length % bs - 1) + (bs - lb) := by
      rw [padZeros]
      have : (m.length + 1 + lb) % bs = m.length % bs + 1 + lb - bs := by
        rw [Nat.add_assoc, ← Nat.mod_add_mod, ← Nat.add_assoc,
          Nat.mod_eq_sub_mod (by omega : bs ≤ m.length % bs + 1 + lb), Nat.mod_eq_of_lt (by omega)]
      rw [this, Nat.mod_eq_of_lt (by omega)]; omega
    rw [e, ← List.replicate_append_replicate]
    simp only [List.append_assoc]

/-- The two paddings differ when the stale bytes are not all zero. -/
theorem stalePad_ne (bs lb : Nat) (hlb : lb < bs) (m : List Byte)
    (h1 : ¬ m.length % bs < bs - lb)
    (h : ∃ b ∈ (m.drop (m.length / bs * bs)).take (bs - lb), b ≠ 0#8) :
    stalePad bs lb m ≠ pad bs lb m := by
  have hp : 0 < bs := by omega
  intro heq
  rw [stalePad, if_neg h1, pad] at heq
  have hm := Nat.mod_lt m.length hp
  have e : padZeros bs lb m.length = (bs - m.length % bs - 1) + (bs - lb) := by
    rw [padZeros]
    have : (m.length + 1 + lb) % bs = m.length % bs + 1 + lb - bs := by
      rw [Nat.add_assoc, ← Nat.mod_add_mod, ← Nat.add_assoc,
        Nat.mod_eq_sub_mod (by omega : bs ≤ m.length % bs + 1 + lb), Nat.mod_eq_of_lt (by omega)]
    rw [this, Nat.mod_eq_of_lt (by omega)]; omega
  rw [e, ← List.replicate_append_replicate] at heq
  simp only [List.append_assoc, List.append_cancel_left_eq] at heq
  rw [List.append_cancel_right_eq] at heq
  obtain ⟨b, hb, hne⟩ := h
  rw [heq] at hb
  exact hne (List.eq_of_mem_replicate hb)

theorem ofWords_words {w : Nat} (v : V8 w) : V8.ofWords v.words = v := rfl
theorem toV5_words5 (v : V5) : toV5 (words5 v) = v := rfl

theorem fold_comp8 {w : Nat} (P : Sha2 w) (l : List (List Byte)) (v : V8 w) :
    l.foldl (comp8 P) v.words = (l.foldl P.compress v).words := by
  induction l generalizing v with
  | nil => rfl
  | cons b l ih => rw [List.foldl_cons, List.foldl_cons, comp8, ofWords_words, ih]

theorem fold_comp5 (l : List (List Byte)) (v : V5) :
    l.foldl comp5 (words5 v) = words5 (l.foldl Pgfe.Spec.Sha.sha1Compress v) := by
  induction l generalizing v with
  | nil => rfl
  | cons b l ih => rw [List.foldl_cons, List.foldl_cons, comp5, toV5_words5, ih]

theorem bytes5 (v : V5) : (words5 v).flatMap bytesOfWord = v.bytes := by
  simp [words5, V5.bytes]

theorem libHash256 (v : V8 32) (n : Nat) (m : List Byte) :
    F256.libHash v.words n m = (P256.hashStale v m).bytes.take n := by
  rw [Fam.libHash, Fam.final, ← List.foldl_append]
  have e := stalePad_blocks 64 8 (by decide) m
  have e : blocks F256.bs m ++ Fam.libPad F256.bs (F256.bs - 32 / 4) (tail F256.bs m)
      (bytesOfNat (32 / 4) (8 * m.length)) = blocks 64 (stalePad 64 8 m) := e.symm
  rw [e]
  have e : F256.compress = comp8 P256 := rfl
  rw [e, fold_comp8]
  rfl

theorem libHash512 (v : V8 64) (n : Nat) (m : List Byte) :
    F512.libHash v.words n m = (P512.hashStale v m).bytes.take n := by
  rw [Fam.libHash, Fam.final, ← List.foldl_append]
  have e := stalePad_blocks 128 16 (by decide) m
  have e : blocks F512.bs m ++ Fam.libPad F512.bs (F512.bs - 64 / 4) (tail F512.bs m)
      (bytesOfNat (64 / 4) (8 * m.length)) = blocks 128 (stalePad 128 16 m) := e.symm
  rw [e]
  have e : F512.compress = comp8 P512 := rfl
  rw [e, fold_comp8]
  rfl

theorem libHash1 (v : V5) (m : List Byte) :
    F1.libHash (words5 v) 20 m
      = ((blocks 64 (stalePad 64 8 m)).foldl Pgfe.Spec.Sha.sha1Compress v).bytes := by
  rw [Fam.libHash, Fam.final, ← List.foldl_append]
  have e := stalePad_blocks 64 8 (by decide) m
  have e : blocks F1.bs m ++ Fam.libPad F1.bs (F1.bs - 32 / 4) (tail F1.bs m)
      (bytesOfNat (32 / 4) (8 * m.length)) = blocks 64 (stalePad 64 8 m) := e.symm
  rw [e]
  have e : F1.compress = comp5 := rfl
  rw [e, fold_comp5, bytes5, List.take_of_length_le (by simp [V5.bytes, bytesOfWord_length])]

theorem bytes8_length {w : Nat} (v : V8 w) : v.bytes.length = 8 * (w / 8) := by
  rw [V8.bytes, flatMap_bytes_length]; rfl

/-! ## The initial values -/

theorem sha1H0_eq : sha1H0 = words5 Pgfe.Spec.Sha.sha1H0 := by decide +kernel
theorem sha224H0_eq : sha224H0 = Pgfe.Spec.Sha.sha224H0.words := by decide +kernel
theorem sha256H0_eq : sha256H0 = Pgfe.Spec.Sha.sha256H0.words := by decide +kernel
theorem sha384H0_eq : words64 sha384H0 = Pgfe.Spec.Sha.sha384H0.words := by decide +kernel
theorem sha512H0_eq : words64 sha512H0 = Pgfe.Spec.Sha.sha512H0.words := by decide +kernel

/-- One-block messages: the standard's compression, evaluated through the library's. -/
theorem comp8_512_eval (s r : List W64) (b : List Byte) (hs : s.length = 8) (hb : b.length = 128)
    (h : sha512ProcessBlock ⟨s, 0#64, 0#64, 0, b⟩ = .ok ⟨r, 0#64, 0#64, 0, b⟩) : comp8 P512 s b = r := by
  rw [sha512Process_ok _ hs hb] at h
  injection h with h
  injection h

theorem comp8_256_eval (s r : List W32) (b : List Byte) (hs : s.length = 8) (hb : b.length = 64)
    (h : sha256ProcessBlock ⟨s, 0#32, 0#32, 0, b⟩ = .ok ⟨r, 0#32, 0#32, 0, b⟩) : comp8 P256 s b = r := by
  rw [sha256Process_ok _ hs hb] at h
  injection h with h
  injection h

theorem comp5_eval (s r : List W32) (b : List Byte) (hs : s.length = 5) (hb : b.length = 64)
    (h : sha1ProcessBlock ⟨s, 0#32, 0#32, 0, b⟩ = .ok ⟨r, 0#32, 0#32, 0, b⟩) : comp5 s b = r := by
  rw [sha1Process_ok _ hs hb] at h
  injection h with h
  injection h

def ivStart : V8 64 :=
  V8.ofWords (Pgfe.Spec.Sha.sha512H0.words.map (fun x => x ^^^ 0xa5a5a5a5a5a5a5a5#64))

theorem iv_ok (name : String) (h0 : List W64) (hb : (blocks 128 (pad 128 16 (str name))).length = 1)
    (hl : ((blocks 128 (pad 128 16 (str name))).headD []).length = 128)
    (h : sha512ProcessBlock ⟨ivStart.words, 0#64, 0#64, 0, (blocks 128 (pad 128 16 (str name))).headD []⟩
      = .ok ⟨h0, 0#64, 0#64, 0, (blocks 128 (pad 128 16 (str name))).headD []⟩) :
    h0 = (Pgfe.Spec.Sha.sha512tH0 name).words := by
  have e := comp8_512_eval _ _ _ rfl hl h
  have e2 : Pgfe.Spec.Sha.sha512tH0 name = P512.hash ivStart (str name) := rfl
  rw [e2, Sha2.hash, ← e]
  have e3 : 2 * 64 = 128 := rfl
  have e4 : 64 / 4 = 16 := rfl
  rw [e3, e4]
  match hbb : blocks 128 (pad 128 16 (str name)), hb with
  | [x], _ => rfl

set_option maxRecDepth 100000 in
theorem sha512H0_224_eq : words64 sha512H0_224 = (Pgfe.Spec.Sha.sha512tH0 "SHA-512/224").words :=
  iv_ok _ _ (by decide +kernel) (by decide +kernel) (by decide +kernel)

set_option maxRecDepth 100000 in
theorem sha512H0_256_eq : words64 sha512H0_256 = (Pgfe.Spec.Sha.sha512tH0 "SHA-512/256").words :=
  iv_ok _ _ (by decide +kernel) (by decide +kernel) (by decide +kernel)

end Pgfe.Proofs.Sha
