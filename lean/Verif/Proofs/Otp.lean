import Verif.Model.Otp
import Verif.Spec.Otp
import Verif.Proofs.Hmac
/-!
# One-time passwords
-/
namespace Pgfe.Proofs.Otp
open Pgfe.Model Pgfe.Spec

theorem reverse_mid (n : Nat) : ∀ (m p q : List Byte), m.length = n →
    reverse (p ++ m ++ q) p.length (p.length + m.length - 1) = .ok (p ++ m.reverse ++ q) := by
  induction n using Nat.strongRecOn with
  | _ n ih =>
    intro m p q hn
    rcases m with _ | ⟨x, m⟩
    · rw [reverse, dif_neg (by simp only [List.length_nil]; omega)]; rfl
    · rcases List.eq_nil_or_concat m with rfl | ⟨mid, y, rfl⟩
      · rw [reverse, dif_neg (by simp only [List.length_cons, List.length_nil]; omega)]; rfl
      · rw [List.concat_eq_append] at hn ⊢
        have e1 : p ++ (x :: (mid ++ [y])) ++ q = p ++ x :: (mid ++ y :: q) := by simp
        have hh : p.length + (x :: (mid ++ [y])).length - 1 = (p ++ x :: mid).length := by
          simp only [List.length_cons, List.length_append, List.length_nil]; omega
        have e2 : p ++ x :: (mid ++ y :: q) = (p ++ x :: mid) ++ y :: q := by simp
        have e3 : p ++ y :: (mid ++ y :: q) = (p ++ y :: mid) ++ y :: q := by simp
        have e4 : (p ++ y :: mid).length = (p ++ x :: mid).length := by simp
        rw [reverse, dif_pos (by rw [hh]; simp only [List.length_cons, List.length_append]; omega), hh, e1, rd_append,
          bind_ok, e2, rd_append, bind_ok, ← e2, wr_append, bind_ok, e3, ← e4, wr_append, bind_ok]
        have e5 : (p ++ y :: mid) ++ x :: q = (p ++ [y]) ++ mid ++ (x :: q) := by simp
        have := ih mid.length (by rw [← hn]; simp only [List.length_cons, List.length_append]; omega) mid (p ++ [y]) (x :: q) rfl
        rw [e5]
        have h1 : p.length + 1 = (p ++ [y]).length := by simp
        have h2 : (p ++ y :: mid).length - 1 = (p ++ [y]).length + mid.length - 1 := by
          simp only [List.length_cons, List.length_append, List.length_nil]; omega
        rw [h1, h2, this]
        simp

/-- `reverse` of a whole array. -/
theorem reverse_ok (b : List Byte) : reverse b 0 (b.length - 1) = .ok b.reverse := by
  have := reverse_mid b.length b [] [] rfl
  simpa using this

theorem shl8_or (x : W32) (b : Byte) (h : x.toNat < 2 ^ 24) :
    (x <<< 8 ||| b.setWidth 32).toNat = 256 * x.toNat + b.toNat := by
  have hb := b.isLt
  rw [BitVec.toNat_or, BitVec.toNat_shiftLeft, BitVec.toNat_setWidth, Nat.mod_eq_of_lt (a := b.toNat) (by omega),
    Nat.shiftLeft_eq, Nat.mod_eq_of_lt (by omega)]
  have h2 := Nat.shiftLeft_add_eq_or_of_lt hb x.toNat
  rw [Nat.shiftLeft_eq] at h2
  rw [← h2]; omega

theorem natBE4 (b0 b1 b2 b3 : Byte) :
    natBE [b0, b1, b2, b3] = 256 * (256 * (256 * b0.toNat + b1.toNat) + b2.toNat) + b3.toNat := by
  simp only [natBE, List.foldl_cons, List.foldl_nil]; omega

theorem rd_at (l : List Byte) (i : Nat) (b : Byte) (h : l[i]? = some b) : rd l i = .ok b := by
  rw [rd, h]

/-- The four bytes are inside. -/
theorem dynTruncate_ok (hash : List Byte) (h0 : 0 < hash.length) (hl : hash.length < 2 ^ 64)
    (h4 : (hash.getLastD 0#8).toNat % 16 + 4 ≤ hash.length) :
    ∃ v, dynTruncate hash hash.length = .ok v ∧ v.toNat = DT hash := by
  have e1 : (hash.length + 2 ^ 64 - 1) % 2 ^ 64 = hash.length - 1 := by omega
  have elast : hash.getLastD 0#8 = hash[hash.length - 1]'(by omega) := by
    rw [List.getLastD_eq_getLast?, List.getLast?_eq_getElem?, List.getElem?_eq_getElem (by omega)]; rfl
  have eo : (hash[hash.length - 1]'(by omega) &&& 0x0F#8).toNat = (hash.getLastD 0#8).toNat % 16 := by
    rw [elast, BitVec.toNat_and]; exact Nat.and_two_pow_sub_one_eq_mod _ 4
  rw [dynTruncate, e1, rd_ok (by omega), bind_ok]
  simp only [eo]
  have hd : DT hash = natBE ((hash.drop ((hash.getLastD 0#8).toNat % 16)).take 4) % 2 ^ 31 := rfl
  clear eo elast
  generalize (hash.getLastD 0#8).toNat % 16 = o at h4 hd ⊢
  have r : ∀ i, i < 4 → ∃ b : Byte, rd hash (o + i) = .ok b ∧ (hash.drop o)[i]? = some b := by
    intro i hi
    refine ⟨hash[o + i]'(by omega), rd_ok (by omega), ?_⟩
    rw [List.getElem?_drop, List.getElem?_eq_getElem (by omega)]
  obtain ⟨b0, r0, g0⟩ := r 0 (by omega)
  obtain ⟨b1, r1, g1⟩ := r 1 (by omega)
  obtain ⟨b2, r2, g2⟩ := r 2 (by omega)
  obtain ⟨b3, r3, g3⟩ := r 3 (by omega)
  have ht : (hash.drop o).take 4 = [b0, b1, b2, b3] := by
    apply List.ext_getElem?
    intro i
    rw [List.getElem?_take]
    rcases i with _ | _ | _ | _ | i
    · simpa using g0
    · simpa using g1
    · simpa using g2
    · simpa using g3
    · simp only [List.getElem?_cons_succ, List.getElem?_nil]; exact if_neg (by omega)
  have l0 := b0.isLt
  have l1 := b1.isLt
  have l2 := b2.isLt
  have l3 := b3.isLt
  have n0 := shl8_or 0#32 b0 (by decide)
  rw [show (0#32).toNat = 0 from rfl] at n0
  have n1 := shl8_or _ b1 (by rw [n0]; omega)
  have n2 := shl8_or _ b2 (by rw [n1, n0]; omega)
  have n3 := shl8_or _ b3 (by rw [n2, n1, n0]; omega)
  have f4 : ∀ f : Nat → W32 → C W32, forN 4 f 0#32 = (((f 0 0#32 >>= f 1) >>= f 2) >>= f 3) := fun f => rfl
  rw [f4]
  simp only [bind_ok, r0, r1, r2, r3]
  refine ⟨_, rfl, ?_⟩
  rw [hd, ht, natBE4, BitVec.toNat_ushiftRight, BitVec.toNat_shiftLeft, n3, n2, n1, n0, Nat.shiftLeft_eq,
    Nat.shiftRight_eq_div_pow]
  omega

/-- The offset selects bytes beyond the end. -/
theorem dynTruncate_oob (hash : List Byte) (h0 : 0 < hash.length) (hl : hash.length < 2 ^ 64)
    (h4 : ¬ (hash.getLastD 0#8).toNat % 16 + 4 ≤ hash.length) :
    dynTruncate hash hash.length = .error .oobRead := by
  have e1 : (hash.length + 2 ^ 64 - 1) % 2 ^ 64 = hash.length - 1 := by omega
  have elast : hash.getLastD 0#8 = hash[hash.length - 1]'(by omega) := by
    rw [List.getLastD_eq_getLast?, List.getLast?_eq_getElem?, List.getElem?_eq_getElem (by omega)]; rfl
  have eo : (hash[hash.length - 1]'(by omega) &&& 0x0F#8).toNat = (hash.getLastD 0#8).toNat % 16 := by
    rw [elast, BitVec.toNat_and]; exact Nat.and_two_pow_sub_one_eq_mod _ 4
  rw [dynTruncate, e1, rd_ok (by omega), bind_ok]
  simp only [eo]
  generalize (hash.getLastD 0#8).toNat % 16 = o at h4
  have f4 : ∀ f : Nat → W32 → C W32, forN 4 f 0#32 = (((f 0 0#32 >>= f 1) >>= f 2) >>= f 3) := fun f => rfl
  rw [f4]
  have r3 : rd hash (o + 3) = .error .oobRead := by rw [rd, List.getElem?_eq_none (by omega)]
  have r : ∀ i, rd hash i = .error .oobRead ∨ ∃ b, rd hash i = .ok b := by
    intro i
    rw [rd]; split
    · exact .inr ⟨_, rfl⟩
    · exact .inl rfl
  rcases r (o + 0) with r0 | ⟨_, r0⟩ <;> rcases r (o + 1) with r1 | ⟨_, r1⟩ <;> rcases r (o + 2) with r2 | ⟨_, r2⟩ <;>
    simp only [bind_ok, bind_err, r0, r1, r2, r3]

/-- The low 31 bits. -/
theorem DT_lt (l : List Byte) : DT l < 2 ^ 31 := Nat.mod_lt _ (by decide)

theorem memBytes8_reverse (c : W64) : (memBytes8 c).reverse = bytesBE 8 c.toNat := by
  apply List.ext_getElem?
  intro i
  rw [memBytes8, bytesBE]
  have h : ∀ (k : Nat), (c >>> k).setWidth 8 = BitVec.ofNat 8 (c.toNat / 2 ^ k) := by
    intro k; apply BitVec.eq_of_toNat_eq
    rw [BitVec.toNat_setWidth, BitVec.toNat_ushiftRight, BitVec.toNat_ofNat, Nat.shiftRight_eq_div_pow]
  simp only [h]
  rcases i with _ | _ | _ | _ | _ | _ | _ | _ | i <;> rfl

theorem bytesBE_length (n x : Nat) : (bytesBE n x).length = n := by simp [bytesBE]

/-! ## Decimal digits -/

theorem decDigits_snoc (d n : Nat) :
    decDigits (d + 1) n = decDigits d (n / 10) ++ [BitVec.ofNat 8 (0x30 + n % 10)] := by
  rw [decDigits, decDigits, List.range_succ, List.map_append]
  congr 1
  · apply List.map_congr_left
    intro i hi
    have := List.mem_range.mp hi
    rw [show d + 1 - 1 - i = (d - 1 - i) + 1 by omega, Nat.pow_succ', Nat.div_div_eq_div_mul]
  · simp

theorem decDigits_length (d n : Nat) : (decDigits d n).length = d := by simp [decDigits]

theorem decDigits_cons (d n : Nat) (h : n < 10 ^ d) : decDigits (d + 1) n = 0x30#8 :: decDigits d n := by
  induction d generalizing n with
  | zero =>
    have : n = 0 := by simpa using h
    subst this; rfl
  | succ d ih =>
    rw [decDigits_snoc, ih (n / 10) (by rw [Nat.pow_succ] at h; omega), decDigits_snoc d n, List.cons_append]

theorem stdToString_eq (n : Nat) :
    ∃ k, 1 ≤ k ∧ n < 10 ^ k ∧ (k = 1 ∨ 10 ^ (k - 1) ≤ n) ∧ stdToString n = decDigits k n := by
  induction n using Nat.strongRecOn with
  | _ n ih =>
    by_cases h : n < 10
    · refine ⟨1, Nat.le_refl _, h, .inl rfl, ?_⟩
      rw [stdToString, if_pos h]
      simp [decDigits, Nat.mod_eq_of_lt h]
    · obtain ⟨k, h1, h2, h3, h4⟩ := ih (n / 10) (by omega)
      refine ⟨k + 1, by omega, by rw [Nat.pow_succ]; omega, .inr ?_, by rw [stdToString, if_neg h, h4, decDigits_snoc]⟩
      rcases h3 with rfl | h3
      · simp; omega
      · have : k + 1 - 1 = (k - 1) + 1 := by omega
        rw [this, Nat.pow_succ]; omega

theorem zeroPadLoop_eq (d k n : Nat) (h : n < 10 ^ k) (hk : k ≤ d) : zeroPadLoop d (decDigits k n) = decDigits d n := by
  obtain ⟨m, rfl⟩ : ∃ m, d = k + m := ⟨d - k, by omega⟩
  clear hk
  induction m generalizing k with
  | zero => rw [zeroPadLoop, decDigits_length, if_neg (by omega)]; rfl
  | succ m ih =>
    rw [zeroPadLoop, decDigits_length, if_pos (by omega), ← decDigits_cons k n h]
    have := ih (k + 1) (by rw [Nat.pow_succ]; omega)
    rwa [show k + 1 + m = k + (m + 1) by omega] at this

theorem generateStr_eq (v d : Nat) (h0 : 1 ≤ d) (h : v < 10 ^ d) : generateStr v d = decDigits d v := by
  obtain ⟨k, h1, h2, h3, h4⟩ := stdToString_eq v
  rw [generateStr, h4, zeroPadLoop_eq d k v h2]
  rcases h3 with rfl | h3
  · exact h0
  · have : k - 1 < d := (Nat.pow_lt_pow_iff_right (by decide : 1 < 10)).mp (Nat.lt_of_le_of_lt h3 h)
    omega

theorem decVal_decDigits (d n : Nat) : decVal (decDigits d n) = n % 10 ^ d := by
  induction d generalizing n with
  | zero => simp [decDigits, decVal, Nat.mod_one]
  | succ d ih =>
    rw [decDigits_snoc, decVal, List.foldl_append]
    have := ih (n / 10)
    rw [decVal] at this
    rw [this, List.foldl_cons, List.foldl_nil, BitVec.toNat_ofNat, Nat.mod_eq_of_lt (a := 48 + n % 10) (by omega),
      Nat.pow_succ', Nat.mod_mul]
    omega

theorem decDigits_isDigit (d n : Nat) (b : Byte) (h : b ∈ decDigits d n) : 0x30#8 ≤ b ∧ b ≤ 0x39#8 := by
  rw [decDigits] at h
  obtain ⟨i, _, rfl⟩ := List.mem_map.mp h
  generalize n / 10 ^ (d - 1 - i) = x
  have : x % 10 < 10 := Nat.mod_lt _ (by decide)
  generalize x % 10 = y at this
  have e : (BitVec.ofNat 8 (48 + y)).toNat = 48 + y := by rw [BitVec.toNat_ofNat]; omega
  rw [BitVec.le_def, BitVec.le_def, e]
  show 48 ≤ _ ∧ _ ≤ 57
  omega

theorem otpToStringLoop_ok (d n : Nat) (q : List Byte) : ∀ p : List Byte, p.length = d →
    otpToStringLoop d n (p ++ q) = .ok (decDigits d n ++ q) := by
  induction d generalizing n q with
  | zero => intro p hp; rw [List.length_eq_zero_iff.mp hp]; rfl
  | succ d ih =>
    intro p hp
    obtain ⟨p', x, rfl⟩ : ∃ p' x, p = p' ++ [x] := by
      rcases List.eq_nil_or_concat p with rfl | ⟨a, b, rfl⟩
      · simp at hp
      · exact ⟨a, b, by simp⟩
    have hl : p'.length = d := by simpa using hp
    rw [otpToStringLoop, List.append_assoc]
    have h := wr_append p' q x (BitVec.ofNat 8 (n % 10 + 0x30))
    rw [hl] at h
    rw [show [x] ++ q = x :: q from rfl, h, bind_ok, ih _ _ p' hl, decDigits_snoc, List.append_assoc, Nat.add_comm (n % 10)]
    rfl

theorem otpToString_ok (otp : W32) (d : Nat) (cs : List Byte) (h : d < cs.length) :
    otpToString otp cs d = .ok (decDigits d otp.toNat ++ 0#8 :: cs.drop (d + 1)) := by
  rw [otpToString]
  have e : cs = cs.take d ++ cs.drop d := (List.take_append_drop d cs).symm
  have hl : (cs.take d).length = d := by rw [List.length_take]; omega
  have h1 := otpToStringLoop_ok d otp.toNat (cs.drop d) (cs.take d) hl
  rw [← e] at h1
  rw [h1, bind_ok, List.drop_eq_getElem_cons h]
  have h2 := wr_append (decDigits d otp.toNat) (cs.drop (d + 1)) cs[d] 0#8
  rwa [decDigits_length] at h2

end Pgfe.Proofs.Otp
