import Verif.Proofs.BaseEncode
/-! The decoders. -/
namespace Pgfe.Proofs
open Pgfe.Model Pgfe.Spec

/-- The character values each decoder recognises. -/
def codeOf : BaseAlg → Byte → Option Nat
  | .base16 => code16
  | .base32 => code32
  | .base32hex => code32Hex
  | .base64 | .base64url => code64

def codeOk (al : BaseAlg) (c : Byte) : Bool :=
  match codeOf al c with
  | some v => (al.charFn c &&& 0xC0#8 != unknownCode) &&
      ((al.charFn c &&& mkmask al.params.bitSize).setWidth 64 == BitVec.ofNat 64 v) &&
      decide (v < 2 ^ (specOf al).bits)
  | none => al.charFn c &&& 0xC0#8 == unknownCode

theorem codeOk_all (al : BaseAlg) : ∀ c, codeOk al c = true := by
  cases al
  · decide +kernel
  · decide +kernel
  · decide +kernel
  · decide +kernel
  · decide +kernel

theorem code_none (al : BaseAlg) (c : Byte) (h : codeOf al c = none) :
    al.charFn c &&& 0xC0#8 = unknownCode := by
  have := codeOk_all al c
  simp only [codeOk, h] at this
  simpa using this

theorem code_some (al : BaseAlg) (c : Byte) (v : Nat) (h : codeOf al c = some v) :
    ¬ (al.charFn c &&& 0xC0#8 = unknownCode) ∧
    (al.charFn c &&& mkmask al.params.bitSize).setWidth 64 = BitVec.ofNat 64 v ∧
    v < 2 ^ (specOf al).bits := by
  have := codeOk_all al c
  simp only [codeOk, h] at this
  simp only [Bool.and_eq_true, bne_iff_ne, beq_iff_eq, decide_eq_true_eq] at this
  exact ⟨this.1.1, this.1.2, this.2⟩

variable {B : BaseSpec}

/-- The bits of a sequence of character values. -/
def vbits (B : BaseSpec) (vs : List Nat) : List Bool := vs.flatMap (natBits B.bits)

theorem vbits_length (vs : List Nat) : (vbits B vs).length = vs.length * B.bits := by
  induction vs with
  | nil => simp [vbits]
  | cons v vs ih =>
    have : vbits B (v :: vs) = natBits B.bits v ++ vbits B vs := rfl
    rw [this, List.length_append, ih, natBits_length, List.length_cons, Nat.succ_mul, Nat.add_comm]

theorem vbits_append (a b : List Nat) : vbits B (a ++ b) = vbits B a ++ vbits B b := by
  simp [vbits]

theorem bytes_def (vs : List Nat) : B.bytes vs = (List.range (vs.length * B.bits / 8)).map
    (fun j => BitVec.ofNat 8 (ofBits (slice (vbits B vs) (8 * j) 8))) := rfl

theorem bytes_length (vs : List Nat) : (B.bytes vs).length = vs.length * B.bits / 8 := by
  simp [bytes_def]

theorem bytes_append (hB : Good B) (g vs : List Nat) (hg : g.length = B.chars) :
    B.bytes (g ++ vs) = B.bytes g ++ B.bytes vs := by
  have hlg : (vbits B g).length = 8 * B.unit := by rw [vbits_length, hg, hB.eq]
  rw [bytes_def, bytes_def, bytes_def, vbits_append]
  have e1 : (g ++ vs).length * B.bits / 8 = B.unit + vs.length * B.bits / 8 := by
    rw [List.length_append, hg, Nat.add_mul, hB.eq, Nat.mul_comm 8, Nat.add_comm,
      Nat.add_mul_div_right _ _ (by decide), Nat.add_comm]
  have e2 : g.length * B.bits / 8 = B.unit := by
    rw [hg, hB.eq, Nat.mul_div_cancel_left _ (by decide)]
  rw [e1, e2, List.range_add, List.map_append, List.map_map]
  congr 1
  · apply List.map_congr_left
    intro j hj
    have hj := List.mem_range.mp hj
    rw [slice_append_left]
    omega
  · apply List.map_congr_left
    intro j hj
    simp only [Function.comp]
    rw [slice_append_right _ _ _ _ (by omega), hlg]
    congr 3; omega

theorem ofBits_slice (l : List Bool) (s n : Nat) (h : s + n ≤ l.length) :
    ofBits (slice l s n) = ofBits l / 2 ^ (l.length - s - n) % 2 ^ n := by
  have hl : l = l.take s ++ (slice l s n ++ l.drop (s + n)) := by
    rw [slice_eq l s n h, ← List.drop_drop, List.take_append_drop, List.take_append_drop]
  have hlen : (l.drop (s + n)).length = l.length - s - n := by rw [List.length_drop]; omega
  conv => rhs; rw [hl]
  rw [ofBits_append, ofBits_append]
  rw [← hl, List.length_append, hlen, slice_length]
  have h1 := ofBits_lt (slice l s n)
  have h2 := ofBits_lt (l.drop (s + n))
  rw [slice_length] at h1
  rw [hlen] at h2
  generalize ofBits (slice l s n) = S at *
  generalize ofBits (l.drop (s + n)) = R at *
  generalize ofBits (l.take s) = A at *
  generalize l.length - s - n = k at *
  have hk : 0 < 2 ^ k := Nat.pow_pos (by decide)
  rw [show A * 2 ^ (n + k) + (S * 2 ^ k + R) = R + 2 ^ k * (S + A * 2 ^ n) by
    rw [Nat.pow_add, Nat.mul_add, Nat.mul_comm (2 ^ k) S]
    have : A * (2 ^ n * 2 ^ k) = 2 ^ k * (A * 2 ^ n) := by
      rw [← Nat.mul_assoc, Nat.mul_comm]
    omega]
  rw [Nat.add_mul_div_left _ _ hk, Nat.div_eq_of_lt h2, Nat.zero_add, Nat.add_mul_mod_self_right,
    Nat.mod_eq_of_lt h1]

theorem ofBits_vbits_snoc (vs : List Nat) (v : Nat) (hv : v < 2 ^ B.bits) :
    ofBits (vbits B (vs ++ [v])) = ofBits (vbits B vs) * 2 ^ B.bits + v := by
  rw [vbits_append, ofBits_append]
  have : vbits B [v] = natBits B.bits v := by simp [vbits]
  rw [this, natBits_length, ofBits_natBits, Nat.mod_eq_of_lt hv]

theorem ofBits_vbits_cons (vs : List Nat) (v : Nat) (hv : v < 2 ^ B.bits) :
    ofBits (vbits B (v :: vs)) = v * 2 ^ (B.bits * vs.length) + ofBits (vbits B vs) := by
  have : vbits B (v :: vs) = natBits B.bits v ++ vbits B vs := rfl
  rw [this, ofBits_append, ofBits_natBits, Nat.mod_eq_of_lt hv, vbits_length, Nat.mul_comm B.bits]

theorem ofBits_vbits_zeros (vs : List Nat) (k : Nat) :
    ofBits (vbits B (vs ++ List.replicate k 0)) = ofBits (vbits B vs) * 2 ^ (B.bits * k) := by
  induction k with
  | zero => simp
  | succ k ih =>
    rw [show List.replicate (k + 1) 0 = List.replicate k 0 ++ [0] from List.replicate_succ',
      ← List.append_assoc, ofBits_vbits_snoc _ _ (Nat.pow_pos (by decide)), ih, Nat.add_zero,
      Nat.mul_assoc, ← Nat.pow_add, Nat.mul_succ]

/-- One accumulation step of the decoder. -/
theorem acc_step (u : W64) (k v : Nat) (hk : k ≤ 8) (hv : v < 2 ^ k) :
    ((u <<< k) ||| BitVec.ofNat 64 v).toNat = (u.toNat * 2 ^ k + v) % 2 ^ 64 := by
  have hv64 : v < 2 ^ 64 := Nat.lt_of_lt_of_le hv (Nat.pow_le_pow_right (by decide) (by omega))
  rw [BitVec.toNat_or, BitVec.toNat_shiftLeft, BitVec.toNat_ofNat, Nat.mod_eq_of_lt hv64]
  have e : u.toNat <<< k % 2 ^ 64 = (u.toNat % 2 ^ (64 - k)) <<< k := by
    rw [Nat.shiftLeft_eq, Nat.shiftLeft_eq]
    conv => lhs; rw [show (2 : Nat) ^ 64 = 2 ^ (64 - k) * 2 ^ k by rw [← Nat.pow_add]; congr 1; omega]
    rw [Nat.mul_mod_mul_right]
  rw [e, ← Nat.shiftLeft_add_eq_or_of_lt hv, ← e, Nat.shiftLeft_eq]
  have h64 : (2 : Nat) ^ 64 = 2 ^ (64 - k) * 2 ^ k := by rw [← Nat.pow_add]; congr 1; omega
  rw [← Nat.mod_add_mod (u.toNat * 2 ^ k) (2 ^ 64) v]
  symm
  apply Nat.mod_eq_of_lt
  rw [h64, Nat.mul_mod_mul_right]
  have h1 : u.toNat % 2 ^ (64 - k) < 2 ^ (64 - k) := Nat.mod_lt _ (Nat.pow_pos (by decide))
  calc _ < u.toNat % 2 ^ (64 - k) * 2 ^ k + 2 ^ k := by omega
    _ = (u.toNat % 2 ^ (64 - k) + 1) * 2 ^ k := by rw [Nat.add_mul, Nat.one_mul]
    _ ≤ 2 ^ (64 - k) * 2 ^ k := Nat.mul_le_mul_right _ h1

/-- The inner loop consumes up to one group of valued characters. -/
theorem decGroup_spec (al : BaseAlg) (s rest : List Byte) (hs : 0#8 ∉ s) :
    ∀ (i : Nat) (u : W64), i ≤ (specOf al).chars → ∃ s1 s2 u',
      s = s1 ++ s2 ∧
      decGroup al.params al.charFn (s ++ 0#8 :: rest) i u
        = .ok (s2 ++ 0#8 :: rest, i + (s1.filterMap (codeOf al)).length, u') ∧
      u'.toNat = (u.toNat * 2 ^ ((specOf al).bits * (s1.filterMap (codeOf al)).length)
        + ofBits (vbits (specOf al) (s1.filterMap (codeOf al)))) % 2 ^ 64 ∧
      i + (s1.filterMap (codeOf al)).length ≤ (specOf al).chars ∧
      (s2 = [] ∨ i + (s1.filterMap (codeOf al)).length = (specOf al).chars) ∧
      (i + (s1.filterMap (codeOf al)).length = (specOf al).chars →
        s1 = [] ∨ lastForeign (codeOf al) s1 = false) := by
  obtain ⟨p1, p2, p3⟩ := params_eq al
  induction s with
  | nil =>
    intro i u hi
    refine ⟨[], [], u, rfl, ?_, ?_, by simpa using hi, .inl rfl, fun _ => .inl rfl⟩
    · simp [decGroup]
    · simp [vbits, ofBits, Nat.mod_eq_of_lt u.isLt]
  | cons c s ih =>
    intro i u hi
    have hc : c ≠ 0#8 := fun e => hs (by simp [e])
    have hs' : 0#8 ∉ s := fun h => hs (List.mem_cons_of_mem _ h)
    by_cases hfull : i = (specOf al).chars
    · refine ⟨[], c :: s, u, rfl, ?_, ?_, by simpa using hi, .inr (by simpa using hfull),
        fun _ => .inl rfl⟩
      · rw [List.cons_append, decGroup, if_pos]
        · rfl
        · right; rw [p1]; omega
      · simp [vbits, ofBits, Nat.mod_eq_of_lt u.isLt]
    · have hcond : ¬ (c = 0#8 ∨ ¬ i < al.params.chunkCount) := by
        rintro (h | h)
        · exact hc h
        · rw [p1] at h; omega
      cases hv : codeOf al c with
      | none =>
        obtain ⟨s1, s2, u', h1, h2, h3, h4, h5, h6⟩ := ih hs' i u hi
        refine ⟨c :: s1, s2, u', by rw [h1]; rfl, ?_, ?_, ?_, ?_, ?_⟩
        · rw [List.cons_append, decGroup, if_neg hcond]
          dsimp only
          rw [if_pos (code_none al c hv), h2, List.filterMap_cons_none hv]
        · rw [List.filterMap_cons_none hv]; exact h3
        · rw [List.filterMap_cons_none hv]; exact h4
        · rw [List.filterMap_cons_none hv]; exact h5
        · rw [List.filterMap_cons_none hv]
          intro h
          right
          rcases h6 h with h7 | h7
          · subst h7; simp at h; exact absurd h hfull
          · cases s1 with
            | nil => simp at h; exact absurd h hfull
            | cons a t =>
              have : lastForeign (codeOf al) (c :: a :: t) = lastForeign (codeOf al) (a :: t) := by
                simp [lastForeign, List.getLast?_cons]
              rw [this]; exact h7
      | some v =>
        obtain ⟨q1, q2, q3⟩ := code_some al c v hv
        obtain ⟨s1, s2, u', h1, h2, h3, h4, h5, h6⟩ := ih hs' (i + 1)
          ((u <<< al.params.bitSize) ||| BitVec.ofNat 64 v) (by omega)
        refine ⟨c :: s1, s2, u', by rw [h1]; rfl, ?_, ?_, ?_, ?_, ?_⟩
        · rw [List.cons_append, decGroup, if_neg hcond]
          dsimp only
          rw [if_neg q1, q2, h2, List.filterMap_cons_some hv, List.length_cons,
            Nat.add_assoc i 1, Nat.add_comm 1]
        · rw [h3, p3, acc_step u _ v (good al).bits_le q3, List.filterMap_cons_some hv,
            ofBits_vbits_cons _ _ q3, List.length_cons]
          rw [Nat.add_mod, Nat.mod_mul_mod, ← Nat.add_mod]
          congr 1
          rw [Nat.add_mul, Nat.mul_assoc, ← Nat.pow_add, Nat.mul_succ, Nat.add_assoc,
            Nat.add_comm ((specOf al).bits) _]
        · rw [List.filterMap_cons_some hv, List.length_cons]; omega
        · rw [List.filterMap_cons_some hv, List.length_cons]
          rcases h5 with h | h
          · exact .inl h
          · right; rw [← h]; omega
        · rw [List.filterMap_cons_some hv, List.length_cons]
          intro h
          right
          have h' : i + 1 + (s1.filterMap (codeOf al)).length = (specOf al).chars := by omega
          cases s1 with
          | nil => simp [lastForeign, hv]
          | cons a t =>
            have : lastForeign (codeOf al) (c :: a :: t) = lastForeign (codeOf al) (a :: t) := by
              simp [lastForeign, List.getLast?_cons]
            rw [this]
            rcases h6 h' with h7 | h7
            · simp at h7
            · exact h7

/-- The bytes of a unit are the bytes of the group accumulated in `u`. -/
theorem unitBytes_eq (al : BaseAlg) (u : W64) (g : List Nat) (hg : g.length = (specOf al).chars)
    (A : Nat) (hu : u.toNat = (A * 2 ^ ((specOf al).bits * (specOf al).chars)
      + ofBits (vbits (specOf al) g)) % 2 ^ 64) :
    unitBytes al.params u = (specOf al).bytes g := by
  obtain ⟨p1, p2, p3⟩ := params_eq al
  have hB := good al
  have hl : (vbits (specOf al) g).length = 8 * (specOf al).unit := by rw [vbits_length, hg, hB.eq]
  have hlt := ofBits_lt (vbits (specOf al) g)
  rw [hl] at hlt
  have h64 : 8 * (specOf al).unit ≤ 64 := by cases al <;> decide
  unfold unitBytes
  rw [bytes_def, hg, hB.eq, Nat.mul_div_cancel_left _ (by decide), p2]
  apply List.map_congr_left
  intro j hj
  have hj := List.mem_range.mp hj
  apply BitVec.eq_of_toNat_eq
  rw [ofBits_slice _ _ _ (by rw [hl]; omega), hl]
  rw [Nat.mul_comm (specOf al).bits, hB.eq] at hu
  rw [BitVec.toNat_setWidth, BitVec.toNat_and, BitVec.toNat_ushiftRight, BitVec.toNat_ofNat, hu,
    Nat.shiftRight_eq_div_pow]
  generalize ofBits (vbits (specOf al) g) = N at *
  generalize (specOf al).unit = n at *
  have e1 : 8 * n - 8 * j - 8 = 8 * (n - j - 1) := by omega
  rw [e1]
  generalize hm : n - j - 1 = m at *
  have hmn : 8 * m + 8 ≤ 8 * n := by omega
  have : 255 % 2 ^ 64 = 2 ^ 8 - 1 := by decide
  rw [this, Nat.and_two_pow_sub_one_eq_mod]
  rw [show (2 : Nat) ^ 64 = 2 ^ (8 * m) * 2 ^ (64 - 8 * m) by rw [← Nat.pow_add]; congr 1; omega]
  rw [Nat.mod_mul_right_div_self]
  rw [Nat.mod_mod_of_dvd _ (Nat.pow_dvd_pow 2 (by omega : 8 ≤ 64 - 8 * m))]
  congr 1
  rw [show A * 2 ^ (8 * n) + N = N + 2 ^ (8 * m) * (2 ^ 8 * (A * 2 ^ (8 * n - 8 * m - 8))) by
    rw [Nat.add_comm]; congr 1
    rw [← Nat.mul_assoc, ← Nat.pow_add, Nat.mul_left_comm, ← Nat.pow_add]
    congr 2; omega]
  rw [Nat.add_mul_div_left _ _ (Nat.pow_pos (by decide)), Nat.add_mul_mod_self_left]

/-! ### Structure of `rawDecode` -/

variable {code : Byte → Option Nat}

theorem groups_last (hB : Good B) (s1 : List Byte)
    (hle : (s1.filterMap code).length ≤ B.chars)
    (hfull : (s1.filterMap code).length = B.chars → lastForeign code s1 = false)
    (hnone : (s1.filterMap code).length = 0 → lastForeign code s1 = true) :
    B.groups code s1 = 1 := by
  have hp := hB.chars_pos
  unfold BaseSpec.groups
  by_cases h : (s1.filterMap code).length = B.chars
  · rw [h, hfull h, Nat.div_self hp, Nat.mod_self]; simp
  · have hlt : (s1.filterMap code).length < B.chars := by omega
    rw [Nat.div_eq_of_lt hlt, Nat.mod_eq_of_lt hlt]
    by_cases hz : (s1.filterMap code).length = 0
    · rw [hnone hz]; simp
    · simp [hz]

theorem groups_cons (hB : Good B) (s1 s2 : List Byte) (h2 : s2 ≠ [])
    (h : (s1.filterMap code).length = B.chars) :
    B.groups code (s1 ++ s2) = 1 + B.groups code s2 := by
  have hp := hB.chars_pos
  unfold BaseSpec.groups
  have : lastForeign code (s1 ++ s2) = lastForeign code s2 := by
    unfold lastForeign
    rw [List.getLast?_append, List.getLast?_eq_some_getLast h2]
    rfl
  rw [this, List.filterMap_append, List.length_append, h, Nat.add_div_left _ hp, Nat.add_mod_left]
  omega

theorem groups_ge (hB : Good B) (s : List Byte) (h : s ≠ []) :
    1 ≤ B.groups code s ∧ (s.filterMap code).length ≤ B.groups code s * B.chars := by
  have hp := hB.chars_pos
  have h1 := Nat.div_add_mod (s.filterMap code).length B.chars
  have h2 := Nat.mod_lt (s.filterMap code).length hp
  unfold BaseSpec.groups
  rw [Nat.mul_comm] at h1
  by_cases hr : (s.filterMap code).length % B.chars = 0
  · constructor
    · by_cases hz : (s.filterMap code).length = 0
      · have : lastForeign code s = true := by
          unfold lastForeign
          rw [List.getLast?_eq_some_getLast h]
          dsimp only
          have hmem : s.getLast h ∈ s := List.getLast_mem h
          have hnil : s.filterMap code = [] := List.eq_nil_of_length_eq_zero hz
          rw [List.filterMap_eq_nil_iff.mp hnil _ hmem]; rfl
        rw [this]; simp
      · have : 0 < (s.filterMap code).length / B.chars := by
          apply Nat.div_pos _ hp
          by_cases hlt : (s.filterMap code).length < B.chars
          · rw [Nat.mod_eq_of_lt hlt] at hr; omega
          · omega
        omega
    · rw [Nat.add_mul]; omega
  · constructor
    · simp [hr]
    · rw [if_pos (.inl hr), Nat.add_mul]; omega

theorem rawDecode_length (hB : Good B) (s : List Byte) (h : s ≠ []) :
    (B.rawDecode code s).length = B.groups code s * B.unit := by
  have := (groups_ge (code := code) hB s h).2
  unfold BaseSpec.rawDecode
  rw [bytes_length, List.length_append, List.length_replicate,
    show (s.filterMap code).length + (B.groups code s * B.chars - (s.filterMap code).length)
      = B.groups code s * B.chars by omega, Nat.mul_assoc, hB.eq, Nat.mul_left_comm,
    Nat.mul_div_cancel_left _ (by decide)]

theorem rawDecode_cons (hB : Good B) (s1 s2 : List Byte) (h2 : s2 ≠ [])
    (h : (s1.filterMap code).length = B.chars) :
    B.rawDecode code (s1 ++ s2) = B.bytes (s1.filterMap code) ++ B.rawDecode code s2 := by
  unfold BaseSpec.rawDecode
  rw [groups_cons hB s1 s2 h2 h, List.filterMap_append, List.append_assoc, bytes_append hB _ _ h]
  congr 4
  rw [List.length_append, h, Nat.add_mul, Nat.one_mul]; omega

/-- The last unit of the decoder's raw output. -/
def lastUnit (B : BaseSpec) (code : Byte → Option Nat) (s : List Byte) : List Byte :=
  (B.rawDecode code s).drop ((B.groups code s - 1) * B.unit)

theorem lastUnit_cons (hB : Good B) (s1 s2 : List Byte) (h2 : s2 ≠ [])
    (h : (s1.filterMap code).length = B.chars) :
    lastUnit B code (s1 ++ s2) = lastUnit B code s2 := by
  unfold lastUnit
  rw [rawDecode_cons hB s1 s2 h2 h, groups_cons hB s1 s2 h2 h]
  have h1 := (groups_ge (code := code) hB s2 h2).1
  have hl : (B.bytes (s1.filterMap code)).length = B.unit := by
    rw [bytes_length, h, hB.eq, Nat.mul_div_cancel_left _ (by decide)]
  have e : (1 + B.groups code s2 - 1) * B.unit = B.unit + (B.groups code s2 - 1) * B.unit := by
    rw [show 1 + B.groups code s2 - 1 = 1 + (B.groups code s2 - 1) by omega, Nat.add_mul,
      Nat.one_mul]
  rw [e, List.drop_append, hl, List.drop_eq_nil_of_le (by rw [hl]; omega), Nat.add_sub_cancel_left]
  rfl

/-- The outer loop of the decoder. -/
theorem decLoop_spec (al : BaseAlg) (rest : List Byte) : ∀ (n : Nat) (s : List Byte),
    s.length ≤ n → s ≠ [] → 0#8 ∉ s → ∀ (fuel : Nat) (u : W64) (p q : List Byte)
    (o : Option (List Byte)), s.length < fuel →
    ((specOf al).rawDecode (codeOf al) s).length ≤ q.length →
    decLoop al.params al.charFn fuel (s ++ 0#8 :: rest) u p.length (p ++ q) o
      = .ok (p.length + ((specOf al).rawDecode (codeOf al) s).length,
          p ++ (specOf al).rawDecode (codeOf al) s
            ++ q.drop ((specOf al).rawDecode (codeOf al) s).length,
          some (lastUnit (specOf al) (codeOf al) s)) := by
  have hB := good al
  obtain ⟨p1, p2, p3⟩ := params_eq al
  intro n
  induction n with
  | zero =>
    intro s h1 h2
    exact absurd (List.eq_nil_of_length_eq_zero (by omega)) h2
  | succ n ih =>
    intro s hn hne hs fuel u p q o hf hq
    obtain ⟨f, rfl⟩ : ∃ f, fuel = f + 1 := ⟨fuel - 1, by omega⟩
    obtain ⟨s1, s2, u', h1, h2, h3, h4, h5, h6⟩ := decGroup_spec al s rest hs 0 u (by omega)
    simp only [Nat.zero_add] at h2 h4 h5 h6
    -- the first iteration consumes a non-empty part
    have hs1 : s1 ≠ [] := by
      rintro rfl
      rcases h5 with h | h
      · subst h; exact hne h1
      · simp at h
        have := hB.chars_pos
        omega
    obtain ⟨c, t, hct⟩ : ∃ c t, s = c :: t := by
      cases s with
      | nil => exact absurd rfl hne
      | cons c t => exact ⟨c, t, rfl⟩
    have hc : c ≠ 0#8 := fun e => hs (by simp [hct, e])
    have hstep : ∀ K, decLoop al.params al.charFn (f + 1) (s ++ 0#8 :: rest) u p.length (p ++ q) o
        = K ↔ (do
          let (sp, i, u) ← decGroup al.params al.charFn (s ++ 0#8 :: rest) 0 u
          let c' ← rd sp 0
          let u := if c' = 0#8 ∧ i < al.params.chunkCount
            then u <<< (al.params.bitSize * (al.params.chunkCount - i)) else u
          let unit := unitBytes al.params u
          let out ← wrs (p ++ q) p.length unit
          decLoop al.params al.charFn f sp u (p.length + al.params.unitSize) out (some unit)) = K := by
      intro K
      rw [hct, List.cons_append, decLoop, if_neg hc]
    rw [hstep, h2, bind_ok]
    dsimp only
    by_cases hs2 : s2 = []
    · -- last group
      subst hs2
      have hs1e : s = s1 := by rw [h1, List.append_nil]
      subst hs1e
      have hg1 : (specOf al).groups (codeOf al) s = 1 := by
        apply groups_last hB s h4
        · intro h
          rcases h6 h with h | h
          · exact absurd h hs1
          · exact h
        · intro h
          unfold lastForeign
          rw [List.getLast?_eq_some_getLast hne]
          dsimp only
          rw [List.filterMap_eq_nil_iff.mp (List.eq_nil_of_length_eq_zero h) _ (List.getLast_mem hne)]
          rfl
      have hr0 : rd ([] ++ 0#8 :: rest) 0 = .ok 0#8 := rfl
      rw [hr0, bind_ok]
      have hraw : (specOf al).rawDecode (codeOf al) s = (specOf al).bytes (s.filterMap (codeOf al) ++
          List.replicate ((specOf al).chars - (s.filterMap (codeOf al)).length) 0) := by
        unfold BaseSpec.rawDecode; rw [hg1, Nat.one_mul]
      have hlast : lastUnit (specOf al) (codeOf al) s = (specOf al).rawDecode (codeOf al) s := by
        unfold lastUnit; rw [hg1]; simp
      have hunit : unitBytes al.params (if 0#8 = 0#8 ∧ (s.filterMap (codeOf al)).length < al.params.chunkCount
          then u' <<< (al.params.bitSize * (al.params.chunkCount - (s.filterMap (codeOf al)).length)) else u')
          = (specOf al).rawDecode (codeOf al) s := by
        rw [hraw]
        apply unitBytes_eq al _ _ (by rw [List.length_append, List.length_replicate]; omega) u.toNat
        rw [ofBits_vbits_zeros]
        split
        · rename_i hlt
          rw [BitVec.toNat_shiftLeft, Nat.shiftLeft_eq, h3, p1, p3, Nat.mod_mul_mod]
          congr 1
          rw [Nat.add_mul, Nat.mul_assoc, ← Nat.pow_add, ← Nat.mul_add]
          congr 4
          omega
        · rename_i hlt
          have : (s.filterMap (codeOf al)).length = (specOf al).chars := by
            rw [p1] at hlt
            simp at hlt
            omega
          rw [h3, this]; simp
      rw [hunit]
      have hlen : ((specOf al).rawDecode (codeOf al) s).length = (specOf al).unit := by
        rw [rawDecode_length hB s hne, hg1, Nat.one_mul]
      rw [wrs_ok (by rw [List.length_append]; omega), bind_ok, hlast]
      obtain ⟨f', rfl⟩ : ∃ f', f = f' + 1 := ⟨f - 1, by
        have : 0 < s.length := by rw [hct]; simp
        omega⟩
      rw [List.nil_append, decLoop, if_pos rfl, p2, hlen]
      simp [splice, hlen]
    · have hfull : (s1.filterMap (codeOf al)).length = (specOf al).chars := by
        rcases h5 with h | h
        · exact absurd h hs2
        · exact h
      obtain ⟨d, t2, hd⟩ : ∃ d t2, s2 = d :: t2 := by
        cases s2 with
        | nil => exact absurd rfl hs2
        | cons d t2 => exact ⟨d, t2, rfl⟩
      have hr0 : rd (s2 ++ 0#8 :: rest) 0 = .ok d := by rw [hd]; rfl
      rw [hr0, bind_ok, if_neg (by rw [hfull, p1]; omega)]
      have hunit : unitBytes al.params u' = (specOf al).bytes (s1.filterMap (codeOf al)) := by
        apply unitBytes_eq al _ _ hfull u.toNat
        rw [h3, hfull]
      rw [hunit]
      have hlen : ((specOf al).bytes (s1.filterMap (codeOf al))).length = (specOf al).unit := by
        rw [bytes_length, hfull, hB.eq, Nat.mul_div_cancel_left _ (by decide)]
      have hraw := rawDecode_cons (code := codeOf al) hB s1 s2 hs2 hfull
      rw [h1, hraw, List.length_append] at hq
      rw [wrs_ok (by rw [List.length_append]; omega), bind_ok]
      have hsl : s.length = s1.length + s2.length := by rw [h1, List.length_append]
      have hpos : 0 < s1.length := by
        cases s1 with
        | nil => exact absurd rfl hs1
        | cons => simp
      generalize hG : (specOf al).bytes (s1.filterMap (codeOf al)) = G at *
      have := ih s2 (by omega) hs2 (fun h => hs (by rw [h1]; simp [h])) f u' (p ++ G)
        (q.drop G.length) (some G) (by omega) (by rw [List.length_drop]; omega)
      have e1 : splice (p ++ q) p.length G = (p ++ G) ++ q.drop G.length := by simp [splice]
      rw [e1, p2, show p.length + (specOf al).unit = (p ++ G).length by rw [List.length_append, hlen],
        this]
      conv => rhs; rw [h1, hraw, lastUnit_cons hB s1 s2 hs2 hfull]
      simp only [List.length_append, List.drop_drop, List.append_assoc, Nat.add_assoc]

theorem countLoop_spec (p U q : List Byte) : ∀ (k i : Nat), i + k = U.length →
    countLoop (p ++ (U ++ q)) U p.length k i
      = .ok (i + ((U.drop i).takeWhile (· != 0#8)).length) := by
  intro k
  induction k with
  | zero => intro i h; simp [countLoop, List.drop_eq_nil_of_le (by omega : U.length ≤ i)]
  | succ k ih =>
    intro i h
    have hi : i < U.length := by omega
    have h1 : rd (p ++ (U ++ q)) (p.length + i) = .ok U[i] := by
      rw [rd_ok (by simp; omega)]
      congr 1
      rw [List.getElem_append_right (by omega)]
      simp [hi]
    rw [countLoop, h1, bind_ok, rd_ok hi, bind_ok, List.drop_eq_getElem_cons hi]
    by_cases hz : U[i] = 0#8
    · rw [if_neg (by simp [hz])]
      simp [hz]
    · rw [if_pos ⟨rfl, hz⟩, ih (i + 1) (by omega), List.takeWhile_cons_of_pos (by simpa using hz),
        List.length_cons]
      congr 1; omega

/-- The decoders write `libDecode`, NUL-terminated, and nothing outside `rawDecode` plus one byte. -/
theorem decode_ok (al : BaseAlg) (s rest out : List Byte) (hs : 0#8 ∉ s) (hne : s ≠ [])
    (ho : ((specOf al).rawDecode (codeOf al) s).length + 1 ≤ out.length) :
    ∃ tail, pgfeDecode al (s ++ 0#8 :: rest) out
      = .ok (((specOf al).libDecode (codeOf al) s).length,
          (specOf al).libDecode (codeOf al) s ++ 0#8 :: tail) ∧
      ((specOf al).libDecode (codeOf al) s ++ 0#8 :: tail).length = out.length ∧
      ((specOf al).libDecode (codeOf al) s ++ 0#8 :: tail).drop
          (((specOf al).rawDecode (codeOf al) s).length + 1)
        = out.drop (((specOf al).rawDecode (codeOf al) s).length + 1) := by
  have hB := good al
  obtain ⟨p1, p2, p3⟩ := params_eq al
  have hlen := rawDecode_length (code := codeOf al) hB s hne
  have hg := (groups_ge (code := codeOf al) hB s hne).1
  have hloop := decLoop_spec al rest s.length s (Nat.le_refl _) hne hs
    ((s ++ 0#8 :: rest).length + 1) 0#64 [] out none (by simp; omega) (by omega)
  simp only [List.length_nil, List.nil_append, Nat.zero_add] at hloop
  unfold pgfeDecode decodeBase
  rw [hloop, bind_ok]
  dsimp only
  generalize hA : (specOf al).rawDecode (codeOf al) s = A at *
  generalize hm : ((specOf al).groups (codeOf al) s - 1) * (specOf al).unit = m at *
  have hAl : A.length = m + (specOf al).unit := by
    rw [hlen, ← hm, ← Nat.succ_mul]; congr 1; omega
  have hU : lastUnit (specOf al) (codeOf al) s = A.drop m := by
    unfold lastUnit; rw [hA, hm]
  have hD : (specOf al).libDecode (codeOf al) s = A.take m ++ (A.drop m).takeWhile (· != 0#8) := by
    unfold BaseSpec.libDecode
    rw [hA, hm]
  rw [hU, hD, p2]
  have hUl : (A.drop m).length = (specOf al).unit := by rw [List.length_drop]; omega
  have hAs : A ++ out.drop A.length = A.take m ++ (A.drop m ++ out.drop A.length) := by
    rw [← List.append_assoc, List.take_append_drop]
  have htl : (A.take m).length = m := by rw [List.length_take]; omega
  rw [hAs, show A.length - (specOf al).unit = (A.take m).length by omega,
    countLoop_spec _ _ _ _ 0 (by omega), bind_ok]
  rw [List.drop_zero, Nat.zero_add]
  -- split the last unit at its first zero byte
  generalize hT : (A.drop m).takeWhile (· != 0#8) = T at *
  have hsplit : A.drop m = T ++ (A.drop m).dropWhile (· != 0#8) := by
    rw [← hT, List.takeWhile_append_dropWhile]
  generalize hR : (A.drop m).dropWhile (· != 0#8) = R at *
  have hRl : T.length + R.length = (specOf al).unit := by
    rw [← hUl, hsplit, List.length_append]
  obtain ⟨y, tl, hy⟩ : ∃ y tl, R ++ out.drop A.length = y :: tl := by
    have : 0 < (R ++ out.drop A.length).length := by
      rw [List.length_append, List.length_drop]; omega
    cases h : R ++ out.drop A.length with
    | nil => rw [h] at this; simp at this
    | cons y tl => exact ⟨y, tl, rfl⟩
  have hbuf : A.take m ++ (A.drop m ++ out.drop A.length) = (A.take m ++ T) ++ y :: tl := by
    rw [hsplit, List.append_assoc, hy, List.append_assoc]
  have htll : tl.length + 1 = R.length + (out.length - A.length) := by
    have := congrArg List.length hy
    simp at this; omega
  refine ⟨tl, ?_, ?_, ?_⟩
  · rw [hbuf, show (A.take m).length + T.length = (A.take m ++ T).length by
      rw [List.length_append], wr_append, bind_ok]
  · simp only [List.length_append, List.length_cons, htl]; omega
  · have h1 : (A.take m ++ T ++ 0#8 :: tl).drop (A.length + 1)
        = (0#8 :: tl).drop (R.length + 1) := by
      rw [List.drop_append, List.drop_eq_nil_of_le (by simp only [List.length_append, htl]; omega),
        List.nil_append]
      congr 1
      simp only [List.length_append, htl]; omega
    have h2 : (0#8 :: tl).drop (R.length + 1) = (y :: tl).drop (R.length + 1) := rfl
    rw [h1, h2, ← hy, List.drop_append, List.drop_eq_nil_of_le (by omega), List.nil_append,
      Nat.add_sub_cancel_left, List.drop_drop]

end Pgfe.Proofs
