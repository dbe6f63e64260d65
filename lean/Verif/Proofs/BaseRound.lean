import Verif.Proofs.BaseDecode
/-! Round trips between encoder and decoder texts. -/
namespace Pgfe.Proofs
open Pgfe.Model Pgfe.Spec

variable {B : BaseSpec}

theorem vbits_digits_unit (hB : Good B) (u : List Byte) (hu : u.length = B.unit) :
    vbits B (B.digits u) = bitsOf u := by
  have hl : (bitsOf u).length = B.chars * B.bits := by rw [bitsOf_length, hu, hB.eq]
  have hd : ((bitsOf u).length + B.bits - 1) / B.bits = B.chars := by
    have := digits_unit_length hB u hu
    rw [digits_length, ← bitsOf_length] at this
    exact this
  conv => rhs; rw [← flatten_slices B.bits B.chars (bitsOf u) hl]
  unfold vbits BaseSpec.digits
  rw [hd, List.flatMap_map, List.flatMap_def]
  congr 1
  apply List.map_congr_left
  intro j _
  have := natBits_ofBits (slice (bitsOf u) (j * B.bits) B.bits)
  rw [slice_length] at this
  exact this

theorem slice_byte (x : List Byte) (j : Nat) (h : j < x.length) :
    ofBits (slice (bitsOf x) (8 * j) 8) = x[j].toNat := by
  have hx : x = x.take j ++ (x[j] :: x.drop (j + 1)) := by
    rw [List.getElem_cons_drop, List.take_append_drop]
  have hl : (bitsOf (x.take j)).length = 8 * j := by
    rw [bitsOf_length, List.length_take]; congr 1; omega
  conv => lhs; rw [hx]
  rw [bitsOf_append, slice_append_right _ _ _ _ (by omega), hl, Nat.sub_self]
  have : bitsOf (x[j] :: x.drop (j + 1)) = bitsOfByte x[j] ++ bitsOf (x.drop (j + 1)) := rfl
  rw [this, slice_append_left _ _ _ _ (by simp), slice_eq _ _ _ (by simp), List.drop_zero,
    List.take_of_length_le (by simp), bitsOfByte_eq, ofBits_natBits, Nat.mod_eq_of_lt (BitVec.isLt _)]

theorem bytes_digits_unit (hB : Good B) (u : List Byte) (hu : u.length = B.unit) :
    B.bytes (B.digits u) = u := by
  rw [bytes_def, vbits_digits_unit hB u hu, digits_unit_length hB u hu, hB.eq,
    Nat.mul_div_cancel_left _ (by decide), ← hu]
  apply List.ext_getElem
  · simp
  · intro i h1 h2
    rw [List.getElem_map, List.getElem_range, slice_byte u i h2]
    simp

theorem digits_nil (hB : Good B) : B.digits [] = [] := by
  apply List.eq_nil_of_length_eq_zero
  rw [digits_length]
  have := hB.bits_pos
  exact Nat.div_eq_of_lt (by simp; omega)

/-- Whole groups decode to themselves. -/
theorem bytes_digits (hB : Good B) (x : List Byte) (hx : x.length % B.unit = 0) :
    B.bytes (B.digits x) = x := by
  revert hx
  refine group_induction (P := fun x => x.length % B.unit = 0 → B.bytes (B.digits x) = x)
    B.unit hB.unit_pos ?_ ?_ ?_ x
  · intro _; rw [digits_nil hB]; simp [bytes_def]
  · intro p h0 hp h
    rw [Nat.mod_eq_of_lt hp] at h
    exact absurd (List.eq_nil_of_length_eq_zero h) h0
  · intro u y hu ih h
    rw [List.length_append, hu, Nat.add_mod_left] at h
    rw [digits_append hB u y hu, bytes_append hB _ _ (digits_unit_length hB u hu),
      bytes_digits_unit hB u hu, ih h]

/-- Number of groups of an `n`-byte string. -/
def ngroups (B : BaseSpec) (n : Nat) : Nat := (n + B.unit - 1) / B.unit

/-- A byte string completed with zero bytes to whole groups. -/
def zpad (B : BaseSpec) (x : List Byte) : List Byte :=
  x ++ List.replicate (ngroups B x.length * B.unit - x.length) 0#8

theorem ngroups_ge (hB : Good B) (n : Nat) : n ≤ ngroups B n * B.unit := by
  have hu := hB.unit_pos
  unfold ngroups
  have h1 := Nat.div_add_mod (n + B.unit - 1) B.unit
  have h2 := Nat.mod_lt (n + B.unit - 1) hu
  rw [Nat.mul_comm] at h1
  omega

theorem ngroups_add (hB : Good B) (n : Nat) : ngroups B (B.unit + n) = 1 + ngroups B n := by
  unfold ngroups
  rw [show B.unit + n + B.unit - 1 = B.unit + (n + B.unit - 1) by have := hB.unit_pos; omega,
    Nat.add_div_left _ hB.unit_pos, Nat.add_comm]

theorem ngroups_partial (hB : Good B) (n : Nat) (h0 : 0 < n) (h : n ≤ B.unit) : ngroups B n = 1 := by
  unfold ngroups
  have hu := hB.unit_pos
  rw [show n + B.unit - 1 = B.unit + (n - 1) by omega, Nat.add_div_left _ hu,
    Nat.div_eq_of_lt (by omega)]

theorem ngroups_zero (hB : Good B) : ngroups B 0 = 0 := by
  unfold ngroups
  have hu := hB.unit_pos
  exact Nat.div_eq_of_lt (by omega)

theorem zpad_length (hB : Good B) (x : List Byte) : (zpad B x).length = ngroups B x.length * B.unit := by
  have := ngroups_ge hB x.length
  simp [zpad]; omega

theorem zpad_mod (hB : Good B) (x : List Byte) : (zpad B x).length % B.unit = 0 := by
  rw [zpad_length hB, Nat.mul_mod_left]

theorem digits_length_whole (hB : Good B) (x : List Byte) (k : Nat) (hx : x.length = k * B.unit) :
    (B.digits x).length = k * B.chars := by
  have hb := hB.bits_pos
  rw [digits_length, hx, show 8 * (k * B.unit) = k * B.chars * B.bits by
    rw [Nat.mul_assoc, hB.eq, Nat.mul_left_comm], Nat.add_sub_assoc (by omega), Nat.add_comm,
    Nat.add_mul_div_right _ _ hb, Nat.div_eq_of_lt (by omega), Nat.zero_add]

/-- The digits of the zero-padded string are the digits followed by zeros. -/
theorem digits_zpad (hB : Good B) (x : List Byte) : B.digits (zpad B x)
    = B.digits x ++ List.replicate (ngroups B x.length * B.chars - (B.digits x).length) 0 := by
  refine group_induction (P := fun x => B.digits (zpad B x)
    = B.digits x ++ List.replicate (ngroups B x.length * B.chars - (B.digits x).length) 0)
    B.unit hB.unit_pos ?_ ?_ ?_ x
  · simp [zpad, ngroups_zero hB, digits_nil hB]
  · intro p h0 hp
    have h1 : 0 < p.length := by
      cases p with
      | nil => exact absurd rfl h0
      | cons => simp
    unfold zpad
    rw [ngroups_partial hB _ h1 (by omega), Nat.one_mul, Nat.one_mul]
    exact digits_zero_pad hB p (by omega)
  · intro u y hu ih
    have e : zpad B (u ++ y) = u ++ zpad B y := by
      unfold zpad
      rw [List.append_assoc, List.length_append, hu, ngroups_add hB, Nat.add_mul, Nat.one_mul,
        Nat.add_sub_add_left]
    rw [e, digits_append hB u _ hu, ih, digits_append hB u y hu, List.append_assoc,
      List.length_append, hu, ngroups_add hB, List.length_append, digits_unit_length hB u hu,
      Nat.add_mul, Nat.one_mul, Nat.add_sub_add_left]

theorem bdigits_le (hB : Good B) (x : List Byte) :
    (B.digits x).length ≤ ngroups B x.length * B.chars := by
  have h := congrArg List.length (digits_zpad hB x)
  rw [digits_length_whole hB _ _ (zpad_length hB x), List.length_append, List.length_replicate] at h
  omega

/-- `ngroups` counted in characters. -/
theorem ngroups_chars (hB : Good B) (n m : Nat) (h1 : (8 * n + B.bits - 1) / B.bits ≤ m)
    (h2 : m ≤ ngroups B n * B.chars) : (m + B.chars - 1) / B.chars = ngroups B n := by
  have hc := hB.chars_pos
  have hb := hB.bits_pos
  have hu := hB.unit_pos
  by_cases hn : n = 0
  · subst hn
    rw [ngroups_zero hB] at h2 ⊢
    simp at h2; subst h2
    exact Nat.div_eq_of_lt (by omega)
  apply Nat.le_antisymm
  · rw [← Nat.lt_succ_iff, Nat.div_lt_iff_lt_mul hc, Nat.succ_mul]; omega
  · -- the previous group is already full
    rw [Nat.le_div_iff_mul_le hc]
    -- 8 n ≤ m * bits, (ngroups - 1) * unit < n
    have h3 : 8 * n ≤ m * B.bits := by
      have := Nat.div_add_mod (8 * n + B.bits - 1) B.bits
      have h4 := Nat.mod_lt (8 * n + B.bits - 1) hb
      have h5 := Nat.mul_le_mul_right B.bits h1
      rw [Nat.mul_comm] at this
      omega
    have hg : 1 ≤ ngroups B n := by unfold ngroups; apply Nat.div_pos <;> omega
    have h6 : (ngroups B n - 1) * B.unit < n := by
      have := Nat.div_mul_le_self (n + B.unit - 1) B.unit
      have e : (ngroups B n - 1) * B.unit + B.unit = ngroups B n * B.unit := by
        rw [← Nat.succ_mul]; congr 1; omega
      have : ngroups B n * B.unit ≤ n + B.unit - 1 := this
      omega
    have h7 : (ngroups B n - 1) * B.chars < m := by
      apply Nat.lt_of_mul_lt_mul_right (a := B.bits)
      rw [Nat.mul_assoc, hB.eq, Nat.mul_left_comm]
      omega
    have e : (ngroups B n - 1) * B.chars + B.chars = ngroups B n * B.chars := by
      rw [← Nat.succ_mul]; congr 1; omega
    omega

variable {code : Byte → Option Nat}

theorem groups_eq_ceil (hB : Good B) (s : List Byte) (h : lastForeign code s = false) :
    B.groups code s = ((s.filterMap code).length + B.chars - 1) / B.chars := by
  have hc := hB.chars_pos
  unfold BaseSpec.groups
  rw [h]
  generalize (s.filterMap code).length = m
  have h1 := Nat.div_add_mod m B.chars
  have h2 := Nat.mod_lt m hc
  generalize hq : m / B.chars = q at *
  generalize hr : m % B.chars = r at *
  symm
  by_cases hm : r = 0
  · subst hm
    rw [if_neg (by simp), Nat.add_zero, ← h1, Nat.add_zero, Nat.add_sub_assoc (by omega),
      Nat.mul_add_div hc, Nat.div_eq_of_lt (by omega), Nat.add_zero]
  · rw [if_pos (.inl hm), ← h1, show B.chars * q + r + B.chars - 1 = B.chars * (q + 1) + (r - 1) by
      rw [Nat.mul_succ]; omega, Nat.mul_add_div hc, Nat.div_eq_of_lt (by omega), Nat.add_zero]

/-- A byte string whose last group is cut at its first zero byte. -/
def cutLast (unit : Nat) (x : List Byte) : List Byte :=
  let n := (x.length - 1) / unit * unit
  x.take n ++ (x.drop n).takeWhile (· != 0#8)

theorem takeWhile_zeros (p : List Byte) (k : Nat) :
    (p ++ List.replicate k 0#8).takeWhile (· != 0#8) = p.takeWhile (· != 0#8) := by
  induction p with
  | nil => cases k <;> simp [List.replicate_succ]
  | cons a p ih =>
    by_cases h : a = 0#8
    · subst h; simp
    · rw [List.cons_append, List.takeWhile_cons_of_pos (by simpa using h),
        List.takeWhile_cons_of_pos (by simpa using h), ih]

/-- A text whose values are the digits of `x` followed by some zeros decodes to `x`, cut. -/
theorem libDecode_of_vals (hB : Good B) (s x : List Byte) (j : Nat) (hx : x ≠ [])
    (hf : lastForeign code s = false)
    (hv : s.filterMap code = B.digits x ++ List.replicate j 0)
    (hj : (B.digits x).length + j ≤ ngroups B x.length * B.chars) :
    B.rawDecode code s = zpad B x ∧ B.libDecode code s = cutLast B.unit x := by
  have hu := hB.unit_pos
  have hx0 : 0 < x.length := by
    cases x with
    | nil => exact absurd rfl hx
    | cons => simp
  have hvl : (s.filterMap code).length = (B.digits x).length + j := by rw [hv]; simp
  have hg : B.groups code s = ngroups B x.length := by
    rw [groups_eq_ceil hB s hf, hvl]
    exact ngroups_chars hB _ _ (by rw [← digits_length]; omega) hj
  have hraw : B.rawDecode code s = zpad B x := by
    unfold BaseSpec.rawDecode
    rw [hg, hvl, hv, List.append_assoc, List.replicate_append_replicate,
      show j + (ngroups B x.length * B.chars - ((B.digits x).length + j))
        = ngroups B x.length * B.chars - (B.digits x).length by omega, ← digits_zpad hB,
      bytes_digits hB _ (zpad_mod hB x)]
  refine ⟨hraw, ?_⟩
  unfold BaseSpec.libDecode cutLast
  rw [hraw, hg]
  have e : ngroups B x.length - 1 = (x.length - 1) / B.unit := by
    unfold ngroups
    rw [show x.length + B.unit - 1 = (x.length - 1) + B.unit by omega, Nat.add_div_right _ hu,
      Nat.succ_sub_one]
  rw [e]
  dsimp only
  have hle : (x.length - 1) / B.unit * B.unit ≤ x.length := by
    have := Nat.div_mul_le_self (x.length - 1) B.unit
    omega
  unfold zpad
  rw [List.take_append_of_le_length hle, List.drop_append_of_le_length hle, takeWhile_zeros]

theorem libDecode_congr (s t : List Byte) (h : s.filterMap code = t.filterMap code)
    (hl : lastForeign code s = lastForeign code t) :
    B.rawDecode code s = B.rawDecode code t ∧ B.libDecode code s = B.libDecode code t := by
  have hg : B.groups code s = B.groups code t := by unfold BaseSpec.groups; rw [h, hl]
  have hr : B.rawDecode code s = B.rawDecode code t := by unfold BaseSpec.rawDecode; rw [h, hg]
  refine ⟨hr, ?_⟩
  unfold BaseSpec.libDecode
  rw [hr, hg]

theorem code_alphabet (al : BaseAlg) (d : Nat) (hd : d < 2 ^ (specOf al).bits) :
    codeOf al ((specOf al).alphabet.getD d 0#8) = some d := by
  cases al
  · exact (by decide +kernel : ∀ d : Fin 16, codeOf .base16 (rfcBase16.alphabet.getD d.1 0#8) = some d.1) ⟨d, hd⟩
  · exact (by decide +kernel : ∀ d : Fin 32, codeOf .base32 (rfcBase32.alphabet.getD d.1 0#8) = some d.1) ⟨d, hd⟩
  · exact (by decide +kernel : ∀ d : Fin 32, codeOf .base32hex (rfcBase32Hex.alphabet.getD d.1 0#8) = some d.1) ⟨d, hd⟩
  · exact (by decide +kernel : ∀ d : Fin 64, codeOf .base64 (rfcBase64.alphabet.getD d.1 0#8) = some d.1) ⟨d, hd⟩
  · exact (by decide +kernel : ∀ d : Fin 64, codeOf .base64url (rfcBase64Url.alphabet.getD d.1 0#8) = some d.1) ⟨d, hd⟩

theorem code_zero_none (al : BaseAlg) : codeOf al 0#8 = none := by cases al <;> decide +kernel
theorem code_pad (al : BaseAlg) (h : al ≠ .base16) : codeOf al padChar = some 0 := by
  cases al <;> first | exact absurd rfl h | decide +kernel

theorem filterMap_alphabet (al : BaseAlg) (x : List Byte) :
    (((specOf al).digits x).map (fun d => (specOf al).alphabet.getD d 0#8)).filterMap (codeOf al)
      = (specOf al).digits x := by
  have := digits_lt_pow (B := specOf al) x
  generalize (specOf al).digits x = l at this
  induction l with
  | nil => rfl
  | cons d l ih =>
    rw [List.map_cons, List.filterMap_cons_some (code_alphabet al d (this d (by simp))),
      ih (fun d hd => this d (by simp [hd]))]

/-- `dropTrailing` only removes trailing copies. -/
theorem dropTrailing_append (z : Byte) (l : List Byte) :
    ∃ k, l = dropTrailing z l ++ List.replicate k z := by
  refine ⟨(l.reverse.takeWhile (· == z)).length, ?_⟩
  unfold dropTrailing
  have h := List.takeWhile_append_dropWhile (p := (· == z)) (l := l.reverse)
  have h2 : l.reverse.takeWhile (· == z) = List.replicate (l.reverse.takeWhile (· == z)).length z := by
    apply List.eq_replicate_iff.mpr
    refine ⟨rfl, fun b hb => ?_⟩
    have h3 := List.all_takeWhile (p := (· == z)) (l := l.reverse)
    rw [List.all_eq_true] at h3
    simpa using h3 b hb
  rw [← List.reverse_inj, List.reverse_append, List.reverse_reverse, List.reverse_replicate, ← h2, h]

theorem all_valued (code : Byte → Option Nat) (s : List Byte)
    (h : ∀ c ∈ s, (code c).isSome) : lastForeign code s = false := by
  unfold lastForeign
  cases hl : s.getLast? with
  | none => rfl
  | some c =>
    dsimp only
    have := h c (List.mem_of_getLast? hl)
    cases hc : code c <;> simp_all

theorem unit16 : (specOf .base16).unit = 1 := by decide

theorem libEncode_rfc {B : BaseSpec} (hB : Good B) (hz : ∀ d, d < 2 ^ B.bits →
      (B.alphabet.getD d 0#8 = B.zeroChar ↔ d = 0)) (x : List Byte) (hpad : B.unit = 1 ∨ B.zeroChar ≠ padChar) :
    B.libEncode x = B.encode x ↔ x.length % B.unit = 0 ∨ (B.digits x).getLast? ≠ some 0 := by
  refine group_induction (P := fun x => B.libEncode x = B.encode x ↔
    x.length % B.unit = 0 ∨ (B.digits x).getLast? ≠ some 0) B.unit hB.unit_pos ?_ ?_ ?_ x
  · simp [libEncode_nil, encode_nil]
  · intro p h0 hp
    have hp0 : 0 < p.length := List.length_pos_iff.mpr h0
    rcases hpad with h1 | hpad
    · omega
    rw [libEncode_partial p h0 hp, Nat.mod_eq_of_lt hp]
    have hd := bdigits_le hB p
    rw [ngroups_partial hB _ hp0 (by omega), Nat.one_mul] at hd
    have hne : 0 < (B.digits p).length := by
      rw [digits_length]
      apply Nat.div_pos _ hB.bits_pos; omega
    have hlt : (B.digits p).length < B.chars ∨ (B.digits p).length = B.chars := by omega
    have hpads : (B.chars - (B.digits p).length % B.chars) % B.chars
        = B.chars - (B.digits p).length := by
      rcases hlt with h | h
      · rw [Nat.mod_eq_of_lt h, Nat.mod_eq_of_lt (by omega)]
      · rw [h, Nat.mod_self]; simp
    unfold BaseSpec.libLast BaseSpec.encode
    rw [hpads]
    dsimp only
    obtain ⟨k, hk⟩ := dropTrailing_append B.zeroChar
      ((B.digits p).map (fun d => B.alphabet.getD d 0#8))
    generalize hT : dropTrailing B.zeroChar ((B.digits p).map (fun d => B.alphabet.getD d 0#8)) = T at *
    have hlen : (B.digits p).length = T.length + k := by
      have := congrArg List.length hk
      simpa using this
    constructor
    · intro h
      right
      intro hl
      -- the last character is the zero character, so k > 0
      have hl2 : ((B.digits p).map (fun d => B.alphabet.getD d 0#8)).getLast? = some B.zeroChar := by
        rw [List.getLast?_map, hl]; rfl
      have hk0 : k ≠ 0 := by
        intro hk0
        subst hk0
        simp only [List.replicate_zero, List.append_nil] at hk
        rw [hk] at hl2
        rw [← hT] at hl2
        unfold dropTrailing at hl2
        rw [List.getLast?_reverse] at hl2
        have := List.head?_dropWhile_not (· == B.zeroChar)
          ((B.digits p).map (fun d => B.alphabet.getD d 0#8)).reverse
        rw [hl2] at this
        simp at this
      rw [hk, List.append_assoc] at h
      have h := List.append_cancel_left h
      have h1 : (List.replicate (B.chars - T.length) padChar)[0]? = some padChar := by
        rw [List.getElem?_replicate]; rw [if_pos (by omega)]
      rw [h, List.getElem?_append_left (by simp; omega), List.getElem?_replicate,
        if_pos (by omega)] at h1
      exact hpad (Option.some.inj h1)
    · rintro (h | h)
      · omega
      have hk0 : k = 0 := by
        apply Classical.byContradiction
        intro hk0
        apply h
        obtain ⟨k', rfl⟩ : ∃ k', k = k' + 1 := ⟨k - 1, by omega⟩
        rw [List.replicate_succ', ← List.append_assoc] at hk
        have hl2 := congrArg List.getLast? hk
        rw [List.getLast?_concat, List.getLast?_map] at hl2
        obtain ⟨d, hd1, hd2⟩ := Option.map_eq_some_iff.mp hl2
        rw [hd1, (hz d (digits_lt_pow p d (List.mem_of_getLast? hd1))).mp hd2]
      subst hk0
      rw [hk]; simp [hlen]
  · intro u y hu ih
    rw [libEncode_append hB u y hu, encode_append hB u y hu, List.append_cancel_left_eq, ih,
      List.length_append, hu, Nat.add_mod_left, digits_append hB u y hu]
    by_cases hy : y = []
    · subst hy; simp
    · have : B.digits y ≠ [] := by
        intro h
        have := congrArg List.length h
        rw [digits_length] at this
        have h2 : 0 < y.length := List.length_pos_iff.mpr hy
        have : 0 < (8 * y.length + B.bits - 1) / B.bits := Nat.div_pos (by omega) hB.bits_pos
        rw [List.length_nil] at *
        omega
      rw [List.getLast?_append, List.getLast?_eq_some_getLast this]
      simp


/-- Both texts carry the values of the zero-padded input, in characters the decoder knows. -/
def Carries (al : BaseAlg) (t : List Byte) (vs : List Nat) : Prop :=
  t.filterMap (codeOf al) = vs ∧ t.length = vs.length

theorem carries_all {al : BaseAlg} {t : List Byte} {vs : List Nat} (h : Carries al t vs) :
    ∀ c ∈ t, (codeOf al c).isSome := by
  obtain ⟨h1, h2⟩ := h
  induction t generalizing vs with
  | nil => simp
  | cons c t ih =>
    cases hc : codeOf al c with
    | none =>
      rw [List.filterMap_cons_none hc] at h1
      have := (List.length_filterMap_le (codeOf al) t)
      rw [h1, ← h2, List.length_cons] at this
      omega
    | some v =>
      rw [List.filterMap_cons_some hc] at h1
      intro c' hc'
      rcases List.mem_cons.mp hc' with rfl | hc'
      · rw [hc]; rfl
      · refine ih (vs := vs.tail) ?_ ?_ c' hc'
        · rw [← h1]; rfl
        · rw [List.length_tail, ← h2]; simp

theorem carries_append {al : BaseAlg} {t t' : List Byte} {vs vs' : List Nat} (h : Carries al t vs)
    (h' : Carries al t' vs') : Carries al (t ++ t') (vs ++ vs') := by
  constructor
  · rw [List.filterMap_append, h.1, h'.1]
  · rw [List.length_append, List.length_append, h.2, h'.2]

theorem carries_map (al : BaseAlg) (x : List Byte) :
    Carries al (((specOf al).digits x).map (fun d => (specOf al).alphabet.getD d 0#8))
      ((specOf al).digits x) := ⟨filterMap_alphabet al x, by simp⟩

theorem carries_pads (al : BaseAlg) (h : al ≠ .base16) (k : Nat) :
    Carries al (List.replicate k padChar) (List.replicate k 0) := by
  constructor
  · induction k with
    | zero => rfl
    | succ k ih => rw [List.replicate_succ, List.filterMap_cons_some (code_pad al h), ih]; rfl
  · simp

theorem zeroChar_code (al : BaseAlg) : codeOf al (specOf al).zeroChar = some 0 := by
  cases al <;> decide +kernel

theorem carries_zeros (al : BaseAlg) (k : Nat) :
    Carries al (List.replicate k (specOf al).zeroChar) (List.replicate k 0) := by
  constructor
  · induction k with
    | zero => rfl
    | succ k ih => rw [List.replicate_succ, List.filterMap_cons_some (zeroChar_code al), ih]; rfl
  · simp

theorem zpad_append (hB : Good B) (u y : List Byte) (hu : u.length = B.unit) :
    zpad B (u ++ y) = u ++ zpad B y := by
  unfold zpad
  rw [List.append_assoc, List.length_append, hu, ngroups_add hB, Nat.add_mul, Nat.one_mul,
    Nat.add_sub_add_left]

theorem bdigits_pos (hB : Good B) (p : List Byte) (h0 : p ≠ []) : 0 < (B.digits p).length := by
  have hp0 : 0 < p.length := List.length_pos_iff.mpr h0
  rw [digits_length]
  apply Nat.div_pos _ hB.bits_pos; omega

theorem carries_libEncode (al : BaseAlg) (x : List Byte) :
    Carries al ((specOf al).libEncode x) ((specOf al).digits (zpad (specOf al) x)) := by
  have hB := good al
  refine group_induction (P := fun x => Carries al ((specOf al).libEncode x)
    ((specOf al).digits (zpad (specOf al) x))) (specOf al).unit hB.unit_pos ?_ ?_ ?_ x
  · rw [libEncode_nil]
    have : zpad (specOf al) [] = [] := by simp [zpad, ngroups_zero hB]
    rw [this, digits_nil hB]; exact ⟨rfl, rfl⟩
  · intro p h0 hp
    have hp0 : 0 < p.length := List.length_pos_iff.mpr h0
    have hal : al ≠ .base16 := by rintro rfl; rw [unit16] at hp; omega
    rw [libEncode_partial p h0 hp, digits_zpad hB, ngroups_partial hB _ hp0 (by omega), Nat.one_mul]
    have hd := bdigits_le hB p
    rw [ngroups_partial hB _ hp0 (by omega), Nat.one_mul] at hd
    obtain ⟨k, hk⟩ := dropTrailing_append (specOf al).zeroChar
      (((specOf al).digits p).map (fun d => (specOf al).alphabet.getD d 0#8))
    unfold BaseSpec.libLast
    dsimp only
    have hc := carries_map al p
    generalize dropTrailing (specOf al).zeroChar
      (((specOf al).digits p).map (fun d => (specOf al).alphabet.getD d 0#8)) = T at *
    rw [hk] at hc
    have hl : ((specOf al).digits p).length = T.length + k := by
      rw [← hc.2]; simp
    have hT : T.filterMap (codeOf al) ++ List.replicate k 0 = (specOf al).digits p := by
      rw [← hc.1, List.filterMap_append, (carries_zeros al k).1]
    have hTl : (T.filterMap (codeOf al)).length = T.length := by
      have := congrArg List.length hT
      rw [List.length_append, List.length_replicate] at this
      omega
    have := carries_append (⟨rfl, hTl.symm⟩ : Carries al T (T.filterMap (codeOf al)))
      (carries_pads al hal ((specOf al).chars - T.length))
    rw [show List.replicate ((specOf al).chars - T.length) 0 = List.replicate k 0 ++
      List.replicate ((specOf al).chars - ((specOf al).digits p).length) 0 by
        rw [List.replicate_append_replicate]; congr 1; omega, ← List.append_assoc, hT] at this
    exact this
  · intro u y hu ih
    rw [libEncode_append hB u y hu, zpad_append hB u y hu, digits_append hB u _ hu]
    exact carries_append (carries_map al u) ih

/-- The number of padding characters of RFC 4648. -/
theorem pads_eq (hB : Good B) (x : List Byte) :
    (B.digits x).length + (B.chars - (B.digits x).length % B.chars) % B.chars
      = ngroups B x.length * B.chars := by
  have hc := hB.chars_pos
  have h := ngroups_chars hB x.length (B.digits x).length (by rw [digits_length]; omega)
    (bdigits_le hB x)
  rw [← h]
  generalize (B.digits x).length = m
  have h1 := Nat.div_add_mod m B.chars
  have h2 := Nat.mod_lt m hc
  generalize hq : m / B.chars = q at *
  generalize hr : m % B.chars = r at *
  by_cases hm : r = 0
  · subst hm
    rw [Nat.sub_zero, Nat.mod_self, ← h1, Nat.add_zero, Nat.add_sub_assoc (by omega),
      Nat.mul_add_div hc, Nat.div_eq_of_lt (by omega), Nat.add_zero, Nat.mul_comm]
  · rw [Nat.mod_eq_of_lt (by omega), ← h1, show B.chars * q + r + B.chars - 1 = B.chars * (q + 1) + (r - 1) by
      rw [Nat.mul_succ]; omega, Nat.mul_add_div hc, Nat.div_eq_of_lt (by omega), Nat.add_zero,
      Nat.mul_comm (q + 1), Nat.mul_succ]
    omega

/-- RFC text without some of its padding. -/
theorem carries_encode (al : BaseAlg) (x : List Byte) (t : List Byte) (k : Nat)
    (h : (specOf al).encode x = t ++ List.replicate k padChar)
    (hk : ((specOf al).digits x).length ≤ t.length) :
    Carries al t ((specOf al).digits x ++
      List.replicate (t.length - ((specOf al).digits x).length) 0) ∧
    t.length ≤ ngroups (specOf al) x.length * (specOf al).chars := by
  have hB := good al
  have hp := pads_eq hB x
  have hlen := congrArg List.length h
  unfold BaseSpec.encode at h hlen
  simp only [List.length_append, List.length_map, List.length_replicate] at hlen
  generalize hn : ((specOf al).chars - ((specOf al).digits x).length % (specOf al).chars)
    % (specOf al).chars = n at *
  have ht : t = ((specOf al).digits x).map (fun d => (specOf al).alphabet.getD d 0#8) ++
      List.replicate (t.length - ((specOf al).digits x).length) padChar := by
    have e : List.replicate n padChar = List.replicate (t.length - ((specOf al).digits x).length)
        padChar ++ List.replicate k padChar := by
      rw [List.replicate_append_replicate]; congr 1; omega
    rw [e, ← List.append_assoc] at h
    exact (List.append_cancel_right h).symm
  refine ⟨?_, by omega⟩
  by_cases hz : t.length - ((specOf al).digits x).length = 0
  · rw [hz] at ht ⊢
    simp only [List.replicate_zero, List.append_nil] at ht ⊢
    rw [ht]; exact carries_map al x
  · have hal : al ≠ .base16 := by
      rintro rfl
      have : ((specOf .base16).digits x).length = 2 * x.length := by
        rw [digits_length]
        show (8 * x.length + 4 - 1) / 4 = _
        omega
      have hn0 : n = 0 := by
        rw [← hn, this]
        show (2 - 2 * x.length % 2) % 2 = 0
        omega
      omega
    have := carries_append (carries_map al x) (carries_pads al hal
      (t.length - ((specOf al).digits x).length))
    rw [← ht] at this
    exact this

theorem carries_nozero {al : BaseAlg} {t : List Byte} {vs : List Nat} (h : Carries al t vs) :
    0#8 ∉ t := fun h0 => by
  have := carries_all h _ h0
  rw [code_zero_none] at this
  cases this

theorem carries_lastForeign {al : BaseAlg} {t : List Byte} {vs : List Nat} (h : Carries al t vs) :
    lastForeign (codeOf al) t = false := all_valued _ _ (carries_all h)

end Pgfe.Proofs
