import Verif.Proofs.BaseGroup
/-! The encoders on whole inputs. -/
namespace Pgfe.Proofs
open Pgfe.Model Pgfe.Spec

/-- Numeric facts about a standard encoding. -/
structure Good (B : BaseSpec) : Prop where
  eq : B.chars * B.bits = 8 * B.unit
  bits_pos : 0 < B.bits
  unit_pos : 0 < B.unit
  bits_le : B.bits ≤ 8
  chars_pos : 0 < B.chars

theorem good (al : BaseAlg) : Good (specOf al) := by
  cases al <;> constructor <;> decide

theorem params_eq (al : BaseAlg) : al.params.chunkCount = (specOf al).chars ∧
    al.params.unitSize = (specOf al).unit ∧ al.params.bitSize = (specOf al).bits := by
  cases al <;> decide

variable {B : BaseSpec}

theorem digits_length (x : List Byte) :
    (B.digits x).length = (8 * x.length + B.bits - 1) / B.bits := by
  simp [BaseSpec.digits, bitsOf_length]

theorem digits_lt_pow (x : List Byte) : ∀ d ∈ B.digits x, d < 2 ^ B.bits := by
  intro d hd
  obtain ⟨j, _, rfl⟩ := List.mem_map.mp hd
  have := ofBits_lt (slice (bitsOf x) (j * B.bits) B.bits)
  simpa using this

theorem digits_unit_length (hB : Good B) (u : List Byte) (hu : u.length = B.unit) :
    (B.digits u).length = B.chars := by
  rw [digits_length, hu, ← hB.eq]
  have := hB.bits_pos
  rw [Nat.add_sub_assoc (by omega), Nat.add_comm, Nat.add_mul_div_right _ _ this,
    Nat.div_eq_of_lt (by omega), Nat.zero_add]

theorem digits_append (hB : Good B) (u y : List Byte) (hu : u.length = B.unit) :
    B.digits (u ++ y) = B.digits u ++ B.digits y := by
  have hb := hB.bits_pos
  have hlu : (bitsOf u).length = B.chars * B.bits := by rw [bitsOf_length, hu, hB.eq]
  unfold BaseSpec.digits
  rw [bitsOf_append, List.length_append, hlu]
  have e1 : (B.chars * B.bits + (bitsOf y).length + B.bits - 1) / B.bits
      = B.chars + ((bitsOf y).length + B.bits - 1) / B.bits := by
    rw [show B.chars * B.bits + (bitsOf y).length + B.bits - 1
      = ((bitsOf y).length + B.bits - 1) + B.chars * B.bits by omega,
      Nat.add_mul_div_right _ _ hb, Nat.add_comm]
  have e2 : (B.chars * B.bits + B.bits - 1) / B.bits = B.chars := by
    rw [show B.chars * B.bits + B.bits - 1 = (B.bits - 1) + B.chars * B.bits by omega,
      Nat.add_mul_div_right _ _ hb, Nat.div_eq_of_lt (by omega), Nat.zero_add]
  rw [e1, e2, List.range_add, List.map_append, List.map_map]
  congr 1
  · apply List.map_congr_left
    intro j hj
    have hj := List.mem_range.mp hj
    rw [slice_append_left]
    rw [hlu, ← Nat.succ_mul]
    exact Nat.mul_le_mul_right _ hj
  · apply List.map_congr_left
    intro j hj
    simp only [Function.comp]
    rw [slice_append_right _ _ _ _ (by rw [hlu]; exact Nat.mul_le_mul_right _ (by omega)), hlu,
      Nat.add_mul]
    congr 2; omega

theorem encode_append (hB : Good B) (u y : List Byte) (hu : u.length = B.unit) :
    B.encode (u ++ y) = (B.digits u).map (fun d => B.alphabet.getD d 0#8) ++ B.encode y := by
  unfold BaseSpec.encode
  rw [digits_append hB u y hu, List.map_append, List.length_append, digits_unit_length hB u hu,
    Nat.add_mod_left, List.append_assoc]

theorem encode_nil : B.encode [] = [] := by
  unfold BaseSpec.encode
  have : B.digits [] = [] := by
    apply List.eq_nil_of_length_eq_zero
    rw [digits_length]
    by_cases h : B.bits = 0
    · simp [h]
    · exact Nat.div_eq_of_lt (by simp; omega)
  rw [this]; simp

theorem encode_unit (hB : Good B) (u : List Byte) (hu : u.length = B.unit) :
    B.encode u = (B.digits u).map (fun d => B.alphabet.getD d 0#8) := by
  have := encode_append hB u [] hu
  rw [List.append_nil, encode_nil, List.append_nil] at this
  exact this

/-- Zero bytes appended to a partial group only append zero characters. -/
theorem digits_zero_pad (hB : Good B) (p : List Byte) (hp : p.length ≤ B.unit) :
    B.digits (p ++ List.replicate (B.unit - p.length) 0#8)
      = B.digits p ++ List.replicate (B.chars - (B.digits p).length) 0 := by
  have hb := hB.bits_pos
  have hz : ∀ k, bitsOf (List.replicate k 0#8) = List.replicate (8 * k) false := by
    intro k
    induction k with
    | zero => rfl
    | succ k ih =>
      have : bitsOf (List.replicate (k + 1) 0#8) = bitsOfByte 0#8 ++ bitsOf (List.replicate k 0#8) := rfl
      rw [this, ih, show bitsOfByte 0#8 = List.replicate 8 false by decide,
        List.replicate_append_replicate]
      congr 1; omega
  have hq : (B.digits p).length ≤ B.chars := by
    rw [digits_length, ← Nat.lt_succ_iff, Nat.div_lt_iff_lt_mul hb, Nat.succ_mul B.chars, hB.eq]
    omega
  have hlen : (B.digits (p ++ List.replicate (B.unit - p.length) 0#8)).length = B.chars :=
    digits_unit_length hB _ (by simp; omega)
  apply List.ext_getElem
  · rw [hlen, List.length_append, List.length_replicate]; omega
  · intro j h1 h2
    have hj : j < B.chars := by omega
    have e : (B.digits (p ++ List.replicate (B.unit - p.length) 0#8))[j]
        = ofBits (slice (bitsOf p) (j * B.bits) B.bits) := by
      simp only [BaseSpec.digits, List.getElem_map, List.getElem_range]
      rw [bitsOf_append, hz, slice_zeros]
    rw [e, List.getElem_append]
    split
    · simp [BaseSpec.digits]
    · rename_i hge
      rw [List.getElem_replicate]
      -- the slice lies beyond the data bits
      have : (bitsOf p).length ≤ j * B.bits := by
        rw [bitsOf_length]
        have h3 : (B.digits p).length ≤ j := by omega
        rw [digits_length] at h3
        have h4 := Nat.div_add_mod (8 * p.length + B.bits - 1) B.bits
        have h5 := Nat.mod_lt (8 * p.length + B.bits - 1) hb
        have h6 : B.bits * ((8 * p.length + B.bits - 1) / B.bits) ≤ B.bits * j :=
          Nat.mul_le_mul_left _ h3
        rw [Nat.mul_comm j]
        omega
      have hs : slice (bitsOf p) (j * B.bits) B.bits = List.replicate B.bits false := by
        apply List.ext_getElem
        · simp
        · intro t ht1 ht2
          have : (bitsOf p)[j * B.bits + t]? = none := List.getElem?_eq_none (by omega)
          simp [slice, this]
      rw [hs]
      have : ∀ k, ofBits (List.replicate k false) = 0 := by
        intro k
        induction k with
        | zero => rfl
        | succ k ih => rw [List.replicate_succ, ofBits_cons, ih]; simp
      exact this _

/-! ### `unittostr` -/

theorem alphabet_rd (al : BaseAlg) (d : Nat) (hd : d < 2 ^ (specOf al).bits) :
    rd al.alphabet (BitVec.ofNat 8 d).toNat = .ok ((specOf al).alphabet.getD d 0#8) := by
  cases al
  · exact (by decide +kernel : ∀ d : Fin 16, rd base16Alphabet (BitVec.ofNat 8 d.1).toNat
      = .ok (rfcBase16.alphabet.getD d.1 0#8)) ⟨d, hd⟩
  · exact (by decide +kernel : ∀ d : Fin 32, rd base32Alphabet (BitVec.ofNat 8 d.1).toNat
      = .ok (rfcBase32.alphabet.getD d.1 0#8)) ⟨d, hd⟩
  · exact (by decide +kernel : ∀ d : Fin 32, rd base32HexAlphabet (BitVec.ofNat 8 d.1).toNat
      = .ok (rfcBase32Hex.alphabet.getD d.1 0#8)) ⟨d, hd⟩
  · exact (by decide +kernel : ∀ d : Fin 64, rd base64Alphabet (BitVec.ofNat 8 d.1).toNat
      = .ok (rfcBase64.alphabet.getD d.1 0#8)) ⟨d, hd⟩
  · exact (by decide +kernel : ∀ d : Fin 64, rd base64UrlAlphabet (BitVec.ofNat 8 d.1).toNat
      = .ok (rfcBase64Url.alphabet.getD d.1 0#8)) ⟨d, hd⟩

theorem mapM_ok {α β : Type} (l : List α) (f : α → C β) (g : α → β)
    (h : ∀ a ∈ l, f a = .ok (g a)) : l.mapM f = .ok (l.map g) := by
  induction l with
  | nil => rfl
  | cons a l ih =>
    rw [List.mapM_cons, h a (by simp), ih (fun a ha => h a (by simp [ha]))]
    rfl

theorem mapM_map {α β γ : Type} (l : List α) (k : α → β) (f : β → C γ) :
    (l.map k).mapM f = l.mapM (fun a => f (k a)) := by
  induction l with
  | nil => rfl
  | cons a l ih => rw [List.map_cons, List.mapM_cons, List.mapM_cons, ih]

/-- The scratch memory the encoder needs to run as intended. -/
def Roomy (S : Slack) : Prop := 1 ≤ S.behindUnit.length ∧ 2 ≤ S.behindSplit.length

theorem unittostr_full (al : BaseAlg) (S : Slack) (hS : Roomy S) (g u : List Byte)
    (hg : al.params.chunkCount ≤ g.length) (hu : u.length = (specOf al).unit) :
    unittostr S al.params g al.alphabet u false
      = .ok (((specOf al).digits u).map (fun d => (specOf al).alphabet.getD d 0#8)) := by
  obtain ⟨p1, p2, p3⟩ := params_eq al
  obtain ⟨n, split, ht, hs⟩ := transform_ok al u (g.take al.params.chunkCount) S.behindUnit
    S.behindSplit (by rw [p2, hu]) (by rw [List.length_take]; omega) hS.1 hS.2
  unfold unittostr
  rw [ht, bind_ok]
  dsimp only
  rw [hs, mapM_map, mapM_ok _ _ _ (fun d hd => alphabet_rd al d (digits_lt_pow u d hd)), bind_ok]
  rfl

theorem padLoop_eq (z q : Byte) (l : List Byte) :
    padLoop z q l = List.replicate (l.takeWhile (· == z)).length q ++ l.dropWhile (· == z) := by
  induction l with
  | nil => rfl
  | cons c l ih =>
    by_cases h : c = z
    · subst h; simp [padLoop, ih, List.replicate_succ]
    · simp [padLoop, h]

theorem dropTrailing_replicate (z : Byte) (l : List Byte) (k : Nat) :
    dropTrailing z (l ++ List.replicate k z) = dropTrailing z l := by
  unfold dropTrailing
  rw [List.reverse_append, List.reverse_replicate]
  congr 1
  induction k with
  | zero => rfl
  | succ k ih => rw [List.replicate_succ, List.cons_append, List.dropWhile_cons_of_pos (by simp), ih]

theorem dropTrailing_length_le (z : Byte) (l : List Byte) : (dropTrailing z l).length ≤ l.length := by
  unfold dropTrailing
  rw [List.length_reverse]
  have := (List.dropWhile_sublist (l := l.reverse) (· == z)).length_le
  simpa using this

theorem padLoop_reverse (z q : Byte) (l : List Byte) :
    (padLoop z q l.reverse).reverse
      = dropTrailing z l ++ List.replicate (l.length - (dropTrailing z l).length) q := by
  rw [padLoop_eq, List.reverse_append, List.reverse_replicate]
  unfold dropTrailing
  congr 2
  have h := congrArg List.length (List.takeWhile_append_dropWhile (p := (· == z)) (l := l.reverse))
  rw [List.length_append] at h
  simp at h ⊢
  omega

theorem unittostr_partial (al : BaseAlg) (hal : al ≠ .base16) (S : Slack) (hS : Roomy S)
    (g p : List Byte) (hg : al.params.chunkCount ≤ g.length) (hp : p.length ≤ (specOf al).unit) :
    unittostr S al.params g al.alphabet (p ++ List.replicate ((specOf al).unit - p.length) 0#8) true
      = .ok ((specOf al).libLast p) := by
  obtain ⟨p1, p2, p3⟩ := params_eq al
  have hB := good al
  have hu : (p ++ List.replicate ((specOf al).unit - p.length) 0#8).length = (specOf al).unit := by
    simp; omega
  obtain ⟨n, split, ht, hs⟩ := transform_ok al _ (g.take al.params.chunkCount) S.behindUnit
    S.behindSplit (by rw [p2, hu]) (by rw [List.length_take]; omega) hS.1 hS.2
  unfold unittostr
  rw [ht, bind_ok]
  dsimp only
  rw [hs, mapM_map, mapM_ok _ _ _ (fun d hd => alphabet_rd al d (digits_lt_pow _ d hd)), bind_ok]
  rw [if_pos rfl]
  have hz : rd al.alphabet 0 = .ok (specOf al).zeroChar := by cases al <;> decide +kernel
  have hpad : rd al.alphabet al.params.alphabetSize = .ok padChar := by
    cases al <;> first | exact absurd rfl hal | decide +kernel
  rw [hz, bind_ok, hpad, bind_ok, padLoop_reverse]
  have hl : ((specOf al).digits (p ++ List.replicate ((specOf al).unit - p.length) 0#8)).length
      = (specOf al).chars := digits_unit_length hB _ hu
  rw [List.length_map, hl]
  unfold BaseSpec.libLast
  have e : dropTrailing (specOf al).zeroChar
      (((specOf al).digits (p ++ List.replicate ((specOf al).unit - p.length) 0#8)).map
        (fun d => (specOf al).alphabet.getD d 0#8))
      = dropTrailing (specOf al).zeroChar
        (((specOf al).digits p).map (fun d => (specOf al).alphabet.getD d 0#8)) := by
    rw [digits_zero_pad hB p hp, List.map_append, List.map_replicate]
    exact dropTrailing_replicate _ _ _
  rw [e]

/-! ### Whole inputs -/

theorem libEncode_nil : B.libEncode [] = [] := by simp [BaseSpec.libEncode, encode_nil]

theorem libEncode_append (hB : Good B) (u y : List Byte) (hu : u.length = B.unit) :
    B.libEncode (u ++ y) = (B.digits u).map (fun d => B.alphabet.getD d 0#8) ++ B.libEncode y := by
  unfold BaseSpec.libEncode
  have e1 : (u ++ y).length / B.unit * B.unit = B.unit + y.length / B.unit * B.unit := by
    rw [List.length_append, hu, Nat.add_div_left _ hB.unit_pos, Nat.succ_mul, Nat.add_comm]
  have e2 : (u ++ y).length % B.unit = y.length % B.unit := by
    rw [List.length_append, hu, Nat.add_mod_left]
  rw [e1, e2, List.take_append, List.take_of_length_le (by omega), hu, Nat.add_sub_cancel_left,
    encode_append hB u _ hu, List.append_assoc]
  congr 2
  rw [List.drop_append, List.drop_eq_nil_of_le (by omega), hu, Nat.add_sub_cancel_left]
  simp

theorem libEncode_partial (p : List Byte) (h0 : p ≠ []) (hp : p.length < B.unit) :
    B.libEncode p = B.libLast p := by
  unfold BaseSpec.libEncode
  have : p.length / B.unit = 0 := Nat.div_eq_of_lt hp
  have h1 : p.length ≠ 0 := by simpa using h0
  rw [this, Nat.mod_eq_of_lt hp, if_neg h1]
  simp [encode_nil]

theorem libLast_length (hB : Good B) (p : List Byte) (hp : p.length ≤ B.unit) :
    (B.libLast p).length = B.chars := by
  unfold BaseSpec.libLast
  dsimp only
  rw [List.length_append, List.length_replicate]
  have h1 := dropTrailing_length_le B.zeroChar ((B.digits p).map (fun d => B.alphabet.getD d 0#8))
  have h2 : (B.digits p).length ≤ B.chars := by
    rw [digits_length, ← Nat.lt_succ_iff, Nat.div_lt_iff_lt_mul hB.bits_pos,
      Nat.succ_mul B.chars, hB.eq]
    have := hB.bits_pos
    omega
  rw [List.length_map] at h1
  omega

/-- Induction on the groups of an input. -/
theorem group_induction {P : List Byte → Prop} (n : Nat) (hn : 0 < n) (h0 : P [])
    (hp : ∀ p, p ≠ [] → p.length < n → P p)
    (hs : ∀ u y, u.length = n → P y → P (u ++ y)) : ∀ x, P x := by
  intro x
  have : ∀ k x, x.length ≤ k → P x := by
    intro k
    induction k with
    | zero => intro x hx; rw [List.eq_nil_of_length_eq_zero (l := x) (by omega)]; exact h0
    | succ k ih =>
      intro x hx
      by_cases hx0 : x = []
      · rw [hx0]; exact h0
      · by_cases hlt : x.length < n
        · exact hp x hx0 hlt
        · rw [← List.take_append_drop n x]
          apply hs
          · rw [List.length_take]; omega
          · apply ih; rw [List.length_drop]; omega
  exact this _ x (Nat.le_refl _)

theorem libEncode_length (hB : Good B) (x : List Byte) :
    (B.libEncode x).length = B.chars * ((x.length + B.unit - 1) / B.unit) := by
  have hpos := hB.unit_pos
  refine group_induction (P := fun x => (B.libEncode x).length
    = B.chars * ((x.length + B.unit - 1) / B.unit)) B.unit hpos ?_ ?_ ?_ x
  · rw [libEncode_nil, List.length_nil, Nat.zero_add,
      Nat.div_eq_of_lt (by omega), Nat.mul_zero]
  · intro p h0 hp
    rw [libEncode_partial p h0 hp, libLast_length hB p (by omega)]
    have h1 : 0 < p.length := by
      cases p with
      | nil => exact absurd rfl h0
      | cons => simp
    have : (p.length + B.unit - 1) / B.unit = 1 := by
      rw [show p.length + B.unit - 1 = (p.length - 1) + B.unit by omega, Nat.add_div_right _ hpos,
        Nat.div_eq_of_lt (by omega)]
    rw [this, Nat.mul_one]
  · intro u y hu ih
    rw [libEncode_append hB u y hu, List.length_append, List.length_map,
      digits_unit_length hB u hu, ih, List.length_append, hu]
    rw [show B.unit + y.length + B.unit - 1 = (y.length + B.unit - 1) + B.unit by omega,
      Nat.add_div_right _ hpos, Nat.mul_succ, Nat.add_comm]

theorem forN_cons {σ : Type} (n : Nat) (f : Nat → σ → C σ) (s : σ) :
    forN (n + 1) f s = (f 0 s >>= forN n (fun i => f (i + 1))) := by
  rw [Nat.add_comm, forN_add]
  have : forN 1 f s = f 0 s := by simp only [forN]; rfl
  rw [this]
  congr 1
  funext s
  exact forN_congr _ _ _ _ (fun i s _ => by rw [Nat.add_comm])

/-- The encoders write `libEncode` of the input. -/
theorem encode_ok (al : BaseAlg) (S : Slack) (hS : Roomy S) (g x junk out : List Byte)
    (hg : al.params.chunkCount ≤ g.length)
    (ho : ((specOf al).libEncode x).length + 1 ≤ out.length) :
    pgfeEncode al S g (x ++ junk) x.length out
      = .ok (((specOf al).libEncode x).length, (specOf al).libEncode x ++
          0#8 :: out.drop (((specOf al).libEncode x).length + 1)) := by
  have hB := good al
  obtain ⟨p1, p2, p3⟩ := params_eq al
  have hpos := hB.unit_pos
  -- the loop, from an arbitrary group on
  let body : Nat → Nat × List Byte → C (Nat × List Byte) := fun k (sp, csOut) => do
    let i := k * al.params.unitSize
    let remain := x.length - i
    let (unit, remain) ← if remain < al.params.unitSize then do
        let b ← rds (x ++ junk) i remain
        .ok (splice (List.replicate al.params.unitSize 0#8) 0 b, remain)
      else do
        let b ← rds (x ++ junk) i al.params.unitSize
        .ok (b, al.params.unitSize)
    let s ← unittostr S al.params g al.alphabet unit (al.params.unitSize - remain != 0)
    let csOut ← wrs csOut sp s
    .ok (sp + al.params.chunkCount, csOut)
  have loop : ∀ y k pre T q, x = pre ++ y → pre.length = k * (specOf al).unit →
      ((specOf al).libEncode y).length ≤ q.length →
      forN ((y.length + (specOf al).unit - 1) / (specOf al).unit) (fun i => body (k + i))
        (T.length, T ++ q)
      = .ok (T.length + ((specOf al).libEncode y).length,
          T ++ (specOf al).libEncode y ++ q.drop ((specOf al).libEncode y).length) := by
    intro y
    refine group_induction (P := fun y => ∀ k pre T q, x = pre ++ y →
      pre.length = k * (specOf al).unit → ((specOf al).libEncode y).length ≤ q.length →
      forN ((y.length + (specOf al).unit - 1) / (specOf al).unit) (fun i => body (k + i))
        (T.length, T ++ q)
      = .ok (T.length + ((specOf al).libEncode y).length,
          T ++ (specOf al).libEncode y ++ q.drop ((specOf al).libEncode y).length))
      (specOf al).unit hpos ?_ ?_ ?_ y
    · intro k pre T q _ _ _
      rw [libEncode_nil, List.length_nil, Nat.zero_add, Nat.div_eq_of_lt (by omega)]
      simp [forN]
    · intro p h0 hp k pre T q hx hpre hq
      rw [libEncode_partial p h0 hp] at hq ⊢
      have hl := libLast_length hB p (by omega)
      have h1 : 0 < p.length := by
        cases p with
        | nil => exact absurd rfl h0
        | cons => simp
      have e : (p.length + (specOf al).unit - 1) / (specOf al).unit = 0 + 1 := by
        rw [show p.length + (specOf al).unit - 1 = (p.length - 1) + (specOf al).unit by omega,
          Nat.add_div_right _ hpos, Nat.div_eq_of_lt (by omega)]
      rw [e, forN_cons]
      have hxl : x.length - k * (specOf al).unit = p.length := by
        rw [hx, List.length_append, hpre]; omega
      have hal : al ≠ .base16 := by
        rintro rfl
        have : (specOf .base16).unit = 1 := by decide
        omega
      have hr : rds (x ++ junk) (k * (specOf al).unit) p.length = .ok p := by
        rw [rds_ok (by rw [hx]; simp [hpre])]
        rw [hx, List.append_assoc, ← hpre, List.drop_left, List.take_left]
      have hbody : body (k + 0) (T.length, T ++ q)
          = .ok (T.length + (specOf al).chars,
              T ++ (specOf al).libLast p ++ q.drop (specOf al).chars) := by
        simp only [body, Nat.add_zero, p2, hxl, if_pos hp, hr, bind_ok]
        have hsp : splice (List.replicate (specOf al).unit 0#8) 0 p
            = p ++ List.replicate ((specOf al).unit - p.length) 0#8 := by
          simp [splice]
        have hne : ((specOf al).unit - p.length != 0) = true := by
          simp; omega
        rw [hsp, hne, unittostr_partial al hal S hS g p hg (by omega), bind_ok,
          wrs_ok (by rw [List.length_append]; omega), bind_ok, p1]
        simp [splice, hl]
      rw [hbody, bind_ok]
      simp [forN, hl]
    · intro u y hu ih k pre T q hx hpre hq
      have hl := digits_unit_length hB u hu
      have e : ((u ++ y).length + (specOf al).unit - 1) / (specOf al).unit
          = (y.length + (specOf al).unit - 1) / (specOf al).unit + 1 := by
        rw [List.length_append, hu, show (specOf al).unit + y.length + (specOf al).unit - 1
          = (y.length + (specOf al).unit - 1) + (specOf al).unit by omega, Nat.add_div_right _ hpos]
      rw [libEncode_append hB u y hu] at hq ⊢
      rw [List.length_append, List.length_map, hl] at hq
      rw [e, forN_cons]
      have hxl : ¬ (x.length - k * (specOf al).unit < (specOf al).unit) := by
        rw [hx, List.length_append, hpre, List.length_append]; omega
      have hr : rds (x ++ junk) (k * (specOf al).unit) (specOf al).unit = .ok u := by
        rw [rds_ok (by rw [hx]; simp [hpre, hu])]
        rw [hx, List.append_assoc, ← hpre, List.drop_left, List.append_assoc, ← hu, List.take_left]
      generalize hG : ((specOf al).digits u).map (fun d => (specOf al).alphabet.getD d 0#8) = G at *
      have hGl : G.length = (specOf al).chars := by rw [← hG, List.length_map, hl]
      have hbody : body (k + 0) (T.length, T ++ q)
          = .ok ((T ++ G).length, (T ++ G) ++ q.drop (specOf al).chars) := by
        simp only [body, Nat.add_zero, p2, if_neg hxl, hr, bind_ok]
        have hne : ((specOf al).unit - (specOf al).unit != 0) = false := by simp
        rw [hne, unittostr_full al S hS g u hg hu, bind_ok, hG,
          wrs_ok (by rw [List.length_append]; omega), bind_ok, p1]
        simp [splice, hGl]
      rw [hbody, bind_ok]
      have := ih (k + 1) (pre ++ u) (T ++ G) (q.drop (specOf al).chars)
        (by rw [hx, List.append_assoc]) (by rw [List.length_append, hpre, hu, Nat.succ_mul])
        (by rw [List.length_drop]; omega)
      have hfun : (fun i => body (k + (i + 1))) = (fun i => body (k + 1 + i)) := by
        funext i; congr 1; omega
      rw [hfun, this]
      simp only [List.length_append, hGl, List.drop_drop, List.append_assoc, Nat.add_assoc]
  have := loop x 0 [] [] out rfl (by simp) (by omega)
  simp only [List.length_nil, List.nil_append, Nat.zero_add] at this
  unfold pgfeEncode encodeBase
  rw [p2]
  rw [show forN ((x.length + (specOf al).unit - 1) / (specOf al).unit) _ (0, out) =
    forN ((x.length + (specOf al).unit - 1) / (specOf al).unit) body (0, out) by
      simp only [body, p2], this, bind_ok]
  rw [List.drop_eq_getElem_cons (by omega)]
  simp only [wr_append, bind_ok]

end Pgfe.Proofs
