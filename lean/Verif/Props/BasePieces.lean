import Verif.Props.BaseExact
/-!
# C86: data encoded or decoded piece by piece
-/
namespace Pgfe.Spec
open Pgfe.Model

/-- A program that encodes data piece by piece into one text: each piece is encoded at the position in the output array
where the text of the previous pieces ended (the returned lengths are added up). -/
def encodePieces (al : BaseAlg) (S : Slack) (g : List Byte) : List (List Byte) → Nat → List Byte → C (Nat × List Byte)
  | [], pos, out => .ok (pos, out)
  | p :: ps, pos, out => do
    let r ← pgfeEncode al S g p p.length (out.drop pos)
    encodePieces al S g ps (pos + r.1) (out.take pos ++ r.2)

end Pgfe.Spec

namespace Pgfe.Props
open Pgfe.Model Pgfe.Spec Pgfe.Proofs

theorem libEncode_whole (al : BaseAlg) (y : List Byte) : ∀ (k : Nat) (x : List Byte), x.length = k * (specOf al).unit →
    (specOf al).libEncode (x ++ y) = (specOf al).libEncode x ++ (specOf al).libEncode y := by
  have hB := good al
  intro k
  induction k with
  | zero =>
    intro x hx
    have : x = [] := List.length_eq_zero_iff.1 (by simpa using hx)
    subst this
    rw [libEncode_nil]; rfl
  | succ k ih =>
    intro x hx
    rw [Nat.succ_mul] at hx
    have e : x = x.take (specOf al).unit ++ x.drop (specOf al).unit := (List.take_append_drop _ _).symm
    have h1 : (x.take (specOf al).unit).length = (specOf al).unit := by rw [List.length_take]; omega
    have h2 : (x.drop (specOf al).unit).length = k * (specOf al).unit := by rw [List.length_drop]; omega
    rw [e, List.append_assoc, libEncode_append hB _ _ h1, libEncode_append hB _ _ h1, ih _ h2, List.append_assoc]

theorem whole_of_mod {n u : Nat} (h : n % u = 0) : n = n / u * u := by
  have := Nat.div_add_mod n u
  rw [h, Nat.mul_comm] at this
  omega

theorem flatten_mod (u : Nat) : ∀ (l : List (List Byte)), (∀ p ∈ l, p.length % u = 0) → l.flatten.length % u = 0 := by
  intro l
  induction l with
  | nil => intro _; simp
  | cons p ps ih =>
    intro h
    rw [List.flatten_cons, List.length_append, Nat.add_mod, h p (by simp), ih (fun q hq => h q (by simp [hq]))]
    simp

/-- **C86, encoders.**  Encoding any number of pieces one after the other into one output array, all but the last of
whole groups, gives exactly what one call gives for the joined data: the length, the text, its NUL, and the bytes behind
it, which keep their values. -/
theorem C86_encode (al : BaseAlg) (S : Slack) (hS : Roomy S) (g out last : List Byte) (pieces : List (List Byte))
    (hg : Scratch al g) (hw : ∀ p ∈ pieces, p.length % (specOf al).unit = 0)
    (ho : Fits al (pieces ++ [last]).flatten.length out) :
    encodePieces al S g (pieces ++ [last]) 0 out
      = pgfeEncode al S g (pieces ++ [last]).flatten (pieces ++ [last]).flatten.length out := by
  have hB := good al
  have key : ∀ (pieces : List (List Byte)) (pos : Nat) (out : List Byte), (∀ p ∈ pieces, p.length % (specOf al).unit = 0) →
      pos ≤ out.length → Fits al (pieces ++ [last]).flatten.length (out.drop pos) →
      encodePieces al S g (pieces ++ [last]) pos out
        = .ok (pos + ((specOf al).libEncode (pieces ++ [last]).flatten).length,
            out.take pos ++ ((specOf al).libEncode (pieces ++ [last]).flatten ++
              0#8 :: out.drop (pos + (((specOf al).libEncode (pieces ++ [last]).flatten).length + 1)))) := by
    intro pieces
    induction pieces with
    | nil =>
      intro pos out _ _ ho
      have e : ([] ++ [last] : List (List Byte)).flatten = last := by simp
      rw [e] at ho ⊢
      have h := enc_all al S hS g last [] (out.drop pos) hg ho
      rw [List.append_nil] at h
      show (do
        let r ← pgfeEncode al S g last last.length (out.drop pos)
        encodePieces al S g [] (pos + r.1) (out.take pos ++ r.2)) = _
      rw [h, bind_ok, List.drop_drop]
      rfl
    | cons p ps ih =>
      intro pos out hw hp ho
      have hpw := hw p (by simp)
      have e : ((p :: ps) ++ [last]).flatten = p ++ (ps ++ [last]).flatten := by simp
      have hL : (specOf al).libEncode (p ++ (ps ++ [last]).flatten)
          = (specOf al).libEncode p ++ (specOf al).libEncode (ps ++ [last]).flatten :=
        libEncode_whole al _ _ p (whole_of_mod hpw)
      rw [e] at ho ⊢
      have hFl := libEncode_length hB (p ++ (ps ++ [last]).flatten)
      have hFp := libEncode_length hB p
      have hFq := libEncode_length hB (ps ++ [last]).flatten
      rw [hL, List.length_append] at hFl
      unfold Fits ceilDiv at ho
      rw [← hFl] at ho
      rw [hL]
      generalize hP : (specOf al).libEncode p = P at *
      generalize hQ : (specOf al).libEncode (ps ++ [last]).flatten = Q at *
      have hol : (out.drop pos).length = out.length - pos := List.length_drop
      have h := enc_all al S hS g p [] (out.drop pos) hg (by unfold Fits ceilDiv; rw [← hFp]; omega)
      rw [List.append_nil, hP] at h
      show (do
        let r ← pgfeEncode al S g p p.length (out.drop pos)
        encodePieces al S g (ps ++ [last]) (pos + r.1) (out.take pos ++ r.2)) = _
      rw [h, bind_ok]
      dsimp only
      have htl : (out.take pos).length = pos := by rw [List.length_take]; omega
      have hpl : (out.take pos ++ P).length = pos + P.length := by rw [List.length_append, htl]
      have hd : (out.take pos ++ (P ++ 0#8 :: (out.drop pos).drop (P.length + 1))).drop (pos + P.length)
          = 0#8 :: out.drop (pos + (P.length + 1)) := by
        rw [← List.append_assoc, List.drop_left' hpl, List.drop_drop]
      have ht : (out.take pos ++ (P ++ 0#8 :: (out.drop pos).drop (P.length + 1))).take (pos + P.length)
          = out.take pos ++ P := by
        rw [← List.append_assoc, List.take_left' hpl]
      have := ih (pos + P.length) (out.take pos ++ (P ++ 0#8 :: (out.drop pos).drop (P.length + 1)))
        (fun q hq => hw q (by simp [hq])) (by rw [← List.append_assoc, List.length_append, hpl]; omega)
        (by
          unfold Fits ceilDiv
          rw [← hFq, hd, List.length_cons, List.length_drop]
          omega)
      rw [this, ht, ← List.drop_drop, hd, List.length_append]
      rw [show Q.length + 1 = Q.length + 1 from rfl, List.drop_succ_cons, List.drop_drop]
      congr 2
      · omega
      · rw [List.append_assoc, List.append_assoc]
        rw [show pos + (P.length + 1) + Q.length = pos + (P.length + Q.length + 1) by omega]
  have h := key pieces 0 out hw (by omega) (by rw [List.drop_zero]; exact ho)
  have h2 := enc_all al S hS g (pieces ++ [last]).flatten [] out hg ho
  rw [List.append_nil] at h2
  rw [h, h2]
  simp

theorem nopad (al : BaseAlg) (d : Nat) (hd : d < 2 ^ (specOf al).bits) : (specOf al).alphabet.getD d 0#8 ≠ padChar := by
  have h := alphabet_mem al d hd
  have : padChar ∉ (specOf al).alphabet := by cases al <;> decide +kernel
  intro e
  rw [e] at h
  exact this h

theorem whole_nopad (al : BaseAlg) : ∀ (k : Nat) (x : List Byte), x.length = k * (specOf al).unit →
    padChar ∉ (specOf al).libEncode x := by
  have hB := good al
  intro k
  induction k with
  | zero =>
    intro x hx
    have : x = [] := List.length_eq_zero_iff.1 (by simpa using hx)
    subst this
    rw [libEncode_nil]; simp
  | succ k ih =>
    intro x hx
    rw [Nat.succ_mul] at hx
    have e : x = x.take (specOf al).unit ++ x.drop (specOf al).unit := (List.take_append_drop _ _).symm
    have h1 : (x.take (specOf al).unit).length = (specOf al).unit := by rw [List.length_take]; omega
    have h2 : (x.drop (specOf al).unit).length = k * (specOf al).unit := by rw [List.length_drop]; omega
    rw [e, libEncode_append hB _ _ h1, List.mem_append]
    rintro (h | h)
    · obtain ⟨d, hd, he⟩ := List.mem_map.1 h
      exact nopad al d (digits_lt_pow _ d hd) he
    · exact ih _ h2 h

theorem partial_pad (al : BaseAlg) (x : List Byte) (hx : x.length % (specOf al).unit ≠ 0) :
    padChar ∈ (specOf al).libEncode x := by
  unfold BaseSpec.libEncode
  rw [if_neg hx, List.mem_append]
  right
  generalize hp : x.drop (x.length / (specOf al).unit * (specOf al).unit) = p
  have hpl : p.length = x.length % (specOf al).unit := by
    rw [← hp, List.length_drop]
    have := Nat.div_add_mod x.length (specOf al).unit
    rw [Nat.mul_comm] at this
    omega
  have hlt : p.length < (specOf al).unit := by rw [hpl]; exact Nat.mod_lt _ (good al).unit_pos
  unfold BaseSpec.libLast
  dsimp only
  rw [List.mem_append]
  right
  apply List.mem_replicate.2
  refine ⟨?_, rfl⟩
  have h1 := dropTrailing_length_le (specOf al).zeroChar (((specOf al).digits p).map (fun d => (specOf al).alphabet.getD d 0#8))
  rw [List.length_map, digits_length] at h1
  have h2 : (8 * p.length + (specOf al).bits - 1) / (specOf al).bits < (specOf al).chars := by
    cases al
    · exact absurd hlt (by rw [show (specOf .base16).unit = 1 from rfl]; rw [show (specOf .base16).unit = 1 from rfl, Nat.mod_one] at hx; exact absurd rfl hx)
    all_goals
      first
      | (rw [show (specOf BaseAlg.base32).unit = 5 from rfl] at hlt; show (8 * p.length + 5 - 1) / 5 < 8; omega)
      | (rw [show (specOf BaseAlg.base32hex).unit = 5 from rfl] at hlt; show (8 * p.length + 5 - 1) / 5 < 8; omega)
      | (rw [show (specOf BaseAlg.base64).unit = 3 from rfl] at hlt; show (8 * p.length + 6 - 1) / 6 < 4; omega)
      | (rw [show (specOf BaseAlg.base64url).unit = 3 from rfl] at hlt; show (8 * p.length + 6 - 1) / 6 < 4; omega)
  omega

/-- **C86, only at group boundaries.**  For two pieces the text of the first followed by the text of the second is the
text of the joined data exactly when the first is a whole number of groups or the second is empty. -/
theorem C86_cut (al : BaseAlg) (S : Slack) (hS : Roomy S) (g x y out o1 o2 o : List Byte) (n1 n2 n : Nat)
    (hg : Scratch al g) (hx : Fits al x.length out) (hy : Fits al y.length out) (hxy : Fits al (x ++ y).length out)
    (e1 : pgfeEncode al S g x x.length out = .ok (n1, o1)) (e2 : pgfeEncode al S g y y.length out = .ok (n2, o2))
    (e : pgfeEncode al S g (x ++ y) (x ++ y).length out = .ok (n, o)) :
    o.take n = o1.take n1 ++ o2.take n2 ↔ x.length % (specOf al).unit = 0 ∨ y = [] := by
  have hB := good al
  have get : ∀ (z : List Byte) (m : Nat) (q : List Byte), Fits al z.length out →
      pgfeEncode al S g z z.length out = .ok (m, q) → q.take m = (specOf al).libEncode z := by
    intro z m q hf he
    have h := enc_all al S hS g z [] out hg hf
    rw [List.append_nil, he, Except.ok.injEq, Prod.mk.injEq] at h
    obtain ⟨rfl, rfl⟩ := h
    simp
  rw [get x n1 o1 hx e1, get y n2 o2 hy e2, get (x ++ y) n o hxy e]
  constructor
  · intro h
    rcases Classical.em (x.length % (specOf al).unit = 0) with hm | hm
    · exact .inl hm
    right
    rcases Classical.em (y = []) with hy0 | hy0
    · exact hy0
    exfalso
    have hu := hB.unit_pos
    have hylen : 0 < y.length := List.length_pos_iff.2 hy0
    have hl := congrArg List.length h
    rw [List.length_append, libEncode_length hB, libEncode_length hB, libEncode_length hB, ← Nat.mul_add] at hl
    have hl := Nat.eq_of_mul_eq_mul_left hB.chars_pos hl
    -- the first `c` groups of the joined data
    generalize hc : (x.length + (specOf al).unit - 1) / (specOf al).unit = c at hl
    have hyc : 1 ≤ (y.length + (specOf al).unit - 1) / (specOf al).unit := by
      rw [Nat.le_div_iff_mul_le hu]; omega
    have hge : c * (specOf al).unit ≤ (x ++ y).length := by
      have h3 : c + 1 ≤ ((x ++ y).length + (specOf al).unit - 1) / (specOf al).unit := by omega
      rw [Nat.le_div_iff_mul_le hu, Nat.succ_mul] at h3
      omega
    have es : x ++ y = (x ++ y).take (c * (specOf al).unit) ++ (x ++ y).drop (c * (specOf al).unit) :=
      (List.take_append_drop _ _).symm
    have htl : ((x ++ y).take (c * (specOf al).unit)).length = c * (specOf al).unit := by
      rw [List.length_take]; omega
    rw [es, libEncode_whole al _ c _ htl] at h
    have hlen : ((specOf al).libEncode ((x ++ y).take (c * (specOf al).unit))).length = ((specOf al).libEncode x).length := by
      rw [libEncode_length hB, libEncode_length hB, hc, htl]
      congr 1
      rw [Nat.add_sub_assoc (by omega), Nat.mul_comm, Nat.mul_add_div hu, Nat.div_eq_of_lt (by omega)]
      omega
    have h1 := (List.append_inj h hlen).1
    exact whole_nopad al c _ htl (by rw [h1]; exact partial_pad al x hm)
  · rintro (h | rfl)
    · exact libEncode_whole al y _ x (whole_of_mod h)
    · rw [libEncode_nil, List.append_nil, List.append_nil]

theorem bytes_whole (al : BaseAlg) (ws : List Nat) : ∀ (k : Nat) (vs : List Nat), vs.length = k * (specOf al).chars →
    (specOf al).bytes (vs ++ ws) = (specOf al).bytes vs ++ (specOf al).bytes ws := by
  have hB := good al
  intro k
  induction k with
  | zero =>
    intro vs h
    have : vs = [] := List.length_eq_zero_iff.1 (by simpa using h)
    subst this
    simp [bytes_def]
  | succ k ih =>
    intro vs h
    have e1 : vs = vs.take (specOf al).chars ++ vs.drop (specOf al).chars := (List.take_append_drop _ _).symm
    have h1 : (vs.take (specOf al).chars).length = (specOf al).chars := by rw [List.length_take, h, Nat.add_mul]; omega
    have h2 : (vs.drop (specOf al).chars).length = k * (specOf al).chars := by rw [List.length_drop, h, Nat.add_mul]; omega
    rw [e1, List.append_assoc, bytes_append hB _ _ h1, ih _ h2, ← List.append_assoc, ← bytes_append hB _ _ h1]

theorem bytes_whole_length (al : BaseAlg) (k : Nat) (vs : List Nat) (h : vs.length = k * (specOf al).chars) :
    ((specOf al).bytes vs).length = k * (specOf al).unit := by
  rw [bytes_length, h, Nat.mul_assoc, (good al).eq, Nat.mul_left_comm, Nat.mul_div_cancel_left _ (by decide)]

theorem libDecode_whole (al : BaseAlg) (s t : List Byte) (k : Nat) (ht : t ≠ [])
    (hs : (s.filterMap (codeOf al)).length = k * (specOf al).chars) :
    (specOf al).libDecode (codeOf al) (s ++ t)
      = (specOf al).bytes (s.filterMap (codeOf al)) ++ (specOf al).libDecode (codeOf al) t := by
  have hB := good al
  have hp := hB.chars_pos
  have hg : (specOf al).groups (codeOf al) (s ++ t) = k + (specOf al).groups (codeOf al) t := by
    unfold BaseSpec.groups
    have : lastForeign (codeOf al) (s ++ t) = lastForeign (codeOf al) t := by
      unfold lastForeign
      rw [List.getLast?_append, List.getLast?_eq_some_getLast ht]
      rfl
    rw [this, List.filterMap_append, List.length_append, hs, Nat.mul_comm, Nat.mul_add_div hp, Nat.mul_add_mod]
    omega
  have h1 := groups_ge (code := codeOf al) hB t ht
  have hr : (specOf al).rawDecode (codeOf al) (s ++ t)
      = (specOf al).bytes (s.filterMap (codeOf al)) ++ (specOf al).rawDecode (codeOf al) t := by
    unfold BaseSpec.rawDecode
    rw [hg, List.filterMap_append, List.append_assoc, bytes_whole al _ k _ hs, List.length_append, hs, Nat.add_mul,
      Nat.add_sub_add_left]
  have hl := bytes_whole_length al k _ hs
  unfold BaseSpec.libDecode
  dsimp only
  rw [hg, hr, Nat.add_sub_assoc h1.1, Nat.add_mul, ← hl, List.take_append, List.drop_append]
  rw [List.take_of_length_le (by omega), List.drop_eq_nil_of_le (by omega), Nat.add_sub_cancel_left, List.nil_append,
    List.append_assoc]

/-- **C86, decoders, exact.**  If the characters of `s` that have a value form whole groups and `t` is not empty, decoding
`s ++ t` gives all the bytes of those groups, then what decoding `t` alone gives. -/
theorem C86_decode_exact (al : BaseAlg) (s t rest rest' out out' b : List Byte) (hs : 0#8 ∉ s) (ht : 0#8 ∉ t) (hne : t ≠ [])
    (hw : (s.filterMap (codeOf al)).length % (specOf al).chars = 0) (ho : DecFits al (s ++ t).length out)
    (ho' : DecFits al t.length out') (hb : Decoded (pgfeDecode al (t ++ 0#8 :: rest') out') b) :
    Decoded (pgfeDecode al (s ++ t ++ 0#8 :: rest) out) ((specOf al).bytes (s.filterMap (codeOf al)) ++ b) := by
  have h := C10_exact al (s ++ t) rest out (by rw [List.mem_append]; exact fun h => h.elim hs ht) (by simp [hne]) ho
  have h2 := C10_exact al t rest' out' ht hne ho'
  have e : b = (specOf al).libDecode (codeOf al) t := by
    obtain ⟨o1, e1, e2, _⟩ := hb
    obtain ⟨o2, f1, f2, _⟩ := h2
    rw [e1, Except.ok.injEq, Prod.mk.injEq] at f1
    obtain ⟨h1, rfl⟩ := f1
    rw [← e2, ← f2, h1]
  rw [libDecode_whole al s t _ hne (whole_of_mod hw), ← e] at h
  exact h

/-- **C86, decoders (partial).**  If decoding `s` returned all the bytes of its whole groups, decoding `s ++ t` returns
the bytes of `s`, then the bytes of `t`.  (Missing: pieces `s` of which the decoder cut the last group at a zero byte,
for which the claim is false: `C86_decode_violation`.) -/
theorem C86_decode_partial (al : BaseAlg) (s t rest rest' rest'' out out' out'' a b : List Byte) (hs : 0#8 ∉ s) (ht : 0#8 ∉ t)
    (hns : s ≠ []) (hne : t ≠ []) (hw : (s.filterMap (codeOf al)).length % (specOf al).chars = 0)
    (ho : DecFits al (s ++ t).length out) (ho' : DecFits al t.length out') (ho'' : DecFits al s.length out'')
    (ha : Decoded (pgfeDecode al (s ++ 0#8 :: rest'') out'') a)
    (hal : a.length = (s.filterMap (codeOf al)).length / (specOf al).chars * (specOf al).unit)
    (hb : Decoded (pgfeDecode al (t ++ 0#8 :: rest') out') b) :
    Decoded (pgfeDecode al (s ++ t ++ 0#8 :: rest) out) (a ++ b) := by
  have hB := good al
  have h := C86_decode_exact al s t rest rest' out out' b hs ht hne hw ho ho' hb
  have h2 := C10_exact al s rest'' out'' hs hns ho''
  have e : a = (specOf al).libDecode (codeOf al) s := by
    obtain ⟨o1, e1, e2, _⟩ := ha
    obtain ⟨o2, f1, f2, _⟩ := h2
    rw [e1, Except.ok.injEq, Prod.mk.injEq] at f1
    obtain ⟨h1, rfl⟩ := f1
    rw [← e2, ← f2, h1]
  have hl := bytes_whole_length al _ _ (whole_of_mod hw)
  generalize hk : (s.filterMap (codeOf al)).length / (specOf al).chars = k at hal hl
  have hvl : (s.filterMap (codeOf al)).length = k * (specOf al).chars := by rw [← hk]; exact whole_of_mod hw
  -- what was returned is a prefix of all the bytes of the groups
  have pre : a <+: (specOf al).rawDecode (codeOf al) s := by
    rw [e]
    unfold BaseSpec.libDecode
    dsimp only
    generalize (specOf al).rawDecode (codeOf al) s = r
    conv => rhs; rw [← List.take_append_drop (((specOf al).groups (codeOf al) s - 1) * (specOf al).unit) r]
    exact (List.prefix_append_right_inj _).2 (List.takeWhile_prefix _)
  have hraw : (specOf al).bytes (s.filterMap (codeOf al)) <+: (specOf al).rawDecode (codeOf al) s := by
    unfold BaseSpec.rawDecode
    rw [bytes_whole al _ k _ hvl]
    exact List.prefix_append _ _
  have : a = (specOf al).bytes (s.filterMap (codeOf al)) := by
    rw [List.prefix_iff_eq_take.1 pre, List.prefix_iff_eq_take.1 hraw, hal, hl]
  rw [← this] at h
  exact h

/-- **C86 is false of the decoders**: base64 `YQBi` is `61 00 62`; decoded alone it gives `61`, decoded in front of
another piece all three bytes. -/
theorem C86_decode_violation (out out2 : List Byte) (ho : 4 ≤ out.length) (ho2 : 7 ≤ out2.length) :
    Decoded (pgfeDecode .base64 (str "YQBi" ++ [0#8]) out) [0x61#8] ∧
    Decoded (pgfeDecode .base64 (str "YQBiYQBi" ++ [0#8]) out2) [0x61#8, 0x00#8, 0x62#8, 0x61#8] := by
  constructor
  · have := C10_exact .base64 (str "YQBi") [] out (by decide) (by decide) (by
      show 3 * ((4 + 4 - 1) / 4) + 1 ≤ out.length; omega)
    rw [show (specOf .base64).libDecode (codeOf .base64) (str "YQBi") = [0x61#8] by decide +kernel] at this
    exact this
  · have := C10_exact .base64 (str "YQBiYQBi") [] out2 (by decide) (by decide) (by
      show 3 * ((8 + 4 - 1) / 4) + 1 ≤ out2.length; omega)
    rw [show (specOf .base64).libDecode (codeOf .base64) (str "YQBiYQBi") = [0x61#8, 0x00#8, 0x62#8, 0x61#8] by decide +kernel] at this
    exact this

/-! ## Examples -/

/-- "foo", "bar" and "b" one after the other into an array of thirteen bytes. -/
theorem C86_example :
    encodePieces .base64 ⟨[1#8], [2#8, 3#8]⟩ (List.replicate 4 7#8) [str "foo", str "bar", str "b"] 0 (List.replicate 14 9#8)
      = .ok (12, str "Zm9vYmFyYg==" ++ [0#8, 9#8]) ∧
    pgfeEncode .base64 ⟨[1#8], [2#8, 3#8]⟩ (List.replicate 4 7#8) (str "foobarb") 7 (List.replicate 14 9#8)
      = .ok (12, str "Zm9vYmFyYg==" ++ [0#8, 9#8]) := by
  constructor <;> decide +kernel

/-- Cut elsewhere, the pieces do not join: "f" and "oo". -/
theorem C86_cut_example :
    encodePieces .base64 ⟨[1#8], [2#8, 3#8]⟩ (List.replicate 4 7#8) [str "f", str "oo"] 0 (List.replicate 9 9#8)
      = .ok (8, str "Zg==b28=" ++ [0#8]) := by decide +kernel

/-- "Zm9v" and "YmFy" meet the hypotheses of `C86_decode_partial`. -/
theorem C86_decode_example :
    Decoded (pgfeDecode .base64 (str "Zm9vYmFy" ++ [0#8]) (List.replicate 7 9#8)) (str "foo" ++ str "bar") := by
  have ha := C10_exact .base64 (str "Zm9v") [] (List.replicate 4 9#8) (by decide) (by decide) (by unfold DecFits; decide)
  have hb := C10_exact .base64 (str "YmFy") [] (List.replicate 4 9#8) (by decide) (by decide) (by unfold DecFits; decide)
  rw [show (specOf .base64).libDecode (codeOf .base64) (str "Zm9v") = str "foo" by decide +kernel] at ha
  rw [show (specOf .base64).libDecode (codeOf .base64) (str "YmFy") = str "bar" by decide +kernel] at hb
  exact C86_decode_partial .base64 (str "Zm9v") (str "YmFy") [] [] [] (List.replicate 7 9#8) (List.replicate 4 9#8)
    (List.replicate 4 9#8) (str "foo") (str "bar") (by decide) (by decide) (by decide) (by decide) (by decide +kernel)
    (by unfold DecFits; decide) (by unfold DecFits; decide) (by unfold DecFits; decide) ha (by decide +kernel) hb

end Pgfe.Props
