import Verif.Proofs.BaseRound
/-!
# C06–C12, C15: base 16/32/64 text

`specOf` names the RFC 4648 encoding each function is documented to implement and `codeOf` the
character values its decoder is documented to accept (Spec/Base.lean).  Encoder theorems assume
`Roomy S`: the memory behind two scratch arrays, which the encoder overruns, is accessible (C11).
`g` is the uninitialised contents of a scratch array, `junk` whatever follows the input.
-/
namespace Pgfe.Props
open Pgfe.Model Pgfe.Spec Pgfe.Proofs

/-- `⌈n / k⌉`. -/
def ceilDiv (n k : Nat) : Nat := (n + k - 1) / k

/-- The scratch array has its declared size. -/
def Scratch (al : BaseAlg) (g : List Byte) : Prop := (specOf al).chars ≤ g.length

/-- The output array is large enough for the text of `n` bytes. -/
def Fits (al : BaseAlg) (n : Nat) (out : List Byte) : Prop :=
  (specOf al).chars * ceilDiv n (specOf al).unit + 1 ≤ out.length

theorem enc_all (al : BaseAlg) (S : Slack) (hS : Roomy S) (g x junk out : List Byte)
    (hg : Scratch al g) (ho : Fits al x.length out) :
    pgfeEncode al S g (x ++ junk) x.length out
      = .ok (((specOf al).libEncode x).length, (specOf al).libEncode x ++
          0#8 :: out.drop (((specOf al).libEncode x).length + 1)) := by
  apply encode_ok al S hS g x junk out
  · rw [(params_eq al).1]; exact hg
  · rw [libEncode_length (good al)]; exact ho

/-! ## C06 -/

/-- The last data character of the RFC text of `x` stands for zero. -/
def EndsInZero (al : BaseAlg) (x : List Byte) : Prop := ((specOf al).digits x).getLast? = some 0

theorem rfc_iff (al : BaseAlg) (x : List Byte) : (specOf al).libEncode x = (specOf al).encode x ↔
    x.length % (specOf al).unit = 0 ∨ ¬ EndsInZero al x := by
  apply libEncode_rfc (good al)
  · intro d hd
    constructor
    · intro h
      have h1 := code_alphabet al d hd
      rw [h, zeroChar_code] at h1
      exact (Option.some.inj h1).symm
    · rintro rfl; rfl
  · cases al
    · left; rfl
    all_goals right; decide

/-- **C06 (partial).**  The encoder writes exactly the RFC 4648 text whenever the input is a whole
number of groups or its last data character does not stand for zero.  (Missing: the other inputs,
for which the claim is false, see `C06_exact`.) -/
theorem C06_partial (al : BaseAlg) (S : Slack) (hS : Roomy S) (g x junk out : List Byte)
    (hg : Scratch al g) (ho : Fits al x.length out)
    (h : x.length % (specOf al).unit = 0 ∨ ¬ EndsInZero al x) :
    pgfeEncode al S g (x ++ junk) x.length out
      = .ok (((specOf al).encode x).length,
          (specOf al).encode x ++ 0#8 :: out.drop (((specOf al).encode x).length + 1)) := by
  rw [enc_all al S hS g x junk out hg ho, (rfc_iff al x).mpr h]

/-- **C06, exact.**  For every input: the text written is the RFC 4648 text if and only if the
input is a whole number of groups or its last data character does not stand for zero. -/
theorem C06_exact (al : BaseAlg) (S : Slack) (hS : Roomy S) (g x junk out : List Byte)
    (hg : Scratch al g) (ho : Fits al x.length out) :
    (∃ n o, pgfeEncode al S g (x ++ junk) x.length out = .ok (n, o) ∧
      o.take n = (specOf al).encode x) ↔ x.length % (specOf al).unit = 0 ∨ ¬ EndsInZero al x := by
  rw [enc_all al S hS g x junk out hg ho, ← rfc_iff]
  constructor
  · rintro ⟨n, o, h1, h2⟩
    rw [Except.ok.injEq, Prod.mk.injEq] at h1
    obtain ⟨rfl, rfl⟩ := h1
    rw [← h2]; simp
  · intro h
    exact ⟨_, _, rfl, by simp [h]⟩

/-- **C06, base16** conforms for every input. -/
theorem C06_base16 (S : Slack) (hS : Roomy S) (g x junk out : List Byte)
    (hg : 2 ≤ g.length) (ho : 2 * x.length + 1 ≤ out.length) :
    pgfeEncode .base16 S g (x ++ junk) x.length out
      = .ok (2 * x.length, rfcBase16.encode x ++ 0#8 :: out.drop (2 * x.length + 1)) := by
  have hf : Fits .base16 x.length out := by
    show 2 * ((x.length + 1 - 1) / 1) + 1 ≤ _
    simpa using ho
  have h := C06_partial .base16 S hS g x junk out hg hf (.inl (Nat.mod_one _))
  have hl : ((specOf .base16).encode x).length = 2 * x.length := by
    rw [← (rfc_iff .base16 x).mpr (.inl (Nat.mod_one _)), libEncode_length (good .base16)]
    show 2 * ((x.length + 1 - 1) / 1) = _
    simp
  rw [hl] at h
  exact h

/-- **C06 is false of the code**: base64 of `d` (0x64) is `ZA==`, the library writes `Z===`. -/
theorem C06_counterexample (S : Slack) (hS : Roomy S) (g out : List Byte) (hg : 4 ≤ g.length)
    (ho : 5 ≤ out.length) :
    pgfeEncode .base64 S g (str "d") 1 out = .ok (4, str "Z===" ++ 0#8 :: out.drop 5) ∧
    rfcBase64.encode (str "d") = str "ZA==" := by
  refine ⟨?_, by decide +kernel⟩
  have := enc_all .base64 S hS g (str "d") [] out hg
    (by show 4 * ((1 + 3 - 1) / 3) + 1 ≤ _; simpa using ho)
  rw [List.append_nil, show (specOf .base64).libEncode (str "d") = str "Z===" by decide +kernel] at this
  exact this

/-! ## C07 -/

/-- The characters that may occur in a text. -/
def InAlphabet (al : BaseAlg) (c : Byte) : Prop := c ∈ (specOf al).alphabet ∨ c = padChar

theorem alphabet_mem (al : BaseAlg) (d : Nat) (hd : d < 2 ^ (specOf al).bits) :
    (specOf al).alphabet.getD d 0#8 ∈ (specOf al).alphabet := by
  have : (specOf al).alphabet.length = 2 ^ (specOf al).bits := by cases al <;> decide +kernel
  have hd' : d < (specOf al).alphabet.length := by omega
  rw [List.getD_eq_getElem?_getD, List.getElem?_eq_getElem hd']
  exact List.getElem_mem _

theorem libEncode_alphabet (al : BaseAlg) (x : List Byte) :
    ∀ c ∈ (specOf al).libEncode x, InAlphabet al c := by
  have hB := good al
  have hmap : ∀ y, ∀ c ∈ ((specOf al).digits y).map (fun d => (specOf al).alphabet.getD d 0#8),
      c ∈ (specOf al).alphabet := by
    intro y c hc
    obtain ⟨d, hd, rfl⟩ := List.mem_map.mp hc
    exact alphabet_mem al d (digits_lt_pow y d hd)
  refine group_induction (P := fun x => ∀ c ∈ (specOf al).libEncode x, InAlphabet al c)
    (specOf al).unit hB.unit_pos ?_ ?_ ?_ x
  · rw [libEncode_nil]; simp
  · intro p h0 hp c hc
    rw [libEncode_partial p h0 hp] at hc
    unfold BaseSpec.libLast at hc
    rcases List.mem_append.mp hc with hc | hc
    · left
      obtain ⟨k, hk⟩ := dropTrailing_append (specOf al).zeroChar
        (((specOf al).digits p).map (fun d => (specOf al).alphabet.getD d 0#8))
      exact hmap p c (by rw [hk]; exact List.mem_append.mpr (.inl hc))
    · right; exact (List.mem_replicate.mp hc).2
  · intro u y hu ih c hc
    rw [libEncode_append hB u y hu] at hc
    rcases List.mem_append.mp hc with hc | hc
    · exact .inl (hmap u c hc)
    · exact ih c hc

/-- **C07.**  Length, NUL, alphabet, and the rest of the output untouched. -/
theorem C07 (al : BaseAlg) (S : Slack) (hS : Roomy S) (g x junk out : List Byte)
    (hg : Scratch al g) (ho : Fits al x.length out) :
    ∃ text, pgfeEncode al S g (x ++ junk) x.length out
        = .ok ((specOf al).chars * ceilDiv x.length (specOf al).unit,
            text ++ 0#8 :: out.drop (text.length + 1)) ∧
      text.length = (specOf al).chars * ceilDiv x.length (specOf al).unit ∧
      ∀ c ∈ text, InAlphabet al c := by
  refine ⟨(specOf al).libEncode x, ?_, libEncode_length (good al) x, libEncode_alphabet al x⟩
  rw [enc_all al S hS g x junk out hg ho]
  rw [← show _ = (specOf al).chars * ceilDiv x.length (specOf al).unit from libEncode_length (good al) x]

/-! ## C08 -/

/-- What decoder output `(n, o)` holds: the bytes, then a NUL. -/
def Decoded (r : C (Nat × List Byte)) (bytes : List Byte) : Prop :=
  ∃ o, r = .ok (bytes.length, o) ∧ o.take bytes.length = bytes ∧ o[bytes.length]? = some 0#8

theorem decoded_ok (al : BaseAlg) (s rest out : List Byte) (hs : 0#8 ∉ s) (hne : s ≠ [])
    (ho : ((specOf al).rawDecode (codeOf al) s).length + 1 ≤ out.length) :
    Decoded (pgfeDecode al (s ++ 0#8 :: rest) out) ((specOf al).libDecode (codeOf al) s) := by
  obtain ⟨tail, h1, _, _⟩ := decode_ok al s rest out hs hne ho
  exact ⟨_, h1, by simp, by simp⟩

/-- The output array is large enough for the decoding of an `n`-character text. -/
def DecFits (al : BaseAlg) (n : Nat) (out : List Byte) : Prop :=
  (specOf al).unit * ceilDiv n (specOf al).chars + 1 ≤ out.length

theorem raw_le (al : BaseAlg) (s : List Byte) :
    ((specOf al).rawDecode (codeOf al) s).length
      ≤ (specOf al).unit * ceilDiv s.length (specOf al).chars := by
  have hB := good al
  have hc := hB.chars_pos
  by_cases hne : s = []
  · subst hne
    have : (specOf al).rawDecode (codeOf al) [] = [] := by
      simp [BaseSpec.rawDecode, BaseSpec.groups, lastForeign, bytes_def]
    rw [this]; simp
  rw [rawDecode_length hB s hne, Nat.mul_comm]
  apply Nat.mul_le_mul_left
  have hm := List.length_filterMap_le (codeOf al) s
  unfold ceilDiv
  have hpos : 0 < s.length := List.length_pos_iff.mpr hne
  by_cases hl : lastForeign (codeOf al) s = true
  · -- the last character has no value
    have hm' : (s.filterMap (codeOf al)).length ≤ s.length - 1 := by
      unfold lastForeign at hl
      rw [List.getLast?_eq_some_getLast hne] at hl
      dsimp only at hl
      have h1 : s = s.dropLast ++ [s.getLast hne] := (List.dropLast_concat_getLast hne).symm
      have h2 : s.filterMap (codeOf al) = s.dropLast.filterMap (codeOf al) := by
        conv => lhs; rw [h1]
        rw [List.filterMap_append]
        have : codeOf al (s.getLast hne) = none := by
          cases h : codeOf al (s.getLast hne) with
          | none => rfl
          | some v => rw [h] at hl; simp at hl
        rw [List.filterMap_cons_none this]
        simp
      rw [h2]
      have := List.length_filterMap_le (codeOf al) s.dropLast
      rw [List.length_dropLast] at this
      exact this
    unfold BaseSpec.groups
    rw [if_pos (.inr hl), show s.length + (specOf al).chars - 1 = (s.length - 1) + (specOf al).chars by
      omega, Nat.add_div_right _ hc]
    exact Nat.succ_le_succ (Nat.div_le_div_right hm')
  · rw [groups_eq_ceil hB s (by simpa using hl)]
    apply Nat.div_le_div_right; omega

/-- **C08, exact.**  For every non-empty input, decoding the text the encoder wrote (whatever
follows its NUL) gives the input with its last group cut at its first zero byte. -/
theorem C08_exact (al : BaseAlg) (S : Slack) (hS : Roomy S) (g x junk out text rest dout : List Byte)
    (n : Nat) (hg : Scratch al g) (ho : Fits al x.length out) (hx : x ≠ [])
    (he : pgfeEncode al S g (x ++ junk) x.length out = .ok (n, text ++ 0#8 :: rest))
    (hn : text.length = n) (hd : DecFits al n dout) :
    Decoded (pgfeDecode al (text ++ 0#8 :: rest) dout) (cutLast (specOf al).unit x) := by
  have hB := good al
  rw [enc_all al S hS g x junk out hg ho, Except.ok.injEq, Prod.mk.injEq] at he
  obtain ⟨rfl, hb⟩ := he
  have ht : (specOf al).libEncode x = text := (List.append_inj hb hn.symm).1
  have hc := carries_libEncode al x
  rw [ht] at hc
  have hne : text ≠ [] := by
    intro h
    rw [h] at hc
    have h2 := hc.2
    rw [digits_length_whole hB _ _ (zpad_length hB x)] at h2
    have h3 : 0 < x.length := List.length_pos_iff.mpr hx
    have h4 : 0 < ngroups (specOf al) x.length := by
      unfold ngroups; apply Nat.div_pos _ hB.unit_pos; omega
    have := Nat.mul_pos h4 hB.chars_pos
    simp at h2; omega
  have hz := digits_zpad hB x
  have hdl := bdigits_le hB x
  have hv := libDecode_of_vals hB text x
    (ngroups (specOf al) x.length * (specOf al).chars - ((specOf al).digits x).length)
    hx (carries_lastForeign hc) (by rw [hc.1, hz]) (by omega)
  rw [← hv.2]
  apply decoded_ok al text rest dout (carries_nozero hc) hne
  have h1 := raw_le al text
  have h2 : DecFits al text.length dout := by rw [hn]; exact hd
  unfold DecFits at h2
  omega

theorem takeWhile_nozero (l : List Byte) (hl : 0#8 ∉ l) : l.takeWhile (· != 0#8) = l := by
  induction l with
  | nil => rfl
  | cons a l ih =>
    have ha : a ≠ 0#8 := fun e => hl (by simp [e])
    rw [List.takeWhile_cons_of_pos (by simpa using ha), ih (fun h => hl (by simp [h]))]

/-- **C08 (partial).**  If the last group of the input contains no zero byte, decoding the text
gives back the input.  (Missing: inputs with a zero byte in their last group, for which the claim
is false: `C08_counterexample`.) -/
theorem C08_partial (al : BaseAlg) (S : Slack) (hS : Roomy S) (g x junk out text rest dout : List Byte)
    (n : Nat) (hg : Scratch al g) (ho : Fits al x.length out) (hx : x ≠ [])
    (he : pgfeEncode al S g (x ++ junk) x.length out = .ok (n, text ++ 0#8 :: rest))
    (hn : text.length = n) (hd : DecFits al n dout)
    (hlast : 0#8 ∉ x.drop ((x.length - 1) / (specOf al).unit * (specOf al).unit)) :
    Decoded (pgfeDecode al (text ++ 0#8 :: rest) dout) x := by
  have h := C08_exact al S hS g x junk out text rest dout n hg ho hx he hn hd
  have : cutLast (specOf al).unit x = x := by
    unfold cutLast
    dsimp only
    rw [takeWhile_nozero _ hlast, List.take_append_drop]
  rwa [this] at h

/-- **C08 is false of the code**: base64 of the bytes 61 00 62 decodes to 61. -/
theorem C08_counterexample :
    pgfeEncode .base64 ⟨[0#8], [0#8, 0#8]⟩ (List.replicate 4 0#8) [0x61#8, 0x00#8, 0x62#8] 3
        (List.replicate 5 0#8) = .ok (4, str "YQBi" ++ [0#8]) ∧
    ∃ o, pgfeDecode .base64 (str "YQBi" ++ [0#8]) (List.replicate 4 0#8) = .ok (1, o) := by
  refine ⟨by decide +kernel, [0x61#8, 0#8, 0x62#8, 0#8], by decide +kernel⟩

/-! ## C09 -/

/-- **C09.**  RFC 4648 text, with any number of its trailing padding characters removed, decodes to
the same bytes as the library's own text: the input, its last group cut at its first zero byte. -/
theorem C09 (al : BaseAlg) (x t rest dout : List Byte) (k : Nat) (hx : x ≠ [])
    (ht : (specOf al).encode x = t ++ List.replicate k padChar)
    (hk : ((specOf al).digits x).length ≤ t.length) (hd : DecFits al t.length dout) :
    Decoded (pgfeDecode al (t ++ 0#8 :: rest) dout) (cutLast (specOf al).unit x) := by
  have hB := good al
  obtain ⟨hc, hl⟩ := carries_encode al x t k ht hk
  have hne : t ≠ [] := by
    have := bdigits_pos hB x hx
    intro h; rw [h, List.length_nil] at hk; omega
  have hv := libDecode_of_vals hB t x _ hx (carries_lastForeign hc) hc.1 (by
    rw [Nat.add_sub_cancel' hk]; exact hl)
  rw [← hv.2]
  apply decoded_ok al t rest dout (carries_nozero hc) hne
  have h1 := raw_le al t
  unfold DecFits at hd
  omega

/-- C09 covers e.g. `Zm9vYg` for `foob`. -/
theorem C09_example : rfcBase64.encode (str "foob") = str "Zm9vYg" ++ List.replicate 2 padChar := by
  decide +kernel

/-! ## C10 -/

/-- Same returned length, same decoded bytes. -/
def SameDecode (r r' : C (Nat × List Byte)) : Prop := ∃ bytes, Decoded r bytes ∧ Decoded r' bytes

/-- **C10, foreign characters (partial).**  If the text ends with a character the decoder knows,
removing all characters it does not know changes nothing.  (Missing: texts ending with an unknown
character, for which the claim is false: `C10_counterexample`.) -/
theorem C10_foreign_partial (al : BaseAlg) (s rest rest' out out' : List Byte) (hs : 0#8 ∉ s)
    (hne : s ≠ []) (hlast : lastForeign (codeOf al) s = false)
    (ho : DecFits al s.length out) (ho' : DecFits al s.length out') :
    SameDecode (pgfeDecode al (s ++ 0#8 :: rest) out)
      (pgfeDecode al (s.filter (fun c => (codeOf al c).isSome) ++ 0#8 :: rest') out') := by
  have hf : (s.filter (fun c => (codeOf al c).isSome)).filterMap (codeOf al)
      = s.filterMap (codeOf al) := by
    rw [List.filterMap_filter]
    congr 1
    funext c
    cases codeOf al c <;> simp
  have hl : lastForeign (codeOf al) (s.filter (fun c => (codeOf al c).isSome)) = false := by
    apply all_valued
    intro c hc
    exact (List.mem_filter.mp hc).2
  have hlast' := hlast
  unfold lastForeign at hlast'
  rw [List.getLast?_eq_some_getLast hne] at hlast'
  dsimp only at hlast'
  have hne' : s.filter (fun c => (codeOf al c).isSome) ≠ [] := by
    intro h
    rw [List.filter_eq_nil_iff] at h
    have := h _ (List.getLast_mem hne)
    cases hh : codeOf al (s.getLast hne) <;> simp_all
  obtain ⟨hr, hd⟩ := libDecode_congr (B := specOf al) _ s hf (by rw [hl, hlast])
  have h1 := raw_le al s
  unfold DecFits at ho ho'
  refine ⟨_, decoded_ok al s rest out hs hne (by omega), ?_⟩
  rw [← hd]
  exact decoded_ok al _ rest' out' (fun h => hs (List.mem_filter.mp h).1) hne' (by rw [hr]; omega)

/-- **C10 is false of the code for a trailing foreign character**: `YQBi` decodes to
one byte, the same text with a line feed to three. -/
theorem C10_counterexample :
    (∃ o, pgfeDecode .base64 (str "YQBi" ++ [0#8]) (List.replicate 4 0#8) = .ok (1, o)) ∧
    (∃ o, pgfeDecode .base64 (str "YQBi\n" ++ [0#8]) (List.replicate 7 0#8) = .ok (3, o)) :=
  ⟨⟨[0x61#8, 0#8, 0x62#8, 0#8], by decide +kernel⟩,
   ⟨[0x61#8, 0#8, 0x62#8, 0#8, 0#8, 0#8, 0#8], by decide +kernel⟩⟩

theorem decode_map_same (al : BaseAlg) (f : Byte → Byte) (hf : ∀ c, codeOf al (f c) = codeOf al c)
    (hf0 : ∀ c, c ≠ 0#8 → f c ≠ 0#8) (s rest rest' out out' : List Byte) (hs : 0#8 ∉ s)
    (hne : s ≠ []) (ho : DecFits al s.length out) (ho' : DecFits al s.length out') :
    SameDecode (pgfeDecode al (s ++ 0#8 :: rest) out)
      (pgfeDecode al (s.map f ++ 0#8 :: rest') out') := by
  have h1 : (s.map f).filterMap (codeOf al) = s.filterMap (codeOf al) := by
    rw [List.filterMap_map]; congr 1; funext c; exact hf c
  have h2 : lastForeign (codeOf al) (s.map f) = lastForeign (codeOf al) s := by
    unfold lastForeign
    rw [List.getLast?_map]
    cases s.getLast? with
    | none => rfl
    | some c => simp [hf]
  obtain ⟨hr, hd⟩ := libDecode_congr (B := specOf al) _ s h1 h2
  have h3 := raw_le al s
  unfold DecFits at ho ho'
  refine ⟨_, decoded_ok al s rest out hs hne (by omega), ?_⟩
  rw [← hd]
  refine decoded_ok al _ rest' out' ?_ (by simpa using hne) (by rw [hr]; omega)
  intro h
  obtain ⟨c, hc, hc0⟩ := List.mem_map.mp h
  exact hf0 c (fun e => hs (e ▸ hc)) hc0

/-- **C10, case.**  Base16/32/32hex text may be given in either case, whatever else it contains. -/
theorem C10_case (al : BaseAlg) (hal : al = .base16 ∨ al = .base32 ∨ al = .base32hex)
    (s rest rest' out out' : List Byte) (hs : 0#8 ∉ s) (hne : s ≠ [])
    (ho : DecFits al s.length out) (ho' : DecFits al s.length out') :
    SameDecode (pgfeDecode al (s ++ 0#8 :: rest) out)
      (pgfeDecode al (s.map upper ++ 0#8 :: rest') out') := by
  apply decode_map_same al upper _ _ s rest rest' out out' hs hne ho ho'
  · rcases hal with rfl | rfl | rfl <;> decide +kernel
  · decide +kernel

/-- The URL-safe variant of a base64 character. -/
def toUrl (c : Byte) : Byte := if c = 0x2B#8 then 0x2D#8 else if c = 0x2F#8 then 0x5F#8 else c

/-- **C10, alphabets.**  The base64 decoder accepts the standard and the URL-safe alphabet
interchangeably. -/
theorem C10_url (s rest rest' out out' : List Byte) (hs : 0#8 ∉ s) (hne : s ≠ [])
    (ho : DecFits .base64 s.length out) (ho' : DecFits .base64 s.length out') :
    SameDecode (pgfeDecode .base64 (s ++ 0#8 :: rest) out)
      (pgfeDecode .base64 (s.map toUrl ++ 0#8 :: rest') out') :=
  decode_map_same .base64 toUrl (by decide +kernel) (by decide +kernel) s rest rest' out out' hs hne ho ho'

/-! ## C11 -/

/-- **C11 is false of the code**: with nothing accessible behind the scratch arrays, every encoder
call on a non-empty input leaves them. -/
theorem C11_overrun (al : BaseAlg) (S : Slack) (hS : ¬ Roomy S) (g x junk out : List Byte)
    (hx : x ≠ []) (hg : Scratch al g) :
    ∃ e, pgfeEncode al S g (x ++ junk) x.length out = .error e ∧ (e = .oobRead ∨ e = .oobWrite) := by
  obtain ⟨p1, p2, p3⟩ := params_eq al
  have hu := (good al).unit_pos
  have hx0 : 0 < x.length := List.length_pos_iff.mpr hx
  have hnr : S.behindUnit = [] ∨ S.behindSplit.length < 2 := by
    unfold Roomy at hS
    cases h : S.behindUnit with
    | nil => exact .inl rfl
    | cons a l =>
      right
      rw [h] at hS
      simp at hS
      omega
  obtain ⟨N, hN⟩ : ∃ N, (x.length + al.params.unitSize - 1) / al.params.unitSize = N + 1 := by
    have : 0 < (x.length + al.params.unitSize - 1) / al.params.unitSize := by
      rw [p2]; apply Nat.div_pos <;> omega
    exact ⟨(x.length + al.params.unitSize - 1) / al.params.unitSize - 1, by omega⟩
  have huts : ∀ (u : List Byte) (b : Bool), u.length = (specOf al).unit →
      ∃ e, unittostr S al.params g al.alphabet u b = .error e ∧ (e = .oobRead ∨ e = .oobWrite) := by
    intro u b hul
    obtain ⟨e, he, hee⟩ := transform_ub al u (g.take al.params.chunkCount) S.behindUnit S.behindSplit
      (by rw [p2, hul]) (by rw [List.length_take, p1]; unfold Scratch at hg; omega) hnr
    refine ⟨e, ?_, hee⟩
    unfold unittostr
    rw [he, bind_err]
  unfold pgfeEncode encodeBase
  rw [hN, forN_cons]
  dsimp only
  rw [Nat.zero_mul, Nat.sub_zero, p2]
  by_cases hlt : x.length < (specOf al).unit
  · rw [if_pos hlt, rds_ok (by simp), bind_ok, bind_ok]
    dsimp only
    obtain ⟨e, he, hee⟩ := huts (splice (List.replicate (specOf al).unit 0#8) 0
      (List.take x.length (List.drop 0 (x ++ junk)))) ((specOf al).unit - x.length != 0)
      (by rw [splice_length]; · simp
          · simp; omega)
    rw [he, bind_err, bind_err, bind_err]
    exact ⟨e, rfl, hee⟩
  · rw [if_neg hlt, rds_ok (by simp; omega), bind_ok, bind_ok]
    dsimp only
    obtain ⟨e, he, hee⟩ := huts (List.take (specOf al).unit (List.drop 0 (x ++ junk)))
      ((specOf al).unit - (specOf al).unit != 0) (by simp; omega)
    rw [he, bind_err, bind_err, bind_err]
    exact ⟨e, rfl, hee⟩

/-- **C11 (partial).**  If the bytes behind the scratch arrays are accessible, the call leaves no
other array, and neither those bytes nor the uninitialised scratch contents nor what follows the
input influences the result.  (Missing: safety without that assumption, which is false.) -/
theorem C11_partial (al : BaseAlg) (S S' : Slack) (hS : Roomy S) (hS' : Roomy S')
    (g g' x junk junk' out : List Byte) (hg : Scratch al g) (hg' : Scratch al g')
    (ho : Fits al x.length out) :
    pgfeEncode al S g (x ++ junk) x.length out = pgfeEncode al S' g' (x ++ junk') x.length out ∧
    ∃ r, pgfeEncode al S g (x ++ junk) x.length out = .ok r := by
  rw [enc_all al S hS g x junk out hg ho, enc_all al S' hS' g' x junk' out hg' ho]
  exact ⟨rfl, _, rfl⟩

/-! ## C12 -/

/-- **C12.**  A decoder called on a non-empty text of `n` characters succeeds with any output array
of `unit·⌈n/chars⌉+1` bytes and leaves everything behind that many bytes untouched. -/
theorem C12 (al : BaseAlg) (s rest out : List Byte) (hs : 0#8 ∉ s) (hne : s ≠ [])
    (ho : DecFits al s.length out) :
    ∃ n o, pgfeDecode al (s ++ 0#8 :: rest) out = .ok (n, o) ∧ o.length = out.length ∧
      n ≤ (specOf al).unit * ceilDiv s.length (specOf al).chars ∧
      o.drop ((specOf al).unit * ceilDiv s.length (specOf al).chars + 1)
        = out.drop ((specOf al).unit * ceilDiv s.length (specOf al).chars + 1) := by
  have h1 := raw_le al s
  unfold DecFits at ho
  obtain ⟨tail, h2, h3, h4⟩ := decode_ok al s rest out hs hne (by omega)
  refine ⟨_, _, h2, h3, ?_, ?_⟩
  · refine Nat.le_trans ?_ h1
    unfold BaseSpec.libDecode
    dsimp only
    rw [List.length_append]
    have := (List.takeWhile_sublist (l := ((specOf al).rawDecode (codeOf al) s).drop
      (((specOf al).groups (codeOf al) s - 1) * (specOf al).unit)) (· != 0#8)).length_le
    rw [List.length_drop] at this
    rw [List.length_take]
    generalize (specOf al).unit * ceilDiv s.length (specOf al).chars = zz at *
    generalize ((specOf al).groups (codeOf al) s - 1) * (specOf al).unit = yy at *
    generalize ((specOf al).rawDecode (codeOf al) s).length = ww at *
    show _ + _ ≤ _
    refine Nat.le_trans (Nat.add_le_add_left this _) ?_
    omega
  · have e : (specOf al).unit * ceilDiv s.length (specOf al).chars + 1 =
        ((specOf al).rawDecode (codeOf al) s).length + 1 +
        ((specOf al).unit * ceilDiv s.length (specOf al).chars
          - ((specOf al).rawDecode (codeOf al) s).length) := by omega
    rw [e, ← List.drop_drop, h4, List.drop_drop]

/-- **C12, the bound is reached.**  For every number `k ≥ 1` of groups there is a text of
`k·chars` characters on which an output array of only `unit·k` bytes is overrun. -/
theorem C12_tight (al : BaseAlg) (k : Nat) (hk : 0 < k) :
    ∃ s : List Byte, s.length = k * (specOf al).chars ∧ 0#8 ∉ s ∧ ∀ rest out : List Byte,
      out.length = (specOf al).unit * k → pgfeDecode al (s ++ 0#8 :: rest) out = .error .oobWrite := by
  have hB := good al
  obtain ⟨p1, p2, p3⟩ := params_eq al
  have hu := hB.unit_pos
  -- the text of k groups of 0x61 bytes
  let x : List Byte := List.replicate (k * (specOf al).unit) 0x61#8
  have hxl : x.length = k * (specOf al).unit := by simp [x]
  have hx : x ≠ [] := by
    intro h
    have := congrArg List.length h
    rw [hxl] at this
    have := Nat.mul_pos hk hu
    simp at *; omega
  have hng : ngroups (specOf al) x.length = k := by
    unfold ngroups
    rw [hxl, Nat.add_sub_assoc (by omega), Nat.add_comm, Nat.add_mul_div_right _ _ hu,
      Nat.div_eq_of_lt (by omega), Nat.zero_add]
  have hzp : zpad (specOf al) x = x := by unfold zpad; rw [hng, ← hxl]; simp
  have hc := carries_map al x
  generalize hs : ((specOf al).digits x).map (fun d => (specOf al).alphabet.getD d 0#8) = s at *
  have hsl : s.length = k * (specOf al).chars := by
    rw [hc.2, digits_length_whole hB x k hxl]
  refine ⟨s, hsl, carries_nozero hc, fun rest out hout => ?_⟩
  have hne : s ≠ [] := by
    intro h
    rw [h] at hsl
    have := Nat.mul_pos hk hB.chars_pos
    simp at hsl; omega
  have hv := libDecode_of_vals hB s x 0 hx (carries_lastForeign hc) (by rw [hc.1]; simp)
    (by rw [hng, digits_length_whole hB x k hxl]; omega)
  have hrl : ((specOf al).rawDecode (codeOf al) s).length = out.length := by
    rw [hv.1, hzp, hxl, hout, Nat.mul_comm]
  have hloop := decLoop_spec al rest s.length s (Nat.le_refl _) hne (carries_nozero hc)
    ((s ++ 0#8 :: rest).length + 1) 0#64 [] out none (by simp; omega) (by omega)
  simp only [List.length_nil, List.nil_append, Nat.zero_add] at hloop
  unfold pgfeDecode decodeBase
  rw [hloop, bind_ok]
  dsimp only
  have hgr : (specOf al).groups (codeOf al) s = k := by
    have := rawDecode_length (code := codeOf al) hB s hne
    rw [hrl, hout, Nat.mul_comm] at this
    exact (Nat.eq_of_mul_eq_mul_right hu this).symm
  have hlast : lastUnit (specOf al) (codeOf al) s = List.replicate (specOf al).unit 0x61#8 := by
    unfold lastUnit
    rw [hv.1, hzp, hgr]
    show (List.replicate (k * (specOf al).unit) 0x61#8).drop _ = _
    rw [List.drop_replicate, Nat.sub_mul, Nat.one_mul]
    congr 1
    have : (specOf al).unit ≤ k * (specOf al).unit := Nat.le_mul_of_pos_left _ hk
    omega
  rw [hlast, hrl, List.drop_length, List.append_nil, hv.1, hzp, p2]
  have hsplit : x = List.replicate ((k - 1) * (specOf al).unit) 0x61#8 ++
      (List.replicate (specOf al).unit 0x61#8 ++ []) := by
    rw [List.append_nil, List.replicate_append_replicate]
    show List.replicate _ _ = _
    congr 1
    rw [← Nat.succ_mul]; congr 1; omega
  have hp : out.length - (specOf al).unit
      = (List.replicate ((k - 1) * (specOf al).unit) 0x61#8).length := by
    rw [List.length_replicate, hout, Nat.mul_comm, Nat.sub_mul, Nat.one_mul]
  have hcnt := countLoop_spec (List.replicate ((k - 1) * (specOf al).unit) 0x61#8)
    (List.replicate (specOf al).unit 0x61#8) [] (specOf al).unit 0 (by simp)
  rw [← hsplit, ← hp] at hcnt
  rw [hcnt, bind_ok]
  have htw : ((List.replicate (specOf al).unit 0x61#8).drop 0).takeWhile (· != 0#8)
      = List.replicate (specOf al).unit 0x61#8 := by
    rw [List.drop_zero, takeWhile_nozero]
    intro h
    have := (List.mem_replicate.mp h).2
    revert this; decide
  rw [htw, List.length_replicate, Nat.zero_add]
  have : x.length ≤ out.length - (specOf al).unit + (specOf al).unit := by
    rw [hxl, hout, Nat.mul_comm]; omega
  unfold wr
  rw [if_neg (by omega)]
  rfl

/-- **C12 for the empty text is false of the code**: the byte count is taken at
`out - unit_size`. -/
theorem C12_empty (al : BaseAlg) (rest out : List Byte) :
    pgfeDecode al (0#8 :: rest) out = .error .oobRead := by
  cases al <;> rfl

/-! ## C15 -/

theorem lastDigit_zero {B : BaseSpec} (hB : Good B) (x : List Byte) (hx : x ≠ [])
    (hm : x.length % B.unit ≠ 0) : (B.libEncode x).getLast? = some padChar := by
  have hn : x.length % B.unit ≠ 0 → x ≠ [] → (B.libEncode x).getLast? = some padChar := by
    refine group_induction (P := fun x => x.length % B.unit ≠ 0 → x ≠ [] →
      (B.libEncode x).getLast? = some padChar) B.unit hB.unit_pos ?_ ?_ ?_ x
    · intro _ h; exact absurd rfl h
    · intro p h0 hp _ _
      rw [libEncode_partial p h0 hp]
      have hp0 : 0 < p.length := List.length_pos_iff.mpr h0
      unfold BaseSpec.libLast
      dsimp only
      have hd := dropTrailing_length_le B.zeroChar ((B.digits p).map (fun d => B.alphabet.getD d 0#8))
      -- one character short of a group, or its last digit is zero
      by_cases hlt : (B.digits p).length < B.chars
      · rw [List.length_map] at hd
        obtain ⟨k, hk⟩ : ∃ k, B.chars - (dropTrailing B.zeroChar
          ((B.digits p).map (fun d => B.alphabet.getD d 0#8))).length = k + 1 :=
            Nat.exists_eq_succ_of_ne_zero (by omega)
        rw [hk, List.replicate_succ', ← List.append_assoc, List.getLast?_concat]
      · exfalso
        -- 8 * p.length ≤ 8 * unit - 8 bits need at most chars - 1 characters
        apply hlt
        rw [digits_length, Nat.div_lt_iff_lt_mul hB.bits_pos, hB.eq]
        have := hB.bits_le
        have := hB.bits_pos
        omega
    · intro u y hu ih h _
      rw [List.length_append, hu, Nat.add_mod_left] at h
      have hy : y ≠ [] := by rintro rfl; simp at h
      rw [libEncode_append hB u y hu, List.getLast?_append, ih h hy]; rfl
  exact hn hm hx

theorem lastDigit_data (al : BaseAlg) (x : List Byte) (hx : x ≠ [])
    (hm : x.length % (specOf al).unit = 0) : ((specOf al).libEncode x).getLast? ≠ some padChar := by
  have hB := good al
  rw [(rfc_iff al x).mpr (.inl hm)]
  obtain ⟨k, hk⟩ : ∃ k, x.length = k * (specOf al).unit :=
    ⟨x.length / (specOf al).unit, (Nat.div_mul_cancel (Nat.dvd_of_mod_eq_zero hm)).symm⟩
  unfold BaseSpec.encode
  rw [digits_length_whole hB x k hk, Nat.mul_mod_left, Nat.sub_zero, Nat.mod_self,
    List.replicate_zero, List.append_nil, List.getLast?_map]
  intro h
  obtain ⟨d, hd1, hd2⟩ := Option.map_eq_some_iff.mp h
  have h1 := digits_lt_pow x d (List.mem_of_getLast? hd1)
  have h2 := alphabet_mem al d h1
  rw [hd2] at h2
  revert h2
  cases al <;> decide

/-- `y` is `x` with zero bytes appended or removed at the end, inside the same partial final group. -/
def SameZeroPadded (unit : Nat) (x y : List Byte) : Prop :=
  x.length % unit ≠ 0 ∧ y.length % unit ≠ 0 ∧ x.length / unit = y.length / unit ∧
  x ++ List.replicate (unit - x.length % unit) 0#8 = y ++ List.replicate (unit - y.length % unit) 0#8

theorem zpad_partial {B : BaseSpec} (hB : Good B) (x : List Byte) (hm : x.length % B.unit ≠ 0) :
    zpad B x = x ++ List.replicate (B.unit - x.length % B.unit) 0#8 := by
  unfold zpad ngroups
  congr 2
  have hu := hB.unit_pos
  have h1 := Nat.div_add_mod x.length B.unit
  have h2 := Nat.mod_lt x.length hu
  generalize hq : x.length / B.unit = q at *
  generalize hr : x.length % B.unit = r at *
  rw [← h1, show B.unit * q + r + B.unit - 1 = B.unit * (q + 1) + (r - 1) by
    rw [Nat.mul_succ]; omega, Nat.mul_add_div hu, Nat.div_eq_of_lt (by omega), Nat.add_zero,
    Nat.mul_comm, Nat.mul_succ]
  omega

theorem zpad_whole {B : BaseSpec} (hB : Good B) (x : List Byte) (hm : x.length % B.unit = 0) :
    zpad B x = x := by
  unfold zpad ngroups
  have hu := hB.unit_pos
  have h1 := Nat.div_add_mod x.length B.unit
  rw [hm, Nat.add_zero] at h1
  generalize hq : x.length / B.unit = q at *
  rw [← h1, Nat.add_sub_assoc (by omega), Nat.mul_add_div hu, Nat.div_eq_of_lt (by omega),
    Nat.add_zero, Nat.mul_comm, Nat.sub_self]
  simp

theorem libLast_zeros {B : BaseSpec} (hB : Good B) (p : List Byte) (hp : p.length ≤ B.unit) :
    B.libLast p = B.libLast (p ++ List.replicate (B.unit - p.length) 0#8) := by
  unfold BaseSpec.libLast
  rw [digits_zero_pad hB p hp, List.map_append, List.map_replicate]
  have : B.alphabet.getD 0 0#8 = B.zeroChar := rfl
  rw [this, dropTrailing_replicate]

theorem libEncode_of_zpad (al : BaseAlg) (x y : List Byte) (hx : x.length % (specOf al).unit ≠ 0)
    (hy : y.length % (specOf al).unit ≠ 0) (hq : x.length / (specOf al).unit = y.length / (specOf al).unit)
    (h : zpad (specOf al) x = zpad (specOf al) y) :
    (specOf al).libEncode x = (specOf al).libEncode y := by
  have hB := good al
  have hu := hB.unit_pos
  have key : ∀ z : List Byte, z.length % (specOf al).unit ≠ 0 → (specOf al).libEncode z
      = (specOf al).encode ((zpad (specOf al) z).take (z.length / (specOf al).unit * (specOf al).unit)) ++
        (specOf al).libLast ((zpad (specOf al) z).drop (z.length / (specOf al).unit * (specOf al).unit)) := by
    intro z hz
    have hle := Nat.div_mul_le_self z.length (specOf al).unit
    have h1 := Nat.div_add_mod z.length (specOf al).unit
    have h2 := Nat.mod_lt z.length hu
    rw [Nat.mul_comm] at h1
    rw [zpad_partial hB z hz, List.take_append_of_le_length hle, List.drop_append_of_le_length hle]
    unfold BaseSpec.libEncode
    rw [if_neg hz, libLast_zeros hB (z.drop _) (by rw [List.length_drop]; omega), List.length_drop]
    congr 5
    omega
  rw [key x hx, key y hy, h, hq]

/-- **C15.**  Two inputs get the same text if and only if they are equal or differ only in trailing
zero bytes of the same partial final group. -/
theorem C15 (al : BaseAlg) (S S' : Slack) (hS : Roomy S) (hS' : Roomy S')
    (g g' x y junk junk' out out' : List Byte) (hg : Scratch al g) (hg' : Scratch al g')
    (ho : Fits al x.length out) (ho' : Fits al y.length out') :
    (∃ n text r r', pgfeEncode al S g (x ++ junk) x.length out = .ok (n, text ++ 0#8 :: r) ∧
      pgfeEncode al S' g' (y ++ junk') y.length out' = .ok (n, text ++ 0#8 :: r') ∧ text.length = n)
    ↔ x = y ∨ SameZeroPadded (specOf al).unit x y := by
  have hB := good al
  have hu := hB.unit_pos
  have h1 : (∃ n text r r', pgfeEncode al S g (x ++ junk) x.length out = .ok (n, text ++ 0#8 :: r) ∧
      pgfeEncode al S' g' (y ++ junk') y.length out' = .ok (n, text ++ 0#8 :: r') ∧ text.length = n)
      ↔ (specOf al).libEncode x = (specOf al).libEncode y := by
    rw [enc_all al S hS g x junk out hg ho, enc_all al S' hS' g' y junk' out' hg' ho']
    constructor
    · rintro ⟨n, t, r, r', ha, hb, hn⟩
      rw [Except.ok.injEq, Prod.mk.injEq] at ha hb
      rw [(List.append_inj ha.2 (by rw [hn, ha.1])).1, (List.append_inj hb.2 (by rw [hn, hb.1])).1]
    · intro h
      exact ⟨_, _, _, _, rfl, by rw [h], rfl⟩
  rw [h1]
  have hz : (specOf al).libEncode x = (specOf al).libEncode y → zpad (specOf al) x = zpad (specOf al) y := by
    intro h
    have hx := (carries_libEncode al x).1
    rw [h, (carries_libEncode al y).1] at hx
    have := congrArg (specOf al).bytes hx
    rw [bytes_digits hB _ (zpad_mod hB x), bytes_digits hB _ (zpad_mod hB y)] at this
    exact this.symm
  constructor
  · intro h
    have hzz := hz h
    have hnil : ∀ z : List Byte, z = [] → z.length % (specOf al).unit = 0 := by
      rintro _ rfl; simp
    by_cases hx : x.length % (specOf al).unit = 0
    · by_cases hy : y.length % (specOf al).unit = 0
      · left; rwa [zpad_whole hB x hx, zpad_whole hB y hy] at hzz
      · exfalso
        have hy0 : y ≠ [] := fun e => hy (hnil y e)
        have ha := lastDigit_zero hB y hy0 hy
        by_cases hx0 : x = []
        · subst hx0
          rw [← h, libEncode_nil] at ha; simp at ha
        · exact lastDigit_data al x hx0 hx (by rw [h]; exact ha)
    · have hx0 : x ≠ [] := fun e => hx (hnil x e)
      have ha := lastDigit_zero hB x hx0 hx
      by_cases hy : y.length % (specOf al).unit = 0
      · exfalso
        by_cases hy0 : y = []
        · subst hy0
          rw [h, libEncode_nil] at ha; simp at ha
        · exact lastDigit_data al y hy0 hy (by rw [← h]; exact ha)
      · right
        rw [zpad_partial hB x hx, zpad_partial hB y hy] at hzz
        refine ⟨hx, hy, ?_, hzz⟩
        have hl := congrArg List.length hzz
        rw [List.length_append, List.length_append, List.length_replicate, List.length_replicate] at hl
        have a1 := Nat.div_add_mod x.length (specOf al).unit
        have a2 := Nat.mod_lt x.length hu
        have b1 := Nat.div_add_mod y.length (specOf al).unit
        have b2 := Nat.mod_lt y.length hu
        have e : (specOf al).unit * (x.length / (specOf al).unit)
            = (specOf al).unit * (y.length / (specOf al).unit) := by omega
        exact Nat.eq_of_mul_eq_mul_left hu e
  · rintro (rfl | ⟨hx, hy, hq, h⟩)
    · rfl
    · have hzz : zpad (specOf al) x = zpad (specOf al) y := by
        rw [zpad_partial hB x hx, zpad_partial hB y hy, h]
      exact libEncode_of_zpad al x y hx hy hq hzz

/-! ## The hypotheses are satisfiable -/

/-- A stack layout with room behind the arrays, an input of a group and a half, and an output array
of exactly the required size meet the hypotheses of C06/C07/C08/C11/C15. -/
theorem C06_satisfiable :
    Roomy ⟨[1#8], [2#8, 3#8]⟩ ∧ Scratch .base32 (List.replicate 8 7#8) ∧
    Fits .base32 (str "foobar").length (List.replicate 17 9#8) ∧
    ¬ EndsInZero .base32 (str "foobar") ∧
    pgfeEncode .base32 ⟨[1#8], [2#8, 3#8]⟩ (List.replicate 8 7#8) (str "foobar") 6
      (List.replicate 17 9#8) = .ok (16, str "MZXW6YTBOI======" ++ [0#8]) := by
  refine ⟨by unfold Roomy; decide, by unfold Scratch; decide, by unfold Fits; decide, ?_, ?_⟩
  · unfold EndsInZero; decide +kernel
  · decide +kernel

/-- Two different inputs with the same text: `14 20` and `14 20 00`-style tails inside one group. -/
theorem C15_satisfiable : SameZeroPadded 5 [0x14#8] [0x14#8, 0#8, 0#8] := by
  refine ⟨by decide, by decide, by decide, by decide⟩

end Pgfe.Props
