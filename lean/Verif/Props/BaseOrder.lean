import Verif.Props.BasePieces
/-!
# C87: base16 and base32hex texts sort like the data they stand for
-/
namespace Pgfe.Spec

/-- `x` comes before `y` when byte strings are compared byte by byte (as `memcmp` and `strcmp` compare them; a proper
prefix comes first). -/
def sortsBefore : List Byte → List Byte → Prop
  | _, [] => False
  | [], _ :: _ => True
  | a :: x, b :: y => a.toNat < b.toNat ∨ a = b ∧ sortsBefore x y

end Pgfe.Spec

namespace Pgfe.Proofs
open Pgfe.Model Pgfe.Spec

/-- The same order on lists of numbers. -/
def natBefore : List Nat → List Nat → Prop
  | _, [] => False
  | [], _ :: _ => True
  | a :: x, b :: y => a < b ∨ a = b ∧ natBefore x y

theorem sortsBefore_map (f : Nat → Byte) (N : Nat) (hf : ∀ a b, a < N → b < N → ((f a).toNat < (f b).toNat ↔ a < b) ∧ (f a = f b ↔ a = b)) :
    ∀ (x y : List Nat), (∀ a ∈ x, a < N) → (∀ b ∈ y, b < N) → (sortsBefore (x.map f) (y.map f) ↔ natBefore x y) := by
  intro x
  induction x with
  | nil => intro y _ _; cases y <;> simp [sortsBefore, natBefore]
  | cons a x ih =>
    intro y hx hy
    cases y with
    | nil => simp [sortsBefore, natBefore]
    | cons b y =>
      have h := hf a b (hx a (by simp)) (hy b (by simp))
      simp only [List.map_cons, sortsBefore, natBefore, h.1, h.2, ih y (fun c hc => hx c (by simp [hc])) (fun c hc => hy c (by simp [hc]))]

theorem sortsBefore_toNat : ∀ (x y : List Byte), sortsBefore x y ↔ natBefore (x.map (·.toNat)) (y.map (·.toNat)) := by
  intro x
  induction x with
  | nil => intro y; cases y <;> simp [sortsBefore, natBefore]
  | cons a x ih =>
    intro y
    cases y with
    | nil => simp [sortsBefore, natBefore]
    | cons b y => simp only [List.map_cons, sortsBefore, natBefore, ih y, BitVec.toNat_inj]

theorem natBefore_irrefl : ∀ z : List Nat, ¬ natBefore z z := by
  intro z
  induction z with
  | nil => simp [natBefore]
  | cons a z ih => simp [natBefore, ih]

/-- A common ending does not matter for strings of equal length. -/
theorem natBefore_append (z : List Nat) : ∀ (x y : List Nat), x.length = y.length →
    (natBefore (x ++ z) (y ++ z) ↔ natBefore x y) := by
  intro x
  induction x with
  | nil =>
    intro y h
    have : y = [] := List.length_eq_zero_iff.1 h.symm
    subst this
    simp [natBefore, natBefore_irrefl]
  | cons a x ih =>
    intro y h
    cases y with
    | nil => simp at h
    | cons b y => simp only [List.cons_append, natBefore, ih y (by simpa using h)]

theorem sortsBefore_append (z x y : List Byte) (h : x.length = y.length) :
    sortsBefore (x ++ z) (y ++ z) ↔ sortsBefore x y := by
  rw [sortsBefore_toNat, sortsBefore_toNat, List.map_append, List.map_append]
  exact natBefore_append _ _ _ (by simpa using h)

/-- For numerals of equal length, the order of the digits is the order of the numbers. -/
theorem natBefore_value (B : BaseSpec) : ∀ (x y : List Nat), x.length = y.length → (∀ a ∈ x, a < 2 ^ B.bits) → (∀ b ∈ y, b < 2 ^ B.bits) →
    (natBefore x y ↔ ofBits (vbits B x) < ofBits (vbits B y)) := by
  intro x
  induction x with
  | nil =>
    intro y h _ _
    have : y = [] := List.length_eq_zero_iff.1 h.symm
    subst this
    simp [natBefore]
  | cons a x ih =>
    intro y h hx hy
    cases y with
    | nil => simp at h
    | cons b y =>
      have hl : x.length = y.length := by simpa using h
      rw [ofBits_vbits_cons x a (hx a (by simp)), ofBits_vbits_cons y b (hy b (by simp)), hl]
      have h1 := ofBits_lt (vbits B x)
      have h2 := ofBits_lt (vbits B y)
      rw [vbits_length, Nat.mul_comm] at h1 h2
      rw [hl] at h1
      have hi := ih y hl (fun c hc => hx c (by simp [hc])) (fun c hc => hy c (by simp [hc]))
      unfold natBefore
      rw [hi]
      generalize ofBits (vbits B x) = p at *
      generalize ofBits (vbits B y) = q at *
      generalize 2 ^ (B.bits * y.length) = M at *
      rcases Nat.lt_trichotomy a b with hab | hab | hab
      · have : (a + 1) * M ≤ b * M := Nat.mul_le_mul_right _ hab
        rw [Nat.succ_mul] at this
        exact ⟨fun _ => by omega, fun _ => .inl hab⟩
      · subst hab
        exact ⟨fun h => h.elim (fun h => absurd h (Nat.lt_irrefl _)) (fun h => by omega), fun h => .inr ⟨rfl, by omega⟩⟩
      · have : (b + 1) * M ≤ a * M := Nat.mul_le_mul_right _ hab
        rw [Nat.succ_mul] at this
        exact ⟨fun h => h.elim (fun h => by omega) (fun h => by omega), fun h => by omega⟩

/-- Bytes are digits of eight bits. -/
theorem bitsOf_vbits (x : List Byte) : bitsOf x = vbits ⟨8, 1, []⟩ (x.map (·.toNat)) := by
  unfold bitsOf vbits
  rw [List.flatMap_map]
  exact congrArg (fun f => x.flatMap f) (funext bitsOfByte_eq)

theorem vbits_digits_whole {B : BaseSpec} (hB : Good B) : ∀ (k : Nat) (x : List Byte), x.length = k * B.unit →
    vbits B (B.digits x) = bitsOf x := by
  intro k
  induction k with
  | zero =>
    intro x hx
    have : x = [] := List.length_eq_zero_iff.1 (by simpa using hx)
    subst this
    rw [digits_nil hB]; rfl
  | succ k ih =>
    intro x hx
    rw [Nat.succ_mul] at hx
    have e : x = x.take B.unit ++ x.drop B.unit := (List.take_append_drop _ _).symm
    have h1 : (x.take B.unit).length = B.unit := by rw [List.length_take]; omega
    have h2 : (x.drop B.unit).length = k * B.unit := by rw [List.length_drop]; omega
    rw [e, digits_append hB _ _ h1, vbits_append, vbits_digits_unit hB _ h1, ih _ h2, bitsOf_append]

/-- Data of equal length: the order of the character values is the order of the data. -/
theorem digits_order {B : BaseSpec} (hB : Good B) (x y : List Byte) (h : x.length = y.length) :
    natBefore (B.digits x) (B.digits y) ↔ sortsBefore x y := by
  have hdl : (B.digits x).length = (B.digits y).length := by rw [digits_length, digits_length, h]
  rw [← natBefore_append (List.replicate (ngroups B x.length * B.chars - (B.digits x).length) 0) _ _ hdl]
  conv => lhs; rw [← digits_zpad hB x, hdl, h, ← digits_zpad hB y]
  have hzl : (zpad B x).length = (zpad B y).length := by rw [zpad_length hB, zpad_length hB, h]
  rw [natBefore_value B _ _ (by rw [digits_length, digits_length, hzl]) (digits_lt_pow _) (digits_lt_pow _),
    vbits_digits_whole hB _ _ (zpad_length hB x), vbits_digits_whole hB _ _ (zpad_length hB y), bitsOf_vbits, bitsOf_vbits,
    ← natBefore_value ⟨8, 1, []⟩ _ _ (by simp [hzl]) (fun a ha => by
      obtain ⟨b, _, rfl⟩ := List.mem_map.1 ha; exact b.isLt) (fun a ha => by
      obtain ⟨b, _, rfl⟩ := List.mem_map.1 ha; exact b.isLt), ← sortsBefore_toNat]
  unfold zpad
  rw [h]
  exact sortsBefore_append _ x y h

end Pgfe.Proofs

namespace Pgfe.Props
open Pgfe.Model Pgfe.Spec Pgfe.Proofs

/-- The encodings whose characters stand in the order of the values. -/
def ordered (al : BaseAlg) : Prop := al = .base16 ∨ al = .base32hex

theorem alphabet_order (al : BaseAlg) (h : ordered al) : ∀ a b, a < 2 ^ (specOf al).bits → b < 2 ^ (specOf al).bits →
    (((specOf al).alphabet.getD a 0#8).toNat < ((specOf al).alphabet.getD b 0#8).toNat ↔ a < b) ∧
    ((specOf al).alphabet.getD a 0#8 = (specOf al).alphabet.getD b 0#8 ↔ a = b) := by
  rcases h with rfl | rfl
  · have : ∀ a < 16, ∀ b < 16, ((rfcBase16.alphabet.getD a 0#8).toNat < (rfcBase16.alphabet.getD b 0#8).toNat ↔ a < b) ∧
        (rfcBase16.alphabet.getD a 0#8 = rfcBase16.alphabet.getD b 0#8 ↔ a = b) := by decide +kernel
    exact fun a b ha hb => this a ha b hb
  · have : ∀ a < 32, ∀ b < 32, ((rfcBase32Hex.alphabet.getD a 0#8).toNat < (rfcBase32Hex.alphabet.getD b 0#8).toNat ↔ a < b) ∧
        (rfcBase32Hex.alphabet.getD a 0#8 = rfcBase32Hex.alphabet.getD b 0#8 ↔ a = b) := by decide +kernel
    exact fun a b ha hb => this a ha b hb

theorem encode_order (al : BaseAlg) (hal : ordered al) (x y : List Byte) (h : x.length = y.length) :
    sortsBefore ((specOf al).encode x) ((specOf al).encode y) ↔ sortsBefore x y := by
  have hdl : ((specOf al).digits x).length = ((specOf al).digits y).length := by rw [digits_length, digits_length, h]
  unfold BaseSpec.encode
  rw [hdl, sortsBefore_append _ _ _ (by simpa using hdl), ← digits_order (good al) x y h]
  exact sortsBefore_map _ _ (alphabet_order al hal) _ _ (digits_lt_pow _) (digits_lt_pow _)

theorem text_get (al : BaseAlg) (S : Slack) (hS : Roomy S) (g x out o : List Byte) (n : Nat) (hg : Scratch al g)
    (hf : Fits al x.length out) (he : pgfeEncode al S g x x.length out = .ok (n, o)) :
    o.take n = (specOf al).libEncode x := by
  have h := enc_all al S hS g x [] out hg hf
  rw [List.append_nil, he, Except.ok.injEq, Prod.mk.injEq] at h
  obtain ⟨rfl, rfl⟩ := h
  simp

/-- **C87 (partial).**  For base16 and base32hex and any two byte strings of equal length, each a whole number of groups
or with a last data character that does not stand for zero: one text sorts before the other exactly when the data do.
(Missing: base32hex of strings whose last data character stands for zero, for which the claim is false:
`C87_violation`.) -/
theorem C87_partial (al : BaseAlg) (hal : al = .base16 ∨ al = .base32hex) (S S' : Slack) (hS : Roomy S) (hS' : Roomy S')
    (g g' x y out out' o o' : List Byte) (n n' : Nat) (hg : Scratch al g) (hg' : Scratch al g')
    (hf : Fits al x.length out) (hf' : Fits al y.length out')
    (h : x.length = y.length) (hx : x.length % (specOf al).unit = 0 ∨ ¬ EndsInZero al x ∧ ¬ EndsInZero al y)
    (he : pgfeEncode al S g x x.length out = .ok (n, o)) (he' : pgfeEncode al S' g' y y.length out' = .ok (n', o')) :
    sortsBefore (o.take n) (o'.take n') ↔ sortsBefore x y := by
  rw [text_get al S hS g x out o n hg hf he, text_get al S' hS' g' y out' o' n' hg' hf' he',
    (rfc_iff al x).2 (hx.imp id And.left), (rfc_iff al y).2 (by rw [← h]; exact hx.imp id And.right)]
  exact encode_order al hal x y h

/-- **C87, base16**: for any two byte strings whatsoever, of any lengths. -/
theorem C87_base16 (S S' : Slack) (hS : Roomy S) (hS' : Roomy S')
    (g g' x y out out' o o' : List Byte) (n n' : Nat) (hg : Scratch .base16 g) (hg' : Scratch .base16 g')
    (hf : Fits .base16 x.length out) (hf' : Fits .base16 y.length out')
    (he : pgfeEncode .base16 S g x x.length out = .ok (n, o)) (he' : pgfeEncode .base16 S' g' y y.length out' = .ok (n', o')) :
    sortsBefore (o.take n) (o'.take n') ↔ sortsBefore x y := by
  rw [text_get _ S hS g x out o n hg hf he, text_get _ S' hS' g' y out' o' n' hg' hf' he']
  clear he he' hf hf'
  have hB := good .base16
  have one : ∀ b : Byte, (specOf .base16).digits [b] = [b.toNat / 16, b.toNat % 16] := by
    intro b
    have : ∀ v : Fin 256, (specOf .base16).digits [BitVec.ofFin v] = [v.val / 16, v.val % 16] := by decide +kernel
    exact this b.toFin
  have cons : ∀ (b : Byte) (z : List Byte), (specOf .base16).libEncode (b :: z)
      = (specOf .base16).alphabet.getD (b.toNat / 16) 0#8 :: (specOf .base16).alphabet.getD (b.toNat % 16) 0#8 :: (specOf .base16).libEncode z := by
    intro b z
    have := libEncode_append hB [b] z rfl
    rw [one b] at this
    exact this
  induction x generalizing y with
  | nil =>
    cases y with
    | nil => rw [libEncode_nil]
    | cons b y => rw [libEncode_nil, cons]; simp [sortsBefore]
  | cons a x ih =>
    cases y with
    | nil => rw [libEncode_nil]; simp [sortsBefore]
    | cons b y =>
      rw [cons a x, cons b y]
      have ha := a.isLt
      have hb := b.isLt
      have h1 := alphabet_order .base16 (.inl rfl) (a.toNat / 16) (b.toNat / 16) (by show _ < 16; omega) (by show _ < 16; omega)
      have h2 := alphabet_order .base16 (.inl rfl) (a.toNat % 16) (b.toNat % 16) (by show _ < 16; omega) (by show _ < 16; omega)
      simp only [sortsBefore, h1.1, h1.2, h2.1, h2.2, ih y, ← BitVec.toNat_inj]
      constructor
      · rintro (h | ⟨h, h' | ⟨h', h''⟩⟩)
        · left; omega
        · left; omega
        · exact .inr ⟨by omega, h''⟩
      · rintro (h | ⟨h, h'⟩)
        · rcases Nat.lt_or_ge (a.toNat / 16) (b.toNat / 16) with h3 | h3
          · exact .inl h3
          · exact .inr ⟨by omega, .inl (by omega)⟩
        · exact .inr ⟨by omega, .inr ⟨by omega, h'⟩⟩

/-- **C87 is false of the code** for base32hex: `08` sorts before `09`, but its text `1=======` sorts behind `14======`,
the text of `09`; RFC 4648 has `10======`, which sorts before. -/
theorem C87_violation (S : Slack) (hS : Roomy S) (g out : List Byte) (hg : 8 ≤ g.length) (ho : 9 ≤ out.length) :
    pgfeEncode .base32hex S g [0x08#8] 1 out = .ok (8, str "1=======" ++ 0#8 :: out.drop 9) ∧
    pgfeEncode .base32hex S g [0x09#8] 1 out = .ok (8, str "14======" ++ 0#8 :: out.drop 9) ∧
    sortsBefore [0x08#8] [0x09#8] ∧ sortsBefore (str "14======") (str "1=======") ∧
    rfcBase32Hex.encode [0x08#8] = str "10======" ∧ sortsBefore (str "10======") (str "14======") := by
  have hf : Fits .base32hex 1 out := by show 8 * ((1 + 5 - 1) / 5) + 1 ≤ _; omega
  refine ⟨?_, ?_, ?_, ?_, by decide +kernel, ?_⟩
  · have := enc_all .base32hex S hS g [0x08#8] [] out hg hf
    rw [show (specOf .base32hex).libEncode [0x08#8] = str "1=======" by decide +kernel] at this
    exact this
  · have := enc_all .base32hex S hS g [0x09#8] [] out hg hf
    rw [show (specOf .base32hex).libEncode [0x09#8] = str "14======" by decide +kernel] at this
    exact this
  · left; decide
  · right; exact ⟨rfl, .inl (by decide)⟩
  · right; exact ⟨rfl, .inl (by decide)⟩

/-- "foo" and "fos" meet the hypotheses for base32hex: `CPNMU===` and `CPNN6===`. -/
theorem C87_example :
    Roomy ⟨[1#8], [2#8, 3#8]⟩ ∧ ¬ EndsInZero .base32hex (str "foo") ∧ ¬ EndsInZero .base32hex (str "fos") ∧
    pgfeEncode .base32hex ⟨[1#8], [2#8, 3#8]⟩ (List.replicate 8 7#8) (str "foo") 3 (List.replicate 9 9#8)
      = .ok (8, str "CPNMU===" ++ [0#8]) ∧
    pgfeEncode .base32hex ⟨[1#8], [2#8, 3#8]⟩ (List.replicate 8 7#8) (str "fos") 3 (List.replicate 9 9#8)
      = .ok (8, str "CPNN6===" ++ [0#8]) ∧
    sortsBefore (str "foo") (str "fos") := by
  refine ⟨by unfold Roomy; decide, by unfold EndsInZero; decide +kernel, by unfold EndsInZero; decide +kernel, by decide +kernel, by decide +kernel, ?_⟩
  right; exact ⟨rfl, .inr ⟨rfl, .inl (by decide)⟩⟩

/-! ## The two base64 alphabets -/

theorem dropTrailing_map (z : Byte) (f : Byte → Byte) (hf : ∀ c, f c = z ↔ c = z) (l : List Byte) :
    dropTrailing z (l.map f) = (dropTrailing z l).map f := by
  unfold dropTrailing
  rw [← List.map_reverse, List.dropWhile_map, List.map_reverse]
  congr 3
  funext c
  show (f c == z) = (c == z)
  rw [Bool.eq_iff_iff, beq_iff_eq, beq_iff_eq, hf]

/-- **C06, the two base64 alphabets.**  For every input the URL-safe text is the base64 text with `-` for `+` and `_`
for `/`. -/
theorem C06_url (S S' : Slack) (hS : Roomy S) (hS' : Roomy S') (g g' x out out' o o' : List Byte) (n n' : Nat)
    (hg : Scratch .base64 g) (hg' : Scratch .base64url g') (hf : Fits .base64 x.length out) (hf' : Fits .base64url x.length out')
    (he : pgfeEncode .base64 S g x x.length out = .ok (n, o)) (he' : pgfeEncode .base64url S' g' x x.length out' = .ok (n', o')) :
    n' = n ∧ o'.take n' = (o.take n).map toUrl := by
  rw [text_get _ S hS g x out o n hg hf he, text_get _ S' hS' g' x out' o' n' hg' hf' he']
  have h1 := enc_all _ S hS g x [] out hg hf
  have h2 := enc_all _ S' hS' g' x [] out' hg' hf'
  rw [List.append_nil, he, Except.ok.injEq, Prod.mk.injEq] at h1
  rw [List.append_nil, he', Except.ok.injEq, Prod.mk.injEq] at h2
  have hA : ∀ d, d < 64 → rfcBase64Url.alphabet.getD d 0#8 = toUrl (rfcBase64.alphabet.getD d 0#8) := by decide +kernel
  have hd : ∀ z, ((specOf .base64url).digits z).map (fun d => (specOf .base64url).alphabet.getD d 0#8)
      = (((specOf .base64).digits z).map (fun d => (specOf .base64).alphabet.getD d 0#8)).map toUrl := by
    intro z
    have hdig : (specOf .base64url).digits z = (specOf .base64).digits z := by unfold BaseSpec.digits; rfl
    rw [hdig, List.map_map]
    apply List.map_congr_left
    intro d hd
    have hlt : d < 64 := digits_lt_pow z d hd
    rw [Function.comp]
    exact hA d hlt
  have main : (specOf .base64url).libEncode x = ((specOf .base64).libEncode x).map toUrl := by
    refine group_induction (P := fun x => (specOf .base64url).libEncode x = ((specOf .base64).libEncode x).map toUrl) 3
      (by decide) ?_ ?_ ?_ x
    · rw [libEncode_nil, libEncode_nil]; rfl
    · intro p h0 hp
      rw [libEncode_partial (B := specOf .base64url) p h0 hp, libEncode_partial (B := specOf .base64) p h0 hp]
      unfold BaseSpec.libLast
      dsimp only
      rw [hd p]
      have hz : (specOf .base64url).zeroChar = (specOf .base64).zeroChar := by decide +kernel
      rw [hz, dropTrailing_map _ toUrl (by decide +kernel), List.map_append, List.length_map, List.map_replicate]
      rfl
    · intro u y hu ih
      rw [libEncode_append (good .base64url) u y hu, libEncode_append (good .base64) u y hu, ih, hd u, List.map_append]
  refine ⟨?_, main⟩
  rw [h1.1, h2.1, main, List.length_map]

/-- A text with both characters. -/
theorem C06_url_example :
    pgfeEncode .base64 ⟨[1#8], [2#8, 3#8]⟩ (List.replicate 4 7#8) [0xfb#8, 0xef#8, 0xff#8] 3 (List.replicate 5 9#8)
      = .ok (4, str "++//" ++ [0#8]) ∧
    pgfeEncode .base64url ⟨[1#8], [2#8, 3#8]⟩ (List.replicate 4 7#8) [0xfb#8, 0xef#8, 0xff#8] 3 (List.replicate 5 9#8)
      = .ok (4, str "--__" ++ [0#8]) := by
  constructor <;> decide +kernel

end Pgfe.Props
