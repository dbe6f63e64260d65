import Verif.Proofs.HexCleanIn
/-!
# C01–C05: hexadecimal text
-/
namespace Pgfe.Props
open Pgfe.Model Pgfe.Spec Pgfe.Proofs

/-- A string of hexadecimal digits. -/
def AllDigits (s : List Byte) : Prop := ∀ c ∈ s, isDigit c = true

/-- The optional `0x`-style prefixes and `h` suffixes of C02. -/
def Prefix (p : List Byte) : Prop := p = [] ∨ p = str "0x" ∨ p = str "0X"
def Suffix (q : List Byte) : Prop := q = [] ∨ q = str "h" ∨ q = str "H"

/-! ## C01 -/

/-- **C01, text side.** `pgfe_hash_to_hex_string` writes the two lower-case digits of every byte,
most significant first, then NUL, returns twice the length and touches nothing else. -/
theorem C01_to_hex (x junk out : List Byte) (ho : 2 * x.length + 1 ≤ out.length) :
    hashToHexString (x ++ junk) x.length out
      = .ok (2 * x.length, hexText x ++ 0#8 :: out.drop (2 * x.length + 1)) :=
  hashToHex_ok x junk out ho

theorem hexText_digits (x : List Byte) : AllDigits (hexText x) := by
  intro c hc
  obtain ⟨b, _, hb⟩ := List.mem_flatMap.mp hc
  have : ∀ b : Byte, isDigit ((str "0123456789abcdef").getD (b.toNat / 16) 0#8) = true ∧
      isDigit ((str "0123456789abcdef").getD (b.toNat % 16) 0#8) = true := by decide +kernel
  rcases List.mem_cons.mp hb with rfl | hb
  · exact (this b).1
  · rw [List.mem_singleton.mp hb]; exact (this b).2

theorem nozero_of_digits {s : List Byte} (h : AllDigits s) : 0#8 ∉ s := fun h0 => by
  have := h _ h0; rw [zero_not_digit] at this; cases this

theorem digits_body {s : List Byte} (h : AllDigits s) :
    separators s = 0 ∧ dropPrefix s = s ∧ digitsOf s = s := by
  refine ⟨?_, dropPrefix_digits s h, digitsOf_digits s h⟩
  unfold separators
  rw [digitsOf_digits s h]; omega

theorem beBytes_numeral_hexText (x : List Byte) : beBytes x.length (numeral (hexText x)) = x := by
  induction x with
  | nil => rfl
  | cons b x ih =>
    have hdig : ∀ b : Byte, digit ((str "0123456789abcdef").getD (b.toNat / 16) 0#8)
          = some (b.toNat / 16) ∧ digit ((str "0123456789abcdef").getD (b.toNat % 16) 0#8)
          = some (b.toNat % 16) := by decide +kernel
    have e : hexText (b :: x) = (str "0123456789abcdef").getD (b.toNat / 16) 0#8 ::
        (str "0123456789abcdef").getD (b.toNat % 16) 0#8 :: hexText x := by simp [hexText]
    have hn : numeral (hexText (b :: x)) = b.toNat * 256 ^ x.length + numeral (hexText x) := by
      unfold numeral
      rw [e, List.filterMap_cons_some (hdig b).1, List.filterMap_cons_some (hdig b).2,
        List.foldl_cons, List.foldl_cons, foldl16]
      have hl : (List.filterMap digit (hexText x)).length = 2 * x.length := by
        rw [length_filterMap_digit, digitsOf_digits _ (hexText_digits x), hexText_length]
      rw [hl, Nat.pow_mul]
      congr 2
      omega
    have hlt : numeral (hexText x) < 256 ^ x.length := by
      have := val_lt _ (digits_lt (hexText x))
      rw [length_filterMap_digit, digitsOf_digits _ (hexText_digits x), hexText_length,
        Nat.pow_mul] at this
      exact this
    rw [hn, List.length_cons, beBytes_succ _ _ _ b.isLt hlt, ih]
    simp

/-- **C01, round trip.** Parsing the text of a non-empty byte string gives back the bytes and
their number, and writes nothing else. -/
theorem C01_round_trip (x text rest out : List Byte) (hx : x ≠ []) (n : Nat)
    (htext : ∃ o, 2 * x.length + 1 ≤ o.length ∧
      hashToHexString x x.length o = .ok (n, text ++ 0#8 :: rest) ∧ text.length = n)
    (ho : x.length ≤ out.length) :
    hexStringToHash (text ++ 0#8 :: rest) out = .ok (x.length, x ++ out.drop x.length) := by
  obtain ⟨o, ho1, ho2, ho3⟩ := htext
  have h1 := hashToHex_ok x [] o ho1
  rw [List.append_nil] at h1
  rw [h1] at ho2
  have h2 := Except.ok.inj ho2
  rw [Prod.mk.injEq] at h2
  obtain ⟨hn, hb⟩ := h2
  have : text = hexText x := by
    have hl : (hexText x).length = text.length := by rw [hexText_length, ho3, hn]
    exact ((List.append_inj hb hl).1).symm
  subst this
  have hd := hexText_digits x
  obtain ⟨s1, s2, s3⟩ := digits_body hd
  have hne : hexText x ≠ [] := by
    intro h
    have := congrArg List.length h
    rw [hexText_length] at this
    cases x with
    | nil => exact hx rfl
    | cons => simp at this
  have hm : (2 * x.length + 1) / 2 = x.length := by omega
  have := hex_exact (hexText x) rest out (nozero_of_digits hd) hne (2 * x.length)
    (by rw [s2, s1, s3, hexText_length]; simp) (by omega)
  rw [s2, s3, hm, List.take_of_length_le (by rw [hexText_length]; omega),
    beBytes_numeral_hexText] at this
  exact this

/-- The text of `[0xBE, 0x0F]` meets the hypotheses of `C01_round_trip`. -/
example : ∃ o : List Byte, 2 * [0xBE#8, 0x0F#8].length + 1 ≤ o.length ∧
    hashToHexString [0xBE#8, 0x0F#8] 2 o = .ok (4, str "be0f" ++ 0#8 :: [7#8]) :=
  ⟨[1#8, 2#8, 3#8, 4#8, 5#8, 7#8], by decide, by decide +kernel⟩

/-! ## C02 -/

theorem prefix_cases (p ds q : List Byte) (hp : Prefix p) (hq : Suffix q) (hd : AllDigits ds)
    (hne : ds ≠ []) : dropPrefix (p ++ (ds ++ q)) = ds ++ q ∧ 0#8 ∉ p ++ (ds ++ q) ∧
    digitsOf (ds ++ q) = ds ∧ separators (ds ++ q) = 0 := by
  have hq0 : 0#8 ∉ q ∧ digitsOf q = [] ∧ trailingH (ds ++ q) = q.length := by
    rcases hq with rfl | rfl | rfl
    · refine ⟨by simp, rfl, ?_⟩
      rw [List.append_nil]
      have := digits_le ds
      rw [digitsOf_digits ds hd] at this
      simp; omega
    · refine ⟨by decide, by decide +kernel, ?_⟩
      simp [trailingH, str]
    · refine ⟨by decide, by decide +kernel, ?_⟩
      simp [trailingH, str]
  have hdq : digitsOf (ds ++ q) = ds := by
    have h := digitsOf_digits ds hd
    unfold digitsOf at *
    rw [List.filter_append, h, hq0.2.1, List.append_nil]
  refine ⟨?_, ?_, hdq, ?_⟩
  · rcases hp with rfl | rfl | rfl
    · rw [List.nil_append]
      rcases ds with _ | ⟨a, _ | ⟨b, t⟩⟩
      · exact absurd rfl hne
      · rcases hq with rfl | rfl | rfl
        · rfl
        · simp [dropPrefix, str]
        · simp [dropPrefix, str]
      · have hb := hd b (by simp)
        have : ¬ (b = 0x78#8 ∨ b = 0x58#8) := by
          rintro (rfl | rfl)
          · rw [x_not_digit.1] at hb; cases hb
          · rw [x_not_digit.2] at hb; cases hb
        simp only [List.cons_append, dropPrefix, if_neg this]
    · simp [str, dropPrefix]
    · simp [str, dropPrefix]
  · have h1 := nozero_of_digits hd
    intro h
    rcases List.mem_append.mp h with h | h
    · rcases hp with rfl | rfl | rfl
      · simp at h
      · revert h; decide
      · revert h; decide
    · rcases List.mem_append.mp h with h | h
      · exact h1 h
      · exact hq0.1 h
  · unfold separators
    rw [hdq, hq0.2.2]; simp

/-- **C02.** For a non-empty digit string with optional prefix and suffix the parser writes exactly
`⌈n/2⌉` bytes: the big-endian representation of the number the digits denote. -/
theorem C02_parse (p ds q rest out : List Byte) (hp : Prefix p) (hq : Suffix q)
    (hd : AllDigits ds) (hne : ds ≠ []) (ho : (ds.length + 1) / 2 ≤ out.length) :
    hexStringToHash (p ++ (ds ++ q) ++ 0#8 :: rest) out
      = .ok ((ds.length + 1) / 2,
          beBytes ((ds.length + 1) / 2) (numeral ds) ++ out.drop ((ds.length + 1) / 2)) := by
  obtain ⟨h1, h2, h3, h4⟩ := prefix_cases p ds q hp hq hd hne
  have := hex_exact (p ++ (ds ++ q)) rest out h2 (by simp [hne]) ds.length
    (by rw [h1, h3, h4]; simp) ho
  rw [h1, h3, List.take_length] at this
  exact this

/-- The bytes written do denote the number: no truncation happens. -/
theorem C02_no_truncation (ds : List Byte) (hd : AllDigits ds) :
    numeral ds < 256 ^ ((ds.length + 1) / 2) := by
  have h := val_lt _ (digits_lt ds)
  rw [length_filterMap_digit, digitsOf_digits ds hd] at h
  calc numeral ds < 16 ^ ds.length := h
    _ ≤ 16 ^ (2 * ((ds.length + 1) / 2)) := Nat.pow_le_pow_right (by decide) (by omega)
    _ = 256 ^ ((ds.length + 1) / 2) := by rw [Nat.pow_mul]

example : Prefix (str "0X") ∧ Suffix (str "h") ∧ AllDigits (str "aBc") ∧ str "aBc" ≠ [] ∧
    hexStringToHash (str "0XaBch" ++ [0#8]) [1#8, 2#8, 3#8] = .ok (2, [0x0A#8, 0xBC#8, 3#8]) := by
  refine ⟨.inr (.inr rfl), .inr (.inl rfl), ?_, by decide, by decide +kernel⟩
  unfold AllDigits; decide +kernel

/-! ## C03 -/

/-- **C03, exact.** What the parser writes for *every* non-empty text: the digits after the optional
prefix, packed; if the number of separators is odd, the last digit is lost and the others shift by
one nibble. -/
theorem C03_exact (s rest out : List Byte) (hs : 0#8 ∉ s) (hne : s ≠ []) (m : Nat)
    (hm : m = if separators (dropPrefix s) % 2 = 0 then (digitsOf (dropPrefix s)).length
      else (digitsOf (dropPrefix s)).length - 1)
    (ho : (m + 1) / 2 ≤ out.length) :
    hexStringToHash (s ++ 0#8 :: rest) out
      = .ok ((m + 1) / 2, beBytes ((m + 1) / 2) (numeral ((digitsOf (dropPrefix s)).take m))
          ++ out.drop ((m + 1) / 2)) :=
  hex_exact s rest out hs hne m hm ho

/-- **C03 (partial).** The full claim — separators never change the parsed bytes — is false of the
code (`C03_counterexample`).  It holds when the number of separators is even: then the result is
the one for the digits alone. -/
theorem C03_separators_partial (s rest rest' out : List Byte) (hs : 0#8 ∉ s)
    (hdig : digitsOf (dropPrefix s) ≠ []) (heven : separators (dropPrefix s) % 2 = 0)
    (ho : ((digitsOf (dropPrefix s)).length + 1) / 2 ≤ out.length) :
    hexStringToHash (s ++ 0#8 :: rest) out
      = hexStringToHash (digitsOf (dropPrefix s) ++ 0#8 :: rest') out := by
  have hne : s ≠ [] := by rintro rfl; exact hdig rfl
  have hall : AllDigits (digitsOf (dropPrefix s)) := digitsOf_isDigit _
  have h1 := hex_exact s rest out hs hne _ (by rw [if_pos heven]) ho
  obtain ⟨b1, b2, b3⟩ := digits_body hall
  have h2 := hex_exact (digitsOf (dropPrefix s)) rest' out (nozero_of_digits hall) hdig
    (digitsOf (dropPrefix s)).length (by rw [b2, b1, b3]; simp) ho
  rw [b2, b3] at h2
  rw [h1, h2]

example : digitsOf (dropPrefix (str "ab:cd:ef:01:23")) = str "abcdef0123" ∧
    separators (dropPrefix (str "ab:cd:ef:01:23")) % 2 = 0 := by decide +kernel

/-- **C03 is false of the code**: one separator misaligns the nibbles and drops the last digit. -/
theorem C03_counterexample :
    hexStringToHash (str "ab cd" ++ [0#8]) [0#8, 0#8, 0#8] = .ok (2, [0x0A#8, 0xBC#8, 0#8]) ∧
    hexStringToHash (str "abcd" ++ [0#8]) [0#8, 0#8, 0#8] = .ok (2, [0xAB#8, 0xCD#8, 0#8]) := by
  decide +kernel

/-! ## C04 -/

/-- **C04.** `pgfe_hash_string_clean` writes the digits (after the optional prefix) in order, NUL,
returns the count, and leaves the rest of the output alone. -/
theorem C04_clean (s rest out : List Byte) (hs : 0#8 ∉ s)
    (ho : (digitsOf (dropPrefix s)).length < out.length) :
    hashStringClean (s ++ 0#8 :: rest) out = .ok ((digitsOf (dropPrefix s)).length,
      digitsOf (dropPrefix s) ++ 0#8 :: out.drop ((digitsOf (dropPrefix s)).length + 1)) :=
  clean_ok s rest out hs ho

/-- **C04, size.** The output never needs more room than the input occupies. -/
theorem C04_not_longer (s : List Byte) : (digitsOf (dropPrefix s)).length ≤ s.length :=
  Nat.le_trans (digitsOf_length_le _) (dropPrefix_length_le s)

/-- **C04, idempotence.** Cleaning a cleaned text (in whatever memory it now lies) changes
nothing. -/
theorem C04_idempotent (s rest out out' : List Byte) (n : Nat) (t : List Byte) (hs : 0#8 ∉ s)
    (ho : s.length < out.length) (ho' : s.length < out'.length)
    (h : hashStringClean (s ++ 0#8 :: rest) out = .ok (n, t)) :
    hashStringClean t out' = .ok (n, t.take (n + 1) ++ out'.drop (n + 1)) := by
  have hle := C04_not_longer s
  rw [clean_ok s rest out hs (by omega)] at h
  have h := Except.ok.inj h
  rw [Prod.mk.injEq] at h
  obtain ⟨hn, ht⟩ := h
  have hall : AllDigits (digitsOf (dropPrefix s)) := digitsOf_isDigit _
  obtain ⟨_, b2, b3⟩ := digits_body hall
  rw [← ht, ← hn]
  rw [clean_ok _ _ out' (digitsOf_no_zero _) (by rw [b2, b3]; omega), b2, b3]
  congr 2
  rw [List.take_append]
  simp [List.take_of_length_le]

/-- **C04, in place.** `pgfe_hash_string_clean_` leaves in its own array the same text, NUL and
count as the out-of-place version, inside the array. -/
theorem C04_in_place (s rest : List Byte) (hs : 0#8 ∉ s) :
    ∃ tail, hashStringCleanInPlace (s ++ 0#8 :: rest) =
      .ok ((digitsOf (dropPrefix s)).length, digitsOf (dropPrefix s) ++ 0#8 :: tail) ∧
      (digitsOf (dropPrefix s) ++ 0#8 :: tail).length = (s ++ 0#8 :: rest).length :=
  clean_in_place s rest hs

example : hashStringClean (str "0x1 2-Fg" ++ [0#8]) (str "........") =
    .ok (3, str "12F" ++ 0#8 :: str "....") ∧
    hashStringCleanInPlace (str "0x1 2-Fg" ++ [0#8]) = .ok (3, str "12F" ++ 0#8 :: str "2-Fg" ++ [0#8]) := by
  decide +kernel

/-! ## C05 -/

/-- **C05, length.** For a digit string with optional prefix and suffix `pgfe_hash_length` is the
number of bytes the parser writes (for every contents of its uninitialised scratch array). -/
theorem C05_length (p ds q rest garbage out : List Byte) (hp : Prefix p) (hq : Suffix q)
    (hd : AllDigits ds) (hne : ds ≠ []) (hg : (p ++ (ds ++ q)).length < garbage.length)
    (ho : (ds.length + 1) / 2 ≤ out.length) :
    hashLength garbage (p ++ (ds ++ q) ++ 0#8 :: rest) = .ok ((ds.length + 1) / 2) ∧
    (hexStringToHash (p ++ (ds ++ q) ++ 0#8 :: rest) out).map (·.1)
      = .ok ((ds.length + 1) / 2) := by
  obtain ⟨h1, h2, h3, h4⟩ := prefix_cases p ds q hp hq hd hne
  constructor
  · unfold hashLength
    rw [strlen_cstr _ _ h2, bind_ok]
    dsimp only
    have hle := C04_not_longer (p ++ (ds ++ q))
    rw [clean_ok _ rest (garbage.take ((p ++ (ds ++ q)).length + 1)) h2
      (by rw [List.length_take]; omega), bind_ok]
    rw [h1, h3]
    simp only
    rw [strlen_cstr _ _ (nozero_of_digits hd), bind_ok]
    congr 1; omega
  · rw [C02_parse p ds q rest out hp hq hd hne ho]; rfl

/-- **C05, memory.** For every non-empty text, `from_hex_string` is free of undefined behaviour:
the parser stays inside the buffer it allocates (`⌈len/2⌉ + 1` bytes). -/
theorem C05_from_hex_safe (s rest garbage : List Byte) (hs : 0#8 ∉ s) (hne : s ≠ [])
    (hg : (s.length + 1) / 2 + 1 ≤ garbage.length) :
    ∃ bytes, fromHexString garbage (s ++ 0#8 :: rest) = .ok bytes ∧
      bytes.length ≤ (s.length + 1) / 2 := by
  unfold fromHexString
  rw [strlen_cstr s rest hs, bind_ok]
  dsimp only
  have hle := C04_not_longer s
  have hsz : s.length / 2 + s.length % 2 = (s.length + 1) / 2 := by omega
  have hmle : (if separators (dropPrefix s) % 2 = 0 then (digitsOf (dropPrefix s)).length
      else (digitsOf (dropPrefix s)).length - 1) ≤ s.length := by split <;> omega
  have hlt : (garbage.take (s.length / 2 + s.length % 2 + 1)).length = (s.length + 1) / 2 + 1 := by
    rw [List.length_take]; omega
  rw [hex_exact s rest _ hs hne _ rfl (by rw [hlt]; omega), bind_ok]
  generalize (if separators (dropPrefix s) % 2 = 0 then (digitsOf (dropPrefix s)).length
      else (digitsOf (dropPrefix s)).length - 1) = m at *
  generalize garbage.take (s.length / 2 + s.length % 2 + 1) = g at *
  have hl : (beBytes ((m + 1) / 2) (numeral ((digitsOf (dropPrefix s)).take m))
      ++ g.drop ((m + 1) / 2)).length = (s.length + 1) / 2 + 1 := by
    rw [List.length_append, beBytes_length, List.length_drop]; omega
  simp only
  rw [wr_ok _ (by rw [hl]; omega), bind_ok, rds_ok (by rw [List.length_set, hl]; omega)]
  refine ⟨_, rfl, ?_⟩
  rw [List.length_take]; omega

/-- **C05 at the excluded point**: the empty text makes the parser read outside the string. -/
theorem C05_empty (out : List Byte) : hexStringToHash [0#8] out = .error .oobRead := by
  simp [hexStringToHash, strlen, rd]

end Pgfe.Props
