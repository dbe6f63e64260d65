import Verif.Props.Hex
/-!
# C03: exactly when the property holds
-/
namespace Pgfe.Props
open Pgfe.Model Pgfe.Spec Pgfe.Proofs

/-! ## C03 -/

theorem beBytes_inj (k a b : Nat) (ha : a < 256 ^ k) (hb : b < 256 ^ k) (h : beBytes k a = beBytes k b) : a = b := by
  induction k generalizing a b with
  | zero => simp at ha hb; omega
  | succ k ih =>
    have hpos : 0 < 256 ^ k := Nat.pow_pos (by decide)
    have da : a / 256 ^ k < 256 := Nat.div_lt_of_lt_mul (by rw [← Nat.pow_succ]; exact ha)
    have db : b / 256 ^ k < 256 := Nat.div_lt_of_lt_mul (by rw [← Nat.pow_succ]; exact hb)
    have ea := beBytes_succ k (a / 256 ^ k) (a % 256 ^ k) da (Nat.mod_lt _ hpos)
    have eb := beBytes_succ k (b / 256 ^ k) (b % 256 ^ k) db (Nat.mod_lt _ hpos)
    rw [Nat.div_add_mod'] at ea eb
    rw [ea, eb, List.cons.injEq] at h
    have h1 : a / 256 ^ k = b / 256 ^ k := by
      have := congrArg BitVec.toNat h.1
      rwa [BitVec.toNat_ofNat, BitVec.toNat_ofNat, Nat.mod_eq_of_lt da, Nat.mod_eq_of_lt db] at this
    have h2 := ih _ _ (Nat.mod_lt _ hpos) (Nat.mod_lt _ hpos) h.2
    rw [← Nat.div_add_mod' a (256 ^ k), ← Nat.div_add_mod' b (256 ^ k), h1, h2]

theorem numeral_lt (s : List Byte) : numeral s < 16 ^ (digitsOf s).length := by
  have := val_lt (s.filterMap digit) (digits_lt s)
  rwa [length_filterMap_digit] at this

theorem numeral_concat (l : List Byte) (c : Byte) (v : Nat) (h : digit c = some v) :
    numeral (l ++ [c]) = 16 * numeral l + v := by
  unfold numeral
  rw [List.filterMap_append, List.filterMap_cons_some h]
  simp

/-- **C03, exactly when.**  Dropping all characters that are not digits leaves the parsed bytes as they are if and only if
their number is even, or the digits are an even number of zeros. -/
theorem C03_iff (s rest rest' out : List Byte) (hs : 0#8 ∉ s) (hdig : digitsOf (dropPrefix s) ≠ [])
    (ho : ((digitsOf (dropPrefix s)).length + 1) / 2 ≤ out.length) :
    hexStringToHash (s ++ 0#8 :: rest) out = hexStringToHash (digitsOf (dropPrefix s) ++ 0#8 :: rest') out ↔
      separators (dropPrefix s) % 2 = 0 ∨
        ((digitsOf (dropPrefix s)).length % 2 = 0 ∧ numeral (digitsOf (dropPrefix s)) = 0) := by
  by_cases heven : separators (dropPrefix s) % 2 = 0
  · exact ⟨fun _ => .inl heven, fun _ => C03_separators_partial s rest rest' out hs hdig heven ho⟩
  have hne : s ≠ [] := by rintro rfl; exact hdig rfl
  have hall : AllDigits (digitsOf (dropPrefix s)) := digitsOf_isDigit _
  have hpos : 0 < (digitsOf (dropPrefix s)).length := List.length_pos_iff.mpr hdig
  have h1 := hex_exact s rest out hs hne ((digitsOf (dropPrefix s)).length - 1) (by rw [if_neg heven]) (by omega)
  obtain ⟨b1, b2, b3⟩ := digits_body hall
  have h2 := hex_exact (digitsOf (dropPrefix s)) rest' out (nozero_of_digits hall) hdig
    (digitsOf (dropPrefix s)).length (by rw [b2, b1, b3]; simp) ho
  rw [b2, b3] at h2
  rw [h1, h2]
  generalize digitsOf (dropPrefix s) = D at hdig ho hall hpos b3
  obtain ⟨l, c, rfl⟩ : ∃ l c, D = l ++ [c] := by
    rcases List.eq_nil_or_concat D with h | ⟨l, c, h⟩
    · exact absurd h hdig
    · exact ⟨l, c, by rw [h, List.concat_eq_append]⟩
  obtain ⟨v, hv⟩ := Option.isSome_iff_exists.mp (hall c (by simp))
  have hl : digitsOf l = l := digitsOf_digits l (fun d hd => hall d (by simp [hd]))
  have hN := numeral_concat l c v hv
  have hlt := numeral_lt (l ++ [c])
  rw [b3] at hlt
  rw [List.length_append, List.length_singleton] at *
  rw [show (l ++ [c]).take (l.length + 1 - 1) = l by simp,
    show (l ++ [c]).take (l.length + 1) = l ++ [c] by rw [List.take_of_length_le]; simp]
  constructor
  · intro h
    rw [Except.ok.injEq, Prod.mk.injEq] at h
    obtain ⟨hk, hb⟩ := h
    refine .inr ⟨by omega, ?_⟩
    have hb := List.append_inj_left hb (by rw [beBytes_length, beBytes_length]; exact hk)
    rw [hk] at hb
    have hp : (16 : Nat) ^ (l.length + 1) = 256 ^ ((l.length + 1 + 1) / 2) := by
      rw [show (256 : Nat) = 16 ^ 2 by rfl, ← Nat.pow_mul, show 2 * ((l.length + 1 + 1) / 2) = l.length + 1 by omega]
    rw [hp] at hlt
    have := beBytes_inj _ _ _ (by omega) hlt hb
    omega
  · rintro (h | ⟨h, hz⟩)
    · exact absurd h heven
    · rw [show (l.length + 1 - 1 + 1) / 2 = (l.length + 1 + 1) / 2 by omega, hz, show numeral l = 0 by omega]

/-- Both sides of C03_iff occur with an odd number of separators. -/
theorem C03_iff_example :
    hexStringToHash (str "00 00" ++ [0#8]) [1#8, 1#8] = hexStringToHash (str "0000" ++ [0#8]) [1#8, 1#8] ∧
    hexStringToHash (str "00 01" ++ [0#8]) [1#8, 1#8] ≠ hexStringToHash (str "0001" ++ [0#8]) [1#8, 1#8] := by
  have a1 : digitsOf (dropPrefix (str "00 00")) = str "0000" := by decide +kernel
  have a2 : digitsOf (dropPrefix (str "00 01")) = str "0001" := by decide +kernel
  constructor
  · have h := (C03_iff (str "00 00") [] [] [1#8, 1#8] (by decide +kernel) (by decide +kernel) (by decide +kernel)).2
      (.inr (by decide +kernel))
    rwa [a1] at h
  · intro h
    have := (C03_iff (str "00 01") [] [] [1#8, 1#8] (by decide +kernel) (by decide +kernel) (by decide +kernel)).1
      (by rw [a2]; exact h)
    revert this
    decide +kernel

end Pgfe.Props
