import Verif.Props.BaseOrder
/-!
# C87: exactly which base32hex texts are out of order
-/
namespace Pgfe.Proofs
open Pgfe.Model Pgfe.Spec

/-- Digit values with a gap for `=`, which stands between `9` and `A`. -/
def padRank (d : Nat) : Nat := if d < 10 then d else d + 1

theorem not_before_zeros : ∀ (n : Nat) (l : List Nat), n ≤ l.length → ¬ natBefore l (List.replicate n 0) := by
  intro n
  induction n with
  | zero => intro l _; cases l <;> simp [natBefore]
  | succ n ih =>
    intro l h
    cases l with
    | nil => simp at h
    | cons a l =>
      rw [List.replicate_succ]
      have := ih l (by simpa using h)
      simp [natBefore, this]

theorem padRank_lt (a b : Nat) : padRank a < padRank b ↔ a < b := by unfold padRank; split <;> split <;> omega
theorem padRank_eq (a b : Nat) : padRank a = padRank b ↔ a = b := by unfold padRank; split <;> split <;> omega

theorem padded_order : ∀ (D D' : List Nat) (k k' t t' : Nat), D.length + k = D'.length + k' → D.length + t = D'.length + t' →
    natBefore (D ++ List.replicate k 0) (D' ++ List.replicate k' 0) →
    (natBefore (D.map padRank ++ List.replicate t 10) (D'.map padRank ++ List.replicate t' 10)
      ↔ ¬ ∃ c rest, D' ++ List.replicate k' 0 = D ++ c :: rest ∧ c < 10) := by
  intro D
  induction D with
  | nil =>
    intro D' k k' t t' h1 h2 hb
    cases D' with
    | nil =>
      exact absurd hb (not_before_zeros k' _ (by simp at h1 ⊢; omega))
    | cons b D' =>
      simp only [List.length_nil, List.length_cons, Nat.zero_add] at h1 h2
      obtain ⟨t, rfl⟩ : ∃ s, t = s + 1 := ⟨t - 1, by omega⟩
      simp only [List.map_nil, List.nil_append, List.replicate_succ, List.map_cons, List.cons_append, natBefore]
      constructor
      · rintro h ⟨c, rest, e, hc⟩
        rw [List.cons.injEq] at e
        rw [← e.1] at hc
        unfold padRank at h
        rw [if_pos hc] at h
        omega
      · intro h
        by_cases hc : b < 10
        · exact absurd ⟨b, _, rfl, hc⟩ h
        · unfold padRank
          rw [if_neg hc]
          omega
  | cons a D ih =>
    intro D' k k' t t' h1 h2 hb
    cases D' with
    | nil => exact absurd hb (not_before_zeros k' _ (by simp at h1 ⊢; omega))
    | cons b D' =>
      simp only [List.map_cons, List.cons_append, natBefore, padRank_lt, padRank_eq, List.cons.injEq] at hb ⊢
      rcases hb with hb | ⟨rfl, hb⟩
      · refine iff_of_true (.inl hb) ?_
        rintro ⟨c, rest, ⟨e, _⟩, _⟩
        omega
      · have := ih D' k k' t t' (by simp at h1; omega) (by simp at h2; omega) hb
        simp only [Nat.lt_irrefl, true_and, false_or]
        exact this

/-- The text of any data is the characters of its leading digits, zeros at the end left out, and padding. -/
theorem libEncode_shape {B : BaseSpec} (hB : Good B) (hz : ∀ d, d < 2 ^ B.bits → (B.alphabet.getD d 0#8 = B.zeroChar ↔ d = 0)) :
    ∀ x, ∃ D k t, B.digits x = D ++ List.replicate k 0 ∧
      B.libEncode x = D.map (fun d => B.alphabet.getD d 0#8) ++ List.replicate t padChar := by
  refine group_induction B.unit hB.unit_pos ?_ ?_ ?_
  · exact ⟨[], 0, 0, by rw [digits_nil hB]; rfl, by rw [libEncode_nil]; rfl⟩
  · intro p h0 hp
    obtain ⟨k, hk⟩ := dropTrailing_append B.zeroChar ((B.digits p).map (fun d => B.alphabet.getD d 0#8))
    obtain ⟨D, E, e, e1, e2⟩ := List.map_eq_append_iff.1 hk
    rw [libEncode_partial p h0 hp]
    refine ⟨D, k, B.chars - (dropTrailing B.zeroChar ((B.digits p).map (fun d => B.alphabet.getD d 0#8))).length, ?_, ?_⟩
    · rw [e]
      congr 1
      refine List.eq_replicate_iff.2 ⟨?_, fun d hd => ?_⟩
      · have := congrArg List.length e2; simpa using this
      · have h1 : B.alphabet.getD d 0#8 ∈ List.replicate k B.zeroChar := by
          rw [← e2]; exact List.mem_map_of_mem hd
        exact (hz d (digits_lt_pow p d (by rw [e]; simp [hd]))).1 (List.eq_of_mem_replicate h1)
    · unfold BaseSpec.libLast
      dsimp only
      rw [← e1]
  · intro u y hu ⟨D, k, t, h1, h2⟩
    refine ⟨B.digits u ++ D, k, t, ?_, ?_⟩
    · rw [digits_append hB u y hu, h1, List.append_assoc]
    · rw [libEncode_append hB u y hu, h2, List.map_append, List.append_assoc]

end Pgfe.Proofs

namespace Pgfe.Props
open Pgfe.Model Pgfe.Spec Pgfe.Proofs

/-- The character of a rank. -/
def rankChar (r : Nat) : Byte := if r = 10 then padChar else rfcBase32Hex.alphabet.getD (if r < 10 then r else r - 1) 0#8

theorem rankChar_padRank (d : Nat) : rankChar (padRank d) = rfcBase32Hex.alphabet.getD d 0#8 := by
  unfold rankChar padRank
  split
  · rw [if_neg (by omega)]
  · rw [if_neg (by omega), if_neg (by omega)]; rfl

theorem rankChar_order : ∀ a b, a < 33 → b < 33 →
    ((rankChar a).toNat < (rankChar b).toNat ↔ a < b) ∧ (rankChar a = rankChar b ↔ a = b) := by
  have : ∀ a < 33, ∀ b < 33, ((rankChar a).toNat < (rankChar b).toNat ↔ a < b) ∧ (rankChar a = rankChar b ↔ a = b) := by
    decide +kernel
  exact fun a b ha hb => this a ha b hb

theorem hex_facts : ∀ d < 32, (rfcBase32Hex.alphabet.getD d 0#8 = rfcBase32Hex.zeroChar ↔ d = 0) ∧
    rfcBase32Hex.alphabet.getD d 0#8 ≠ padChar ∧ ((rfcBase32Hex.alphabet.getD d 0#8).toNat ≤ 0x39 ↔ d < 10) := by decide +kernel

theorem hex_map_inj : ∀ (D E : List Nat), (∀ d ∈ D, d < 32) → (∀ d ∈ E, d < 32) →
    D.map (fun d => rfcBase32Hex.alphabet.getD d 0#8) = E.map (fun d => rfcBase32Hex.alphabet.getD d 0#8) → D = E := by
  intro D
  induction D with
  | nil => intro E _ _ h; cases E <;> simp_all
  | cons a D ih =>
    intro E hD hE h
    cases E with
    | nil => simp at h
    | cons b E =>
      rw [List.map_cons, List.map_cons, List.cons.injEq] at h
      have h1 := ((alphabet_order .base32hex (.inr rfl) a b (hD a (by simp)) (hE b (by simp))).2).1 h.1
      rw [h1, ih E (fun d hd => hD d (by simp [hd])) (fun d hd => hE d (by simp [hd])) h.2]

theorem takeWhile_data (D : List Nat) (hD : ∀ d ∈ D, d < 32) (t : Nat) :
    (D.map (fun d => rfcBase32Hex.alphabet.getD d 0#8) ++ List.replicate t padChar).takeWhile (· ≠ 0x3D#8)
      = D.map (fun d => rfcBase32Hex.alphabet.getD d 0#8) := by
  induction D with
  | nil => cases t <;> simp [List.replicate_succ, padChar]
  | cons a D ih =>
    have h1 := (hex_facts a (hD a (by simp))).2.1
    rw [List.map_cons, List.cons_append, List.takeWhile_cons_of_pos (by simpa [padChar] using h1),
      ih (fun d hd => hD d (by simp [hd]))]

/-- **C87, base32hex, exactly.**  Of two byte strings of equal length let `x` sort before `y`.  The library's texts sort
the same way unless the data characters of `x`'s text, without its `=`s, begin the RFC 4648 text of `y` and the next
character there is one of `0` … `9`. -/
theorem C87_iff (S S' : Slack) (hS : Roomy S) (hS' : Roomy S')
    (g g' x y out out' o o' : List Byte) (n n' : Nat) (hg : Scratch .base32hex g) (hg' : Scratch .base32hex g')
    (hf : Fits .base32hex x.length out) (hf' : Fits .base32hex y.length out')
    (h : x.length = y.length) (hxy : sortsBefore x y)
    (he : pgfeEncode .base32hex S g x x.length out = .ok (n, o)) (he' : pgfeEncode .base32hex S' g' y y.length out' = .ok (n', o')) :
    sortsBefore (o.take n) (o'.take n') ↔
      ¬ ∃ c rest, rfcBase32Hex.encode y = (o.take n).takeWhile (· ≠ 0x3D#8) ++ c :: rest ∧ c.toNat ≤ 0x39 := by
  rw [text_get _ S hS g x out o n hg hf he, text_get _ S' hS' g' y out' o' n' hg' hf' he']
  have hB := good .base32hex
  have hz : ∀ d, d < 2 ^ (specOf .base32hex).bits → ((specOf .base32hex).alphabet.getD d 0#8 = (specOf .base32hex).zeroChar ↔ d = 0) :=
    fun d hd => (hex_facts d hd).1
  obtain ⟨D, k, t, d1, e1⟩ := libEncode_shape hB hz x
  obtain ⟨D', k', t', d2, e2⟩ := libEncode_shape hB hz y
  have hD : ∀ d ∈ D, d < 32 := fun d hd => digits_lt_pow (B := specOf .base32hex) x d (by rw [d1]; simp [hd])
  have hD' : ∀ d ∈ D' ++ List.replicate k' 0, d < 32 := fun d hd => digits_lt_pow (B := specOf .base32hex) y d (by rw [d2]; exact hd)
  have hb := (digits_order hB x y h).2 hxy
  rw [d1, d2] at hb
  have l1 : D.length + k = D'.length + k' := by
    have : ((specOf .base32hex).digits x).length = ((specOf .base32hex).digits y).length := by rw [digits_length, digits_length, h]
    rw [d1, d2] at this
    simpa using this
  have l2 : D.length + t = D'.length + t' := by
    have : ((specOf .base32hex).libEncode x).length = ((specOf .base32hex).libEncode y).length := by
      rw [libEncode_length hB, libEncode_length hB, h]
    rw [e1, e2] at this
    simpa using this
  have ht := padded_order D D' k k' t t' l1 l2 hb
  have conv1 : ∀ (E : List Nat) (s : Nat), E.map (fun d => (specOf .base32hex).alphabet.getD d 0#8) ++ List.replicate s padChar
      = (E.map padRank ++ List.replicate s 10).map rankChar := by
    intro E s
    rw [List.map_append, List.map_map, List.map_replicate]
    congr 1
    exact List.map_congr_left (fun d _ => (rankChar_padRank d).symm)
  have rk : ∀ (E : List Nat) (s : Nat), (∀ d ∈ E, d < 32) → ∀ a ∈ E.map padRank ++ List.replicate s 10, a < 33 := by
    intro E s hE a ha
    rcases List.mem_append.1 ha with ha | ha
    · obtain ⟨d, hd, rfl⟩ := List.mem_map.1 ha
      have := hE d hd
      unfold padRank; split <;> omega
    · rw [List.eq_of_mem_replicate ha]; decide
  have e3 : ((specOf .base32hex).libEncode x).takeWhile (· ≠ 0x3D#8) = D.map (fun d => rfcBase32Hex.alphabet.getD d 0#8) := by
    rw [e1]; exact takeWhile_data D hD t
  rw [e3, e1, e2, conv1, conv1, sortsBefore_map rankChar 33 rankChar_order _ _ (rk D t hD)
    (rk D' t' (fun d hd => hD' d (by simp [hd]))), ht]
  refine not_congr ?_
  have ey : rfcBase32Hex.encode y = (D' ++ List.replicate k' 0).map (fun d => rfcBase32Hex.alphabet.getD d 0#8) ++
      List.replicate ((8 - (D' ++ List.replicate k' 0).length % 8) % 8) padChar := by
    rw [← d2]; rfl
  constructor
  · rintro ⟨c, rest, e, hc⟩
    refine ⟨rfcBase32Hex.alphabet.getD c 0#8, rest.map (fun d => rfcBase32Hex.alphabet.getD d 0#8) ++
      List.replicate ((8 - (D' ++ List.replicate k' 0).length % 8) % 8) padChar, ?_, ((hex_facts c (hD' c (by rw [e]; simp))).2.2).2 hc⟩
    rw [ey]
    conv => lhs; arg 1; rw [e]
    rw [List.map_append, List.map_cons, List.append_assoc, List.cons_append]
  · rintro ⟨c, rest, e, hc⟩
    rw [ey] at e
    generalize (8 - (D' ++ List.replicate k' 0).length % 8) % 8 = s at e
    generalize D' ++ List.replicate k' 0 = Y at *
    have hpad : ∀ r : List Byte, ∀ p q : List Byte, p ++ c :: q = r ++ List.replicate s padChar → p.length < r.length := by
      intro r p q hpq
      rcases Nat.lt_or_ge p.length r.length with hl | hl
      · exact hl
      · have hm : c ∈ List.replicate s padChar := by
          have := congrArg (List.drop r.length) hpq
          rw [List.drop_left, List.drop_append_of_le_length hl] at this
          rw [← this]; simp
        rw [List.eq_of_mem_replicate hm] at hc
        exact absurd hc (by decide)
    have hl := hpad _ _ _ e.symm
    rw [List.length_map, List.length_map] at hl
    have eY : Y = Y.take D.length ++ Y.drop D.length := (List.take_append_drop _ _).symm
    cases hd : Y.drop D.length with
    | nil => have := congrArg List.length hd; simp at this; omega
    | cons b r =>
      rw [hd] at eY
      rw [eY, List.map_append, List.map_cons, List.append_assoc, List.cons_append] at e
      have hlen : (Y.take D.length).length = D.length := by rw [List.length_take]; omega
      obtain ⟨f1, f2⟩ := List.append_inj e (by rw [List.length_map, List.length_map, hlen])
      rw [List.cons.injEq] at f2
      have hbm : b < 32 := hD' b (by rw [eY]; simp)
      refine ⟨b, r, ?_, ((hex_facts b hbm).2.2).1 (by rw [f2.1]; exact hc)⟩
      rw [eY, hex_map_inj _ D (fun d hd => hD' d (List.mem_of_mem_take hd)) hD f1]

/-- `08` sorts before `09` and before `0c`, and its text ends in a dropped zero.  The text of `09` goes on with `4`, so
the order is lost; that of `0c` goes on with `G`, so it is kept. -/
theorem C87_iff_example :
    pgfeEncode .base32hex ⟨[1#8], [2#8, 3#8]⟩ (List.replicate 8 7#8) [0x08#8] 1 (List.replicate 9 9#8) = .ok (8, str "1=======" ++ [0#8]) ∧
    (str "1=======").takeWhile (· ≠ 0x3D#8) = str "1" ∧
    rfcBase32Hex.encode [0x09#8] = str "1" ++ 0x34#8 :: str "======" ∧
    rfcBase32Hex.encode [0x0c#8] = str "1" ++ 0x47#8 :: str "======" ∧
    pgfeEncode .base32hex ⟨[1#8], [2#8, 3#8]⟩ (List.replicate 8 7#8) [0x0c#8] 1 (List.replicate 9 9#8) = .ok (8, str "1G======" ++ [0#8]) ∧
    sortsBefore [0x08#8] [0x0c#8] ∧ sortsBefore (str "1=======") (str "1G======") := by
  refine ⟨by decide +kernel, by decide +kernel, by decide +kernel, by decide +kernel, by decide +kernel, .inl (by decide), ?_⟩
  right; exact ⟨rfl, .inl (by decide)⟩

end Pgfe.Props
