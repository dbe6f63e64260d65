import Verif.Model.Hex
import Verif.Spec.Hex
namespace Pgfe.Proofs
open Pgfe.Model Pgfe.Spec

theorem strlen_cstr (s rest : List Byte) (h : 0#8 ∉ s) : strlen (s ++ 0#8 :: rest) = .ok s.length := by
  induction s with
  | nil => simp [strlen]
  | cons c s ih =>
    have hc : c ≠ 0#8 := fun e => h (by simp [e])
    rw [List.cons_append, strlen, if_neg hc, ih (fun h' => h (List.mem_cons_of_mem _ h'))]
    rfl

theorem split_zero (mem : List Byte) (h : 0#8 ∈ mem) : ∃ s rest, mem = s ++ 0#8 :: rest ∧ 0#8 ∉ s := by
  induction mem with
  | nil => cases h
  | cons b m ih =>
    by_cases hb : b = 0#8
    · exact ⟨[], m, by rw [hb]; rfl, by simp⟩
    · have : 0#8 ∈ m := by
        rcases List.mem_cons.mp h with h | h
        · exact absurd h.symm hb
        · exact h
      obtain ⟨s, r, e, hs⟩ := ih this
      exact ⟨b :: s, r, by rw [e]; rfl, by
        intro hm
        rcases List.mem_cons.mp hm with hm | hm
        · exact hb hm.symm
        · exact hs hm⟩

theorem strlen_take (mem : List Byte) (h : 0#8 ∈ mem) :
    strlen mem = .ok (mem.takeWhile (fun b => b ≠ 0#8)).length ∧
    (mem.takeWhile (fun b => b ≠ 0#8)).length ≤ mem.length ∧
    mem.take (mem.takeWhile (fun b => b ≠ 0#8)).length = mem.takeWhile (fun b => b ≠ 0#8) := by
  have key := split_zero mem h
  obtain ⟨s, rest, rfl, hs⟩ := key
  have e : (s ++ 0#8 :: rest).takeWhile (fun b => b ≠ 0#8) = s := by
    rw [List.takeWhile_append_of_pos (by
      intro b hb
      simp only [ne_eq, decide_not, Bool.not_eq_eq_eq_not, Bool.not_true, decide_eq_false_iff_not]
      intro h; exact hs (h ▸ hb))]
    simp
  rw [e]
  exact ⟨strlen_cstr s rest hs, by simp, by simp⟩

theorem ch2hex_digit : ∀ c : Byte, ch2hex c = match digit c with
    | some v => BitVec.ofNat 8 v
    | none => hexUnknown := by decide +kernel

theorem digit_lt : ∀ c : Byte, ∀ v, digit c = some v → v < 16 := by
  have : ∀ c : Byte, (match digit c with | some v => decide (v < 16) | none => true) = true := by
    decide +kernel
  intro c v h
  have := this c
  rw [h] at this
  simpa using this

theorem known_of_lt (v : Nat) (h : v < 16) : BitVec.ofNat 8 v ≠ hexUnknown := by
  intro e
  have := congrArg BitVec.toNat e
  simp [hexUnknown] at this
  omega

/-- Pack nibbles into bytes, first nibble of a byte pending in the `Option`. -/
def pack : Option Nat → List Nat → List Byte
  | _, [] => []
  | none, d :: ds => pack (some d) ds
  | some h, d :: ds => BitVec.ofNat 8 (16 * h + d) :: pack none ds

theorem nib_or (h d : Nat) (hh : h < 16) (hd : d < 16) :
    (BitVec.ofNat 8 h <<< 4) ||| BitVec.ofNat 8 d = BitVec.ofNat 8 (16 * h + d) := by
  have : ∀ h : Fin 16, ∀ d : Fin 16,
      (BitVec.ofNat 8 h.1 <<< 4) ||| BitVec.ofNat 8 d.1 = BitVec.ofNat 8 (16 * h.1 + d.1) := by
    decide +kernel
  exact this ⟨h, hh⟩ ⟨d, hd⟩

theorem hexLoop_eq (t rest : List Byte) (ht : 0#8 ∉ t) :
    ∀ (h? : Option Nat) (p q : List Byte), (∀ h ∈ h?, h < 16) →
      (pack h? (t.filterMap digit)).length ≤ q.length →
      hexLoop (t ++ 0#8 :: rest) h?.isSome (BitVec.ofNat 8 (h?.getD 0) <<< 4) p.length (p ++ q)
        = .ok (p.length + (pack h? (t.filterMap digit)).length,
            p ++ pack h? (t.filterMap digit)
              ++ q.drop (pack h? (t.filterMap digit)).length) := by
  induction t with
  | nil => intro h? p q _ _; cases h? <;> simp [hexLoop, pack]
  | cons c t ih =>
    intro h? p q hh hq
    have hc : c ≠ 0#8 := fun e => ht (by simp [e])
    have ht' : 0#8 ∉ t := fun h' => ht (List.mem_cons_of_mem _ h')
    rw [List.cons_append, hexLoop]
    simp only [hc, if_false]
    have hd := ch2hex_digit c
    cases e : digit c with
    | none =>
      rw [e] at hd
      simp only at hd
      simp only [hd, if_true]
      rw [List.filterMap_cons_none e] at hq ⊢
      exact ih ht' h? p q hh hq
    | some v =>
      rw [e] at hd
      simp only at hd
      have hv := digit_lt c v e
      simp only [hd, known_of_lt v hv, if_false]
      rw [List.filterMap_cons_some e] at hq ⊢
      cases h? with
      | none =>
        have := ih ht' (some v) p q (by simpa using hv) (by simpa [pack] using hq)
        simpa [pack] using this
      | some h =>
        simp only [pack, Option.isSome_some, if_true, Option.getD_some,
          nib_or h v (hh h rfl) hv]
        simp only [pack, List.length_cons] at hq
        obtain ⟨x, q', rfl⟩ : ∃ x q', q = x :: q' := by
          cases q with
          | nil => simp at hq
          | cons x q' => exact ⟨x, q', rfl⟩
        rw [wr_append]
        have := ih ht' none (p ++ [BitVec.ofNat 8 (16 * h + v)]) q' (by simp)
          (by simpa using hq)
        simp at this
        simp [this]
        omega

/-! ### Packing and positional notation -/

def val (ds : List Nat) : Nat := ds.foldl (fun acc d => 16 * acc + d) 0

theorem foldl16 (ds : List Nat) (a : Nat) :
    ds.foldl (fun acc d => 16 * acc + d) a = a * 16 ^ ds.length + val ds := by
  induction ds generalizing a with
  | nil => simp [val]
  | cons d ds ih =>
    simp only [List.foldl_cons, val, List.length_cons]
    rw [ih, ih (16 * 0 + d), Nat.pow_succ, Nat.add_mul, Nat.mul_zero, Nat.zero_add]
    have : 16 * a * 16 ^ ds.length = a * (16 ^ ds.length * 16) := by
      rw [Nat.mul_comm 16 a, Nat.mul_assoc, Nat.mul_comm 16]
    omega

theorem val_lt (ds : List Nat) (h : ∀ d ∈ ds, d < 16) : val ds < 16 ^ ds.length := by
  induction ds with
  | nil => simp [val]
  | cons d ds ih =>
    have h1 : d < 16 := h d (by simp)
    have h2 := ih (fun d hd => h d (by simp [hd]))
    have : val (d :: ds) = d * 16 ^ ds.length + val ds := by
      simp only [val, List.foldl_cons]; rw [foldl16]; simp [val]
    rw [this, List.length_cons, Nat.pow_succ]
    have : (d + 1) * 16 ^ ds.length ≤ 16 * 16 ^ ds.length := Nat.mul_le_mul_right _ (by omega)
    rw [Nat.add_mul] at this
    omega

theorem beBytes_length (k n : Nat) : (beBytes k n).length = k := by simp [beBytes]

theorem beBytes_succ (k a b : Nat) (ha : a < 256) (hb : b < 256 ^ k) :
    beBytes (k + 1) (a * 256 ^ k + b) = BitVec.ofNat 8 a :: beBytes k b := by
  have hpos : 0 < 256 ^ k := Nat.pow_pos (by decide)
  simp only [beBytes, List.range_succ_eq_map, List.map_cons, List.map_map]
  congr 1
  · have : (a * 256 ^ k + b) / 256 ^ k = a := by
      rw [Nat.add_comm, Nat.add_mul_div_right _ _ hpos, Nat.div_eq_of_lt hb]; omega
    simp only [Nat.add_sub_cancel, Nat.sub_zero, this, Nat.mod_eq_of_lt ha]
  · apply List.map_congr_left
    intro i hi
    have hi : i < k := List.mem_range.mp hi
    simp only [Function.comp]
    congr 1
    have e : k + 1 - 1 - (i + 1) = k - 1 - i := by omega
    rw [e]
    have hk : 256 ^ k = 256 ^ (k - 1 - i) * (256 * 256 ^ i) := by
      rw [← Nat.pow_succ', ← Nat.pow_add]; congr 1; omega
    have hp : 0 < 256 ^ (k - 1 - i) := Nat.pow_pos (by decide)
    rw [hk, show a * (256 ^ (k - 1 - i) * (256 * 256 ^ i)) + b
      = b + 256 ^ (k - 1 - i) * (256 * (a * 256 ^ i)) by
        rw [Nat.add_comm]; congr 1
        rw [Nat.mul_left_comm, ← Nat.mul_assoc a, Nat.mul_comm a 256, Nat.mul_assoc]]
    rw [Nat.add_mul_div_left _ _ hp, Nat.add_mul_mod_self_left]

theorem pack_even (n : Nat) : ∀ ds : List Nat, ds.length = 2 * n → (∀ d ∈ ds, d < 16) →
    pack none ds = beBytes n (val ds) := by
  induction n with
  | zero =>
    intro ds h _
    have : ds = [] := List.eq_nil_of_length_eq_zero (by omega)
    subst this; rfl
  | succ n ih =>
    intro ds h hd
    match ds, h, hd with
    | a :: b :: ds, h, hd =>
      have hl : ds.length = 2 * n := by simp at h; omega
      have ha : a < 16 := hd a (by simp)
      have hb : b < 16 := hd b (by simp)
      have hds : ∀ d ∈ ds, d < 16 := fun d h => hd d (by simp [h])
      have hp : (16 : Nat) ^ ds.length = 256 ^ n := by
        rw [hl, Nat.pow_mul]
      have hv : val (a :: b :: ds) = (16 * a + b) * 256 ^ n + val ds := by
        simp only [val, List.foldl_cons]
        rw [foldl16, hp]; simp [val]
      rw [hv, beBytes_succ _ _ _ (by omega) (by rw [← hp]; exact val_lt ds hds)]
      simp [pack, ih ds hl hds]

theorem pack_dropLast (n : Nat) : ∀ ds : List Nat, ds.length = 2 * n + 1 →
    pack none ds = pack none (ds.take (2 * n)) := by
  induction n with
  | zero =>
    intro ds h
    match ds, h with
    | [a], _ => rfl
  | succ n ih =>
    intro ds h
    match ds, h with
    | a :: b :: ds, h =>
      have hl : ds.length = 2 * n + 1 := by simp at h; omega
      have : 2 * (n + 1) = 2 * n + 1 + 1 := by omega
      rw [this]
      simp [pack, ih ds hl]

theorem val_zero (ds : List Nat) : val (0 :: ds) = val ds := by simp [val]

/-- Packing with alignment: how many digits are used. -/
theorem pack_spec (odd : Bool) (ds : List Nat) (hd : ∀ d ∈ ds, d < 16)
    (m : Nat) (hm : m = if (ds.length % 2 == 1) = odd then ds.length else ds.length - 1) :
    pack (if odd then some 0 else none) ds = beBytes ((m + 1) / 2) (val (ds.take m)) := by
  have hd0 : ∀ d ∈ (0 :: ds), d < 16 := by
    intro d h
    rcases List.mem_cons.mp h with rfl | h
    · omega
    · exact hd d h
  cases odd with
  | true =>
    have e : pack (if true then some 0 else none) ds = pack none (0 :: ds) := by
      simp [pack]
    rw [e]
    by_cases ho : ds.length % 2 = 1
    · simp [ho] at hm
      subst hm
      rw [List.take_length]
      have := pack_even ((ds.length + 1) / 2) (0 :: ds) (by simp; omega) hd0
      rw [this, val_zero]
    · simp [ho] at hm
      by_cases hz : ds.length = 0
      · have : ds = [] := List.eq_nil_of_length_eq_zero hz
        subst this; subst hm; rfl
      · have h1 := pack_dropLast (ds.length / 2) (0 :: ds) (by simp; omega)
        have h2 : (0 :: ds).take (2 * (ds.length / 2)) = 0 :: ds.take m := by
          have : 2 * (ds.length / 2) = m + 1 := by omega
          rw [this]; rfl
        have h3 := pack_even ((m + 1) / 2) (0 :: ds.take m)
          (by simp; omega)
          (by intro d h
              rcases List.mem_cons.mp h with rfl | h
              · omega
              · exact hd d (List.mem_of_mem_take h))
        rw [h1, h2, h3, val_zero]
  | false =>
    simp only [Bool.false_eq_true, if_false]
    by_cases ho : ds.length % 2 = 1
    · simp [ho] at hm
      have h1 := pack_dropLast (ds.length / 2) ds (by omega)
      have : 2 * (ds.length / 2) = m := by omega
      rw [this] at h1
      rw [h1, pack_even ((m + 1) / 2) (ds.take m) (by simp; omega)
        (fun d h => hd d (List.mem_of_mem_take h))]
    · simp [ho] at hm
      subst hm
      rw [List.take_length, pack_even ((ds.length + 1) / 2) ds (by omega) hd]

end Pgfe.Proofs

namespace Pgfe.Proofs
open Pgfe.Model Pgfe.Spec

theorem filterMap_digitsOf (s : List Byte) : (digitsOf s).filterMap digit = s.filterMap digit := by
  induction s with
  | nil => rfl
  | cons c s ih =>
    unfold digitsOf at *
    cases e : digit c with
    | none => simp [isDigit, e, ih]
    | some v => simp [isDigit, e, ih]

theorem length_filterMap_digit (s : List Byte) :
    (s.filterMap digit).length = (digitsOf s).length := by
  induction s with
  | nil => rfl
  | cons c s ih =>
    unfold digitsOf at *
    cases e : digit c with
    | none => simp [isDigit, e, ih]
    | some v => simp [isDigit, e, ih]

theorem take_filterMap_digit (l : List Byte) (h : ∀ c ∈ l, isDigit c = true) (m : Nat) :
    (l.take m).filterMap digit = (l.filterMap digit).take m := by
  induction l generalizing m with
  | nil => simp
  | cons c l ih =>
    cases m with
    | zero => simp
    | succ m =>
      have hc := h c (by simp)
      obtain ⟨v, e⟩ := Option.isSome_iff_exists.mp hc
      rw [List.take_succ_cons, List.filterMap_cons_some e, List.filterMap_cons_some e,
        List.take_succ_cons, ih (fun c hc => h c (by simp [hc]))]

theorem numeral_take (s : List Byte) (m : Nat) :
    numeral ((digitsOf s).take m) = val ((s.filterMap digit).take m) := by
  unfold numeral val
  rw [take_filterMap_digit _ (by intro c hc; exact (List.mem_filter.mp hc).2), filterMap_digitsOf]

theorem digits_lt (s : List Byte) : ∀ d ∈ s.filterMap digit, d < 16 := by
  intro d h
  obtain ⟨c, _, e⟩ := List.mem_filterMap.mp h
  exact digit_lt c d e

theorem not_digit_h : isDigit 0x68#8 = false ∧ isDigit 0x48#8 = false := by decide +kernel

theorem digits_le (s : List Byte) : (digitsOf s).length + trailingH s ≤ s.length := by
  unfold trailingH
  rcases List.eq_nil_or_concat s with rfl | ⟨t, c, rfl⟩
  · simp [digitsOf]
  · simp only [List.concat_eq_append]
    have h1 : (digitsOf t).length ≤ t.length := List.length_filter_le _ _
    simp only [List.getLast?_append, List.getLast?_singleton, Option.some_or]
    by_cases hc : c = 0x68#8 ∨ c = 0x48#8
    · have : isDigit c = false := by
        rcases hc with rfl | rfl
        · exact not_digit_h.1
        · exact not_digit_h.2
      simp only [hc, if_true, digitsOf, List.filter_append, List.length_append]
      simp [this]
      exact h1
    · simp only [hc, if_false]
      have := List.length_filter_le isDigit (t ++ [c])
      simpa [digitsOf] using this

/-- The parser after the prefix has been handled. -/
theorem parse_body (body rest out : List Byte) (hb : 0#8 ∉ body)
    (m : Nat)
    (hm : m = if separators body % 2 = 0 then (digitsOf body).length
      else (digitsOf body).length - 1)
    (ho : (m + 1) / 2 ≤ out.length) :
    hexLoop (body ++ 0#8 :: rest) ((body.length - trailingH body) % 2 == 1) 0 0 out
      = .ok ((m + 1) / 2,
          beBytes ((m + 1) / 2) (numeral ((digitsOf body).take m)) ++ out.drop ((m + 1) / 2)) := by
  have hle := digits_le body
  have hlen := length_filterMap_digit body
  have hm' : m = if ((body.filterMap digit).length % 2 == 1)
      = ((body.length - trailingH body) % 2 == 1) then (body.filterMap digit).length
      else (body.filterMap digit).length - 1 := by
    rw [hm, hlen]
    unfold separators
    by_cases h : (body.length - (digitsOf body).length - trailingH body) % 2 = 0
    · rw [if_pos h, if_pos]
      have : (body.length - trailingH body) % 2 = (digitsOf body).length % 2 := by omega
      rw [this]
    · rw [if_neg h, if_neg]
      have : (body.length - trailingH body) % 2 = 1 - (digitsOf body).length % 2 := by omega
      rw [this]
      rcases Nat.mod_two_eq_zero_or_one (digitsOf body).length with e | e <;> simp [e]
  have hp := pack_spec _ _ (digits_lt body) m hm'
  rw [numeral_take, ← hp]
  have hl : (pack (if ((body.length - trailingH body) % 2 == 1) = true then some 0 else none)
      (body.filterMap digit)).length = (m + 1) / 2 := by rw [hp, beBytes_length]
  generalize ho' : ((body.length - trailingH body) % 2 == 1) = odd at *
  cases odd with
  | true =>
    have := hexLoop_eq body rest hb (some 0) [] out (by simp) (by simp only [if_true] at hl; omega)
    simp only [if_true] at hl ⊢
    simpa [hl] using this
  | false =>
    simp only [Bool.false_eq_true, if_false] at hl ⊢
    have := hexLoop_eq body rest hb none [] out (by simp) (by omega)
    simpa [hl] using this

theorem hex_exact (s rest out : List Byte) (hs : 0#8 ∉ s) (hne : s ≠ []) (m : Nat)
    (hm : m = if separators (dropPrefix s) % 2 = 0 then (digitsOf (dropPrefix s)).length
      else (digitsOf (dropPrefix s)).length - 1)
    (ho : (m + 1) / 2 ≤ out.length) :
    hexStringToHash (s ++ 0#8 :: rest) out
      = .ok ((m + 1) / 2, beBytes ((m + 1) / 2) (numeral ((digitsOf (dropPrefix s)).take m))
          ++ out.drop ((m + 1) / 2)) := by
  have key : ∀ off body, dropPrefix s = body → s.drop off = body → off + body.length = s.length →
      (body = [] → ∃ c, s.getLast? = some c ∧ ¬ (c = 0x68#8 ∨ c = 0x48#8)) →
      (do
        let tpc ← rdBefore (s ++ 0#8 :: rest) (off + body.length)
        let len := if tpc = 0x68#8 ∨ tpc = 0x48#8 then body.length - 1 else body.length
        hexLoop ((s ++ 0#8 :: rest).drop off) (len % 2 == 1) 0 0 out) =
      .ok ((m + 1) / 2, beBytes ((m + 1) / 2) (numeral ((digitsOf (dropPrefix s)).take m))
          ++ out.drop ((m + 1) / 2)) := by
    intro off body h1 h2 h3 h4
    have hlen : s.length ≠ 0 := by simpa using hne
    rw [rdBefore, if_neg (by omega), h3]
    have hr : rd (s ++ 0#8 :: rest) (s.length - 1) = .ok (s.getLast hne) := by
      rw [rd_ok (by simp; omega)]
      congr 1
      rw [List.getElem_append_left (by omega), List.getLast_eq_getElem]
    rw [hr, bind_ok]
    have hlast : trailingH body =
        if s.getLast hne = 0x68#8 ∨ s.getLast hne = 0x48#8 then 1 else 0 := by
      unfold trailingH
      by_cases hb : body = []
      · subst hb
        obtain ⟨c, hc, hn⟩ := h4 rfl
        rw [List.getLast?_eq_some_getLast hne] at hc
        rw [Option.some.inj hc, if_neg hn]; rfl
      · have : body.getLast? = some (s.getLast hne) := by
          rw [← h2, List.getLast?_drop, if_neg, List.getLast?_eq_some_getLast hne]
          have : body.length ≠ 0 := by simpa using hb
          omega
        rw [this]
    have hlen' : (if s.getLast hne = 0x68#8 ∨ s.getLast hne = 0x48#8 then body.length - 1
        else body.length) = body.length - trailingH body := by
      rw [hlast]; split <;> rfl
    rw [show ((s ++ 0#8 :: rest).drop off) = body ++ 0#8 :: rest by
      rw [List.drop_append_of_le_length (by omega), h2]]
    have := parse_body body rest out (by rw [← h2]; exact fun h => hs (List.mem_of_mem_drop h)) m
      (by rw [← h1]; exact hm) ho
    rw [h1, ← this]
    exact congrArg (fun n => hexLoop (body ++ 0#8 :: rest) (n % 2 == 1) 0 0 out) hlen'
  unfold hexStringToHash
  rw [strlen_cstr s rest hs, bind_ok]
  rcases s with _ | ⟨c, _ | ⟨d, t⟩⟩
  · exact absurd rfl hne
  · have := key 0 [c] rfl rfl rfl (by simp)
    simpa [rd] using this
  · have hr : rd (c :: d :: t ++ 0#8 :: rest) 1 = .ok d := by simp [rd]
    rw [hr, bind_ok]
    by_cases hx : d = 0x78#8 ∨ d = 0x58#8
    · have hx' : 2 ≤ (c :: d :: t).length ∧ (d = 0x78#8 ∨ d = 0x58#8) := ⟨by simp, hx⟩
      have hdp : dropPrefix (c :: d :: t) = t := by simp only [dropPrefix, if_pos hx]
      have := key 2 t hdp rfl (by simp; omega) (by
        intro ht
        subst ht
        refine ⟨d, by simp, ?_⟩
        rcases hx with rfl | rfl <;> decide)
      rw [if_pos hx']
      simpa using this
    · have hx' : ¬ (2 ≤ (c :: d :: t).length ∧ (d = 0x78#8 ∨ d = 0x58#8)) := fun h => hx h.2
      have hdp : dropPrefix (c :: d :: t) = c :: d :: t := by simp only [dropPrefix, if_neg hx]
      have := key 0 (c :: d :: t) hdp rfl (by simp) (by simp)
      rw [if_neg hx']
      exact this

end Pgfe.Proofs
