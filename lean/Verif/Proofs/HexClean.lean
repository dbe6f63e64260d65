import Verif.Proofs.Hex
namespace Pgfe.Proofs
open Pgfe.Model Pgfe.Spec

theorem hexChar_spec : ∀ b : Byte,
    hexChar (b >>> 4) = (str "0123456789abcdef").getD (b.toNat / 16) 0#8 ∧
    hexChar (b &&& 0xF#8) = (str "0123456789abcdef").getD (b.toNat % 16) 0#8 := by decide +kernel

theorem hexText_length (x : List Byte) : (hexText x).length = 2 * x.length := by
  induction x with
  | nil => rfl
  | cons b x ih =>
    have : hexText (b :: x) = [(str "0123456789abcdef").getD (b.toNat / 16) 0#8,
      (str "0123456789abcdef").getD (b.toNat % 16) 0#8] ++ hexText x := by simp [hexText]
    rw [this, List.length_append, ih]; simp; omega

theorem hashToHex_ok (x junk out : List Byte) (ho : 2 * x.length + 1 ≤ out.length) :
    hashToHexString (x ++ junk) x.length out
      = .ok (2 * x.length, hexText x ++ 0#8 :: out.drop (2 * x.length + 1)) := by
  obtain ⟨s, h1, h2⟩ := forN_inv
    (fun i (s : Nat × List Byte) => s = (2 * i, hexText (x.take i) ++ out.drop (2 * i))) x.length
    (fun i (op, out) => do
      let b ← rd (x ++ junk) i
      let out ← wr out op (hexChar (b >>> 4))
      let out ← wr out (op + 1) (hexChar (b &&& 0xF#8))
      .ok (op + 2, out)) (0, out) (by simp [hexText])
    (by
      rintro i ⟨op, o⟩ hi hP
      rw [Prod.mk.injEq] at hP
      obtain ⟨rfl, rfl⟩ := hP
      have hr : rd (x ++ junk) i = .ok x[i] := by
        rw [rd_ok (by simp; omega), List.getElem_append_left hi]
      have hlt : (hexText (x.take i)).length = 2 * i := by
        rw [hexText_length, List.length_take]; omega
      have hd : out.drop (2 * i) = out[2*i] :: out[2*i+1] :: out.drop (2*i+2) := by
        rw [List.drop_eq_getElem_cons (by omega), List.drop_eq_getElem_cons (i := 2*i+1) (by omega)]
      refine ⟨_, ?_, rfl⟩
      simp only [hr, bind_ok]
      rw [hd]
      have w1 := wr_append (hexText (x.take i)) (out[2*i+1] :: out.drop (2*i+2)) (out[2*i])
        (hexChar (x[i] >>> 4))
      rw [hlt] at w1
      rw [w1, bind_ok]
      have w2 := wr_append (hexText (x.take i) ++ [hexChar (x[i] >>> 4)]) (out.drop (2*i+2))
        (out[2*i+1]) (hexChar (x[i] &&& 0xF#8))
      rw [List.length_append, hlt, List.append_assoc, List.append_assoc] at w2
      simp only [List.length_singleton, List.singleton_append] at w2
      rw [w2, bind_ok]
      have ht : hexText (x.take (i + 1)) = hexText (x.take i) ++
          [hexChar (x[i] >>> 4), hexChar (x[i] &&& 0xF#8)] := by
        rw [List.take_succ_eq_append_getElem hi]
        rw [(hexChar_spec x[i]).1, (hexChar_spec x[i]).2]
        unfold hexText
        rw [List.flatMap_append]
        rfl
      rw [ht, show 2 * (i + 1) = 2 * i + 2 by omega]
      simp)
  subst h2
  unfold hashToHexString
  rw [h1, bind_ok]
  have hd : out.drop (2 * x.length) = out[2*x.length] :: out.drop (2 * x.length + 1) :=
    List.drop_eq_getElem_cons (by omega)
  rw [List.take_length, hd]
  have w := wr_append (hexText x) (out.drop (2 * x.length + 1)) (out[2*x.length]) 0#8
  rw [hexText_length] at w
  simp only [w, bind_ok]

/-! ### Cleaning -/

theorem ch2hex_unknown (c : Byte) : ch2hex c = hexUnknown ↔ isDigit c = false := by
  have h := ch2hex_digit c
  unfold isDigit
  cases e : digit c with
  | none => rw [e] at h; simp [h]
  | some v => rw [e] at h; simp only at h; rw [h]; simp [known_of_lt v (digit_lt c v e)]

theorem cleanLoop_eq (t rest : List Byte) (ht : 0#8 ∉ t) :
    ∀ (flag : Int) (p q : List Byte), 1 ≤ flag → (digitsOf t).length ≤ q.length →
      cleanLoop (t ++ 0#8 :: rest) flag p.length (p ++ q)
        = .ok (p.length + (digitsOf t).length,
            p ++ digitsOf t ++ q.drop (digitsOf t).length) := by
  induction t with
  | nil => intro flag p q _ _; simp [cleanLoop, digitsOf]
  | cons c t ih =>
    intro flag p q hf hq
    have hc : c ≠ 0#8 := fun e => ht (by simp [e])
    have ht' : 0#8 ∉ t := fun h' => ht (List.mem_cons_of_mem _ h')
    rw [List.cons_append, cleanLoop, if_neg hc]
    have hf' : 1 ≤ (if flag < 2 then flag + 1 else flag) := by split <;> omega
    have hcond : ¬ (flag < 2 ∧ (if flag < 2 then flag + 1 else flag) = 1 ∧ (c = 0x78#8 ∨ c = 0x58#8)) := by
      rintro ⟨h1, h2, _⟩
      rw [if_pos h1] at h2; omega
    simp only [if_neg hcond]
    cases e : isDigit c with
    | false =>
      rw [if_pos ((ch2hex_unknown c).mpr e)]
      have hd : digitsOf (c :: t) = digitsOf t := by simp [digitsOf, e]
      rw [hd] at hq ⊢
      exact ih ht' _ p q hf' hq
    | true =>
      rw [if_neg (fun h => by rw [ch2hex_unknown] at h; rw [e] at h; cases h)]
      have hd : digitsOf (c :: t) = c :: digitsOf t := by simp [digitsOf, e]
      rw [hd] at hq ⊢
      obtain ⟨x, q', rfl⟩ : ∃ x q', q = x :: q' := by
        cases q with
        | nil => simp at hq
        | cons x q' => exact ⟨x, q', rfl⟩
      rw [wr_append, bind_ok]
      have := ih ht' _ (p ++ [c]) q' hf' (by simpa using hq)
      simp at this
      simp [this]
      omega

theorem x_not_digit : isDigit 0x78#8 = false ∧ isDigit 0x58#8 = false := by decide +kernel

theorem digitsOf_cons (c : Byte) (t : List Byte) :
    digitsOf (c :: t) = (if isDigit c then [c] else []) ++ digitsOf t := by
  simp only [digitsOf, List.filter_cons]; split <;> simp

theorem clean_loop_top (s rest out : List Byte) (hs : 0#8 ∉ s)
    (ho : (digitsOf (dropPrefix s)).length < out.length) :
    ∃ o, cleanLoop (s ++ 0#8 :: rest) (-1) 0 out
      = .ok ((digitsOf (dropPrefix s)).length, o) ∧
      o.take (digitsOf (dropPrefix s)).length = digitsOf (dropPrefix s) ∧
      o.drop ((digitsOf (dropPrefix s)).length + 1)
        = out.drop ((digitsOf (dropPrefix s)).length + 1) ∧ o.length = out.length := by
  have fin : ∀ p q t, t.length ≤ q.length → (p ++ q : List Byte).length = out.length →
      (p ++ t ++ q.drop t.length).take (p ++ t).length = p ++ t ∧
      (p ++ t ++ q.drop t.length).length = out.length := by
    intro p q t h1 h2
    refine ⟨by rw [List.take_left], ?_⟩
    simp only [List.length_append, List.length_drop] at *; omega
  rcases s with _ | ⟨c, _ | ⟨d, t⟩⟩
  · exact ⟨out, by simp [cleanLoop, dropPrefix, digitsOf], by simp [dropPrefix, digitsOf],
      rfl, rfl⟩
  · have hc : c ≠ 0#8 := fun e => hs (by simp [e])
    have hdp : dropPrefix [c] = [c] := rfl
    rw [hdp] at ho ⊢
    simp only [List.cons_append, List.nil_append]
    rw [cleanLoop, if_neg hc]
    simp only [show ((-1 : Int) < 2) = True by simp, if_true, true_and]
    rw [if_neg (by simp)]
    cases e : isDigit c with
    | false =>
      rw [if_pos ((ch2hex_unknown c).mpr e)]
      have : digitsOf [c] = [] := by simp [digitsOf, e]
      rw [this]
      exact ⟨out, by simp [cleanLoop], rfl, rfl, rfl⟩
    | true =>
      rw [if_neg (fun h => by rw [ch2hex_unknown] at h; rw [e] at h; cases h)]
      have hd : digitsOf [c] = [c] := by simp [digitsOf, e]
      rw [hd] at ho ⊢
      obtain ⟨x, q, rfl⟩ : ∃ x q', out = x :: q' := by
        cases out with
        | nil => simp at ho
        | cons x q' => exact ⟨x, q', rfl⟩
      exact ⟨c :: q, by simp [wr, cleanLoop], by simp, by simp, by simp⟩
  · have hc : c ≠ 0#8 := fun e => hs (by simp [e])
    have hdz : d ≠ 0#8 := fun e => hs (by simp [e])
    have ht : 0#8 ∉ t := fun h => hs (by simp [h])
    by_cases hx : d = 0x78#8 ∨ d = 0x58#8
    · have hdp : dropPrefix (c :: d :: t) = t := by simp only [dropPrefix, if_pos hx]
      rw [hdp] at ho ⊢
      simp only [List.cons_append]
      rw [cleanLoop, if_neg hc]
      simp only [show ((-1 : Int) < 2) = True by simp, if_true, true_and]
      rw [if_neg (by simp)]
      obtain ⟨x, q, rfl⟩ : ∃ x q', out = x :: q' := by
        cases out with
        | nil => simp at ho
        | cons x q' => exact ⟨x, q', rfl⟩
      have step : ∀ op o, cleanLoop (d :: (t ++ 0#8 :: rest)) (-1 + 1) op o =
          cleanLoop (t ++ 0#8 :: rest) 1 0 o := by
        intro op o
        rw [cleanLoop, if_neg hdz]
        simp [hx]
      cases e : isDigit c with
      | false =>
        rw [if_pos ((ch2hex_unknown c).mpr e), step]
        have := cleanLoop_eq t rest ht 1 [] (x :: q) (by omega) (by omega)
        simp only [List.length_nil, List.nil_append, Nat.zero_add] at this
        refine ⟨_, this, ?_, ?_, ?_⟩
        · exact (fin [] (x :: q) (digitsOf t) (by omega) rfl).1
        · rw [List.drop_append, List.drop_drop]; simp
        · exact (fin [] (x :: q) (digitsOf t) (by omega) rfl).2
      | true =>
        rw [if_neg (fun h => by rw [ch2hex_unknown] at h; rw [e] at h; cases h)]
        have hw : wr (x :: q) 0 c = .ok (c :: q) := by simp [wr]
        rw [hw, bind_ok, step]
        have hq : (digitsOf t).length ≤ (c :: q).length := by simp at ho ⊢; omega
        have := cleanLoop_eq t rest ht 1 [] (c :: q) (by omega) hq
        simp only [List.length_nil, List.nil_append, Nat.zero_add] at this
        refine ⟨_, this, ?_, ?_, ?_⟩
        · exact (fin [] (c :: q) (digitsOf t) hq (by simp)).1
        · rw [List.drop_append, List.drop_drop]; simp
        · exact (fin [] (c :: q) (digitsOf t) hq (by simp)).2
    · have hdp : dropPrefix (c :: d :: t) = c :: d :: t := by simp only [dropPrefix, if_neg hx]
      rw [hdp] at ho ⊢
      -- no reset: two plain steps, then the general lemma
      have plain : ∀ (ch : Byte) (l : List Byte) (flag : Int) (p q : List Byte),
          ch ≠ 0#8 → flag < 2 → (flag + 1 = 1 → ¬ (ch = 0x78#8 ∨ ch = 0x58#8)) →
          (if isDigit ch then 1 else 0) ≤ q.length →
          cleanLoop (ch :: l) flag p.length (p ++ q) =
            cleanLoop l (flag + 1) (p ++ if isDigit ch then [ch] else []).length
              ((p ++ if isDigit ch then [ch] else []) ++ q.drop (if isDigit ch then 1 else 0)) := by
        intro ch l flag p q h0 hf hn hq
        rw [cleanLoop, if_neg h0]
        simp only [hf, if_true, true_and]
        rw [if_neg (fun h => hn h.1 h.2)]
        cases e : isDigit ch with
        | false => rw [if_pos ((ch2hex_unknown ch).mpr e)]; simp
        | true =>
          rw [if_neg (fun h => by rw [ch2hex_unknown] at h; rw [e] at h; cases h)]
          rw [e] at hq
          obtain ⟨x, q', rfl⟩ : ∃ x q', q = x :: q' := by
            cases q with
            | nil => simp at hq
            | cons x q' => exact ⟨x, q', rfl⟩
          rw [wr_append, bind_ok]
          simp
      have hl : (digitsOf (c :: d :: t)).length
          = (if isDigit c then 1 else 0) + ((if isDigit d then 1 else 0) + (digitsOf t).length) := by
        rw [digitsOf_cons, digitsOf_cons, List.length_append, List.length_append]
        cases isDigit c <;> cases isDigit d <;> simp
      have p1 := plain c (d :: (t ++ 0#8 :: rest)) (-1) [] out hc (by omega) (by omega) (by omega)
      have p2 := plain d (t ++ 0#8 :: rest) 0 (if isDigit c then [c] else [])
        (out.drop (if isDigit c then 1 else 0)) hdz (by omega) (fun _ => hx)
        (by simp only [List.length_drop]; omega)
      have p3 := cleanLoop_eq t rest ht 1
        ((if isDigit c then [c] else []) ++ if isDigit d then [d] else [])
        ((out.drop (if isDigit c then 1 else 0)).drop (if isDigit d then 1 else 0))
        (by omega) (by simp only [List.length_drop]; omega)
      simp only [List.nil_append, List.length_nil] at p1
      have e1 : (-1 : Int) + 1 = 0 := by omega
      have e2 : (0 : Int) + 1 = 1 := by omega
      rw [e1] at p1
      rw [e2] at p2
      have hD : ((if isDigit c then [c] else []) ++ if isDigit d then [d] else []) ++ digitsOf t
          = digitsOf (c :: d :: t) := by
        rw [digitsOf_cons c, digitsOf_cons d, List.append_assoc]
      rw [hD, List.drop_drop, List.drop_drop] at p3
      have hlen3 : (((if isDigit c then [c] else []) ++ if isDigit d then [d] else []
          : List Byte)).length + (digitsOf t).length = (digitsOf (c :: d :: t)).length := by
        rw [← hD, List.length_append (bs := digitsOf t)]
      rw [hlen3, Nat.add_assoc, show (if isDigit c = true then 1 else 0)
        + ((if isDigit d = true then 1 else 0)
        + (digitsOf t).length) = (digitsOf (c :: d :: t)).length from hl.symm] at p3
      rw [List.drop_drop] at p2
      have hfin := p1.trans (p2.trans p3)
      refine ⟨_, hfin, ?_, ?_, ?_⟩
      · rw [List.take_left]
      · rw [List.drop_append, List.drop_drop]; simp [List.drop_eq_nil_of_le]
      · simp only [List.length_append, List.length_drop]; omega

end Pgfe.Proofs
