import Verif.Proofs.HexClean
namespace Pgfe.Proofs
open Pgfe.Model Pgfe.Spec

/-- No position of `t` can reset the output pointer when the flag is `flag`. -/
def NoReset (flag : Int) (t : List Byte) : Prop :=
  ∀ (i : Nat) (c : Byte), flag + 1 + i = 1 → t[i]? = some c → ¬ (c = 0x78#8 ∨ c = 0x58#8)

theorem cleanLoopIn_eq (t rest : List Byte) (ht : 0#8 ∉ t) :
    ∀ (fuel : Nat) (flag : Int) (p mid : List Byte), t.length < fuel → NoReset flag t →
      cleanLoopIn fuel (p.length + mid.length) flag p.length (p ++ (mid ++ (t ++ 0#8 :: rest)))
        = .ok (p.length + (digitsOf t).length,
            p ++ (digitsOf t ++ (mid ++ (t ++ 0#8 :: rest)).drop (digitsOf t).length)) := by
  induction t with
  | nil =>
    intro fuel flag p mid hf _
    obtain ⟨f, rfl⟩ : ∃ f, fuel = f + 1 := ⟨fuel - 1, by simp at hf; omega⟩
    have : rd (p ++ (mid ++ 0#8 :: rest)) (p.length + mid.length) = .ok 0#8 := by
      have := rd_append (p ++ mid) rest 0#8
      simpa using this
    simp [cleanLoopIn, this, digitsOf]
  | cons c t ih =>
    intro fuel flag p mid hf hn
    have hc : c ≠ 0#8 := fun e => ht (by simp [e])
    have ht' : 0#8 ∉ t := fun h' => ht (List.mem_cons_of_mem _ h')
    obtain ⟨f, rfl⟩ : ∃ f, fuel = f + 1 := ⟨fuel - 1, by simp at hf; omega⟩
    have hr : rd (p ++ (mid ++ (c :: t ++ 0#8 :: rest))) (p.length + mid.length) = .ok c := by
      have := rd_append (p ++ mid) (t ++ 0#8 :: rest) c
      simpa using this
    have hf' : t.length < f := by simp at hf; omega
    have hcond : ¬ (flag < 2 ∧ (if flag < 2 then flag + 1 else flag) = 1
        ∧ (c = 0x78#8 ∨ c = 0x58#8)) := by
      rintro ⟨h1, h2, h3⟩
      rw [if_pos h1] at h2
      exact hn 0 c (by omega) rfl h3
    have hn' : NoReset (if flag < 2 then flag + 1 else flag) t := by
      intro i c' h1 h2
      refine hn (i + 1) c' ?_ (by simpa using h2)
      split at h1 <;> omega
    rw [cleanLoopIn, hr, bind_ok, if_neg hc]
    simp only [if_neg hcond]
    cases e : isDigit c with
    | false =>
      rw [if_pos ((ch2hex_unknown c).mpr e)]
      have hd : digitsOf (c :: t) = digitsOf t := by simp [digitsOf, e]
      have := ih ht' f _ p (mid ++ [c]) hf' hn'
      rw [hd]
      simp only [List.length_append, List.length_singleton, List.append_assoc,
        List.singleton_append] at this
      simpa [Nat.add_assoc] using this
    | true =>
      rw [if_neg (fun h => by rw [ch2hex_unknown] at h; rw [e] at h; cases h)]
      have hd : digitsOf (c :: t) = c :: digitsOf t := by simp [digitsOf, e]
      obtain ⟨y, m', hm⟩ : ∃ y m', mid ++ [c] = y :: m' := by
        cases mid with
        | nil => exact ⟨c, [], rfl⟩
        | cons y m => exact ⟨y, m ++ [c], rfl⟩
      have hlen : mid.length = m'.length := by
        have := congrArg List.length hm
        simpa using this
      have hbuf : mid ++ (c :: t ++ 0#8 :: rest) = y :: (m' ++ (t ++ 0#8 :: rest)) := by
        have : mid ++ (c :: t ++ 0#8 :: rest) = (mid ++ [c]) ++ (t ++ 0#8 :: rest) := by simp
        rw [this, hm]; rfl
      rw [hbuf, wr_append, bind_ok]
      have := ih ht' f _ (p ++ [c]) m' hf' hn'
      rw [hd, hlen]
      simp only [List.length_append, List.length_singleton, List.append_assoc,
        List.singleton_append] at this
      rw [show p.length + m'.length + 1 = p.length + 1 + m'.length by omega, this]
      simp
      omega

theorem clean_in_place (s rest : List Byte) (hs : 0#8 ∉ s) :
    ∃ tail, hashStringCleanInPlace (s ++ 0#8 :: rest) =
      .ok ((digitsOf (dropPrefix s)).length, digitsOf (dropPrefix s) ++ 0#8 :: tail) ∧
      (digitsOf (dropPrefix s) ++ 0#8 :: tail).length = (s ++ 0#8 :: rest).length := by
  have key : ∃ q, cleanLoopIn ((s ++ 0#8 :: rest).length + 1) 0 (-1) 0 (s ++ 0#8 :: rest) =
      .ok ((digitsOf (dropPrefix s)).length, digitsOf (dropPrefix s) ++ q) ∧ q ≠ [] ∧
      (digitsOf (dropPrefix s) ++ q).length = (s ++ 0#8 :: rest).length := by
    have hfil : ∀ (t : List Byte), (digitsOf t).length ≤ t.length := fun t =>
      List.length_filter_le _ _
    have nores : NoReset (-1) s → dropPrefix s = s →
        ∃ q, cleanLoopIn ((s ++ 0#8 :: rest).length + 1) 0 (-1) 0 (s ++ 0#8 :: rest) =
          .ok ((digitsOf (dropPrefix s)).length, digitsOf (dropPrefix s) ++ q) ∧ q ≠ [] ∧
          (digitsOf (dropPrefix s) ++ q).length = (s ++ 0#8 :: rest).length := fun hn hdp => by
      have := cleanLoopIn_eq s rest hs ((s ++ 0#8 :: rest).length + 1) (-1) [] []
        (by simp; omega) hn
      simp only [List.length_nil, List.nil_append, Nat.zero_add, Nat.add_zero] at this
      rw [hdp]
      refine ⟨_, this, ?_, ?_⟩
      · intro h
        have := congrArg List.length h
        have h3 := hfil s
        simp at this; omega
      · have h3 := hfil s
        simp; omega
    rcases s with _ | ⟨c, _ | ⟨d, t⟩⟩
    · refine nores ?_ rfl
      intro i c _ h; simp at h
    · refine nores ?_ rfl
      intro i c hi h
      have : i = 1 := by omega
      subst this; simp at h
    · by_cases hx : d = 0x78#8 ∨ d = 0x58#8
      · have hdp : dropPrefix (c :: d :: t) = t := by simp only [dropPrefix, if_pos hx]
        have hc : c ≠ 0#8 := fun e => hs (by simp [e])
        have hdz : d ≠ 0#8 := fun e => hs (by simp [e])
        have ht : 0#8 ∉ t := fun h => hs (by simp [h])
        rw [hdp]
        -- two steps, leaving the array unchanged and the output pointer at 0
        have two : cleanLoopIn ((c :: d :: t ++ 0#8 :: rest).length + 1) 0 (-1) 0
            (c :: d :: t ++ 0#8 :: rest) =
            cleanLoopIn (t.length + rest.length + 2) 2 1 0 (c :: d :: t ++ 0#8 :: rest) := by
          rw [show (c :: d :: t ++ 0#8 :: rest).length + 1 = t.length + rest.length + 2 + 1 + 1 by
            simp; omega]
          rw [cleanLoopIn, show rd (c :: d :: t ++ 0#8 :: rest) 0 = .ok c by simp [rd], bind_ok,
            if_neg hc]
          simp only [show ((-1 : Int) < 2) = True by simp, if_true, true_and]
          rw [if_neg (by simp)]
          have step : ∀ op, cleanLoopIn (t.length + rest.length + 2 + 1) (0 + 1) (-1 + 1) op
              (c :: d :: t ++ 0#8 :: rest) =
              cleanLoopIn (t.length + rest.length + 2) 2 1 0 (c :: d :: t ++ 0#8 :: rest) := by
            intro op
            rw [cleanLoopIn, show rd (c :: d :: t ++ 0#8 :: rest) (0 + 1) = .ok d by simp [rd],
              bind_ok, if_neg hdz]
            simp [hx]
          split
          · rw [step]
          · rw [show wr (c :: d :: t ++ 0#8 :: rest) 0 c = .ok (c :: d :: t ++ 0#8 :: rest) by
              simp [wr], bind_ok, step]
        have := cleanLoopIn_eq t rest ht (t.length + rest.length + 2) 1 [] [c, d] (by omega)
          (by intro i c' h _; omega)
        simp only [List.length_nil, List.nil_append, Nat.zero_add, List.length_cons] at this
        have h3 := hfil t
        refine ⟨_, two.trans this, ?_, ?_⟩
        · intro h
          have := congrArg List.length h
          simp at this; omega
        · simp; omega
      · refine nores ?_ (by simp only [dropPrefix, if_neg hx])
        intro i c' hi h
        have : i = 1 := by omega
        subst this
        simp at h
        subst h
        exact hx
  obtain ⟨q, h1, h2, h3⟩ := key
  obtain ⟨y, tail, rfl⟩ : ∃ y tail, q = y :: tail := by
    cases q with
    | nil => exact absurd rfl h2
    | cons y tail => exact ⟨y, tail, rfl⟩
  refine ⟨tail, ?_, by simpa using h3⟩
  unfold hashStringCleanInPlace
  rw [h1, bind_ok]
  simp only [wr_append, bind_ok]

theorem clean_ok (s rest out : List Byte) (hs : 0#8 ∉ s)
    (ho : (digitsOf (dropPrefix s)).length < out.length) :
    hashStringClean (s ++ 0#8 :: rest) out = .ok ((digitsOf (dropPrefix s)).length,
      digitsOf (dropPrefix s) ++ 0#8 :: out.drop ((digitsOf (dropPrefix s)).length + 1)) := by
  obtain ⟨o, h1, h2, h3, h4⟩ := clean_loop_top s rest out hs ho
  unfold hashStringClean
  rw [h1, bind_ok]
  have hlt : (digitsOf (dropPrefix s)).length < o.length := by omega
  have hsplit : o = digitsOf (dropPrefix s) ++
      o[(digitsOf (dropPrefix s)).length] :: out.drop ((digitsOf (dropPrefix s)).length + 1) := by
    rw [← h3, ← List.drop_eq_getElem_cons hlt]
    conv => lhs; rw [← List.take_append_drop (digitsOf (dropPrefix s)).length o, h2]
  generalize hy : o[(digitsOf (dropPrefix s)).length] = y at hsplit
  rw [hsplit]
  simp only [wr_append, bind_ok]

theorem dropPrefix_digits (l : List Byte) (h : ∀ c ∈ l, isDigit c = true) : dropPrefix l = l := by
  rcases l with _ | ⟨c, _ | ⟨d, t⟩⟩
  · rfl
  · rfl
  · have hd := h d (by simp)
    have : ¬ (d = 0x78#8 ∨ d = 0x58#8) := by
      rintro (rfl | rfl)
      · rw [x_not_digit.1] at hd; cases hd
      · rw [x_not_digit.2] at hd; cases hd
    simp only [dropPrefix, if_neg this]

theorem digitsOf_digits (l : List Byte) (h : ∀ c ∈ l, isDigit c = true) : digitsOf l = l :=
  List.filter_eq_self.mpr h

theorem digitsOf_isDigit (s : List Byte) : ∀ c ∈ digitsOf s, isDigit c = true :=
  fun _ hc => (List.mem_filter.mp hc).2

theorem zero_not_digit : isDigit 0#8 = false := by decide +kernel

theorem digitsOf_no_zero (s : List Byte) : 0#8 ∉ digitsOf s := fun h => by
  have := digitsOf_isDigit s _ h
  rw [zero_not_digit] at this; cases this

theorem digitsOf_length_le (s : List Byte) : (digitsOf s).length ≤ s.length :=
  List.length_filter_le _ _

theorem dropPrefix_length_le (s : List Byte) : (dropPrefix s).length ≤ s.length := by
  rcases s with _ | ⟨c, _ | ⟨d, t⟩⟩
  · simp [dropPrefix]
  · simp [dropPrefix]
  · simp only [dropPrefix]; split <;> simp <;> omega

end Pgfe.Proofs
