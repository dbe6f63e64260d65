import Verif.Proofs.Work
import Verif.Model.TraceText
import Verif.Spec.TextWork
/-!
# Upper bounds for the work of the text functions
-/
namespace Pgfe.Proofs.Work
open Pgfe Pgfe.Model Pgfe.Spec
open Pgfe.Proofs.Trace (res_bind)

theorem textLen_cons {c : Byte} (h : c ≠ 0#8) (t : List Byte) : textLen (c :: t) = textLen t + 1 := by
  unfold textLen
  rw [List.takeWhile_cons_of_pos (by simpa using h), List.length_cons]

theorem ev_bd {α : Type} (v : α) (e : Event) {n : Nat} (h : weight e ≤ n) : Bd (⟨.ok v, [e]⟩ : T α) n := h

theorem peek_bd (sp : Nat) (r : List Byte) : Bd (Tr.Text.peek sp r) 1 := Nat.le_refl _

theorem inRange_bd (c lo hi : Byte) : Bd (Tr.Text.inRange c lo hi) 2 := by
  unfold Tr.Text.inRange
  refine Bd.seq (a := 1) (b := 1) (Bd.br _) (fun a => ?_)
  split
  · exact Bd.br _
  · exact Bd.done _ _

theorem eqOr_bd (c d e : Byte) : Bd (Tr.Text.eqOr c d e) 2 := by
  unfold Tr.Text.eqOr Tr.Text.eq
  refine Bd.seq (a := 1) (b := 1) (Bd.br _) (fun a => ?_)
  split
  · exact Bd.done _ _
  · exact Bd.br _

/-- One test of a character, and what follows. -/
theorem test_bd {α : Type} {m : T Bool} {k : α} {k' : T α} {a n : Nat} (h : Bd m a) (h' : Bd k' n) :
    Bd (m >>= fun r => if r = true then pure k else k') (a + n) :=
  Bd.seq h (fun r => by
    split
    · exact Bd.done _ _
    · exact h')

theorem charFn_bd (a : BaseAlg) (c : Byte) : Bd (Tr.Text.charFn a c) 11 := by
  have hp : ∀ v : Byte, Bd (pure v : T Byte) 0 := fun v => Bd.ret v
  cases a
  · exact (test_bd (inRange_bd ..) (test_bd (inRange_bd ..) (test_bd (inRange_bd ..) (hp _)))).mono (by decide)
  · exact (test_bd (inRange_bd ..) (test_bd (inRange_bd ..) (test_bd (inRange_bd ..) (test_bd (Bd.br _) (hp _))))).mono
      (by decide)
  · exact (test_bd (inRange_bd ..) (test_bd (inRange_bd ..) (test_bd (inRange_bd ..) (test_bd (Bd.br _) (hp _))))).mono
      (by decide)
  · exact (test_bd (inRange_bd ..) (test_bd (inRange_bd ..) (test_bd (inRange_bd ..) (test_bd (eqOr_bd ..) (test_bd (eqOr_bd ..)
      (test_bd (Bd.br _) (hp _))))))).mono (by decide)
  · exact (test_bd (inRange_bd ..) (test_bd (inRange_bd ..) (test_bd (inRange_bd ..) (test_bd (eqOr_bd ..) (test_bd (eqOr_bd ..)
      (test_bd (Bd.br _) (hp _))))))).mono (by decide)

theorem ch2hex_bd (c : Byte) : Bd (Tr.Text.ch2hex c) 6 :=
  test_bd (inRange_bd ..) (test_bd (inRange_bd ..) (test_bd (inRange_bd ..) (Bd.ret _)))

theorem pure_seq {α β : Type} (a : α) (k : α → T β) : (pure a >>= k) = k a := rfl
theorem br_seq {β : Type} (b : Bool) (k : Bool → T β) {Q : β → Prop} {φ : β → Nat} {B N : Nat}
    (h : Run (k b) Q φ B) (hN : 1 + B ≤ N) : Run (T.br b >>= k) Q φ N :=
  (Run.bd (Bd.br b) (fun a ha => by cases ha; exact h)).mono hN
theorem peek_seq {β : Type} (sp : Nat) (c : Byte) (r : List Byte) (k : Byte → T β) {Q : β → Prop} {φ : β → Nat} {B N : Nat}
    (h : Run (k c) Q φ B) (hN : 1 + B ≤ N) : Run (Tr.Text.peek sp (c :: r) >>= k) Q φ N :=
  (Run.bd (peek_bd sp (c :: r)) (fun a ha => by cases ha; exact h)).mono hN

theorem decGroup_step (P : BaseParams) (f : Byte → T Byte) (hf : ∀ c, Bd (f c) 11) (t : List Byte) (c : Byte) (hc : c ≠ 0#8)
    (ih : ∀ (sp i : Nat) (u : W64), Run (Tr.Text.decGroup P f t sp i u) (fun g => textLen g.1 ≤ textLen t)
      (fun g => 16 * textLen g.1) (16 * textLen t + 3)) (sp i : Nat) (u : W64) (hi : i < P.chunkCount) :
    Run (Tr.Text.decGroup P f (c :: t) sp i u) (fun g => textLen g.1 ≤ textLen t) (fun g => 16 * textLen g.1)
      (16 * textLen t + 19) := by
  have hd : decide (c ≠ 0#8) = true := decide_eq_true hc
  rw [Tr.Text.decGroup]
  refine peek_seq (B := 16 * textLen t + 18) sp c t _ (br_seq (B := 16 * textLen t + 17) _ _ ?_ (by omega)) (by omega)
  rw [hd, decide_eq_true hi]
  simp only [if_true]
  refine br_seq (B := 16 * textLen t + 16) _ _ ?_ (by omega)
  simp only [if_true]
  refine peek_seq (B := 16 * textLen t + 15) sp c t _ ?_ (by omega)
  refine (Run.bd (B := 16 * textLen t + 4) (hf c) (fun ch _ => ?_)).mono (by omega)
  refine br_seq (B := 16 * textLen t + 3) _ _ ?_ (by omega)
  split
  · exact ih _ _ _
  · exact ih _ _ _

theorem decGroup_run (P : BaseParams) (f : Byte → T Byte) (hf : ∀ c, Bd (f c) 11) (t : List Byte) : ∀ (sp i : Nat) (u : W64),
    Run (Tr.Text.decGroup P f t sp i u) (fun g => textLen g.1 ≤ textLen t) (fun g => 16 * textLen g.1) (16 * textLen t + 3) := by
  induction t with
  | nil =>
    intro sp i u
    rw [Tr.Text.decGroup]
    exact (Run.bd (B := 0) (peek_bd sp []) (fun a ha => by cases ha)).mono (by omega)
  | cons c t ih =>
    intro sp i u
    by_cases hc : c = 0#8
    · rw [Tr.Text.decGroup]
      refine peek_seq (B := 16 * textLen (c :: t) + 1) sp c t _ (br_seq (B := 16 * textLen (c :: t)) _ _ ?_ (by omega)) (by omega)
      rw [decide_eq_false (by simpa using hc)]
      simp only [Bool.false_eq_true, if_false]
      rw [pure_seq]
      simp only [Bool.false_eq_true, if_false]
      exact Run.ret _ (Nat.le_refl _)
    · have hl := textLen_cons hc t
      by_cases hi : i < P.chunkCount
      · have := decGroup_step P f hf t c hc ih sp i u hi
        exact ⟨Nat.le_trans this.1 (by omega), fun a ha => ⟨by have := (this.2 a ha).1; omega, Nat.le_trans (this.2 a ha).2 (by omega)⟩⟩
      · rw [Tr.Text.decGroup]
        refine peek_seq (B := 16 * textLen (c :: t) + 2) sp c t _ (br_seq (B := 16 * textLen (c :: t) + 1) _ _ ?_ (by omega))
          (by omega)
        rw [decide_eq_true hc, decide_eq_false hi]
        simp only [if_true]
        refine br_seq (B := 16 * textLen (c :: t)) _ _ ?_ (by omega)
        simp only [Bool.false_eq_true, if_false]
        exact Run.ret _ (Nat.le_refl _)

theorem toRun {α : Type} {m : T α} {n : Nat} (h : Bd m n) : Run m (fun _ => True) (fun _ => 0) n :=
  ⟨h, fun _ _ => ⟨trivial, h⟩⟩

/-- Bound the second part by what is known of the result of the first. -/
theorem Bd.known {α β : Type} {m : T α} {k : α → T β} {a n : Nat} (h : Bd m a) (l : a ≤ n)
    (g : ∀ x, m.res = .ok x → Bd (k x) (n - a)) : Bd (m >>= k) n :=
  (Run.toBd (P := fun _ => True) (φ := fun _ => 0) (Run.bd h fun x hx => toRun (g x hx))).mono (by omega)

theorem rds_len {b o : List Byte} {i m : Nat} (h : rds b i m = .ok o) : o.length = m := by
  unfold rds at h
  split at h
  · cases h; rw [List.length_take, List.length_drop]; omega
  · cases h

theorem unitBytes_bd (P : BaseParams) (hP : P.unitSize ≤ 5) (u : W64) : Bd (Tr.Text.unitBytes P u) 11 := by
  unfold Tr.Text.unitBytes
  exact (Bd.forN (b := 1) P.unitSize _ (fun i s => Bd.push _ _ _)).mono (by omega)

theorem afterGroup_bd {α : Type} (P : BaseParams) (hP : P.unitSize ≤ 5)
    (next : List Byte → Nat → W64 → Nat → List Byte → Option (List Byte) → T α) (op : Nat) (out : List Byte)
    (g : List Byte × Nat × Nat × W64) (n : Nat) (hn : ∀ sp u op out o, Bd (next g.1 sp u op out o) n) :
    Bd (Tr.Text.afterGroup P next op out g) (24 + n) := by
  obtain ⟨rest, sp, i, u⟩ := g
  unfold Tr.Text.afterGroup
  dsimp only
  refine Bd.next (peek_bd _ _) (by omega) fun c => ?_
  refine Bd.next (Bd.br _) (by omega) fun f => ?_
  refine Bd.next (a := 1) (by split; exact Bd.br _; exact Bd.done _ _) (by omega) fun f => ?_
  refine Bd.next (unitBytes_bd P hP _) (by omega) fun unit => ?_
  refine Bd.known ((Bd.rds _ _ _ _).mono (show _ ≤ 5 by omega)) (by omega) fun src hsrc => ?_
  have hl : src.length = P.unitSize := rds_len hsrc
  refine Bd.next ((Bd.wrs _ _ _ _).mono (show _ ≤ 5 by omega)) (by omega) fun o => ?_
  exact (hn _ _ _ _ _).mono (by omega)

theorem decLoop_bd (P : BaseParams) (hP : P.unitSize ≤ 5) (hc : 0 < P.chunkCount) (f : Byte → T Byte) (hf : ∀ c, Bd (f c) 11)
    (fuel : Nat) : ∀ (t : List Byte) (sp : Nat) (u : W64) (op : Nat) (out : List Byte) (o : Option (List Byte)),
    Bd (Tr.Text.decLoop P f fuel t sp u op out o) (45 * textLen t + 2) := by
  induction fuel with
  | zero => intro _ _ _ _ _ _; exact (Bd.fail _).mono (Nat.zero_le _)
  | succ k ih =>
    intro t sp u op out o
    rw [Tr.Text.decLoop]
    cases t with
    | nil => exact (Run.bd (Q := fun _ => True) (φ := fun _ => 0) (B := 0) (peek_bd sp []) (fun a ha => by cases ha)).toBd.mono (by omega)
    | cons c t =>
      refine Run.toBd (P := fun _ => True) (φ := fun _ => 0) ?_
      by_cases h0 : c = 0#8
      · refine peek_seq (B := 45 * textLen (c :: t) + 1) sp c t _ (br_seq (B := 45 * textLen (c :: t)) _ _ ?_ (by omega)) (by omega)
        rw [decide_eq_false (by simpa using h0)]
        simp only [Bool.false_eq_true, if_false]
        exact toRun (Bd.done _ _)
      · have hl := textLen_cons h0 t
        refine peek_seq (B := 45 * textLen t + 46) sp c t _ (br_seq (B := 45 * textLen t + 45) _ _ ?_ (by omega)) (by omega)
        rw [decide_eq_true h0]
        simp only [if_true]
        have hg := decGroup_step P f hf t c h0 (decGroup_run P f hf t) sp 0 u hc
        refine Run.seq (P := fun g => textLen g.1 ≤ textLen t) (ψ := fun g => 45 * textLen g.1 + 26) ?_ (fun g hg => ?_)
        · exact ⟨Nat.le_trans hg.1 (by omega), fun a ha => ⟨(hg.2 a ha).1, by
            have h1 := (hg.2 a ha).1
            have h2 := (hg.2 a ha).2
            dsimp only at h1 h2 ⊢
            omega⟩⟩
        · exact toRun ((afterGroup_bd P hP _ op out g (45 * textLen g.1 + 2) (fun _ _ _ _ _ => ih _ _ _ _ _ _)).mono (by omega))

theorem countLoop_bd (out oUnit : List Byte) (op : Nat) (k : Nat) : ∀ i, Bd (Tr.Text.countLoop out oUnit op k i) (5 * k + 1) := by
  induction k with
  | zero => intro i; exact Bd.next (Bd.br _) (by omega) fun _ => Bd.done _ _
  | succ k ih =>
    intro i
    rw [Tr.Text.countLoop]
    refine Bd.next (Bd.br _) (by omega) fun _ => ?_
    refine Bd.next (Bd.rd _ _ _) (by omega) fun _ => ?_
    refine Bd.next (Bd.rd _ _ _) (by omega) fun _ => ?_
    refine Bd.next (Bd.br _) (by omega) fun e => ?_
    refine Bd.next (a := 1) (by split; exact Bd.br _; exact Bd.done _ _) (by omega) fun e => ?_
    split
    · exact (ih _).mono (by omega)
    · exact Bd.done _ _

theorem decode_bd (a : BaseAlg) (cs out : List Byte) : Bd (Tr.Text.decode a cs out) (45 * textLen cs + 29) := by
  have hP : a.params.unitSize ≤ 5 := by cases a <;> decide
  unfold Tr.Text.decode Tr.Text.decodeBase
  refine Bd.next (decLoop_bd _ hP (by cases a <;> decide) _ (charFn_bd a) _ _ _ _ _ _ _) (by omega) fun r => ?_
  obtain ⟨op, out, o⟩ := r
  dsimp only
  cases o with
  | none => exact (Bd.fail _).mono (Nat.zero_le _)
  | some o =>
    refine Bd.next (countLoop_bd _ _ _ _ _) (by omega) fun i => ?_
    refine Bd.next (Bd.wr _ _ _ _) (by omega) fun i => ?_
    exact Bd.done _ _

/-! ### Hexadecimal texts -/

theorem hexLoop_bd (t : List Byte) : ∀ (sp : Nat) (odd : Bool) (u : Byte) (op : Nat) (out : List Byte),
    Bd (Tr.Text.hexLoop t sp odd u op out) (12 * textLen t + 2) := by
  induction t with
  | nil =>
    intro sp odd u op out
    exact (Run.bd (Q := fun _ => True) (φ := fun _ => 0) (B := 0) (peek_bd sp []) (fun a ha => by cases ha)).toBd.mono (by omega)
  | cons c t ih =>
    intro sp odd u op out
    rw [Tr.Text.hexLoop]
    refine Run.toBd (P := fun _ => True) (φ := fun _ => 0) ?_
    by_cases h0 : c = 0#8
    · refine peek_seq (B := 12 * textLen (c :: t) + 1) sp c t _ (br_seq (B := 12 * textLen (c :: t)) _ _ ?_ (by omega)) (by omega)
      rw [decide_eq_false (by simpa using h0)]
      simp only [Bool.false_eq_true, if_false]
      exact toRun (Bd.done _ _)
    · have hl := textLen_cons h0 t
      refine peek_seq (B := 12 * textLen t + 13) sp c t _ (br_seq (B := 12 * textLen t + 12) _ _ ?_ (by omega)) (by omega)
      rw [decide_eq_true h0]
      simp only [if_true]
      refine toRun ?_
      refine Bd.next (peek_bd _ _) (by omega) fun c => ?_
      refine Bd.next (ch2hex_bd _) (by omega) fun v => ?_
      refine Bd.next (Bd.br _) (by omega) fun b => ?_
      split
      · exact (ih _ _ _ _ _).mono (by omega)
      · refine Bd.next (Bd.br _) (by omega) fun b => ?_
        split
        · refine Bd.next (Bd.wr _ _ _ _) (by omega) fun o => ?_
          exact (ih _ _ _ _ _).mono (by omega)
        · exact (ih _ _ _ _ _).mono (by omega)

theorem strlen_bd (t : List Byte) : ∀ sp, Bd (Tr.Text.strlen t sp) (2 * textLen t + 2) := by
  induction t with
  | nil =>
    intro sp
    exact (Run.bd (Q := fun _ => True) (φ := fun _ => 0) (B := 0) (peek_bd sp []) (fun a ha => by cases ha)).toBd.mono (by omega)
  | cons c t ih =>
    intro sp
    rw [Tr.Text.strlen]
    refine Run.toBd (P := fun _ => True) (φ := fun _ => 0) ?_
    by_cases h0 : c = 0#8
    · refine peek_seq (B := 2 * textLen (c :: t) + 1) sp c t _ (br_seq (B := 2 * textLen (c :: t)) _ _ ?_ (by omega)) (by omega)
      rw [decide_eq_true h0]
      simp only [if_true]
      exact toRun (Bd.done _ _)
    · have hl := textLen_cons h0 t
      refine peek_seq (B := 2 * textLen t + 3) sp c t _ (br_seq (B := 2 * textLen t + 2) _ _ ?_ (by omega)) (by omega)
      rw [decide_eq_false h0]
      simp only [Bool.false_eq_true, if_false]
      exact toRun (Bd.next (ih _) (by omega) fun n => Bd.done _ _)

theorem textLen_drop (t : List Byte) (off : Nat) (h : off ≤ textLen t) : textLen (t.drop off) = textLen t - off := by
  induction off generalizing t with
  | zero => rfl
  | succ k ih =>
    cases t with
    | nil => cases h
    | cons c t =>
      by_cases h0 : c = 0#8
      · subst h0; cases h
      · have hl := textLen_cons h0 t
        rw [List.drop_succ_cons, ih t (by omega)]
        omega

theorem strlen_textLen (t : List Byte) : ∀ (sp n : Nat), (Tr.Text.strlen t sp).res = .ok n → n = textLen t := by
  induction t with
  | nil => intro sp n h; cases h
  | cons c t ih =>
    intro sp n h
    rw [Tr.Text.strlen, res_bind, show (Tr.Text.peek sp (c :: t)).res = .ok c from rfl, bind_ok, res_bind,
      show (T.br (decide (c = 0#8))).res = .ok (decide (c = 0#8)) from rfl, bind_ok] at h
    change (if decide (c = 0#8) = true then (pure 0 : T Nat) else _).res = _ at h
    by_cases h0 : c = 0#8
    · rw [if_pos (decide_eq_true h0)] at h
      cases h
      subst h0
      rfl
    · rw [if_neg (by simpa using h0), res_bind] at h
      cases hs : (Tr.Text.strlen t (sp + 1)).res with
      | error e => rw [hs] at h; cases h
      | ok m =>
        rw [hs] at h
        cases h
        rw [ih _ _ hs, textLen_cons h0]

theorem hexStringToHash_bd (t out : List Byte) : Bd (Tr.Text.hexStringToHash t out) (14 * textLen t + 11) := by
  unfold Tr.Text.hexStringToHash
  refine (Run.toBd (P := fun _ => True) (φ := fun _ => 0) (B := (2 * textLen t + 2) + (12 * textLen t + 9)) ?_).mono (by omega)
  refine Run.bd (strlen_bd t 0) fun n hn => toRun ?_
  have hn := strlen_textLen t 0 n hn
  refine Bd.next (Bd.rd _ _ _) (by omega) fun c => ?_
  refine Run.toBd (P := fun _ => True) (φ := fun _ => 0) (br_seq (B := 12 * textLen t + 7) _ _ ?_ (by omega))
  by_cases h2 : 2 ≤ n
  · rw [decide_eq_true h2]
    simp only [if_true]
    refine toRun ?_
    refine Bd.next (eqOr_bd _ _ _) (by omega) fun x => ?_
    refine Bd.next (a := 1) (Nat.le_refl _) (by omega) fun c => ?_
    refine Bd.next (eqOr_bd _ _ _) (by omega) fun h => ?_
    refine (hexLoop_bd _ _ _ _ _ _).mono ?_
    rw [textLen_drop _ _ (by split <;> omega)]
    omega
  · rw [decide_eq_false h2]
    simp only [Bool.false_eq_true, if_false]
    refine toRun ?_
    rw [pure_seq]
    refine Bd.next (a := 1) (Nat.le_refl _) (by omega) fun c => ?_
    refine Bd.next (eqOr_bd _ _ _) (by omega) fun h => ?_
    refine (hexLoop_bd _ _ _ _ _ _).mono ?_
    rw [textLen_drop _ _ (by simp)]
    omega

/-! ### Encoding -/

theorem transformLoop_bd (x : List Byte) (n cs : Nat) (fuel : Nat) : ∀ (low high inp op : Nat) (out : List Byte),
    Bd (Tr.Text.transformLoop x n cs fuel low high inp op out) (7 * fuel) := by
  induction fuel with
  | zero => intro _ _ _ _ _; exact Bd.fail _
  | succ k ih =>
    intro low high inp op out
    rw [Tr.Text.transformLoop]
    refine Bd.next (Bd.br _) (by omega) fun _ => ?_
    split
    · refine Bd.next (Bd.br _) (by omega) fun _ => ?_
      split
      · refine Bd.next (Bd.rd _ _ _) (by omega) fun _ => ?_
        refine Bd.next (Bd.wr _ _ _ _) (by omega) fun _ => ?_
        exact (ih _ _ _ _ _).mono (by omega)
      · refine Bd.next (Bd.br _) (by omega) fun _ => ?_
        split
        · refine Bd.next (Bd.rd _ _ _) (by omega) fun _ => ?_
          refine Bd.next (Bd.wr _ _ _ _) (by omega) fun _ => ?_
          exact (ih _ _ _ _ _).mono (by omega)
        · refine Bd.next (Bd.rd _ _ _) (by omega) fun _ => ?_
          refine Bd.next (Bd.br _) (by omega) fun _ => ?_
          split
          · refine Bd.next (Bd.rd _ _ _) (by omega) fun _ => ?_
            refine Bd.next (Bd.wr _ _ _ _) (by omega) fun _ => ?_
            exact (ih _ _ _ _ _).mono (by omega)
          · refine Bd.next (Bd.wr _ _ _ _) (by omega) fun _ => ?_
            exact (ih _ _ _ _ _).mono (by omega)
    · exact Bd.done _ _

theorem lookups_run (al : List Byte) (s : List Byte) : ∀ i, Run (Tr.Text.lookups al s i) (fun u => u.length = s.length)
    (fun _ => 0) (4 * s.length + 1) := by
  induction s with
  | nil => intro i; exact br_seq (B := 0) _ _ (Run.ret _ rfl) (by simp)
  | cons v s ih =>
    intro i
    rw [Tr.Text.lookups]
    have hl : (v :: s).length = s.length + 1 := rfl
    refine br_seq (B := 4 * s.length + 4) _ _ ?_ (by omega)
    refine (Run.bd (n := 1) (B := 4 * s.length + 3) (Nat.le_refl _) fun v' hv => ?_).mono (by omega)
    refine (Run.bd (B := 4 * s.length + 2) (Bd.rd _ _ _) fun c hc => ?_).mono (by omega)
    refine (Run.bd (n := 1) (B := 4 * s.length + 1) (Nat.le_refl _) fun c hc => ?_).mono (by omega)
    refine Run.seq (ih (i + 1)) fun r hr => ?_
    exact Run.ret _ (by rw [List.length_cons, List.length_cons, hr])

theorem padLoop_run (al : List Byte) (n : Nat) (s : List Byte) : Run (Tr.Text.padLoop al n s) (fun u => u.length = s.length)
    (fun _ => 0) (6 * s.length + 1) := by
  induction s with
  | nil => exact br_seq (B := 0) _ _ (Run.ret _ rfl) (by simp)
  | cons v s ih =>
    rw [Tr.Text.padLoop]
    have hl : (v :: s).length = s.length + 1 := rfl
    refine br_seq (B := 6 * s.length + 6) _ _ ?_ (by omega)
    refine (Run.bd (n := 1) (B := 6 * s.length + 5) (Nat.le_refl _) fun v' hv => ?_).mono (by omega)
    refine (Run.bd (B := 6 * s.length + 4) (Bd.rd _ _ _) fun c hc => ?_).mono (by omega)
    refine br_seq (B := 6 * s.length + 3) _ _ ?_ (by omega)
    split
    · refine (Run.ret (P := fun u => u.length = (v :: s).length) (φ := fun _ => 0) (v' :: s) ?_).mono (Nat.zero_le _)
      rfl
    · refine (Run.bd (B := 6 * s.length + 2) (Bd.rd _ _ _) fun c hc => ?_).mono (by omega)
      refine (Run.bd (n := 1) (B := 6 * s.length + 1) (Nat.le_refl _) fun c hc => ?_).mono (by omega)
      refine Run.seq ih fun r hr => ?_
      exact Run.ret _ (by rw [List.length_cons, List.length_cons, hr])

theorem unittostr_bd (S : Slack) (P : BaseParams) (hu : P.unitSize ≤ 5) (hc : P.chunkCount ≤ 8) (g al u : List Byte) (pad : Bool)
    (out : List Byte) (sp : Nat) : Bd (Tr.Text.unittostr S P g al u pad out sp) 246 := by
  unfold Tr.Text.unittostr Tr.Text.transform
  refine Bd.next ((transformLoop_bd _ _ _ _ _ _ _ _ _).mono (show _ ≤ 147 by omega)) (by omega) fun r => ?_
  have hr : (r.2.take P.chunkCount).length ≤ 8 := by rw [List.length_take]; omega
  have hk := lookups_run al (r.2.take P.chunkCount) 0
  refine Bd.known (a := 33) (Nat.le_trans hk.1 (by omega)) (by omega) fun v hv => ?_
  have hv := (hk.2 v hv).1
  refine Bd.next (Bd.br _) (by omega) fun b => ?_
  refine Bd.known (a := 49) ?_ (by omega) fun w hw => ?_
  · split
    · exact Bd.next ((padLoop_run al P.alphabetSize v.reverse).1) (by rw [List.length_reverse]; omega) fun _ => Bd.done _ _
    · exact Bd.done _ _
  have hw : w.length = v.length := by
    revert hw
    split
    · intro hw
      rw [res_bind] at hw
      cases hp : (Tr.Text.padLoop al P.alphabetSize v.reverse).res with
      | error e => rw [hp] at hw; cases hw
      | ok z =>
        rw [hp] at hw
        cases hw
        rw [List.length_reverse, ((padLoop_run al P.alphabetSize v.reverse).2 z hp).1, List.length_reverse]
    · intro hw; cases hw; rfl
  refine Bd.known (a := 8) (ev_bd _ _ (show max 1 w.length ≤ 8 by omega)) (by omega) fun y hy => ?_
  cases hy
  exact (Bd.wrs _ _ _ _).mono (by omega)

theorem encode_bd (a : BaseAlg) (S : Slack) (g x : List Byte) (n : Nat) (out : List Byte) :
    Bd (Tr.Text.encode a S g x n out) (263 * ((n + a.params.unitSize - 1) / a.params.unitSize) + 2) := by
  have hu : a.params.unitSize ≤ 5 := by cases a <;> decide
  have hc : a.params.chunkCount ≤ 8 := by cases a <;> decide
  unfold Tr.Text.encode Tr.Text.encodeBase
  refine Bd.next (a := 263 * ((n + a.params.unitSize - 1) / a.params.unitSize) + 1) ?_ (by omega) fun s => ?_
  · refine (Bd.forN (b := 262) _ _ fun k s => ?_).mono (by omega)
    dsimp only
    refine Run.toBd (P := fun _ => True) (φ := fun _ => 0) (br_seq (B := 261) _ _ (toRun ?_) (by omega))
    refine Bd.next (a := 15) ?_ (by omega) fun u => ?_
    · split
      · rename_i h
        have h := of_decide_eq_true h
        refine Bd.next (a := 5) (ev_bd _ (.wr .buf 0 a.params.unitSize) (show max 1 a.params.unitSize ≤ 5 by omega)) (by omega) fun z => ?_
        refine Bd.known ((Bd.rds _ _ _ _).mono (show _ ≤ 5 by omega)) (by omega) fun b hb => ?_
        have := rds_len hb
        exact (Bd.wrs _ _ _ _).mono (by omega)
      · refine Bd.next ((Bd.rds _ _ _ _).mono (show _ ≤ 5 by omega)) (by omega) fun b => ?_
        exact (ev_bd _ (.wr .buf 0 a.params.unitSize) (show max 1 a.params.unitSize ≤ 5 by omega)).mono (by omega)
    · exact Bd.next (unittostr_bd S _ hu hc _ _ _ _ _ _) (by omega) fun _ => Bd.done _ _
  · exact Bd.next (Bd.wr _ _ _ _) (by omega) fun _ => Bd.done _ _

end Pgfe.Proofs.Work
