import Verif.Proofs.TextOut
import Verif.Proofs.TextWork
/-!
# The work of the functions that write results as text
-/
namespace Pgfe.Proofs.Work
open Pgfe Pgfe.Model Pgfe.Spec Pgfe.Proofs.Trace Pgfe.Proofs.TextTrace

theorem hashToHexString_bd (x : List Byte) (n : Nat) (out : List Byte) : Bd (Tr.Text.hashToHexString x n out) (9 * n + 2) := by
  unfold Tr.Text.hashToHexString
  refine Bd.next (a := 9 * n + 1) ?_ (by omega) fun s => Bd.next (Bd.wr _ _ _ _) (by omega) fun _ => Bd.done _ _
  refine (Bd.forN (b := 8) _ _ fun i s => ?_).mono (by omega)
  refine Bd.next (Bd.rd _ _ _) (by omega) fun b => ?_
  refine Bd.next (a := 3) (Nat.le_refl _) (by omega) fun d => ?_
  refine Bd.next (Bd.rd _ _ _) (by omega) fun b => ?_
  refine Bd.next (Bd.wr _ _ _ _) (by omega) fun b => ?_
  refine Bd.next (Bd.rd _ _ _) (by omega) fun b => ?_
  refine Bd.next (Bd.wr _ _ _ _) (by omega) fun b => ?_
  exact Bd.done _ _

theorem printHash_bd (x : List Byte) (n : Nat) : Bd (Tr.Text.printHash x n) (2 * n + 1) := by
  unfold Tr.Text.printHash
  refine (Bd.forN (b := 1) _ _ fun i s => ?_).mono (by omega)
  exact Bd.next (Bd.rd _ _ _) (by omega) fun b => Bd.done _ _

theorem otpLoop_bd (d : Nat) : ∀ (n : Nat) (cs : List Byte), Bd (Tr.Text.otpToStringLoop d n cs) (2 * d + 1) := by
  induction d with
  | zero => intro n cs; exact Bd.next (Bd.br _) (by omega) fun _ => Bd.done _ _
  | succ d ih =>
    intro n cs
    unfold Tr.Text.otpToStringLoop
    refine Bd.next (Bd.br _) (by omega) fun _ => ?_
    refine Bd.next (Bd.wr _ _ _ _) (by omega) fun _ => ?_
    exact (ih _ _).mono (by omega)

theorem otpToString_bd (n : W32) (cs : List Byte) (d : Nat) : Bd (Tr.Text.otpToString n cs d) (2 * d + 2) := by
  unfold Tr.Text.otpToString
  exact Bd.next (otpLoop_bd _ _ _) (by omega) fun _ => (Bd.wr _ _ _ _).mono (by omega)

theorem work_rep (k : Nat) : work (List.replicate k (Event.br true) ++ [.br false]) = k + 1 := by
  induction k with
  | zero => rfl
  | succ k ih =>
    rw [List.replicate_succ, List.cons_append]
    show work ([Event.br true] ++ (List.replicate k (Event.br true) ++ [Event.br false])) = _
    rw [work_append, ih]
    show 1 + (k + 1) = _
    omega

theorem generateStr_work (n d : Nat) : work (Tr.Text.generateStr n d).tr = d - (stdToString n).length + 1 := by
  rw [generateStr_ok]
  exact work_rep _

theorem cleanLoop_bd (t : List Byte) : ∀ (sp : Nat) (flag : Int) (op : Nat) (out : List Byte),
    Bd (Tr.Text.cleanLoop t sp flag op out) (17 * textLen t + 2) := by
  induction t with
  | nil =>
    intro sp flag op out
    exact (Run.bd (Q := fun _ => True) (φ := fun _ => 0) (B := 0) (peek_bd sp []) (fun a ha => by cases ha)).toBd.mono (by omega)
  | cons c t ih =>
    intro sp flag op out
    rw [Tr.Text.cleanLoop]
    refine Run.toBd (P := fun _ => True) (φ := fun _ => 0) ?_
    by_cases h0 : c = 0#8
    · refine peek_seq (B := 17 * textLen (c :: t) + 1) sp c t _ (br_seq (B := 17 * textLen (c :: t)) _ _ ?_ (by omega)) (by omega)
      rw [decide_eq_false (by simpa using h0)]
      simp only [Bool.false_eq_true, if_false]
      exact toRun (Bd.done _ _)
    · have hl := textLen_cons h0 t
      refine peek_seq (B := 17 * textLen t + 18) sp c t _ (br_seq (B := 17 * textLen t + 17) _ _ ?_ (by omega)) (by omega)
      rw [decide_eq_true h0]
      simp only [if_true]
      refine toRun ?_
      refine Bd.next (Bd.br _) (by omega) fun early => ?_
      refine Bd.next (a := 1) ?_ (by omega) fun second => ?_
      · split
        · exact Bd.br _
        · exact Bd.done _ _
      refine Bd.next (a := 3) ?_ (by omega) fun pre => ?_
      · split
        · exact Bd.next (peek_bd _ _) (by omega) fun c => eqOr_bd _ _ _
        · exact Bd.done _ _
      split
      · exact (ih _ _ _ _).mono (by omega)
      · refine Bd.next (peek_bd _ _) (by omega) fun c => ?_
        refine Bd.next (ch2hex_bd _) (by omega) fun v => ?_
        refine Bd.next (Bd.br _) (by omega) fun b => ?_
        split
        · exact (ih _ _ _ _).mono (by omega)
        · refine Bd.next (peek_bd _ _) (by omega) fun c => ?_
          refine Bd.next (Bd.wr _ _ _ _) (by omega) fun o => ?_
          exact (ih _ _ _ _).mono (by omega)

theorem clean_bd (t out : List Byte) : Bd (Tr.Text.hashStringClean t out) (17 * textLen t + 3) := by
  unfold Tr.Text.hashStringClean
  exact Bd.next (cleanLoop_bd _ _ _ _ _) (by omega) fun r => Bd.next (Bd.wr _ _ _ _) (by omega) fun _ => Bd.done _ _

theorem cleanLoop_len (t : List Byte) : ∀ (flag : Int) (op : Nat) (out : List Byte) (r : Nat × List Byte),
    cleanLoop t flag op out = .ok r → r.2.length = out.length := by
  induction t with
  | nil => intro flag op out r h; cases h
  | cons c t ih =>
    intro flag op out r h
    unfold cleanLoop at h
    split at h
    · cases h; rfl
    · dsimp only at h
      generalize (if flag < 2 then flag + 1 else flag) = fl at h
      split at h
      · exact ih _ _ _ _ h
      · split at h
        · exact ih _ _ _ _ h
        · unfold wr at h
          split at h
          · have := ih _ _ _ _ h
            rwa [List.length_set] at this
          · cases h

theorem clean_len (t out : List Byte) (r : Nat × List Byte) (h : hashStringClean t out = .ok r) : r.2.length = out.length := by
  unfold hashStringClean at h
  cases hv : cleanLoop t (-1) 0 out with
  | error e => rw [hv] at h; cases h
  | ok v =>
    rw [hv, bind_ok] at h
    have := cleanLoop_len _ _ _ _ _ hv
    unfold wr at h
    dsimp only at h
    split at h
    · cases h
      rw [List.length_set, this]
    · cases h

theorem textLen_le (t : List Byte) : textLen t ≤ t.length := by
  induction t with
  | nil => exact Nat.le_refl _
  | cons c t ih =>
    unfold textLen at *
    rw [List.takeWhile_cons]
    split
    · simp only [List.length_cons]; omega
    · simp

theorem hashLength_bd (g t : List Byte) : Bd (Tr.Text.hashLength g t) (21 * textLen t + 9) := by
  unfold Tr.Text.hashLength
  refine Bd.known (strlen_bd t 0) (by omega) fun n hn => ?_
  have hn := strlen_textLen t 0 n hn
  refine Bd.known (clean_bd t _) (by omega) fun r hr => ?_
  rw [clean_res] at hr
  have hr := clean_len _ _ _ hr
  rw [List.length_take] at hr
  have := textLen_le r.2
  exact Bd.next (strlen_bd r.2 0) (by omega) fun _ => Bd.done _ _

end Pgfe.Proofs.Work
