import Verif.Proofs.Fetch
import Verif.Model.TraceText
/-!
# Reads of the input: the base encoders
-/
namespace Pgfe.Proofs.Fetch
open Pgfe.Model Pgfe.Spec

theorem transformLoop_q (input : List Byte) (length cs : Nat) (fuel : Nat) : ∀ (low high inp op : Nat) (out : List Byte),
    Quiet .input (Tr.Text.transformLoop input length cs fuel low high inp op out) := by
  induction fuel with
  | zero => intro _ _ _ _ _; exact Quiet.fail _
  | succ f ih =>
    intro low high inp op out
    unfold Tr.Text.transformLoop
    repeat first | with_reducible exact ih _ _ _ _ _ | qt

theorem lookups_q (alphabet : List Byte) (l : List Byte) : ∀ i, Quiet .input (Tr.Text.lookups alphabet l i) := by
  induction l with
  | nil => intro i; unfold Tr.Text.lookups; repeat qt
  | cons v l ih =>
    intro i
    unfold Tr.Text.lookups
    repeat first | with_reducible exact ih _ | qt | exact ⟨rfl, rfl⟩

theorem padLoop_q (alphabet : List Byte) (n : Nat) (l : List Byte) : Quiet .input (Tr.Text.padLoop alphabet n l) := by
  induction l with
  | nil => unfold Tr.Text.padLoop; repeat qt
  | cons v l ih =>
    unfold Tr.Text.padLoop
    repeat first | with_reducible exact ih | qt | exact ⟨rfl, rfl⟩

theorem unittostr_q (S : Slack) (P : BaseParams) (g alphabet unit : List Byte) (pad : Bool) (out : List Byte) (sp : Nat) :
    Quiet .input (Tr.Text.unittostr S P g alphabet unit pad out sp) := by
  unfold Tr.Text.unittostr Tr.Text.transform
  repeat first
    | with_reducible exact transformLoop_q _ _ _ _ _ _ _ _ _ | with_reducible exact lookups_q _ _ _ | with_reducible exact padLoop_q _ _ _ | qt
    | exact ⟨rfl, rfl⟩

theorem encodeBase_adv (S : Slack) (P : BaseParams) (hP : 0 < P.unitSize) (g alphabet input : List Byte) (n : Nat) (out : List Byte) :
    Adv n (Tr.Text.encodeBase S P g alphabet input n out) 0 (fun _ e => e = n) := by
  unfold Tr.Text.encodeBase
  have hend : ∀ e, e = min ((n + P.unitSize - 1) / P.unitSize * P.unitSize) n → e = n := by
    intro e he
    have := Nat.div_add_mod (n + P.unitSize - 1) P.unitSize
    have h2 := Nat.mod_lt (n + P.unitSize - 1) hP
    rw [Nat.mul_comm] at this
    omega
  refine Adv.seq (Adv.forN (I := fun k _ e => e = min (k * P.unitSize) n) _ ?_ _ (Nat.zero_le _) (by simp)) ?_
  · intro j s e hj he hI
    have hjn : j * P.unitSize < n := by
      have h1 : (j + 1) * P.unitSize ≤ n + P.unitSize - 1 := Nat.le_trans (Nat.mul_le_mul_right _ hj) (Nat.div_mul_le_self _ _)
      rw [Nat.succ_mul] at h1
      omega
    have he' : e = j * P.unitSize := by omega
    subst he'
    refine Adv.next (Quiet.br _) he (fun part hp => ?_)
    have hp' : part = decide (n - j * P.unitSize < P.unitSize) := (Except.ok.inj hp).symm
    have hst : ∀ (u : List Byte) (e : Nat), e ≤ n → e = min ((j + 1) * P.unitSize) n →
        Adv n (Tr.Text.unittostr S P g alphabet u part s.2 s.1 >>= fun csOut => (pure (s.1 + P.chunkCount, csOut) : T (Nat × List Byte))) e
          (fun _ e => e = min ((j + 1) * P.unitSize) n) := by
      intro u e le h
      exact Adv.next (unittostr_q _ _ _ _ _ _ _ _) le (fun _ _ => Adv.done _ le h)
    refine Adv.seq (P := fun _ e => e = min ((j + 1) * P.unitSize) n) ?_ (fun u e le h => hst u e le h)
    rw [Nat.succ_mul]
    by_cases hpart : n - j * P.unitSize < P.unitSize
    · have : part = true := by rw [hp']; exact decide_eq_true hpart
      subst this
      refine Adv.next (m := ⟨.ok (List.replicate P.unitSize 0#8), [.wr .buf 0 P.unitSize]⟩) ⟨rfl, rfl⟩ he (fun z _ => ?_)
      refine Adv.seq (Adv.rds input (n - j * P.unitSize) (by omega)) (fun b e le hb => ?_)
      exact Adv.mono (Adv.quiet (Quiet.wrs (by decide) _ _ _) le) (fun _ e' _ h => by omega)
    · have : part = false := by rw [hp']; exact decide_eq_false hpart
      subst this
      refine Adv.seq (Adv.rds input P.unitSize (by omega)) (fun b e le hb => ?_)
      refine Adv.next (m := ⟨.ok b, [.wr .buf 0 P.unitSize]⟩) ⟨rfl, rfl⟩ le (fun z _ => Adv.done _ le (by omega))
  · intro s e le h
    exact Adv.next (Quiet.wr (by decide) _ _ _) le (fun _ _ => Adv.done _ le (hend e h))

end Pgfe.Proofs.Fetch
