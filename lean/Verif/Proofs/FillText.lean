import Verif.Proofs.FetchText
import Verif.Proofs.TextWork
import Verif.Proofs.TextEncode
/-!
# Writes of the output: the base encoders
-/
namespace Pgfe.Proofs.Fetch
open Pgfe.Model Pgfe.Spec
open Pgfe.Proofs.Trace (res_bind)

theorem transformLoop_qo (input : List Byte) (length cs : Nat) (fuel : Nat) : ∀ (low high inp op : Nat) (out : List Byte),
    Quiet .output (Tr.Text.transformLoop input length cs fuel low high inp op out) := by
  induction fuel with
  | zero => intro _ _ _ _ _; exact Quiet.fail _
  | succ f ih =>
    intro low high inp op out
    unfold Tr.Text.transformLoop
    repeat first | with_reducible exact ih _ _ _ _ _ | qt

theorem lookups_qo (alphabet : List Byte) (l : List Byte) : ∀ i, Quiet .output (Tr.Text.lookups alphabet l i) := by
  induction l with
  | nil => intro i; unfold Tr.Text.lookups; repeat qt
  | cons v l ih =>
    intro i
    unfold Tr.Text.lookups
    repeat first | with_reducible exact ih _ | qt | exact ⟨rfl, rfl⟩

theorem padLoop_qo (alphabet : List Byte) (n : Nat) (l : List Byte) : Quiet .output (Tr.Text.padLoop alphabet n l) := by
  induction l with
  | nil => unfold Tr.Text.padLoop; repeat qt
  | cons v l ih =>
    unfold Tr.Text.padLoop
    repeat first | with_reducible exact ih | qt | exact ⟨rfl, rfl⟩

/-- The output is not read, and written from `i` on, in order, each element once; `P` of the result and of where the writes stop. -/
def Fill {α : Type} (m : T α) (i : Nat) (P : α → Nat → Prop) : Prop :=
  fetched .output m.tr = [] ∧ ∃ e, i ≤ e ∧ stored .output m.tr = List.range' i (e - i) ∧ ∀ a, m.res = .ok a → P a e

namespace Fill
variable {α β σ : Type} {i : Nat}

theorem quiet {m : T α} (h : Quiet .output m) : Fill m i (fun a e => m.res = .ok a ∧ e = i) :=
  ⟨h.1, i, Nat.le_refl _, by rw [h.2, Nat.sub_self]; rfl, fun _ ha => ⟨ha, rfl⟩⟩

theorem seq {m : T α} {k : α → T β} {P : α → Nat → Prop} {Q : β → Nat → Prop} (h : Fill m i P)
    (g : ∀ a e, m.res = .ok a → P a e → Fill (k a) e Q) : Fill (m >>= k) i Q := by
  obtain ⟨h1, e, h2, h4, h5⟩ := h
  rcases bind_tr m k with ⟨er, b1, b2, b3⟩ | ⟨x, b1, b2, b3⟩
  · exact ⟨by rw [b2]; exact h1, e, h2, by rw [b2]; exact h4, fun a ha => by rw [b3] at ha; cases ha⟩
  · obtain ⟨g1, e', g2, g4, g5⟩ := g x e b1 (h5 x b1)
    refine ⟨by rw [b2, fetched_append, h1, g1]; rfl, e', Nat.le_trans h2 g2, ?_, fun a ha => g5 a (by rw [← b3]; exact ha)⟩
    rw [b2, stored_append, h4, g4]
    have := List.range'_append_1 (s := i) (m := e - i) (n := e' - e)
    rw [show i + (e - i) = e by omega] at this
    rw [this]
    congr 1
    omega

theorem next {m : T α} {k : α → T β} {Q : β → Nat → Prop} (h : Quiet .output m)
    (g : ∀ a, m.res = .ok a → Fill (k a) i Q) : Fill (m >>= k) i Q :=
  seq (quiet h) (fun a e _ ⟨h1, h2⟩ => by rw [h2]; exact g a h1)

theorem done {P : α → Nat → Prop} (a : α) (h : P a i) : Fill (pure a : T α) i P :=
  ⟨rfl, i, Nat.le_refl _, by rw [Nat.sub_self]; rfl, fun x hx => by rw [← Work.ok_pure hx]; exact h⟩

theorem wrs (b src : List α) : Fill (T.wrs .output b i src) i (fun _ e => e = i + src.length) := by
  refine ⟨rfl, i + src.length, by omega, ?_, fun _ _ => rfl⟩
  simp [T.wrs, stored]

theorem wr (b : List α) (v : α) : Fill (T.wr .output b i v) i (fun _ e => e = i + 1) := by
  refine ⟨rfl, i + 1, by omega, ?_, fun _ _ => rfl⟩
  simp [T.wr, stored]

theorem iter {f : Nat → σ → T σ} {I : Nat → σ → Nat → Prop} (n : Nat)
    (h : ∀ j s e, I j s e → Fill (f j s) e (I (j + 1))) :
    ∀ (s : σ), I 0 s i → Fill (T.iter n f s) i (I n) := by
  induction n with
  | zero => intro s h0; exact done s h0
  | succ k ih =>
    intro s h0
    rw [T.iter]
    exact seq (ih s h0) (fun s' e _ hs' => h k s' e hs')

theorem forN {f : Nat → σ → T σ} {I : Nat → σ → Nat → Prop} (n : Nat)
    (h : ∀ j s e, I j s e → Fill (f j s) e (I (j + 1))) (s : σ) (h0 : I 0 s i) : Fill (T.forN n f s) i (I n) := by
  unfold T.forN
  refine seq (iter n (I := I) (fun j s e hI => next (Quiet.br _) (fun _ _ => h j s e hI)) s h0) (fun s' e _ hs' => ?_)
  exact next (Quiet.br _) (fun _ _ => done _ hs')

end Fill

theorem unittostr_fill (S : Slack) (P : BaseParams) (g alphabet unit : List Byte) (hg : P.chunkCount ≤ g.length) (pad : Bool)
    (out : List Byte) (sp : Nat) :
    Fill (Tr.Text.unittostr S P g alphabet unit pad out sp) sp (fun _ e => e = sp + P.chunkCount) := by
  unfold Tr.Text.unittostr Tr.Text.transform
  refine Fill.next (transformLoop_qo _ _ _ _ _ _ _ _ _) (fun r hr => ?_)
  have hl : (r.2.take P.chunkCount).length = P.chunkCount := by
    rw [TextTrace.transformLoop_res] at hr
    have := TextTrace.transformLoop_length _ _ _ _ _ _ _ _ _ _ hr
    rw [List.length_take, this, List.length_append, List.length_take]
    omega
  refine Fill.next (lookups_qo _ _ _) (fun v hv => ?_)
  have hvl := TextTrace.lookups_length _ _ _ _ hv
  refine Fill.next (Quiet.br _) (fun b hb => ?_)
  refine Fill.next (by repeat first | with_reducible exact padLoop_qo _ _ _ | qt) (fun w hw => ?_)
  have hw : w.length = v.length := by
    revert hw
    split
    · intro hw
      rw [res_bind] at hw
      cases hp : (Tr.Text.padLoop alphabet P.alphabetSize v.reverse).res with
      | error e => rw [hp] at hw; cases hw
      | ok z =>
        rw [hp] at hw
        cases hw
        rw [List.length_reverse, ((Work.padLoop_run alphabet P.alphabetSize v.reverse).2 z hp).1, List.length_reverse]
    · intro hw; cases hw; rfl
  refine Fill.next (m := ⟨.ok w, [.rd .ws 0 w.length]⟩) ⟨rfl, rfl⟩ (fun y hy => ?_)
  cases hy
  have := Fill.wrs (i := sp) out w
  rw [show w.length = P.chunkCount by omega] at this
  exact this

theorem encodeBase_fill (S : Slack) (P : BaseParams) (g alphabet input : List Byte) (hg : P.chunkCount ≤ g.length) (n : Nat)
    (out : List Byte) :
    Fill (Tr.Text.encodeBase S P g alphabet input n out) 0
      (fun _ e => e = (n + P.unitSize - 1) / P.unitSize * P.chunkCount + 1) := by
  unfold Tr.Text.encodeBase
  refine Fill.seq (Fill.forN (I := fun k s e => e = k * P.chunkCount ∧ s.1 = e) _ ?_ _ (by simp)) ?_
  · intro j s e ⟨he, hs⟩
    refine Fill.next (Quiet.br _) (fun part _ => ?_)
    refine Fill.next (by repeat first | qt | exact ⟨rfl, rfl⟩) (fun u _ => ?_)
    rw [← hs]
    refine Fill.seq (unittostr_fill S P g alphabet u hg part s.2 s.1) (fun o e' _ he' => ?_)
    refine Fill.done _ ⟨?_, ?_⟩
    · rw [he', hs, he, Nat.succ_mul]
    · exact he'.symm
  · intro s e _ ⟨he, hs⟩
    rw [← hs]
    refine Fill.seq (Fill.wr s.2 0#8) (fun o e' _ he' => Fill.done _ ?_)
    rw [he', hs, he]

end Pgfe.Proofs.Fetch
