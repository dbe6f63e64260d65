import Verif.Proofs.TextErase
import Verif.Proofs.TraceLeak
import Verif.Spec.TextClass
/-!
# What the decisions and accesses of the decoders reveal
-/
namespace Pgfe.Proofs.TextTrace
open Pgfe Pgfe.Model Pgfe.Proofs.Trace Pgfe.Spec.TextClass

/-- Is the character skipped? -/
def unk (a : BaseAlg) (c : Byte) : Bool := decide (a.charFn c &&& 0xC0#8 = unknownCode)

/-- The decisions on one character. -/
def ctr (a : BaseAlg) (c : Byte) : List Event := (Tr.Text.charFn a c).tr ++ [.br (unk a c)]

/-- One character of every interval. -/
def ivs : BaseAlg → List Byte
  | .base16 => [0x01#8, 0x30#8, 0x3A#8, 0x41#8, 0x47#8, 0x61#8, 0x67#8]
  | .base32 => [0x01#8, 0x32#8, 0x38#8, 0x41#8, 0x5B#8, 0x61#8, 0x7B#8]
  | .base32hex => [0x01#8, 0x30#8, 0x3A#8, 0x41#8, 0x57#8, 0x61#8, 0x77#8]
  | .base64 | .base64url => [0x01#8, 0x30#8, 0x3A#8, 0x41#8, 0x5B#8, 0x61#8, 0x7B#8]

/-- One character of every class. -/
def reps (a : BaseAlg) : List Byte := ivs a ++ symbols a

/-- The one of the class of `c`. -/
def rep (a : BaseAlg) (c : Byte) : Byte :=
  if c ∈ symbols a then c else (ivs a).getD (seen a c).1 0#8

theorem rep_ok (a : BaseAlg) : ∀ n : Fin 256, rep a (BitVec.ofFin n) ∈ reps a ∧
    seen a (BitVec.ofFin n) = seen a (rep a (BitVec.ofFin n)) ∧
    ctr a (BitVec.ofFin n) = ctr a (rep a (BitVec.ofFin n)) ∧ unk a (BitVec.ofFin n) = unk a (rep a (BitVec.ofFin n)) := by
  cases a <;> decide +kernel

theorem class_rep (a : BaseAlg) (c : Byte) : ∃ r ∈ reps a, seen a c = seen a r ∧ ctr a c = ctr a r ∧ unk a c = unk a r :=
  ⟨rep a c, (rep_ok a c.toFin).1, (rep_ok a c.toFin).2⟩

theorem reps_free (a : BaseAlg) : ∀ r ∈ reps a, ∀ s ∈ reps a, (ctr a r <+: ctr a s → seen a r = seen a s) ∧
    (seen a r = seen a s → r = s) := by
  cases a <;> decide +kernel

theorem seen_ctr {a : BaseAlg} {c d : Byte} (h : seen a c = seen a d) : ctr a c = ctr a d ∧ unk a c = unk a d := by
  obtain ⟨r, hr, h1, h2, h3⟩ := class_rep a c
  obtain ⟨s, hs, k1, k2, k3⟩ := class_rep a d
  have := (reps_free a r hr s hs).2 (h1.symm.trans (h.trans k1))
  subst this
  exact ⟨h2.trans k2.symm, h3.trans k3.symm⟩

theorem ctr_seen {a : BaseAlg} {c d : Byte} {x y : List Event} (h : ctr a c ++ x = ctr a d ++ y) :
    seen a c = seen a d ∧ x = y := by
  have hs : seen a c = seen a d := by
    obtain ⟨r, hr, h1, h2, _⟩ := class_rep a c
    obtain ⟨s, hs, k1, k2, _⟩ := class_rep a d
    rw [h2, k2] at h
    rw [h1, k1]
    rcases List.prefix_or_prefix_of_prefix (List.prefix_append (ctr a r) x) (h ▸ List.prefix_append (ctr a s) y) with p | p
    · exact (reps_free a r hr s hs).1 p
    · exact ((reps_free a s hs r hr).1 p).symm
  refine ⟨hs, ?_⟩
  rw [(seen_ctr hs).1] at h
  exact List.append_cancel_left h

/-! ### The trace of a successful run -/

theorem unitBytes_tr (P : BaseParams) (u v : W64) : (Tr.Text.unitBytes P u).tr = (Tr.Text.unitBytes P v).tr := by
  unfold Tr.Text.unitBytes
  refine (Same.forN (R := fun a b => L a b) P.unitSize rfl ?_).tr
  intro i a b h
  exact Same.push _ _ _ h

/-- Filling and copying `o_unit`. -/
def unitTr (P : BaseParams) (op : Nat) : List Event :=
  (Tr.Text.unitBytes P 0#64).tr ++ [.rd .unit 0 P.unitSize, .wr .output op P.unitSize]

/-- The trace from inside the group loop to the end of the outer loop. -/
def G (a : BaseAlg) : List Byte → Nat → Nat → Nat → List Event
  | [], sp, i, op => [.rd .input sp 1, .br false, .rd .input sp 1, .br true, .br (decide (i < a.params.chunkCount))] ++
      (unitTr a.params op ++ [.rd .input sp 1, .br false])
  | c :: t, sp, i, op =>
    if i < a.params.chunkCount then
      [.rd .input sp 1, .br true, .br true, .rd .input sp 1] ++
        (ctr a c ++ G a t (sp + 1) (if unk a c then i else i + 1) op)
    else
      [.rd .input sp 1, .br true, .br false, .rd .input sp 1, .br false] ++ (unitTr a.params op ++
        ([.rd .input sp 1, .br true] ++ ([.rd .input sp 1, .br true, .br true, .rd .input sp 1] ++
          (ctr a c ++ G a t (sp + 1) (if unk a c then 0 else 1) (op + a.params.unitSize)))))

/-- The value of `op` at the end of the outer loop. -/
def opEnd (a : BaseAlg) : List Byte → Nat → Nat → Nat
  | [], _, op => op + a.params.unitSize
  | c :: t, i, op =>
    if i < a.params.chunkCount then opEnd a t (if unk a c then i else i + 1) op
    else opEnd a t (if unk a c then 0 else 1) (op + a.params.unitSize)

theorem app_cancel (p u v x y : List Event) : (p ++ u) ++ x = (p ++ v) ++ y ↔ u ++ x = v ++ y := by
  rw [List.append_assoc, List.append_assoc, List.append_right_inj]

theorem G_iff (a : BaseAlg) (t : List Byte) : ∀ (t' : List Byte) (sp i op : Nat) (x y : List Event),
    G a t sp i op ++ x = G a t' sp i op ++ y ↔ t.map (seen a) = t'.map (seen a) ∧ x = y := by
  induction t with
  | nil =>
    intro t' sp i op x y
    cases t' with
    | nil => exact ⟨fun h => ⟨rfl, List.append_cancel_left h⟩, fun h => by rw [h.2]⟩
    | cons c t' =>
      refine ⟨fun h => ?_, fun h => absurd h.1 (by simp)⟩
      exfalso
      rw [G, G] at h
      split at h <;> (simp only [List.cons_append, List.cons.injEq, Event.br.injEq] at h; exact absurd h.2.1 (by decide))
  | cons c t ih =>
    intro t' sp i op x y
    cases t' with
    | nil =>
      refine ⟨fun h => ?_, fun h => absurd h.1 (by simp)⟩
      exfalso
      rw [G, G] at h
      split at h <;> (simp only [List.cons_append, List.cons.injEq, Event.br.injEq] at h; exact absurd h.2.1 (by decide))
    | cons c' t' =>
      rw [G, G]
      have step : ∀ (j j' o : Nat) (e : unk a c = unk a c' → j = j'),
          (ctr a c ++ G a t (sp + 1) j o) ++ x = (ctr a c' ++ G a t' (sp + 1) j' o) ++ y ↔
          (c :: t).map (seen a) = (c' :: t').map (seen a) ∧ x = y := by
        intro j j' o e
        rw [List.append_assoc, List.append_assoc, List.map_cons, List.map_cons, List.cons.injEq]
        constructor
        · intro h
          obtain ⟨h1, h2⟩ := ctr_seen h
          rw [e (seen_ctr h1).2] at h2
          have := (ih t' _ _ _ x y).1 h2
          exact ⟨⟨h1, this.1⟩, this.2⟩
        · rintro ⟨⟨h1, h2⟩, h3⟩
          rw [(seen_ctr h1).1, e (seen_ctr h1).2, (ih t' _ _ _ x y).2 ⟨h2, h3⟩]
      split
      · rw [app_cancel]
        exact step _ _ _ (fun h => by rw [h])
      · rw [app_cancel, app_cancel, app_cancel, app_cancel]
        exact step _ _ _ (fun h => by rw [h])

theorem opEnd_eq (a : BaseAlg) (t : List Byte) : ∀ (t' : List Byte) (i op : Nat), t.map (seen a) = t'.map (seen a) →
    opEnd a t i op = opEnd a t' i op := by
  induction t with
  | nil => intro t' i op h; cases t' with
    | nil => rfl
    | cons _ _ => exact absurd h (by simp)
  | cons c t ih =>
    intro t' i op h
    cases t' with
    | nil => exact absurd h (by simp)
    | cons c' t' =>
      rw [List.map_cons, List.map_cons, List.cons.injEq] at h
      rw [opEnd, opEnd, (seen_ctr h.1).2]
      split <;> exact ih _ _ _ h.2

end Pgfe.Proofs.TextTrace
