import Verif.Model.Overlap
import Verif.Proofs.BlowfishEcb
/-!
# Blowfish on overlapping arrays: simulation by separate arrays
-/
namespace Pgfe.Proofs.Overlap
open Pgfe Pgfe.Model

/-- Both succeed with related results, or both fail in the same way. -/
def Same {σ τ : Type} (R : σ → τ → Prop) (x : C σ) (y : C τ) : Prop :=
  (∃ e, x = .error e ∧ y = .error e) ∨ ∃ s t, x = .ok s ∧ y = .ok t ∧ R s t

theorem Same.bind {σ τ σ' τ' : Type} {R : σ → τ → Prop} {R' : σ' → τ' → Prop} {x : C σ} {y : C τ} {f : σ → C σ'}
    {g : τ → C τ'} (h : Same R x y) (h' : ∀ s t, R s t → Same R' (f s) (g t)) : Same R' (x >>= f) (y >>= g) := by
  rcases h with ⟨e, rfl, rfl⟩ | ⟨s, t, rfl, rfl, r⟩
  · exact .inl ⟨e, rfl, rfl⟩
  · exact h' s t r

theorem Same.refl {σ : Type} (x : C σ) : Same Eq x x := by
  cases x with
  | error e => exact .inl ⟨e, rfl, rfl⟩
  | ok s => exact .inr ⟨s, s, rfl, rfl, rfl⟩

theorem forN_same {σ τ : Type} (R : Nat → σ → τ → Prop) (n : Nat) (f : Nat → σ → C σ) (g : Nat → τ → C τ) (s : σ) (t : τ)
    (h0 : R 0 s t) (hs : ∀ i s t, i < n → R i s t → Same (R (i + 1)) (f i s) (g i t)) :
    Same (R n) (forN n f s) (forN n g t) := by
  induction n with
  | zero => exact .inr ⟨s, t, rfl, rfl, h0⟩
  | succ n ih =>
    exact Same.bind (ih (fun i s t hi => hs i s t (by omega))) (fun s t r => hs n s t (by omega) r)

theorem wr_same (A o : List Byte) (k : Nat) (b : Byte) :
    Same (fun m o' => m = A ++ o' ∧ ∀ j, k < j → o'[j]? = o[j]?) (wr (A ++ o) (A.length + k) b) (wr o k b) := by
  unfold wr
  by_cases h : k < o.length
  · rw [if_pos (by rw [List.length_append]; omega), if_pos h]
    refine .inr ⟨_, _, rfl, rfl, ?_, ?_⟩
    · rw [List.set_append_right _ _ (by omega), show A.length + k - A.length = k by omega]
    · intro j hj
      rw [List.getElem?_set_ne (by omega)]
  · rw [if_neg (by rw [List.length_append]; omega), if_neg h]
    exact .inl ⟨_, rfl, rfl⟩

theorem copyOut_same (A unp o : List Byte) (base : Nat) :
    Same (fun m o' => m = A ++ o' ∧ ∀ j, base + 8 ≤ j → o'[j]? = o[j]?)
      (Bf.copyOutMem unp (A ++ o) A.length base) (Bf.copyOut unp o base) := by
  unfold Bf.copyOutMem Bf.copyOut
  refine forN_same (fun _ m o' => m = A ++ o' ∧ ∀ j, base + 8 ≤ j → o'[j]? = o[j]?) 8 _ _ _ _ ⟨rfl, fun _ _ => rfl⟩ ?_
  rintro i m o' hi ⟨rfl, h⟩
  refine Same.bind (Same.refl _) ?_
  rintro b _ rfl
  rcases wr_same A o' (base + i) b with ⟨e, h1, h2⟩ | ⟨m1, o1, h1, h2, h3, h4⟩
  · exact .inl ⟨e, h1, h2⟩
  · exact .inr ⟨m1, o1, h1, h2, h3, fun j hj => by rw [h4 j (by omega), h j hj]⟩

/-- With the output at or before the input, or behind its end, one array behaves as two. -/
theorem generic_same (f : BfUnit → C BfUnit) (unp mem : List Byte) (ip length op : Nat) (hop : op ≤ mem.length)
    (h : op ≤ ip ∨ ip + length ≤ op) :
    Same (fun r q => r.1 = q.1 ∧ r.2 = mem.take op ++ q.2) (Bf.genericMem f unp mem ip length op)
      (Bf.generic f unp (some (mem.drop ip)) length (mem.drop op)) := by
  have hA : (mem.take op).length = op := by rw [List.length_take]; omega
  generalize hA' : mem.take op = A at *
  have hm : mem = A ++ mem.drop op := by rw [← hA', List.take_append_drop]
  generalize ho : mem.drop op = o at *
  subst hm
  subst hA
  unfold Bf.genericMem Bf.generic
  refine Same.bind (R := fun s t => s.1 = t.1 ∧ s.2 = A ++ t.2) ?_ ?_
  · have key := forN_same (σ := List Byte × List Byte) (τ := List Byte × List Byte)
      (fun i s t => s.1 = t.1 ∧ s.2 = A ++ t.2 ∧ ∀ j, 8 * (i / 8) ≤ j → t.2[j]? = o[j]?) length
      (fun i (s : List Byte × List Byte) => do
        let b ← rd s.2 (ip + i)
        let unp ← wr s.1 (7 - i % 8) b
        if i % 8 = 7 then do
          let unp ← Bf.onBytes f unp
          let mem ← Bf.copyOutMem unp s.2 A.length (i - 7)
          .ok (unp, mem)
        else .ok (unp, s.2))
      (fun i (s : List Byte × List Byte) => do
        let b ← rd ((some ((A ++ o).drop ip)).getD s.2) i
        let unp ← wr s.1 (7 - i % 8) b
        if i % 8 = 7 then do
          let unp ← Bf.onBytes f unp
          let output ← Bf.copyOut unp s.2 (i - 7)
          .ok (unp, output)
        else .ok (unp, s.2)) (unp, A ++ o) (unp, o) ⟨rfl, rfl, fun _ _ => rfl⟩ ?_
    · rcases key with ⟨e, h1, h2⟩ | ⟨s, t, h1, h2, h3, h4, _⟩
      · exact .inl ⟨e, h1, h2⟩
      · exact .inr ⟨s, t, h1, h2, h3, h4⟩
    · rintro i ⟨u, m⟩ ⟨u', o'⟩ hi ⟨h1, h2, h3⟩
      dsimp only at h1 h2 h3
      subst h1 h2
      have hr : rd (A ++ o') (ip + i) = rd ((A ++ o).drop ip) i := by
        unfold rd
        have : (A ++ o')[ip + i]? = ((A ++ o).drop ip)[i]? := by
          rw [List.getElem?_drop]
          rcases Nat.lt_or_ge (ip + i) A.length with hlt | hge
          · rw [List.getElem?_append_left hlt, List.getElem?_append_left hlt]
          · rw [List.getElem?_append_right hge, List.getElem?_append_right hge]
            apply h3
            omega
        rw [this]
      dsimp only [Option.getD_some]
      rw [hr]
      refine Same.bind (Same.refl _) ?_
      rintro b _ rfl
      refine Same.bind (Same.refl _) ?_
      rintro v _ rfl
      by_cases h7 : i % 8 = 7
      · rw [if_pos h7, if_pos h7]
        refine Same.bind (Same.refl _) ?_
        rintro w _ rfl
        refine Same.bind (copyOut_same A w o' (i - 7)) ?_
        rintro m1 o1 ⟨rfl, h5⟩
        refine .inr ⟨_, _, rfl, rfl, rfl, rfl, fun j hj => ?_⟩
        dsimp only
        rw [h5 j (by omega), h3 j (by omega)]
      · rw [if_neg h7, if_neg h7]
        refine .inr ⟨_, _, rfl, rfl, rfl, rfl, fun j hj => ?_⟩
        dsimp only
        exact h3 j (by omega)
  · rintro ⟨u, m⟩ ⟨u', o'⟩ ⟨h1, h2⟩
    dsimp only at h1 h2 ⊢
    subst h1 h2
    by_cases h8 : length % 8 ≠ 0
    · rw [if_pos h8, if_pos h8]
      refine Same.bind (Same.refl _) ?_
      rintro w _ rfl
      refine Same.bind (Same.refl _) ?_
      rintro v _ rfl
      refine Same.bind (copyOut_same A v o' _) ?_
      rintro m1 o1 ⟨rfl, _⟩
      exact .inr ⟨_, _, rfl, rfl, rfl, rfl⟩
    · rw [if_neg h8, if_neg h8]
      exact .inr ⟨_, _, rfl, rfl, rfl, rfl⟩

end Pgfe.Proofs.Overlap
