import Verif.Proofs.TraceHotp
import Verif.Proofs.BlowfishEcb
/-!
# The trace of a Blowfish call determines its input
-/
namespace Pgfe.Proofs.Trace
open Pgfe.Model Pgfe.Spec
open Pgfe.Proofs.Bf (Shape flat pr un)

/-- The unit in memory. -/
def unitOf (b : List Byte) : BfUnit := ⟨Bf.ofLe4 (b.drop 4), Bf.ofLe4 (b.take 4)⟩

theorem le4_inj (a b c d a' b' c' d' : Byte) (h : Bf.ofLe4 [a, b, c, d] = Bf.ofLe4 [a', b', c', d']) :
    a = a' ∧ b = b' ∧ c = c' ∧ d = d' := by
  have r : ∀ x y z w : Byte, Bf.ofLe4 [x, y, z, w] = Blowfish.word [w, z, y, x] := fun x y z w => Bf.ofLe4_word _ _ _ _
  rw [r, r] at h
  have := congrArg Blowfish.bytes h
  rw [Bf.bytes_word, Bf.bytes_word] at this
  simp only [List.cons.injEq, and_true] at this
  obtain ⟨h1, h2, h3, h4⟩ := this
  exact ⟨h4, h3, h2, h1⟩

theorem unitOf_inj {b b' : List Byte} (h : b.length = 8) (h' : b'.length = 8) (e : unitOf b = unitOf b') : b = b' := by
  obtain ⟨b0, b1, b2, b3, b4, b5, b6, b7, rfl⟩ := Bf.eight h
  obtain ⟨c0, c1, c2, c3, c4, c5, c6, c7, rfl⟩ := Bf.eight h'
  unfold unitOf at e
  rw [BfUnit.mk.injEq] at e
  obtain ⟨e1, e2⟩ := e
  obtain ⟨rfl, rfl, rfl, rfl⟩ := le4_inj _ _ _ _ _ _ _ _ e1
  obtain ⟨rfl, rfl, rfl, rfl⟩ := le4_inj _ _ _ _ _ _ _ _ e2
  rfl

/-- A block function whose trace determines the block. -/
def Inj (f : BfUnit → T BfUnit) : Prop := ∀ u v, (f u).tr = (f v).tr → u = v

theorem onBytes_inj {f : BfUnit → T BfUnit} (hs : FnOK f f) (hf : Inj f) {b b' : List Byte} (h : b.length = 8)
    (h' : b'.length = 8) (e : (Tr.Bf.onBytes f b).tr = (Tr.Bf.onBytes f b').tr) : b = b' :=
  unitOf_inj h h' (hf _ _ (tr_first (hs _ _) e))

/-- One iteration over a byte. -/
def gBody (f : BfUnit → T BfUnit) (x : List Byte) (i : Nat) (s : List Byte × List Byte) : T (List Byte × List Byte) := do
  let _ ← T.br true
  let b ← T.rd .input x i
  let unp ← T.wr .unit s.1 (7 - i % 8) b
  let full ← T.br (decide (i % 8 = 7))
  if full then do
    let unp ← Tr.Bf.onBytes f unp
    let output ← Tr.Bf.copyOut unp s.2 (i - 7)
    pure (unp, output)
  else pure (unp, s.2)

/-- The tail of the function. -/
def gTail (f : BfUnit → T BfUnit) (length : Nat) (s : List Byte × List Byte) : T (Nat × List Byte) := do
  let rest ← T.br (decide (length % 8 ≠ 0))
  if rest then do
    let rem := 8 - length % 8
    let unp ← T.wrs .unit s.1 0 (List.replicate rem 0#8)
    let unp ← Tr.Bf.onBytes f unp
    let i := length + rem
    let output ← Tr.Bf.copyOut unp s.2 (i - 8)
    pure (i, output)
  else pure (length, s.2)

theorem generic_split (f : BfUnit → T BfUnit) (u x : List Byte) (n : Nat) (o : List Byte) : Tr.Bf.generic f u x n o =
    ((T.iter n (gBody f x) (u, o) >>= fun s => T.br false >>= fun _ => pure s) >>= gTail f n) := rfl

/-- The two loops have the same shape. -/
def Q (s s' : List Byte × List Byte) : Prop := s.1.length = 8 ∧ s'.1.length = 8 ∧ L s.2 s'.2

theorem wr_len {α : Type} {b : List α} {i : Nat} (v : α) (h : i < b.length) (a : Arr) : (T.wr a b i v).res = .ok (b.set i v) := by
  show Pgfe.wr b i v = _
  rw [wr_ok v h]

theorem onBytes_ok {f : BfUnit → T BfUnit} {g : BfUnit → BfUnit} (hg : ∀ u, (f u).res = .ok (g u)) (b : List Byte) :
    (Tr.Bf.onBytes f b).res = .ok (Bf.le4 (g (unitOf b)).right ++ Bf.le4 (g (unitOf b)).left) := by
  unfold Tr.Bf.onBytes
  rw [res_bind, show (f ⟨Bf.ofLe4 (b.drop 4), Bf.ofLe4 (b.take 4)⟩).res = .ok (g (unitOf b)) from hg _, bind_ok]
  rfl

theorem gBody_res (f : BfUnit → T BfUnit) (x : List Byte) (i : Nat) (hi : i < x.length) (s : List Byte × List Byte)
    (h1 : s.1.length = 8) : (gBody f x i s).res = (if decide (i % 8 = 7) = true then do
    let unp ← Tr.Bf.onBytes f (s.1.set (7 - i % 8) (x[i]'hi))
    let output ← Tr.Bf.copyOut unp s.2 (i - 7)
    pure (unp, output)
  else pure (s.1.set (7 - i % 8) (x[i]'hi), s.2) : T (List Byte × List Byte)).res := by
  have r1 : (T.rd Arr.input x i).res = .ok (x[i]'hi) := rd_ok hi
  have w1 := wr_len (b := s.1) (i := 7 - i % 8) (x[i]'hi) (by omega) .unit
  unfold gBody
  rw [res_bind, show (T.br true).res = .ok true from rfl, bind_ok, res_bind, r1, bind_ok, res_bind, w1, bind_ok, res_bind,
    show (T.br (decide (i % 8 = 7))).res = .ok (decide (i % 8 = 7)) from rfl, bind_ok]

theorem full_res (f : BfUnit → T BfUnit) (g : BfUnit → BfUnit) (hg : ∀ u, (f u).res = .ok (g u)) (b o : List Byte) (i : Nat) :
    (Tr.Bf.onBytes f b >>= fun unp => Tr.Bf.copyOut unp o i >>= fun output => pure (unp, output) :
      T (List Byte × List Byte)).res =
    (Tr.Bf.copyOut (Bf.le4 (g (unitOf b)).right ++ Bf.le4 (g (unitOf b)).left) o i).res >>= fun output =>
      .ok (Bf.le4 (g (unitOf b)).right ++ Bf.le4 (g (unitOf b)).left, output) := by
  rw [res_bind, onBytes_ok hg b, bind_ok, res_bind]
  rfl

section
variable {f : BfUnit → T BfUnit} {g : BfUnit → BfUnit} (hs : FnOK f f) (hf : Inj f) (hg : ∀ u, (f u).res = .ok (g u))
  {x x' : List Byte} (hx : x.length = x'.length)

/-- What is known after `i` iterations with equal traces: the whole blocks are equal, and the rest is in `unp`. -/
structure Known (x x' : List Byte) (i : Nat) (s s' : List Byte × List Byte) : Prop where
  shape : Q s s'
  blocks : ∀ p, p < 8 * (i / 8) → x[p]? = x'[p]?
  left : ∀ j, j < i % 8 → s.1[7 - j]? = x[8 * (i / 8) + j]?
  right : ∀ j, j < i % 8 → s'.1[7 - j]? = x'[8 * (i / 8) + j]?

include hs hx in
theorem gBody_same (i : Nat) (s s' : List Byte × List Byte) (hq : Q s s') :
    SameM coarse Q (gBody f x i s) (gBody f x' i s') := by
  obtain ⟨h1, h2, h3⟩ := hq
  unfold gBody
  refine SameM.br rfl ?_
  refine SameM.seq (.lift (Same.rd _ _ hx)) (fun a b _ => ?_)
  refine SameM.at (.lift (Same.wr _ (7 - i % 8) a b (h1.trans h2.symm))) (wr_len a (by omega) _) (wr_len b (by omega) _) ?_
  refine SameM.br rfl ?_
  split
  · refine SameM.seq (R := fun y y' => y.length = 8 ∧ y'.length = 8) ?_ (fun y y' hy => ?_)
    · exact SameM.seq (hs _ _) (fun _ _ _ => SameM.ret ⟨rfl, rfl⟩)
    · exact SameM.seq (.lift (copyOut_same (hy.1.trans hy.2.symm) h3 _)) (fun _ _ ho => SameM.ret ⟨hy.1, hy.2, ho⟩)
  · exact SameM.ret ⟨by rw [List.length_set]; exact h1, by rw [List.length_set]; exact h2, h3⟩

include hs hf hg hx in
theorem gBody_known (i : Nat) (hi : i < x.length) (s s' : List Byte × List Byte) (hk : Known x x' i s s')
    (e : (gBody f x i s).tr = (gBody f x' i s').tr) : Out (Known x x' (i + 1)) (gBody f x i s).res (gBody f x' i s').res := by
  obtain ⟨⟨h1, h2, h3⟩, hb, hl, hr⟩ := hk
  have r1 : (T.rd Arr.input x i).res = .ok (x[i]'hi) := rd_ok hi
  have r1' : (T.rd Arr.input x' i).res = .ok (x'[i]'(by omega)) := rd_ok (by omega)
  have w1 := wr_len (b := s.1) (i := 7 - i % 8) (x[i]'hi) (by omega) .unit
  have w1' := wr_len (b := s'.1) (i := 7 - i % 8) (x'[i]'(by omega)) (by omega) .unit
  have gl : ∀ j, j < i % 8 + 1 → (s.1.set (7 - i % 8) (x[i]'hi))[7 - j]? = x[8 * (i / 8) + j]? := by
    intro j hj
    by_cases hji : j = i % 8
    · rw [hji, List.getElem?_set_self (by omega), show 8 * (i / 8) + i % 8 = i by omega, List.getElem?_eq_getElem hi]
    · rw [List.getElem?_set_ne (by omega)]; exact hl j (by omega)
  have gr : ∀ j, j < i % 8 + 1 → (s'.1.set (7 - i % 8) (x'[i]'(by omega)))[7 - j]? = x'[8 * (i / 8) + j]? := by
    intro j hj
    by_cases hji : j = i % 8
    · rw [hji, List.getElem?_set_self (by omega), show 8 * (i / 8) + i % 8 = i by omega, List.getElem?_eq_getElem (by omega)]
    · rw [List.getElem?_set_ne (by omega)]; exact hr j (by omega)
  rw [gBody_res f x i hi s h1, gBody_res f x' i (by omega) s' h2]
  unfold gBody at e
  have e1 := tr_second (SameM.lift (f := coarse) (Same.refl (T.br true))) e rfl rfl
  have e2 := tr_second (SameM.lift (f := coarse) (Same.rd Arr.input i hx)) e1 r1 r1'
  have e3 := tr_second (SameM.lift (f := coarse) (Same.wr Arr.unit (7 - i % 8) _ _ (h1.trans h2.symm))) e2 w1 w1'
  have e4 := tr_second (SameM.lift (f := coarse) (Same.refl (T.br (decide (i % 8 = 7))))) e3 rfl rfl
  clear e e1 e2 e3
  by_cases h7 : i % 8 = 7
  · rw [if_pos (by simpa using h7), if_pos (by simpa using h7)] at e4 ⊢
    have eu := onBytes_inj hs hf (by rw [List.length_set]; exact h1) (by rw [List.length_set]; exact h2)
      (tr_first (onBytes_same hs _ _) e4)
    rw [full_res f g hg, full_res f g hg]
    have len8 : ∀ v : BfUnit, (Bf.le4 v.right ++ Bf.le4 v.left).length = 8 := fun _ => rfl
    have q := len8 (g (unitOf (s.1.set (7 - i % 8) (x[i]'hi))))
    have q' := len8 (g (unitOf (s'.1.set (7 - i % 8) (x'[i]'(by omega)))))
    revert q q'
    generalize Bf.le4 (g (unitOf (s.1.set (7 - i % 8) (x[i]'hi)))).right ++
      Bf.le4 (g (unitOf (s.1.set (7 - i % 8) (x[i]'hi)))).left = w
    generalize Bf.le4 (g (unitOf (s'.1.set (7 - i % 8) (x'[i]'(by omega))))).right ++
      Bf.le4 (g (unitOf (s'.1.set (7 - i % 8) (x'[i]'(by omega))))).left = w'
    intro q q'
    have c := (copyOut_same (u := w) (u' := w') (q.trans q'.symm) h3 (i - 7)).res
    revert c
    generalize (Tr.Bf.copyOut _ s.2 (i - 7)).res = y
    generalize (Tr.Bf.copyOut _ s'.2 (i - 7)).res = y'
    intro c
    cases y <;> cases y'
    · exact c
    · exact absurd c id
    · exact absurd c id
    · refine ⟨⟨q, q', c⟩, fun p hp => ?_, fun j hj => by omega, fun j hj => by omega⟩
      by_cases hp8 : p < 8 * (i / 8)
      · exact hb p hp8
      · have a := gl (p - 8 * (i / 8)) (by omega)
        have b := gr (p - 8 * (i / 8)) (by omega)
        rw [show 8 * (i / 8) + (p - 8 * (i / 8)) = p by omega] at a b
        rw [← a, ← b, eu]
  · rw [if_neg (by simpa using h7), if_neg (by simpa using h7)]
    refine ⟨⟨by rw [List.length_set]; exact h1, by rw [List.length_set]; exact h2, h3⟩, fun p hp => hb p (by omega), ?_, ?_⟩
    · intro j hj
      rw [show (i + 1) / 8 = i / 8 by omega]
      exact gl j (by omega)
    · intro j hj
      rw [show (i + 1) / 8 = i / 8 by omega]
      exact gr j (by omega)

include hs hf hg hx in
theorem iter_known (s s' : List Byte × List Byte) (hq : Q s s') : ∀ n, n ≤ x.length →
    (T.iter n (gBody f x) s).tr = (T.iter n (gBody f x') s').tr →
    Out (Known x x' n) (T.iter n (gBody f x) s).res (T.iter n (gBody f x') s').res := by
  intro n
  induction n with
  | zero => intro _ _; exact ⟨hq, fun p hp => by omega, fun j hj => by omega, fun j hj => by omega⟩
  | succ n ih =>
    intro hn e
    rw [T.iter, T.iter] at e ⊢
    have st := SameM.iter (f := coarse) (s := s) (s' := s') n (R := Q) hq (fun i a b _ hab => gBody_same hs hx i a b hab)
    have k := ih (by omega) (tr_first st e)
    cases hy : (T.iter n (gBody f x) s).res <;> cases hy' : (T.iter n (gBody f x') s').res <;> rw [hy, hy'] at k
    · rw [res_bind, res_bind, hy, hy', bind_err, bind_err]; exact k
    · exact absurd k id
    · exact absurd k id
    · have e2 := tr_second st e hy hy'
      rw [res_bind, res_bind, hy, hy', bind_ok, bind_ok]
      exact gBody_known hs hf hg hx n (by omega) _ _ k e2

include hs hf hg hx in
theorem generic_inj {u u' o o' : List Byte} (hu : u.length = 8) (hu' : u'.length = 8) (ho : o.length = o'.length)
    (hr : ∃ r, (Tr.Bf.generic f u x x.length o).res = .ok r)
    (e : (Tr.Bf.generic f u x x.length o).tr = (Tr.Bf.generic f u' x' x'.length o').tr) : x = x' := by
  rw [← hx] at e
  rw [generic_split, generic_split] at e
  rw [generic_split] at hr
  have st := SameM.iter (f := coarse) (s := (u, o)) (s' := (u', o')) x.length (R := Q) ⟨hu, hu', ho⟩
    (fun i a b _ hab => gBody_same hs hx i a b hab)
  have st2 : SameM coarse Q (T.iter x.length (gBody f x) (u, o) >>= fun s => T.br false >>= fun _ => pure s)
      (T.iter x.length (gBody f x') (u', o') >>= fun s => T.br false >>= fun _ => pure s) :=
    SameM.seq st (fun a b hab => SameM.br rfl (SameM.ret hab))
  have e1 := tr_first st (tr_first st2 e)
  have k := iter_known hs hf hg hx (u, o) (u', o') ⟨hu, hu', ho⟩ x.length (Nat.le_refl _) e1
  cases hy : (T.iter x.length (gBody f x) (u, o)).res with
  | error z =>
    obtain ⟨r, hr⟩ := hr
    rw [res_bind, res_bind, hy, bind_err, bind_err] at hr
    exact absurd hr (by simp)
  | ok a =>
    cases hy' : (T.iter x.length (gBody f x') (u', o')).res with
    | error z => rw [hy, hy'] at k; exact absurd k id
    | ok b =>
      rw [hy, hy'] at k
      have y2 : (T.iter x.length (gBody f x) (u, o) >>= fun s => T.br false >>= fun _ => pure s).res = .ok a := by
        rw [res_bind, hy, bind_ok]; rfl
      have y2' : (T.iter x.length (gBody f x') (u', o') >>= fun s => T.br false >>= fun _ => pure s).res = .ok b := by
        rw [res_bind, hy', bind_ok]; rfl
      have e2 := tr_second st2 e y2 y2'
      obtain ⟨⟨h1, h2, h3⟩, hb, hl, hr⟩ := k
      unfold gTail at e2
      have e3 := tr_second (SameM.lift (f := coarse) (Same.refl (T.br (decide (x.length % 8 ≠ 0))))) e2 rfl rfl
      apply List.ext_getElem?
      intro p
      by_cases hp : p < 8 * (x.length / 8)
      · exact hb p hp
      · by_cases hpl : p < x.length
        · have h0 : x.length % 8 ≠ 0 := by omega
          rw [if_pos (by simpa using h0), if_pos (by simpa using h0)] at e3
          have hz : (List.replicate (8 - x.length % 8) 0#8).length = 8 - x.length % 8 := List.length_replicate
          have z : (T.wrs Arr.unit a.1 0 (List.replicate (8 - x.length % 8) 0#8)).res = .ok _ :=
            wrs_ok (b := a.1) (i := 0) (src := List.replicate (8 - x.length % 8) 0#8) (by omega)
          have z' : (T.wrs Arr.unit b.1 0 (List.replicate (8 - x.length % 8) 0#8)).res = .ok _ :=
            wrs_ok (b := b.1) (i := 0) (src := List.replicate (8 - x.length % 8) 0#8) (by omega)
          have e4 := tr_second (SameM.lift (f := coarse) (Same.wrs Arr.unit 0 (h1.trans h2.symm) rfl)) e3 z z'
          have sp : ∀ y : List Byte, y.length = 8 → (splice y 0 (List.replicate (8 - x.length % 8) 0#8)).length = 8 ∧
              ∀ j, j < x.length % 8 → (splice y 0 (List.replicate (8 - x.length % 8) 0#8))[7 - j]? = y[7 - j]? := by
            intro y hy
            unfold splice
            rw [List.take_zero, List.nil_append, hz, Nat.zero_add]
            refine ⟨by rw [List.length_append, hz, List.length_drop]; omega, fun j hj => ?_⟩
            rw [List.getElem?_append_right (by omega), hz, List.getElem?_drop]
            congr 1
            omega
          have eu := onBytes_inj hs hf (sp a.1 h1).1 (sp b.1 h2).1 (tr_first (onBytes_same hs _ _) e4)
          have l := hl (p - 8 * (x.length / 8)) (by omega)
          have r := hr (p - 8 * (x.length / 8)) (by omega)
          rw [show 8 * (x.length / 8) + (p - 8 * (x.length / 8)) = p by omega] at l r
          rw [← l, ← r, ← (sp a.1 h1).2 _ (by omega), ← (sp b.1 h2).2 _ (by omega), eu]
        · rw [List.getElem?_eq_none (by omega), List.getElem?_eq_none (by omega)]
end

end Pgfe.Proofs.Trace
