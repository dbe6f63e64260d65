import Verif.Proofs.TraceAll
import Verif.Proofs.Blowfish
import Verif.Spec.TraceOther
/-!
# Traces of Blowfish and HOTP
-/
namespace Pgfe.Proofs.Trace
open Pgfe.Model Pgfe.Spec
open Pgfe.Proofs.Bf (Shape)

/-! ## Erasure -/

theorem rdS_res (c : BfCtx) (b i : Nat) : (Tr.Bf.rdS c b i).res = (rd c.S b >>= fun s => rd s i) := rfl

theorem bfF_res (c : BfCtx) (x : W32) : (Tr.Bf.F c x).res = Bf.F c x := by
  rw [Tr.Bf.F, Bf.F]; erase [rdS_res, bind_assoc']
theorem bfRound_res (c : BfCtx) (i : Nat) (u : BfUnit) : (Tr.Bf.round c i u).res = Bf.round c i u := by
  rw [Tr.Bf.round, Bf.round]; erase [bfF_res]
theorem encryptUnit_res (c : BfCtx) (u : BfUnit) : (Tr.Bf.encryptUnit c u).res = Bf.encryptUnit c u := by
  rw [Tr.Bf.encryptUnit, Bf.encryptUnit]; erase [bfRound_res]
theorem decryptUnit_res (c : BfCtx) (u : BfUnit) : (Tr.Bf.decryptUnit c u).res = Bf.decryptUnit c u := by
  rw [Tr.Bf.decryptUnit, Bf.decryptUnit]; erase [bfRound_res]
theorem keyWord_res (k : List Byte) (n j : Nat) : (Tr.Bf.keyWord k n j).res = Bf.keyWord k n j := by
  rw [Tr.Bf.keyWord, Bf.keyWord]; erase []
theorem keyPhase_res (k : List Byte) (n : Nat) (P : List W32) : (Tr.Bf.keyPhase k n P).res = Bf.keyPhase k n P := by
  rw [Tr.Bf.keyPhase, Bf.keyPhase]; erase [keyWord_res]
theorem pPhase_res (c : BfCtx) (u : BfUnit) : (Tr.Bf.pPhase c u).res = Bf.pPhase c u := by
  rw [Tr.Bf.pPhase, Bf.pPhase]; erase [encryptUnit_res]
theorem wrS_res (c : BfCtx) (i j : Nat) (v : W32) : (Tr.Bf.wrS c i j v).res = Bf.wrS c i j v := rfl
theorem sPhase_res (c : BfCtx) (u : BfUnit) : (Tr.Bf.sPhase c u).res = Bf.sPhase c u := by
  rw [Tr.Bf.sPhase, Bf.sPhase]; erase [encryptUnit_res, wrS_res]
theorem copyS0_res : Tr.Bf.copyS0.res = .ok bfS0 := rfl
theorem bfInit_res (c : BfCtx) (k : List Byte) (n : Nat) : (Tr.Bf.init c k n).res = Bf.init c k n := by
  rw [Tr.Bf.init, Bf.init]; erase [copyS0_res, keyPhase_res, pPhase_res, sPhase_res]
theorem onBytes_res (f : BfUnit → T BfUnit) (h : BfUnit → C BfUnit) (e : ∀ u, (f u).res = h u) (u : List Byte) :
    (Tr.Bf.onBytes f u).res = Bf.onBytes h u := by
  rw [Tr.Bf.onBytes, Bf.onBytes]; erase [e]
theorem copyOut_res (u o : List Byte) (n : Nat) : (Tr.Bf.copyOut u o n).res = Bf.copyOut u o n := by
  rw [Tr.Bf.copyOut, Bf.copyOut]; erase []
theorem generic_res (f : BfUnit → T BfUnit) (h : BfUnit → C BfUnit) (e : ∀ u, (f u).res = h u) (u x : List Byte) (n : Nat)
    (o : List Byte) : (Tr.Bf.generic f u x n o).res = Bf.generic h u (some x) n o := by
  rw [Tr.Bf.generic, Bf.generic]; erase [onBytes_res f h e, copyOut_res, Option.getD_some]
theorem op_res (c : BfCtx) (o : Tr.Bf.Op) : (Tr.Bf.op c o).res = Bf.crypt c o := by
  unfold Tr.Bf.op Bf.crypt Bf.encrypt Bf.decrypt
  cases o.enc
  · exact generic_res _ _ (decryptUnit_res c) _ _ _ _
  · exact generic_res _ _ (encryptUnit_res c) _ _ _ _
theorem ops_res (c : BfCtx) (l : List Tr.Bf.Op) : (Tr.Bf.ops c l).res = Bf.crypts c l := by
  induction l with
  | nil => rfl
  | cons o l ih => rw [Tr.Bf.ops, Bf.crypts]; erase [op_res, ih]

theorem reverse_res (b : List Byte) (i j : Nat) : (Tr.reverse b i j).res = reverse b i j := by
  induction hk : j - i using Nat.strongRecOn generalizing b i j with
  | _ m ih =>
    rw [Tr.reverse, reverse]
    erase []
    by_cases h : i < j
    · rw [dif_pos h, dif_pos h]
      erase []
      have e : ∀ b, (Tr.reverse b (i + 1) (j - 1)).res = reverse b (i + 1) (j - 1) := fun b => ih _ (by omega) _ _ _ rfl
      erase [e]
    · rw [dif_neg h, dif_neg h]; rfl
theorem dynTruncate_res (h : List Byte) (n : Nat) : (Tr.dynTruncate h n).res = dynTruncate h n := by
  rw [Tr.dynTruncate, dynTruncate]
  generalize (n + 2 ^ 64 - 1) % 2 ^ 64 = i
  erase []
theorem pgfeHmac_res (a : Alg) (g : HmacCtx.Mem (a.impl 0)) (k : List Byte) (n : Nat) (x : List Byte) (m : Nat) (o : List Byte) :
    (Tr.pgfeHmac a g k n x m o).res = pgfeHmac a g k n x m o := by
  cases a <;> first | exact macOneShot_res (erases _ 0) _ _ _ _ _ _ _ _ | rfl
theorem hotpGeneric_res (a : Alg) (g : HmacCtx.Mem (a.impl 0)) (ch oh s : List Byte) (n : Nat) (c : W64) (d : Nat) :
    (Tr.hotpGeneric a g ch oh s n c d).res = hotpGeneric a g ch oh s n c d := by
  rw [Tr.hotpGeneric, hotpGeneric]; erase [reverse_res, pgfeHmac_res, dynTruncate_res, tenPow]

/-! ## Traces seen through a mask -/

/-- The same masked trace, and related outcomes. -/
structure SameM (f : Event → Event) {α β : Type} (R : α → β → Prop) (m : T α) (m' : T β) : Prop where
  tr : m.tr.map f = m'.tr.map f
  res : Out R m.res m'.res

namespace SameM
variable {f : Event → Event} {α β γ δ : Type}

theorem lift {R : α → β → Prop} {m : T α} {m' : T β} (h : Same R m m') : SameM f R m m' :=
  ⟨congrArg (List.map f) h.tr, h.res⟩

theorem ret {R : α → β → Prop} {a : α} {b : β} (h : R a b) : SameM f R (pure a) (pure b) := lift (Same.ret h)

theorem seq {R : α → β → Prop} {S : γ → δ → Prop} {m : T α} {m' : T β} {k : α → T γ} {k' : β → T δ}
    (h : SameM f R m m') (hk : ∀ a b, R a b → SameM f S (k a) (k' b)) : SameM f S (m >>= k) (m' >>= k') := by
  obtain ⟨ht, hr⟩ := h
  show SameM f S (T.bind m k) (T.bind m' k')
  unfold T.bind
  cases hm : m.res with
  | ok a =>
    cases hm' : m'.res with
    | ok b =>
      rw [hm, hm'] at hr
      obtain ⟨kt, kr⟩ := hk a b hr
      exact ⟨by show (m.tr ++ _).map f = (m'.tr ++ _).map f; rw [List.map_append, List.map_append, ht, kt], kr⟩
    | error e => rw [hm, hm'] at hr; exact absurd hr id
  | error e =>
    cases hm' : m'.res with
    | ok b => rw [hm, hm'] at hr; exact absurd hr id
    | error e' => rw [hm, hm'] at hr; exact ⟨ht, hr⟩

theorem br {S : γ → δ → Prop} {c c' : Bool} (h : c = c') {k : Bool → T γ} {k' : Bool → T δ}
    (hk : SameM f S (k c) (k' c)) : SameM f S (T.br c >>= k) (T.br c' >>= k') := by
  subst h
  exact seq (R := fun a b => a = c ∧ b = c) ⟨rfl, ⟨rfl, rfl⟩⟩ (fun a b h => by rw [h.1, h.2]; exact hk)

theorem iter {R : α → β → Prop} {g : Nat → α → T α} {g' : Nat → β → T β} (n : Nat) {s : α} {s' : β} (h : R s s')
    (k : ∀ i a b, i < n → R a b → SameM f R (g i a) (g' i b)) : SameM f R (T.iter n g s) (T.iter n g' s') := by
  induction n with
  | zero => exact ret h
  | succ n ih =>
    exact seq (ih (fun i a b hi hab => k i a b (by omega) hab)) (fun a b hab => k n a b (by omega) hab)

theorem forN {R : α → β → Prop} {g : Nat → α → T α} {g' : Nat → β → T β} (n : Nat) {s : α} {s' : β} (h : R s s')
    (k : ∀ i a b, i < n → R a b → SameM f R (g i a) (g' i b)) : SameM f R (T.forN n g s) (T.forN n g' s') := by
  unfold T.forN
  exact seq (iter n h (fun i a b hi hab => br rfl (k i a b hi hab))) (fun a b hab => br rfl (ret hab))

end SameM

/-! ## Blowfish: all but the position in an S-box -/

/-- Two contexts of the type. -/
def Sh (c c' : BfCtx) : Prop := Shape c ∧ Shape c'

theorem Sh.P {c c' : BfCtx} (h : Sh c c') : L c.P c'.P := h.1.1.trans h.2.1.symm

theorem rdS_ok {c : BfCtx} (h : Shape c) {b i : Nat} (hb : b < 4) (hi : i < 256) : ∃ v, (Tr.Bf.rdS c b i).res = .ok v := by
  obtain ⟨x, y, z, w, hS, h1, h2, h3, h4⟩ := Bf.shape_cases h
  rw [rdS_res, hS]
  have : b = 0 ∨ b = 1 ∨ b = 2 ∨ b = 3 := by omega
  rcases this with rfl | rfl | rfl | rfl
  · exact ⟨_, rd_ok (b := x) (by omega)⟩
  · exact ⟨_, rd_ok (b := y) (by omega)⟩
  · exact ⟨_, rd_ok (b := z) (by omega)⟩
  · exact ⟨_, rd_ok (b := w) (by omega)⟩

theorem rdS_same {c c' : BfCtx} (h : Sh c c') {b i i' : Nat} (hb : b < 4) (hi : i < 256) (hi' : i' < 256) :
    SameM coarse Any (Tr.Bf.rdS c b i) (Tr.Bf.rdS c' b i') := by
  obtain ⟨v, hv⟩ := rdS_ok h.1 hb hi
  obtain ⟨v', hv'⟩ := rdS_ok h.2 hb hi'
  refine ⟨?_, by rw [hv, hv']; trivial⟩
  show [Event.rd .bfS ((256 * b + i) / 256) 1] = [Event.rd .bfS ((256 * b + i') / 256) 1]
  rw [show (256 * b + i) / 256 = b by omega, show (256 * b + i') / 256 = b by omega]

theorem idx0 (x : W32) : (x >>> 24).toNat < 256 := by
  have := x.isLt
  rw [BitVec.toNat_ushiftRight, Nat.shiftRight_eq_div_pow]; omega
theorem idx1 (x : W32) : (x &&& 0xff#32).toNat < 256 := by
  rw [BitVec.toNat_and]
  exact Nat.lt_of_le_of_lt Nat.and_le_right (by decide)

theorem bfF_same {c c' : BfCtx} (h : Sh c c') (x x' : W32) : SameM coarse Any (Tr.Bf.F c x) (Tr.Bf.F c' x') := by
  unfold Tr.Bf.F
  refine SameM.seq (rdS_same h (by decide) (idx0 _) (idx0 _)) (fun _ _ _ => ?_)
  refine SameM.seq (rdS_same h (by decide) (idx1 _) (idx1 _)) (fun _ _ _ => ?_)
  refine SameM.seq (rdS_same h (by decide) (idx1 _) (idx1 _)) (fun _ _ _ => ?_)
  refine SameM.seq (rdS_same h (by decide) (idx1 _) (idx1 _)) (fun _ _ _ => ?_)
  exact SameM.ret trivial

theorem bfRound_same {c c' : BfCtx} (h : Sh c c') (i : Nat) (u u' : BfUnit) :
    SameM coarse Any (Tr.Bf.round c i u) (Tr.Bf.round c' i u') := by
  unfold Tr.Bf.round
  refine SameM.seq (.lift (Same.rd _ _ h.P)) (fun _ _ _ => ?_)
  exact SameM.seq (bfF_same h _ _) (fun _ _ _ => SameM.ret trivial)

theorem encryptUnit_same {c c' : BfCtx} (h : Sh c c') (u u' : BfUnit) :
    SameM coarse Any (Tr.Bf.encryptUnit c u) (Tr.Bf.encryptUnit c' u') := by
  unfold Tr.Bf.encryptUnit
  refine SameM.seq (SameM.forN 16 (R := Any) trivial (fun i a b _ _ => bfRound_same h _ _ _)) (fun _ _ _ => ?_)
  refine SameM.seq (.lift (Same.rd _ _ h.P)) (fun _ _ _ => ?_)
  exact SameM.seq (.lift (Same.rd _ _ h.P)) (fun _ _ _ => SameM.ret trivial)

theorem decryptUnit_same {c c' : BfCtx} (h : Sh c c') (u u' : BfUnit) :
    SameM coarse Any (Tr.Bf.decryptUnit c u) (Tr.Bf.decryptUnit c' u') := by
  unfold Tr.Bf.decryptUnit
  refine SameM.seq (SameM.forN 16 (R := Any) trivial (fun i a b _ _ => bfRound_same h _ _ _)) (fun _ _ _ => ?_)
  refine SameM.seq (.lift (Same.rd _ _ h.P)) (fun _ _ _ => ?_)
  exact SameM.seq (.lift (Same.rd _ _ h.P)) (fun _ _ _ => SameM.ret trivial)

/-- Two arrays of eighteen words. -/
def P18 (P P' : List W32) : Prop := P.length = 18 ∧ P'.length = 18

theorem wr18 (a : Arr) {P P' : List W32} (i : Nat) (v v' : W32) (h : P18 P P') :
    Same P18 (T.wr a P i v) (T.wr a P' i v') := by
  refine ⟨rfl, ?_⟩
  show Out P18 (Pgfe.wr P i v) (Pgfe.wr P' i v')
  obtain ⟨h, h'⟩ := h
  unfold Pgfe.wr
  by_cases hi : i < 18
  · rw [if_pos (h ▸ hi), if_pos (h' ▸ hi)]
    exact ⟨by rw [List.length_set, h], by rw [List.length_set, h']⟩
  · rw [if_neg (h ▸ hi), if_neg (h' ▸ hi)]; rfl

theorem keyWord_same {k k' : List Byte} (h : L k k') (n j : Nat) :
    Same (fun (r r' : W32 × Nat) => r.2 = r'.2) (Tr.Bf.keyWord k n j) (Tr.Bf.keyWord k' n j) := by
  unfold Tr.Bf.keyWord
  refine Same.forN 4 rfl (fun i a b hab => ?_)
  rw [hab]
  rd! h
  split
  · exact Same.fail _
  · exact Same.ret rfl

theorem keyPhase_same {k k' : List Byte} (h : L k k') (n : Nat) {P P' : List W32} (hP : P18 P P') :
    Same P18 (Tr.Bf.keyPhase k n P) (Tr.Bf.keyPhase k' n P') := by
  unfold Tr.Bf.keyPhase
  refine Same.seq (Same.forN 18 (R := fun (r r' : List W32 × Nat) => P18 r.1 r'.1 ∧ r.2 = r'.2) ⟨hP, rfl⟩
    (fun i a b hab => ?_)) (fun a b hab => Same.ret hab.1)
  obtain ⟨h1, h2⟩ := hab
  rw [h2]
  refine Same.seq (keyWord_same h n _) (fun w w' hw => ?_)
  rd! rfl
  exact Same.seq (wr18 _ _ _ _ h1) (fun _ _ h1 => Same.ret ⟨h1, hw⟩)

theorem pPhase_same {c c' : BfCtx} (h : Sh c c') (u u' : BfUnit) :
    SameM coarse (fun (r r' : BfCtx × BfUnit) => Sh r.1 r'.1) (Tr.Bf.pPhase c u) (Tr.Bf.pPhase c' u') := by
  unfold Tr.Bf.pPhase
  refine SameM.forN 9 h (fun i a b _ hab => ?_)
  refine SameM.seq (encryptUnit_same hab _ _) (fun _ _ _ => ?_)
  refine SameM.seq (.lift (wr18 _ _ _ _ ⟨hab.1.1, hab.2.1⟩)) (fun P P' hP => ?_)
  refine SameM.seq (.lift (wr18 _ _ _ _ hP)) (fun P P' hP => ?_)
  exact SameM.ret ⟨⟨hP.1, hab.1.2⟩, ⟨hP.2, hab.2.2⟩⟩

theorem wrS_same {c c' : BfCtx} (h : Sh c c') {i j : Nat} (hi : i < 4) (hj : j < 256) (v v' : W32) :
    SameM coarse Sh (Tr.Bf.wrS c i j v) (Tr.Bf.wrS c' i j v') := by
  obtain ⟨d, h1, h2, _⟩ := Bf.wrS_eq h.1 hi hj v
  obtain ⟨d', h1', h2', _⟩ := Bf.wrS_eq h.2 hi hj v'
  refine ⟨rfl, ?_⟩
  rw [wrS_res, wrS_res, h1, h1']
  exact ⟨h2, h2'⟩

theorem sPhase_same {c c' : BfCtx} (h : Sh c c') (u u' : BfUnit) :
    SameM coarse (fun (r r' : BfCtx × BfUnit) => Sh r.1 r'.1) (Tr.Bf.sPhase c u) (Tr.Bf.sPhase c' u') := by
  unfold Tr.Bf.sPhase
  refine SameM.forN 4 h (fun i a b hi hab => SameM.forN 128 hab (fun t a b ht hab => ?_))
  refine SameM.seq (encryptUnit_same hab _ _) (fun _ _ _ => ?_)
  refine SameM.seq (wrS_same hab hi (by omega) _ _) (fun _ _ hab => ?_)
  exact SameM.seq (wrS_same hab hi (by omega) _ _) (fun _ _ hab => SameM.ret hab)

theorem bfInit_same {c c' : BfCtx} (h : Sh c c') {k k' : List Byte} (hk : L k k') (n : Nat) :
    SameM coarse Sh (Tr.Bf.init c k n) (Tr.Bf.init c' k' n) := by
  unfold Tr.Bf.init
  refine SameM.seq (R := fun S S' => S = bfS0 ∧ S' = bfS0) ⟨rfl, rfl, rfl⟩ (fun S S' hS => ?_)
  refine SameM.seq (.lift (keyPhase_same hk n ⟨h.1.1, h.2.1⟩)) (fun P P' hP => ?_)
  refine SameM.seq (pPhase_same ⟨⟨hP.1, ?_⟩, ⟨hP.2, ?_⟩⟩ _ _) (fun s s' hs => ?_)
  · rw [hS.1]; exact (Bf.shape_S0 P hP.1).2
  · rw [hS.2]; exact (Bf.shape_S0 P' hP.2).2
  exact SameM.seq (sPhase_same hs _ _) (fun s s' hs => SameM.ret hs)

/-- A block function whose masked trace does not depend on the data. -/
def FnOK (f f' : BfUnit → T BfUnit) : Prop := ∀ u u', SameM coarse Any (f u) (f' u')

theorem le4_len (w : W32) : (Bf.le4 w).length = 4 := rfl

theorem onBytes_same {f f' : BfUnit → T BfUnit} (h : FnOK f f') (u u' : List Byte) :
    SameM coarse L (Tr.Bf.onBytes f u) (Tr.Bf.onBytes f' u') := by
  unfold Tr.Bf.onBytes
  refine SameM.seq (h _ _) (fun a b _ => SameM.ret ?_)
  show List.length _ = List.length _
  rw [List.length_append, List.length_append, le4_len, le4_len, le4_len, le4_len]

theorem copyOut_same {u u' o o' : List Byte} (hu : L u u') (ho : L o o') (n : Nat) :
    Same L (Tr.Bf.copyOut u o n) (Tr.Bf.copyOut u' o' n) := by
  unfold Tr.Bf.copyOut
  refine Same.forN 8 ho (fun i a b hab => ?_)
  rd! hu
  exact Same.wr _ _ _ _ hab

theorem generic_same {f f' : BfUnit → T BfUnit} (h : FnOK f f') {u u' x x' o o' : List Byte} (hu : L u u') (hx : L x x')
    (ho : L o o') (n : Nat) :
    SameM coarse (fun (r r' : Nat × List Byte) => r.1 = r'.1 ∧ L r.2 r'.2) (Tr.Bf.generic f u x n o)
      (Tr.Bf.generic f' u' x' n o') := by
  unfold Tr.Bf.generic
  refine SameM.seq (SameM.forN n (R := fun (r r' : List Byte × List Byte) => L r.1 r'.1 ∧ L r.2 r'.2) ⟨hu, ho⟩
    (fun i a b _ hab => ?_)) (fun a b hab => ?_)
  · refine SameM.seq (.lift (Same.rd _ _ hx)) (fun _ _ _ => ?_)
    refine SameM.seq (.lift (Same.wr _ _ _ _ hab.1)) (fun _ _ hu => ?_)
    refine SameM.br rfl ?_
    split
    · refine SameM.seq (onBytes_same h _ _) (fun _ _ hu => ?_)
      exact SameM.seq (.lift (copyOut_same hu hab.2 _)) (fun _ _ ho => SameM.ret ⟨hu, ho⟩)
    · exact SameM.ret ⟨hu, hab.2⟩
  · refine SameM.br rfl ?_
    split
    · refine SameM.seq (.lift (Same.wrs _ _ hab.1 rfl)) (fun _ _ _ => ?_)
      refine SameM.seq (onBytes_same h _ _) (fun _ _ hu => ?_)
      exact SameM.seq (.lift (copyOut_same hu hab.2 _)) (fun _ _ ho => SameM.ret ⟨rfl, ho⟩)
    · exact SameM.ret ⟨rfl, hab.2⟩

theorem op_same {c c' : BfCtx} (h : Sh c c') {o o' : Tr.Bf.Op} (ho : opShape o = opShape o') :
    SameM coarse (fun (r r' : Nat × List Byte) => r.1 = r'.1 ∧ L r.2 r'.2) (Tr.Bf.op c o) (Tr.Bf.op c' o') := by
  obtain ⟨e, u, x, y⟩ := o
  obtain ⟨e', u', x', y'⟩ := o'
  unfold opShape at ho
  dsimp only at ho
  rw [Prod.mk.injEq, Prod.mk.injEq, Prod.mk.injEq] at ho
  obtain ⟨rfl, h1, h2, h3⟩ := ho
  unfold Tr.Bf.op
  dsimp only
  rw [h2]
  refine generic_same ?_ h1 h2 h3 _
  cases e
  · exact decryptUnit_same h
  · exact encryptUnit_same h

/-- Answers of the same sizes. -/
def AnsLike (r r' : List (Nat × List Byte)) : Prop :=
  r.map (fun p => (p.1, p.2.length)) = r'.map (fun p => (p.1, p.2.length))

theorem ops_same {c c' : BfCtx} (h : Sh c c') (l l' : List Tr.Bf.Op) (hl : l.map opShape = l'.map opShape) :
    SameM coarse AnsLike (Tr.Bf.ops c l) (Tr.Bf.ops c' l') := by
  induction l generalizing l' with
  | nil =>
    cases l' with
    | nil => exact SameM.ret rfl
    | cons _ _ => simp at hl
  | cons o l ih =>
    cases l' with
    | nil => simp at hl
    | cons o' l' =>
      rw [List.map_cons, List.map_cons, List.cons.injEq] at hl
      rw [Tr.Bf.ops, Tr.Bf.ops]
      refine SameM.seq (op_same h hl.1) (fun r r' hr => ?_)
      refine SameM.seq (ih l' hl.2) (fun rs rs' hrs => SameM.ret ?_)
      unfold AnsLike at hrs ⊢
      rw [List.map_cons, List.map_cons, hrs, hr.1, show r.2.length = r'.2.length from hr.2]

end Pgfe.Proofs.Trace
