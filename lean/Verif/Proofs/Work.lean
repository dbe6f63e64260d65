import Verif.Proofs.TraceErase
import Verif.Spec.Work
/-!
# Upper bounds for the work of the traced functions: the calculus, and SHA
-/
namespace Pgfe.Proofs.Work
open Pgfe.Model Pgfe.Spec
open Pgfe.Proofs.Trace (res_bind)

theorem work_append (a b : List Event) : work (a ++ b) = work a + work b := by
  unfold work
  rw [List.map_append, List.sum_append]

/-- At most `n` steps, whatever the outcome. -/
def Bd {α : Type} (m : T α) (n : Nat) : Prop := work m.tr ≤ n

namespace Bd
variable {α β σ : Type}

theorem mono {m : T α} {a n : Nat} (h : Bd m a) (l : a ≤ n) : Bd m n := Nat.le_trans h l
theorem ret (a : α) : Bd (pure a : T α) 0 := Nat.le_refl _
theorem fail (e : UB) : Bd (T.fail e : T α) 0 := Nat.le_refl _
theorem rd (a : Arr) (b : List α) (i : Nat) : Bd (T.rd a b i) 1 := Nat.le_refl _
theorem wr (a : Arr) (b : List α) (i : Nat) (v : α) : Bd (T.wr a b i v) 1 := Nat.le_refl _
theorem push (a : Arr) (b : List α) (v : α) : Bd (T.push a b v) 1 := Nat.le_refl _
theorem br (c : Bool) : Bd (T.br c) 1 := Nat.le_refl _
theorem sw (c : Nat) : Bd (T.sw c) 1 := Nat.le_refl _
theorem rd2 (a : Arr) (t : List (List α)) (i j c : Nat) : Bd (Tr.rd2 a t i j c) 1 := Nat.le_refl _
theorem rds (a : Arr) (b : List α) (i n : Nat) : Bd (T.rds a b i n) (max 1 n) := Nat.le_refl _
theorem wrs (a : Arr) (b : List α) (i : Nat) (s : List α) : Bd (T.wrs a b i s) (max 1 s.length) := Nat.le_refl _

theorem seq {m : T α} {k : α → T β} {a b : Nat} (h : Bd m a) (g : ∀ x, Bd (k x) b) : Bd (m >>= k) (a + b) := by
  show work (T.bind m k).tr ≤ _
  unfold T.bind
  cases hm : m.res with
  | ok x =>
    show work (m.tr ++ _) ≤ _
    rw [work_append]
    exact Nat.add_le_add h (g x)
  | error e => exact Nat.le_trans h (Nat.le_add_right _ _)

theorem ite {p : Prop} [Decidable p] {m m' : T α} {a b : Nat} (h : Bd m a) (h' : Bd m' b) :
    Bd (if p then m else m') (max a b) := by
  split
  · exact h.mono (Nat.le_max_left _ _)
  · exact h'.mono (Nat.le_max_right _ _)

theorem iter {f : Nat → σ → T σ} {b : Nat} (h : ∀ i s, Bd (f i s) b) : ∀ (n : Nat) (s : σ), Bd (T.iter n f s) (n * b) := by
  intro n
  induction n with
  | zero => intro s; rw [Nat.zero_mul]; exact ret s
  | succ n ih => intro s; rw [T.iter, Nat.succ_mul]; exact seq (ih s) (fun x => h n x)

theorem forN {f : Nat → σ → T σ} {b : Nat} (n : Nat) (s : σ) (h : ∀ i s, Bd (f i s) b) : Bd (T.forN n f s) (n * (1 + b) + 1) := by
  unfold T.forN
  exact seq (iter (fun i s => seq (br true) (fun _ => h i s)) n s) (fun x => seq (br false) (fun _ => ret x))

/-- The next call costs `a` of the remaining `n`. -/
theorem next {m : T α} {k : α → T β} {a n : Nat} (h : Bd m a) (l : a ≤ n) (g : ∀ x, Bd (k x) (n - a)) : Bd (m >>= k) n :=
  (seq h g).mono (by omega)

theorem done (a : α) (n : Nat) : Bd (pure a : T α) n := Nat.zero_le _

end Bd

/-- Take one step of a constant-cost function. -/
macro "bd1" : tactic => `(tactic| first
  | exact Bd.done _ _
  | exact Bd.mono (Bd.rd _ _ _) (by omega)
  | exact Bd.mono (Bd.wr _ _ _ _) (by omega)
  | exact Bd.mono (Bd.push _ _ _) (by omega)
  | refine Bd.next (Bd.rd _ _ _) (by omega) (fun _ => ?_)
  | refine Bd.next (Bd.wr _ _ _ _) (by omega) (fun _ => ?_)
  | refine Bd.next (Bd.push _ _ _) (by omega) (fun _ => ?_)
  | refine Bd.next (Bd.br _) (by omega) (fun _ => ?_)
  | refine Bd.next (Bd.sw _) (by omega) (fun _ => ?_)
  | refine Bd.next (Bd.rd2 _ _ _ _ _) (by omega) (fun _ => ?_))

/-- The result has the property `P`, and the steps and the potential `φ` of the result together are at most `B`. -/
def Run {α : Type} (m : T α) (P : α → Prop) (φ : α → Nat) (B : Nat) : Prop :=
  work m.tr ≤ B ∧ ∀ a, m.res = .ok a → P a ∧ work m.tr + φ a ≤ B

namespace Run
variable {α β σ : Type}

theorem mono {m : T α} {P : α → Prop} {φ : α → Nat} {a n : Nat} (h : Run m P φ a) (l : a ≤ n) : Run m P φ n :=
  ⟨Nat.le_trans h.1 l, fun x hx => ⟨(h.2 x hx).1, Nat.le_trans (h.2 x hx).2 l⟩⟩

theorem ret {P : α → Prop} {φ : α → Nat} (a : α) (h : P a) : Run (pure a : T α) P φ (φ a) := by
  refine ⟨Nat.zero_le _, fun x hx => ?_⟩
  have : a = x := by injection hx
  subst this
  exact ⟨h, by show 0 + _ ≤ _; omega⟩

theorem fail {P : α → Prop} {φ : α → Nat} (e : UB) (B : Nat) : Run (T.fail e : T α) P φ B :=
  ⟨Nat.zero_le _, fun _ hx => by cases hx⟩

theorem seq {m : T α} {k : α → T β} {P : α → Prop} {Q : β → Prop} {ψ : α → Nat} {φ : β → Nat} {B : Nat} (h : Run m P ψ B)
    (g : ∀ x, P x → Run (k x) Q φ (ψ x)) : Run (m >>= k) Q φ B := by
  show Run (T.bind m k) Q φ B
  unfold T.bind
  cases hm : m.res with
  | ok x =>
    obtain ⟨hp, hb⟩ := h.2 x hm
    obtain ⟨g1, g2⟩ := g x hp
    refine ⟨?_, fun y hy => ?_⟩
    · show work (m.tr ++ _) ≤ _
      rw [work_append]; omega
    · obtain ⟨hq, hc⟩ := g2 y hy
      refine ⟨hq, ?_⟩
      show work (m.tr ++ _) + _ ≤ _
      rw [work_append]; omega
  | error e => exact ⟨h.1, fun _ hy => by cases hy⟩

/-- A constant-cost function whose results are known. -/
theorem ofBd {m : T α} {n : Nat} {P : α → Prop} (h : Bd m n) (hp : ∀ a, m.res = .ok a → P a) (B : Nat) :
    Run m P (fun _ => B) (n + B) :=
  ⟨Nat.le_trans h (Nat.le_add_right _ _), fun a ha => ⟨hp a ha, Nat.add_le_add_right h _⟩⟩

theorem bd {m : T α} {k : α → T β} {n B : Nat} {Q : β → Prop} {φ : β → Nat} (h : Bd m n)
    (g : ∀ a, m.res = .ok a → Run (k a) Q φ B) : Run (m >>= k) Q φ (n + B) :=
  seq (ofBd h (P := fun a => m.res = .ok a) (fun _ ha => ha) B) g

theorem toBd {m : T α} {P : α → Prop} {φ : α → Nat} {B : Nat} (h : Run m P φ B) : Bd m B := h.1

theorem iter {f : Nat → σ → T σ} {P : σ → Prop} {φ : σ → Nat} {b : Nat} (h : ∀ i s, P s → Run (f i s) P φ (φ s + b)) :
    ∀ (n : Nat) (s : σ), P s → Run (T.iter n f s) P φ (φ s + n * b) := by
  intro n
  induction n with
  | zero => intro s hs; rw [Nat.zero_mul]; exact ret s hs
  | succ n ih =>
    intro s hs
    rw [T.iter]
    refine seq (ψ := fun x => φ x + b) ?_ (fun x hx => h n x hx)
    have := ih s hs
    refine ⟨Nat.le_trans this.1 (by rw [Nat.succ_mul]; omega), fun x hx => ⟨(this.2 x hx).1, ?_⟩⟩
    have h2 := (this.2 x hx).2
    rw [Nat.succ_mul]; dsimp only; omega

end Run

theorem ok_pure {α : Type} {a b : α} (h : (pure a : T α).res = .ok b) : a = b := by injection h

theorem wr_length {α : Type} {a : Arr} {b c : List α} {i : Nat} {v : α} (h : (T.wr a b i v).res = .ok c) :
    c.length = b.length ∧ i < b.length := by
  have h' : Pgfe.wr b i v = .ok c := h
  unfold Pgfe.wr at h'
  split at h'
  · injection h' with h'
    subst h'
    exact ⟨List.length_set, by assumption⟩
  · cases h'

theorem wrs_length {α : Type} {a : Arr} {b c s : List α} {i : Nat} (h : (T.wrs a b i s).res = .ok c) :
    c.length = b.length ∧ i + s.length ≤ b.length := by
  have h' : Pgfe.wrs b i s = .ok c := h
  by_cases hi : i + s.length ≤ b.length
  · rw [wrs_ok hi] at h'
    injection h' with h'
    subst h'
    refine ⟨?_, hi⟩
    unfold splice
    simp only [List.length_append, List.length_take, List.length_drop]
    omega
  · unfold Pgfe.wrs at h'
    rw [if_neg hi] at h'
    cases h'

/-! ## SHA -/

theorem wordBE32_bd (b : List Byte) (i : Nat) : Bd (Tr.wordBE32 b i) 4 := by
  unfold Tr.wordBE32
  repeat bd1
theorem addAt_bd {w : Nat} (s : List (BitVec w)) (j : Nat) (v : BitVec w) : Bd (Tr.addAt s j v) 2 := by
  unfold Tr.addAt
  repeat bd1
theorem sha1Step_bd (f : W32 → W32 → W32 → W32) (k : Nat) (ws : List W32) (i : Nat) (r : Reg5) :
    Bd (Tr.sha1Step f k ws i r) 2 := by
  unfold Tr.sha1Step
  repeat bd1
theorem sha1Ws_bd (b : List Byte) : Bd (Tr.sha1Ws b) 482 := by
  unfold Tr.sha1Ws
  refine Bd.next (Bd.forN 16 _ (fun i s => Bd.seq (wordBE32_bd _ _) (fun _ => Bd.push _ _ _))) (by omega)
    (fun ws => Bd.mono (Bd.forN 64 _ (b := 5) (fun i s => ?_)) (by omega))
  repeat bd1
theorem sha1Rounds_bd (ws : List W32) (r : Reg5) : Bd (Tr.sha1Rounds ws r) 244 := by
  unfold Tr.sha1Rounds
  refine Bd.next (Bd.forN 20 _ (fun i s => sha1Step_bd _ _ _ _ _)) (by omega) (fun _ => ?_)
  refine Bd.next (Bd.forN 20 _ (fun i s => sha1Step_bd _ _ _ _ _)) (by omega) (fun _ => ?_)
  refine Bd.next (Bd.forN 20 _ (fun i s => sha1Step_bd _ _ _ _ _)) (by omega) (fun _ => ?_)
  exact Bd.mono (Bd.forN 20 _ (fun i s => sha1Step_bd _ _ _ _ _)) (by omega)

theorem sha1ProcessBlock_bd (c : ShaCtx 32) : Bd (Tr.sha1ProcessBlock c) 741 := by
  unfold Tr.sha1ProcessBlock
  refine Bd.next (sha1Ws_bd _) (by omega) (fun _ => ?_)
  iterate 5 bd1
  refine Bd.next (sha1Rounds_bd _ _) (by omega) (fun _ => ?_)
  iterate 5 refine Bd.next (addAt_bd _ _ _) (by omega) (fun _ => ?_)
  exact Bd.done _ _

theorem sha256Ws_bd (b : List Byte) : Bd (Tr.sha256Ws b) 386 := by
  unfold Tr.sha256Ws
  refine Bd.next (Bd.forN 16 _ (fun i s => Bd.seq (wordBE32_bd _ _) (fun _ => Bd.push _ _ _))) (by omega)
    (fun ws => Bd.mono (Bd.forN 48 _ (b := 5) (fun i s => ?_)) (by omega))
  repeat bd1
theorem sha256Step_bd (ws : List W32) (i : Nat) (r : Reg8 32) : Bd (Tr.sha256Step ws i r) 2 := by
  unfold Tr.sha256Step
  repeat bd1
theorem loadReg8_bd {w : Nat} (s : List (BitVec w)) : Bd (Tr.loadReg8 s) 8 := by
  unfold Tr.loadReg8
  repeat bd1
theorem addReg8_bd {w : Nat} (s : List (BitVec w)) (r : Reg8 w) : Bd (Tr.addReg8 s r) 16 := by
  unfold Tr.addReg8
  iterate 7 refine Bd.next (addAt_bd _ _ _) (by omega) (fun _ => ?_)
  exact Bd.mono (addAt_bd _ _ _) (by omega)
theorem sha256ProcessBlock_bd (c : ShaCtx 32) : Bd (Tr.sha256ProcessBlock c) 603 := by
  unfold Tr.sha256ProcessBlock
  refine Bd.next (sha256Ws_bd _) (by omega) (fun _ => ?_)
  refine Bd.next (loadReg8_bd _) (by omega) (fun _ => ?_)
  refine Bd.next (Bd.forN 64 _ (fun i s => sha256Step_bd _ _ _)) (by omega) (fun _ => ?_)
  refine Bd.next (addReg8_bd _ _) (by omega) (fun _ => ?_)
  exact Bd.done _ _
theorem wordBE64_bd (b : List Byte) (i : Nat) : Bd (Tr.wordBE64 b i) 17 := by
  unfold Tr.wordBE64
  refine Bd.mono (Bd.forN 8 _ (b := 1) (fun i s => ?_)) (by omega)
  repeat bd1
theorem sha512Ws_bd (b : List Byte) : Bd (Tr.sha512Ws b) 690 := by
  unfold Tr.sha512Ws
  refine Bd.next (Bd.forN 16 _ (fun i s => Bd.seq (wordBE64_bd _ _) (fun _ => Bd.push _ _ _))) (by omega)
    (fun ws => Bd.mono (Bd.forN 64 _ (b := 5) (fun i s => ?_)) (by omega))
  repeat bd1
theorem sha512Step_bd (ws : List W64) (i : Nat) (r : Reg8 64) : Bd (Tr.sha512Step ws i r) 3 := by
  unfold Tr.sha512Step
  repeat bd1
theorem sha512ProcessBlock_bd (c : ShaCtx 64) : Bd (Tr.sha512ProcessBlock c) 1035 := by
  unfold Tr.sha512ProcessBlock
  refine Bd.next (sha512Ws_bd _) (by omega) (fun _ => ?_)
  refine Bd.next (loadReg8_bd _) (by omega) (fun _ => ?_)
  refine Bd.next (Bd.forN 80 _ (fun i s => sha512Step_bd _ _ _)) (by omega) (fun _ => ?_)
  refine Bd.next (addReg8_bd _ _) (by omega) (fun _ => ?_)
  exact Bd.done _ _

/-- A context whose index is inside the block. -/
def Fit {w : Nat} (bs : Nat) (c : ShaCtx w) : Prop := c.block.length = bs ∧ c.index ≤ bs

/-- A block function: at most `n` steps, and the block is empty afterwards. -/
def Proc {w : Nat} (p : ShaCtx w → T (ShaCtx w)) (n : Nat) : Prop :=
  ∀ c, Bd (p c) n ∧ ∀ c', (p c).res = .ok c' → c'.block = c.block ∧ c'.index = 0

/-- The last statement of a function. -/
theorem res_last {α β : Type} {m : T α} {f : α → T β} {b : β} (h : (m >>= f).res = .ok b) : ∃ a, m.res = .ok a ∧ (f a).res = .ok b := by
  rw [res_bind] at h
  cases hm : m.res with
  | ok a => rw [hm, bind_ok] at h; exact ⟨a, rfl, h⟩
  | error e => rw [hm, bind_err] at h; cases h

theorem sha1_proc : Proc Tr.sha1ProcessBlock 741 := by
  refine fun c => ⟨sha1ProcessBlock_bd c, fun c' h => ?_⟩
  unfold Tr.sha1ProcessBlock at h
  iterate 12 obtain ⟨_, _, h⟩ := res_last h
  rw [← ok_pure h]
  exact ⟨rfl, rfl⟩
theorem sha256_proc : Proc Tr.sha256ProcessBlock 603 := by
  refine fun c => ⟨sha256ProcessBlock_bd c, fun c' h => ?_⟩
  unfold Tr.sha256ProcessBlock at h
  iterate 4 obtain ⟨_, _, h⟩ := res_last h
  rw [← ok_pure h]
  exact ⟨rfl, rfl⟩
theorem sha512_proc : Proc Tr.sha512ProcessBlock 1035 := by
  refine fun c => ⟨sha512ProcessBlock_bd c, fun c' h => ?_⟩
  unfold Tr.sha512ProcessBlock at h
  iterate 4 obtain ⟨_, _, h⟩ := res_last h
  rw [← ok_pure h]
  exact ⟨rfl, rfl⟩

section
variable {w : Nat} {p : ShaCtx w → T (ShaCtx w)} {n bs q : Nat} (hp : Proc p n) (hq : n ≤ q * bs)
include hp hq

theorem shaUpdateBody_run (x : List Byte) (i : Nat) (s : ShaCtx w × Bool) (h : Fit bs s.1) :
    Run (Tr.shaUpdateBody p bs x i s) (fun s => Fit bs s.1) (fun s => q * s.1.index) (q * s.1.index + (q + 6)) := by
  obtain ⟨c, b⟩ := s
  obtain ⟨hl, hi⟩ := h
  dsimp only at hl hi ⊢
  cases b with
  | true =>
    refine Run.mono (Run.ret (P := fun (s : ShaCtx w × Bool) => Fit bs s.1) (φ := fun (s : ShaCtx w × Bool) => q * s.1.index)
      (c, true) ⟨hl, hi⟩) ?_
    dsimp only; omega
  | false =>
    unfold Tr.shaUpdateBody
    refine Run.mono (a := 1 + (1 + (1 + (1 + (1 + (1 + (q * c.index + q))))))) ?_ (by omega)
    refine Run.bd (Bd.br _) (fun _ _ => ?_)
    refine Run.bd (Bd.rd _ _ _) (fun b _ => ?_)
    refine Run.bd (Bd.wr _ _ _ _) (fun bl hbl => ?_)
    obtain ⟨hb1, hb2⟩ := wr_length hbl
    refine Run.bd (Bd.br _) (fun carry _ => ?_)
    refine Run.bd (Bd.br _) (fun corrupt _ => ?_)
    refine Run.bd (Bd.br _) (fun full hfull => ?_)
    have hcf : ∀ e : ShaCtx w, e.index = c.index + 1 → e.block = bl →
        (full = true → e.index = bs) → Run (do
          let ctx ← (if full then p e else pure e)
          if i + 1 < 2 ^ 31 then pure (ctx, corrupt) else T.fail .intOverflow)
          (fun s => Fit bs s.1) (fun s => q * s.1.index) (q * c.index + q) := by
      intro e he hbe hf
      have hend : ∀ ctx : ShaCtx w, Fit bs ctx → Run (if i + 1 < 2 ^ 31 then pure (ctx, corrupt) else T.fail .intOverflow)
          (fun (s : ShaCtx w × Bool) => Fit bs s.1) (fun s => q * s.1.index) (q * ctx.index) := by
        intro ctx hc
        split
        · exact Run.ret (P := fun (s : ShaCtx w × Bool) => Fit bs s.1) (φ := fun (s : ShaCtx w × Bool) => q * s.1.index)
            (ctx, corrupt) hc
        · exact Run.fail _ _
      refine Run.seq (P := Fit bs) (ψ := fun (ctx : ShaCtx w) => q * ctx.index) ?_ hend
      cases full with
      | true =>
        rw [if_pos rfl]
        obtain ⟨h1, h2⟩ := hp e
        have hx : q * bs = q * c.index + q := by rw [← hf rfl, he, Nat.mul_succ]
        refine ⟨Nat.le_trans h1 (by omega), fun c' hc' => ?_⟩
        obtain ⟨h3, h4⟩ := h2 c' hc'
        refine ⟨⟨by rw [h3, hbe, hb1, hl], by omega⟩, ?_⟩
        have : work (p e).tr ≤ n := h1
        show _ + q * c'.index ≤ _
        rw [h4, Nat.mul_zero]; omega
      | false =>
        rw [if_neg (by decide)]
        refine Run.mono (Run.ret (P := Fit bs) (φ := fun (ctx : ShaCtx w) => q * ctx.index) e ⟨by rw [hbe, hb1, hl], by omega⟩) ?_
        rw [he, Nat.mul_succ]
        exact Nat.le_refl _
    have hfull' : full = true → (c.index + 1 == bs) = true := by
      intro hf
      rw [hf] at hfull
      injection hfull with hfull
      revert hfull
      generalize (!corrupt) = y
      cases carry <;> (intro hfull; dsimp only at hfull; revert hfull; cases y <;> simp)
    refine hcf _ ?_ ?_ ?_
    · cases carry <;> rfl
    · cases carry <;> rfl
    · intro hf
      have := hfull' hf
      cases carry <;> exact beq_iff_eq.1 this

theorem shaUpdate_run (c : ShaCtx w) (x : List Byte) (len : Nat) (h : Fit bs c) :
    Run (Tr.shaUpdate p bs c (some x) len) (Fit bs) (fun c => q * c.index) (q * c.index + ((q + 6) * len + 2)) := by
  unfold Tr.shaUpdate
  refine Run.mono (a := 1 + (q * c.index + len * (q + 6) + 1)) ?_ (by rw [Nat.mul_comm len]; omega)
  refine Run.bd (Bd.br _) (fun _ _ => ?_)
  refine Run.seq (P := fun (s : ShaCtx w × Bool) => Fit bs s.1) (ψ := fun s => 1 + q * s.1.index) ?_ (fun s hs => ?_)
  · have r := Run.iter (fun i s hs => shaUpdateBody_run hp hq x i s hs) len (c, false) h
    refine ⟨Nat.le_trans r.1 (by dsimp only; omega), fun a ha => ⟨(r.2 a ha).1, ?_⟩⟩
    have := (r.2 a ha).2
    dsimp only at this ⊢; omega
  · exact Run.bd (Bd.br _) (fun _ _ => Run.ret (φ := fun (c : ShaCtx w) => q * c.index) s.1 hs)
end

theorem shaOutput32_bd (n : Nat) (s : List W32) (o : List Byte) : Bd (Tr.shaOutput32 n s o) (3 * n + 1) := by
  unfold Tr.shaOutput32
  refine Bd.mono (Bd.forN n _ (b := 2) (fun i s => ?_)) (by omega)
  repeat bd1
theorem shaOutput64_bd (n : Nat) (s : List W64) (o : List Byte) : Bd (Tr.shaOutput64 n s o) (3 * n + 1) := by
  unfold Tr.shaOutput64
  refine Bd.mono (Bd.forN n _ (b := 2) (fun i s => ?_)) (by omega)
  repeat bd1

theorem shaInit_run {w : Nat} (h0 : List (BitVec w)) (hh : h0.length = 8 ∨ h0.length = 5) (bs : Nat) (c : ShaCtx w) (h : c.block.length = bs) :
    Run (Tr.shaInit h0 c) (fun c => c.block.length = bs ∧ c.index = 0) (fun _ => 0) 8 := by
  unfold Tr.shaInit
  refine Run.mono (a := max 1 h0.length + 0) ?_ (by omega)
  exact Run.bd (Bd.wrs _ _ _ _) (fun _ _ => Run.ret (φ := fun _ => 0) _ ⟨h, rfl⟩)

/-- The padding: at most two blocks. -/
theorem shaPadding32_run {p : ShaCtx 32 → T (ShaCtx 32)} {n : Nat} (hp : Proc p n) (c : ShaCtx 32) (h : Fit 64 c) :
    Run (Tr.shaPadding32 p c) (fun c => c.block.length = 64 ∧ c.index = 0) (fun _ => 0) (2 * n + 74) := by
  unfold Tr.shaPadding32
  refine Run.mono (a := 1 + (1 + ((64 + n) + (1 + (1 + (1 + (1 + (1 + (1 + (1 + (1 + n))))))))))) ?_ (by omega)
  refine Run.bd (Bd.wr _ _ _ _) (fun bl hbl => ?_)
  have hb := (wr_length hbl).1.trans h.1
  refine Run.bd (Bd.br _) (fun more _ => ?_)
  refine Run.seq (P := fun e : ShaCtx 32 => e.block.length = 64) (ψ := fun _ => (1 + (1 + (1 + (1 + (1 + (1 + (1 + (1 + n))))))))) ?_
    (fun e he => ?_)
  · cases more with
    | true =>
      rw [if_pos rfl]
      refine Run.mono (a := max 1 (List.replicate (64 - (c.index + 1)) 0#8).length + (n + (1 + (1 + (1 + (1 + (1 + (1 + (1 + (1 + n))))))))))
        ?_ (by rw [List.length_replicate]; omega)
      refine Run.bd (Bd.wrs _ _ _ _) (fun b2 hb2 => ?_)
      exact Run.ofBd (hp _).1 (fun c' hc' => by rw [((hp _).2 c' hc').1]; exact (wrs_length hb2).1.trans hb) _
    | false =>
      rw [if_neg (by decide)]
      refine Run.mono (a := 1 + (56 + (1 + (1 + (1 + (1 + (1 + (1 + (1 + (1 + n)))))))))) ?_ (by omega)
      refine Run.bd (Bd.br _) (fun less _ => ?_)
      cases less with
      | true =>
        rw [if_pos rfl]
        refine Run.mono (a := max 1 (List.replicate (56 - (c.index + 1)) 0#8).length + (1 + (1 + (1 + (1 + (1 + (1 + (1 + (1 + n)))))))))
          ?_ (by rw [List.length_replicate]; omega)
        refine Run.bd (Bd.wrs _ _ _ _) (fun b2 hb2 => ?_)
        exact Run.ret (P := fun e : ShaCtx 32 => e.block.length = 64) (φ := fun _ => _) _ ((wrs_length hb2).1.trans hb)
      | false =>
        rw [if_neg (by decide)]
        exact Run.mono (Run.ret (P := fun e : ShaCtx 32 => e.block.length = 64) (φ := fun _ => _) _ hb) (by omega)
  · refine Run.bd (Bd.wr _ _ _ _) (fun b0 h0 => ?_)
    refine Run.bd (Bd.wr _ _ _ _) (fun b1 h1 => ?_)
    refine Run.bd (Bd.wr _ _ _ _) (fun b2 h2 => ?_)
    refine Run.bd (Bd.wr _ _ _ _) (fun b3 h3 => ?_)
    refine Run.bd (Bd.wr _ _ _ _) (fun b4 h4 => ?_)
    refine Run.bd (Bd.wr _ _ _ _) (fun b5 h5 => ?_)
    refine Run.bd (Bd.wr _ _ _ _) (fun b6 h6 => ?_)
    refine Run.bd (Bd.wr _ _ _ _) (fun b7 h7 => ?_)
    refine Run.ofBd (B := 0) (hp _).1 (fun c' hc' => ?_)
    obtain ⟨h8, h9⟩ := (hp _).2 c' hc'
    refine ⟨?_, h9⟩
    rw [h8]
    exact (wr_length h7).1.trans ((wr_length h6).1.trans ((wr_length h5).1.trans ((wr_length h4).1.trans ((wr_length h3).1.trans
      ((wr_length h2).1.trans ((wr_length h1).1.trans ((wr_length h0).1.trans he)))))))

theorem sha512Padding_run (c : ShaCtx 64) (b : Byte) (h : Fit 128 c) :
    Run (Tr.sha512Padding c b) (fun c => c.block.length = 128 ∧ c.index = 0) (fun _ => 0) 2216 := by
  have hp := sha512_proc
  unfold Tr.sha512Padding
  refine Run.mono (a := 1 + (1 + ((128 + 1035) + (1 + (1 + (1 + (1 + (1 + (1 + (1 + (1 + (1 + (1 + (1 + (1 + (1 + (1 + (1 + (1 +
    (1035 + 0)))))))))))))))))))) ?_ (by omega)
  refine Run.bd (Bd.wr _ _ _ _) (fun bl hbl => ?_)
  have hb := (wr_length hbl).1.trans h.1
  refine Run.bd (Bd.br _) (fun more _ => ?_)
  refine Run.seq (P := fun e : ShaCtx 64 => e.block.length = 128) (ψ := fun _ => (1 + (1 + (1 + (1 + (1 + (1 + (1 + (1 + (1 + (1 +
    (1 + (1 + (1 + (1 + (1 + (1 + (1035 + 0)))))))))))))))))) ?_ (fun e he => ?_)
  · cases more with
    | true =>
      rw [if_pos rfl]
      refine Run.mono (a := max 1 (List.replicate (128 - (c.index + 1)) 0#8).length + (1035 + 1051)) ?_ (by rw [List.length_replicate]; omega)
      refine Run.bd (Bd.wrs _ _ _ _) (fun b2 hb2 => ?_)
      exact Run.ofBd (hp _).1 (fun c' hc' => by rw [((hp _).2 c' hc').1]; exact (wrs_length hb2).1.trans hb) _
    | false =>
      rw [if_neg (by decide)]
      refine Run.mono (a := 1 + (112 + 1051)) ?_ (by omega)
      refine Run.bd (Bd.br _) (fun less _ => ?_)
      cases less with
      | true =>
        rw [if_pos rfl]
        refine Run.mono (a := max 1 (List.replicate (112 - (c.index + 1)) 0#8).length + 1051) ?_ (by rw [List.length_replicate]; omega)
        refine Run.bd (Bd.wrs _ _ _ _) (fun b2 hb2 => ?_)
        exact Run.ret (P := fun e : ShaCtx 64 => e.block.length = 128) (φ := fun _ => _) _ ((wrs_length hb2).1.trans hb)
      | false =>
        rw [if_neg (by decide)]
        exact Run.mono (Run.ret (P := fun e : ShaCtx 64 => e.block.length = 128) (φ := fun _ => _) _ hb) (by omega)
  · iterate 16
      refine Run.bd (Bd.wr _ _ _ _) (fun _ hw => ?_)
      replace he := (wr_length hw).1.trans he
      clear hw
    refine Run.ofBd (B := 0) (hp _).1 (fun c' hc' => ?_)
    obtain ⟨h8, h9⟩ := (hp _).2 c' hc'
    exact ⟨by rw [h8]; exact he, h9⟩

theorem sha1Digest_run (c : ShaCtx 32) (o : List Byte) (h : Fit 64 c) :
    Run (Tr.sha1Digest c o) (fun r => r.1.block.length = 64 ∧ r.1.index = 0) (fun _ => 0) 1681 := by
  unfold Tr.sha1Digest
  refine Run.mono (a := 2 * 741 + 74 + 125) ?_ (by omega)
  refine Run.seq (P := fun (c : ShaCtx 32) => c.block.length = 64 ∧ c.index = 0) (ψ := fun _ => 125) ?_ (fun c hc => ?_)
  · have r := shaPadding32_run sha1_proc c h
    exact ⟨Nat.le_trans r.1 (by omega), fun a ha => ⟨(r.2 a ha).1, Nat.add_le_add_right (r.2 a ha).2 125⟩⟩
  · refine Run.mono (a := max 1 (List.replicate c.block.length 0#8).length + (61 + 0)) ?_
      (by rw [List.length_replicate, hc.1]; omega)
    refine Run.bd (Bd.wrs _ _ _ _) (fun b hb => ?_)
    refine Run.bd (shaOutput32_bd 20 _ _) (fun b2 hb2 => ?_)
    exact Run.ret (P := fun (r : ShaCtx 32 × List Byte) => r.1.block.length = 64 ∧ r.1.index = 0) (φ := fun _ => 0) _
      ⟨(wrs_length hb).1.trans hc.1, hc.2⟩

theorem sha224n256Digest_run (n : Nat) (c : ShaCtx 32) (o : List Byte) (h : Fit 64 c) :
    Run (Tr.sha224n256Digest n c o) (fun r => r.1.block.length = 64 ∧ r.1.index = 0) (fun _ => 0) (1281 + 3 * n) := by
  unfold Tr.sha224n256Digest
  refine Run.mono (a := 2 * 603 + 74 + (3 * n + 1)) ?_ (by omega)
  refine Run.seq (P := fun (c : ShaCtx 32) => c.block.length = 64 ∧ c.index = 0) (ψ := fun _ => 3 * n + 1) ?_ (fun c hc => ?_)
  · have r := shaPadding32_run sha256_proc c h
    exact ⟨Nat.le_trans r.1 (by omega), fun a ha => ⟨(r.2 a ha).1, Nat.add_le_add_right (r.2 a ha).2 _⟩⟩
  · refine Run.mono (a := (3 * n + 1) + 0) ?_ (by omega)
    refine Run.bd (shaOutput32_bd n _ _) (fun b2 hb2 => ?_)
    exact Run.ret (P := fun (r : ShaCtx 32 × List Byte) => r.1.block.length = 64 ∧ r.1.index = 0) (φ := fun _ => 0) _ hc

theorem sha384n512Digest_run (n : Nat) (c : ShaCtx 64) (o : List Byte) (h : Fit 128 c) :
    Run (Tr.sha384n512Digest n c o) (fun r => r.1.block.length = 128 ∧ r.1.index = 0) (fun _ => 0) (2217 + 3 * n) := by
  unfold Tr.sha384n512Digest
  refine Run.mono (a := 2216 + (3 * n + 1)) ?_ (by omega)
  refine Run.seq (P := fun (c : ShaCtx 64) => c.block.length = 128 ∧ c.index = 0) (ψ := fun _ => 3 * n + 1) ?_ (fun c hc => ?_)
  · have r := sha512Padding_run c PADDING_HEADER h
    exact ⟨Nat.le_trans r.1 (by omega), fun a ha => ⟨(r.2 a ha).1, Nat.add_le_add_right (r.2 a ha).2 _⟩⟩
  · refine Run.mono (a := (3 * n + 1) + 0) ?_ (by omega)
    refine Run.bd (shaOutput64_bd n _ _) (fun b2 hb2 => ?_)
    exact Run.ret (P := fun (r : ShaCtx 64 × List Byte) => r.1.block.length = 128 ∧ r.1.index = 0) (φ := fun _ => 0) _ hc

end Pgfe.Proofs.Work
