import Verif.Proofs.WorkAll
import Verif.Spec.Fetch
/-!
# Reads of the input: the calculus, SHA, MD5
-/
namespace Pgfe.Proofs.Fetch
open Pgfe.Model Pgfe.Spec
open Pgfe.Proofs.Trace (res_bind)
open Pgfe.Proofs.Work (Fit KFit ok_pure br_ok res_last wr_length wrs_length)

theorem fetched_append (a : Arr) (l m : List Event) : fetched a (l ++ m) = fetched a l ++ fetched a m := by
  induction l with
  | nil => rfl
  | cons e l ih => cases e <;> simp [fetched, ih]

theorem stored_append (a : Arr) (l m : List Event) : stored a (l ++ m) = stored a l ++ stored a m := by
  induction l with
  | nil => rfl
  | cons e l ih => cases e <;> simp [stored, ih]

theorem bind_tr {α β : Type} (m : T α) (k : α → T β) :
    (∃ e, m.res = .error e ∧ (m >>= k).tr = m.tr ∧ (m >>= k).res = .error e) ∨
    (∃ a, m.res = .ok a ∧ (m >>= k).tr = m.tr ++ (k a).tr ∧ (m >>= k).res = (k a).res) := by
  show (∃ e, m.res = .error e ∧ (T.bind m k).tr = m.tr ∧ (T.bind m k).res = .error e) ∨
    (∃ a, m.res = .ok a ∧ (T.bind m k).tr = m.tr ++ (k a).tr ∧ (T.bind m k).res = (k a).res)
  unfold T.bind
  cases hm : m.res with
  | ok x => exact .inr ⟨x, rfl, rfl, rfl⟩
  | error e => exact .inl ⟨e, rfl, rfl, rfl⟩

/-- The array `b` is not touched. -/
def Quiet {α : Type} (b : Arr) (m : T α) : Prop := fetched b m.tr = [] ∧ stored b m.tr = []

namespace Quiet
variable {α β σ : Type} {b : Arr}

theorem ret (a : α) : Quiet b (pure a : T α) := ⟨rfl, rfl⟩
theorem fail (e : UB) : Quiet b (T.fail e : T α) := ⟨rfl, rfl⟩
theorem br (c : Bool) : Quiet b (T.br c) := ⟨rfl, rfl⟩
theorem sw (c : Nat) : Quiet b (T.sw c) := ⟨rfl, rfl⟩
theorem rd {a : Arr} (h : a ≠ b) (l : List α) (i : Nat) : Quiet b (T.rd a l i) := ⟨by simp [T.rd, fetched, h], rfl⟩
theorem rds {a : Arr} (h : a ≠ b) (l : List α) (i n : Nat) : Quiet b (T.rds a l i n) := ⟨by simp [T.rds, fetched, h], rfl⟩
theorem rd2 {a : Arr} (h : a ≠ b) (t : List (List α)) (i j c : Nat) : Quiet b (Tr.rd2 a t i j c) :=
  ⟨by simp [Tr.rd2, fetched, h], rfl⟩
theorem wr {a : Arr} (h : a ≠ b) (l : List α) (i : Nat) (v : α) : Quiet b (T.wr a l i v) := ⟨rfl, by simp [T.wr, stored, h]⟩
theorem wrs {a : Arr} (h : a ≠ b) (l : List α) (i : Nat) (s : List α) : Quiet b (T.wrs a l i s) := ⟨rfl, by simp [T.wrs, stored, h]⟩
theorem push {a : Arr} (h : a ≠ b) (l : List α) (v : α) : Quiet b (T.push a l v) := ⟨rfl, by simp [T.push, stored, h]⟩

theorem seq {m : T α} {k : α → T β} (h : Quiet b m) (g : ∀ x, m.res = .ok x → Quiet b (k x)) : Quiet b (m >>= k) := by
  rcases bind_tr m k with ⟨e, h1, h2, h3⟩ | ⟨x, h1, h2, h3⟩
  · unfold Quiet; rw [h2]; exact h
  · unfold Quiet
    rw [h2, fetched_append, stored_append, h.1, h.2, (g x h1).1, (g x h1).2]
    exact ⟨rfl, rfl⟩

theorem ite {p : Prop} [Decidable p] {m m' : T α} (h : Quiet b m) (h' : Quiet b m') : Quiet b (if p then m else m') := by
  split <;> assumption

theorem iter {f : Nat → σ → T σ} (h : ∀ i s, Quiet b (f i s)) : ∀ (n : Nat) (s : σ), Quiet b (T.iter n f s) := by
  intro n
  induction n with
  | zero => intro s; exact ret s
  | succ n ih => intro s; rw [T.iter]; exact seq (ih s) (fun x _ => h n x)

theorem forN {f : Nat → σ → T σ} (n : Nat) (s : σ) (h : ∀ i s, Quiet b (f i s)) : Quiet b (T.forN n f s) := by
  unfold T.forN
  exact seq (iter (fun i s => seq (br true) (fun _ _ => h i s)) n s) (fun x _ => seq (br false) (fun _ _ => ret x))

end Quiet

/-- An array of the caller. -/
def Foreign (b : Arr) : Prop := b = .input ∨ b = .key

theorem Foreign.ne {a b : Arr} (h : Foreign b) (ha : a ≠ .input ∧ a ≠ .key) : a ≠ b := by
  rcases h with rfl | rfl
  · exact ha.1
  · exact ha.2

/-- The two arrays are different. -/
macro "qne" : tactic => `(tactic| first | assumption | decide | exact Foreign.ne ‹Foreign _› (by decide))

/-- One step that does not touch the array. -/
macro "qt" : tactic => `(tactic| first
  | with_reducible refine Quiet.seq ?_ (fun _ _ => ?_)
  | with_reducible refine Quiet.ret _
  | with_reducible refine Quiet.fail _
  | with_reducible refine Quiet.br _
  | with_reducible refine Quiet.sw _
  | with_reducible refine Quiet.rd ?_ _ _
  | with_reducible refine Quiet.wr ?_ _ _ _
  | with_reducible refine Quiet.push ?_ _ _
  | with_reducible refine Quiet.rds ?_ _ _ _
  | with_reducible refine Quiet.wrs ?_ _ _ _
  | with_reducible refine Quiet.rd2 ?_ _ _ _ _
  | with_reducible refine Quiet.forN _ _ (fun _ _ => ?_)
  | with_reducible refine Quiet.iter (fun _ _ => ?_) _ _
  | with_reducible refine Quiet.ite ?_ ?_
  | qne)

/-- Reads of `.input` go on from `i`, in order, not beyond `L`; `P` of the result and of where they stop. -/
def Adv {α : Type} (L : Nat) (m : T α) (i : Nat) (P : α → Nat → Prop) : Prop :=
  stored .input m.tr = [] ∧ ∃ e, i ≤ e ∧ e ≤ L ∧ fetched .input m.tr = List.range' i (e - i) ∧ ∀ a, m.res = .ok a → P a e

namespace Adv
variable {α β σ : Type} {L i : Nat}

theorem quiet {m : T α} (h : Quiet .input m) (l : i ≤ L) : Adv L m i (fun a e => m.res = .ok a ∧ e = i) :=
  ⟨h.2, i, Nat.le_refl _, l, by rw [h.1, Nat.sub_self]; rfl, fun _ ha => ⟨ha, rfl⟩⟩

theorem seq {m : T α} {k : α → T β} {P : α → Nat → Prop} {Q : β → Nat → Prop} (h : Adv L m i P)
    (g : ∀ a e, e ≤ L → P a e → Adv L (k a) e Q) : Adv L (m >>= k) i Q := by
  obtain ⟨h1, e, h2, h3, h4, h5⟩ := h
  rcases bind_tr m k with ⟨er, b1, b2, b3⟩ | ⟨x, b1, b2, b3⟩
  · exact ⟨by rw [b2]; exact h1, e, h2, h3, by rw [b2]; exact h4, fun a ha => by rw [b3] at ha; cases ha⟩
  · obtain ⟨g1, e', g2, g3, g4, g5⟩ := g x e h3 (h5 x b1)
    refine ⟨by rw [b2, stored_append, h1, g1]; rfl, e', Nat.le_trans h2 g2, g3, ?_, fun a ha => g5 a (by rw [← b3]; exact ha)⟩
    rw [b2, fetched_append, h4, g4]
    have := List.range'_append_1 (s := i) (m := e - i) (n := e' - e)
    rw [show i + (e - i) = e by omega] at this
    rw [this]
    congr 1
    omega

theorem next {m : T α} {k : α → T β} {Q : β → Nat → Prop} (h : Quiet .input m) (l : i ≤ L)
    (g : ∀ a, m.res = .ok a → Adv L (k a) i Q) : Adv L (m >>= k) i Q :=
  seq (quiet h l) (fun a e _ ⟨h1, h2⟩ => by rw [h2]; exact g a h1)

theorem done {P : α → Nat → Prop} (a : α) (l : i ≤ L) (h : P a i) : Adv L (pure a : T α) i P :=
  ⟨rfl, i, Nat.le_refl _, l, by rw [Nat.sub_self]; rfl, fun x hx => by rw [← ok_pure hx]; exact h⟩

theorem fail {P : α → Nat → Prop} (e : UB) (l : i ≤ L) : Adv L (T.fail e : T α) i P :=
  ⟨rfl, i, Nat.le_refl _, l, by rw [Nat.sub_self]; rfl, fun _ hx => by cases hx⟩

theorem mono {m : T α} {P P' : α → Nat → Prop} (h : Adv L m i P) (g : ∀ a e, m.res = .ok a → P a e → P' a e) : Adv L m i P' := by
  obtain ⟨h1, e, h2, h3, h4, h5⟩ := h
  exact ⟨h1, e, h2, h3, h4, fun a ha => g a e ha (h5 a ha)⟩

theorem rds (x : List α) (n : Nat) (l : i + n ≤ L) : Adv L (T.rds .input x i n) i (fun a e => (T.rds .input x i n).res = .ok a ∧ e = i + n) := by
  refine ⟨rfl, i + n, by omega, l, ?_, fun _ ha => ⟨ha, rfl⟩⟩
  simp [T.rds, fetched]

theorem rd (x : List α) (l : i < L) : Adv L (T.rd .input x i) i (fun a e => (T.rd .input x i).res = .ok a ∧ e = i + 1) := by
  refine ⟨rfl, i + 1, by omega, l, ?_, fun _ ha => ⟨ha, rfl⟩⟩
  simp [T.rd, fetched]

theorem iter {f : Nat → σ → T σ} {I : Nat → σ → Nat → Prop} (n : Nat)
    (h : ∀ j s e, j < n → e ≤ L → I j s e → Adv L (f j s) e (I (j + 1))) :
    ∀ (s : σ), i ≤ L → I 0 s i → Adv L (T.iter n f s) i (I n) := by
  have : ∀ k, k ≤ n → ∀ s, i ≤ L → I 0 s i → Adv L (T.iter k f s) i (I k) := by
    intro k
    induction k with
    | zero => intro _ s l h0; exact done s l h0
    | succ k ih =>
      intro hk s l h0
      rw [T.iter]
      exact seq (ih (by omega) s l h0) (fun s' e le hs' => h k s' e (by omega) le hs')
  exact this n (Nat.le_refl _)

theorem forN {f : Nat → σ → T σ} {I : Nat → σ → Nat → Prop} (n : Nat)
    (h : ∀ j s e, j < n → e ≤ L → I j s e → Adv L (f j s) e (I (j + 1)))
    (s : σ) (l : i ≤ L) (h0 : I 0 s i) : Adv L (T.forN n f s) i (I n) := by
  unfold T.forN
  refine seq (iter n (I := I) (fun j s e hj le hI => next (Quiet.br _) le (fun _ _ => h j s e hj le hI)) s l h0) (fun s' e le hs' => ?_)
  exact next (Quiet.br _) le (fun _ _ => done _ le hs')

end Adv

/-! ## SHA -/
section
variable {b : Arr} (hb : Foreign b)
include hb

theorem wordBE32_q (l : List Byte) (i : Nat) : Quiet b (Tr.wordBE32 l i) := by
  unfold Tr.wordBE32
  repeat qt
theorem addAt_q {w : Nat} (s : List (BitVec w)) (j : Nat) (v : BitVec w) : Quiet b (Tr.addAt s j v) := by
  unfold Tr.addAt
  repeat qt
theorem sha1Step_q (f : W32 → W32 → W32 → W32) (k : Nat) (ws : List W32) (i : Nat) (r : Reg5) :
    Quiet b (Tr.sha1Step f k ws i r) := by
  unfold Tr.sha1Step
  repeat qt
theorem sha1Ws_q (l : List Byte) : Quiet b (Tr.sha1Ws l) := by
  unfold Tr.sha1Ws
  repeat first | with_reducible exact wordBE32_q hb _ _ | qt
theorem sha1Rounds_q (ws : List W32) (r : Reg5) : Quiet b (Tr.sha1Rounds ws r) := by
  unfold Tr.sha1Rounds
  repeat first | with_reducible exact sha1Step_q hb _ _ _ _ _ | qt
theorem sha1ProcessBlock_q (c : ShaCtx 32) : Quiet b (Tr.sha1ProcessBlock c) := by
  unfold Tr.sha1ProcessBlock
  repeat first | with_reducible exact sha1Ws_q hb _ | with_reducible exact sha1Rounds_q hb _ _ | with_reducible exact addAt_q hb _ _ _ | qt
theorem sha256Ws_q (l : List Byte) : Quiet b (Tr.sha256Ws l) := by
  unfold Tr.sha256Ws
  repeat first | with_reducible exact wordBE32_q hb _ _ | qt
theorem sha256Step_q (ws : List W32) (i : Nat) (r : Reg8 32) : Quiet b (Tr.sha256Step ws i r) := by
  unfold Tr.sha256Step
  repeat qt
theorem loadReg8_q {w : Nat} (s : List (BitVec w)) : Quiet b (Tr.loadReg8 s) := by
  unfold Tr.loadReg8
  repeat qt
theorem addReg8_q {w : Nat} (s : List (BitVec w)) (r : Reg8 w) : Quiet b (Tr.addReg8 s r) := by
  unfold Tr.addReg8
  repeat first | with_reducible exact addAt_q hb _ _ _ | qt
theorem sha256ProcessBlock_q (c : ShaCtx 32) : Quiet b (Tr.sha256ProcessBlock c) := by
  unfold Tr.sha256ProcessBlock
  repeat first | with_reducible exact sha256Ws_q hb _ | with_reducible exact loadReg8_q hb _ | with_reducible exact addReg8_q hb _ _ | with_reducible exact sha256Step_q hb _ _ _ | qt
theorem wordBE64_q (l : List Byte) (i : Nat) : Quiet b (Tr.wordBE64 l i) := by
  unfold Tr.wordBE64
  repeat qt
theorem sha512Ws_q (l : List Byte) : Quiet b (Tr.sha512Ws l) := by
  unfold Tr.sha512Ws
  repeat first | with_reducible exact wordBE64_q hb _ _ | qt
theorem sha512Step_q (ws : List W64) (i : Nat) (r : Reg8 64) : Quiet b (Tr.sha512Step ws i r) := by
  unfold Tr.sha512Step
  repeat qt
theorem sha512ProcessBlock_q (c : ShaCtx 64) : Quiet b (Tr.sha512ProcessBlock c) := by
  unfold Tr.sha512ProcessBlock
  repeat first | with_reducible exact sha512Ws_q hb _ | with_reducible exact loadReg8_q hb _ | with_reducible exact addReg8_q hb _ _ | with_reducible exact sha512Step_q hb _ _ _ | qt
end

/-- A block function does not touch the arrays of the caller and keeps the length. -/
def Inner {w : Nat} (p : ShaCtx w → T (ShaCtx w)) : Prop :=
  ∀ c, (∀ b, Foreign b → Quiet b (p c)) ∧ ∀ c', (p c).res = .ok c' → c'.lenLow = c.lenLow ∧ c'.lenHigh = c.lenHigh

theorem sha1_inner : Inner Tr.sha1ProcessBlock := by
  refine fun c => ⟨fun _ hb => sha1ProcessBlock_q hb c, fun c' h => ?_⟩
  unfold Tr.sha1ProcessBlock at h
  iterate 12 obtain ⟨_, _, h⟩ := res_last h
  rw [← ok_pure h]
  exact ⟨rfl, rfl⟩
theorem sha256_inner : Inner Tr.sha256ProcessBlock := by
  refine fun c => ⟨fun _ hb => sha256ProcessBlock_q hb c, fun c' h => ?_⟩
  unfold Tr.sha256ProcessBlock at h
  iterate 4 obtain ⟨_, _, h⟩ := res_last h
  rw [← ok_pure h]
  exact ⟨rfl, rfl⟩
theorem sha512_inner : Inner Tr.sha512ProcessBlock := by
  refine fun c => ⟨fun _ hb => sha512ProcessBlock_q hb c, fun c' h => ?_⟩
  unfold Tr.sha512ProcessBlock at h
  iterate 4 obtain ⟨_, _, h⟩ := res_last h
  rw [← ok_pure h]
  exact ⟨rfl, rfl⟩

/-- The bit count. -/
def bitCount {w : Nat} (c : ShaCtx w) : Nat := c.lenHigh.toNat * 2 ^ w + c.lenLow.toNat

section
variable {w : Nat} {p : ShaCtx w → T (ShaCtx w)} {bs : Nat} (hp : Inner p)
include hp

theorem shaUpdateBody_key (x : List Byte) (i : Nat) (s : ShaCtx w × Bool) : Quiet .key (Tr.shaUpdateBody p bs x i s) := by
  obtain ⟨c, b⟩ := s
  have hq : ∀ c, Quiet .key (p c) := fun c => (hp c).1 _ (.inr rfl)
  cases b with
  | true => exact Quiet.ret _
  | false =>
    unfold Tr.shaUpdateBody
    repeat first | with_reducible exact hq _ | qt

theorem shaUpdate_key (c : ShaCtx w) (x : List Byte) (n : Nat) : Quiet .key (Tr.shaUpdate p bs c (some x) n) := by
  unfold Tr.shaUpdate
  dsimp only
  repeat first | with_reducible exact shaUpdateBody_key hp _ _ _ | qt

/-- What holds after `j` bytes: unless the counter has overflowed all of them are read; and it has not, when there is room. -/
def After (n N j : Nat) (s : ShaCtx w × Bool) (e : Nat) : Prop :=
  e ≤ j ∧ (s.2 = false → e = j) ∧ (N + 8 * n < 2 ^ (2 * w) → s.2 = false ∧ bitCount s.1 = N + 8 * j)

theorem shaUpdateBody_adv (hw : 8 ≤ w) (x : List Byte) (N i e : Nat) (s : ShaCtx w × Bool) (hi : i < x.length) (le : e ≤ x.length)
    (h : After x.length N i s e) : Adv x.length (Tr.shaUpdateBody p bs x i s) e (After x.length N (i + 1)) := by
  obtain ⟨c, b⟩ := s
  obtain ⟨h1, h2, h3⟩ := h
  cases b with
  | true =>
    refine Adv.done _ le ⟨by omega, fun h => ?_, fun h => ?_⟩
    · cases h
    · have := (h3 h).1; cases this
  | false =>
    have he : e = i := h2 rfl
    subst he
    unfold Tr.shaUpdateBody
    refine Adv.next (Quiet.br _) le (fun _ _ => ?_)
    refine Adv.seq (Adv.rd x hi) (fun v e' le' ⟨_, he'⟩ => ?_)
    subst he'
    refine Adv.next (Quiet.wr (by decide) _ _ _) le' (fun bl _ => ?_)
    refine Adv.next (Quiet.br _) le' (fun carry hcarry => ?_)
    have hcarry := br_ok hcarry
    dsimp only at hcarry
    refine Adv.next (Quiet.br _) le' (fun corrupt hcor => ?_)
    have hcor := br_ok hcor
    refine Adv.next (Quiet.br _) le' (fun full _ => ?_)
    have hc : ∀ d : ShaCtx w, d.lenLow = c.lenLow + 8#w → d.lenHigh = (if c.lenLow + 8#w < c.lenLow then c.lenHigh + 1#w else c.lenHigh) →
        corrupt = (carry && d.lenHigh == 0#w) →
        Adv x.length (do
          let ctx ← (if full then p d else pure d)
          if e + 1 < 2 ^ 31 then pure (ctx, corrupt) else T.fail .intOverflow) (e + 1) (After x.length N (e + 1)) := by
      intro d hlo hhi hco
      have hend : ∀ ctx : ShaCtx w, ctx.lenLow = d.lenLow → ctx.lenHigh = d.lenHigh →
          Adv x.length (if e + 1 < 2 ^ 31 then pure (ctx, corrupt) else T.fail .intOverflow) (e + 1) (After x.length N (e + 1)) := by
        intro ctx k1 k2
        split
        · refine Adv.done _ le' ⟨Nat.le_refl _, fun _ => rfl, fun hr => ?_⟩
          obtain ⟨_, h4⟩ := h3 hr
          unfold bitCount at h4 ⊢
          dsimp only at h4 ⊢
          obtain ⟨c1, c2⟩ := Pgfe.Proofs.Sha.Fam.count_ok hw c.lenLow c.lenHigh (by omega)
          refine ⟨?_, ?_⟩
          · rw [hco, hcarry, hhi]
            by_cases hlt : c.lenLow + 8#w < c.lenLow
            · have hne : ¬ (if c.lenLow + 8#w < c.lenLow then c.lenHigh + 1#w else c.lenHigh) = 0#w := fun e => c2 ⟨hlt, e⟩
              simp [hlt] at hne ⊢
              exact hne
            · simp [hlt]
          · rw [k1, k2, hlo, hhi]
            omega
        · exact Adv.fail _ le'
      cases full with
      | true =>
        rw [if_pos rfl]
        exact Adv.next ((hp d).1 _ (.inl rfl)) le' (fun ctx hctx => hend ctx ((hp d).2 ctx hctx).1 ((hp d).2 ctx hctx).2)
      | false =>
        rw [if_neg (by decide)]
        exact Adv.next (Quiet.ret _) le' (fun ctx hctx => by rw [← ok_pure hctx]; exact hend d rfl rfl)
    refine hc _ ?_ ?_ ?_
    · cases carry <;> rfl
    · subst hcarry
      by_cases hlt : c.lenLow + 8#w < c.lenLow
      · simp [hlt]
      · simp [hlt]
    · rw [hcor]

theorem shaUpdate_adv (hw : 8 ≤ w) (c : ShaCtx w) (x : List Byte) :
    Adv x.length (Tr.shaUpdate p bs c (some x) x.length) 0
      (fun c' e => bitCount c + 8 * x.length < 2 ^ (2 * w) → e = x.length ∧ bitCount c' = bitCount c + 8 * x.length) := by
  unfold Tr.shaUpdate
  dsimp only
  refine Adv.next (Quiet.br _) (Nat.zero_le _) (fun _ _ => ?_)
  refine Adv.seq (Adv.iter (I := After x.length (bitCount c)) x.length (fun j s e hj le hI => shaUpdateBody_adv hp hw x _ j e s hj le hI)
    (c, false) (Nat.zero_le _) ⟨Nat.le_refl _, fun _ => rfl, fun _ => ⟨rfl, rfl⟩⟩) (fun s e le ⟨h1, h2, h3⟩ => ?_)
  refine Adv.next (Quiet.br _) le (fun _ _ => Adv.done _ le (fun hr => ?_))
  obtain ⟨h4, h5⟩ := h3 hr
  exact ⟨h2 h4, h5⟩
end

/-! ## MD5 -/
section
variable {b : Arr} (hb : Foreign b)
include hb

theorem md5Step_q (x : List W32) (r i : Nat) (buf : List W32) : Quiet b (Tr.md5Step x r i buf) := by
  unfold Tr.md5Step
  iterate 9 refine Quiet.seq (by qt <;> qne) (fun _ _ => ?_)
  split <;> (repeat qt)
theorem md5Decode_q (l : List Byte) (n : Nat) : Quiet b (Tr.md5Decode l n) := by
  unfold Tr.md5Decode
  repeat qt
theorem md5Transform_q (s : List W32) (l : List Byte) : Quiet b (Tr.md5Transform s l) := by
  unfold Tr.md5Transform
  repeat first | with_reducible exact md5Decode_q hb _ _ | with_reducible exact md5Step_q hb _ _ _ _ | with_reducible exact addAt_q hb _ _ _ | qt
end

theorem md5Loop_key (x : List Byte) (length : Nat) : ∀ (k : Nat) (c : Md5Ctx) (rl : Nat) (l : Option (Nat × Nat)),
    length - rl = k → Quiet .key (Tr.md5Loop x length c rl l) := by
  intro k
  induction k using Nat.strongRecOn with
  | _ k ih =>
    intro c rl l hk
    have ho := md5Offset_lt c
    rw [Tr.md5Loop]
    refine Quiet.seq (Quiet.br _) (fun _ _ => ?_)
    split
    · refine Quiet.seq (Quiet.br _) (fun _ _ => ?_)
      split
      · exact Quiet.ret _
      · refine Quiet.seq (Quiet.rds (by decide) _ _ _) (fun _ _ => ?_)
        refine Quiet.seq (Quiet.wrs (by decide) _ _ _) (fun _ _ => ?_)
        refine Quiet.seq (md5Transform_q (.inr rfl) _ _) (fun _ _ => ?_)
        exact ih _ (by omega) _ _ _ rfl
    · exact Quiet.ret _

theorem md5Update_key (c : Md5Ctx) (x : List Byte) (n : Nat) : Quiet .key (Tr.md5Update c (some x) n) := by
  unfold Tr.md5Update
  dsimp only
  refine Quiet.seq (Quiet.br _) (fun _ _ => ?_)
  refine Quiet.seq (md5Loop_key x n _ c 0 none rfl) (fun r _ => ?_)
  unfold Tr.md5Finish
  split
  · exact Quiet.fail _
  · dsimp only
    have hk : Foreign .key := .inr rfl
    repeat first | with_reducible exact md5Transform_q hk _ _ | qt

theorem md5Loop_adv (x : List Byte) (length : Nat) : ∀ (k : Nat) (c : Md5Ctx) (rl : Nat) (l : Option (Nat × Nat)),
    length - rl = k → rl ≤ length → Adv length (Tr.md5Loop x length c rl l) rl (fun r e => e = r.2.1) := by
  intro k
  induction k using Nat.strongRecOn with
  | _ k ih =>
    intro c rl l hk hle
    have ho := md5Offset_lt c
    rw [Tr.md5Loop]
    refine Adv.next (Quiet.br _) hle (fun _ _ => ?_)
    split
    · refine Adv.next (Quiet.br _) hle (fun _ _ => ?_)
      split
      · exact Adv.done _ hle rfl
      · refine Adv.seq (Adv.rds x _ (by omega)) (fun src e le ⟨_, he⟩ => ?_)
        subst he
        refine Adv.next (Quiet.wrs (by decide) _ _ _) le (fun _ _ => ?_)
        refine Adv.next (md5Transform_q (.inl rfl) _ _) le (fun _ _ => ?_)
        exact ih _ (by omega) _ _ _ rfl le
    · exact Adv.done _ hle rfl

theorem md5Finish_adv (x : List Byte) (length : Nat) (c : Md5Ctx) (rl : Nat) (l : Option (Nat × Nat)) (hle : rl ≤ length) :
    Adv length (Tr.md5Finish x length c rl l) rl (fun _ e => e = length) := by
  cases l with
  | none => exact Adv.fail _ hle
  | some l =>
    obtain ⟨off, rem⟩ := l
    unfold Tr.md5Finish
    dsimp only
    refine Adv.next (Quiet.br _) hle (fun some_ hsome => ?_)
    have hsome := br_ok hsome
    refine Adv.seq (P := fun _ e => e = length) ?_ (fun r e le he => ?_)
    · by_cases hw : length - rl = 0
      · have : some_ = false := by rw [hsome]; simp [hw]
        subst this
        rw [if_neg (by decide)]
        exact Adv.done _ hle (by omega)
      · have : some_ = true := by rw [hsome]; simp [hw]
        subst this
        rw [if_pos rfl]
        refine Adv.seq (Adv.rds x _ (by omega)) (fun src e le ⟨_, he⟩ => ?_)
        refine Adv.next (Quiet.wrs (by decide) _ _ _) le (fun _ _ => ?_)
        exact Adv.done _ le (by omega)
    · refine Adv.next (Quiet.br _) le (fun full _ => ?_)
      cases full with
      | true =>
        rw [if_pos rfl]
        exact Adv.next (md5Transform_q (.inl rfl) _ _) le (fun _ _ => Adv.done _ le he)
      | false =>
        rw [if_neg (by decide)]
        exact Adv.done _ le he

theorem md5Update_adv (c : Md5Ctx) (x : List Byte) :
    Adv x.length (Tr.md5Update c (some x) x.length) 0 (fun _ e => e = x.length) := by
  unfold Tr.md5Update
  dsimp only
  refine Adv.next (Quiet.br _) (Nat.zero_le _) (fun _ _ => ?_)
  refine Adv.seq (md5Loop_adv x x.length _ c 0 none rfl (Nat.zero_le _)) (fun r e le he => ?_)
  subst he
  exact md5Finish_adv x x.length _ _ _ le

end Pgfe.Proofs.Fetch
