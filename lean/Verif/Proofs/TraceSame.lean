import Verif.Proofs.TraceErase
/-!
# Two runs with the same trace
-/
namespace Pgfe.Proofs.Trace
open Pgfe.Model

/-- Related outcomes. -/
def Out {α β : Type} (R : α → β → Prop) : C α → C β → Prop
  | .ok a, .ok b => R a b
  | .error e, .error e' => e = e'
  | _, _ => False

/-- The same trace, and related outcomes. -/
structure Same {α β : Type} (R : α → β → Prop) (m : T α) (m' : T β) : Prop where
  tr : m.tr = m'.tr
  res : Out R m.res m'.res

/-- Two arrays of the same size. -/
def L {α β : Type} (x : List α) (y : List β) : Prop := x.length = y.length
/-- Anything. -/
def Any {α β : Type} (_ : α) (_ : β) : Prop := True

namespace Same
variable {α β γ δ : Type}

theorem ret {R : α → β → Prop} {a : α} {b : β} (h : R a b) : Same R (pure a) (pure b) := ⟨rfl, h⟩

theorem fail {R : α → β → Prop} (e : UB) : Same R (T.fail e) (T.fail e) := ⟨rfl, rfl⟩

theorem seq {R : α → β → Prop} {S : γ → δ → Prop} {m : T α} {m' : T β} {f : α → T γ} {f' : β → T δ}
    (h : Same R m m') (k : ∀ a b, R a b → Same S (f a) (f' b)) : Same S (m >>= f) (m' >>= f') := by
  obtain ⟨ht, hr⟩ := h
  show Same S (T.bind m f) (T.bind m' f')
  unfold T.bind
  cases hm : m.res with
  | ok a =>
    cases hm' : m'.res with
    | ok b =>
      rw [hm, hm'] at hr
      obtain ⟨kt, kr⟩ := k a b hr
      exact ⟨by show m.tr ++ _ = m'.tr ++ _; rw [ht, kt], kr⟩
    | error e => rw [hm, hm'] at hr; exact absurd hr id
  | error e =>
    cases hm' : m'.res with
    | ok b => rw [hm, hm'] at hr; exact absurd hr id
    | error e' => rw [hm, hm'] at hr; exact ⟨ht, hr⟩

theorem mono {R S : α → β → Prop} {m : T α} {m' : T β} (h : Same R m m') (k : ∀ a b, R a b → S a b) : Same S m m' := by
  obtain ⟨ht, hr⟩ := h
  refine ⟨ht, ?_⟩
  cases hm : m.res <;> cases hm' : m'.res <;> rw [hm, hm'] at hr
  · exact hr
  · exact hr
  · exact hr
  · exact k _ _ hr

theorem refl (m : T α) : Same Eq m m := by
  refine ⟨rfl, ?_⟩
  cases m.res <;> exact rfl

theorem rd (a : Arr) {b : List α} {b' : List β} (i : Nat) (h : L b b') : Same Any (T.rd a b i) (T.rd a b' i) := by
  refine ⟨rfl, ?_⟩
  show Out Any (Pgfe.rd b i) (Pgfe.rd b' i)
  unfold L at h
  by_cases hi : i < b.length
  · rw [rd_ok hi, rd_ok (h ▸ hi)]; trivial
  · unfold Pgfe.rd
    rw [List.getElem?_eq_none (by omega), List.getElem?_eq_none (by omega)]; rfl

theorem wr (a : Arr) {b : List α} {b' : List β} (i : Nat) (v : α) (v' : β) (h : L b b') :
    Same L (T.wr a b i v) (T.wr a b' i v') := by
  refine ⟨rfl, ?_⟩
  show Out L (Pgfe.wr b i v) (Pgfe.wr b' i v')
  unfold L at h
  unfold Pgfe.wr
  by_cases hi : i < b.length
  · rw [if_pos hi, if_pos (h ▸ hi)]
    show (b.set i v).length = (b'.set i v').length
    rw [List.length_set, List.length_set, h]
  · rw [if_neg hi, if_neg (h ▸ hi)]; rfl

theorem rds (a : Arr) {b : List α} {b' : List β} (i n : Nat) (h : L b b') : Same L (T.rds a b i n) (T.rds a b' i n) := by
  refine ⟨rfl, ?_⟩
  show Out L (Pgfe.rds b i n) (Pgfe.rds b' i n)
  unfold L at h
  unfold Pgfe.rds
  by_cases hi : i + n ≤ b.length
  · rw [if_pos hi, if_pos (h ▸ hi)]
    show ((b.drop i).take n).length = ((b'.drop i).take n).length
    rw [List.length_take, List.length_take, List.length_drop, List.length_drop, h]
  · rw [if_neg hi, if_neg (h ▸ hi)]; rfl

theorem wrs (a : Arr) {b s : List α} {b' s' : List β} (i : Nat) (h : L b b') (hs : L s s') :
    Same L (T.wrs a b i s) (T.wrs a b' i s') := by
  unfold L at h hs
  refine ⟨by show [Event.wr a i s.length] = [Event.wr a i s'.length]; rw [hs], ?_⟩
  show Out L (Pgfe.wrs b i s) (Pgfe.wrs b' i s')
  by_cases hi : i + s.length ≤ b.length
  · rw [wrs_ok hi, wrs_ok (by omega)]
    show (splice b i s).length = (splice b' i s').length
    unfold splice
    simp only [List.length_append, List.length_take, List.length_drop]
    omega
  · unfold Pgfe.wrs
    rw [if_neg hi, if_neg (by omega)]; rfl

theorem push (a : Arr) {b : List α} {b' : List β} (v : α) (v' : β) (h : L b b') :
    Same L (T.push a b v) (T.push a b' v') := by
  unfold L at h
  refine ⟨by show [Event.wr a b.length 1] = [Event.wr a b'.length 1]; rw [h], ?_⟩
  show (b ++ [v]).length = (b' ++ [v']).length
  rw [List.length_append, List.length_append, h]; rfl

theorem br {S : γ → δ → Prop} {c c' : Bool} (h : c = c') {f : Bool → T γ} {f' : Bool → T δ}
    (k : Same S (f c) (f' c)) : Same S (T.br c >>= f) (T.br c' >>= f') := by
  subst h
  exact seq (R := fun a b => a = c ∧ b = c) ⟨rfl, ⟨rfl, rfl⟩⟩ (fun a b h => by rw [h.1, h.2]; exact k)

theorem iter {R : α → β → Prop} {f : Nat → α → T α} {f' : Nat → β → T β} (n : Nat) {s : α} {s' : β} (h : R s s')
    (k : ∀ i a b, R a b → Same R (f i a) (f' i b)) : Same R (T.iter n f s) (T.iter n f' s') := by
  induction n with
  | zero => exact ret h
  | succ n ih => exact seq ih (fun a b hab => k n a b hab)

theorem forN {R : α → β → Prop} {f : Nat → α → T α} {f' : Nat → β → T β} (n : Nat) {s : α} {s' : β} (h : R s s')
    (k : ∀ i a b, R a b → Same R (f i a) (f' i b)) : Same R (T.forN n f s) (T.forN n f' s') := by
  unfold T.forN
  refine seq (iter n h (fun i a b hab => br rfl (k i a b hab))) (fun a b hab => br rfl (ret hab))

end Same

/-- Read an element of an array and go on. -/
macro "rd!" h:term : tactic => `(tactic| refine Same.seq (Same.rd _ _ $h) (fun _ _ _ => ?_))

/-! ## SHA -/

/-- The contexts differ at most in the contents of `state` and `block`. -/
structure ShaLike {w : Nat} (c c' : ShaCtx w) : Prop where
  state : L c.state c'.state
  block : L c.block c'.block
  low : c.lenLow = c'.lenLow
  high : c.lenHigh = c'.lenHigh
  index : c.index = c'.index

theorem shaInit_same {w : Nat} (h0 : List (BitVec w)) {c c' : ShaCtx w} (hs : L c.state c'.state)
    (hb : L c.block c'.block) : Same ShaLike (Tr.shaInit h0 c) (Tr.shaInit h0 c') :=
  Same.seq (Same.wrs _ _ hs rfl) (fun _ _ h => Same.ret ⟨h, hb, rfl, rfl, rfl⟩)

/-- A block function whose trace does not depend on the data. -/
def ProcOK {w : Nat} (p : ShaCtx w → T (ShaCtx w)) : Prop :=
  ∀ c c', ShaLike c c' → Same ShaLike (p c) (p c')

theorem shaTail_same {w : Nat} {p : ShaCtx w → T (ShaCtx w)} (hp : ProcOK p) (bs i : Nat) (d : Bool) {c c' : ShaCtx w}
    (h : ShaLike c c') :
    Same (fun (s s' : ShaCtx w × Bool) => ShaLike s.1 s'.1 ∧ s.2 = s'.2)
      (do
        let corrupt ← T.br (d && c.lenHigh == 0#w)
        let full ← T.br (!corrupt && c.index == bs)
        let ctx ← (if full then p c else pure c)
        if i + 1 < 2 ^ 31 then pure (ctx, corrupt) else T.fail .intOverflow)
      (do
        let corrupt ← T.br (d && c'.lenHigh == 0#w)
        let full ← T.br (!corrupt && c'.index == bs)
        let ctx ← (if full then p c' else pure c')
        if i + 1 < 2 ^ 31 then pure (ctx, corrupt) else T.fail .intOverflow) := by
  refine Same.br (by rw [h.high]) (Same.br (by rw [h.high, h.index]) ?_)
  refine Same.seq (R := ShaLike) ?_ (fun e e' he => ?_)
  · split
    · exact hp _ _ h
    · exact Same.ret h
  · split
    · exact Same.ret ⟨he, rfl⟩
    · exact Same.fail _

theorem shaUpdateBody_same {w : Nat} {p : ShaCtx w → T (ShaCtx w)} (hp : ProcOK p) (bs : Nat) {x x' : List Byte}
    (hx : L x x') (i : Nat) (s s' : ShaCtx w × Bool) (h : ShaLike s.1 s'.1 ∧ s.2 = s'.2) :
    Same (fun s s' => ShaLike s.1 s'.1 ∧ s.2 = s'.2) (Tr.shaUpdateBody p bs x i s) (Tr.shaUpdateBody p bs x' i s') := by
  obtain ⟨c, b⟩ := s
  obtain ⟨c', b'⟩ := s'
  obtain ⟨h, hb⟩ := h
  dsimp only at h hb
  subst hb
  obtain ⟨st, lo, hi, ix, bl⟩ := c
  obtain ⟨st', lo', hi', ix', bl'⟩ := c'
  obtain ⟨hs, hbl, h1, h2, h3⟩ := h
  dsimp only at hs hbl h1 h2 h3
  subst h1 h2 h3
  cases b with
  | true => exact Same.ret ⟨⟨hs, hbl, rfl, rfl, rfl⟩, rfl⟩
  | false =>
    simp only [Tr.shaUpdateBody]
    refine Same.br rfl ?_
    rd! hx
    refine Same.seq (Same.wr _ _ _ _ hbl) (fun _ _ hbl => ?_)
    refine Same.br rfl ?_
    exact shaTail_same hp bs i _ (by split <;> exact ⟨hs, hbl, rfl, rfl, rfl⟩)

theorem shaUpdate_same {w : Nat} {p : ShaCtx w → T (ShaCtx w)} (hp : ProcOK p) (bs n : Nat) {x x' : List Byte}
    (hx : L x x') {c c' : ShaCtx w} (h : ShaLike c c') :
    Same ShaLike (Tr.shaUpdate p bs c (some x) n) (Tr.shaUpdate p bs c' (some x') n) := by
  simp only [Tr.shaUpdate]
  refine Same.br rfl (Same.seq (Same.iter n ⟨h, rfl⟩ (fun i s s' hs => shaUpdateBody_same hp bs hx i s s' hs))
    (fun s s' hs => Same.br rfl (Same.ret hs.1)))

theorem shaOutput32_same (n : Nat) {s s' : List W32} {o o' : List Byte} (hs : L s s') (ho : L o o') :
    Same L (Tr.shaOutput32 n s o) (Tr.shaOutput32 n s' o') := by
  unfold Tr.shaOutput32
  refine Same.forN n ho (fun i a b hab => ?_)
  rd! hs
  exact Same.wr _ _ _ _ hab

theorem shaOutput64_same (n : Nat) {s s' : List W64} {o o' : List Byte} (hs : L s s') (ho : L o o') :
    Same L (Tr.shaOutput64 n s o) (Tr.shaOutput64 n s' o') := by
  unfold Tr.shaOutput64
  refine Same.forN n ho (fun i a b hab => ?_)
  rd! hs
  exact Same.wr _ _ _ _ hab

theorem wordBE32_same {b b' : List Byte} (h : L b b') (i : Nat) : Same Any (Tr.wordBE32 b i) (Tr.wordBE32 b' i) := by
  unfold Tr.wordBE32
  rd! h
  rd! h
  rd! h
  rd! h
  exact Same.ret trivial

theorem wordBE64_same {b b' : List Byte} (h : L b b') (i : Nat) : Same Any (Tr.wordBE64 b i) (Tr.wordBE64 b' i) := by
  unfold Tr.wordBE64
  refine Same.forN 8 trivial (fun j _ _ _ => ?_)
  rd! h
  exact Same.ret trivial

theorem addAt_same {w : Nat} {s s' : List (BitVec w)} (h : L s s') (j : Nat) (v v' : BitVec w) :
    Same L (Tr.addAt s j v) (Tr.addAt s' j v') := by
  unfold Tr.addAt
  rd! h
  exact Same.wr _ _ _ _ h

theorem sha1Step_same (f : W32 → W32 → W32 → W32) (k : Nat) {ws ws' : List W32} (h : L ws ws') (i : Nat) (r r' : Reg5) :
    Same Any (Tr.sha1Step f k ws i r) (Tr.sha1Step f k ws' i r') := by
  unfold Tr.sha1Step
  rd! h
  rd! rfl
  exact Same.ret trivial

theorem sha1Ws_same {b b' : List Byte} (h : L b b') : Same L (Tr.sha1Ws b) (Tr.sha1Ws b') := by
  unfold Tr.sha1Ws
  refine Same.seq (Same.forN 16 (R := L) rfl (fun i s s' hs => ?_)) (fun ws ws' hw => Same.forN 64 hw (fun i s s' hs => ?_))
  · exact Same.seq (wordBE32_same h _) (fun _ _ _ => Same.push _ _ _ hs)
  · rd! hs
    rd! hs
    rd! hs
    rd! hs
    exact Same.push _ _ _ hs

theorem sha1Rounds_same {ws ws' : List W32} (h : L ws ws') (r r' : Reg5) :
    Same Any (Tr.sha1Rounds ws r) (Tr.sha1Rounds ws' r') := by
  unfold Tr.sha1Rounds
  refine Same.seq (Same.forN 20 (R := Any) trivial (fun i s s' _ => sha1Step_same _ _ h _ _ _)) (fun _ _ _ => ?_)
  refine Same.seq (Same.forN 20 (R := Any) trivial (fun i s s' _ => sha1Step_same _ _ h _ _ _)) (fun _ _ _ => ?_)
  refine Same.seq (Same.forN 20 (R := Any) trivial (fun i s s' _ => sha1Step_same _ _ h _ _ _)) (fun _ _ _ => ?_)
  exact Same.forN 20 (R := Any) trivial (fun i s s' _ => sha1Step_same _ _ h _ _ _)

theorem sha1ProcessBlock_same : ProcOK Tr.sha1ProcessBlock := by
  intro c c' h
  unfold Tr.sha1ProcessBlock
  refine Same.seq (sha1Ws_same h.block) (fun ws ws' hw => ?_)
  rd! h.state
  rd! h.state
  rd! h.state
  rd! h.state
  rd! h.state
  refine Same.seq (sha1Rounds_same hw _ _) (fun r r' _ => ?_)
  refine Same.seq (addAt_same h.state _ _ _) (fun s s' hs => ?_)
  refine Same.seq (addAt_same hs _ _ _) (fun s s' hs => ?_)
  refine Same.seq (addAt_same hs _ _ _) (fun s s' hs => ?_)
  refine Same.seq (addAt_same hs _ _ _) (fun s s' hs => ?_)
  refine Same.seq (addAt_same hs _ _ _) (fun s s' hs => ?_)
  exact Same.ret ⟨hs, h.block, h.low, h.high, rfl⟩

/-- The eight or sixteen length bytes. -/
macro "wr!" h:ident : tactic => `(tactic| refine Same.seq (Same.wr _ _ _ _ $h) (fun _ _ $h => ?_))

theorem shaPadding32_same {p : ShaCtx 32 → T (ShaCtx 32)} (hp : ProcOK p) {c c' : ShaCtx 32} (h : ShaLike c c') :
    Same ShaLike (Tr.shaPadding32 p c) (Tr.shaPadding32 p c') := by
  obtain ⟨st, lo, hi, ix, bl⟩ := c
  obtain ⟨st', lo', hi', ix', bl'⟩ := c'
  obtain ⟨hs, hb, h1, h2, h3⟩ := h
  dsimp only at hs hb h1 h2 h3
  subst h1 h2 h3
  unfold Tr.shaPadding32
  wr! hb
  refine Same.br rfl ?_
  refine Same.seq (R := ShaLike) ?_ (fun c c' h => ?_)
  · split
    · exact Same.seq (Same.wrs _ _ hb rfl) (fun _ _ hb => hp _ _ ⟨hs, hb, rfl, rfl, rfl⟩)
    · refine Same.br rfl ?_
      split
      · exact Same.seq (Same.wrs _ _ hb rfl) (fun _ _ hb => Same.ret ⟨hs, hb, rfl, rfl, rfl⟩)
      · exact Same.ret ⟨hs, hb, rfl, rfl, rfl⟩
  · have hb := h.block
    wr! hb
    wr! hb
    wr! hb
    wr! hb
    wr! hb
    wr! hb
    wr! hb
    wr! hb
    exact hp _ _ ⟨h.state, hb, h.low, h.high, h.index⟩

/-- A context and an output buffer. -/
def Both {α β : Type} (R : α → α → Prop) (x y : α × List β) : Prop := R x.1 y.1 ∧ L x.2 y.2

theorem sha1Digest_same {c c' : ShaCtx 32} (h : ShaLike c c') {o o' : List Byte} (ho : L o o') :
    Same (Both ShaLike) (Tr.sha1Digest c o) (Tr.sha1Digest c' o') := by
  unfold Tr.sha1Digest
  refine Same.seq (shaPadding32_same sha1ProcessBlock_same h) (fun c c' h => ?_)
  refine Same.seq (Same.wrs _ _ h.block (by show _ = _; rw [List.length_replicate, List.length_replicate]; exact h.block))
    (fun _ _ hb => ?_)
  exact Same.seq (shaOutput32_same 20 h.state ho) (fun _ _ ho => Same.ret ⟨⟨h.state, hb, rfl, rfl, h.index⟩, ho⟩)

theorem sha256Ws_same {b b' : List Byte} (h : L b b') : Same L (Tr.sha256Ws b) (Tr.sha256Ws b') := by
  unfold Tr.sha256Ws
  refine Same.seq (Same.forN 16 (R := L) rfl (fun i s s' hs => ?_)) (fun ws ws' hw => Same.forN 48 hw (fun i s s' hs => ?_))
  · exact Same.seq (wordBE32_same h _) (fun _ _ _ => Same.push _ _ _ hs)
  · rd! hs
    rd! hs
    rd! hs
    rd! hs
    exact Same.push _ _ _ hs

theorem sha256Step_same {ws ws' : List W32} (h : L ws ws') (i : Nat) (r r' : Reg8 32) :
    Same Any (Tr.sha256Step ws i r) (Tr.sha256Step ws' i r') := by
  unfold Tr.sha256Step
  rd! rfl
  rd! h
  exact Same.ret trivial

theorem loadReg8_same {w : Nat} {s s' : List (BitVec w)} (h : L s s') : Same Any (Tr.loadReg8 s) (Tr.loadReg8 s') := by
  unfold Tr.loadReg8
  rd! h
  rd! h
  rd! h
  rd! h
  rd! h
  rd! h
  rd! h
  rd! h
  exact Same.ret trivial

theorem addReg8_same {w : Nat} {s s' : List (BitVec w)} (h : L s s') (r r' : Reg8 w) :
    Same L (Tr.addReg8 s r) (Tr.addReg8 s' r') := by
  unfold Tr.addReg8
  refine Same.seq (addAt_same h _ _ _) (fun s s' hs => ?_)
  refine Same.seq (addAt_same hs _ _ _) (fun s s' hs => ?_)
  refine Same.seq (addAt_same hs _ _ _) (fun s s' hs => ?_)
  refine Same.seq (addAt_same hs _ _ _) (fun s s' hs => ?_)
  refine Same.seq (addAt_same hs _ _ _) (fun s s' hs => ?_)
  refine Same.seq (addAt_same hs _ _ _) (fun s s' hs => ?_)
  refine Same.seq (addAt_same hs _ _ _) (fun s s' hs => ?_)
  exact addAt_same hs _ _ _

theorem sha256ProcessBlock_same : ProcOK Tr.sha256ProcessBlock := by
  intro c c' h
  unfold Tr.sha256ProcessBlock
  refine Same.seq (sha256Ws_same h.block) (fun ws ws' hw => ?_)
  refine Same.seq (loadReg8_same h.state) (fun _ _ _ => ?_)
  refine Same.seq (Same.forN 64 (R := Any) trivial (fun i s s' _ => sha256Step_same hw _ _ _)) (fun _ _ _ => ?_)
  refine Same.seq (addReg8_same h.state _ _) (fun s s' hs => ?_)
  exact Same.ret ⟨hs, h.block, h.low, h.high, rfl⟩

theorem sha224n256Digest_same (n : Nat) {c c' : ShaCtx 32} (h : ShaLike c c') {o o' : List Byte} (ho : L o o') :
    Same (Both ShaLike) (Tr.sha224n256Digest n c o) (Tr.sha224n256Digest n c' o') := by
  unfold Tr.sha224n256Digest
  refine Same.seq (shaPadding32_same sha256ProcessBlock_same h) (fun c c' h => ?_)
  exact Same.seq (shaOutput32_same n h.state ho) (fun _ _ ho => Same.ret ⟨h, ho⟩)

theorem sha512Ws_same {b b' : List Byte} (h : L b b') : Same L (Tr.sha512Ws b) (Tr.sha512Ws b') := by
  unfold Tr.sha512Ws
  refine Same.seq (Same.forN 16 (R := L) rfl (fun i s s' hs => ?_)) (fun ws ws' hw => Same.forN 64 hw (fun i s s' hs => ?_))
  · exact Same.seq (wordBE64_same h _) (fun _ _ _ => Same.push _ _ _ hs)
  · rd! hs
    rd! hs
    rd! hs
    rd! hs
    exact Same.push _ _ _ hs

theorem sha512Step_same {ws ws' : List W64} (h : L ws ws') (i : Nat) (r r' : Reg8 64) :
    Same Any (Tr.sha512Step ws i r) (Tr.sha512Step ws' i r') := by
  unfold Tr.sha512Step
  rd! rfl
  rd! rfl
  rd! h
  exact Same.ret trivial

theorem sha512ProcessBlock_same : ProcOK Tr.sha512ProcessBlock := by
  intro c c' h
  unfold Tr.sha512ProcessBlock
  refine Same.seq (sha512Ws_same h.block) (fun ws ws' hw => ?_)
  refine Same.seq (loadReg8_same h.state) (fun _ _ _ => ?_)
  refine Same.seq (Same.forN 80 (R := Any) trivial (fun i s s' _ => sha512Step_same hw _ _ _)) (fun _ _ _ => ?_)
  refine Same.seq (addReg8_same h.state _ _) (fun s s' hs => ?_)
  exact Same.ret ⟨hs, h.block, h.low, h.high, rfl⟩

theorem sha512Padding_same (b : Byte) {c c' : ShaCtx 64} (h : ShaLike c c') :
    Same ShaLike (Tr.sha512Padding c b) (Tr.sha512Padding c' b) := by
  obtain ⟨st, lo, hi, ix, bl⟩ := c
  obtain ⟨st', lo', hi', ix', bl'⟩ := c'
  obtain ⟨hs, hb, h1, h2, h3⟩ := h
  dsimp only at hs hb h1 h2 h3
  subst h1 h2 h3
  unfold Tr.sha512Padding
  wr! hb
  refine Same.br rfl ?_
  refine Same.seq (R := ShaLike) ?_ (fun c c' h => ?_)
  · split
    · exact Same.seq (Same.wrs _ _ hb rfl) (fun _ _ hb => sha512ProcessBlock_same _ _ ⟨hs, hb, rfl, rfl, rfl⟩)
    · refine Same.br rfl ?_
      split
      · exact Same.seq (Same.wrs _ _ hb rfl) (fun _ _ hb => Same.ret ⟨hs, hb, rfl, rfl, rfl⟩)
      · exact Same.ret ⟨hs, hb, rfl, rfl, rfl⟩
  · have hb := h.block
    wr! hb
    wr! hb
    wr! hb
    wr! hb
    wr! hb
    wr! hb
    wr! hb
    wr! hb
    wr! hb
    wr! hb
    wr! hb
    wr! hb
    wr! hb
    wr! hb
    wr! hb
    wr! hb
    exact sha512ProcessBlock_same _ _ ⟨h.state, hb, h.low, h.high, h.index⟩

theorem sha384n512Digest_same (n : Nat) {c c' : ShaCtx 64} (h : ShaLike c c') {o o' : List Byte} (ho : L o o') :
    Same (Both ShaLike) (Tr.sha384n512Digest n c o) (Tr.sha384n512Digest n c' o') := by
  unfold Tr.sha384n512Digest
  refine Same.seq (sha512Padding_same _ h) (fun c c' h => ?_)
  exact Same.seq (shaOutput64_same n h.state ho) (fun _ _ ho => Same.ret ⟨h, ho⟩)

end Pgfe.Proofs.Trace
