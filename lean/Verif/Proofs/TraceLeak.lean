import Verif.Proofs.TraceOther
/-!
# What the trace of Blowfish reveals
-/
namespace Pgfe.Proofs.Trace
open Pgfe.Model Pgfe.Spec
open Pgfe.Proofs.Bf (Shape flat pr un)

/-! ## Splitting traces -/
section
variable {α β γ δ : Type}

theorem tr_ok {m : T α} {a : α} (h : m.res = .ok a) (k : α → T γ) : (m >>= k).tr = m.tr ++ (k a).tr := by
  show (T.bind m k).tr = _
  unfold T.bind
  rw [h]

theorem tr_prefix (m : T α) (k : α → T γ) : ∃ r, (m >>= k).tr = m.tr ++ r := by
  cases h : m.res with
  | ok a => exact ⟨_, tr_ok h k⟩
  | error e =>
    refine ⟨[], ?_⟩
    show (T.bind m k).tr = _
    unfold T.bind
    rw [h, List.append_nil]

/-- The first parts of equal traces, if they are known to have the same length. -/
theorem tr_first {f : Event → Event} {R : α → β → Prop} {m : T α} {m' : T β} (h : SameM f R m m') {k : α → T γ} {k' : β → T δ}
    (e : (m >>= k).tr = (m' >>= k').tr) : m.tr = m'.tr := by
  obtain ⟨r, hr⟩ := tr_prefix m k
  obtain ⟨r', hr'⟩ := tr_prefix m' k'
  rw [hr, hr'] at e
  have hl : m.tr.length = m'.tr.length := by
    have := congrArg List.length h.tr
    rwa [List.length_map, List.length_map] at this
  exact (List.append_inj e hl).1

/-- The second parts. -/
theorem tr_second {f : Event → Event} {R : α → β → Prop} {m : T α} {m' : T β} (h : SameM f R m m') {k : α → T γ} {k' : β → T δ}
    (e : (m >>= k).tr = (m' >>= k').tr) {a : α} {b : β} (ha : m.res = .ok a) (hb : m'.res = .ok b) :
    (k a).tr = (k' b).tr := by
  have h1 := tr_first h e
  rw [tr_ok ha, tr_ok hb, h1] at e
  exact List.append_cancel_left e

theorem iter_first {f : Event → Event} {R : α → β → Prop} {g : Nat → α → T α} {g' : Nat → β → T β} {s : α} {s' : β} (h : R s s')
    (n : Nat) (k : ∀ i a b, i < n → R a b → SameM f R (g i a) (g' i b)) (e : (T.iter n g s).tr = (T.iter n g' s').tr) :
    ∀ m, m ≤ n → (T.iter m g s).tr = (T.iter m g' s').tr := by
  induction n with
  | zero => intro m hm; obtain rfl : m = 0 := by omega
            exact e
  | succ n ih =>
    intro m hm
    by_cases hmn : m = n + 1
    · subst hmn; exact e
    · exact ih (fun i a b hi hab => k i a b (by omega) hab)
        (tr_first (SameM.iter n h (fun i a b hi hab => k i a b (by omega) hab)) e) m (by omega)

end

/-! ## One block -/

theorem F_ok {c : BfCtx} (h : Shape c) (x : W32) : (Tr.Bf.F c x).res = .ok (Blowfish.F (flat c) x) := by
  rw [bfF_res, Bf.F_eq h]

theorem F_tr {c : BfCtx} (h : Shape c) (x : W32) : (Tr.Bf.F c x).tr =
    [.rd .bfS (256 * 0 + (x >>> 24).toNat) 1, .rd .bfS (256 * 1 + ((x >>> 16) &&& 0xff#32).toNat) 1,
     .rd .bfS (256 * 2 + ((x >>> 8) &&& 0xff#32).toNat) 1, .rd .bfS (256 * 3 + (x &&& 0xff#32).toNat) 1] := by
  obtain ⟨v0, h0⟩ := rdS_ok h (b := 0) (by decide) (idx0 x)
  obtain ⟨v1, h1⟩ := rdS_ok h (b := 1) (by decide) (idx1 (x >>> 16))
  obtain ⟨v2, h2⟩ := rdS_ok h (b := 2) (by decide) (idx1 (x >>> 8))
  obtain ⟨v3, h3⟩ := rdS_ok h (b := 3) (by decide) (idx1 x)
  unfold Tr.Bf.F
  rw [tr_ok h0, tr_ok h1, tr_ok h2, tr_ok h3]
  rfl

theorem F_tr_inj {c c' : BfCtx} (h : Sh c c') (x x' : W32) (e : (Tr.Bf.F c x).tr = (Tr.Bf.F c' x').tr) : x = x' := by
  rw [F_tr h.1, F_tr h.2] at e
  simp only [List.cons.injEq, Event.rd.injEq, true_and, and_true] at e
  obtain ⟨e0, e1, e2, e3⟩ := e
  have f0 : x >>> 24 = x' >>> 24 := BitVec.eq_of_toNat_eq (by omega)
  have f1 : (x >>> 16) &&& 0xff#32 = (x' >>> 16) &&& 0xff#32 := BitVec.eq_of_toNat_eq (by omega)
  have f2 : (x >>> 8) &&& 0xff#32 = (x' >>> 8) &&& 0xff#32 := BitVec.eq_of_toNat_eq (by omega)
  have f3 : x &&& 0xff#32 = x' &&& 0xff#32 := BitVec.eq_of_toNat_eq (by omega)
  have split : ∀ y : W32, y = ((y >>> 24) <<< 24) ||| (((y >>> 16) &&& 0xff#32) <<< 16) |||
      (((y >>> 8) &&& 0xff#32) <<< 8) ||| (y &&& 0xff#32) := by
    intro y
    apply BitVec.eq_of_getLsbD_eq
    intro i hi
    have : i < 32 := hi
    simp only [BitVec.getLsbD_or, BitVec.getLsbD_shiftLeft, BitVec.getLsbD_ushiftRight, BitVec.getLsbD_and]
    have m : ∀ j, (0xff#32).getLsbD j = decide (j < 8) := by
      intro j
      by_cases hj : j < 32
      · revert j; decide
      · rw [BitVec.getLsbD_of_ge _ _ (by omega)]; simp; omega
    simp only [m]
    by_cases a : i < 8
    · simp [a, show i < 24 by omega, show i < 16 by omega]
    · by_cases b : i < 16
      · simp [a, b, show i < 24 by omega, show i - 8 < 8 by omega, show 8 + (i - 8) = i by omega, hi]
      · by_cases d : i < 24
        · simp [a, b, d, show ¬ i - 8 < 8 by omega, show i - 16 < 8 by omega, show 16 + (i - 16) = i by omega, hi]
        · simp [a, b, d, show ¬ i - 8 < 8 by omega, show ¬ i - 16 < 8 by omega, show 24 + (i - 24) = i by omega, hi]
  rw [split x, split x', f0, f1, f2, f3]

/-- One iteration of the loop over the rounds. -/
def body (c : BfCtx) (idx : Nat → Nat) (i : Nat) (u : BfUnit) : T BfUnit := do
  let _ ← T.br true
  Tr.Bf.round c (idx i) u

theorem round_ok {c : BfCtx} (h : Shape c) {i : Nat} (hi : i < 18) (u : BfUnit) :
    (Tr.Bf.round c i u).res = .ok ⟨u.right ^^^ Blowfish.F (flat c) (u.left ^^^ Blowfish.P (flat c) i),
      u.left ^^^ Blowfish.P (flat c) i⟩ := by
  rw [bfRound_res, Bf.round, Bf.rd_P h hi, bind_ok]
  dsimp only
  rw [Bf.F_eq h, bind_ok]

theorem round_tr {c : BfCtx} (h : Shape c) {i : Nat} (hi : i < 18) (u : BfUnit) :
    (Tr.Bf.round c i u).tr = .rd .bfP i 1 :: (Tr.Bf.F c (u.left ^^^ Blowfish.P (flat c) i)).tr := by
  have h0 : (T.rd Arr.bfP c.P i).res = .ok (Blowfish.P (flat c) i) := Bf.rd_P h hi
  unfold Tr.Bf.round
  rw [tr_ok h0, tr_ok (F_ok h _)]
  show [_] ++ ((Tr.Bf.F c (u.left ^^^ Blowfish.P (flat c) i)).tr ++ []) = _
  rw [List.append_nil]; rfl

theorem body_same {c c' : BfCtx} (h : Sh c c') (idx : Nat → Nat) (i : Nat) (u u' : BfUnit) :
    SameM coarse Any (body c idx i u) (body c' idx i u') := SameM.br rfl (bfRound_same h _ _ _)

theorem iter_ok {c : BfCtx} (h : Shape c) (idx : Nat → Nat) (hidx : ∀ t, t < 16 → idx t < 18) (u : BfUnit) :
    ∀ n, n ≤ 16 → (T.iter n (body c idx) u).res =
      .ok (un (Blowfish.rounds (flat c) (fun i => Blowfish.P (flat c) (idx i)) n (pr u))) := by
  intro n
  induction n with
  | zero => intro _; rfl
  | succ n ih =>
    intro hn
    rw [T.iter, res_bind, ih (by omega), bind_ok, body, res_bind]
    show (Tr.Bf.round c (idx n) _).res = _
    rw [round_ok h (hidx n (by omega))]
    rfl

/-- The inputs of the S-boxes, from the trace. -/
theorem rounds_inj {c c' : BfCtx} (h : Sh c c') (idx : Nat → Nat) (hidx : ∀ t, t < 16 → idx t < 18) (u u' : BfUnit)
    (e : (T.iter 16 (body c idx) u).tr = (T.iter 16 (body c' idx) u').tr) (t : Nat) (ht : t < 16) :
    (Blowfish.rounds (flat c) (fun i => Blowfish.P (flat c) (idx i)) (t + 1) (pr u)).2 =
      (Blowfish.rounds (flat c') (fun i => Blowfish.P (flat c') (idx i)) (t + 1) (pr u')).2 := by
  have e1 := iter_first (R := Any) trivial 16 (fun i a b _ _ => body_same h idx i a b) e (t + 1) (by omega)
  rw [T.iter, T.iter] at e1
  have e2 := tr_second (SameM.iter t (R := Any) trivial (fun i a b _ _ => body_same h idx i a b)) e1
    (iter_ok h.1 idx hidx u t (by omega)) (iter_ok h.2 idx hidx u' t (by omega))
  have e3 := tr_second (k := fun _ => Tr.Bf.round c (idx t) _) (k' := fun _ => Tr.Bf.round c' (idx t) _)
    (SameM.lift (f := coarse) (Same.refl (T.br true))) e2 rfl rfl
  rw [round_tr h.1 (hidx t ht), round_tr h.2 (hidx t ht), List.cons.injEq] at e3
  exact F_tr_inj h _ _ e3.2

theorem xor_left_cancel {w : Nat} {a b k : BitVec w} (h : a ^^^ k = b ^^^ k) : a = b := by
  have := congrArg (· ^^^ k) h
  simpa only [BitVec.xor_assoc, BitVec.xor_self, BitVec.xor_zero] using this
theorem xor_right_cancel {w : Nat} {a b k : BitVec w} (h : k ^^^ a = k ^^^ b) : a = b := by
  rw [BitVec.xor_comm k, BitVec.xor_comm k] at h
  exact xor_left_cancel h

theorem unit_inj {c : BfCtx} (h : Shape c) (idx : Nat → Nat) (hidx : ∀ t, t < 16 → idx t < 18) (u u' : BfUnit)
    (e : (T.iter 16 (body c idx) u).tr = (T.iter 16 (body c idx) u').tr) : u = u' := by
  have e0 := rounds_inj ⟨h, h⟩ idx hidx u u' e 0 (by decide)
  have e1 := rounds_inj ⟨h, h⟩ idx hidx u u' e 1 (by decide)
  simp only [Blowfish.rounds, pr] at e0 e1
  have l := xor_left_cancel e0
  rw [l] at e1
  have r := xor_left_cancel (xor_left_cancel e1)
  obtain ⟨a, b⟩ := u
  obtain ⟨a', b'⟩ := u'
  dsimp only at l r
  rw [l, r]

theorem encryptUnit_split (c : BfCtx) (u : BfUnit) : ∃ k : BfUnit → T BfUnit, Tr.Bf.encryptUnit c u =
    ((T.iter 16 (body c (fun i => i)) u >>= fun s => T.br false >>= fun _ => pure s) >>= k) :=
  ⟨fun dp => do
      let dp : BfUnit := ⟨dp.right, dp.left⟩
      let p16 ← T.rd .bfP c.P 16
      let p17 ← T.rd .bfP c.P 17
      pure ⟨dp.left ^^^ p17, dp.right ^^^ p16⟩, rfl⟩

theorem encryptUnit_first {c c' : BfCtx} (h : Sh c c') (u u' : BfUnit)
    (e : (Tr.Bf.encryptUnit c u).tr = (Tr.Bf.encryptUnit c' u').tr) :
    (T.iter 16 (body c (fun i => i)) u).tr = (T.iter 16 (body c' (fun i => i)) u').tr := by
  obtain ⟨k, hk⟩ := encryptUnit_split c u
  obtain ⟨k', hk'⟩ := encryptUnit_split c' u'
  rw [hk, hk'] at e
  have st := SameM.iter (f := coarse) (s := u) (s' := u') 16 (R := Any) trivial
    (fun i a b _ _ => body_same h (fun i => i) i a b)
  refine tr_first st (tr_first (SameM.seq (S := Any) st (fun a b _ => ?_)) e)
  exact SameM.br rfl (SameM.ret trivial)

theorem decryptUnit_split (c : BfCtx) (u : BfUnit) : ∃ k : BfUnit → T BfUnit, Tr.Bf.decryptUnit c u =
    ((T.iter 16 (body c (fun i => 17 - i)) u >>= fun s => T.br false >>= fun _ => pure s) >>= k) :=
  ⟨fun dp => do
      let dp : BfUnit := ⟨dp.right, dp.left⟩
      let p1 ← T.rd .bfP c.P 1
      let p0 ← T.rd .bfP c.P 0
      pure ⟨dp.left ^^^ p0, dp.right ^^^ p1⟩, rfl⟩

theorem decryptUnit_first {c c' : BfCtx} (h : Sh c c') (u u' : BfUnit)
    (e : (Tr.Bf.decryptUnit c u).tr = (Tr.Bf.decryptUnit c' u').tr) :
    (T.iter 16 (body c (fun i => 17 - i)) u).tr = (T.iter 16 (body c' (fun i => 17 - i)) u').tr := by
  obtain ⟨k, hk⟩ := decryptUnit_split c u
  obtain ⟨k', hk'⟩ := decryptUnit_split c' u'
  rw [hk, hk'] at e
  have st := SameM.iter (f := coarse) (s := u) (s' := u') 16 (R := Any) trivial
    (fun i a b _ _ => body_same h (fun i => 17 - i) i a b)
  refine tr_first st (tr_first (SameM.seq (S := Any) st (fun a b _ => ?_)) e)
  exact SameM.br rfl (SameM.ret trivial)

/-! ## The key -/

theorem F_tail {c c' : BfCtx} (h : Sh c c') (hS : c.S = c'.S) (x : W32) :
    Blowfish.F (flat c) x = Blowfish.F (flat c') x := by
  have e : ∀ i, (flat c).getD (18 + i) 0#32 = (flat c').getD (18 + i) 0#32 := by
    intro i
    unfold flat
    rw [Bf.getD_append_r _ _ _ _ (by have := h.1.1; omega), Bf.getD_append_r _ _ _ _ (by have := h.2.1; omega), hS, h.1.1, h.2.1]
  have eS : ∀ i x, Blowfish.S (flat c) i x = Blowfish.S (flat c') i x := by
    intro i x
    unfold Blowfish.S
    rw [Nat.add_assoc, e]
  unfold Blowfish.F
  simp only [eS]

theorem subkeys_eq {c c' : BfCtx} (h : Sh c c') (hS : c.S = c'.S) (u : BfUnit)
    (e : (Tr.Bf.encryptUnit c u).tr = (Tr.Bf.encryptUnit c' u).tr) (t : Nat) (ht : t < 16) :
    Blowfish.P (flat c) t = Blowfish.P (flat c') t := by
  have e1 := rounds_inj h (fun i => i) (fun t ht => by omega) u u (encryptUnit_first h u u e)
  have key : ∀ n, n ≤ 16 → Blowfish.rounds (flat c) (fun i => Blowfish.P (flat c) i) n (pr u) =
      Blowfish.rounds (flat c') (fun i => Blowfish.P (flat c') i) n (pr u) ∧
      ∀ t, t < n → Blowfish.P (flat c) t = Blowfish.P (flat c') t := by
    intro n
    induction n with
    | zero => exact fun _ => ⟨rfl, fun t ht => by omega⟩
    | succ n ih =>
      intro hn
      obtain ⟨i1, i2⟩ := ih (by omega)
      have x := e1 n (by omega)
      have k : Blowfish.P (flat c) n = Blowfish.P (flat c') n := by
        simp only [Blowfish.rounds] at x
        rw [i1] at x
        exact xor_right_cancel x
      refine ⟨?_, fun t ht => ?_⟩
      · simp only [Blowfish.rounds]
        rw [i1, k, F_tail h hS]
      · by_cases htn : t = n
        · rw [htn]; exact k
        · exact i2 t (by omega)
  exact (key 16 (by omega)).2 t ht

theorem P_keyed (A : List W32) (hb : A.length = 18) (k : List Byte) (S : List (List W32)) (t : Nat) (ht : t < 18) :
    Blowfish.P (flat ⟨A.mapIdx (fun i w => w ^^^ Blowfish.keyWord k i), S⟩) t =
      A.getD t 0#32 ^^^ Blowfish.keyWord k t := by
  unfold Blowfish.P flat
  rw [Bf.getD_append_l _ _ _ _ (by rw [List.length_mapIdx, hb]; exact ht)]
  rw [List.getD_eq_getElem?_getD, List.getElem?_eq_getElem (by rw [List.length_mapIdx, hb]; exact ht),
    List.getD_eq_getElem?_getD, List.getElem?_eq_getElem (by rw [hb]; exact ht), List.getElem_mapIdx]
  rfl

theorem word4 (w : W32) (b : Byte) (n : Nat) (h : w.toNat < 2 ^ n) (hn : n ≤ 24) :
    (w * 256#32 + BitVec.setWidth 32 b).toNat = w.toNat * 256 + b.toNat := by
  have hb : b.toNat < 256 := b.isLt
  have : (2 : Nat) ^ n ≤ 2 ^ 24 := Nat.pow_le_pow_right (by decide) hn
  rw [BitVec.toNat_add, BitVec.toNat_mul, BitVec.toNat_setWidth]
  simp only [BitVec.toNat_ofNat]
  omega

theorem keyWord_toNat (k : List Byte) (i : Nat) : (Blowfish.keyWord k i).toNat =
    (((k.getD ((4 * i + 0) % k.length) 0#8).toNat * 256 + (k.getD ((4 * i + 1) % k.length) 0#8).toNat) * 256 +
      (k.getD ((4 * i + 2) % k.length) 0#8).toNat) * 256 + (k.getD ((4 * i + 3) % k.length) 0#8).toNat := by
  show (((((0#32 * 256#32 + BitVec.setWidth 32 _) * 256#32 + BitVec.setWidth 32 _) * 256#32 + BitVec.setWidth 32 _) *
    256#32 + BitVec.setWidth 32 _ : W32)).toNat = _
  have l : ∀ b : Byte, b.toNat < 256 := fun b => b.isLt
  have w0 := word4 0#32 (k.getD ((4 * i + 0) % k.length) 0#8) 0 (by decide) (by decide)
  have b0 := l (k.getD ((4 * i + 0) % k.length) 0#8)
  have w1 := word4 _ (k.getD ((4 * i + 1) % k.length) 0#8) 8 (by rw [w0]; simp; omega) (by decide)
  have b1 := l (k.getD ((4 * i + 1) % k.length) 0#8)
  have w2 := word4 _ (k.getD ((4 * i + 2) % k.length) 0#8) 16 (by rw [w1, w0]; simp; omega) (by decide)
  have b2 := l (k.getD ((4 * i + 2) % k.length) 0#8)
  have w3 := word4 _ (k.getD ((4 * i + 3) % k.length) 0#8) 24 (by rw [w2, w1, w0]; simp; omega) (by decide)
  rw [w3, w2, w1, w0]
  simp

theorem keyWord_inj {k k' : List Byte} (hl : k.length = k'.length) (i : Nat) (e : Blowfish.keyWord k i = Blowfish.keyWord k' i)
    (t : Nat) (ht : t < 4) (hi : 4 * i + t < k.length) : k[4 * i + t]? = k'[4 * i + t]? := by
  have e := congrArg BitVec.toNat e
  rw [keyWord_toNat, keyWord_toNat, hl] at e
  have l : ∀ b : Byte, b.toNat < 256 := fun b => b.isLt
  have b0 := l (k.getD ((4 * i + 0) % k'.length) 0#8)
  have b1 := l (k.getD ((4 * i + 1) % k'.length) 0#8)
  have b2 := l (k.getD ((4 * i + 2) % k'.length) 0#8)
  have b3 := l (k.getD ((4 * i + 3) % k'.length) 0#8)
  have c0 := l (k'.getD ((4 * i + 0) % k'.length) 0#8)
  have c1 := l (k'.getD ((4 * i + 1) % k'.length) 0#8)
  have c2 := l (k'.getD ((4 * i + 2) % k'.length) 0#8)
  have c3 := l (k'.getD ((4 * i + 3) % k'.length) 0#8)
  have key : (k.getD ((4 * i + t) % k'.length) 0#8).toNat = (k'.getD ((4 * i + t) % k'.length) 0#8).toNat := by
    have : t = 0 ∨ t = 1 ∨ t = 2 ∨ t = 3 := by omega
    rcases this with rfl | rfl | rfl | rfl <;> omega
  have key := BitVec.eq_of_toNat_eq key
  rw [Nat.mod_eq_of_lt (by omega), List.getD_eq_getElem?_getD, List.getElem?_eq_getElem hi,
    List.getD_eq_getElem?_getD, List.getElem?_eq_getElem (by omega)] at key
  rw [List.getElem?_eq_getElem hi, List.getElem?_eq_getElem (by omega)]
  exact congrArg some key

/-- One iteration of the loop that fills the subkeys. -/
def pBody (i : Nat) (a : BfCtx × BfUnit) : T (BfCtx × BfUnit) := do
  let _ ← T.br true
  let dp ← Tr.Bf.encryptUnit a.1 a.2
  let P ← T.wr .bfP a.1.P (2 * i) dp.left
  let P ← T.wr .bfP P (2 * i + 1) dp.right
  pure ({ a.1 with P := P }, dp)

theorem pBody_same (i : Nat) (a b : BfCtx × BfUnit) (hab : Sh a.1 b.1) :
    SameM coarse (fun (r r' : BfCtx × BfUnit) => Sh r.1 r'.1) (pBody i a) (pBody i b) := by
  unfold pBody
  refine SameM.br rfl ?_
  refine SameM.seq (encryptUnit_same hab _ _) (fun _ _ _ => ?_)
  refine SameM.seq (.lift (wr18 _ _ _ _ ⟨hab.1.1, hab.2.1⟩)) (fun P P' hP => ?_)
  refine SameM.seq (.lift (wr18 _ _ _ _ hP)) (fun P P' hP => ?_)
  exact SameM.ret ⟨⟨hP.1, hab.1.2⟩, ⟨hP.2, hab.2.2⟩⟩

theorem pPhase_split (c : BfCtx) (u : BfUnit) : Tr.Bf.pPhase c u =
    (T.iter 9 pBody (c, u) >>= fun s => T.br false >>= fun _ => pure s) := rfl

theorem pPhase_first {c c' : BfCtx} (h : Sh c c') (u u' : BfUnit)
    (e : (Tr.Bf.pPhase c u).tr = (Tr.Bf.pPhase c' u').tr) :
    (Tr.Bf.encryptUnit c u).tr = (Tr.Bf.encryptUnit c' u').tr := by
  rw [pPhase_split, pPhase_split] at e
  have st := SameM.iter (f := coarse) (s := (c, u)) (s' := (c', u')) 9
    (R := fun (r r' : BfCtx × BfUnit) => Sh r.1 r'.1) h (fun i a b _ hab => pBody_same i a b hab)
  have e4 := tr_first st e
  have e5 := iter_first (R := fun (r r' : BfCtx × BfUnit) => Sh r.1 r'.1) (s := (c, u)) (s' := (c', u')) h 9
    (fun i a b _ hab => pBody_same i a b hab) e4 1 (by decide)
  have i1 : ∀ s : BfCtx × BfUnit, (T.iter 1 pBody s).tr = (pBody 0 s).tr := fun s => by
    show ((pure s : T (BfCtx × BfUnit)) >>= pBody 0).tr = _
    rw [tr_ok (a := s) rfl]; rfl
  rw [i1, i1, pBody, pBody] at e5
  have e7 := tr_second (a := true) (b := true) (SameM.lift (f := coarse) (Same.refl (T.br true))) e5 rfl rfl
  exact tr_first (encryptUnit_same h _ _) e7

theorem key_leak {c c' : BfCtx} (h : Sh c c') {k k' : List Byte} (hk : k ≠ []) (hl : k.length = k'.length)
    (e : (Tr.Bf.init c k k.length).tr = (Tr.Bf.init c' k' k'.length).tr) : k.take 64 = k'.take 64 := by
  have hp : 0 < k.length := List.length_pos_iff.mpr hk
  have hb : bfP0.length = 18 := rfl
  have r := Bf.keyPhase_eq k k.length hp (Nat.le_refl _) c.P h.1.1
  have r' := Bf.keyPhase_eq k' k'.length (by omega) (Nat.le_refl _) c'.P h.2.1
  rw [List.take_length, ← keyPhase_res] at r r'
  have kp : Same P18 (Tr.Bf.keyPhase k k.length c.P) (Tr.Bf.keyPhase k' k'.length c'.P) :=
    hl ▸ keyPhase_same hl k.length ⟨h.1.1, h.2.1⟩
  have sh := Bf.shape_S0 (bfP0.mapIdx (fun i w => w ^^^ Blowfish.keyWord k i)) (by rw [List.length_mapIdx, hb])
  have sh' := Bf.shape_S0 (bfP0.mapIdx (fun i w => w ^^^ Blowfish.keyWord k' i)) (by rw [List.length_mapIdx, hb])
  unfold Tr.Bf.init at e
  have e1 := tr_second (SameM.lift (f := coarse) (Same.refl Tr.Bf.copyS0)) e copyS0_res copyS0_res
  have e2 := tr_second (SameM.lift (f := coarse) kp) e1 r r'
  have e3 := tr_first (pPhase_same ⟨sh, sh'⟩ _ _) e2
  have sk := subkeys_eq ⟨sh, sh'⟩ rfl _ (pPhase_first ⟨sh, sh'⟩ _ _ e3)
  apply List.ext_getElem?
  intro p
  rw [List.getElem?_take, List.getElem?_take]
  by_cases h64 : p < 64
  · rw [if_pos h64, if_pos h64]
    by_cases hpl : p < k.length
    · have s := sk (p / 4) (by omega)
      rw [P_keyed _ hb _ _ _ (by omega), P_keyed _ hb _ _ _ (by omega)] at s
      have := keyWord_inj hl (p / 4) (xor_right_cancel s) (p % 4) (by omega) (by omega)
      rwa [show 4 * (p / 4) + p % 4 = p by omega] at this
    · rw [List.getElem?_eq_none (by omega), List.getElem?_eq_none (by omega)]
  · rw [if_neg h64, if_neg h64]

end Pgfe.Proofs.Trace
