import Verif.Model.Blowfish
import Verif.Spec.Blowfish
/-!
# Blowfish: the model equals the specification
-/
namespace Pgfe.Proofs.Bf
open Pgfe Pgfe.Model
open Pgfe.Spec

/-- The sizes of the arrays of a context. -/
def Shape (ctx : BfCtx) : Prop := ctx.P.length = 18 ∧ ctx.S.length = 4 ∧ ∀ r ∈ ctx.S, r.length = 256

/-- The context as one table. -/
def flat (ctx : BfCtx) : List W32 := ctx.P ++ ctx.S.flatten

theorem rd_getD {α : Type} (b : List α) (i : Nat) (d : α) (h : i < b.length) : rd b i = .ok (b.getD i d) := by
  rw [rd_ok h]; simp [List.getD, h]

theorem getD_append_l {α : Type} (a b : List α) (i : Nat) (d : α) (h : i < a.length) :
    (a ++ b).getD i d = a.getD i d := by simp [List.getD, List.getElem?_append_left h]
theorem getD_append_r {α : Type} (a b : List α) (i : Nat) (d : α) (h : a.length ≤ i) :
    (a ++ b).getD i d = b.getD (i - a.length) d := by simp [List.getD, List.getElem?_append_right h]

theorem shape_cases {ctx : BfCtx} (h : Shape ctx) :
    ∃ a b c d, ctx.S = [a, b, c, d] ∧ a.length = 256 ∧ b.length = 256 ∧ c.length = 256 ∧ d.length = 256 := by
  obtain ⟨_, h4, hr⟩ := h
  match hS : ctx.S, h4 with
  | [a, b, c, d], _ =>
    rw [hS] at hr
    exact ⟨a, b, c, d, rfl, hr a (by simp), hr b (by simp), hr c (by simp), hr d (by simp)⟩

theorem flat_length {ctx : BfCtx} (h : Shape ctx) : (flat ctx).length = 1042 := by
  obtain ⟨a, b, c, d, hS, ha, hb, hc, hd⟩ := shape_cases h
  simp [flat, hS, ha, hb, hc, hd, h.1]

theorem rd_P {ctx : BfCtx} (h : Shape ctx) {i : Nat} (hi : i < 18) :
    rd ctx.P i = .ok (Blowfish.P (flat ctx) i) := by
  rw [rd_getD ctx.P i 0#32 (by rw [h.1]; exact hi)]
  rw [Blowfish.P, flat, getD_append_l _ _ _ _ (by rw [h.1]; exact hi)]

theorem F_eq {ctx : BfCtx} (h : Shape ctx) (x : W32) : Bf.F ctx x = .ok (Blowfish.F (flat ctx) x) := by
  obtain ⟨a, b, c, d, hS, ha, hb, hc, hd⟩ := shape_cases h
  have hx : x.toNat < 2 ^ 32 := x.isLt
  have i0 : (x >>> 24).toNat = x.toNat / 2 ^ 24 := by simp [Nat.shiftRight_eq_div_pow]
  have i1 : ((x >>> 16) &&& 0xff#32).toNat = x.toNat / 2 ^ 16 % 256 := by
    rw [BitVec.toNat_and]
    show (x >>> 16).toNat &&& (2 ^ 8 - 1) = _
    rw [Nat.and_two_pow_sub_one_eq_mod]; simp [Nat.shiftRight_eq_div_pow]
  have i2 : ((x >>> 8) &&& 0xff#32).toNat = x.toNat / 2 ^ 8 % 256 := by
    rw [BitVec.toNat_and]
    show (x >>> 8).toNat &&& (2 ^ 8 - 1) = _
    rw [Nat.and_two_pow_sub_one_eq_mod]; simp [Nat.shiftRight_eq_div_pow]
  have i3 : (x &&& 0xff#32).toNat = x.toNat % 256 := by
    rw [BitVec.toNat_and]
    show x.toNat &&& (2 ^ 8 - 1) = _
    rw [Nat.and_two_pow_sub_one_eq_mod]
  have b0 : x.toNat / 2 ^ 24 < 256 := by omega
  have b1 : x.toNat / 2 ^ 16 % 256 < 256 := by omega
  have b2 : x.toNat / 2 ^ 8 % 256 < 256 := by omega
  have b3 : x.toNat % 256 < 256 := by omega
  rw [Bf.F, hS, i0, i1, i2, i3, Blowfish.F]
  generalize x.toNat / 2 ^ 24 = y0 at *
  generalize x.toNat / 2 ^ 16 % 256 = y1 at *
  generalize x.toNat / 2 ^ 8 % 256 = y2 at *
  generalize x.toNat % 256 = y3 at *
  have r0 : rd [a, b, c, d] 0 = .ok a := rfl
  have r1 : rd [a, b, c, d] 1 = .ok b := rfl
  have r2 : rd [a, b, c, d] 2 = .ok c := rfl
  have r3 : rd [a, b, c, d] 3 = .ok d := rfl
  rw [r0, r1, r2, r3, bind_ok, rd_getD a y0 0#32 (by omega), bind_ok, bind_ok, rd_getD b y1 0#32 (by omega), bind_ok,
    bind_ok, rd_getD c y2 0#32 (by omega), bind_ok, bind_ok, rd_getD d y3 0#32 (by omega), bind_ok]
  have s0 : Blowfish.S (flat ctx) 0 y0 = a.getD y0 0#32 := by
    rw [Blowfish.S, flat, hS, getD_append_r _ _ _ _ (by rw [h.1]; omega), h.1]
    show (a ++ _).getD _ _ = _
    rw [getD_append_l _ _ _ _ (by omega)]
    rw [show 18 + 256 * 0 + y0 - 18 = y0 by omega]
  have s1 : Blowfish.S (flat ctx) 1 y1 = b.getD y1 0#32 := by
    rw [Blowfish.S, flat, hS, getD_append_r _ _ _ _ (by rw [h.1]; omega), h.1]
    show (a ++ (b ++ _)).getD _ _ = _
    rw [getD_append_r _ _ _ _ (by omega), getD_append_l _ _ _ _ (by omega), ha]
    rw [show 18 + 256 * 1 + y1 - 18 - 256 = y1 by omega]
  have s2 : Blowfish.S (flat ctx) 2 y2 = c.getD y2 0#32 := by
    rw [Blowfish.S, flat, hS, getD_append_r _ _ _ _ (by rw [h.1]; omega), h.1]
    show (a ++ (b ++ (c ++ _))).getD _ _ = _
    rw [getD_append_r _ _ _ _ (by omega), getD_append_r _ _ _ _ (by omega),
      getD_append_l _ _ _ _ (by omega), ha, hb]
    rw [show 18 + 256 * 2 + y2 - 18 - 256 - 256 = y2 by omega]
  have s3 : Blowfish.S (flat ctx) 3 y3 = d.getD y3 0#32 := by
    rw [Blowfish.S, flat, hS, getD_append_r _ _ _ _ (by rw [h.1]; omega), h.1]
    show (a ++ (b ++ (c ++ (d ++ _)))).getD _ _ = _
    rw [getD_append_r _ _ _ _ (by omega), getD_append_r _ _ _ _ (by omega),
      getD_append_r _ _ _ _ (by omega), getD_append_l _ _ _ _ (by omega), ha, hb, hc]
    rw [show 18 + 256 * 3 + y3 - 18 - 256 - 256 - 256 = y3 by omega]
  show _ = Except.ok (((Blowfish.S (flat ctx) 0 y0 + Blowfish.S (flat ctx) 1 y1) ^^^ Blowfish.S (flat ctx) 2 y2) +
    Blowfish.S (flat ctx) 3 y3)
  rw [s0, s1, s2, s3]

/-- A unit as a pair. -/
def pr (u : BfUnit) : W32 × W32 := (u.left, u.right)
/-- A pair as a unit. -/
def un (x : W32 × W32) : BfUnit := ⟨x.1, x.2⟩
@[simp] theorem un_pr (u : BfUnit) : un (pr u) = u := rfl
@[simp] theorem pr_un (x : W32 × W32) : pr (un x) = x := rfl

theorem rounds_eq {ctx : BfCtx} (h : Shape ctx) (idx : Nat → Nat) (hidx : ∀ t, t < 16 → idx t < 18) (u : BfUnit) :
    ∀ n, n ≤ 16 → forN n (fun t dp => Bf.round ctx (idx t) dp) u =
      .ok (un (Blowfish.rounds (flat ctx) (fun i => Blowfish.P (flat ctx) (idx i)) n (pr u))) := by
  intro n
  induction n with
  | zero => intro _; rfl
  | succ n ih =>
    intro hn
    rw [forN, ih (by omega), bind_ok, Bf.round, rd_P h (hidx n (by omega)), bind_ok]
    dsimp only
    rw [F_eq h, bind_ok]
    rfl

theorem encryptUnit_eq {ctx : BfCtx} (h : Shape ctx) (u : BfUnit) :
    Bf.encryptUnit ctx u = .ok (un (Blowfish.enc (flat ctx) (pr u))) := by
  rw [Bf.encryptUnit, rounds_eq h (fun i => i) (fun t ht => by omega) u 16 (by omega), bind_ok]
  dsimp only
  rw [rd_P h (by omega), bind_ok, rd_P h (by omega), bind_ok]
  rfl

theorem decryptUnit_eq {ctx : BfCtx} (h : Shape ctx) (u : BfUnit) :
    Bf.decryptUnit ctx u = .ok (un (Blowfish.dec (flat ctx) (pr u))) := by
  rw [Bf.decryptUnit, rounds_eq h (fun i => 17 - i) (fun t ht => by omega) u 16 (by omega), bind_ok]
  dsimp only
  rw [rd_P h (by omega), bind_ok, rd_P h (by omega), bind_ok]
  rfl

/-! ## Decryption inverts encryption -/

/-- Running the rounds with the keys reversed undoes them: state after `n` reversed rounds started from the swapped
result of sixteen rounds. -/
theorem rounds_rev (T : List W32) (k : Nat → W32) (x : W32 × W32) : ∀ n, n ≤ 16 →
    Blowfish.rounds T (fun i => k (17 - i)) n (Blowfish.cipher T k x) =
      (let y := Blowfish.rounds T k (16 - n) x
       (y.2 ^^^ k (17 - n), y.1 ^^^ k (16 - n))) := by
  intro n
  induction n with
  | zero => intro _; rfl
  | succ n ih =>
    intro hn
    rw [Blowfish.rounds, ih (by omega)]
    have e : 16 - n = (16 - (n + 1)) + 1 := by omega
    have e1 : 17 - (n + 1) = 16 - n := by omega
    dsimp only
    rw [e1]
    rw [show Blowfish.rounds T k (16 - n) x = Blowfish.rounds T k ((16 - (n + 1)) + 1) x by rw [← e]]
    rw [Blowfish.rounds]
    dsimp only
    generalize Blowfish.rounds T k (16 - (n + 1)) x = y
    have e2 : y.1 ^^^ k (16 - (n + 1)) ^^^ k (17 - n) ^^^ k (17 - n) = y.1 ^^^ k (16 - (n + 1)) := by
      rw [BitVec.xor_assoc, BitVec.xor_self, BitVec.xor_zero]
    rw [e2]
    ext1
    · dsimp only
      generalize Blowfish.F T _ = f
      have e3 : ∀ a b f : W32, a ^^^ f ^^^ b ^^^ f = a ^^^ b := by
        intro a b f
        rw [BitVec.xor_assoc (a ^^^ f), BitVec.xor_comm b f, ← BitVec.xor_assoc (a ^^^ f), BitVec.xor_assoc a,
          BitVec.xor_self, BitVec.xor_zero]
      exact e3 _ _ _
    · rfl

theorem cipher_rev (T : List W32) (k : Nat → W32) (x : W32 × W32) :
    Blowfish.cipher T (fun i => k (17 - i)) (Blowfish.cipher T k x) = x := by
  rw [Blowfish.cipher, rounds_rev T k x 16 (by omega)]
  dsimp only [Blowfish.rounds]
  show (x.1 ^^^ k 0 ^^^ k 0, x.2 ^^^ k 1 ^^^ k 1) = x
  rw [BitVec.xor_assoc, BitVec.xor_assoc, BitVec.xor_self, BitVec.xor_self, BitVec.xor_zero, BitVec.xor_zero]

theorem rounds_congr (T : List W32) (k k' : Nat → W32) (x : W32 × W32) (h : ∀ i, i < 18 → k i = k' i) :
    ∀ n, n ≤ 16 → Blowfish.rounds T k n x = Blowfish.rounds T k' n x := by
  intro n
  induction n with
  | zero => intro _; rfl
  | succ n ih => intro hn; rw [Blowfish.rounds, Blowfish.rounds, ih (by omega), h n (by omega)]

theorem cipher_congr (T : List W32) (k k' : Nat → W32) (x : W32 × W32) (h : ∀ i, i < 18 → k i = k' i) :
    Blowfish.cipher T k x = Blowfish.cipher T k' x := by
  rw [Blowfish.cipher, Blowfish.cipher, rounds_congr T k k' x h 16 (by omega), h 17 (by omega), h 16 (by omega)]

theorem dec_enc (T : List W32) (x : W32 × W32) : Blowfish.dec T (Blowfish.enc T x) = x := cipher_rev T _ x

theorem enc_dec (T : List W32) (x : W32 × W32) : Blowfish.enc T (Blowfish.dec T x) = x := by
  have h := cipher_rev T (fun i => Blowfish.P T (17 - i)) x
  have e : Blowfish.enc T (Blowfish.dec T x) =
      Blowfish.cipher T (fun i => Blowfish.P T (17 - (17 - i))) (Blowfish.dec T x) := by
    refine cipher_congr T _ _ _ ?_
    intro i hi
    show Blowfish.P T i = Blowfish.P T (17 - (17 - i))
    congr 1; omega
  rw [e]; exact h

/-! ## The key schedule -/

theorem shl_or (w : W32) (b : Byte) : (w <<< 8) ||| b.setWidth 32 = w * 256#32 + b.setWidth 32 := by
  apply BitVec.eq_of_toNat_eq
  have hb : b.toNat < 2 ^ 8 := b.isLt
  have hb2 : b.toNat % 2 ^ 32 = b.toNat := Nat.mod_eq_of_lt (by omega)
  have h1 : (w <<< 8).toNat = 2 ^ 8 * (w.toNat % 2 ^ 24) := by
    rw [BitVec.toNat_shiftLeft, Nat.shiftLeft_eq]; omega
  rw [BitVec.toNat_or, BitVec.toNat_add, BitVec.toNat_mul, h1, BitVec.toNat_setWidth, hb2]
  rw [← Nat.two_pow_add_eq_or_of_lt hb]
  show _ = (w.toNat * 256 % 2 ^ 32 + b.toNat) % 2 ^ 32
  omega

theorem keyWord_step (key : List Byte) (L : Nat) (h0 : 0 < L) (hL : L ≤ key.length) (m : Nat) (hm : m < 72) :
    rd key (m % L) = .ok ((key.take L).getD (m % (key.take L).length) 0#8) ∧
      (m % L + 1) % 2 ^ 16 % L = (m + 1) % L := by
  have hlt : m % L < L := Nat.mod_lt _ h0
  have hle : m % L ≤ m := Nat.mod_le _ _
  constructor
  · rw [rd_getD key _ 0#8 (by omega), List.length_take, Nat.min_eq_left hL]
    simp [List.getD, hlt]
  · rw [Nat.mod_eq_of_lt (a := m % L + 1) (by omega)]
    simp

theorem keyWord_eq (key : List Byte) (L : Nat) (h0 : 0 < L) (hL : L ≤ key.length) (i : Nat) (hi : i < 18) :
    Bf.keyWord key L (4 * i % L) = .ok (Blowfish.keyWord (key.take L) i, 4 * (i + 1) % L) := by
  have key' : ∀ n, n ≤ 4 → forN n (fun _ (s : W32 × Nat) => do
      let b ← rd key s.2
      let j := (s.2 + 1) % 2 ^ 16
      if L = 0 then .error .divZero
      else .ok ((s.1 <<< 8) ||| b.setWidth 32, j % L)) (0#32, 4 * i % L) =
      .ok ((List.range n).foldl (fun w t => w * 256#32 +
        BitVec.setWidth 32 ((key.take L).getD ((4 * i + t) % (key.take L).length) 0#8)) 0#32, (4 * i + n) % L) := by
    intro n
    induction n with
    | zero => intro _; rfl
    | succ n ih =>
      intro hn
      obtain ⟨e1, e2⟩ := keyWord_step key L h0 hL (4 * i + n) (by omega)
      rw [forN, ih (by omega), bind_ok]
      dsimp only
      rw [e1, bind_ok, if_neg (by omega), e2, shl_or, List.range_succ, List.foldl_append]
      rfl
  rw [Bf.keyWord, key' 4 (by omega)]
  rfl

theorem keyPhase_eq (key : List Byte) (L : Nat) (h0 : 0 < L) (hL : L ≤ key.length) (P : List W32)
    (hP : P.length = 18) :
    Bf.keyPhase key L P = .ok (bfP0.mapIdx (fun i w => w ^^^ Blowfish.keyWord (key.take L) i)) := by
  have hb : bfP0.length = 18 := rfl
  have main : ∀ n, n ≤ 18 → forN n (fun i (s : List W32 × Nat) => do
      let w ← Bf.keyWord key L s.2
      let p0 ← rd bfP0 i
      let P ← wr s.1 i (p0 ^^^ w.1)
      .ok (P, w.2)) (P, 0) =
      .ok ((bfP0.mapIdx (fun i w => w ^^^ Blowfish.keyWord (key.take L) i)).take n ++ P.drop n, 4 * n % L) := by
    intro n
    induction n with
    | zero => intro _; simp [forN]
    | succ n ih =>
      intro hn
      have hn' : n < bfP0.length := by omega
      rw [forN, ih (by omega), bind_ok]
      dsimp only
      rw [keyWord_eq key L h0 hL n (by omega), bind_ok, rd_ok hn', bind_ok]
      dsimp only
      obtain ⟨x, q, hq⟩ : ∃ x q, P.drop n = x :: q := by
        have : (P.drop n).length = 18 - n := by simp [hP]
        match P.drop n, this with
        | [], h => simp at h; omega
        | x :: q, _ => exact ⟨x, q, rfl⟩
      have hq' : P.drop (n + 1) = q := by
        rw [← List.drop_drop, hq]; rfl
      have hl : ((bfP0.mapIdx (fun i w => w ^^^ Blowfish.keyWord (key.take L) i)).take n).length = n := by
        simp; omega
      have hw := wr_append ((bfP0.mapIdx (fun i w => w ^^^ Blowfish.keyWord (key.take L) i)).take n) q x
        (bfP0[n] ^^^ Blowfish.keyWord (key.take L) n)
      rw [hl] at hw
      rw [hq, hw, bind_ok, hq']
      rw [List.take_succ_eq_append_getElem (by simpa using hn')]
      simp
  rw [Bf.keyPhase, main 18 (by omega), bind_ok]
  have e1 : P.drop 18 = [] := by rw [List.drop_eq_nil_iff]; omega
  have e2 : (bfP0.mapIdx (fun i w => w ^^^ Blowfish.keyWord (key.take L) i)).take 18 =
      bfP0.mapIdx (fun i w => w ^^^ Blowfish.keyWord (key.take L) i) := by
    apply List.take_of_length_le; simp [hb]
  dsimp only
  rw [e1, e2, List.append_nil]

theorem flatten_set (S : List (List W32)) (hS : ∀ r ∈ S, r.length = 256) (i j : Nat) (hi : i < S.length)
    (hj : j < 256) (v : W32) :
    (S.set i ((S[i]).set j v)).flatten = S.flatten.set (256 * i + j) v := by
  induction S generalizing i with
  | nil => simp at hi
  | cons r S ih =>
    have hr : r.length = 256 := hS r (by simp)
    cases i with
    | zero =>
      simp only [List.getElem_cons_zero, List.set_cons_zero, List.flatten_cons, Nat.mul_zero, Nat.zero_add]
      rw [List.set_append_left _ _ (by omega)]
    | succ i =>
      simp only [List.getElem_cons_succ, List.set_cons_succ, List.flatten_cons]
      rw [ih (fun r h => hS r (by simp [h])) i (by simpa using hi), List.set_append_right _ _ (by omega), hr,
        show 256 * (i + 1) + j - 256 = 256 * i + j by omega]

theorem wrS_eq {ctx : BfCtx} (h : Shape ctx) {i j : Nat} (hi : i < 4) (hj : j < 256) (v : W32) :
    ∃ ctx', Bf.wrS ctx i j v = .ok ctx' ∧ Shape ctx' ∧ flat ctx' = (flat ctx).set (18 + 256 * i + j) v := by
  obtain ⟨hp, h4, hr⟩ := h
  have hi' : i < ctx.S.length := by omega
  have hrow : (ctx.S[i]).length = 256 := hr _ (List.getElem_mem hi')
  refine ⟨{ ctx with S := ctx.S.set i ((ctx.S[i]).set j v) }, ?_, ⟨hp, by simp [h4], ?_⟩, ?_⟩
  · rw [Bf.wrS, rd_ok hi', bind_ok, wr_ok v (by omega), bind_ok, wr_ok _ hi', bind_ok]
  · intro r hmem
    rcases List.mem_or_eq_of_mem_set hmem with h | h
    · exact hr r h
    · rw [h, List.length_set, hrow]
  · show ctx.P ++ (ctx.S.set i ((ctx.S[i]).set j v)).flatten = _
    rw [flatten_set ctx.S hr i j hi' hj v, flat, List.set_append_right _ _ (by omega), hp,
      show 18 + 256 * i + j - 18 = 256 * i + j by omega]

theorem wrP_eq {ctx : BfCtx} (h : Shape ctx) {i : Nat} (hi : i < 18) (v : W32) :
    ∃ P', wr ctx.P i v = .ok P' ∧ Shape { ctx with P := P' } ∧ flat { ctx with P := P' } = (flat ctx).set i v := by
  refine ⟨ctx.P.set i v, wr_ok v (by rw [h.1]; exact hi), ⟨by simp [h.1], h.2⟩, ?_⟩
  show ctx.P.set i v ++ _ = _
  rw [flat, List.set_append_left _ _ (by rw [h.1]; exact hi)]

theorem pPhase_eq {ctx : BfCtx} (h : Shape ctx) (dp : BfUnit) :
    ∃ s, Bf.pPhase ctx dp = .ok s ∧ Shape s.1 ∧
      (flat s.1, pr s.2) = (List.range 9).foldl Blowfish.expandStep (flat ctx, pr dp) := by
  refine forN_inv (fun n s => Shape s.1 ∧
      (flat s.1, pr s.2) = (List.range n).foldl Blowfish.expandStep (flat ctx, pr dp)) 9 _ (ctx, dp) ⟨h, rfl⟩ ?_
  intro t s ht ⟨hs, he⟩
  obtain ⟨P1, w1, s1, f1⟩ := wrP_eq hs (i := 2 * t) (by omega) (Blowfish.enc (flat s.1) (pr s.2)).1
  obtain ⟨P2, w2, s2, f2⟩ := wrP_eq s1 (i := 2 * t + 1) (by omega) (Blowfish.enc (flat s.1) (pr s.2)).2
  refine ⟨({ s.1 with P := P2 }, un (Blowfish.enc (flat s.1) (pr s.2))), ?_, s2, ?_⟩
  · rw [encryptUnit_eq hs, bind_ok]
    show (wr s.1.P (2 * t) (Blowfish.enc (flat s.1) (pr s.2)).1 >>= _) = _
    rw [w1, bind_ok]
    show (wr P1 (2 * t + 1) (Blowfish.enc (flat s.1) (pr s.2)).2 >>= _) = _
    have w2' : wr P1 (2 * t + 1) (Blowfish.enc (flat s.1) (pr s.2)).2 = .ok P2 := w2
    rw [w2', bind_ok]
  · rw [List.range_succ, List.foldl_append, ← he]
    have f2' : flat { s.1 with P := P2 } = _ := f2
    dsimp only
    rw [f2', f1, pr_un]
    rfl

theorem foldl_range_add {α : Type} (f : α → Nat → α) (m n : Nat) (a : α) :
    (List.range (m + n)).foldl f a = (List.range n).foldl (fun a i => f a (m + i)) ((List.range m).foldl f a) := by
  rw [List.range_add, List.foldl_append, List.foldl_map]

theorem sRow_eq {s : BfCtx × BfUnit} (h : Shape s.1) (i : Nat) (hi : i < 4) :
    ∃ s', forN 128 (fun t (s : BfCtx × BfUnit) => do
      let dp ← Bf.encryptUnit s.1 s.2
      let ctx ← Bf.wrS s.1 i (2 * t) dp.left
      let ctx ← Bf.wrS ctx i (2 * t + 1) dp.right
      .ok (ctx, dp)) s = .ok s' ∧ Shape s'.1 ∧
      (flat s'.1, pr s'.2) = (List.range 128).foldl (fun a t => Blowfish.expandStep a (9 + 128 * i + t))
        (flat s.1, pr s.2) := by
  refine forN_inv (fun n s' => Shape s'.1 ∧
      (flat s'.1, pr s'.2) = (List.range n).foldl (fun a t => Blowfish.expandStep a (9 + 128 * i + t))
        (flat s.1, pr s.2)) 128 _ s ⟨h, rfl⟩ ?_
  intro t s ht ⟨hs, he⟩
  obtain ⟨c1, w1, s1, f1⟩ := wrS_eq hs (i := i) (j := 2 * t) hi (by omega) (Blowfish.enc (flat s.1) (pr s.2)).1
  obtain ⟨c2, w2, s2, f2⟩ := wrS_eq s1 (i := i) (j := 2 * t + 1) hi (by omega) (Blowfish.enc (flat s.1) (pr s.2)).2
  refine ⟨(c2, un (Blowfish.enc (flat s.1) (pr s.2))), ?_, s2, ?_⟩
  · rw [encryptUnit_eq hs, bind_ok]
    show (Bf.wrS s.1 i (2 * t) (Blowfish.enc (flat s.1) (pr s.2)).1 >>= _) = _
    rw [w1, bind_ok]
    show (Bf.wrS c1 i (2 * t + 1) (Blowfish.enc (flat s.1) (pr s.2)).2 >>= _) = _
    rw [w2, bind_ok]
  · rw [List.range_succ, List.foldl_append, ← he]
    dsimp only
    rw [f2, f1, pr_un]
    show (_, _) = Blowfish.expandStep (flat s.1, pr s.2) (9 + 128 * i + t)
    rw [Blowfish.expandStep]
    dsimp only
    rw [show 2 * (9 + 128 * i + t) = 18 + 256 * i + 2 * t by omega,
      show 18 + 256 * i + 2 * t + 1 = 18 + 256 * i + (2 * t + 1) by omega]

theorem sPhase_eq {ctx : BfCtx} (h : Shape ctx) (dp : BfUnit) :
    ∃ s, Bf.sPhase ctx dp = .ok s ∧ Shape s.1 ∧
      (flat s.1, pr s.2) = (List.range 512).foldl (fun a t => Blowfish.expandStep a (9 + t)) (flat ctx, pr dp) := by
  refine forN_inv (fun n s => Shape s.1 ∧
      (flat s.1, pr s.2) = (List.range (128 * n)).foldl (fun a t => Blowfish.expandStep a (9 + t))
        (flat ctx, pr dp)) 4 _ (ctx, dp) ⟨h, rfl⟩ ?_
  intro i s hi ⟨hs, he⟩
  obtain ⟨s', w, sh, f⟩ := sRow_eq hs i hi
  refine ⟨s', w, sh, ?_⟩
  rw [f, he, Nat.mul_succ, foldl_range_add (fun a t => Blowfish.expandStep a (9 + t))]
  simp only [Nat.add_assoc]

/-- The initial table. -/
def table0 : List W32 := bfP0 ++ bfS0.flatten

theorem mixKey_append (A B : List W32) (key : List Byte) (hA : A.length = 18) :
    Blowfish.mixKey (A ++ B) key = A.mapIdx (fun i w => w ^^^ Blowfish.keyWord key i) ++ B := by
  rw [Blowfish.mixKey, List.mapIdx_append]
  congr 1
  · apply List.ext_getElem
    · simp
    · intro i h1 h2
      have : i < 18 := by simpa [hA] using h1
      simp [this]
  · apply List.ext_getElem
    · simp
    · intro i h1 h2
      simp only [List.getElem_mapIdx]
      rw [if_neg (by omega)]

theorem shape_S0 (P : List W32) (hP : P.length = 18) : Shape ⟨P, bfS0⟩ := by
  refine ⟨hP, rfl, ?_⟩
  intro r hr
  have : r = bfS0_0 ∨ r = bfS0_1 ∨ r = bfS0_2 ∨ r = bfS0_3 := by simpa [bfS0] using hr
  rcases this with h | h | h | h
  · rw [h]; decide +kernel
  · rw [h]; decide +kernel
  · rw [h]; decide +kernel
  · rw [h]; decide +kernel

theorem init_eq (ctx : BfCtx) (hctx : Shape ctx) (key : List Byte) (L : Nat) (h0 : 0 < L) (hL : L ≤ key.length) :
    ∃ ctx', Bf.init ctx key L = .ok ctx' ∧ Shape ctx' ∧ flat ctx' = Blowfish.expand table0 (key.take L) := by
  have hb : bfP0.length = 18 := rfl
  have hs0 : Shape ⟨bfP0.mapIdx (fun i w => w ^^^ Blowfish.keyWord (key.take L) i), bfS0⟩ :=
    shape_S0 _ (by rw [List.length_mapIdx, hb])
  obtain ⟨s1, w1, sh1, e1⟩ := pPhase_eq hs0 (un (0#32, 0#32))
  rw [pr_un] at e1
  obtain ⟨s2, w2, sh2, e2⟩ := sPhase_eq sh1 s1.2
  refine ⟨s2.1, ?_, sh2, ?_⟩
  · rw [Bf.init, keyPhase_eq key L h0 hL ctx.P hctx.1, bind_ok]
    have w1' : Bf.pPhase ⟨bfP0.mapIdx (fun i w => w ^^^ Blowfish.keyWord (key.take L) i), bfS0⟩ ⟨0#32, 0#32⟩ = .ok s1 := w1
    rw [w1', bind_ok, w2, bind_ok]
  · have hflat : flat ⟨bfP0.mapIdx (fun i w => w ^^^ Blowfish.keyWord (key.take L) i), bfS0⟩ =
        Blowfish.mixKey table0 (key.take L) := by rw [table0, mixKey_append _ _ _ hb, flat]
    rw [Blowfish.expand, show 521 = 9 + 512 from rfl, foldl_range_add, ← hflat, ← e1, ← e2]

end Pgfe.Proofs.Bf
