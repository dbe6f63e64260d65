import Verif.Proofs.KeccakHash
import Verif.Proofs.KeccakFast
/-!
# Evaluating the KECCAK functions in the kernel; the squeezing flag
-/
namespace Pgfe.Proofs.Keccak
open Pgfe.Model Pgfe.Spec.Keccak
open Pgfe.Spec.Sha (blocks)
open Pgfe.Proofs.Sha

noncomputable def kAbs (n : Nat) (st : List W64) : List (List Byte) → C (List W64)
  | [] => .ok st
  | b :: r => seqToState b 0 st (n * 8) >>= fun A => kAbs n (permFast A) r

noncomputable def kOut (n : Nat) (st : List W64) : Nat → C (List Byte)
  | 0 => .ok []
  | k + 1 => do
    let b ← stateToSeq st (List.replicate (8 * n) 0#8) n
    if k = 0 then .ok b
    else do
      let r ← kOut n (permFast st) k
      .ok (b ++ r)

/-- The first `k` blocks of the output stream. -/
noncomputable def kEval (n : Nat) (d : Byte) (m : List Byte) (k : Nat) : C (List Byte) :=
  kAbs n (List.replicate 25 0#64) (blocks (8 * n) (padB (8 * n) d m)) >>= fun st => kOut n st k

theorem kAbs_ok (n : Nat) (h0 : 0 < n) (hn : n ≤ 25) (bs : List (List Byte)) :
    ∀ f, (∀ b ∈ bs, b.length = 8 * n) → kAbs n (lst f) bs = .ok (lst (bs.foldl absF f)) := by
  induction bs with
  | nil => intro f _; rfl
  | cons b r ih =>
    intro f h
    have hb := h b (List.mem_cons_self ..)
    rw [kAbs, seqToState_ok b 0 f n h0 hn (by omega), bind_ok, permFast_eq]
    rw [List.drop_zero, List.take_of_length_le (by omega),
      show permF (xorF f b) = absF f b from rfl, ih _ (fun b hb => h b (List.mem_cons_of_mem _ hb))]
    rfl

theorem perms_comm (k : Nat) (f : Nat → W64) : perms k (permF f) = perms (k + 1) f := by
  induction k with
  | zero => rfl
  | succ k ih => rw [perms, ih]; rfl

theorem kOut_ok (n : Nat) (h0 : 0 < n) (hn : n ≤ 25) (k : Nat) :
    ∀ f j, kOut n (lst (perms j f)) k = .ok (piece (8 * n) f (j * (8 * n)) (k * (8 * n))) := by
  induction k with
  | zero => intro f j; simp [kOut, piece]
  | succ k ih =>
    intro f j
    rw [kOut, stateToSeq_ok _ _ n h0 hn (by simp), bind_ok]
    have := piece_block (8 * n) (by omega) (by omega) f j 0 (8 * n) (by omega)
    rw [List.drop_zero, Nat.add_zero] at this
    rw [this]
    by_cases hk : k = 0
    · rw [if_pos hk, hk]; simp
    rw [if_neg hk]
    rw [permFast_eq]
    have e : permF (perms j f) = perms (j + 1) f := rfl
    rw [e, ih, bind_ok]
    rw [show (k + 1) * (8 * n) = 8 * n + k * (8 * n) by rw [Nat.succ_mul, Nat.add_comm], piece_add,
      show (j + 1) * (8 * n) = j * (8 * n) + 8 * n by rw [Nat.succ_mul]]
    simp

theorem kEval_ok (n : Nat) (h0 : 0 < n) (hn : n ≤ 25) (d : Byte) (m : List Byte) (k : Nat) :
    kEval n d m k = .ok (piece (8 * n) (fin (8 * n) d m) 0 (k * (8 * n))) := by
  have e : List.replicate 25 0#64 = lst (fun _ => 0#64) := by decide
  rw [kEval, e, kAbs_ok n h0 hn _ _ (blocks_len _ _), bind_ok]
  have := kOut_ok n h0 hn k (fin (8 * n) d m) 0
  rw [Nat.zero_mul] at this
  exact this

theorem piece_take (rb : Nat) (F : Nat → W64) (p a b : Nat) (h : a ≤ b) :
    (piece rb F p b).take a = piece rb F p a := by
  obtain ⟨c, rfl⟩ := Nat.exists_eq_add_of_le h
  rw [piece_add, List.take_left' (piece_length ..)]

/-- The way examples are computed. -/
theorem keccak_eval (cap n : Nat) (hc : 1600 - cap = 64 * n) (h0 : 0 < n) (hn : n ≤ 25) (sfx : List Bool) (d : Byte)
    (h : DomSep sfx d) (m : List Byte) (j : Nat) (r : List Byte)
    (e : (kEval n d m (j / (8 * n) + 1)).map (List.take j) = .ok r) :
    bytesOf (keccak cap (bitsOf m ++ sfx) (8 * j)) = r := by
  rw [keccak_bytes cap (8 * n) j (by omega) (by omega) (by omega) sfx d h]
  rw [kEval_ok n h0 hn] at e
  have hle : j ≤ (j / (8 * n) + 1) * (8 * n) := by
    have h1 := Nat.div_add_mod j (8 * n)
    have h2 := Nat.mod_lt j (by omega : 0 < 8 * n)
    rw [Nat.succ_mul, Nat.mul_comm (j / (8 * n))]
    omega
  have e : Except.ok (List.take j _) = Except.ok r := e
  rw [piece_take _ _ _ _ _ hle] at e
  cases e
  rw [piece]
  simp only [Nat.zero_add]

/-! ## The squeezing flag -/

theorem refill_sq {c c' : KeccakCtx} (h : keccakRefill c = .ok c') : c'.squeezing = c.squeezing := by
  rw [keccakRefill] at h
  split at h
  · cases h1 : keccakPermutation c.state c.nr with
    | error e => rw [h1, bind_err] at h; cases h
    | ok A =>
      rw [h1, bind_ok] at h
      cases h2 : stateToSeq A c.dataQueue (c.rate / 64) with
      | error e => rw [h2, bind_err] at h; cases h
      | ok q => rw [h2, bind_ok] at h; cases h; rfl
  · cases h; rfl

theorem step_sq {c c' : KeccakCtx} {o o' : List Byte} {b i i' : Nat}
    (h : keccakSqueezeStep c o b i = .ok (c', o', i')) : c'.squeezing = c.squeezing := by
  rw [keccakSqueezeStep] at h
  cases h1 : keccakRefill c with
  | error e => rw [h1, bind_err] at h; cases h
  | ok d =>
    rw [h1, bind_ok] at h
    dsimp only at h
    cases h2 : keccakSqueezeCopy d o i (squeezeChunk d.squeezable b i) with
    | error e => rw [h2, bind_err] at h; cases h
    | ok q => rw [h2, bind_ok] at h; cases h; exact (refill_sq (c' := d) h1)

theorem sloop_sq (b : Nat) : ∀ k i (c : KeccakCtx) (o : List Byte) c' o', b - i ≤ k →
    keccakSqueezeLoop c o b i = .ok (c', o') → c'.squeezing = c.squeezing := by
  intro k
  induction k with
  | zero =>
    intro i c o c' o' hk h
    rw [keccakSqueezeLoop, dif_neg (by omega)] at h
    cases h; rfl
  | succ k ih =>
    intro i c o c' o' hk h
    rw [keccakSqueezeLoop] at h
    by_cases hi : i < b
    · rw [dif_pos hi] at h
      cases h1 : keccakSqueezeStep c o b i with
      | error e => rw [h1] at h; cases h
      | ok r =>
        obtain ⟨c1, o1, i1⟩ := r
        rw [h1] at h
        dsimp only at h
        by_cases h2 : i < i1
        · rw [dif_pos h2] at h
          rw [ih i1 c1 o1 c' o' (by omega) h, step_sq h1]
        · rw [dif_neg h2] at h; cases h
    · rw [dif_neg hi] at h
      cases h; rfl

theorem padding_sq {c c' : KeccakCtx} (h : keccakPadding c = .ok c') : c'.squeezing = true := by
  rw [keccakPadding] at h
  have key : ∀ (x : C KeccakCtx), (x >>= fun ctx => do
      let q ← orBit ctx.dataQueue ((ctx.rate - 1) / 8) ((ctx.rate - 1) % 8)
      let ctx ← keccakAbsorbQueue { ctx with dataQueue := q }
      let q ← stateToSeq ctx.state ctx.dataQueue (ctx.rate / 64)
      .ok { ctx with dataQueue := q, squeezable := ctx.rate, squeezing := true }) = .ok c' →
      c'.squeezing = true := by
    intro x hx
    cases x with
    | error e => rw [bind_err] at hx; cases hx
    | ok d =>
      rw [bind_ok] at hx
      cases h1 : orBit d.dataQueue ((d.rate - 1) / 8) ((d.rate - 1) % 8) with
      | error e => rw [h1, bind_err] at hx; cases hx
      | ok q =>
        rw [h1, bind_ok] at hx
        cases h2 : keccakAbsorbQueue { d with dataQueue := q } with
        | error e => rw [h2, bind_err] at hx; cases hx
        | ok d2 =>
          rw [h2, bind_ok] at hx
          cases h3 : stateToSeq d2.state d2.dataQueue (d2.rate / 64) with
          | error e => rw [h3, bind_err] at hx; cases hx
          | ok q2 => rw [h3, bind_ok] at hx; cases hx; rfl
  exact key _ h

theorem squeeze_sq {c c' : KeccakCtx} {o o' : List Byte} (h : keccakSqueeze c o = .ok (c', o')) :
    c'.squeezing = true := by
  rw [keccakSqueeze] at h
  have key : ∀ (x : C KeccakCtx), (x >>= fun ctx => do
      let ctx ← (if ¬ ctx.squeezing then keccakPadding ctx else .ok ctx)
      keccakSqueezeLoop ctx o ctx.outLength 0) = .ok (c', o') → c'.squeezing = true := by
    intro x hx
    cases x with
    | error e => rw [bind_err] at hx; cases hx
    | ok d =>
      rw [bind_ok] at hx
      by_cases hs : d.squeezing
      · rw [if_neg (by simpa using hs), bind_ok] at hx
        rw [sloop_sq _ _ 0 d o c' o' (Nat.le_refl _) hx, hs]
      · rw [if_pos hs] at hx
        cases h1 : keccakPadding d with
        | error e => rw [h1, bind_err] at hx; cases hx
        | ok d1 =>
          rw [h1, bind_ok] at hx
          rw [sloop_sq _ _ 0 d1 o c' o' (Nat.le_refl _) hx, padding_sq h1]
  exact key _ h

theorem update_ignored {c : KeccakCtx} (h : c.squeezing = true) (x : List Byte) (n : Nat) :
    keccakUpdate c (some x) n = .ok c := by
  rw [keccakUpdate]
  rw [keccakAbsorb, if_pos (Or.inr h)]

end Pgfe.Proofs.Keccak
