import Verif.Proofs.WorkAll
import Verif.Model.TraceOther
/-!
# Upper bounds for the work: Blowfish, HOTP
-/
namespace Pgfe.Proofs.Work
open Pgfe.Model Pgfe.Spec

/-! ## Blowfish -/

theorem rdS_bd (c : BfCtx) (i j : Nat) : Bd (Tr.Bf.rdS c i j) 1 := Nat.le_refl _
theorem wrS_bd (c : BfCtx) (i j : Nat) (v : W32) : Bd (Tr.Bf.wrS c i j v) 1 := Nat.le_refl _

theorem F_bd (c : BfCtx) (x : W32) : Bd (Tr.Bf.F c x) 4 := by
  unfold Tr.Bf.F
  iterate 4 refine Bd.next (rdS_bd _ _ _) (by omega) (fun _ => ?_)
  exact Bd.done _ _

theorem round_bd (c : BfCtx) (i : Nat) (u : BfUnit) : Bd (Tr.Bf.round c i u) 5 := by
  unfold Tr.Bf.round
  bd1
  refine Bd.next (F_bd _ _) (by omega) (fun _ => Bd.done _ _)

theorem encryptUnit_bd (c : BfCtx) (u : BfUnit) : Bd (Tr.Bf.encryptUnit c u) 99 := by
  unfold Tr.Bf.encryptUnit
  refine Bd.next (Bd.forN 16 _ (fun i s => round_bd _ _ _)) (by omega) (fun _ => ?_)
  repeat bd1
theorem decryptUnit_bd (c : BfCtx) (u : BfUnit) : Bd (Tr.Bf.decryptUnit c u) 99 := by
  unfold Tr.Bf.decryptUnit
  refine Bd.next (Bd.forN 16 _ (fun i s => round_bd _ _ _)) (by omega) (fun _ => ?_)
  repeat bd1

theorem keyWord_bd (k : List Byte) (n j : Nat) : Bd (Tr.Bf.keyWord k n j) 9 := by
  unfold Tr.Bf.keyWord
  refine Bd.mono (Bd.forN 4 _ (b := 1) (fun i s => ?_)) (by omega)
  bd1
  dsimp only
  split
  · exact Bd.mono (Bd.fail _) (by omega)
  · exact Bd.done _ _

theorem keyPhase_bd (k : List Byte) (n : Nat) (P : List W32) : Bd (Tr.Bf.keyPhase k n P) 217 := by
  unfold Tr.Bf.keyPhase
  refine Bd.next (Bd.forN 18 _ (b := 11) (fun i s => ?_)) (by omega) (fun _ => Bd.done _ _)
  refine Bd.next (keyWord_bd _ _ _) (by omega) (fun _ => ?_)
  repeat bd1

theorem pPhase_bd (c : BfCtx) (u : BfUnit) : Bd (Tr.Bf.pPhase c u) 919 := by
  unfold Tr.Bf.pPhase
  refine Bd.mono (Bd.forN 9 _ (b := 101) (fun i s => ?_)) (by omega)
  refine Bd.next (encryptUnit_bd _ _) (by omega) (fun _ => ?_)
  repeat bd1

theorem sPhase_bd (c : BfCtx) (u : BfUnit) : Bd (Tr.Bf.sPhase c u) 52233 := by
  unfold Tr.Bf.sPhase
  refine Bd.mono (Bd.forN 4 _ (b := 13057) (fun i s => ?_)) (by omega)
  refine Bd.mono (Bd.forN 128 _ (b := 101) (fun i s => ?_)) (by omega)
  refine Bd.next (encryptUnit_bd _ _) (by omega) (fun _ => ?_)
  refine Bd.next (wrS_bd _ _ _ _) (by omega) (fun _ => ?_)
  refine Bd.next (wrS_bd _ _ _ _) (by omega) (fun _ => ?_)
  exact Bd.done _ _

theorem bfInit_bd (c : BfCtx) (k : List Byte) (n : Nat) : Bd (Tr.Bf.init c k n) 54393 := by
  unfold Tr.Bf.init
  have h0 : Bd Tr.Bf.copyS0 1024 := Nat.le_refl _
  refine Bd.next h0 (by omega) (fun _ => ?_)
  refine Bd.next (keyPhase_bd _ _ _) (by omega) (fun _ => ?_)
  refine Bd.next (pPhase_bd _ _) (by omega) (fun _ => ?_)
  refine Bd.next (sPhase_bd _ _) (by omega) (fun _ => Bd.done _ _)

theorem onBytes_bd {f : BfUnit → T BfUnit} (hf : ∀ u, Bd (f u) 99) (u : List Byte) : Bd (Tr.Bf.onBytes f u) 99 := by
  unfold Tr.Bf.onBytes
  exact Bd.next (hf _) (by omega) (fun _ => Bd.done _ _)

theorem copyOut_bd (u o : List Byte) (n : Nat) : Bd (Tr.Bf.copyOut u o n) 25 := by
  unfold Tr.Bf.copyOut
  refine Bd.mono (Bd.forN 8 _ (b := 2) (fun i s => ?_)) (by omega)
  repeat bd1

/-- A loop whose iterations have different costs. -/
theorem Bd.iterSum {σ : Type} {f : Nat → σ → T σ} {b : Nat → Nat} {g : Nat → Nat} (hg : ∀ i, g i + b i ≤ g (i + 1)) (h : ∀ i s, Bd (f i s) (b i)) :
    ∀ (n : Nat) (s : σ), Bd (T.iter n f s) (g n) := by
  intro n
  induction n with
  | zero => intro s; exact Bd.done _ _
  | succ n ih => intro s; rw [T.iter]; exact Bd.mono (Bd.seq (ih s) (fun x => h n x)) (hg n)

theorem bfGeneric_bd {f : BfUnit → T BfUnit} (hf : ∀ u, Bd (f u) 99) (u x : List Byte) (n : Nat) (o : List Byte) :
    Bd (Tr.Bf.generic f u x n o) (20 * n + 134) := by
  unfold Tr.Bf.generic
  refine Bd.next (a := 4 * n + 124 * (n / 8) + 1) ?_ (by omega) (fun s => ?_)
  · unfold T.forN
    refine Bd.seq (Bd.iterSum (b := fun i => 4 + if i % 8 = 7 then 124 else 0) (g := fun n => 4 * n + 124 * (n / 8)) (fun i => ?_) (fun i s => ?_) n _)
      (fun _ => Bd.mono (Bd.seq (Bd.br _) (fun _ => Bd.ret _)) (by omega))
    · split <;> omega
    · bd1
      bd1
      bd1
      refine Run.toBd (P := fun _ => True) (φ := fun _ => 0) ?_
      refine Run.next (Bd.br _) (by omega) (fun full hfull => ?_)
      have hfull := br_ok hfull
      have toRun : ∀ {α : Type} {m : T α} {B : Nat}, Bd m B → Run m (fun _ => True) (fun _ => 0) B := fun h => ⟨h, fun _ _ => ⟨trivial, h⟩⟩
      by_cases h7 : i % 8 = 7
      · rw [decide_eq_true h7] at hfull
        subst hfull
        rw [if_pos rfl, if_pos h7]
        refine toRun (Bd.next (onBytes_bd hf _) (by omega) (fun _ => ?_))
        exact Bd.next (copyOut_bd _ _ _) (by omega) (fun _ => Bd.done _ _)
      · rw [decide_eq_false h7] at hfull
        subst hfull
        rw [if_neg (by decide)]
        exact toRun (Bd.done _ _)
  · bd1
    split
    · refine Bd.next (Bd.wrs _ _ _ _) (by rw [List.length_replicate]; omega) (fun _ => ?_)
      rw [List.length_replicate]
      refine Bd.next (onBytes_bd hf _) (by omega) (fun _ => ?_)
      exact Bd.next (copyOut_bd _ _ _) (by omega) (fun _ => Bd.done _ _)
    · exact Bd.done _ _

theorem bfOp_bd (c : BfCtx) (o : Tr.Bf.Op) : Bd (Tr.Bf.op c o) (20 * o.input.length + 134) := by
  unfold Tr.Bf.op
  split
  · exact bfGeneric_bd (encryptUnit_bd c) _ _ _ _
  · exact bfGeneric_bd (decryptUnit_bd c) _ _ _ _

/-! ## HOTP -/

theorem reverse_bd : ∀ (n : Nat) (b : List Byte) (l h : Nat), h - l ≤ n → Bd (Tr.reverse b l h) (5 * n + 1) := by
  intro n
  induction n with
  | zero =>
    intro b l h hn
    rw [Tr.reverse]
    bd1
    split
    · omega
    · exact Bd.done _ _
  | succ n ih =>
    intro b l h hn
    rw [Tr.reverse]
    bd1
    split
    · bd1
      bd1
      bd1
      bd1
      exact Bd.mono (ih _ _ _ (by omega)) (by omega)
    · exact Bd.done _ _

theorem dynTruncate_bd (h : List Byte) (n : Nat) : Bd (Tr.dynTruncate h n) 10 := by
  unfold Tr.dynTruncate
  bd1
  refine Bd.next (Bd.forN 4 _ (b := 1) (fun i s => ?_)) (by omega) (fun _ => Bd.done _ _)
  bd1
  bd1

theorem sizes_le (a : Alg) : a.blockSize ≤ 168 ∧ a.digestSize ≤ 64 := by
  cases a <;> decide

/-- The one-shot HMAC. -/
theorem oneShot_bd (a : Alg) (g : HmacCtx.Mem (a.impl 0)) (h1 : memOK a 0 g.ctx.hash) (h2 : memOK a 0 g.inner) (k : List Byte) (kl : Nat) (x : List Byte)
    (n : Nat) (o : List Byte) :
    Bd ((a.traced 0).macOneShot a.blockSize a.digestSize g k kl x n o) (perByte a * n + 3 * perMac a) := by
  obtain ⟨mem, inv, φ, L, hm⟩ := exists_linear a 0
  refine Bd.mono (macOneShot_bd L _ _ g (hm _ h1) (hm _ h2) k kl x n o) ?_
  obtain ⟨s1, s2⟩ := sizes_le a
  have e1 := Nat.mul_le_mul_left (perByte a) s1
  have e2 := Nat.mul_le_mul_left (perByte a) s2
  unfold perMac
  omega

theorem pgfeHmac_bd (a : Alg) (g : HmacCtx.Mem (a.impl 0)) (h1 : memOK a 0 g.ctx.hash) (h2 : memOK a 0 g.inner) (k : List Byte) (kl : Nat) (x : List Byte)
    (n : Nat) (o : List Byte) :
    Bd (Tr.pgfeHmac a g k kl x n o) (perByte a * n + 3 * perMac a) := by
  cases a with
  | RawSHAKE128 => exact Bd.done _ _
  | SHAKE128 => exact Bd.done _ _
  | RawSHAKE256 => exact Bd.done _ _
  | SHAKE256 => exact Bd.done _ _
  | _ => exact oneShot_bd _ g h1 h2 k kl x n o

theorem hotp_bd (a : Alg) (g : HmacCtx.Mem (a.impl 0)) (h1 : memOK a 0 g.ctx.hash) (h2 : memOK a 0 g.inner) (ch oh secret : List Byte)
    (n : Nat) (c : W64) (d : Nat) : Bd (Tr.hotpGeneric a g ch oh secret n c d) (perByte a * 8 + 3 * perMac a + 56) := by
  unfold Tr.hotpGeneric
  refine Bd.next (Bd.wrs _ _ _ _) (by show max 1 8 ≤ _; omega) (fun _ => ?_)
  refine Bd.next (reverse_bd 7 _ 0 7 (by omega)) (by show 5 * 7 + 1 ≤ _ - max 1 8; omega) (fun _ => ?_)
  refine Bd.next (pgfeHmac_bd a g h1 h2 _ _ _ 8 _) (by show _ ≤ _ - max 1 8 - (5 * 7 + 1); omega) (fun _ => ?_)
  refine Bd.next (dynTruncate_bd _ _) (by show _ ≤ _ - max 1 8 - (5 * 7 + 1) - _; omega) (fun _ => ?_)
  refine Bd.next (Bd.br _) (by show _ ≤ _ - max 1 8 - (5 * 7 + 1) - _ - _; omega) (fun _ => ?_)
  split
  · refine Bd.next (Bd.rd _ _ _) (by show _ ≤ _ - max 1 8 - (5 * 7 + 1) - _ - _ - _; omega) (fun _ => Bd.done _ _)
  · exact Bd.done _ _

end Pgfe.Proofs.Work
