import Verif.Proofs.Work
import Verif.Proofs.Md5
/-!
# Upper bounds for the work of the traced functions: MD5
-/
namespace Pgfe.Proofs.Work
open Pgfe.Model Pgfe.Spec
open Pgfe.Proofs.Trace (res_bind)

theorem rds_length {α : Type} {a : Arr} {b c : List α} {i n : Nat} (h : (T.rds a b i n).res = .ok c) : c.length = n := by
  have h' : Pgfe.rds b i n = .ok c := h
  unfold Pgfe.rds at h'
  split at h'
  · injection h' with h'
    subst h'
    rw [List.length_take, List.length_drop]; omega
  · cases h'

theorem md5Step_bd (x : List W32) (r i : Nat) (buf : List W32) : Bd (Tr.md5Step x r i buf) 10 := by
  unfold Tr.md5Step
  iterate 9 bd1
  split
  · bd1
  · bd1
theorem md5Decode_bd (b : List Byte) : Bd (Tr.md5Decode b 64) 97 := by
  unfold Tr.md5Decode
  refine Bd.mono (Bd.forN _ _ (b := 5) (fun i s => ?_)) (by omega)
  repeat bd1
theorem md5Encode_bd (a d : Arr) (x : List W32) (n : Nat) (o : List Byte) : Bd (Tr.md5Encode a d x n o) (n / 4 * 6 + 1) := by
  unfold Tr.md5Encode
  refine Bd.mono (Bd.forN _ _ (b := 5) (fun i s => ?_)) (by omega)
  repeat bd1
theorem md5Transform_bd (s : List W32) (b : List Byte) : Bd (Tr.md5Transform s b) 826 := by
  unfold Tr.md5Transform
  iterate 4 bd1
  refine Bd.next (md5Decode_bd _) (by omega) (fun _ => ?_)
  refine Bd.next (Bd.forN 4 _ (fun r s => Bd.forN 16 _ (fun i s => md5Step_bd _ _ _ _))) (by omega) (fun _ => ?_)
  iterate 3
    bd1
    refine Bd.next (addAt_bd _ _ _) (by omega) (fun _ => ?_)
  bd1
  exact Bd.mono (addAt_bd _ _ _) (by omega)

/-- What `md5Loop` leaves to `md5Finish`. -/
def Left (length : Nat) (c : Md5Ctx) (rl : Nat) : Option (Nat × Nat) → Prop
  | none => True
  | some (off, rem) => rl ≤ length ∧ 0 < rem ∧ rem ≤ 64 ∧ (rl < length → length - rl < rem ∧ rem = 64 - md5Offset c)

theorem offset_add (c c' : Md5Ctx) (k : Nat) (h : c'.blockLen = c.blockLen + BitVec.ofNat 64 k) :
    md5Offset c' = (md5Offset c + k) % 64 := by
  rw [Md5.offset_eq, Md5.offset_eq, h, BitVec.toNat_add, BitVec.toNat_ofNat]
  omega

theorem md5Loop_run (x : List Byte) (length : Nat) : ∀ (k : Nat) (c : Md5Ctx) (rl : Nat) (l : Option (Nat × Nat)),
    length - rl = k → Left length c length l → rl ≤ length →
    Run (Tr.md5Loop x length c rl l) (fun r => Left length r.1 r.2.1 r.2.2) (fun r => 13 * md5Offset r.1 + 15 * (length - r.2.1))
      (13 * md5Offset c + 15 * (length - rl) + 2) := by
  intro k
  induction k using Nat.strongRecOn with
  | _ k ih =>
    intro c rl l hk hl hle
    have ho := md5Offset_lt c
    rw [Tr.md5Loop]
    refine Run.mono (a := 1 + (13 * md5Offset c + 15 * (length - rl) + 1)) ?_ (by omega)
    refine Run.bd (Bd.br _) (fun _ _ => ?_)
    by_cases h : rl < length
    · rw [dif_pos h]
      refine Run.mono (a := 1 + (13 * md5Offset c + 15 * (length - rl))) ?_ (by omega)
      refine Run.bd (Bd.br _) (fun _ _ => ?_)
      by_cases hb : length - rl < 64 - md5Offset c
      · rw [if_pos hb]
        exact Run.ret (P := fun (r : Md5Ctx × Nat × Option (Nat × Nat)) => Left length r.1 r.2.1 r.2.2)
          (φ := fun (r : Md5Ctx × Nat × Option (Nat × Nat)) => 13 * md5Offset r.1 + 15 * (length - r.2.1)) _
          ⟨by omega, by omega, by omega, fun _ => ⟨hb, rfl⟩⟩
      · rw [if_neg hb]
        refine Run.mono (a := (64 - md5Offset c) + ((64 - md5Offset c) + (826 + (15 * (length - (rl + (64 - md5Offset c))) + 2)))) ?_
          (by omega)
        refine Run.bd (Bd.mono (Bd.rds _ _ _ _) (by omega)) (fun src hs => ?_)
        have hsl := rds_length hs
        refine Run.bd (Bd.mono (Bd.wrs _ _ _ _) (by omega)) (fun block hbk => ?_)
        refine Run.bd (md5Transform_bd _ _) (fun st hst => ?_)
        have r := ih (length - (rl + (64 - md5Offset c))) (by omega)
          { state := st, blockLen := c.blockLen + BitVec.ofNat 64 (64 - md5Offset c), block := block }
          (rl + (64 - md5Offset c)) (some (md5Offset c, 64 - md5Offset c)) rfl
          ⟨by omega, by omega, by omega, fun h => by omega⟩ (by omega)
        have e0 : md5Offset { state := st, blockLen := c.blockLen + BitVec.ofNat 64 (64 - md5Offset c), block := block } = 0 := by
          rw [offset_add c { state := st, blockLen := c.blockLen + BitVec.ofNat 64 (64 - md5Offset c), block := block } _ rfl]
          omega
        rw [e0] at r
        exact Run.mono r (by omega)
    · rw [dif_neg h]
      have hrl : rl = length := by omega
      refine Run.mono (Run.ret (P := fun (r : Md5Ctx × Nat × Option (Nat × Nat)) => Left length r.1 r.2.1 r.2.2)
          (φ := fun (r : Md5Ctx × Nat × Option (Nat × Nat)) => 13 * md5Offset r.1 + 15 * (length - r.2.1)) _ (by subst hrl; exact hl)) ?_
      dsimp only
      omega

theorem md5Finish_run (x : List Byte) (length : Nat) (c : Md5Ctx) (rl : Nat) (l : Option (Nat × Nat)) (h : Left length c rl l) :
    Run (Tr.md5Finish x length c rl l) (fun _ => True) (fun c => 13 * md5Offset c) (13 * md5Offset c + 15 * (length - rl) + 2) := by
  cases l with
  | none => exact Run.fail _ _
  | some l =>
    obtain ⟨off, rem⟩ := l
    obtain ⟨h1, h2, h3, h4⟩ := h
    unfold Tr.md5Finish
    dsimp only
    refine Run.mono (a := 1 + (13 * md5Offset c + 15 * (length - rl) + 1)) ?_ (by omega)
    refine Run.bd (Bd.br _) (fun some_ hsome => ?_)
    have hs : decide (length - rl ≠ 0) = some_ := by injection hsome
    refine Run.seq (P := fun (r : Md5Ctx × Nat) => 0 < r.2) (ψ := fun r => 1 + 13 * md5Offset r.1) ?_ (fun r hr => ?_)
    · by_cases hw : length - rl = 0
      · have : some_ = false := by rw [← hs]; simp [hw]
        subst this
        rw [if_neg (by decide)]
        refine Run.mono (Run.ret (P := fun (r : Md5Ctx × Nat) => 0 < r.2) (φ := fun r => 1 + 13 * md5Offset r.1) _ h2) ?_
        dsimp only; omega
      · have : some_ = true := by rw [← hs]; simp [hw]
        subst this
        rw [if_pos rfl]
        obtain ⟨h5, h6⟩ := h4 (by omega)
        refine Run.mono (a := (length - rl) + ((length - rl) + (1 + 13 * (md5Offset c + (length - rl))))) ?_ (by omega)
        refine Run.bd (Bd.mono (Bd.rds _ _ _ _) (by omega)) (fun src hs => ?_)
        have hsl := rds_length hs
        refine Run.bd (Bd.mono (Bd.wrs _ _ _ _) (by omega)) (fun block hbk => ?_)
        refine Run.mono (Run.ret (P := fun (r : Md5Ctx × Nat) => 0 < r.2) (φ := fun r => 1 + 13 * md5Offset r.1) _
          (by dsimp only; omega)) ?_
        dsimp only
        rw [offset_add c _ _ rfl]
        have := md5Offset_lt c
        omega
    · refine Run.bd (Bd.br _) (fun full hf => ?_)
      have : decide (r.2 = 0) = full := by injection hf
      have : full = false := by rw [← this]; simp; omega
      subst this
      rw [if_neg (by decide)]
      exact Run.ret (φ := fun (c : Md5Ctx) => 13 * md5Offset c) _ trivial

theorem md5Update_run (c : Md5Ctx) (x : List Byte) (n : Nat) :
    Run (Tr.md5Update c (some x) n) (fun _ => True) (fun c => 13 * md5Offset c) (13 * md5Offset c + (15 * n + 5)) := by
  unfold Tr.md5Update
  dsimp only
  refine Run.mono (a := 1 + (13 * md5Offset c + 15 * (n - 0) + 2 + 2)) ?_ (by omega)
  refine Run.bd (Bd.br _) (fun _ _ => ?_)
  refine Run.seq (P := fun (r : Md5Ctx × Nat × Option (Nat × Nat)) => Left n r.1 r.2.1 r.2.2)
    (ψ := fun r => 13 * md5Offset r.1 + 15 * (n - r.2.1) + 2) ?_ (fun r hr => md5Finish_run x n _ _ _ hr)
  have r := md5Loop_run x n (n - 0) c 0 none rfl trivial (Nat.zero_le _)
  exact ⟨Nat.le_trans r.1 (by omega), fun a ha => ⟨(r.2 a ha).1, Nat.add_le_add_right (r.2 a ha).2 2⟩⟩

theorem md5Digest_run (c : Md5Ctx) (o : List Byte) :
    Run (Tr.md5Digest c o) (fun _ => True) (fun r => 13 * md5Offset r.1) (13 * md5Offset c + 1129) := by
  unfold Tr.md5Digest
  refine Run.mono (a := (8 / 4 * 6 + 1) + (1 + (13 * md5Offset c + (15 * 64 + 5) + ((15 * 8 + 5) + ((16 / 4 * 6 + 1)))))) ?_ (by omega)
  refine Run.bd (md5Encode_bd _ _ _ _ _) (fun chunk _ => ?_)
  refine Run.bd (Bd.br _) (fun short hs => ?_)
  have hs : decide ((c.blockLen &&& 0x3F#64).toNat < 56) = short := by injection hs
  have hi : (c.blockLen &&& 0x3F#64).toNat < 64 := by
    have := md5Offset_lt c
    have e : (c.blockLen &&& 0x3F#64).toNat = c.blockLen.toNat % 64 := by
      rw [BitVec.toNat_and]; exact Nat.and_two_pow_sub_one_eq_mod _ 6
    omega
  refine Run.seq (P := fun _ => True) (ψ := fun (c : Md5Ctx) => 13 * md5Offset c + ((15 * 8 + 5) + (16 / 4 * 6 + 1))) ?_ (fun c1 _ => ?_)
  · have r := md5Update_run c md5Padding (if short = true then 56 - (c.blockLen &&& 0x3F#64).toNat else 120 - (c.blockLen &&& 0x3F#64).toNat)
    have hb : (if short = true then 56 - (c.blockLen &&& 0x3F#64).toNat else 120 - (c.blockLen &&& 0x3F#64).toNat) ≤ 64 := by
      cases short with
      | true => rw [if_pos rfl]; omega
      | false =>
        rw [if_neg (by decide)]
        have : ¬ (c.blockLen &&& 0x3F#64).toNat < 56 := by simpa using hs
        omega
    refine ⟨Nat.le_trans r.1 (by omega), fun a ha => ⟨trivial, ?_⟩⟩
    have := (r.2 a ha).2
    dsimp only at this ⊢
    omega
  · refine Run.seq (P := fun _ => True) (ψ := fun (c : Md5Ctx) => 13 * md5Offset c + (16 / 4 * 6 + 1)) ?_ (fun c2 _ => ?_)
    · have r := md5Update_run c1 chunk 8
      refine ⟨Nat.le_trans r.1 (by omega), fun a ha => ⟨trivial, ?_⟩⟩
      have := (r.2 a ha).2
      dsimp only at this ⊢
      omega
    · refine Run.mono (a := (16 / 4 * 6 + 1) + 13 * md5Offset c2) ?_ (by omega)
      refine Run.bd (md5Encode_bd _ _ _ _ _) (fun _ _ => ?_)
      exact Run.ret (P := fun _ => True) (φ := fun (r : Md5Ctx × List Byte) => 13 * md5Offset r.1) _ trivial

end Pgfe.Proofs.Work
