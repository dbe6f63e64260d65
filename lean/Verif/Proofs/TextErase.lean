import Verif.Model.TraceText
import Verif.Proofs.TraceErase
/-!
# The traced text functions compute what the functions of the model compute
-/
namespace Pgfe.Proofs.TextTrace
open Pgfe Pgfe.Model Pgfe.Proofs.Trace

theorem inRange_res (c lo hi : Byte) : (Tr.Text.inRange c lo hi).res = .ok (inRange c lo hi) := by
  unfold Tr.Text.inRange inRange
  rw [res_bind, res_br, bind_ok]
  cases decide (lo ≤ c) <;> rfl

theorem eq_res (c d : Byte) : (Tr.Text.eq c d).res = .ok (decide (c = d)) := rfl

theorem eqOr_res (c d e : Byte) : (Tr.Text.eqOr c d e).res = .ok (decide (c = d ∨ c = e)) := by
  unfold Tr.Text.eqOr
  rw [res_bind, eq_res, bind_ok]
  by_cases h : c = d <;> simp [h, eq_res, res_pure]

theorem iteOk {α : Type} (p : Prop) [Decidable p] (a b : α) :
    (if p then (Except.ok a : C α) else .ok b) = .ok (if p then a else b) := by split <;> rfl

theorem charFn_res (a : BaseAlg) (c : Byte) : (Tr.Text.charFn a c).res = .ok (a.charFn c) := by
  cases a
  all_goals
    simp only [Tr.Text.charFn, BaseAlg.charFn, Tr.Text.decodeBase16Char, decodeBase16Char, Tr.Text.decodeBase32Char,
      decodeBase32Char, Tr.Text.decodeBase32HexChar, decodeBase32HexChar, Tr.Text.decodeBase64Char, decodeBase64Char,
      res_bind, res_ite, res_pure, inRange_res, eqOr_res, eq_res, bind_ok, iteOk, decide_eq_true_eq]

theorem ch2hex_res (c : Byte) : (Tr.Text.ch2hex c).res = .ok (ch2hex c) := by
  simp only [Tr.Text.ch2hex, ch2hex, res_bind, res_ite, res_pure, inRange_res, bind_ok, iteOk, inRange,
    Bool.and_eq_true, decide_eq_true_eq]

/-- What the group loop returns, without the index. -/
def dropSp (g : List Byte × Nat × Nat × W64) : List Byte × Nat × W64 := (g.1, g.2.2.1, g.2.2.2)

theorem peek_cons (sp : Nat) (c : Byte) (r : List Byte) : (Tr.Text.peek sp (c :: r)).res = .ok c := rfl

theorem decGroup_res (P : BaseParams) (a : BaseAlg) (cs : List Byte) : ∀ (sp i : Nat) (u : W64),
    ((Tr.Text.decGroup P (Tr.Text.charFn a) cs sp i u).res >>= fun g => .ok (dropSp g)) =
      decGroup P a.charFn cs i u := by
  induction cs with
  | nil => intros; rfl
  | cons c r ih =>
    intro sp i u
    unfold Tr.Text.decGroup decGroup
    simp only [res_bind, peek_cons, bind_ok, res_br]
    by_cases h0 : c = 0#8
    · simp only [h0, ne_eq, not_true_eq_false, decide_false, Bool.false_eq_true, if_false, res_pure, bind_ok, true_or,
        if_true]
      rfl
    · by_cases hi : i < P.chunkCount
      · simp only [h0, ne_eq, not_false_eq_true, decide_true, if_true, res_br, bind_ok, hi, charFn_res, not_true_eq_false,
          or_self, if_false, res_bind, peek_cons]
        by_cases hu : a.charFn c &&& 0xC0#8 = unknownCode
        · simp only [hu, decide_true, if_true]
          exact ih _ _ _
        · simp only [hu, decide_false, if_false, Bool.false_eq_true]
          exact ih _ _ _
      · simp only [h0, ne_eq, not_false_eq_true, decide_true, if_true, res_br, bind_ok, hi, decide_false, Bool.false_eq_true,
          or_true, if_false, res_pure]
        rfl

theorem iterPush (n : Nat) (f : Nat → Byte) :
    forN n (fun j (b : List Byte) => (.ok (b ++ [f j]) : C (List Byte))) [] = .ok ((List.range n).map f) := by
  induction n with
  | zero => rfl
  | succ n ih => rw [forN, ih, bind_ok, List.range_succ, List.map_append]; rfl

theorem unitBytes_res (P : BaseParams) (u : W64) : (Tr.Text.unitBytes P u).res = .ok (unitBytes P u) := by
  unfold Tr.Text.unitBytes unitBytes
  rw [res_forN]
  exact iterPush P.unitSize _

theorem unitBytes_length (P : BaseParams) (u : W64) : (unitBytes P u).length = P.unitSize := by
  unfold unitBytes; rw [List.length_map, List.length_range]

theorem rds_all {b : List Byte} {n : Nat} (h : b.length = n) : rds b 0 n = .ok b := by
  subst h
  rw [rds_ok (by omega), List.drop_zero, List.take_length]

theorem afterGroup_res {α : Type} (P : BaseParams)
    (next : List Byte → Nat → W64 → Nat → List Byte → Option (List Byte) → T α) (op : Nat) (out : List Byte)
    (rest : List Byte) (sp i : Nat) (u : W64) : (Tr.Text.afterGroup P next op out (rest, sp, i, u)).res = (do
      let c' ← rd rest 0
      let u := if c' = 0#8 ∧ i < P.chunkCount then u <<< (P.bitSize * (P.chunkCount - i)) else u
      let out ← wrs out op (unitBytes P u)
      (next rest sp u (op + P.unitSize) out (some (unitBytes P u))).res) := by
  unfold Tr.Text.afterGroup
  simp only [res_bind]
  show rd rest 0 >>= _ = _
  cases rd rest 0 with
  | error e => rfl
  | ok c =>
    simp only [bind_ok, res_br]
    by_cases h0 : c = 0#8
    · simp only [h0, decide_true, if_true, res_br, bind_ok, true_and, decide_eq_true_eq, unitBytes_res, res_rds,
        rds_all (unitBytes_length P _), res_wrs]
    · simp only [h0, decide_false, Bool.false_eq_true, if_false, res_pure, bind_ok, false_and, unitBytes_res, res_rds,
        rds_all (unitBytes_length P _), res_wrs]

theorem decLoop_res (P : BaseParams) (a : BaseAlg) (n : Nat) : ∀ (cs : List Byte) (sp : Nat) (u : W64) (op : Nat)
    (out : List Byte) (o : Option (List Byte)),
    (Tr.Text.decLoop P (Tr.Text.charFn a) n cs sp u op out o).res = decLoop P a.charFn n cs u op out o := by
  induction n with
  | zero => intros; rfl
  | succ n ih =>
    intro cs sp u op out o
    cases cs with
    | nil => rfl
    | cons c r =>
      unfold Tr.Text.decLoop decLoop
      simp only [res_bind, peek_cons, bind_ok, res_br]
      by_cases h0 : c = 0#8
      · simp only [h0, ne_eq, not_true_eq_false, decide_false, Bool.false_eq_true, if_false, res_pure, if_true]
      · simp only [h0, ne_eq, not_false_eq_true, decide_true, if_true, if_false, res_bind]
        rw [← decGroup_res P a (c :: r) sp 0 u]
        cases (Tr.Text.decGroup P (Tr.Text.charFn a) (c :: r) sp 0 u).res with
        | error e => rfl
        | ok g =>
          obtain ⟨rest, sp', i, u'⟩ := g
          simp only [bind_ok, afterGroup_res, ih, dropSp]

theorem countLoop_res (out unit : List Byte) (op : Nat) (k : Nat) : ∀ i,
    (Tr.Text.countLoop out unit op k i).res = countLoop out unit op k i := by
  induction k with
  | zero => intros; rfl
  | succ k ih =>
    intro i
    unfold Tr.Text.countLoop countLoop
    simp only [res_bind, res_br, bind_ok, res_rd]
    cases rd out (op + i) with
    | error e => rfl
    | ok b =>
      cases rd unit i with
      | error e => rfl
      | ok o =>
        simp only [bind_ok]
        by_cases h : b = o
        · by_cases h' : b = 0#8
          · simp only [← h, h', decide_true, if_true, res_br, res_pure, bind_ok, ne_eq, not_true_eq_false, decide_false,
              Bool.false_eq_true, if_false, and_false]
          · simp only [← h, h', decide_true, if_true, res_br, bind_ok, ne_eq, not_false_eq_true, and_self, ih]
        · simp only [h, decide_false, Bool.false_eq_true, if_false, res_pure, bind_ok, false_and]

theorem decode_res (a : BaseAlg) (cs out : List Byte) : (Tr.Text.decode a cs out).res = pgfeDecode a cs out := by
  unfold Tr.Text.decode pgfeDecode Tr.Text.decodeBase decodeBase
  rw [res_bind, decLoop_res]
  congr 1
  funext x
  obtain ⟨op, out, o⟩ := x
  cases o with
  | none => rfl
  | some u =>
    simp only [res_bind, countLoop_res, res_wr, res_pure]

theorem hexLoop_res (cs : List Byte) : ∀ (sp : Nat) (odd : Bool) (h : Byte) (op : Nat) (out : List Byte),
    (Tr.Text.hexLoop cs sp odd h op out).res = hexLoop cs odd h op out := by
  induction cs with
  | nil => intros; rfl
  | cons c r ih =>
    intro sp odd h op out
    unfold Tr.Text.hexLoop hexLoop
    simp only [res_bind, peek_cons, bind_ok, res_br]
    by_cases h0 : c = 0#8
    · simp only [h0, ne_eq, not_true_eq_false, decide_false, Bool.false_eq_true, if_false, res_pure, if_true]
    · simp only [h0, ne_eq, not_false_eq_true, decide_true, if_true, if_false, res_bind, peek_cons, bind_ok, ch2hex_res,
        res_br, res_ite, res_wr, ih, decide_eq_true_eq]

theorem strlen_res (cs : List Byte) : ∀ sp, (Tr.Text.strlen cs sp).res = strlen cs := by
  induction cs with
  | nil => intros; rfl
  | cons c r ih =>
    intro sp
    unfold Tr.Text.strlen strlen
    simp only [res_bind, peek_cons, bind_ok, res_br, res_ite, ih, res_pure, decide_eq_true_eq]

theorem hexStringToHash_res (s out : List Byte) :
    (Tr.Text.hexStringToHash s out).res = hexStringToHash s out := by
  unfold Tr.Text.hexStringToHash hexStringToHash
  rw [res_bind, strlen_res]
  congr 1
  funext n
  rw [res_bind, res_rd]
  congr 1
  funext t
  simp only [res_bind, res_br, bind_ok]
  have key : ∀ off len : Nat, (do
        let tpc ← Tr.Text.rdBefore s (off + len)
        let h ← Tr.Text.eqOr tpc 0x68#8 0x48#8
        let len := if h then len - 1 else len
        Tr.Text.hexLoop (s.drop off) off (len % 2 == 1) 0 0 out : T (Nat × List Byte)).res = (do
        let tpc ← rdBefore s (off + len)
        let len := if tpc = 0x68#8 ∨ tpc = 0x48#8 then len - 1 else len
        hexLoop (s.drop off) (len % 2 == 1) 0 0 out) := by
    intro off len
    simp only [res_bind, eqOr_res, bind_ok, hexLoop_res, decide_eq_true_eq]
    rfl
  simp only [res_bind, eqOr_res, bind_ok] at key
  by_cases hn : 2 ≤ n
  · by_cases ht : t = 0x78#8 ∨ t = 0x58#8
    · simp only [hn, ht, decide_true, if_true, eqOr_res, bind_ok, and_self]
      exact key 2 (n - 2)
    · simp only [hn, ht, decide_true, decide_false, if_true, if_false, eqOr_res, bind_ok, and_false, Bool.false_eq_true]
      exact key 0 n
  · simp only [hn, decide_false, if_false, res_pure, bind_ok, false_and, Bool.false_eq_true, eqOr_res]
    exact key 0 n

end Pgfe.Proofs.TextTrace
