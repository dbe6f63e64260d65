import Verif.Model.TraceOut
import Verif.Proofs.TextHex
import Verif.Proofs.TraceSame
import Verif.Proofs.HexClean
/-!
# The traces of the functions that write results as text
-/
namespace Pgfe.Proofs.TextTrace
open Pgfe Pgfe.Model Pgfe.Proofs.Trace Pgfe.Spec.TextClass

theorem hashToHexString_res (x : List Byte) (n : Nat) (out : List Byte) :
    (Tr.Text.hashToHexString x n out).res = hashToHexString x n out := by
  unfold Tr.Text.hashToHexString hashToHexString
  simp only [res_bind, res_forN, res_rd, res_wr, res_pure]
  rfl

theorem printHash_res (x : List Byte) (n : Nat) : (Tr.Text.printHash x n).res = printHash x n := by
  unfold Tr.Text.printHash printHash
  simp only [res_bind, res_forN, res_rd, res_pure]

theorem otpLoop_res (d : Nat) : ∀ (n : Nat) (cs : List Byte),
    (Tr.Text.otpToStringLoop d n cs).res = otpToStringLoop d n cs := by
  induction d with
  | zero => intros; rfl
  | succ d ih =>
    intro n cs
    unfold Tr.Text.otpToStringLoop otpToStringLoop
    simp only [res_bind, res_br, bind_ok, res_wr, ih]

theorem otpToString_res (n : W32) (cs : List Byte) (d : Nat) :
    (Tr.Text.otpToString n cs d).res = otpToString n cs d := by
  unfold Tr.Text.otpToString otpToString
  simp only [res_bind, otpLoop_res, res_wr]

theorem zeroPad_ok (d : Nat) : ∀ (k : Nat) (s : List Byte), d - s.length = k →
    Tr.Text.zeroPadLoop d s = ⟨.ok (zeroPadLoop d s), List.replicate k (.br true) ++ [.br false]⟩ := by
  intro k
  induction k with
  | zero =>
    intro s h
    have : ¬ s.length < d := by omega
    rw [Tr.Text.zeroPadLoop, zeroPadLoop, if_neg this, if_neg this]
    rfl
  | succ k ih =>
    intro s h
    have : s.length < d := by omega
    rw [Tr.Text.zeroPadLoop, zeroPadLoop, if_pos this, if_pos this, br_bind, ih _ (by rw [List.length_cons]; omega)]
    rfl

theorem generateStr_ok (n d : Nat) : Tr.Text.generateStr n d =
    ⟨.ok (generateStr n d), List.replicate (d - (stdToString n).length) (.br true) ++ [.br false]⟩ :=
  zeroPad_ok d _ _ rfl

theorem stdToString_pos (n : Nat) : 1 ≤ (stdToString n).length := by
  rw [stdToString]
  split
  · simp
  · simp

theorem stdToString_lt (k : Nat) : ∀ n, (stdToString n).length ≤ k + 1 ↔ n < 10 ^ (k + 1) := by
  induction k with
  | zero =>
    intro n
    rw [stdToString]
    split
    · simp; omega
    · have := stdToString_pos (n / 10)
      rw [List.length_append, List.length_singleton]
      omega
  | succ k ih =>
    intro n
    rw [stdToString]
    split
    · rename_i h
      have : 10 ^ 1 ≤ 10 ^ (k + 1 + 1) := Nat.pow_le_pow_right (by omega) (by omega)
      simp; omega
    · rw [List.length_append, List.length_singleton, Nat.add_le_add_iff_right, ih, Nat.pow_succ 10 (k + 1)]
      omega

theorem rep_iff (a b : Nat) : List.replicate a (Event.br true) ++ [.br false] = List.replicate b (.br true) ++ [.br false] ↔ a = b := by
  refine ⟨fun h => ?_, fun h => by rw [h]⟩
  have := congrArg List.length h
  simpa using this

theorem generateStr_iff (n n' d : Nat) : (Tr.Text.generateStr n d).tr = (Tr.Text.generateStr n' d).tr ↔
    ∀ k, 1 ≤ k → k < d → (n < 10 ^ k ↔ n' < 10 ^ k) := by
  rw [generateStr_ok, generateStr_ok, rep_iff]
  have p := stdToString_pos n
  have p' := stdToString_pos n'
  constructor
  · intro h k h1 h2
    obtain ⟨k, rfl⟩ : ∃ j, k = j + 1 := ⟨k - 1, by omega⟩
    rw [← stdToString_lt, ← stdToString_lt]
    omega
  · intro h
    have key : ∀ m m', (∀ k, 1 ≤ k → k < d → (m < 10 ^ k ↔ m' < 10 ^ k)) → (stdToString m).length < d →
        (stdToString m').length ≤ (stdToString m).length := by
      intro m m' h hm
      have p := stdToString_pos m
      obtain ⟨j, hj⟩ : ∃ j, (stdToString m).length = j + 1 := ⟨_, (Nat.sub_add_cancel p).symm⟩
      rw [hj, stdToString_lt]
      exact (h (j + 1) (by omega) (by omega)).1 ((stdToString_lt j m).1 (by omega))
    by_cases a : (stdToString n).length < d <;> by_cases b : (stdToString n').length < d
    · have := key n n' h a
      have := key n' n (fun k h1 h2 => (h k h1 h2).symm) b
      omega
    · have := key n n' h a
      omega
    · have := key n' n (fun k h1 h2 => (h k h1 h2).symm) b
      omega
    · omega

/-! ## Nothing but lengths -/

theorem hashToHexString_same (x x' out out' : List Byte) (n : Nat) (hx : x.length = x'.length) (ho : out.length = out'.length) :
    (Tr.Text.hashToHexString x n out).tr = (Tr.Text.hashToHexString x' n out').tr := by
  unfold Tr.Text.hashToHexString
  refine Same.tr (R := Any) (Same.seq (R := fun a b : Nat × List Byte => a.1 = b.1 ∧ L a.2 b.2) (Same.forN _ ⟨rfl, ho⟩ ?_) ?_)
  · rintro i ⟨a, o⟩ ⟨b, o'⟩ ⟨h1, h2⟩
    dsimp only at h1 h2 ⊢
    subst h1
    refine Same.seq (Same.rd _ _ hx) fun c c' _ => ?_
    refine Same.seq (R := L) ⟨rfl, rfl⟩ fun d d' hd => ?_
    refine Same.seq (Same.rd _ _ hd) fun e e' _ => ?_
    refine Same.seq (Same.wr _ _ _ _ h2) fun f f' hf => ?_
    refine Same.seq (Same.rd _ _ hd) fun e e' _ => ?_
    refine Same.seq (Same.wr _ _ _ _ hf) fun f f' hf => ?_
    exact Same.ret ⟨rfl, hf⟩
  · rintro ⟨a, o⟩ ⟨b, o'⟩ ⟨h1, h2⟩
    dsimp only at h1 h2 ⊢
    subst h1
    exact Same.seq (Same.wr _ _ _ _ h2) fun f f' hf => Same.ret trivial

theorem printHash_same (x x' : List Byte) (n : Nat) (hx : x.length = x'.length) :
    (Tr.Text.printHash x n).tr = (Tr.Text.printHash x' n).tr := by
  unfold Tr.Text.printHash
  refine Same.tr (R := Any) (Same.forN _ trivial ?_)
  intro i a b _
  exact Same.seq (Same.rd _ _ hx) fun c c' _ => Same.ret trivial

theorem otpLoop_same (d : Nat) : ∀ (n n' : Nat) (cs cs' : List Byte), L cs cs' →
    Same L (Tr.Text.otpToStringLoop d n cs) (Tr.Text.otpToStringLoop d n' cs') := by
  induction d with
  | zero => intro n n' cs cs' h; exact Same.br rfl (Same.ret h)
  | succ d ih =>
    intro n n' cs cs' h
    unfold Tr.Text.otpToStringLoop
    exact Same.br rfl (Same.seq (Same.wr _ _ _ _ h) fun _ _ h => ih _ _ _ _ h)

theorem otpToString_same (n n' : W32) (cs cs' : List Byte) (d : Nat) (h : cs.length = cs'.length) :
    (Tr.Text.otpToString n cs d).tr = (Tr.Text.otpToString n' cs' d).tr :=
  (Same.seq (otpLoop_same d _ _ _ _ h) fun _ _ h => Same.wr _ _ _ _ h).tr

/-! ## The cleaner -/

theorem cleanLoop_res (cs : List Byte) : ∀ (sp : Nat) (flag : Int) (op : Nat) (out : List Byte),
    (Tr.Text.cleanLoop cs sp flag op out).res = cleanLoop cs flag op out := by
  induction cs with
  | nil => intros; rfl
  | cons c r ih =>
    intro sp flag op out
    unfold Tr.Text.cleanLoop cleanLoop
    simp only [res_bind, peek_cons, bind_ok, res_br]
    by_cases h0 : c = 0#8
    · simp only [h0, ne_eq, not_true_eq_false, decide_false, Bool.false_eq_true, if_false, res_pure, if_true]
    · simp only [h0, ne_eq, not_false_eq_true, decide_true, if_true, if_false]
      by_cases hf : flag < 2
      · by_cases h1 : flag + 1 = 1
        · simp only [hf, h1, decide_true, if_true, res_bind, res_br, bind_ok, eqOr_res, peek_cons, res_ite, ih, ch2hex_res, res_wr, true_and,
            decide_eq_true_eq]
        · simp only [hf, h1, decide_true, decide_false, if_true, if_false, Bool.false_eq_true, res_bind, res_br, bind_ok, peek_cons,
            res_ite, res_pure, ih, ch2hex_res, res_wr, true_and, false_and, decide_eq_true_eq]
      · simp only [hf, decide_false, if_false, Bool.false_eq_true, res_bind, res_br, bind_ok, peek_cons,
            res_ite, res_pure, ih, ch2hex_res, res_wr, false_and, decide_eq_true_eq]

theorem clean_res (s out : List Byte) : (Tr.Text.hashStringClean s out).res = hashStringClean s out := by
  unfold Tr.Text.hashStringClean hashStringClean
  simp only [res_bind, cleanLoop_res, res_wr, res_pure]

theorem hashLength_res (g s : List Byte) : (Tr.Text.hashLength g s).res = hashLength g s := by
  unfold Tr.Text.hashLength hashLength
  simp only [res_bind, clean_res, strlen_res, res_pure]

/-- The next value of `offset_flag`. -/
def nf (flag : Int) : Int := if flag < 2 then flag + 1 else flag

/-- Is the character a prefix letter at its place? -/
def isP (c : Byte) (flag : Int) : Bool := decide (flag = 0) && (mark c 0x78#8 0x58#8).isSome

/-- The decisions on the place, and on the prefix. -/
def PRE (c : Byte) (flag : Int) (sp : Nat) : List Event :=
  if flag < 2 then [.br true, .br (decide (flag + 1 = 1))] ++
    (if flag = 0 then [.rd .input sp 1] ++ MK c 0x78#8 0x58#8 else [])
  else [.br false]

/-- The trace of the loop. -/
def CL : List Byte → Nat → Int → Nat → List Event
  | [], sp, _, _ => [.rd .input sp 1, .br false]
  | c :: t, sp, flag, op =>
    [.rd .input sp 1, .br true] ++ (PRE c flag sp ++
      (if isP c flag then CL t (sp + 1) (nf flag) 0
      else [.rd .input sp 1] ++ (ctr .base16 c ++
        (if unk .base16 c then CL t (sp + 1) (nf flag) op
        else [.rd .input sp 1, .wr .output op 1] ++ CL t (sp + 1) (nf flag) (op + 1)))))

theorem clean_step (c : Byte) (rest : List Byte) (sp : Nat) (flag : Int) (op : Nat) (out : List Byte) (hc : c ≠ 0#8) :
    Tr.Text.cleanLoop (c :: rest) sp flag op out = pre ([.rd .input sp 1, .br true] ++ PRE c flag sp)
      (if isP c flag then Tr.Text.cleanLoop rest (sp + 1) (nf flag) 0 out
      else do
        let c ← Tr.Text.peek sp (c :: rest)
        let h ← Tr.Text.ch2hex c
        let unk ← T.br (decide (h = hexUnknown))
        if unk then Tr.Text.cleanLoop rest (sp + 1) (nf flag) op out
        else do
          let c ← Tr.Text.peek sp (c :: rest)
          let out ← T.wr .output out op c
          Tr.Text.cleanLoop rest (sp + 1) (nf flag) (op + 1) out) := by
  have hc : decide (c ≠ 0#8) = true := decide_eq_true hc
  rw [Tr.Text.cleanLoop, peek_bind, br_bind]
  simp only [hc, if_true]
  unfold PRE isP nf
  by_cases hf : flag < 2
  · by_cases h0 : flag = 0
    · subst h0
      simp only [show ((0 : Int) < 2) = True by simp, show ((0 : Int) + 1 = 1) = True by simp, decide_true, if_true, br_bind, peek_bind, eqOr_ok,
        Bool.true_and]
      rfl
    · have h1 : ¬ flag + 1 = 1 := by omega
      simp only [hf, h1, h0, decide_true, decide_false, if_true, if_false, Bool.false_eq_true, Bool.false_and, br_bind, pure_bindT]
      rfl
  · have h0 : ¬ flag = 0 := by omega
    simp only [hf, h0, decide_false, if_false, Bool.false_eq_true, Bool.false_and, br_bind, pure_bindT]
    rfl

theorem cleanLoop_tr (t rest : List Byte) (h0 : ∀ c ∈ t, c ≠ 0#8) : ∀ (sp op : Nat) (flag : Int) (out : List Byte)
    (r : Nat × List Byte), (Tr.Text.cleanLoop (t ++ 0#8 :: rest) sp flag op out).res = .ok r →
    (Tr.Text.cleanLoop (t ++ 0#8 :: rest) sp flag op out).tr = CL t sp flag op := by
  induction t with
  | nil => intro sp op flag out r h; rfl
  | cons c t ih =>
    intro sp op flag out r h
    have hc := h0 c (List.mem_cons_self ..)
    have ih := ih (fun d hd => h0 d (List.mem_cons_of_mem _ hd))
    rw [List.cons_append, clean_step _ _ _ _ _ _ hc] at h ⊢
    rw [pre_res] at h
    rw [pre_tr, CL, List.append_assoc, List.append_right_inj, List.append_right_inj]
    cases hp : isP c flag
    · rw [hp] at h
      simp only [Bool.false_eq_true, if_false, peek_bind] at h ⊢
      have hr : (Tr.Text.ch2hex c).res = .ok (ch2hex c) := ch2hex_res c
      rw [ok_bindT hr, pre_res, pre_res, br_bind, pre_res, (hexc c).2] at h
      rw [ok_bindT hr, br_bind, (hexc c).2]
      simp only [pre_tr]
      rw [← (hexc c).1]
      simp only [List.append_assoc, List.cons_append, List.nil_append, List.cons.injEq, true_and]
      rw [List.append_right_inj, List.cons.injEq]
      refine ⟨rfl, ?_⟩
      cases hu : unk .base16 c
      · simp only [hu, Bool.false_eq_true, if_false] at h ⊢
        obtain ⟨o, ho, h⟩ := bind_okE h
        rw [pre_tr, ok_bindT ho, pre_tr, ih _ _ _ _ _ h]
        rfl
      · simp only [hu, if_true] at h ⊢
        exact ih _ _ _ _ _ h
    · rw [hp] at h
      simp only [if_true] at h ⊢
      exact ih _ _ _ _ _ h

end Pgfe.Proofs.TextTrace
