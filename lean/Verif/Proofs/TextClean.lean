import Verif.Proofs.TextOut
import Verif.Proofs.HexCleanIn
/-!
# What the trace of the hexadecimal cleaner tells
-/
namespace Pgfe.Proofs.TextTrace
open Pgfe Pgfe.Model Pgfe.Proofs.Trace Pgfe.Spec.TextClass

theorem plain_iff (sp op : Nat) (c c' : Byte) (A A' : Nat → List Event) (x y : List Event) (R : Prop)
    (h : ∀ k, A k ++ x = A' k ++ y ↔ R) :
    ([Event.rd .input sp 1] ++ (ctr .base16 c ++ (if unk .base16 c then A op
        else [.rd .input sp 1, .wr .output op 1] ++ A (op + 1)))) ++ x =
      ([Event.rd .input sp 1] ++ (ctr .base16 c' ++ (if unk .base16 c' then A' op
        else [.rd .input sp 1, .wr .output op 1] ++ A' (op + 1)))) ++ y ↔ seen .base16 c = seen .base16 c' ∧ R := by
  rw [app_cancel, List.append_assoc, List.append_assoc]
  have step : ∀ b : Bool, ((if b then A op else [.rd .input sp 1, .wr .output op 1] ++ A (op + 1)) ++ x =
      (if b then A' op else [.rd .input sp 1, .wr .output op 1] ++ A' (op + 1)) ++ y) ↔ R := by
    intro b
    cases b
    · simp only [Bool.false_eq_true, if_false, app_cancel, h]
    · simp only [if_true, h]
  constructor
  · intro e
    obtain ⟨h1, h2⟩ := ctr_seen e
    rw [(seen_ctr h1).2, step] at h2
    exact ⟨h1, h2⟩
  · rintro ⟨h1, h2⟩
    rw [(seen_ctr h1).1, (seen_ctr h1).2, List.append_right_inj, step]
    exact h2

theorem nil_cons (c : Byte) (t : List Byte) (sp op : Nat) (flag : Int) (x y : List Event) :
    ¬ (CL [] sp flag op ++ x = CL (c :: t) sp flag op ++ y) := by
  intro h
  rw [CL, CL] at h
  simp only [List.cons_append, List.cons.injEq, Event.br.injEq] at h
  exact absurd h.2.1 (by decide)

theorem CL_far (t : List Byte) : ∀ (t' : List Byte) (sp op : Nat) (flag : Int) (x y : List Event), 1 ≤ flag →
    (CL t sp flag op ++ x = CL t' sp flag op ++ y ↔ t.map (seen .base16) = t'.map (seen .base16) ∧ x = y) := by
  induction t with
  | nil =>
    intro t' sp op flag x y hf
    cases t' with
    | nil => exact ⟨fun h => ⟨rfl, List.append_cancel_left h⟩, fun h => by rw [h.2]⟩
    | cons c t' => exact ⟨fun h => absurd h (nil_cons _ _ _ _ _ _ _), fun h => absurd h.1 (by simp)⟩
  | cons c t ih =>
    intro t' sp op flag x y hf
    cases t' with
    | nil => exact ⟨fun h => absurd h.symm (nil_cons _ _ _ _ _ _ _), fun h => absurd h.1 (by simp)⟩
    | cons c' t' =>
      have h0 : ¬ flag = 0 := by omega
      have hn : 1 ≤ nf flag := by unfold nf; split <;> omega
      have hP : ∀ c c', PRE c flag sp = PRE c' flag sp := by
        intro c c'
        unfold PRE
        rw [if_neg h0, if_neg h0]
      have hi : ∀ c, isP c flag = false := by intro c; simp [isP, h0]
      rw [CL, CL, app_cancel, hP c c', app_cancel, hi, hi]
      simp only [Bool.false_eq_true, if_false]
      rw [plain_iff sp op c c' (fun k => CL t (sp + 1) (nf flag) k) (fun k => CL t' (sp + 1) (nf flag) k) x y _
          (fun k => ih t' (sp + 1) k (nf flag) x y hn), List.map_cons, List.map_cons, List.cons.injEq, and_assoc]

/-- The prefix letter at the first place. -/
def lead : List Byte → Option Byte
  | c :: _ => mark c 0x78#8 0x58#8
  | [] => none

theorem mark_some {c c' : Byte} (h : mark c 0x78#8 0x58#8 = mark c' 0x78#8 0x58#8) (hs : (mark c 0x78#8 0x58#8).isSome = true) :
    c = c' := by
  have key : ∀ c, (mark c 0x78#8 0x58#8).isSome = true → mark c 0x78#8 0x58#8 = some c := by
    intro c h
    unfold mark at h ⊢
    split
    · rfl
    · rename_i hn; rw [if_neg hn] at h; cases h
  rw [key c hs] at h
  have h2 := key c' (by rw [← h]; rfl)
  rw [h2] at h
  exact Option.some.inj h

theorem CL_second (t t' : List Byte) (sp op : Nat) (x y : List Event) :
    CL t sp 0 op ++ x = CL t' sp 0 op ++ y ↔ lead t = lead t' ∧ t.map (seen .base16) = t'.map (seen .base16) ∧ x = y := by
  cases t with
  | nil =>
    cases t' with
    | nil => exact ⟨fun h => ⟨rfl, rfl, List.append_cancel_left h⟩, fun h => by rw [h.2.2]⟩
    | cons c t' => exact ⟨fun h => absurd h (nil_cons _ _ _ _ _ _ _), fun h => absurd h.2.1 (by simp)⟩
  | cons c t =>
    cases t' with
    | nil => exact ⟨fun h => absurd h.symm (nil_cons _ _ _ _ _ _ _), fun h => absurd h.2.1 (by simp)⟩
    | cons c' t' =>
      have hn : 1 ≤ nf 0 := by decide
      have hP : ∀ c, PRE c 0 sp = [.br true, .br true, .rd .input sp 1] ++ MK c 0x78#8 0x58#8 := by intro c; rfl
      have hi : ∀ c, isP c 0 = (mark c 0x78#8 0x58#8).isSome := by intro c; rfl
      rw [CL, CL, app_cancel, hP, hP, hi, hi]
      simp only [List.append_assoc]
      rw [List.append_right_inj, MK_iff (by decide)]
      simp only [← List.append_assoc]
      refine and_congr_right fun hm => ?_
      rw [← hm]
      cases hs : (mark c 0x78#8 0x58#8).isSome
      · simp only [Bool.false_eq_true, if_false]
        simp only [List.append_assoc]
        have := plain_iff sp op c c' (fun k => CL t (sp + 1) (nf 0) k) (fun k => CL t' (sp + 1) (nf 0) k) x y _
          (fun k => CL_far t t' (sp + 1) k (nf 0) x y hn)
        simp only [List.append_assoc] at this
        rw [this, List.map_cons, List.map_cons, List.cons.injEq, and_assoc]
      · have := mark_some hm hs
        subst this
        rw [if_pos rfl, if_pos rfl, CL_far _ _ _ _ _ _ _ hn, List.map_cons, List.map_cons, List.cons.injEq]
        simp

theorem prefix_cons (c : Byte) (t : List Byte) : hexPrefix (c :: t) = lead t := by
  cases t <;> rfl

theorem CL_first (t t' : List Byte) (sp op : Nat) (x y : List Event) :
    CL t sp (-1) op ++ x = CL t' sp (-1) op ++ y ↔
      hexPrefix t = hexPrefix t' ∧ t.map (seen .base16) = t'.map (seen .base16) ∧ x = y := by
  cases t with
  | nil =>
    cases t' with
    | nil => exact ⟨fun h => ⟨rfl, rfl, List.append_cancel_left h⟩, fun h => by rw [h.2.2]⟩
    | cons c t' => exact ⟨fun h => absurd h (nil_cons _ _ _ _ _ _ _), fun h => absurd h.2.1 (by simp)⟩
  | cons c t =>
    cases t' with
    | nil => exact ⟨fun h => absurd h.symm (nil_cons _ _ _ _ _ _ _), fun h => absurd h.2.1 (by simp)⟩
    | cons c' t' =>
      have hP : ∀ c c', PRE c (-1) sp = PRE c' (-1) sp := fun _ _ => rfl
      have hi : ∀ c, isP c (-1) = false := fun _ => rfl
      have hn : nf (-1) = 0 := rfl
      rw [CL, CL, app_cancel, hP c c', app_cancel, hi, hi, hn]
      simp only [Bool.false_eq_true, if_false]
      rw [plain_iff sp op c c' (fun k => CL t (sp + 1) 0 k) (fun k => CL t' (sp + 1) 0 k) x y _
          (fun k => CL_second t t' (sp + 1) k x y), List.map_cons, List.map_cons, List.cons.injEq, prefix_cons, prefix_cons]
      constructor
      · rintro ⟨a, b, c, d⟩; exact ⟨b, ⟨a, c⟩, d⟩
      · rintro ⟨b, ⟨a, c⟩, d⟩; exact ⟨a, b, c, d⟩

theorem clean_tr (t rest out : List Byte) (h0 : ∀ c ∈ t, c ≠ 0#8) (r : Nat × List Byte)
    (h : hashStringClean (t ++ 0#8 :: rest) out = .ok r) :
    (Tr.Text.hashStringClean (t ++ 0#8 :: rest) out).tr = CL t 0 (-1) 0 ++ [.wr .output r.1 1] := by
  rw [← clean_res] at h
  unfold Tr.Text.hashStringClean at h ⊢
  obtain ⟨v, hv, h⟩ := bind_okE h
  obtain ⟨w, hw, h⟩ := bind_okE h
  rw [ok_bindT hv, ok_bindT hw, pre_tr, cleanLoop_tr t rest h0 _ _ _ _ _ hv]
  cases h
  rfl

/-- Where the loop ends to write. -/
def endOp : List Byte → Int → Nat → Nat
  | [], _, op => op
  | c :: t, flag, op =>
    if isP c flag then endOp t (nf flag) 0
    else if unk .base16 c then endOp t (nf flag) op
    else endOp t (nf flag) (op + 1)

theorem cleanLoop_end (t rest : List Byte) (h0 : ∀ c ∈ t, c ≠ 0#8) : ∀ (sp op : Nat) (flag : Int) (out : List Byte)
    (r : Nat × List Byte), (Tr.Text.cleanLoop (t ++ 0#8 :: rest) sp flag op out).res = .ok r → r.1 = endOp t flag op := by
  induction t with
  | nil =>
    intro sp op flag out r h
    cases h
    rfl
  | cons c t ih =>
    intro sp op flag out r h
    have hc := h0 c (List.mem_cons_self ..)
    have ih := ih (fun d hd => h0 d (List.mem_cons_of_mem _ hd))
    rw [List.cons_append, clean_step _ _ _ _ _ _ hc] at h
    rw [pre_res] at h
    rw [endOp]
    cases hp : isP c flag
    · rw [hp] at h
      simp only [Bool.false_eq_true, if_false, peek_bind] at h ⊢
      have hr : (Tr.Text.ch2hex c).res = .ok (ch2hex c) := ch2hex_res c
      rw [ok_bindT hr, pre_res, pre_res, br_bind, pre_res, (hexc c).2] at h
      cases hu : unk .base16 c
      · simp only [hu, Bool.false_eq_true, if_false] at h ⊢
        obtain ⟨o, ho, h⟩ := bind_okE h
        exact ih _ _ _ _ _ h
      · simp only [hu, if_true] at h ⊢
        exact ih _ _ _ _ _ h
    · rw [hp] at h
      simp only [if_true] at h ⊢
      exact ih _ _ _ _ _ h

theorem endOp_eq (t : List Byte) : ∀ (t' : List Byte) (flag : Int) (op : Nat), -1 ≤ flag →
    t.map (seen .base16) = t'.map (seen .base16) → (flag = 0 → lead t = lead t') → (flag = -1 → hexPrefix t = hexPrefix t') →
    endOp t flag op = endOp t' flag op := by
  induction t with
  | nil =>
    intro t' flag op hf h _ _
    cases t' with
    | nil => rfl
    | cons c' t' => cases h
  | cons c t ih =>
    intro t' flag op hf h h1 h2
    cases t' with
    | nil => cases h
    | cons c' t' =>
      rw [List.map_cons, List.map_cons, List.cons.injEq] at h
      have hp : isP c flag = isP c' flag := by
        unfold isP
        by_cases e : flag = 0
        · have : mark c 0x78#8 0x58#8 = mark c' 0x78#8 0x58#8 := h1 e
          rw [this]
        · simp [e]
      have hn : -1 ≤ nf flag := by unfold nf; split <;> omega
      have k1 : nf flag = 0 → lead t = lead t' := by
        intro e
        have : flag = -1 := by unfold nf at e; split at e <;> omega
        have := h2 this
        rwa [prefix_cons, prefix_cons] at this
      have k2 : nf flag = -1 → hexPrefix t = hexPrefix t' := by
        intro e
        exfalso
        unfold nf at e
        split at e <;> omega
      rw [endOp, endOp, hp, (seen_ctr h.1).2, ih t' _ 0 hn h.2 k1 k2, ih t' _ op hn h.2 k1 k2, ih t' _ (op + 1) hn h.2 k1 k2]

theorem clean_end (t rest out : List Byte) (h0 : ∀ c ∈ t, c ≠ 0#8) (r : Nat × List Byte)
    (h : hashStringClean (t ++ 0#8 :: rest) out = .ok r) : r.1 = endOp t (-1) 0 := by
  rw [← clean_res] at h
  unfold Tr.Text.hashStringClean at h
  obtain ⟨v, hv, h⟩ := bind_okE h
  obtain ⟨w, hw, h⟩ := bind_okE h
  have := cleanLoop_end t rest h0 _ _ _ _ _ hv
  cases h
  exact this

theorem clean_iff (t t' rest rest' out out' : List Byte) (h0 : ∀ c ∈ t, c ≠ 0#8) (h0' : ∀ c ∈ t', c ≠ 0#8) (r r' : Nat × List Byte)
    (h : hashStringClean (t ++ 0#8 :: rest) out = .ok r) (h' : hashStringClean (t' ++ 0#8 :: rest') out' = .ok r') :
    (Tr.Text.hashStringClean (t ++ 0#8 :: rest) out).tr = (Tr.Text.hashStringClean (t' ++ 0#8 :: rest') out').tr ↔
      hexPrefix t = hexPrefix t' ∧ t.map (seen .base16) = t'.map (seen .base16) := by
  rw [clean_tr t rest out h0 r h, clean_tr t' rest' out' h0' r' h', CL_first]
  refine ⟨fun h => ⟨h.1, h.2.1⟩, fun e => ⟨e.1, e.2, ?_⟩⟩
  rw [clean_end t rest out h0 r h, clean_end t' rest' out' h0' r' h',
    endOp_eq t t' (-1) 0 (by omega) e.2 (by intro e; omega) (fun _ => e.1)]

/-- `strlen` of a text in an array. -/
theorem strlen_okR (t rest : List Byte) (h0 : ∀ c ∈ t, c ≠ 0#8) :
    ∀ sp, Tr.Text.strlen (t ++ 0#8 :: rest) sp = ⟨.ok t.length, SL t sp⟩ := by
  induction t with
  | nil => intro sp; rfl
  | cons c t ih =>
    intro sp
    have hc : decide (c = 0#8) = false := decide_eq_false (h0 c (List.mem_cons_self ..))
    rw [List.cons_append, Tr.Text.strlen, peek_bind, br_bind]
    simp only [hc, Bool.false_eq_true, if_false]
    rw [ih (fun d hd => h0 d (List.mem_cons_of_mem _ hd)), ok_bindT (m := ⟨.ok _, _⟩) rfl, SL]
    show (⟨.ok (t.length + 1), _ ++ (_ ++ (SL t (sp + 1) ++ []))⟩ : T Nat) = _
    rw [List.append_nil]
    rfl

theorem digits_nz (t : List Byte) (h0 : ∀ c ∈ t, c ≠ 0#8) : ∀ c ∈ Spec.digitsOf (Spec.dropPrefix t), c ≠ 0#8 := by
  intro c hc
  unfold Spec.digitsOf at hc
  have hm := (List.mem_filter.1 hc).1
  match t, h0 with
  | [], _ => cases hm
  | [a], h0 => exact h0 c hm
  | a :: b :: t, h0 =>
    change c ∈ (if b = 0x78#8 ∨ b = 0x58#8 then t else a :: b :: t) at hm
    split at hm
    · exact h0 c (by simp [hm])
    · exact h0 c hm

theorem digits_le (t : List Byte) : (Spec.digitsOf (Spec.dropPrefix t)).length ≤ t.length := by
  unfold Spec.digitsOf
  refine Nat.le_trans (List.length_filter_le ..) ?_
  match t with
  | [] => exact Nat.le_refl _
  | [a] => exact Nat.le_refl _
  | a :: b :: t =>
    change (if b = 0x78#8 ∨ b = 0x58#8 then t else a :: b :: t).length ≤ _
    split
    · simp only [List.length_cons]; omega
    · exact Nat.le_refl _

theorem length_tr (t rest g : List Byte) (h0 : ∀ c ∈ t, c ≠ 0#8) (hg : t.length < g.length) :
    ∃ r, hashStringClean (t ++ 0#8 :: rest) (g.take (t.length + 1)) = .ok r ∧
    (Tr.Text.hashLength g (t ++ 0#8 :: rest)).tr =
      SL t 0 ++ ((Tr.Text.hashStringClean (t ++ 0#8 :: rest) (g.take (t.length + 1))).tr ++
        SL (Spec.digitsOf (Spec.dropPrefix t)) 0) ∧ r.1 = (Spec.digitsOf (Spec.dropPrefix t)).length := by
  have hz : 0#8 ∉ t := fun h => h0 _ h rfl
  have hl := digits_le t
  have hc := clean_ok t rest (g.take (t.length + 1)) hz (by rw [List.length_take]; omega)
  refine ⟨_, hc, ?_, rfl⟩
  unfold Tr.Text.hashLength
  rw [strlen_okR t rest h0, ok_bindT (m := ⟨.ok _, _⟩) rfl, pre_tr, List.append_right_inj]
  dsimp only
  rw [ok_bindT ((clean_res _ _).trans hc), pre_tr, List.append_right_inj]
  dsimp only
  rw [strlen_okR _ _ (digits_nz t h0), ok_bindT (m := ⟨.ok _, _⟩) rfl, pre_tr]
  exact List.append_nil _

theorem length_iff (t t' rest rest' g g' : List Byte) (h0 : ∀ c ∈ t, c ≠ 0#8) (h0' : ∀ c ∈ t', c ≠ 0#8)
    (hg : t.length < g.length) (hg' : t'.length < g'.length) :
    (Tr.Text.hashLength g (t ++ 0#8 :: rest)).tr = (Tr.Text.hashLength g' (t' ++ 0#8 :: rest')).tr ↔
      hexPrefix t = hexPrefix t' ∧ t.map (seen .base16) = t'.map (seen .base16) := by
  obtain ⟨r, hr, e, n⟩ := length_tr t rest g h0 hg
  obtain ⟨r', hr', e', n'⟩ := length_tr t' rest' g' h0' hg'
  rw [e, e', SL_iff]
  constructor
  · rintro ⟨_, h⟩
    rw [clean_tr t rest _ h0 r hr, clean_tr t' rest' _ h0' r' hr', List.append_assoc, List.append_assoc, CL_first] at h
    exact ⟨h.1, h.2.1⟩
  · intro h
    have hl : t.length = t'.length := by simpa using congrArg List.length h.2
    have he := (clean_iff t t' rest rest' _ _ h0 h0' r r' hr hr').2 h
    have hn : (Spec.digitsOf (Spec.dropPrefix t)).length = (Spec.digitsOf (Spec.dropPrefix t')).length := by
      rw [← n, ← n', clean_end t rest _ h0 r hr, clean_end t' rest' _ h0' r' hr',
        endOp_eq t t' (-1) 0 (by omega) h.2 (by intro e; omega) (fun _ => h.1)]
    refine ⟨hl, ?_⟩
    rw [he, List.append_right_inj]
    have := (SL_iff (Spec.digitsOf (Spec.dropPrefix t)) (Spec.digitsOf (Spec.dropPrefix t')) 0 [] []).2 ⟨hn, rfl⟩
    rwa [List.append_nil, List.append_nil] at this

end Pgfe.Proofs.TextTrace
