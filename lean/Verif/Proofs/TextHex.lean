import Verif.Proofs.TextEncode
/-!
# The hexadecimal parser's trace; the encoders' traces up to the letters
-/
namespace Pgfe.Proofs.TextTrace
open Pgfe Pgfe.Model Pgfe.Proofs.Trace Pgfe.Spec.TextClass

theorem hex_class : ∀ n : Fin 256, (Tr.Text.ch2hex (BitVec.ofFin n)).tr ++ [.br (decide (ch2hex (BitVec.ofFin n) = hexUnknown))] =
    ctr .base16 (BitVec.ofFin n) ∧ decide (ch2hex (BitVec.ofFin n) = hexUnknown) = unk .base16 (BitVec.ofFin n) := by
  decide +kernel

theorem hexc (c : Byte) : (Tr.Text.ch2hex c).tr ++ [.br (unk .base16 c)] = ctr .base16 c ∧
    decide (ch2hex c = hexUnknown) = unk .base16 c := by
  have := hex_class c.toFin
  change _ = ctr .base16 c ∧ _ = unk .base16 c at this
  refine ⟨?_, this.2⟩
  rw [← this.1, ← this.2]

/-- The trace of the loop over the digits. -/
def H : List Byte → Nat → Bool → Nat → List Event
  | [], sp, _, _ => [.rd .input sp 1, .br false]
  | c :: t, sp, odd, op =>
    [.rd .input sp 1, .br true, .rd .input sp 1] ++ (ctr .base16 c ++
      (if unk .base16 c then H t (sp + 1) odd op
      else if odd then [.br true, .wr .output op 1] ++ H t (sp + 1) false (op + 1)
      else [.br false] ++ H t (sp + 1) true op))

theorem H_iff (t : List Byte) : ∀ (t' : List Byte) (sp op : Nat) (odd : Bool) (x y : List Event),
    H t sp odd op ++ x = H t' sp odd op ++ y ↔ t.map (seen .base16) = t'.map (seen .base16) ∧ x = y := by
  induction t with
  | nil =>
    intro t' sp op odd x y
    cases t' with
    | nil => exact ⟨fun h => ⟨rfl, List.append_cancel_left h⟩, fun h => by rw [h.2]⟩
    | cons c t' =>
      refine ⟨fun h => ?_, fun h => absurd h.1 (by simp)⟩
      exfalso
      rw [H, H] at h
      simp only [List.cons_append, List.cons.injEq, Event.br.injEq] at h
      exact absurd h.2.1 (by decide)
  | cons c t ih =>
    intro t' sp op odd x y
    cases t' with
    | nil =>
      refine ⟨fun h => ?_, fun h => absurd h.1 (by simp)⟩
      exfalso
      rw [H, H] at h
      simp only [List.cons_append, List.cons.injEq, Event.br.injEq] at h
      exact absurd h.2.1 (by decide)
    | cons c' t' =>
      rw [H, H, app_cancel, List.append_assoc, List.append_assoc, List.map_cons, List.map_cons, List.cons.injEq]
      have step : ∀ (b : Bool), ((if b then H t (sp + 1) odd op
            else if odd then [.br true, .wr .output op 1] ++ H t (sp + 1) false (op + 1)
            else [.br false] ++ H t (sp + 1) true op) ++ x =
          (if b then H t' (sp + 1) odd op
            else if odd then [.br true, .wr .output op 1] ++ H t' (sp + 1) false (op + 1)
            else [.br false] ++ H t' (sp + 1) true op) ++ y) ↔ t.map (seen .base16) = t'.map (seen .base16) ∧ x = y := by
        intro b
        cases b <;> cases odd <;> simp only [Bool.false_eq_true, if_true, if_false, app_cancel, ih]
      constructor
      · intro h
        obtain ⟨h1, h2⟩ := ctr_seen h
        rw [(seen_ctr h1).2, step] at h2
        exact ⟨⟨h1, h2.1⟩, h2.2⟩
      · rintro ⟨⟨h1, h2⟩, h3⟩
        rw [(seen_ctr h1).1, (seen_ctr h1).2, List.append_right_inj, step]
        exact ⟨h2, h3⟩

theorem hexLoop_tr (t : List Byte) (h0 : ∀ c ∈ t, c ≠ 0#8) : ∀ (sp op : Nat) (odd : Bool) (u : Byte) (out : List Byte)
    (r : Nat × List Byte), (Tr.Text.hexLoop (t ++ [0#8]) sp odd u op out).res = .ok r →
    (Tr.Text.hexLoop (t ++ [0#8]) sp odd u op out).tr = H t sp odd op := by
  induction t with
  | nil => intro sp op odd u out r h; rfl
  | cons c t ih =>
    intro sp op odd u out r h
    have hc : decide (c ≠ 0#8) = true := decide_eq_true (h0 c (List.mem_cons_self ..))
    have ih := ih (fun d hd => h0 d (List.mem_cons_of_mem _ hd))
    rw [List.cons_append, Tr.Text.hexLoop, peek_bind, br_bind] at h ⊢
    simp only [hc, if_true, pre_res, peek_bind] at h ⊢
    have hr : (Tr.Text.ch2hex c).res = .ok (ch2hex c) := ch2hex_res c
    rw [ok_bindT hr, pre_res, br_bind, pre_res, (hexc c).2] at h
    rw [ok_bindT hr, br_bind, (hexc c).2]
    simp only [pre_tr]
    rw [H, ← (hexc c).1]
    simp only [List.append_assoc, List.cons_append, List.nil_append, List.cons.injEq, true_and]
    rw [List.append_right_inj, List.cons.injEq]
    refine ⟨rfl, ?_⟩
    cases hu : unk .base16 c
    · simp only [hu, Bool.false_eq_true, if_false] at h ⊢
      cases odd
      · rw [br_bind] at h ⊢
        simp only [Bool.false_eq_true, if_false, pre_res, pre_tr] at h ⊢
        rw [ih _ _ _ _ _ _ h]
        rfl
      · rw [br_bind] at h ⊢
        simp only [if_true, pre_res, pre_tr] at h ⊢
        obtain ⟨o, ho, h⟩ := bind_okE h
        rw [ok_bindT ho, pre_tr, ih _ _ _ _ _ _ h]
        rfl
    · simp only [hu, if_true] at h ⊢
      exact ih _ _ _ _ _ _ h

/-- The trace of `strlen`. -/
def SL : List Byte → Nat → List Event
  | [], sp => [.rd .input sp 1, .br true]
  | _ :: t, sp => [.rd .input sp 1, .br false] ++ SL t (sp + 1)

theorem strlen_ok (t : List Byte) (h0 : ∀ c ∈ t, c ≠ 0#8) : ∀ sp, Tr.Text.strlen (t ++ [0#8]) sp = ⟨.ok t.length, SL t sp⟩ := by
  induction t with
  | nil => intro sp; rfl
  | cons c t ih =>
    intro sp
    have hc : decide (c = 0#8) = false := decide_eq_false (h0 c (List.mem_cons_self ..))
    rw [List.cons_append, Tr.Text.strlen, peek_bind, br_bind]
    simp only [hc, Bool.false_eq_true, if_false]
    rw [ih (fun d hd => h0 d (List.mem_cons_of_mem _ hd)), ok_bindT (m := ⟨.ok _, _⟩) rfl, SL]
    show (⟨.ok (t.length + 1), _ ++ (_ ++ (SL t (sp + 1) ++ []))⟩ : T Nat) = _
    rw [List.append_nil]
    rfl

theorem SL_iff (t : List Byte) : ∀ (t' : List Byte) (sp : Nat) (x y : List Event),
    SL t sp ++ x = SL t' sp ++ y ↔ t.length = t'.length ∧ x = y := by
  induction t with
  | nil =>
    intro t' sp x y
    cases t' with
    | nil => exact ⟨fun h => ⟨rfl, List.append_cancel_left h⟩, fun h => by rw [h.2]⟩
    | cons c t' =>
      refine ⟨fun h => ?_, fun h => absurd h.1 (by simp)⟩
      exfalso
      rw [SL, SL] at h
      simp only [List.cons_append, List.cons.injEq, Event.br.injEq] at h
      exact absurd h.2.1 (by decide)
  | cons c t ih =>
    intro t' sp x y
    cases t' with
    | nil =>
      refine ⟨fun h => ?_, fun h => absurd h.1 (by simp)⟩
      exfalso
      rw [SL, SL] at h
      simp only [List.cons_append, List.cons.injEq, Event.br.injEq] at h
      exact absurd h.2.1 (by decide)
    | cons c' t' =>
      rw [SL, SL, app_cancel, ih, List.length_cons, List.length_cons, Nat.add_right_cancel_iff]

/-- A character that is one of two, or neither. -/
def mark (c d e : Byte) : Option Byte := if c = d ∨ c = e then some c else none

/-- The decisions on it. -/
def MK (c d e : Byte) : List Event := if c = d then [.br true] else [.br false, .br (decide (c = e))]

theorem eqOr_ok (c d e : Byte) : Tr.Text.eqOr c d e = ⟨.ok (mark c d e).isSome, MK c d e⟩ := by
  unfold Tr.Text.eqOr Tr.Text.eq mark MK
  rw [br_bind]
  by_cases h1 : c = d
  · simp only [h1, decide_true, if_true, true_or, Option.isSome]
    rfl
  · by_cases h2 : c = e
    · simp only [h2, decide_true, or_true, if_true, Option.isSome]
      have h3 : e ≠ d := h2 ▸ h1
      simp only [h3, decide_false, Bool.false_eq_true, if_false]
      rfl
    · simp only [h1, h2, decide_false, Bool.false_eq_true, if_false, or_self, Option.isSome]
      rfl

theorem MK_iff {d e : Byte} (hde : d ≠ e) (c c' : Byte) (x y : List Event) :
    MK c d e ++ x = MK c' d e ++ y ↔ mark c d e = mark c' d e ∧ x = y := by
  unfold MK mark
  by_cases h1 : c = d
  · subst h1
    by_cases h2 : c' = c
    · subst h2
      simp only [if_true, true_or, List.append_right_inj, true_and]
    · simp only [if_true, h2, if_false, true_or, false_or]
      constructor
      · intro h
        simp at h
      · intro h
        split at h
        · rename_i h3
          exact absurd (Option.some.inj h.1).symm h2
        · exact absurd h.1 (by simp)
  · by_cases h2 : c' = d
    · subst h2
      simp only [if_true, h1, if_false, true_or, false_or]
      constructor
      · intro h
        simp at h
      · intro h
        split at h
        · exact absurd (Option.some.inj h.1) h1
        · exact absurd h.1 (by simp)
    · simp only [h1, h2, if_false, false_or, List.cons_append, List.nil_append, List.cons.injEq, Event.br.injEq, true_and]
      refine and_congr_left fun _ => ?_
      by_cases h3 : c = e <;> by_cases h4 : c' = e
      · simp [h3, h4]
      · simp [h3, h4]
      · simp [h3, h4]
      · simp [h3, h4]

/-- The decisions on the second character. -/
def PR : List Byte → List Event
  | _ :: c :: _ => MK c 0x78#8 0x58#8
  | _ => []

/-- The decisions on the last character. -/
def SF (t : List Byte) : List Event :=
  match t.getLast? with
  | some c => MK c 0x68#8 0x48#8
  | none => []

/-- The whole trace. -/
def HX (t : List Byte) : List Event :=
  SL t 0 ++ ([.rd .input 1 1, .br (decide (2 ≤ t.length))] ++ (PR t ++ ([.rd .input (t.length - 1) 1] ++ (SF t ++
    H (hexBody t) (if (hexPrefix t).isSome then 2 else 0)
      (((hexBody t).length - (if (hexSuffix t).isSome then 1 else 0)) % 2 == 1) 0))))

theorem hex_tail (t : List Byte) (ht : t ≠ []) (h0 : ∀ c ∈ t, c ≠ 0#8) (out : List Byte) (r : Nat × List Byte) (off len : Nat)
    (hl : off + len = t.length)
    (h : (do
      let tpc ← Tr.Text.rdBefore (t ++ [0#8]) (off + len)
      let h ← Tr.Text.eqOr tpc 0x68#8 0x48#8
      let len := if h then len - 1 else len
      Tr.Text.hexLoop ((t ++ [0#8]).drop off) off (len % 2 == 1) 0 0 out : T (Nat × List Byte)).res = .ok r) :
    (do
      let tpc ← Tr.Text.rdBefore (t ++ [0#8]) (off + len)
      let h ← Tr.Text.eqOr tpc 0x68#8 0x48#8
      let len := if h then len - 1 else len
      Tr.Text.hexLoop ((t ++ [0#8]).drop off) off (len % 2 == 1) 0 0 out : T (Nat × List Byte)).tr =
    [.rd .input (t.length - 1) 1] ++ (SF t ++ H (t.drop off) off
      ((len - (if (hexSuffix t).isSome then 1 else 0)) % 2 == 1) 0) := by
  obtain ⟨t', c, rfl⟩ := List.eq_nil_or_concat t |>.resolve_left ht
  have hb : (Tr.Text.rdBefore ((t'.concat c) ++ [0#8]) (off + len)).res = .ok c := by
    show rdBefore _ _ = _
    rw [hl]
    unfold rdBefore
    simp [rd]
  have hs : hexSuffix (t'.concat c) = mark c 0x68#8 0x48#8 := by
    unfold hexSuffix
    simp [mark]
  have hsf : SF (t'.concat c) = MK c 0x68#8 0x48#8 := by
    unfold SF
    simp
  rw [ok_bindT hb, pre_res, eqOr_ok, ok_bindT (m := ⟨.ok _, _⟩) rfl, pre_res] at h
  rw [ok_bindT hb, eqOr_ok, ok_bindT (m := ⟨.ok _, _⟩) rfl, hs, hsf]
  have hd : (t'.concat c ++ [0#8]).drop off = (t'.concat c).drop off ++ [0#8] := by
    rw [List.drop_append_of_le_length (by omega)]
  rw [hd] at h ⊢
  simp only [pre_tr]
  have hodd : ∀ b : Bool, (if b = true then len - 1 else len) = len - (if b = true then 1 else 0) := by
    intro b; cases b <;> rfl
  rw [hodd] at h ⊢
  rw [hexLoop_tr _ (fun d hd => h0 d (List.mem_of_mem_drop hd)) _ _ _ _ _ _ h]
  show [Event.rd .input (off + len - 1) 1] ++ _ = _
  rw [hl]

theorem hex_tr (t out : List Byte) (h0 : ∀ c ∈ t, c ≠ 0#8) (r : Nat × List Byte)
    (h : hexStringToHash (t ++ [0#8]) out = .ok r) : (Tr.Text.hexStringToHash (t ++ [0#8]) out).tr = HX t := by
  rw [← hexStringToHash_res] at h
  unfold Tr.Text.hexStringToHash at h ⊢
  rw [strlen_ok t h0, ok_bindT (m := ⟨.ok _, _⟩) rfl] at h ⊢
  rw [pre_res] at h
  rw [pre_tr]
  unfold HX
  rw [List.append_right_inj]
  match t, h0 with
  | [], _ => cases h
  | [c], h0 =>
    rw [ok_bindT (m := T.rd .input ([c] ++ [0#8]) 1) (a := 0#8) rfl, br_bind] at h ⊢
    exact congrArg (fun z => [Event.rd .input 1 1] ++ ([Event.br false] ++ z)) (hex_tail [c] (by simp) h0 out r 0 1 rfl h)
  | c :: d :: t, h0 =>
    rw [ok_bindT (m := T.rd .input (c :: d :: t ++ [0#8]) 1) (a := d) rfl, br_bind] at h ⊢
    have h2 : decide (2 ≤ (c :: d :: t).length) = true := by simp
    rw [h2] at h ⊢
    simp only [if_true, eqOr_ok d] at h ⊢
    rw [ok_bindT (m := ⟨.ok _, _⟩) rfl] at h ⊢
    have hp : hexPrefix (c :: d :: t) = mark d 0x78#8 0x58#8 := rfl
    have hpr : PR (c :: d :: t) = MK d 0x78#8 0x58#8 := rfl
    unfold hexBody
    rw [hp, hpr]
    cases hm : (mark d 0x78#8 0x58#8).isSome
    · rw [hm] at h
      simp only [Bool.false_eq_true, if_false] at h ⊢
      exact congrArg (fun z => [Event.rd .input 1 1] ++ ([Event.br true] ++ (MK d 0x78#8 0x58#8 ++ z)))
        (hex_tail (c :: d :: t) (by simp) h0 out r 0 _ (Nat.zero_add _) h)
    · rw [hm] at h
      simp only [if_true] at h ⊢
      have := hex_tail (c :: d :: t) (by simp) h0 out r 2 ((c :: d :: t).length - 2) (by simp only [List.length_cons]; omega) h
      have hl : (List.drop 2 (c :: d :: t)).length = (c :: d :: t).length - 2 := by rw [List.length_drop]
      rw [hl]
      exact congrArg (fun z => [Event.rd .input 1 1] ++ ([Event.br true] ++ (MK d 0x78#8 0x58#8 ++ z))) this

theorem hex_iff (t t' out out' : List Byte) (h0 : ∀ c ∈ t, c ≠ 0#8) (h0' : ∀ c ∈ t', c ≠ 0#8)
    (r r' : Nat × List Byte) (h : hexStringToHash (t ++ [0#8]) out = .ok r)
    (h' : hexStringToHash (t' ++ [0#8]) out' = .ok r') :
    (Tr.Text.hexStringToHash (t ++ [0#8]) out).tr = (Tr.Text.hexStringToHash (t' ++ [0#8]) out').tr ↔
    hexPrefix t = hexPrefix t' ∧ hexSuffix t = hexSuffix t' ∧
      (hexBody t).map (seen .base16) = (hexBody t').map (seen .base16) := by
  rw [hex_tr t out h0 r h, hex_tr t' out' h0' r' h']
  have hsuf : ∀ (x y : List Event), t ≠ [] → t' ≠ [] → (SF t ++ x = SF t' ++ y ↔ hexSuffix t = hexSuffix t' ∧ x = y) := by
    intro x y ht ht'
    obtain ⟨s, c, rfl⟩ := List.eq_nil_or_concat t |>.resolve_left ht
    obtain ⟨s', c', rfl⟩ := List.eq_nil_or_concat t' |>.resolve_left ht'
    unfold SF hexSuffix
    simp only [List.concat_eq_append, List.getLast?_append, List.getLast?_singleton, Option.some_or]
    exact MK_iff (by decide) c c' x y
  have hpre : ∀ (x y : List Event), t.length = t'.length → (PR t ++ x = PR t' ++ y ↔ hexPrefix t = hexPrefix t' ∧ x = y) := by
    intro x y hl
    match t, t' with
    | [], [] => exact ⟨fun h => ⟨rfl, h⟩, fun h => h.2⟩
    | [_], [_] => exact ⟨fun h => ⟨rfl, h⟩, fun h => h.2⟩
    | _ :: c :: _, _ :: c' :: _ => exact MK_iff (by decide) c c' x y
    | [], _ :: _ => simp at hl
    | _ :: _, [] => simp at hl
    | [_], _ :: _ :: _ => simp at hl
    | _ :: _ :: _, [_] => simp at hl
  have ht : t ≠ [] := by rintro rfl; cases h
  have ht' : t' ≠ [] := by rintro rfl; cases h'
  unfold HX
  rw [SL_iff]
  constructor
  · rintro ⟨hl, e⟩
    rw [hl, List.append_right_inj, hpre _ _ hl] at e
    obtain ⟨p, e⟩ := e
    rw [List.append_right_inj, hsuf _ _ ht ht'] at e
    obtain ⟨s, e⟩ := e
    have hb : (hexBody t).length = (hexBody t').length := by
      unfold hexBody
      rw [p]
      split
      · rw [List.length_drop, List.length_drop, hl]
      · exact hl
    rw [p, s, hb, ← List.append_nil (H (hexBody t) _ _ _), ← List.append_nil (H (hexBody t') _ _ _), H_iff] at e
    exact ⟨p, s, e.1⟩
  · rintro ⟨p, s, m⟩
    have hb : (hexBody t).length = (hexBody t').length := by simpa using congrArg List.length m
    have hl : t.length = t'.length := by
      unfold hexBody at hb
      rw [p] at hb
      split at hb
      · rename_i hs
        have h2 : ∀ l : List Byte, (hexPrefix l).isSome = true → 2 ≤ l.length := by
          intro l hh
          match l with
          | [] => cases hh
          | [_] => cases hh
          | _ :: _ :: _ => simp
        have a1 := h2 t (by rw [p]; exact hs)
        have a2 := h2 t' hs
        rw [List.length_drop, List.length_drop] at hb
        omega
      · exact hb
    refine ⟨hl, ?_⟩
    rw [hl, List.append_right_inj, hpre _ _ hl]
    refine ⟨p, ?_⟩
    rw [List.append_right_inj, hsuf _ _ ht ht']
    refine ⟨s, ?_⟩
    rw [p, s, hb, ← List.append_nil (H (hexBody t) _ _ _), ← List.append_nil (H (hexBody t') _ _ _), H_iff]
    exact ⟨m, rfl⟩

end Pgfe.Proofs.TextTrace
