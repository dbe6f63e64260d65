import Verif.Model.Hash
import Verif.Proofs.Hex
/-!
# What a correct context-based hash implementation satisfies, and what follows from it
-/
namespace Pgfe.Proofs.Hash
open Pgfe.Model

/-- `I` computes `H` on every byte string: `Inv m c` says that `c` has absorbed exactly `m`.
`okUpd n` says that an update of `n` bytes is allowed, `okTot n` that a total of `n` bytes is.
`Safe n c`: `c` is a context reached by a history of calls which absorbed at most `n` bytes in all. -/
structure HashOK (I : HashImpl) (H : List Byte → List Byte) where
  WF : I.Ctx → Prop
  Inv : List Byte → I.Ctx → Prop
  Safe : Nat → I.Ctx → Prop
  ds : Nat
  okUpd : Nat → Prop
  okTot : Nat → Prop
  tot_mono : ∀ a b, a ≤ b → okTot b → okTot a
  tot_zero : okTot 0
  wf : ∀ n c, Safe n c → WF c
  safe : ∀ m c, Inv m c → Safe m.length c
  init_ok : ∀ g, WF g → ∃ c, I.init g = .ok c ∧ Inv [] c
  update_ok : ∀ m c (inp : List Byte) n, Inv m c → okUpd n → n ≤ inp.length →
    okTot (m.length + n) → ∃ c', I.update c (some inp) n = .ok c' ∧ Inv (m ++ inp.take n) c'
  digest_ok : ∀ m c (out : List Byte), Inv m c → okTot m.length → ds ≤ out.length →
    ∃ c', I.digest c out = .ok (c', H m ++ out.drop ds) ∧ Safe m.length c'
  safe_update : ∀ k c (inp : List Byte) n, Safe k c → okUpd n → n ≤ inp.length → okTot (k + n) →
    ∃ c', I.update c (some inp) n = .ok c' ∧ Safe (k + n) c'
  safe_digest : ∀ k c (out : List Byte), Safe k c → okTot k → ds ≤ out.length →
    ∃ c' d, I.digest c out = .ok (c', d ++ out.drop ds) ∧ d.length = ds ∧ Safe k c'
  len : ∀ m, (H m).length = ds
  /-- `Rel c₁ c₂`: the contexts differ only in what no later call can see. -/
  Rel : I.Ctx → I.Ctx → Prop
  rel_init : ∀ g₁ g₂ c₁ c₂, WF g₁ → WF g₂ → I.init g₁ = .ok c₁ → I.init g₂ = .ok c₂ → Rel c₁ c₂
  rel_update : ∀ k c₁ c₂ (inp : List Byte) n c₁' c₂', Safe k c₁ → Safe k c₂ → Rel c₁ c₂ → okUpd n →
    n ≤ inp.length → okTot (k + n) → I.update c₁ (some inp) n = .ok c₁' →
    I.update c₂ (some inp) n = .ok c₂' → Rel c₁' c₂'
  rel_digest : ∀ k c₁ c₂ (out : List Byte) c₁' c₂' o₁ o₂, Safe k c₁ → Safe k c₂ → Rel c₁ c₂ →
    okTot k → ds ≤ out.length → I.digest c₁ out = .ok (c₁', o₁) → I.digest c₂ out = .ok (c₂', o₂) →
    o₁ = o₂ ∧ Rel c₁' c₂'

namespace HashOK
variable {I : HashImpl} {H : List Byte → List Byte} (K : HashOK I H)

/-- The parts of a varargs list that are not NULL. -/
def content (parts : List (Option (List Byte) × Nat)) : List Byte :=
  parts.flatMap (fun p => match p.1 with | none => [] | some x => x.take p.2)

theorem multiple_ok (parts : List (Option (List Byte) × Nat)) :
    ∀ m c, K.Inv m c →
    (∀ p ∈ parts, ∀ x, p.1 = some x → K.okUpd p.2 ∧ p.2 ≤ x.length) →
    K.okTot (m.length + (content parts).length) →
    ∃ c', I.encodeMultipleLoop c parts = .ok c' ∧ K.Inv (m ++ content parts) c' := by
  induction parts with
  | nil => intro m c h _ _; exact ⟨c, rfl, by simpa [content] using h⟩
  | cons p rest ih =>
    intro m c h hp ht
    obtain ⟨q, n⟩ := p
    cases q with
    | none =>
      obtain ⟨c', h1, h2⟩ := ih m c h (fun p hp' => hp p (List.mem_cons_of_mem _ hp'))
        (by simpa [content] using ht)
      exact ⟨c', by simp [HashImpl.encodeMultipleLoop, h1], by simpa [content] using h2⟩
    | some x =>
      obtain ⟨hu, hn⟩ := hp (some x, n) (List.mem_cons_self ..) x rfl
      have e : content ((some x, n) :: rest) = x.take n ++ content rest := by simp [content]
      rw [e, List.length_append, List.length_take, Nat.min_eq_left hn] at ht
      obtain ⟨c1, h1, h2⟩ := K.update_ok m c x n h hu hn (K.tot_mono _ _ (by omega) ht)
      obtain ⟨c', h3, h4⟩ := ih (m ++ x.take n) c1 h2
        (fun p hp' => hp p (List.mem_cons_of_mem _ hp'))
        (by rw [List.length_append, List.length_take, Nat.min_eq_left hn, Nat.add_assoc]; exact ht)
      refine ⟨c', by simp [HashImpl.encodeMultipleLoop, h1, h3], ?_⟩
      rw [e, ← List.append_assoc]; exact h4

include K in
theorem feed_eq (parts : List (List Byte)) : ∀ c, I.feed c parts
    = I.encodeMultipleLoop c (parts.map (fun p => (some p, p.length))) := by
  induction parts with
  | nil => intro c; rfl
  | cons p r ih =>
    intro c
    have ih : ∀ c, I.updates c (r.map (fun p => (some p, p.length)))
      = I.encodeMultipleLoop c (r.map (fun p => (some p, p.length))) := ih
    simp only [HashImpl.feed, List.map_cons, HashImpl.updates, HashImpl.encodeMultipleLoop, ih]

theorem feed_ok (parts : List (List Byte)) (m : List Byte) (c : I.Ctx) (h : K.Inv m c)
    (hu : ∀ p ∈ parts, K.okUpd p.length) (ht : K.okTot (m.length + parts.flatten.length)) :
    ∃ c', I.feed c parts = .ok c' ∧ K.Inv (m ++ parts.flatten) c' := by
  have e : content (parts.map (fun p => (some p, p.length))) = parts.flatten := by
    clear hu ht
    induction parts with
    | nil => rfl
    | cons p r ih =>
      rw [List.map_cons, List.flatten_cons, ← ih]
      simp [content]
  have := K.multiple_ok (parts.map (fun p => (some p, p.length))) m c h ?_ (by rw [e]; exact ht)
  · rw [e, ← K.feed_eq] at this; exact this
  · intro p hp x hx
    obtain ⟨q, hq, rfl⟩ := List.mem_map.1 hp
    simp only [Option.some.injEq] at hx
    subst hx
    exact ⟨hu _ hq, Nat.le_refl _⟩

/-- Correctness of a session. -/
theorem session_ok (g : I.Ctx) (hg : K.WF g) (parts : List (List Byte)) (out : List Byte)
    (hu : ∀ p ∈ parts, K.okUpd p.length) (ht : K.okTot parts.flatten.length)
    (ho : K.ds ≤ out.length) :
    I.session g parts out = .ok (H parts.flatten ++ out.drop K.ds) := by
  obtain ⟨c, h1, h2⟩ := K.init_ok g hg
  obtain ⟨c', h3, h4⟩ := K.feed_ok parts [] c h2 hu (by simpa using ht)
  rw [List.nil_append] at h4
  obtain ⟨c'', h5, _⟩ := K.digest_ok _ c' out h4 ht ho
  simp [HashImpl.session, h1, h3, h5]

theorem encode_ok (g : I.Ctx) (hg : K.WF g) (data : List Byte) (n : Nat) (out : List Byte)
    (hn : n ≤ data.length) (hu : K.okUpd n) (ht : K.okTot n) (ho : K.ds ≤ out.length) :
    I.encode g (some data) n out = .ok (H (data.take n) ++ out.drop K.ds) := by
  obtain ⟨c, h1, h2⟩ := K.init_ok g hg
  obtain ⟨c', h3, h4⟩ := K.update_ok [] c data n h2 hu hn (by simpa using ht)
  rw [List.nil_append] at h4
  obtain ⟨c'', h5, _⟩ := K.digest_ok _ c' out h4
    (by rw [List.length_take, Nat.min_eq_left hn]; exact ht) ho
  simp [HashImpl.encode, h1, h3, h5]

theorem encodeDefault_ok (g : I.Ctx) (hg : K.WF g) (s out : List Byte) (hs : 0#8 ∉ s)
    (rest : List Byte) (hu : K.okUpd s.length) (ht : K.okTot s.length) (ho : K.ds ≤ out.length) :
    I.encodeDefault g (s ++ 0#8 :: rest) out = .ok (H s ++ out.drop K.ds) := by
  rw [HashImpl.encodeDefault, strlen_cstr s rest hs, bind_ok,
    K.encode_ok g hg _ _ _ (by simp) hu ht ho]
  simp

theorem encodeMultiple_ok (g : I.Ctx) (hg : K.WF g) (parts : List (Option (List Byte) × Nat))
    (out : List Byte)
    (hp : ∀ p ∈ parts, ∀ x, p.1 = some x → K.okUpd p.2 ∧ p.2 ≤ x.length)
    (ht : K.okTot (content parts).length) (ho : K.ds ≤ out.length) :
    I.encodeMultiple g out parts = .ok (H (content parts) ++ out.drop K.ds) := by
  obtain ⟨c, h1, h2⟩ := K.init_ok g hg
  obtain ⟨c', h3, h4⟩ := K.multiple_ok parts [] c h2 hp (by simpa using ht)
  rw [List.nil_append] at h4
  obtain ⟨c'', h5, _⟩ := K.digest_ok _ c' out h4 ht ho
  simp [HashImpl.encodeMultiple, h1, h3, h5]

theorem encodeFLoop_ok (file : List Byte) :
    ∀ m c (buf : List Byte), K.Inv m c → buf.length = 1024 → K.okUpd 1024 →
    (∀ n, n < 1024 → n = file.length % 1024 → K.okUpd n) →
    K.okTot (m.length + file.length) →
    ∃ c', I.encodeFLoop c buf file = .ok c' ∧ K.Inv (m ++ file) c' := by
  induction hn : file.length using Nat.strongRecOn generalizing file with
  | _ n ih =>
    intro m c buf h hb hu hu' ht
    subst hn
    rw [HashImpl.encodeFLoop]
    have hsz : (file.take (min file.length 1024)).length = min file.length 1024 := by
      rw [List.length_take]; omega
    rw [wrs_ok (by rw [hsz]; omega)]
    dsimp only
    have hbl : (splice buf 0 (file.take (min file.length 1024))).length = 1024 := by
      rw [splice_length (by rw [hsz]; omega), hb]
    have htake : (splice buf 0 (file.take (min file.length 1024))).take (min file.length 1024)
        = file.take 1024 := by
      rw [splice, List.take_zero, List.nil_append, List.take_append_of_le_length (by rw [hsz]; omega),
        List.take_of_length_le (by rw [hsz]; omega)]
      by_cases hf : file.length ≤ 1024
      · rw [Nat.min_eq_left hf, List.take_of_length_le (Nat.le_refl _), List.take_of_length_le hf]
      · rw [Nat.min_eq_right (by omega)]
    have hok : K.okUpd (min file.length 1024) := by
      by_cases hf : 1024 ≤ file.length
      · rw [Nat.min_eq_right hf]; exact hu
      · rw [Nat.min_eq_left (by omega)]
        exact hu' _ (by omega) (by omega)
    obtain ⟨c1, h1, h2⟩ := K.update_ok m c _ (min file.length 1024) h hok
      (by rw [hbl]; omega) (K.tot_mono _ _ (by omega) ht)
    rw [htake] at h2
    rw [h1]
    dsimp only
    by_cases hf : 1024 ≤ file.length
    · rw [dif_pos (by omega), Nat.min_eq_right hf]
      obtain ⟨c2, h3, h4⟩ := ih (file.drop 1024).length (by rw [List.length_drop]; omega)
        (file.drop 1024) rfl (m ++ file.take 1024) c1 _ h2 hbl hu
        (fun n hn e => hu' n hn (by rw [List.length_drop] at e; omega))
        (by rw [List.length_append, List.length_take, List.length_drop]
            have : m.length + min 1024 file.length + (file.length - 1024) = m.length + file.length := by
              omega
            rw [this]; exact ht)
      rw [Nat.min_eq_right hf] at h3
      refine ⟨c2, h3, ?_⟩
      rw [List.append_assoc, List.take_append_drop] at h4
      exact h4
    · rw [dif_neg (by omega)]
      rw [List.take_of_length_le (by omega)] at h2
      exact ⟨c1, rfl, h2⟩

theorem encodeF_ok (g : I.Ctx) (hg : K.WF g) (buf file out : List Byte) (hb : buf.length = 1024)
    (hu : K.okUpd 1024) (hu' : K.okUpd (file.length % 1024)) (ht : K.okTot file.length)
    (ho : K.ds ≤ out.length) :
    I.encodeF g buf file out = .ok (H file ++ out.drop K.ds) := by
  obtain ⟨c, h1, h2⟩ := K.init_ok g hg
  obtain ⟨c', h3, h4⟩ := K.encodeFLoop_ok file [] c buf h2 hb hu
    (fun n _ e => e ▸ hu') (by simpa using ht)
  rw [List.nil_append] at h4
  obtain ⟨c'', h5, _⟩ := K.digest_ok _ c' out h4 ht ho
  simp [HashImpl.encodeF, h1, h3, h5]

/-- Number of bytes absorbed by a sequence of calls. -/
def absorbed (l : List HashImpl.Call) : Nat :=
  (l.map (fun | .update x => x.length | .digest _ => 0)).sum

/-- No history of calls leaves the defined behaviour. -/
theorem calls_ok (l : List HashImpl.Call) :
    ∀ k c, K.Safe k c → K.okTot (k + absorbed l) →
    (∀ x, HashImpl.Call.update x ∈ l → K.okUpd x.length) →
    (∀ o, HashImpl.Call.digest o ∈ l → K.ds ≤ o.length) →
    ∃ c' outs, I.calls c l = .ok (c', outs) ∧ K.Safe (k + absorbed l) c' := by
  induction l with
  | nil => intro k c h _ _ _; exact ⟨c, [], rfl, h⟩
  | cons a l ih =>
    intro k c h ht hu hd
    cases a with
    | update x =>
      have e : absorbed (.update x :: l) = x.length + absorbed l := rfl
      rw [e] at ht ⊢
      obtain ⟨c1, h1, h2⟩ := K.safe_update k c x x.length h (hu x (List.mem_cons_self ..))
        (Nat.le_refl _) (K.tot_mono _ _ (by omega) ht)
      obtain ⟨c', outs, h3, h4⟩ := ih (k + x.length) c1 h2 (by rw [Nat.add_assoc]; exact ht)
        (fun y hy => hu y (List.mem_cons_of_mem _ hy)) (fun y hy => hd y (List.mem_cons_of_mem _ hy))
      exact ⟨c', outs, by simp [HashImpl.calls, h1, h3], by rw [← Nat.add_assoc]; exact h4⟩
    | digest o =>
      have e : absorbed (.digest o :: l) = absorbed l := by simp [absorbed]
      rw [e] at ht ⊢
      obtain ⟨c1, d, h1, _, h2⟩ := K.safe_digest k c o h (K.tot_mono _ _ (by omega) ht)
        (hd o (List.mem_cons_self ..))
      obtain ⟨c', outs, h3, h4⟩ := ih k c1 h2 ht
        (fun y hy => hu y (List.mem_cons_of_mem _ hy)) (fun y hy => hd y (List.mem_cons_of_mem _ hy))
      exact ⟨c', _, by simp [HashImpl.calls, h1, h3]; rfl, h4⟩

/-- Related contexts give the same outputs in every history. -/
theorem calls_rel (l : List HashImpl.Call) :
    ∀ k c₁ c₂, K.Safe k c₁ → K.Safe k c₂ → K.Rel c₁ c₂ → K.okTot (k + absorbed l) →
    (∀ x, HashImpl.Call.update x ∈ l → K.okUpd x.length) →
    (∀ o, HashImpl.Call.digest o ∈ l → K.ds ≤ o.length) →
    ∃ c₁' c₂' outs, I.calls c₁ l = .ok (c₁', outs) ∧ I.calls c₂ l = .ok (c₂', outs) ∧
      K.Rel c₁' c₂' := by
  induction l with
  | nil => intro k c₁ c₂ _ _ h _ _ _; exact ⟨c₁, c₂, [], rfl, rfl, h⟩
  | cons a l ih =>
    intro k c₁ c₂ s₁ s₂ h ht hu hd
    cases a with
    | update x =>
      have e : absorbed (.update x :: l) = x.length + absorbed l := rfl
      rw [e] at ht
      have hux := hu x (List.mem_cons_self ..)
      have htx := K.tot_mono (k + x.length) _ (by omega) ht
      obtain ⟨d₁, h1, t1⟩ := K.safe_update k c₁ x x.length s₁ hux (Nat.le_refl _) htx
      obtain ⟨d₂, h2, t2⟩ := K.safe_update k c₂ x x.length s₂ hux (Nat.le_refl _) htx
      have hr := K.rel_update k c₁ c₂ x x.length d₁ d₂ s₁ s₂ h hux (Nat.le_refl _) htx h1 h2
      obtain ⟨c₁', c₂', outs, h3, h4, h5⟩ := ih (k + x.length) d₁ d₂ t1 t2 hr
        (by rw [Nat.add_assoc]; exact ht)
        (fun y hy => hu y (List.mem_cons_of_mem _ hy)) (fun y hy => hd y (List.mem_cons_of_mem _ hy))
      exact ⟨c₁', c₂', outs, by simp [HashImpl.calls, h1, h3], by simp [HashImpl.calls, h2, h4], h5⟩
    | digest o =>
      have e : absorbed (.digest o :: l) = absorbed l := by simp [absorbed]
      rw [e] at ht
      have hdo := hd o (List.mem_cons_self ..)
      have htx := K.tot_mono k _ (by omega) ht
      obtain ⟨d₁, x₁, h1, _, t1⟩ := K.safe_digest k c₁ o s₁ htx hdo
      obtain ⟨d₂, x₂, h2, _, t2⟩ := K.safe_digest k c₂ o s₂ htx hdo
      obtain ⟨eo, hr⟩ := K.rel_digest k c₁ c₂ o d₁ d₂ _ _ s₁ s₂ h htx hdo h1 h2
      obtain ⟨c₁', c₂', outs, h3, h4, h5⟩ := ih k d₁ d₂ t1 t2 hr ht
        (fun y hy => hu y (List.mem_cons_of_mem _ hy)) (fun y hy => hd y (List.mem_cons_of_mem _ hy))
      refine ⟨c₁', c₂', (x₁ ++ o.drop K.ds) :: outs, ?_, ?_, h5⟩
      · simp [HashImpl.calls, h1, h3]
      · rw [eo]; simp [HashImpl.calls, h2, h4]

/-- init makes the past of a context invisible, in every later history of calls. -/
theorem reset_ok (g₁ g₂ : I.Ctx) (h₁ : K.WF g₁) (h₂ : K.WF g₂) (l : List HashImpl.Call)
    (ht : K.okTot (absorbed l)) (hu : ∀ x, HashImpl.Call.update x ∈ l → K.okUpd x.length)
    (hd : ∀ o, HashImpl.Call.digest o ∈ l → K.ds ≤ o.length) :
    ∃ c₁ c₂ d₁ d₂ outs, (I.init g₁ >>= fun c => I.calls c l) = .ok (d₁, outs) ∧
      (I.init g₂ >>= fun c => I.calls c l) = .ok (d₂, outs) ∧ I.init g₁ = .ok c₁ ∧ I.init g₂ = .ok c₂ := by
  obtain ⟨c₁, a1, b1⟩ := K.init_ok g₁ h₁
  obtain ⟨c₂, a2, b2⟩ := K.init_ok g₂ h₂
  obtain ⟨d₁, d₂, outs, x, y, _⟩ := K.calls_rel l 0 c₁ c₂ (K.safe _ _ b1) (K.safe _ _ b2)
    (K.rel_init g₁ g₂ c₁ c₂ h₁ h₂ a1 a2) (by rw [Nat.zero_add]; exact ht) hu hd
  exact ⟨c₁, c₂, d₁, d₂, outs, by rw [a1]; exact x, by rw [a2]; exact y, a1, a2⟩

end HashOK
end Pgfe.Proofs.Hash
