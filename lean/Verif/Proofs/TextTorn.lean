import Verif.Model.TextTorn
import Verif.Spec.Torn
/-!
# Texts that change while they are read
-/
namespace Pgfe.Proofs.Torn
open Pgfe Pgfe.Model Pgfe.Spec.Torn

theorem peek_ok {n i : Nat} (h : i ≤ n) (m : Model.Torn.Mem) (t : Nat) : Model.Torn.peek n m t i = .ok (m t i) := if_pos h
theorem peek_err {n i : Nat} (h : ¬ i ≤ n) (m : Model.Torn.Mem) (t : Nat) : Model.Torn.peek n m t i = .error .oobRead := if_neg h

/-! ### A text that does not change -/

theorem drop_still {text : List Byte} {n i : Nat} (hn : text.length = n + 1) (h : i ≤ n) (t : Nat) :
    text.drop i = still text t i :: text.drop (i + 1) := by
  rw [List.drop_eq_getElem_cons (by omega)]
  congr 1
  unfold still
  rw [List.getD_eq_getElem?_getD, List.getElem?_eq_getElem (by omega), Option.getD_some]

theorem drop_over {text : List Byte} {n i : Nat} (hn : text.length = n + 1) (h : ¬ i ≤ n) : text.drop i = [] :=
  List.drop_eq_nil_of_le (by omega)

theorem still_eq (text : List Byte) (t t' i : Nat) : still text t i = still text t' i := rfl

theorem decGroup_still (P : BaseParams) (func : Byte → Byte) (text : List Byte) (n : Nat) (hn : text.length = n + 1) (fuel : Nat) :
    ∀ (sp i : Nat) (u : W64) (t : Nat), n + 2 ≤ fuel + sp →
    (Model.Torn.decGroup P func n (still text) fuel sp i u t).map (fun r => (text.drop r.1, r.2.1, r.2.2.1)) =
      decGroup P func (text.drop sp) i u := by
  induction fuel with
  | zero =>
    intro sp i u t h
    rw [drop_over hn (by omega)]
    rfl
  | succ f ih =>
    intro sp i u t h
    rw [Model.Torn.decGroup]
    by_cases hsp : sp ≤ n
    · rw [peek_ok hsp, bind_ok, peek_ok hsp, bind_ok, drop_still hn hsp t, decGroup, still_eq text (t + 1) t]
      split
      · rw [← drop_still hn hsp t]; rfl
      · dsimp only
        split
        · exact ih _ _ _ _ (by omega)
        · exact ih _ _ _ _ (by omega)
    · rw [peek_err hsp, drop_over hn hsp]
      rfl

theorem decGroup_mono (P : BaseParams) (func : Byte → Byte) (n : Nat) (m : Model.Torn.Mem) (fuel : Nat) :
    ∀ (sp i : Nat) (u : W64) (t : Nat) (r : Nat × Nat × W64 × Nat), Model.Torn.decGroup P func n m fuel sp i u t = .ok r →
      sp ≤ r.1 ∧ r.1 ≤ n ∧ (m t sp ≠ 0#8 → i < P.chunkCount → sp < r.1) := by
  induction fuel with
  | zero => intro sp i u t r h; cases h
  | succ f ih =>
    intro sp i u t r h
    rw [Model.Torn.decGroup] at h
    by_cases hsp : sp ≤ n
    · rw [peek_ok hsp, bind_ok, peek_ok hsp, bind_ok] at h
      split at h
      · rename_i hc
        cases h
        refine ⟨Nat.le_refl _, hsp, fun h1 h2 => ?_⟩
        rcases hc with hc | hc
        · exact absurd hc h1
        · exact absurd h2 hc
      · dsimp only at h
        split at h
        all_goals
          obtain ⟨h1, h2, _⟩ := ih _ _ _ _ _ h
          exact ⟨by omega, h2, fun _ _ => by omega⟩
    · rw [peek_err hsp] at h; cases h

theorem decLoop_still (P : BaseParams) (hP : 0 < P.chunkCount) (func : Byte → Byte) (text : List Byte) (n : Nat) (hn : text.length = n + 1)
    (fuel : Nat) : ∀ (fuel' sp : Nat) (u : W64) (op : Nat) (out : List Byte) (oUnit : Option (List Byte)) (t : Nat),
    sp ≤ n + 1 → n + 1 < fuel + sp → n + 1 < fuel' + sp →
    (Model.Torn.decLoop P func n (still text) fuel' sp u op out oUnit t).map (fun r => (r.1, r.2.1, r.2.2.1)) =
      decLoop P func fuel (text.drop sp) u op out oUnit := by
  induction fuel with
  | zero =>
    intro fuel' sp u op out oUnit t hs1 h h'
    omega
  | succ f ih =>
    intro fuel' sp u op out oUnit t hs1 h h'
    cases fuel' with
    | zero => omega
    | succ f' =>
      rw [Model.Torn.decLoop]
      by_cases hsp : sp ≤ n
      · rw [peek_ok hsp, bind_ok, drop_still hn hsp t, decLoop]
        split
        · rfl
        · rename_i hc
          rw [← drop_still hn hsp t]
          have key := decGroup_still P func text n hn (n + 2) sp 0 u (t + 1) (by omega)
          have mono := decGroup_mono P func n (still text) (n + 2) sp 0 u (t + 1)
          generalize Model.Torn.decGroup P func n (still text) (n + 2) sp 0 u (t + 1) = D at key mono
          rw [← key]
          cases D with
          | error e => rfl
          | ok r =>
            obtain ⟨m1, m2, m3⟩ := mono r rfl
            have m3 := m3 hc hP
            obtain ⟨sp', i, u', t'⟩ := r
            dsimp only at m1 m2 m3
            rw [show Except.map (fun r : Nat × Nat × W64 × Nat => (text.drop r.1, r.2.1, r.2.2.1))
              (.ok (sp', i, u', t') : C _) = .ok (text.drop sp', i, u') from rfl, bind_ok, bind_ok]
            dsimp only
            rw [peek_ok m2, bind_ok, drop_still hn m2 t',
              show rd (still text t' sp' :: text.drop (sp' + 1)) 0 = .ok (still text t' sp') from rfl, bind_ok]
            cases wrs out op (unitBytes P _) with
            | error e => rfl
            | ok out' =>
              rw [bind_ok, bind_ok, ← drop_still hn m2 t']
              exact ih f' sp' (if still text t' sp' = 0#8 ∧ i < P.chunkCount then u' <<< (P.bitSize * (P.chunkCount - i)) else u')
                (op + P.unitSize) out' (some (unitBytes P
                  (if still text t' sp' = 0#8 ∧ i < P.chunkCount then u' <<< (P.bitSize * (P.chunkCount - i)) else u'))) (t' + 1)
                (by omega) (by omega) (by omega)
      · rw [peek_err hsp, drop_over hn hsp]
        rfl

theorem decode_still (a : BaseAlg) (text out : List Byte) (n : Nat) (hn : text.length = n + 1) :
    Model.Torn.decode a n (still text) out = pgfeDecode a text out := by
  have hP : 0 < a.params.chunkCount := by cases a <;> decide
  have key := decLoop_still a.params hP a.charFn text n hn (text.length + 1) (n + out.length + 3) 0 0#64 0 out none 0
    (by omega) (by omega) (by omega)
  rw [List.drop_zero] at key
  unfold Model.Torn.decode Model.Torn.decodeBase pgfeDecode decodeBase
  rw [← key]
  cases Model.Torn.decLoop a.params a.charFn n (still text) (n + out.length + 3) 0 0#64 0 out none 0 with
  | error e => rfl
  | ok r => rfl

theorem strlen_still (text : List Byte) (n : Nat) (hn : text.length = n + 1) (fuel : Nat) : ∀ (sp t : Nat), n + 2 ≤ fuel + sp →
    (Model.Torn.strlen n (still text) fuel sp t).map (·.1) = (strlen (text.drop sp)).map (· + sp) := by
  induction fuel with
  | zero =>
    intro sp t h
    rw [drop_over hn (by omega)]
    rfl
  | succ f ih =>
    intro sp t h
    rw [Model.Torn.strlen]
    by_cases hsp : sp ≤ n
    · rw [peek_ok hsp, bind_ok, drop_still hn hsp t, strlen]
      split
      · show Except.ok sp = .ok (0 + sp); rw [Nat.zero_add]
      · rw [ih (sp + 1) (t + 1) (by omega)]
        cases strlen (text.drop (sp + 1)) with
        | error e => rfl
        | ok k => show Except.ok (k + (sp + 1)) = .ok (k + 1 + sp); congr 1; omega
    · rw [peek_err hsp, drop_over hn hsp]
      rfl

theorem hexLoop_still (text : List Byte) (n : Nat) (hn : text.length = n + 1) (fuel : Nat) :
    ∀ (sp : Nat) (odd : Bool) (hexu : Byte) (op : Nat) (out : List Byte) (t : Nat), n + 2 ≤ fuel + sp →
    (Model.Torn.hexLoop n (still text) fuel sp odd hexu op out t).map (fun r => (r.1, r.2.1)) =
      hexLoop (text.drop sp) odd hexu op out := by
  induction fuel with
  | zero =>
    intro sp odd hexu op out t h
    rw [drop_over hn (by omega)]
    rfl
  | succ f ih =>
    intro sp odd hexu op out t h
    rw [Model.Torn.hexLoop]
    by_cases hsp : sp ≤ n
    · rw [peek_ok hsp, bind_ok, peek_ok hsp, bind_ok, drop_still hn hsp t, hexLoop, still_eq text (t + 1) t]
      split
      · rfl
      · dsimp only
        split
        · exact ih _ _ _ _ _ _ (by omega)
        · split
          · cases wr out op _ with
            | error e => rfl
            | ok o => rw [bind_ok, bind_ok]; exact ih _ _ _ _ _ _ (by omega)
          · exact ih _ _ _ _ _ _ (by omega)
    · rw [peek_err hsp, drop_over hn hsp]
      rfl

theorem rd_still {text : List Byte} {n : Nat} (hn : text.length = n + 1) (i t : Nat) :
    rd text i = Model.Torn.peek n (still text) t i := by
  unfold rd Model.Torn.peek still
  by_cases h : i ≤ n
  · rw [if_pos h, List.getD_eq_getElem?_getD, List.getElem?_eq_getElem (by omega)]
    rfl
  · rw [if_neg h, List.getElem?_eq_none (by omega)]

theorem hexStringToHash_still (text out : List Byte) (n : Nat) (hn : text.length = n + 1) (t : Nat) :
    (Model.Torn.hexStringToHash n (still text) out t).map (fun r => (r.1, r.2.1)) = hexStringToHash text out := by
  have hs := strlen_still text n hn (n + 2) 0 t (by omega)
  unfold Model.Torn.hexStringToHash hexStringToHash
  rw [List.drop_zero] at hs
  cases hS : Model.Torn.strlen n (still text) (n + 2) 0 t with
  | error e =>
    rw [hS] at hs
    cases hm : strlen text with
    | error e' => rw [hm] at hs; cases hs; rfl
    | ok k => rw [hm] at hs; cases hs
  | ok r =>
    rw [hS] at hs
    cases hm : strlen text with
    | error e' => rw [hm] at hs; cases hs
    | ok k =>
      rw [hm] at hs
      have hk : r.1 = k := by
        have : (Except.ok r.1 : C Nat) = .ok (k + 0) := hs
        injection this
      obtain ⟨len, t'⟩ := r
      dsimp only at hk
      subst hk
      rw [bind_ok, bind_ok, rd_still hn 1 t']
      dsimp only
      cases Model.Torn.peek n (still text) t' 1 with
      | error e => rfl
      | ok tpc =>
        rw [bind_ok, bind_ok]
        generalize (if 2 ≤ len ∧ (tpc = 120#8 ∨ tpc = 88#8) then (2, len - 2) else (0, len)) = p
        obtain ⟨off, len'⟩ := p
        dsimp only
        unfold rdBefore
        rw [rd_still hn _ (t' + 1)]
        cases (if off + len' = 0 then Except.error UB.oobRead else Model.Torn.peek n (still text) (t' + 1) (off + len' - 1)) with
        | error e => rfl
        | ok tpc =>
          rw [bind_ok, bind_ok]
          exact hexLoop_still text n hn (n + 2) _ _ _ _ _ _ (by omega)

theorem cleanLoop_still (text : List Byte) (n : Nat) (hn : text.length = n + 1) (fuel : Nat) :
    ∀ (sp : Nat) (flag : Int) (op : Nat) (out : List Byte) (t : Nat), n + 2 ≤ fuel + sp →
    (Model.Torn.cleanLoop n (still text) fuel sp flag op out t).map (fun r => (r.1, r.2.1)) =
      cleanLoop (text.drop sp) flag op out := by
  induction fuel with
  | zero =>
    intro sp flag op out t h
    rw [drop_over hn (by omega)]
    rfl
  | succ f ih =>
    intro sp flag op out t h
    rw [Model.Torn.cleanLoop]
    by_cases hsp : sp ≤ n
    · rw [peek_ok hsp, bind_ok, drop_still hn hsp t, cleanLoop]
      split
      · rfl
      · have hpre : ∃ t', Model.Torn.isPrefix n (still text) sp flag (t + 1) =
            .ok (decide (flag < 2 ∧ (if flag < 2 then flag + 1 else flag) = 1 ∧
              (still text t sp = 0x78#8 ∨ still text t sp = 0x58#8)), t') := by
          unfold Model.Torn.isPrefix
          by_cases hf : flag < 2
          · by_cases hf1 : flag + 1 = 1
            · rw [if_pos ⟨hf, hf1⟩, peek_ok hsp, bind_ok, peek_ok hsp, still_eq text (t + 1) t, still_eq text (t + 1 + 1) t]
              by_cases hx : still text t sp = 0x78#8
              · exact ⟨t + 1 + 1, by rw [if_pos hx]; simp [hf, hf1, hx]⟩
              · exact ⟨t + 1 + 2, by rw [if_neg hx, bind_ok]; simp [hf, hf1, hx]⟩
            · exact ⟨t + 1, by rw [if_neg (fun hh => hf1 hh.2)]; simp [hf, hf1]⟩
          · exact ⟨t + 1, by rw [if_neg (fun hh => hf hh.1)]; simp [hf]⟩
        obtain ⟨t', hpre⟩ := hpre
        dsimp only
        rw [hpre, bind_ok]
        dsimp only
        by_cases hb : flag < 2 ∧ (if flag < 2 then flag + 1 else flag) = 1 ∧
              (still text t sp = 0x78#8 ∨ still text t sp = 0x58#8)
        · rw [if_pos hb, decide_eq_true hb, if_pos rfl]
          exact ih _ _ _ _ _ (by omega)
        · rw [if_neg hb, decide_eq_false hb, if_neg (by decide), peek_ok hsp, bind_ok, peek_ok hsp, bind_ok,
            still_eq text t' t, still_eq text (t' + 1) t]
          split
          · exact ih _ _ _ _ _ (by omega)
          · cases wr out op _ with
            | error e => rfl
            | ok o => rw [bind_ok, bind_ok]; exact ih _ _ _ _ _ (by omega)
    · rw [peek_err hsp, drop_over hn hsp]
      rfl

theorem hashStringClean_still (text out : List Byte) (n : Nat) (hn : text.length = n + 1) (t : Nat) :
    (Model.Torn.hashStringClean n (still text) out t).map (fun r => (r.1, r.2.1)) = hashStringClean text out := by
  have key := cleanLoop_still text n hn (n + 2) 0 (-1) 0 out t (by omega)
  unfold Model.Torn.hashStringClean hashStringClean
  rw [List.drop_zero] at key
  rw [← key]
  cases Model.Torn.cleanLoop n (still text) (n + 2) 0 (-1) 0 out t with
  | error e => rfl
  | ok r =>
    obtain ⟨op, o, t'⟩ := r
    show Except.map _ (do let out ← wr o op 0#8; .ok (op, out, t')) = (do let out ← wr o op 0#8; .ok (op, out))
    cases wr o op 0#8 <;> rfl

theorem hashLength_still (garbage text : List Byte) (n : Nat) (hn : text.length = n + 1) :
    Model.Torn.hashLength garbage n (still text) = hashLength garbage text := by
  have hs := strlen_still text n hn (n + 2) 0 0 (by omega)
  unfold Model.Torn.hashLength hashLength
  rw [List.drop_zero] at hs
  cases hS : Model.Torn.strlen n (still text) (n + 2) 0 0 with
  | error e =>
    rw [hS] at hs
    cases hm : strlen text with
    | error e' => rw [hm] at hs; cases hs; rfl
    | ok k => rw [hm] at hs; cases hs
  | ok r =>
    rw [hS] at hs
    cases hm : strlen text with
    | error e' => rw [hm] at hs; cases hs
    | ok k =>
      rw [hm] at hs
      have hk : r.1 = k := by
        have : (Except.ok r.1 : C Nat) = .ok (k + 0) := hs
        injection this
      obtain ⟨len, t'⟩ := r
      dsimp only at hk
      subst hk
      rw [bind_ok, bind_ok]
      dsimp only
      rw [← hashStringClean_still text _ n hn t']
      cases Model.Torn.hashStringClean n (still text) (garbage.take (len + 1)) t' <;> rfl

theorem fromHexString_still (garbage text : List Byte) (n : Nat) (hn : text.length = n + 1) :
    Model.Torn.fromHexString garbage n (still text) = fromHexString garbage text := by
  have hs := strlen_still text n hn (n + 2) 0 0 (by omega)
  unfold Model.Torn.fromHexString fromHexString
  rw [List.drop_zero] at hs
  cases hS : Model.Torn.strlen n (still text) (n + 2) 0 0 with
  | error e =>
    rw [hS] at hs
    cases hm : strlen text with
    | error e' => rw [hm] at hs; cases hs; rfl
    | ok k => rw [hm] at hs; cases hs
  | ok r =>
    rw [hS] at hs
    cases hm : strlen text with
    | error e' => rw [hm] at hs; cases hs
    | ok k =>
      rw [hm] at hs
      have hk : r.1 = k := by
        have : (Except.ok r.1 : C Nat) = .ok (k + 0) := hs
        injection this
      obtain ⟨len, t'⟩ := r
      dsimp only at hk
      subst hk
      rw [bind_ok, bind_ok]
      dsimp only
      rw [← hexStringToHash_still text _ n hn t']
      cases Model.Torn.hexStringToHash n (still text) (garbage.take (len / 2 + len % 2 + 1)) t' <;> rfl

end Pgfe.Proofs.Torn
