import Verif.Proofs.BlowfishEcb
/-!
# The key schedule of Blowfish can be undone
-/
namespace Pgfe.Proofs.Blowfish
open Pgfe.Spec Pgfe.Spec.Blowfish

/-- The two tables differ at most in the entries `2 j` and `2 j + 1`. -/
def NearAt (j : Nat) (U V : List W32) : Prop :=
  ∀ i, i ≠ 2 * j → i ≠ 2 * j + 1 → U.getD i 0#32 = V.getD i 0#32

theorem xor_left_inj (a b c : W32) (h : a ^^^ b = a ^^^ c) : b = c := by
  have : a ^^^ (a ^^^ b) = a ^^^ (a ^^^ c) := by rw [h]
  simpa [← BitVec.xor_assoc] using this

theorem xor_right_inj (a b c : W32) (h : b ^^^ a = c ^^^ a) : b = c := by
  rw [BitVec.xor_comm b, BitVec.xor_comm c] at h
  exact xor_left_inj a b c h

theorem F_near {j : Nat} (hj : j < 9) {U V : List W32} (h : NearAt j U V) : F U = F V := by
  funext x
  have e : ∀ i n, S U i n = S V i n := fun i n => h _ (by omega) (by omega)
  simp only [F, e]

theorem rounds_near {j : Nat} (hj : j < 9) {U V : List W32} (h : NearAt j U V) (k : Nat → W32) (c : W32 × W32) :
    ∀ n, rounds U k n c = rounds V k n c := by
  intro n
  induction n with
  | zero => rfl
  | succ n ih => rw [rounds, rounds, ih, F_near hj h]

/-- Rounds before a difference in the subkeys. -/
theorem rounds_before (T : List W32) (k l : Nat → W32) (c : W32 × W32) (n : Nat) (h : ∀ i, i < n → k i = l i) :
    rounds T k n c = rounds T l n c := by
  induction n with
  | zero => rfl
  | succ n ih => rw [rounds, rounds, ih (fun i hi => h i (by omega)), h n (by omega)]

/-- One round with the same subkey can be undone. -/
theorem round_undo (T : List W32) (k l : Nat → W32) (c : W32 × W32) (n : Nat) (hk : k n = l n)
    (h : rounds T k (n + 1) c = rounds T l (n + 1) c) : rounds T k n c = rounds T l n c := by
  rw [rounds, rounds, Prod.mk.injEq, hk] at h
  have h1 := xor_right_inj _ _ _ h.2
  have h2 := h.1
  rw [h1] at h2
  exact Prod.ext h1 (xor_right_inj _ _ _ h2)

/-- ... and so many of them. -/
theorem rounds_undo (T : List W32) (k l : Nat → W32) (c : W32 × W32) (m : Nat) : ∀ n,
    (∀ i, m ≤ i → i < m + n → k i = l i) → rounds T k (m + n) c = rounds T l (m + n) c →
    rounds T k m c = rounds T l m c := by
  intro n
  induction n with
  | zero => intro _ h; exact h
  | succ n ih =>
    intro hk h
    exact ih (fun i h1 h2 => hk i h1 (by omega)) (round_undo T k l c (m + n) (hk _ (by omega) (by omega)) h)

/-- If two tables that differ at most in one pair of subkeys encrypt one block alike, they do not differ. -/
theorem enc_near {j : Nat} (hj : j < 9) {U V : List W32} (h : NearAt j U V) (c : W32 × W32)
    (he : enc U c = enc V c) : U.getD (2 * j) 0#32 = V.getD (2 * j) 0#32 ∧
      U.getD (2 * j + 1) 0#32 = V.getD (2 * j + 1) 0#32 := by
  have hP : ∀ i, i ≠ 2 * j → i ≠ 2 * j + 1 → P U i = P V i := h
  show P U (2 * j) = P V (2 * j) ∧ P U (2 * j + 1) = P V (2 * j + 1)
  rw [enc, enc, cipher, cipher] at he
  simp only [rounds_near hj h, Prod.mk.injEq] at he
  by_cases h8 : j = 8
  · subst h8
    have e := rounds_before V (P U) (P V) c 16 (fun i hi => hP i (by omega) (by omega))
    rw [e] at he
    exact ⟨xor_left_inj _ _ _ he.2, xor_left_inj _ _ _ he.1⟩
  · rw [hP 16 (by omega) (by omega), hP 17 (by omega) (by omega)] at he
    have e16 : rounds V (P U) 16 c = rounds V (P V) 16 c :=
      Prod.ext (xor_right_inj _ _ _ he.2) (xor_right_inj _ _ _ he.1)
    have e0 := rounds_before V (P U) (P V) c (2 * j) (fun i hi => hP i (by omega) (by omega))
    have e2 := rounds_undo V (P U) (P V) c (2 * j + 2) (14 - 2 * j) (fun i h1 h2 => hP i (by omega) (by omega))
      (by rw [show 2 * j + 2 + (14 - 2 * j) = 16 by omega]; exact e16)
    simp only [rounds, e0, Prod.mk.injEq] at e2
    have hb := e2.2
    have ha := e2.1
    rw [hb] at ha
    have ha := xor_left_inj _ _ _ (xor_right_inj _ _ _ ha)
    refine ⟨ha, ?_⟩
    rw [ha] at hb
    exact xor_left_inj _ _ _ hb

/-- The first `n` steps of the key schedule. -/
def sched (T : List W32) (n : Nat) : List W32 × (W32 × W32) := (List.range n).foldl expandStep (T, (0#32, 0#32))

theorem sched_succ (T : List W32) (n : Nat) : sched T (n + 1) = expandStep (sched T n) n := by
  rw [sched, List.range_succ, List.foldl_append]; rfl

theorem sched_length (T : List W32) (n : Nat) : (sched T n).1.length = T.length := by
  induction n with
  | zero => rfl
  | succ n ih => rw [sched_succ, expandStep]; simp [ih]

/-- Step number `n` changes two entries, which become the block. -/
theorem sched_get (T : List W32) (hT : T.length = 1042) (n : Nat) (hn : n < 521) :
    (∀ i, i ≠ 2 * n → i ≠ 2 * n + 1 → (sched T (n + 1)).1.getD i 0#32 = (sched T n).1.getD i 0#32) ∧
    (sched T (n + 1)).1.getD (2 * n) 0#32 = (sched T (n + 1)).2.1 ∧
    (sched T (n + 1)).1.getD (2 * n + 1) 0#32 = (sched T (n + 1)).2.2 ∧
    (sched T (n + 1)).2 = enc (sched T n).1 (sched T n).2 := by
  have hl := sched_length T n
  rw [sched_succ, expandStep]
  refine ⟨fun i h1 h2 => ?_, ?_, ?_, rfl⟩
  · simp only [List.getD, List.getElem?_set]
    rw [if_neg (by omega), if_neg (by omega)]
  · simp only [List.getD, List.getElem?_set]
    rw [if_neg (by omega), if_pos trivial, if_pos (by omega)]; rfl
  · simp only [List.getD, List.getElem?_set]
    rw [if_pos trivial, if_pos (by rw [List.length_set]; omega)]; rfl

/-- Entries that later steps do not change. -/
theorem sched_keep (T : List W32) (hT : T.length = 1042) (n m : Nat) (hm : n + m ≤ 521) (i : Nat) (hi : i < 2 * n) :
    (sched T (n + m)).1.getD i 0#32 = (sched T n).1.getD i 0#32 := by
  induction m with
  | zero => rfl
  | succ m ih => rw [← Nat.add_assoc, (sched_get T hT (n + m) (by omega)).1 i (by omega) (by omega), ih (by omega)]

/-- Entries not reached yet. -/
theorem sched_old (T : List W32) (hT : T.length = 1042) (n : Nat) (hn : n ≤ 521) (i : Nat) (hi : 2 * n ≤ i) :
    (sched T n).1.getD i 0#32 = T.getD i 0#32 := by
  induction n with
  | zero => rfl
  | succ n ih => rw [(sched_get T hT n (by omega)).1 i (by omega) (by omega), ih (by omega) (by omega)]

/-- Two tables with the same S-boxes and the same schedule are the same. -/
theorem sched_inj (T V : List W32) (hT : T.length = 1042) (hV : V.length = 1042)
    (hS : ∀ i, 18 ≤ i → T.getD i 0#32 = V.getD i 0#32) (h : (sched T 521).1 = (sched V 521).1) :
    ∀ i, T.getD i 0#32 = V.getD i 0#32 := by
  have hP9 : ∀ i, i < 18 → (sched T 9).1.getD i 0#32 = (sched V 9).1.getD i 0#32 := by
    intro i hi
    rw [← sched_keep T hT 9 512 (by omega) i (by omega), ← sched_keep V hV 9 512 (by omega) i (by omega)]
    show (sched T 521).1.getD i 0#32 = (sched V 521).1.getD i 0#32
    rw [h]
  have h9 : ∀ i, (sched T 9).1.getD i 0#32 = (sched V 9).1.getD i 0#32 := by
    intro i
    by_cases hi : i < 18
    · exact hP9 i hi
    · rw [sched_old T hT 9 (by omega) i (by omega), sched_old V hV 9 (by omega) i (by omega), hS i (by omega)]
  have hc : ∀ n, n ≤ 9 → (sched T n).2 = (sched V n).2 := by
    intro n hn
    cases n with
    | zero => rfl
    | succ n =>
      have a := sched_get T hT n (by omega)
      have b := sched_get V hV n (by omega)
      have k1 (X : List W32) (hX : X.length = 1042) (i : Nat) (hi : i < 2 * (n + 1)) :
          (sched X 9).1.getD i 0#32 = (sched X (n + 1)).1.getD i 0#32 := by
        have := sched_keep X hX (n + 1) (9 - (n + 1)) (by omega) i hi
        rwa [show n + 1 + (9 - (n + 1)) = 9 by omega] at this
      refine Prod.ext ?_ ?_
      · rw [← a.2.1, ← b.2.1, ← k1 T hT _ (by omega), ← k1 V hV _ (by omega), hP9 _ (by omega)]
      · rw [← a.2.2.1, ← b.2.2.1, ← k1 T hT _ (by omega), ← k1 V hV _ (by omega), hP9 _ (by omega)]
  have down : ∀ d, d ≤ 9 → ∀ i, (sched T (9 - d)).1.getD i 0#32 = (sched V (9 - d)).1.getD i 0#32 := by
    intro d
    induction d with
    | zero => intro _; exact h9
    | succ d ih =>
      intro hd
      have ih := ih (by omega)
      obtain ⟨j, hj⟩ : ∃ j, 9 - d = j + 1 := ⟨8 - d, by omega⟩
      rw [show 9 - (d + 1) = j by omega]
      rw [hj] at ih
      have a := sched_get T hT j (by omega)
      have b := sched_get V hV j (by omega)
      have hn : NearAt j (sched T j).1 (sched V j).1 := by
        intro i h1 h2
        rw [← a.1 i h1 h2, ← b.1 i h1 h2, ih]
      have he : enc (sched T j).1 (sched T j).2 = enc (sched V j).1 (sched T j).2 := by
        rw [← a.2.2.2, hc j (by omega), ← b.2.2.2, hc (j + 1) (by omega)]
      have r := enc_near (by omega : j < 9) hn _ he
      intro i
      by_cases h1 : i = 2 * j
      · rw [h1]; exact r.1
      · by_cases h2 : i = 2 * j + 1
        · rw [h2]; exact r.2
        · exact hn i h1 h2
  exact down 9 (by omega)

theorem word4_inj (a b c d a' b' c' d' : Byte) (h : word [a, b, c, d] = word [a', b', c', d']) :
    a = a' ∧ b = b' ∧ c = c' ∧ d = d' := by
  have := congrArg Pgfe.Spec.Blowfish.bytes h
  rw [Bf.bytes_word, Bf.bytes_word] at this
  simpa using this

theorem keyWord_word (key : List Byte) (i : Nat) : keyWord key i = word
    [key.getD ((4 * i) % key.length) 0#8, key.getD ((4 * i + 1) % key.length) 0#8,
     key.getD ((4 * i + 2) % key.length) 0#8, key.getD ((4 * i + 3) % key.length) 0#8] := rfl

/-- The key schedule determines the first 72 bytes of the repeated key. -/
theorem expand_inj (T : List W32) (hT : T.length = 1042) (k k' : List Byte)
    (h : expand T k = expand T k') (i : Nat) (hi : i < 72) :
    k.getD (i % k.length) 0#8 = k'.getD (i % k'.length) 0#8 := by
  have l (x : List Byte) : (mixKey T x).length = 1042 := by simp [mixKey, hT]
  have g (x : List Byte) (n : Nat) (hn : n < 1042) :
      (mixKey T x).getD n 0#32 = if n < 18 then T.getD n 0#32 ^^^ keyWord x n else T.getD n 0#32 := by
    simp only [mixKey, List.getD, List.getElem?_mapIdx]
    rw [List.getElem?_eq_getElem (by omega : n < T.length)]
    rfl
  have e := sched_inj (mixKey T k) (mixKey T k') (l k) (l k') (fun n hn => by
    by_cases h2 : n < 1042
    · rw [g k n h2, g k' n h2, if_neg (by omega), if_neg (by omega)]
    · simp only [List.getD]
      rw [List.getElem?_eq_none (by rw [l]; omega), List.getElem?_eq_none (by rw [l]; omega)]) h
  have hw := e (i / 4)
  rw [g k _ (by omega), g k' _ (by omega), if_pos (by omega), if_pos (by omega)] at hw
  have hw := xor_left_inj _ _ _ hw
  rw [keyWord_word, keyWord_word] at hw
  obtain ⟨h0, h1, h2, h3⟩ := word4_inj _ _ _ _ _ _ _ _ hw
  have hd := Nat.div_add_mod i 4
  have hm := Nat.mod_lt i (by decide : 0 < 4)
  generalize i / 4 = q at *
  rcases (by omega : i % 4 = 0 ∨ i % 4 = 1 ∨ i % 4 = 2 ∨ i % 4 = 3) with hr | hr | hr | hr
  · rw [show i = 4 * q by omega]; exact h0
  · rw [show i = 4 * q + 1 by omega]; exact h1
  · rw [show i = 4 * q + 2 by omega]; exact h2
  · rw [show i = 4 * q + 3 by omega]; exact h3

end Pgfe.Proofs.Blowfish
