/-!
# Memory and control flow of the C subset used by libpgfe

This file models no particular function of `/repo`; it fixes how C memory accesses and loops are
represented by the model.
-/
namespace Pgfe

/-- `pgfe_encode_t` / `pgfe_byte_t` = `uint8_t`, include/libpgfe/generic.h:32-35. -/
abbrev Byte := BitVec 8
/-- `pgfe_word_t` = `uint32_t`, include/libpgfe/generic.h:37. -/
abbrev W32 := BitVec 32
/-- `pgfe_word64_t` = `uint64_t`, include/libpgfe/generic.h:39. -/
abbrev W64 := BitVec 64

/-- The ways in which a C/C++ call can fail to return a value: undefined behaviour of several kinds,
an infinite loop, or a C++ exception. -/
inductive UB where
  | oobRead      -- read outside an object
  | oobWrite     -- write outside an object
  | uninit       -- the value of an uninitialised object is used
  | divZero      -- division by zero
  | intOverflow  -- signed overflow
  | nullDeref    -- a null pointer is dereferenced
  | diverge      -- an infinite loop (the call never returns)
  | thrown       -- a C++ exception leaves the function (defined behaviour)
  | badPtr       -- a pointer to a deleted object, or to an object of another type, is used
  deriving DecidableEq, Repr

/-- Outcome of a C computation: a value or undefined behaviour. -/
abbrev C (α : Type) := Except UB α

instance {ε α} [DecidableEq ε] [DecidableEq α] : DecidableEq (Except ε α)
  | .ok a, .ok b => if h : a = b then isTrue (h ▸ rfl) else isFalse (fun e => h (Except.ok.inj e))
  | .error a, .error b =>
    if h : a = b then isTrue (h ▸ rfl) else isFalse (fun e => h (Except.error.inj e))
  | .ok _, .error _ => isFalse (fun e => Except.noConfusion rfl rfl (heq_of_eq e))
  | .error _, .ok _ => isFalse (fun e => Except.noConfusion rfl rfl (heq_of_eq e))

/-- An array element read `b[i]`. -/
def rd {α : Type} (b : List α) (i : Nat) : C α :=
  match b[i]? with
  | some v => .ok v
  | none => .error .oobRead

/-- An array element write `b[i] = v`. -/
def wr {α : Type} (b : List α) (i : Nat) (v : α) : C (List α) :=
  if i < b.length then .ok (b.set i v) else .error .oobWrite

/-- Overwrite `src.length` elements of `b` from position `i` on (both in range). -/
def splice {α : Type} (b : List α) (i : Nat) (src : List α) : List α :=
  b.take i ++ src ++ b.drop (i + src.length)

/-- `memcpy(b + i, src, |src|)`: the bytes have already been read from the source. -/
def wrs {α : Type} (b : List α) (i : Nat) (src : List α) : C (List α) :=
  if i + src.length ≤ b.length then .ok (splice b i src) else .error .oobWrite

/-- Read `n` consecutive elements from `b + i`. -/
def rds {α : Type} (b : List α) (i n : Nat) : C (List α) :=
  if i + n ≤ b.length then .ok ((b.drop i).take n) else .error .oobRead

/-- `for (i = 0; i < n; i++) s = f i s`. -/
def forN {σ : Type} : Nat → (Nat → σ → C σ) → σ → C σ
  | 0, _, s => .ok s
  | n + 1, f, s => do
    let s ← forN n f s
    f n s

/-- The text of a Lean string literal as C characters. -/
def str (s : String) : List Byte := s.toList.map (fun c => BitVec.ofNat 8 c.toNat)

@[simp] theorem bind_ok {α β : Type} (a : α) (f : α → C β) :
    ((Except.ok a : C α) >>= f) = f a := rfl
@[simp] theorem bind_err {α β : Type} (e : UB) (f : α → C β) :
    ((Except.error e : C α) >>= f) = .error e := rfl
@[simp] theorem pure_eq_ok {α : Type} (a : α) : (pure a : C α) = .ok a := rfl

theorem rd_ok {α : Type} {b : List α} {i : Nat} (h : i < b.length) : rd b i = .ok b[i] := by
  simp [rd, h]

theorem wr_ok {α : Type} {b : List α} {i : Nat} (v : α) (h : i < b.length) :
    wr b i v = .ok (b.set i v) := by simp [wr, h]

theorem wr_append {α : Type} (p q : List α) (x v : α) :
    wr (p ++ x :: q) p.length v = .ok (p ++ v :: q) := by
  simp [wr]

theorem rd_append {α : Type} (p q : List α) (x : α) :
    rd (p ++ x :: q) p.length = .ok x := by
  simp [rd]

theorem wrs_ok {α : Type} {b : List α} {i : Nat} {src : List α} (h : i + src.length ≤ b.length) :
    wrs b i src = .ok (splice b i src) := by simp [wrs, h]

theorem rds_ok {α : Type} {b : List α} {i n : Nat} (h : i + n ≤ b.length) :
    rds b i n = .ok ((b.drop i).take n) := by simp [rds, h]

theorem splice_length {α : Type} {b : List α} {i : Nat} {src : List α}
    (h : i + src.length ≤ b.length) : (splice b i src).length = b.length := by
  simp [splice]; omega

/-- Loop rule: an invariant which every iteration preserves holds at the end, and the loop is free
of undefined behaviour. -/
theorem forN_inv {σ : Type} (P : Nat → σ → Prop) (n : Nat) (f : Nat → σ → C σ) (s : σ)
    (h0 : P 0 s) (hs : ∀ i s, i < n → P i s → ∃ s', f i s = .ok s' ∧ P (i + 1) s') :
    ∃ s', forN n f s = .ok s' ∧ P n s' := by
  induction n with
  | zero => exact ⟨s, rfl, h0⟩
  | succ n ih =>
    obtain ⟨s1, h1, p1⟩ := ih (fun i s hi => hs i s (by omega))
    obtain ⟨s2, h2, p2⟩ := hs n s1 (by omega) p1
    exact ⟨s2, by simp [forN, h1, h2], p2⟩

/-- A loop whose body never fails is a fold. -/
theorem forN_pure {σ : Type} (n : Nat) (f : Nat → σ → C σ) (g : Nat → σ → σ) (s : σ)
    (h : ∀ i s, i < n → f i s = .ok (g i s)) :
    forN n f s = .ok ((List.range n).foldl (fun s i => g i s) s) := by
  induction n with
  | zero => rfl
  | succ n ih =>
    rw [forN, ih (fun i s hi => h i s (by omega))]
    simp [List.range_succ, h n _ (Nat.lt_succ_self n)]

/-- A loop splits at any iteration. -/
theorem forN_add {σ : Type} (m n : Nat) (f : Nat → σ → C σ) (s : σ) :
    forN (m + n) f s = (forN m f s >>= forN n (fun i => f (m + i))) := by
  induction n with
  | zero => cases h : forN m f s <;> simp [forN]
  | succ n ih =>
    rw [Nat.add_succ, forN, ih]
    cases h : forN m f s <;> simp [forN]

theorem forN_congr {σ : Type} (n : Nat) (f g : Nat → σ → C σ) (s : σ)
    (h : ∀ i s, i < n → f i s = g i s) : forN n f s = forN n g s := by
  induction n with
  | zero => rfl
  | succ n ih =>
    rw [forN, forN, ih (fun i s hi => h i s (by omega))]
    cases forN n g s with
    | error e => rfl
    | ok s => simp [h n s (Nat.lt_succ_self n)]

/-- Once the body fails at iteration `i`, the loop fails. -/
theorem forN_err {σ : Type} (n : Nat) (f : Nat → σ → C σ) (s : σ) (e : UB) (i : Nat) (hi : i < n)
    (h : (forN i f s >>= f i) = .error e) : forN n f s = .error e := by
  obtain ⟨k, rfl⟩ : ∃ k, n = (i + 1) + k := ⟨n - (i + 1), by omega⟩
  rw [forN_add]
  have : forN (i + 1) f s = .error e := by rw [forN]; exact h
  rw [this]; rfl

end Pgfe
