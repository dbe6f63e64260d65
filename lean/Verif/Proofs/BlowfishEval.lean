import Verif.Proofs.BlowfishPi
/-!
# Evaluating Blowfish in the kernel

The table of 1042 words packed into one number, so that the kernel's arithmetic on numbers does the work; everything
is proved equal to `Spec.Blowfish`.
-/
namespace Pgfe.Proofs.BfEval
open Pgfe.Spec.Blowfish

/-- Evaluate the first argument first. -/
def force {α : Type} (n : Nat) (k : Nat → α) : α := Nat.rec (k 0) (fun m _ => k (Nat.succ m)) n
theorem force_eq {α : Type} (n : Nat) (k : Nat → α) : force n k = k n := by cases n <;> rfl

def look (N i : Nat) : Nat := (N >>> (32 * i)) % 4294967296
def put (N i v : Nat) : Nat := N + v <<< (32 * i) - look N i <<< (32 * i)
def pack : List W32 → Nat
  | [] => 0
  | w :: T => w.toNat + pack T * 4294967296

theorem look_zero (w : W32) (a : Nat) : look (w.toNat + a * 4294967296) 0 = w.toNat := by
  have := w.isLt
  rw [look, Nat.mul_zero, Nat.shiftRight_zero]
  omega
theorem look_succ (w : W32) (a i : Nat) : look (w.toNat + a * 4294967296) (i + 1) = look a i := by
  have := w.isLt
  rw [look, look, show 32 * (i + 1) = 32 + 32 * i by omega, Nat.shiftRight_add, Nat.shiftRight_eq_div_pow _ 32]
  rw [show (w.toNat + a * 4294967296) / 2 ^ 32 = a by omega]
theorem look_pack (T : List W32) (i : Nat) : look (pack T) i = (T.getD i 0#32).toNat := by
  induction T generalizing i with
  | nil => simp [pack, look]
  | cons w T ih =>
    cases i with
    | zero => rw [pack, look_zero]; rfl
    | succ i => rw [pack, look_succ, ih]; rfl
theorem look_le (N i : Nat) : look N i <<< (32 * i) ≤ N := by
  rw [look, Nat.shiftLeft_eq, Nat.shiftRight_eq_div_pow]
  exact Nat.le_trans (Nat.mul_le_mul_right _ (Nat.mod_le _ _)) (Nat.div_mul_le_self _ _)
theorem pack_set (T : List W32) (i : Nat) (v : W32) (h : i < T.length) :
    pack (T.set i v) = put (pack T) i v.toNat := by
  induction T generalizing i with
  | nil => simp at h
  | cons w T ih =>
    cases i with
    | zero =>
      rw [List.set_cons_zero, pack, pack, put, look_zero, Nat.mul_zero, Nat.shiftLeft_zero, Nat.shiftLeft_zero]
      omega
    | succ i =>
      rw [List.set_cons_succ, pack, pack, put, look_succ, ih i (by simpa using h), put]
      have hl := look_le (pack T) i
      rw [Nat.shiftLeft_eq] at hl
      rw [Nat.shiftLeft_eq, Nat.shiftLeft_eq, Nat.shiftLeft_eq, Nat.shiftLeft_eq, show 32 * (i + 1) = 32 * i + 32 by omega,
        Nat.pow_add, ← Nat.mul_assoc, ← Nat.mul_assoc]
      generalize v.toNat * 2 ^ (32 * i) = A at *
      generalize look (pack T) i * 2 ^ (32 * i) = B at *
      omega

def fN (N x : Nat) : Nat :=
  ((((look N (18 + x / 16777216) + look N (274 + x / 65536 % 256)) % 4294967296) ^^^ look N (530 + x / 256 % 256)) +
    look N (786 + x % 256)) % 4294967296

theorem fN_eq (T : List W32) (x : W32) : fN (pack T) x.toNat = (F T x).toNat := by
  rw [fN, look_pack, look_pack, look_pack, look_pack, F]
  simp only [S, BitVec.toNat_add, BitVec.toNat_xor]

def roundsN {α : Type} (N : Nat) (kx : Nat → Nat) : Nat → Nat → Nat → Nat → (Nat → Nat → α) → α
  | 0, _, l, r, k => k l r
  | f + 1, i, l, r, k =>
    force (l ^^^ look N (kx i)) fun x => force (r ^^^ fN N x) fun y => roundsN N kx f (i + 1) y x k

theorem roundsN_eq {α : Type} (T : List W32) (kx : Nat → Nat) (x : W32 × W32) (k : Nat → Nat → α) (f i : Nat) :
    roundsN (pack T) kx f i (rounds T (fun j => P T (kx j)) i x).1.toNat (rounds T (fun j => P T (kx j)) i x).2.toNat k =
      k (rounds T (fun j => P T (kx j)) (i + f) x).1.toNat (rounds T (fun j => P T (kx j)) (i + f) x).2.toNat := by
  induction f generalizing i with
  | zero => rfl
  | succ f ih =>
    rw [roundsN, force_eq, force_eq, look_pack]
    have h := ih (i + 1)
    rw [show i + 1 + f = i + (f + 1) by omega] at h
    rw [← h]
    have e : (rounds T (fun j => P T (kx j)) i x).1.toNat ^^^ (T.getD (kx i) 0#32).toNat =
        (rounds T (fun j => P T (kx j)) (i + 1) x).2.toNat := by
      rw [rounds, BitVec.toNat_xor]; rfl
    rw [e, fN_eq]
    congr 1

def cipherN {α : Type} (N : Nat) (kx : Nat → Nat) (l r : Nat) (k : Nat → Nat → α) : α :=
  roundsN N kx 16 0 l r fun l r =>
    force (r ^^^ look N (kx 17)) fun a => force (l ^^^ look N (kx 16)) fun b => k a b

theorem cipherN_eq {α : Type} (T : List W32) (kx : Nat → Nat) (x : W32 × W32) (k : Nat → Nat → α) :
    cipherN (pack T) kx x.1.toNat x.2.toNat k =
      k (cipher T (fun j => P T (kx j)) x).1.toNat (cipher T (fun j => P T (kx j)) x).2.toNat := by
  have h := roundsN_eq T kx x (fun l r => force (r ^^^ look (pack T) (kx 17)) fun a =>
    force (l ^^^ look (pack T) (kx 16)) fun b => k a b) 16 0
  rw [cipherN]
  refine h.trans ?_
  rw [force_eq, force_eq, look_pack, look_pack]
  simp only [cipher, BitVec.toNat_xor]
  rfl

def expandN {α : Type} : Nat → Nat → Nat → Nat → Nat → (Nat → α) → α
  | 0, _, N, _, _, k => k N
  | f + 1, j, N, l, r, k =>
    cipherN N (fun i => i) l r fun a b => force (put (put N (2 * j) a) (2 * j + 1) b) fun N => expandN f (j + 1) N a b k

theorem step_length (s : List W32 × (W32 × W32)) (j : Nat) : (expandStep s j).1.length = s.1.length := by
  simp [expandStep]

theorem expandN_eq {α : Type} (k : Nat → α) (f j : Nat) (s : List W32 × (W32 × W32)) (hs : s.1.length = 1042)
    (hj : 2 * (j + f) ≤ 1042) :
    expandN f j (pack s.1) s.2.1.toNat s.2.2.toNat k =
      k (pack ((List.range' j f).foldl expandStep s).1) := by
  induction f generalizing j s with
  | zero => rfl
  | succ f ih =>
    rw [expandN, cipherN_eq, force_eq, List.range'_succ, List.foldl_cons]
    have h := ih (j + 1) (expandStep s j) (by rw [step_length, hs]) (by omega)
    rw [← h]
    simp only [expandStep]
    rw [pack_set _ _ _ (by rw [List.length_set]; omega), pack_set _ _ _ (by omega)]
    rfl

/-- The first 18 words with the key, the rest as they are. -/
def mixed (T : List W32) (key : List Byte) : List W32 :=
  List.zipWith (· ^^^ ·) T ((List.range 18).map (keyWord key)) ++ T.drop 18

theorem mixed_eq (T : List W32) (key : List Byte) (h : T.length = 1042) : mixKey T key = mixed T key := by
  have hl : (List.zipWith (· ^^^ ·) T ((List.range 18).map (keyWord key))).length = 18 := by simp [h]
  apply List.ext_getElem?
  intro i
  rw [mixKey, mixed, List.getElem?_mapIdx]
  by_cases hi : i < 18
  · rw [List.getElem?_append_left (by omega), List.getElem?_zipWith, List.getElem?_map, List.getElem?_range hi]
    rw [List.getElem?_eq_getElem (by omega)]
    simp [hi]
  · rw [List.getElem?_append_right (by omega), hl, List.getElem?_drop, show 18 + (i - 18) = i by omega]
    simp [hi]

theorem expand_eval {α : Type} (T : List W32) (hT : T.length = 1042) (key : List Byte) (k : Nat → α) :
    k (pack (expand T key)) = force (pack (mixed T key)) fun N => expandN 521 0 N 0 0 k := by
  rw [force_eq, expand, List.range_eq_range', mixed_eq T key hT]
  have h := expandN_eq k 521 0 (mixed T key, (0#32, 0#32)) (by simp [mixed, hT]) (by omega)
  exact h.symm

end Pgfe.Proofs.BfEval
