import Verif.Proofs.KeccakBytes
/-!
# The sponge on bytes is the sponge on bits
-/
namespace Pgfe.Proofs.Keccak
open Pgfe.Model Pgfe.Spec.Keccak
open Pgfe.Spec.Sha (blocks)
open Pgfe.Proofs.Sha

/-- The bytes of the padding of a block that lacks `q` bytes; `d` is the byte that starts it. -/
def padTail (q : Nat) (d : Byte) : List Byte :=
  if q = 1 then [d ||| 0x80#8] else d :: List.replicate (q - 2) 0#8 ++ [0x80#8]

theorem padTail_length (q : Nat) (d : Byte) (h : 0 < q) : (padTail q d).length = q := by
  rw [padTail]
  split
  · simp; omega
  · simp; omega

/-- The padded message. -/
def padB (rb : Nat) (d : Byte) (m : List Byte) : List Byte := m ++ padTail (rb - m.length % rb) d

/-- The permutation applied `k` times. -/
def perms : Nat → (Nat → W64) → Nat → W64
  | 0, f => f
  | k + 1, f => permF (perms k f)

/-- Byte `i` of the output stream of a state. -/
def strm (rb : Nat) (f : Nat → W64) (i : Nat) : Byte := (stBytes (perms (i / rb) f)).getD (i % rb) 0#8

/-- The state after absorbing a padded message. -/
def fin (rb : Nat) (d : Byte) (m : List Byte) : Nat → W64 :=
  (blocks rb (padB rb d m)).foldl absF (fun _ => 0#64)

theorem perms_repS {f S} (h : RepS f S) (k : Nat) : RepS (perms k f) (keccakFs k S) := by
  induction k with
  | zero => exact h
  | succ k ih => exact perm_repS ih

theorem fold_repS (r : Nat) (h1 : r ≤ 1600) (bs : List (List Byte)) (hb : ∀ b ∈ bs, 8 * b.length = r) :
    ∀ f S, RepS f S → RepS (bs.foldl absF f) ((bs.map bitsOf).foldl (absorbBlock r) S) := by
  induction bs with
  | nil => intro f S h; exact h
  | cons b bs ih =>
    intro f S h
    rw [List.map_cons, List.foldl_cons, List.foldl_cons]
    exact ih (fun c hc => hb c (List.mem_cons_of_mem _ hc)) _ _
      (abs_repS h b r (hb b (List.mem_cons_self ..)) h1)

theorem blocks_len (rb : Nat) (m : List Byte) : ∀ b ∈ blocks rb m, b.length = rb := by
  intro b hb
  rw [blocks] at hb
  obtain ⟨i, hi, rfl⟩ := List.mem_map.1 hb
  have hi := List.mem_range.1 hi
  have h1 : (i + 1) * rb ≤ m.length / rb * rb := Nat.mul_le_mul_right _ hi
  have h2 := Nat.div_mul_le_self m.length rb
  rw [Nat.add_mul, Nat.one_mul] at h1
  rw [List.length_take, List.length_drop]
  omega

/-- What the byte starting the padding has to be, for the suffix `sfx`. -/
structure DomSep (sfx : List Bool) (d : Byte) : Prop where
  len : sfx.length ≤ 4
  one : bitsOf [d] = sfx ++ true :: List.replicate (7 - sfx.length) false
  two : bitsOf [d ||| 0x80#8] = sfx ++ true :: List.replicate (6 - sfx.length) false ++ [true]

theorem bitsOf_zeros (n : Nat) : bitsOf (List.replicate n 0#8) = List.replicate (8 * n) false := by
  induction n with
  | zero => rfl
  | succ n ih =>
    rw [List.replicate_succ, show 0#8 :: List.replicate n 0#8 = [0#8] ++ List.replicate n 0#8 from rfl,
      bitsOf_append, ih, show bitsOf [0#8] = List.replicate 8 false by decide, List.replicate_append_replicate]
    congr 1; omega

theorem pad_bits (rb : Nat) (hrb : 0 < rb) (sfx : List Bool) (d : Byte) (h : DomSep sfx d) (m : List Byte) :
    bitsOf (padB rb d m) = (bitsOf m ++ sfx) ++ pad10star1 (8 * rb) (bitsOf m ++ sfx).length := by
  rw [padB, bitsOf_append, List.append_assoc]
  congr 1
  have hlt := Nat.mod_lt m.length hrb
  have hq : ∃ q, rb - m.length % rb = q := ⟨_, rfl⟩
  obtain ⟨q, hq⟩ := hq
  rw [hq, pad10star1, List.length_append, bitsOf_length]
  have hl := h.len
  have e : (8 * rb - (8 * m.length + sfx.length + 2) % (8 * rb)) % (8 * rb) = 8 * q - sfx.length - 2 := by
    have h1 : 8 * m.length + sfx.length + 2 = (8 * rb - 8 * q + sfx.length + 2) + (8 * rb) * (m.length / rb) := by
      have := Nat.div_add_mod m.length rb
      have h3 : 8 * rb * (m.length / rb) = 8 * (rb * (m.length / rb)) := Nat.mul_assoc ..
      omega
    rw [h1, Nat.add_mul_mod_self_left, Nat.mod_eq_of_lt (a := 8 * rb - 8 * q + sfx.length + 2) (by omega),
      Nat.mod_eq_of_lt (by omega)]
    omega
  rw [e, padTail]
  split
  · rename_i h1
    subst h1
    rw [h.two]
    rw [show 8 * 1 - sfx.length - 2 = 6 - sfx.length by omega]
    simp
  · rename_i h1
    have ha : d :: List.replicate (q - 2) 0#8 ++ [0x80#8]
        = [d] ++ (List.replicate (q - 2) 0#8 ++ [0x80#8]) := rfl
    rw [ha, bitsOf_append, bitsOf_append, h.one, bitsOf_zeros,
      show bitsOf [0x80#8] = List.replicate 7 false ++ [true] by decide]
    have hr : List.replicate (8 * q - sfx.length - 2) false
        = List.replicate (7 - sfx.length) false ++ (List.replicate (8 * (q - 2)) false
          ++ List.replicate 7 false) := by
      rw [List.replicate_append_replicate, List.replicate_append_replicate]
      congr 1; omega
    rw [hr]
    simp only [List.append_assoc, List.cons_append]

theorem fin_repS (rb : Nat) (hrb : 0 < rb) (h200 : rb ≤ 200) (sfx : List Bool) (d : Byte) (h : DomSep sfx d)
    (m : List Byte) : RepS (fin rb d m) (absorb (8 * rb) (bitsOf m ++ sfx)) := by
  rw [fin, absorb, ← pad_bits rb hrb sfx d h m, bitBlocks_bitsOf]
  exact fold_repS (8 * rb) (by omega) _ (fun b hb => by rw [blocks_len rb _ b hb]) _ _ zero_repS

/-- Bits of a flatMap. -/
theorem bitsOf_flatMap {α : Type} (l : List α) (g : α → List Byte) :
    l.flatMap (fun k => bitsOf (g k)) = bitsOf (l.flatMap g) := by
  induction l with
  | nil => rfl
  | cons x l ih => rw [List.flatMap_cons, List.flatMap_cons, bitsOf_append, ih]

theorem out_strm (rb : Nat) (hrb : 0 < rb) (h200 : rb ≤ 200) (f : Nat → W64) (n : Nat) :
    ((List.range (n / rb + 1)).flatMap (fun k => (stBytes (perms k f)).take rb)).take n
      = (List.range n).map (strm rb f) := by
  have hk : ∀ x ∈ List.range (n / rb + 1), ((stBytes (perms x f)).take rb).length = rb := by
    intro x _
    rw [List.length_take, stBytes_length]; omega
  apply List.ext_getElem?
  intro i
  rw [List.getElem?_take]
  by_cases hi : i < n
  · rw [if_pos hi, flatMap_getElem? _ rb _ hk i hrb]
    have hd : i / rb < n / rb + 1 := by
      have := Nat.div_le_div_right (c := rb) (Nat.le_of_lt hi)
      omega
    have hm := Nat.mod_lt i hrb
    simp only [List.getElem?_range, hd, Option.bind_some, List.getElem?_map, hi, Option.map_some]
    rw [List.getElem?_take, if_pos hm, strm, List.getD_eq_getElem?_getD,
      List.getElem?_eq_getElem (by rw [stBytes_length]; omega)]
    rfl
  · rw [if_neg hi]
    symm
    rw [List.getElem?_eq_none (by simpa using Nat.le_of_not_lt hi)]

/-- KECCAK[c] on byte strings. -/
theorem keccak_bytes (c rb n : Nat) (hc : 1600 - c = 8 * rb) (hrb : 0 < rb) (h200 : rb ≤ 200)
    (sfx : List Bool) (d : Byte) (h : DomSep sfx d) (m : List Byte) :
    bytesOf (keccak c (bitsOf m ++ sfx) (8 * n)) = (List.range n).map (strm rb (fin rb d m)) := by
  rw [keccak, hc, squeeze]
  have hr := fin_repS rb hrb h200 sfx d h m
  have e : (fun k => (keccakFs k (absorb (8 * rb) (bitsOf m ++ sfx))).take (8 * rb))
      = fun k => bitsOf ((stBytes (perms k (fin rb d m))).take rb) := by
    funext k
    rw [← rep_bytes (perms_repS hr k), bitsOf_take]
  rw [e, bitsOf_flatMap, Nat.mul_div_mul_left _ _ (by decide : 0 < 8), bitsOf_take, bytesOf_bitsOf,
    out_strm rb hrb h200]

theorem domSep_sha3 : DomSep [false, true] 0x06#8 := by constructor <;> decide
theorem domSep_shake : DomSep [true, true, true, true] 0x1f#8 := by constructor <;> decide
theorem domSep_raw : DomSep [true, true] 0x07#8 := by constructor <;> decide

end Pgfe.Proofs.Keccak
