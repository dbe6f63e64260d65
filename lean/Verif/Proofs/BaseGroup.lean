import Verif.Model.Base
import Verif.Proofs.Bits
/-! The encoder on one group. -/
namespace Pgfe.Proofs
open Pgfe.Model Pgfe.Spec

/-- The standard encoding each of the five functions should implement. -/
def specOf : BaseAlg → BaseSpec
  | .base16 => rfcBase16
  | .base32 => rfcBase32
  | .base32hex => rfcBase32Hex
  | .base64 => rfcBase64
  | .base64url => rfcBase64Url

theorem byte_ofBits (v : Byte) (l : List Bool)
    (h : ∀ i, i < 8 → v.getLsbD i = l.reverse.getD i false) : v = BitVec.ofNat 8 (ofBits l) := by
  apply BitVec.eq_of_getLsbD_eq
  intro i hi
  rw [BitVec.getLsbD_ofNat, testBit_ofBits, h i hi]
  simp [hi]

theorem digits64 (B : BaseSpec) (hb : B.bits = 6) (a b c : Byte) :
    (B.digits [a, b, c]).map (BitVec.ofNat 8) =
    [(a >>> 2) &&& mkmask 6, (a &&& mkmask 2) <<< 4 ||| ((b >>> 4) &&& mkmask 4),
     (b &&& mkmask 4) <<< 2 ||| ((c >>> 6) &&& mkmask 2), c &&& mkmask 6] := by
  symm
  simp only [BaseSpec.digits, bitsOf_length, hb, List.map_map]
  simp only [List.length_cons, List.length_nil, Nat.reduceAdd, Nat.reduceMul, Nat.reduceSub,
    Nat.reduceDiv, List.range, List.range.loop, List.map_cons, List.map_nil, Function.comp]
  simp only [List.cons.injEq, and_true]
  refine ⟨?_, ?_, ?_, ?_⟩ <;>
  · apply byte_ofBits
    intro i hi
    have : i = 0 ∨ i = 1 ∨ i = 2 ∨ i = 3 ∨ i = 4 ∨ i = 5 ∨ i = 6 ∨ i = 7 := by omega
    rcases this with rfl | rfl | rfl | rfl | rfl | rfl | rfl | rfl <;>
    simp [mkmask, bitsOf, bitsOfByte, slice, List.range, List.range.loop, BitVec.getMsbD,
      BitVec.getElem_and]

set_option maxHeartbeats 2000000 in
theorem digits32 (B : BaseSpec) (hb : B.bits = 5) (a b c d e : Byte) :
    (B.digits [a, b, c, d, e]).map (BitVec.ofNat 8) =
    [(a >>> 3) &&& mkmask 5, (a &&& mkmask 3) <<< 2 ||| ((b >>> 6) &&& mkmask 2),
     (b >>> 1) &&& mkmask 5, (b &&& mkmask 1) <<< 4 ||| ((c >>> 4) &&& mkmask 4),
     (c &&& mkmask 4) <<< 1 ||| ((d >>> 7) &&& mkmask 1),
     (d >>> 2) &&& mkmask 5, (d &&& mkmask 2) <<< 3 ||| ((e >>> 5) &&& mkmask 3),
     e &&& mkmask 5] := by
  symm
  simp only [BaseSpec.digits, bitsOf_length, hb, List.map_map]
  simp only [List.length_cons, List.length_nil, Nat.reduceAdd, Nat.reduceMul, Nat.reduceSub,
    Nat.reduceDiv, List.range, List.range.loop, List.map_cons, List.map_nil, Function.comp]
  simp only [List.cons.injEq, and_true]
  refine ⟨?_, ?_, ?_, ?_, ?_, ?_, ?_, ?_⟩ <;>
  · apply byte_ofBits
    intro i hi
    have : i = 0 ∨ i = 1 ∨ i = 2 ∨ i = 3 ∨ i = 4 ∨ i = 5 ∨ i = 6 ∨ i = 7 := by omega
    rcases this with rfl | rfl | rfl | rfl | rfl | rfl | rfl | rfl <;>
    simp [mkmask, bitsOf, bitsOfByte, slice, List.range, List.range.loop, BitVec.getMsbD,
      BitVec.getElem_and]

theorem digits16 (B : BaseSpec) (hb : B.bits = 4) (a : Byte) :
    (B.digits [a]).map (BitVec.ofNat 8) = [(a >>> 4) &&& mkmask 4, a &&& mkmask 4] := by
  symm
  simp only [BaseSpec.digits, bitsOf_length, hb, List.map_map]
  simp only [List.length_cons, List.length_nil, Nat.reduceAdd, Nat.reduceMul, Nat.reduceSub,
    Nat.reduceDiv, List.range, List.range.loop, List.map_cons, List.map_nil, Function.comp]
  simp only [List.cons.injEq, and_true]
  refine ⟨?_, ?_⟩ <;>
  · apply byte_ofBits
    intro i hi
    have : i = 0 ∨ i = 1 ∨ i = 2 ∨ i = 3 ∨ i = 4 ∨ i = 5 ∨ i = 6 ∨ i = 7 := by omega
    rcases this with rfl | rfl | rfl | rfl | rfl | rfl | rfl | rfl <;>
    simp [mkmask, bitsOf, bitsOfByte, slice, List.range, List.range.loop, BitVec.getMsbD,
      BitVec.getElem_and]

theorem len1 {α} {l : List α} (h : l.length = 1) : ∃ a, l = [a] := List.length_eq_one_iff.mp h
theorem len2 {α} {l : List α} (h : l.length = 2) : ∃ a b, l = [a, b] := by
  match l, h with | [a, b], _ => exact ⟨a, b, rfl⟩
theorem len3 {α} {l : List α} (h : l.length = 3) : ∃ a b c, l = [a, b, c] := by
  match l, h with | [a, b, c], _ => exact ⟨a, b, c, rfl⟩
theorem len4 {α} {l : List α} (h : l.length = 4) : ∃ a b c d, l = [a, b, c, d] := by
  match l, h with | [a, b, c, d], _ => exact ⟨a, b, c, d, rfl⟩
theorem len5 {α} {l : List α} (h : l.length = 5) : ∃ a b c d e, l = [a, b, c, d, e] := by
  match l, h with | [a, b, c, d, e], _ => exact ⟨a, b, c, d, e, rfl⟩
theorem len8 {α} {l : List α} (h : l.length = 8) :
    ∃ a b c d e f g i, l = [a, b, c, d, e, f, g, i] := by
  match l, h with | [a, b, c, d, e, f, g, i], _ => exact ⟨a, b, c, d, e, f, g, i, rfl⟩

/-- With one readable byte behind the unit and two writable bytes behind the scratch array, the bit
splitter computes the RFC 4648 character values, whatever those bytes contain. -/
theorem transform_ok (al : BaseAlg) (u g bu bs : List Byte) (hu : u.length = al.params.unitSize)
    (hg : g.length = al.params.chunkCount) (h1 : 1 ≤ bu.length) (h2 : 2 ≤ bs.length) :
    ∃ n split, transform (u ++ bu) al.params.unitSize al.params.bitSize (g ++ bs) = .ok (n, split)
      ∧ split.take al.params.chunkCount = ((specOf al).digits u).map (BitVec.ofNat 8) := by
  obtain ⟨p0, ps, rfl⟩ : ∃ p ps, bu = p :: ps := by
    cases bu with
    | nil => simp at h1
    | cons p ps => exact ⟨p, ps, rfl⟩
  obtain ⟨s0, s1, ss, rfl⟩ : ∃ s0 s1 ss, bs = s0 :: s1 :: ss := by
    match bs, h2 with
    | s0 :: s1 :: ss, _ => exact ⟨s0, s1, ss, rfl⟩
  have c64 : ∀ B : BaseSpec, B.bits = 6 → u.length = 3 → g.length = 4 →
      ∃ n split, transform (u ++ p0 :: ps) 3 6 (g ++ s0 :: s1 :: ss) = .ok (n, split)
      ∧ split.take 4 = (B.digits u).map (BitVec.ofNat 8) := by
    intro B hb hu hg
    obtain ⟨a, b, c, rfl⟩ := len3 hu
    obtain ⟨g0, g1, g2, g3, rfl⟩ := len4 hg
    rw [digits64 B hb]
    exact ⟨_, _, rfl, rfl⟩
  have c32 : ∀ B : BaseSpec, B.bits = 5 → u.length = 5 → g.length = 8 →
      ∃ n split, transform (u ++ p0 :: ps) 5 5 (g ++ s0 :: s1 :: ss) = .ok (n, split)
      ∧ split.take 8 = (B.digits u).map (BitVec.ofNat 8) := by
    intro B hb hu hg
    obtain ⟨a, b, c, d, e, rfl⟩ := len5 hu
    obtain ⟨g0, g1, g2, g3, g4, g5, g6, g7, rfl⟩ := len8 hg
    rw [digits32 B hb]
    exact ⟨_, _, rfl, rfl⟩
  have c16 : ∀ B : BaseSpec, B.bits = 4 → u.length = 1 → g.length = 2 →
      ∃ n split, transform (u ++ p0 :: ps) 1 4 (g ++ s0 :: s1 :: ss) = .ok (n, split)
      ∧ split.take 2 = (B.digits u).map (BitVec.ofNat 8) := by
    intro B hb hu hg
    obtain ⟨a, rfl⟩ := len1 hu
    obtain ⟨g0, g1, rfl⟩ := len2 hg
    rw [digits16 B hb]
    exact ⟨_, _, rfl, rfl⟩
  cases al
  · exact c16 _ rfl hu hg
  · exact c32 _ rfl hu hg
  · exact c32 _ rfl hu hg
  · exact c64 _ rfl hu hg
  · exact c64 _ rfl hu hg

/-- Without that extra memory the bit splitter always leaves its arrays. -/
theorem transform_ub (al : BaseAlg) (u g bu bs : List Byte) (hu : u.length = al.params.unitSize)
    (hg : g.length = al.params.chunkCount) (h : bu = [] ∨ bs.length < 2) :
    ∃ e, transform (u ++ bu) al.params.unitSize al.params.bitSize (g ++ bs) = .error e
      ∧ (e = .oobRead ∨ e = .oobWrite) := by
  have fin : ∀ (bu bs : List Byte), (bu = [] ∨ bs.length < 2) →
      bu = [] ∨ (∃ p ps, bu = p :: ps) ∧ (bs = [] ∨ ∃ s, bs = [s]) := by
    intro bu bs h
    cases bu with
    | nil => exact .inl rfl
    | cons p ps =>
      right
      refine ⟨⟨p, ps, rfl⟩, ?_⟩
      rcases h with h | h
      · simp at h
      · match bs, h with
        | [], _ => exact .inl rfl
        | [s], _ => exact .inr ⟨s, rfl⟩
  have c64 : u.length = 3 → g.length = 4 →
      ∃ e, transform (u ++ bu) 3 6 (g ++ bs) = .error e ∧ (e = .oobRead ∨ e = .oobWrite) := by
    intro hu hg
    obtain ⟨a, b, c, rfl⟩ := len3 hu
    obtain ⟨g0, g1, g2, g3, rfl⟩ := len4 hg
    rcases fin bu bs h with rfl | ⟨⟨p, ps, rfl⟩, rfl | ⟨s, rfl⟩⟩
    · exact ⟨.oobRead, rfl, .inl rfl⟩
    · exact ⟨.oobWrite, rfl, .inr rfl⟩
    · exact ⟨.oobWrite, rfl, .inr rfl⟩
  have c32 : u.length = 5 → g.length = 8 →
      ∃ e, transform (u ++ bu) 5 5 (g ++ bs) = .error e ∧ (e = .oobRead ∨ e = .oobWrite) := by
    intro hu hg
    obtain ⟨a, b, c, d, e, rfl⟩ := len5 hu
    obtain ⟨g0, g1, g2, g3, g4, g5, g6, g7, rfl⟩ := len8 hg
    rcases fin bu bs h with rfl | ⟨⟨p, ps, rfl⟩, rfl | ⟨s, rfl⟩⟩
    · exact ⟨.oobRead, rfl, .inl rfl⟩
    · exact ⟨.oobWrite, rfl, .inr rfl⟩
    · exact ⟨.oobWrite, rfl, .inr rfl⟩
  have c16 : u.length = 1 → g.length = 2 →
      ∃ e, transform (u ++ bu) 1 4 (g ++ bs) = .error e ∧ (e = .oobRead ∨ e = .oobWrite) := by
    intro hu hg
    obtain ⟨a, rfl⟩ := len1 hu
    obtain ⟨g0, g1, rfl⟩ := len2 hg
    rcases fin bu bs h with rfl | ⟨⟨p, ps, rfl⟩, rfl | ⟨s, rfl⟩⟩
    · exact ⟨.oobRead, rfl, .inl rfl⟩
    · exact ⟨.oobWrite, rfl, .inr rfl⟩
    · exact ⟨.oobWrite, rfl, .inr rfl⟩
  cases al
  · exact c16 hu hg
  · exact c32 hu hg
  · exact c32 hu hg
  · exact c64 hu hg
  · exact c64 hu hg

end Pgfe.Proofs
