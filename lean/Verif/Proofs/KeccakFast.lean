import Verif.Proofs.KeccakPerm
/-!
# A fast way to compute the KECCAK permutation in the kernel

One round on 25 numbers, each intermediate number computed at once; equal to the round of the model.
-/
namespace Pgfe.Proofs.Keccak
open Pgfe.Model

/-- Compute `x` before going on. -/
noncomputable def force {α : Type} (x : Nat) (f : Nat → α) : α := Nat.rec (motive := fun _ => α) (f 0) (fun n _ => f (Nat.succ n)) x

theorem force_eq {α : Type} (x : Nat) (f : Nat → α) : force x f = f x := by cases x <;> rfl

/-- The state as numbers. -/
structure S25 where
  a0 : Nat
  a1 : Nat
  a2 : Nat
  a3 : Nat
  a4 : Nat
  a5 : Nat
  a6 : Nat
  a7 : Nat
  a8 : Nat
  a9 : Nat
  a10 : Nat
  a11 : Nat
  a12 : Nat
  a13 : Nat
  a14 : Nat
  a15 : Nat
  a16 : Nat
  a17 : Nat
  a18 : Nat
  a19 : Nat
  a20 : Nat
  a21 : Nat
  a22 : Nat
  a23 : Nat
  a24 : Nat

/-- Rotation of 64 bits to the left. -/
def rotN (v k : Nat) : Nat := Nat.lor (Nat.mod (Nat.shiftLeft v k) 18446744073709551616) (Nat.shiftRight v (Nat.sub 64 k))
/-- One lane of chi. -/
def chiN (a b c : Nat) : Nat := Nat.xor a (Nat.land (Nat.sub 18446744073709551615 b) c)

/-- One round. -/
noncomputable def rndN (rc : Nat) (s : S25) : S25 :=
  S25.rec (motive := fun _ => S25) (fun a0 a1 a2 a3 a4 a5 a6 a7 a8 a9 a10 a11 a12 a13 a14 a15 a16 a17 a18 a19 a20 a21 a22 a23 a24 =>
    force (Nat.xor (Nat.xor (Nat.xor (Nat.xor a0 a1) a2) a3) a4) fun c0 =>
    force (Nat.xor (Nat.xor (Nat.xor (Nat.xor a5 a6) a7) a8) a9) fun c1 =>
    force (Nat.xor (Nat.xor (Nat.xor (Nat.xor a10 a11) a12) a13) a14) fun c2 =>
    force (Nat.xor (Nat.xor (Nat.xor (Nat.xor a15 a16) a17) a18) a19) fun c3 =>
    force (Nat.xor (Nat.xor (Nat.xor (Nat.xor a20 a21) a22) a23) a24) fun c4 =>
    force (Nat.xor c4 (rotN c1 1)) fun d0 =>
    force (Nat.xor c0 (rotN c2 1)) fun d1 =>
    force (Nat.xor c1 (rotN c3 1)) fun d2 =>
    force (Nat.xor c2 (rotN c4 1)) fun d3 =>
    force (Nat.xor c3 (rotN c0 1)) fun d4 =>
    force (Nat.xor a0 d0) fun b0 =>
    force (rotN (Nat.xor a15 d3) 28) fun b1 =>
    force (rotN (Nat.xor a5 d1) 1) fun b2 =>
    force (rotN (Nat.xor a20 d4) 27) fun b3 =>
    force (rotN (Nat.xor a10 d2) 62) fun b4 =>
    force (rotN (Nat.xor a6 d1) 44) fun b5 =>
    force (rotN (Nat.xor a21 d4) 20) fun b6 =>
    force (rotN (Nat.xor a11 d2) 6) fun b7 =>
    force (rotN (Nat.xor a1 d0) 36) fun b8 =>
    force (rotN (Nat.xor a16 d3) 55) fun b9 =>
    force (rotN (Nat.xor a12 d2) 43) fun b10 =>
    force (rotN (Nat.xor a2 d0) 3) fun b11 =>
    force (rotN (Nat.xor a17 d3) 25) fun b12 =>
    force (rotN (Nat.xor a7 d1) 10) fun b13 =>
    force (rotN (Nat.xor a22 d4) 39) fun b14 =>
    force (rotN (Nat.xor a18 d3) 21) fun b15 =>
    force (rotN (Nat.xor a8 d1) 45) fun b16 =>
    force (rotN (Nat.xor a23 d4) 8) fun b17 =>
    force (rotN (Nat.xor a13 d2) 15) fun b18 =>
    force (rotN (Nat.xor a3 d0) 41) fun b19 =>
    force (rotN (Nat.xor a24 d4) 14) fun b20 =>
    force (rotN (Nat.xor a14 d2) 61) fun b21 =>
    force (rotN (Nat.xor a4 d0) 18) fun b22 =>
    force (rotN (Nat.xor a19 d3) 56) fun b23 =>
    force (rotN (Nat.xor a9 d1) 2) fun b24 =>
    force (Nat.xor (chiN b0 b5 b10) rc) fun e0 =>
    force (chiN b1 b6 b11) fun e1 =>
    force (chiN b2 b7 b12) fun e2 =>
    force (chiN b3 b8 b13) fun e3 =>
    force (chiN b4 b9 b14) fun e4 =>
    force (chiN b5 b10 b15) fun e5 =>
    force (chiN b6 b11 b16) fun e6 =>
    force (chiN b7 b12 b17) fun e7 =>
    force (chiN b8 b13 b18) fun e8 =>
    force (chiN b9 b14 b19) fun e9 =>
    force (chiN b10 b15 b20) fun e10 =>
    force (chiN b11 b16 b21) fun e11 =>
    force (chiN b12 b17 b22) fun e12 =>
    force (chiN b13 b18 b23) fun e13 =>
    force (chiN b14 b19 b24) fun e14 =>
    force (chiN b15 b20 b0) fun e15 =>
    force (chiN b16 b21 b1) fun e16 =>
    force (chiN b17 b22 b2) fun e17 =>
    force (chiN b18 b23 b3) fun e18 =>
    force (chiN b19 b24 b4) fun e19 =>
    force (chiN b20 b0 b5) fun e20 =>
    force (chiN b21 b1 b6) fun e21 =>
    force (chiN b22 b2 b7) fun e22 =>
    force (chiN b23 b3 b8) fun e23 =>
    force (chiN b24 b4 b9) fun e24 =>
    S25.mk e0 e1 e2 e3 e4 e5 e6 e7 e8 e9 e10 e11 e12 e13 e14 e15 e16 e17 e18 e19 e20 e21 e22 e23 e24) s

/-- The rounds. -/
noncomputable def permN : List Nat → S25 → S25
  | [], s => s
  | rc :: r, s => permN r (rndN rc s)

/-- The state as numbers. -/
def toS (f : Nat → W64) : S25 := ⟨(f 0).toNat, (f 1).toNat, (f 2).toNat, (f 3).toNat, (f 4).toNat, (f 5).toNat, (f 6).toNat, (f 7).toNat, (f 8).toNat, (f 9).toNat, (f 10).toNat, (f 11).toNat, (f 12).toNat, (f 13).toNat, (f 14).toNat, (f 15).toNat, (f 16).toNat, (f 17).toNat, (f 18).toNat, (f 19).toNat, (f 20).toNat, (f 21).toNat, (f 22).toNat, (f 23).toNat, (f 24).toNat⟩

/-- The state as a list. -/
def ofS (s : S25) : List W64 := [BitVec.ofNat 64 s.a0, BitVec.ofNat 64 s.a1, BitVec.ofNat 64 s.a2, BitVec.ofNat 64 s.a3, BitVec.ofNat 64 s.a4, BitVec.ofNat 64 s.a5, BitVec.ofNat 64 s.a6, BitVec.ofNat 64 s.a7, BitVec.ofNat 64 s.a8, BitVec.ofNat 64 s.a9, BitVec.ofNat 64 s.a10, BitVec.ofNat 64 s.a11, BitVec.ofNat 64 s.a12, BitVec.ofNat 64 s.a13, BitVec.ofNat 64 s.a14, BitVec.ofNat 64 s.a15, BitVec.ofNat 64 s.a16, BitVec.ofNat 64 s.a17, BitVec.ofNat 64 s.a18, BitVec.ofNat 64 s.a19, BitVec.ofNat 64 s.a20, BitVec.ofNat 64 s.a21, BitVec.ofNat 64 s.a22, BitVec.ofNat 64 s.a23, BitVec.ofNat 64 s.a24]

theorem ofS_toS (f : Nat → W64) : ofS (toS f) = lst f := by
  simp only [ofS, toS, BitVec.ofNat_toNat, BitVec.setWidth_eq]
  rfl

theorem rotN_eq (v : W64) (k : Nat) : rotN v.toNat k = (clshift v k).toNat := by
  rw [clshift, BitVec.toNat_or, BitVec.toNat_shiftLeft, BitVec.toNat_ushiftRight]
  rfl

theorem xorN_eq (v w : W64) : Nat.xor v.toNat w.toNat = (v ^^^ w).toNat := (BitVec.toNat_xor ..).symm

theorem chiN_eq (a b c : W64) : chiN a.toNat b.toNat c.toNat = (a ^^^ (~~~b &&& c)).toNat := by
  rw [BitVec.toNat_xor, BitVec.toNat_and, BitVec.toNat_not]
  rfl

theorem rndN_eq (f : Nat → W64) (rc : W64) : rndN rc.toNat (toS f) = toS (roundF f rc) := by
  have rp0 : rhoPiF (thetaF f) 24 0 = thetaF f 0 := rfl
  have rp1 : rhoPiF (thetaF f) 24 1 = clshift (thetaF f 15) 28 := rfl
  have rp2 : rhoPiF (thetaF f) 24 2 = clshift (thetaF f 5) 1 := rfl
  have rp3 : rhoPiF (thetaF f) 24 3 = clshift (thetaF f 20) 27 := rfl
  have rp4 : rhoPiF (thetaF f) 24 4 = clshift (thetaF f 10) 62 := rfl
  have rp5 : rhoPiF (thetaF f) 24 5 = clshift (thetaF f 6) 44 := rfl
  have rp6 : rhoPiF (thetaF f) 24 6 = clshift (thetaF f 21) 20 := rfl
  have rp7 : rhoPiF (thetaF f) 24 7 = clshift (thetaF f 11) 6 := rfl
  have rp8 : rhoPiF (thetaF f) 24 8 = clshift (thetaF f 1) 36 := rfl
  have rp9 : rhoPiF (thetaF f) 24 9 = clshift (thetaF f 16) 55 := rfl
  have rp10 : rhoPiF (thetaF f) 24 10 = clshift (thetaF f 12) 43 := rfl
  have rp11 : rhoPiF (thetaF f) 24 11 = clshift (thetaF f 2) 3 := rfl
  have rp12 : rhoPiF (thetaF f) 24 12 = clshift (thetaF f 17) 25 := rfl
  have rp13 : rhoPiF (thetaF f) 24 13 = clshift (thetaF f 7) 10 := rfl
  have rp14 : rhoPiF (thetaF f) 24 14 = clshift (thetaF f 22) 39 := rfl
  have rp15 : rhoPiF (thetaF f) 24 15 = clshift (thetaF f 18) 21 := rfl
  have rp16 : rhoPiF (thetaF f) 24 16 = clshift (thetaF f 8) 45 := rfl
  have rp17 : rhoPiF (thetaF f) 24 17 = clshift (thetaF f 23) 8 := rfl
  have rp18 : rhoPiF (thetaF f) 24 18 = clshift (thetaF f 13) 15 := rfl
  have rp19 : rhoPiF (thetaF f) 24 19 = clshift (thetaF f 3) 41 := rfl
  have rp20 : rhoPiF (thetaF f) 24 20 = clshift (thetaF f 24) 14 := rfl
  have rp21 : rhoPiF (thetaF f) 24 21 = clshift (thetaF f 14) 61 := rfl
  have rp22 : rhoPiF (thetaF f) 24 22 = clshift (thetaF f 4) 18 := rfl
  have rp23 : rhoPiF (thetaF f) 24 23 = clshift (thetaF f 19) 56 := rfl
  have rp24 : rhoPiF (thetaF f) 24 24 = clshift (thetaF f 9) 2 := rfl
  simp only [rndN, toS, force_eq, rotN_eq, xorN_eq, chiN_eq]
  rfl

theorem permN_eq (rcs : List W64) : ∀ f : Nat → W64, permN (rcs.map BitVec.toNat) (toS f) = toS (rcs.foldl roundF f) := by
  induction rcs with
  | nil => intro f; rfl
  | cons rc r ih => intro f; rw [List.map_cons, permN, rndN_eq, ih]; rfl

/-- The round constants as numbers. -/
def rcN : List Nat := [1, 32898, 9223372036854808714, 9223372039002292224, 32907, 2147483649, 9223372039002292353, 9223372036854808585, 138, 136, 2147516425, 2147483658, 2147516555, 9223372036854775947, 9223372036854808713, 9223372036854808579, 9223372036854808578, 9223372036854775936, 32778, 9223372039002259466, 9223372039002292353, 9223372036854808704, 2147483649, 9223372039002292232]

theorem rcN_eq : rcN = keccakRC.map BitVec.toNat := by decide

/-- The permutation on a list of lanes. -/
noncomputable def permFast (A : List W64) : List W64 :=
  ofS (permN rcN (toS (fun i => A.getD i 0#64)))

theorem permFast_eq (f : Nat → W64) : permFast (lst f) = lst (permF f) := by
  have e : toS (fun i => (lst f).getD i 0#64) = toS f := rfl
  rw [permFast, e, rcN_eq, permN_eq, ofS_toS]
  congr 1

end Pgfe.Proofs.Keccak
