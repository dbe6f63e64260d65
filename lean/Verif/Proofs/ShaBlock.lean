import Verif.Proofs.Sha
/-!
# The compression functions
-/
namespace Pgfe.Proofs.Sha
open Pgfe.Model Pgfe.Proofs.Hash
open Pgfe.Spec.Sha (natOfBytes word V5 V8 P256 P512 Ch Maj Parity Sha2)

/-! ## Words -/

theorem or_step {w : Nat} (acc : BitVec w) (A s : Nat) (b : Byte) (h : acc.toNat = A * 2 ^ (s + 8))
    (hfit : (A + 1) * 2 ^ (s + 8) ≤ 2 ^ w) :
    (acc ||| (b.setWidth w) <<< s).toNat = (256 * A + b.toNat) * 2 ^ s ∧
      (256 * A + b.toNat + 1) * 2 ^ s ≤ 2 ^ w := by
  have hb := b.isLt
  have hp : 2 ^ (s + 8) = 256 * 2 ^ s := by rw [Nat.pow_add, Nat.mul_comm]
  have h1 : (256 * A + b.toNat + 1) * 2 ^ s ≤ 2 ^ w := by
    apply Nat.le_trans _ hfit
    rw [hp, ← Nat.mul_assoc]
    apply Nat.mul_le_mul_right
    omega
  refine ⟨?_, h1⟩
  have hpos : 0 < 2 ^ s := Nat.two_pow_pos s
  have hbs : b.toNat * 2 ^ s < 2 ^ (s + 8) := by
    rw [hp]; exact Nat.mul_lt_mul_of_pos_right hb hpos
  have hlt : b.toNat * 2 ^ s < 2 ^ w := by
    apply Nat.lt_of_lt_of_le _ h1
    exact Nat.mul_lt_mul_of_pos_right (by omega) hpos
  have hle : b.toNat ≤ b.toNat * 2 ^ s := Nat.le_mul_of_pos_right _ hpos
  have e1 : ((b.setWidth w) <<< s).toNat = b.toNat * 2 ^ s := by
    rw [BitVec.toNat_shiftLeft, BitVec.toNat_setWidth,
      Nat.mod_eq_of_lt (a := b.toNat) (Nat.lt_of_le_of_lt hle hlt), Nat.shiftLeft_eq,
      Nat.mod_eq_of_lt hlt]
  rw [BitVec.toNat_or, e1, h, ← Nat.shiftLeft_eq, ← Nat.shiftLeft_add_eq_or_of_lt hbs, Nat.shiftLeft_eq,
    hp, Nat.add_mul]
  congr 1
  rw [← Nat.mul_assoc, Nat.mul_comm A]

theorem take_drop4 (b : List Byte) (i : Nat) (h : i + 4 ≤ b.length) :
    (b.drop i).take 4 = [b[i], b[i+1], b[i+2], b[i+3]] := by
  rw [List.drop_eq_getElem_cons (by omega), List.drop_eq_getElem_cons (by omega),
    List.drop_eq_getElem_cons (by omega), List.drop_eq_getElem_cons (by omega)]
  rfl

theorem wordBE32_ok (b : List Byte) (t : Nat) (h : 4 * t + 4 ≤ b.length) :
    wordBE32 b (4 * t) = .ok (word 32 b t) := by
  rw [wordBE32, rd_ok (by omega), rd_ok (by omega), rd_ok (by omega), rd_ok (by omega)]
  simp only [bind_ok]
  congr 1
  apply BitVec.eq_of_toNat_eq
  have e : word 32 b t = BitVec.ofNat 32 (natOfBytes [b[4*t], b[4*t+1], b[4*t+2], b[4*t+3]]) := by
    rw [word]
    have : t * (32 / 8) = 4 * t := by omega
    rw [this, take_drop4 b (4 * t) h]
  rw [e]
  have s0 := or_step (0#32) 0 24 b[4*t] (by simp) (by decide)
  rw [BitVec.zero_or] at s0
  have s1 := or_step _ _ 16 b[4*t+1] s0.1 s0.2
  have s2 := or_step _ _ 8 b[4*t+2] s1.1 s1.2
  have s3 := or_step _ _ 0 b[4*t+3] s2.1 s2.2
  rw [BitVec.shiftLeft_zero, Nat.pow_zero, Nat.mul_one, Nat.mul_one] at s3
  rw [s3.1, BitVec.toNat_ofNat, Nat.mod_eq_of_lt]
  · rfl
  · exact s3.2

theorem take_drop8 (b : List Byte) (i : Nat) (h : i + 8 ≤ b.length) :
    (b.drop i).take 8 = [b[i], b[i+1], b[i+2], b[i+3], b[i+4], b[i+5], b[i+6], b[i+7]] := by
  rw [List.drop_eq_getElem_cons (by omega), List.drop_eq_getElem_cons (by omega),
    List.drop_eq_getElem_cons (by omega), List.drop_eq_getElem_cons (by omega),
    List.drop_eq_getElem_cons (by omega), List.drop_eq_getElem_cons (by omega),
    List.drop_eq_getElem_cons (by omega), List.drop_eq_getElem_cons (by omega)]
  rfl

theorem wordBE64_ok (b : List Byte) (t : Nat) (h : 8 * t + 8 ≤ b.length) :
    wordBE64 b (8 * t) = .ok (word 64 b t) := by
  have r0 : rd b (8*t) = .ok b[8*t] := rd_ok (by omega)
  have r1 : rd b (8*t+1) = .ok b[8*t+1] := rd_ok (by omega)
  have r2 : rd b (8*t+2) = .ok b[8*t+2] := rd_ok (by omega)
  have r3 : rd b (8*t+3) = .ok b[8*t+3] := rd_ok (by omega)
  have r4 : rd b (8*t+4) = .ok b[8*t+4] := rd_ok (by omega)
  have r5 : rd b (8*t+5) = .ok b[8*t+5] := rd_ok (by omega)
  have r6 : rd b (8*t+6) = .ok b[8*t+6] := rd_ok (by omega)
  have r7 : rd b (8*t+7) = .ok b[8*t+7] := rd_ok (by omega)
  rw [wordBE64]
  simp only [forN, Nat.add_zero, r0, r1, r2, r3, r4, r5, r6, r7, bind_ok, Nat.reduceMul,
    Nat.reduceSub, Nat.zero_mul, Nat.one_mul, Nat.sub_zero]
  congr 1
  apply BitVec.eq_of_toNat_eq
  have e : word 64 b t = BitVec.ofNat 64 (natOfBytes
      [b[8*t], b[8*t+1], b[8*t+2], b[8*t+3], b[8*t+4], b[8*t+5], b[8*t+6], b[8*t+7]]) := by
    rw [word]
    have : t * (64 / 8) = 8 * t := by omega
    rw [this, take_drop8 b (8 * t) h]
  rw [e]
  have s0 := or_step (0#64) 0 56 b[8*t] (by simp) (by decide)
  have s1 := or_step _ _ 48 b[8*t+1] s0.1 s0.2
  have s2 := or_step _ _ 40 b[8*t+2] s1.1 s1.2
  have s3 := or_step _ _ 32 b[8*t+3] s2.1 s2.2
  have s4 := or_step _ _ 24 b[8*t+4] s3.1 s3.2
  have s5 := or_step _ _ 16 b[8*t+5] s4.1 s4.2
  have s6 := or_step _ _ 8 b[8*t+6] s5.1 s5.2
  have s7 := or_step _ _ 0 b[8*t+7] s6.1 s6.2
  rw [Nat.pow_zero, Nat.mul_one, Nat.mul_one] at s7
  rw [s7.1, BitVec.toNat_ofNat, Nat.mod_eq_of_lt]
  · rfl
  · exact s7.2

/-! ## Boolean functions and rotations -/

theorem shaCh_eq {w : Nat} (x y z : BitVec w) : shaCh x y z = Ch x y z := by
  ext i h
  simp only [shaCh, Ch, BitVec.getElem_xor, BitVec.getElem_and, BitVec.getElem_not]
  cases x[i] <;> cases y[i] <;> cases z[i] <;> rfl

theorem shaMaj_eq {w : Nat} (x y z : BitVec w) : shaMaj x y z = Maj x y z := by
  ext i h
  simp only [shaMaj, Maj, BitVec.getElem_xor, BitVec.getElem_and, BitVec.getElem_or]
  cases x[i] <;> cases y[i] <;> cases z[i] <;> rfl

theorem ch1_eq (x y z : W32) : ((x &&& y) ||| (~~~x &&& z)) = Ch x y z := by
  ext i h
  simp only [Ch, BitVec.getElem_xor, BitVec.getElem_and, BitVec.getElem_or, BitVec.getElem_not]
  cases x[i] <;> cases y[i] <;> cases z[i] <;> rfl

theorem maj1_eq (x y z : W32) : ((x &&& y) ||| (x &&& z) ||| (y &&& z)) = Maj x y z := by
  ext i h
  simp only [Maj, BitVec.getElem_xor, BitVec.getElem_and, BitVec.getElem_or]
  cases x[i] <;> cases y[i] <;> cases z[i] <;> rfl

theorem clshift_eq {w : Nat} (x : BitVec w) (c : Nat) (h : c < w) : clshift x c = x.rotateLeft c := by
  rw [clshift, BitVec.rotateLeft, Nat.mod_eq_of_lt h]; rfl

theorem crshift_eq {w : Nat} (x : BitVec w) (c : Nat) (h : c < w) : crshift x c = x.rotateRight c := by
  rw [crshift, BitVec.rotateRight, Nat.mod_eq_of_lt h]; rfl

/-! ## SHA-2: message schedule and rounds -/

/-- An array filled from the front, element `i` computed by `body`. -/
theorem fill_ok {α : Type} (v : Nat → α) (n k : Nat) (body : Nat → List α → C α)
    (hb : ∀ j, j < k → body j ((List.range (n + j)).map v) = .ok (v (n + j))) :
    forN k (fun j ws => do
      let w ← body j ws
      .ok (ws ++ [w])) ((List.range n).map v) = .ok ((List.range (n + k)).map v) := by
  obtain ⟨s, h1, h2⟩ := forN_inv (fun j ws => ws = (List.range (n + j)).map v) k (fun j ws => do
      let w ← body j ws
      .ok (ws ++ [w])) ((List.range n).map v) rfl (by
        intro j ws hj hws
        refine ⟨_, ?_, rfl⟩
        subst hws
        rw [hb j hj, bind_ok, ← Nat.add_assoc, List.range_succ, List.map_append]
        rfl)
  rw [h1, h2]

theorem rd_map_range {α : Type} (v : Nat → α) (n i : Nat) (h : i < n) :
    rd ((List.range n).map v) i = .ok (v i) := by
  rw [rd_ok (by simpa using h)]
  simp

theorem sha256Ws_ok (b : List Byte) (h : b.length = 64) :
    sha256Ws b = .ok ((List.range 64).map (P256.W b)) := by
  have a1 := fill_ok (P256.W b) 0 16 (fun i _ => wordBE32 b (4 * i)) (by
    intro j hj
    rw [wordBE32_ok b j (by omega), Nat.zero_add, Sha2.W, if_pos hj])
  have a2 := fill_ok (P256.W b) 16 48 (fun j ws => do
    let i := 16 + j
    let a ← rd ws (i - 2)
    let b ← rd ws (i - 7)
    let c ← rd ws (i - 15)
    let d ← rd ws (i - 16)
    .ok (sha256sigma1 a + b + sha256sigma0 c + d)) (by
    intro j hj
    dsimp only
    rw [rd_map_range _ _ _ (by omega), bind_ok, rd_map_range _ _ _ (by omega), bind_ok,
      rd_map_range _ _ _ (by omega), bind_ok, rd_map_range _ _ _ (by omega), bind_ok]
    conv => rhs; rw [Sha2.W, if_neg (by omega)]
    rfl)
  rw [sha256Ws]
  rw [List.range_zero, List.map_nil, Nat.zero_add] at a1
  rw [a1, bind_ok]
  simp only [bind_assoc, bind_ok] at a2
  exact a2

theorem sha512Ws_ok (b : List Byte) (h : b.length = 128) :
    sha512Ws b = .ok ((List.range 80).map (P512.W b)) := by
  have a1 := fill_ok (P512.W b) 0 16 (fun i _ => wordBE64 b (8 * i)) (by
    intro j hj
    rw [wordBE64_ok b j (by omega), Nat.zero_add, Sha2.W, if_pos hj])
  have a2 := fill_ok (P512.W b) 16 64 (fun j ws => do
    let i := 16 + j
    let a ← rd ws (i - 2)
    let b ← rd ws (i - 7)
    let c ← rd ws (i - 15)
    let d ← rd ws (i - 16)
    .ok (sha512sigma1 a + b + sha512sigma0 c + d)) (by
    intro j hj
    dsimp only
    rw [rd_map_range _ _ _ (by omega), bind_ok, rd_map_range _ _ _ (by omega), bind_ok,
      rd_map_range _ _ _ (by omega), bind_ok, rd_map_range _ _ _ (by omega), bind_ok]
    conv => rhs; rw [Sha2.W, if_neg (by omega)]
    rfl)
  rw [sha512Ws]
  rw [List.range_zero, List.map_nil, Nat.zero_add] at a1
  rw [a1, bind_ok]
  simp only [bind_assoc, bind_ok] at a2
  exact a2

/-- The registers as the standard's working variables. -/
def toV {w : Nat} (r : Reg8 w) : V8 w := ⟨r.A, r.B, r.C, r.D, r.E, r.F, r.G, r.H⟩
def ofV {w : Nat} (r : V8 w) : Reg8 w := ⟨r.a, r.b, r.c, r.d, r.e, r.f, r.g, r.h⟩

theorem K256_eq : sha256K = Pgfe.Spec.Sha.K256 := by decide +kernel

theorem K512_eq : ∀ i : Fin 80, sha512K[i.val * 2]? = some ((Pgfe.Spec.Sha.K512.getD i.val 0).setWidth 32) ∧
    sha512K[i.val * 2 + 1]? = some ((Pgfe.Spec.Sha.K512.getD i.val 0 >>> 32).setWidth 32) := by
  decide +kernel

theorem word64_split (x : W64) : word64 (x.setWidth 32) ((x >>> 32).setWidth 32) = x := by
  apply BitVec.eq_of_getLsbD_eq
  intro i hi
  simp only [word64, BitVec.getLsbD_append, BitVec.getLsbD_setWidth, BitVec.getLsbD_ushiftRight]
  by_cases h : i < 32
  · simp [h]
  · simp only [h, decide_false, if_false]
    have : 32 + (i - 32) = i := by omega
    rw [this]
    simp; omega

theorem sha256Step_ok (b : List Byte) (i : Nat) (hi : i < 64) (v : V8 32) :
    sha256Step ((List.range 64).map (P256.W b)) i (ofV v) = .ok (ofV (P256.round b v i)) := by
  have hK : i < Pgfe.Spec.Sha.K256.length := hi
  rw [sha256Step, K256_eq, rd_ok hK, bind_ok, rd_map_range _ _ _ hi, bind_ok]
  simp only [Sha2.round, ofV, shaCh_eq, shaMaj_eq]
  have : P256.K.getD i 0 = Pgfe.Spec.Sha.K256[i] := by
    show Pgfe.Spec.Sha.K256.getD i 0 = _
    rw [List.getD_eq_getElem?_getD, List.getElem?_eq_getElem hK]; rfl
  rw [this]
  rfl

theorem sha512Step_ok (b : List Byte) (i : Nat) (hi : i < 80) (v : V8 64) :
    sha512Step ((List.range 80).map (P512.W b)) i (ofV v) = .ok (ofV (P512.round b v i)) := by
  have hK := K512_eq ⟨i, hi⟩
  dsimp only at hK
  rw [sha512Step, rd, hK.1, bind_ok, rd, hK.2, bind_ok, rd_map_range _ _ _ hi]
  dsimp only
  rw [bind_ok, word64_split]
  simp only [Sha2.round, ofV, shaCh_eq, shaMaj_eq]
  have e : ∀ x k wt : W64, x + wt + k = x + k + wt := fun x k wt => by
    rw [BitVec.add_assoc, BitVec.add_comm wt, BitVec.add_assoc]
  rw [e _ _ (P512.W b i)]
  rfl

theorem loadReg8_ok {w : Nat} (s : List (BitVec w)) (h : s.length = 8) :
    loadReg8 s = .ok (ofV (V8.ofWords s)) := by
  match s, h with
  | [a, b, c, d, e, f, g, h], _ => rfl

theorem addReg8_ok {w : Nat} (s : List (BitVec w)) (h : s.length = 8) (v : V8 w) :
    addReg8 s (ofV v) = .ok (let H := V8.ofWords s
      [v.a + H.a, v.b + H.b, v.c + H.c, v.d + H.d, v.e + H.e, v.f + H.f, v.g + H.g, v.h + H.h]) := by
  match s, h with
  | [a, b, c, d, e, f, g, h], _ =>
    show Except.ok [a + v.a, b + v.b, c + v.c, d + v.d, e + v.e, f + v.f, g + v.g, h + v.h] = _
    simp only [BitVec.add_comm v.a, BitVec.add_comm v.b, BitVec.add_comm v.c, BitVec.add_comm v.d,
      BitVec.add_comm v.e, BitVec.add_comm v.f, BitVec.add_comm v.g, BitVec.add_comm v.h]
    rfl

theorem rounds_ok {w : Nat} (n : Nat) (f : Nat → Reg8 w → C (Reg8 w)) (g : V8 w → Nat → V8 w)
    (h : ∀ i v, i < n → f i (ofV v) = .ok (ofV (g v i))) (v : V8 w) :
    forN n f (ofV v) = .ok (ofV ((List.range n).foldl g v)) := by
  obtain ⟨s, h1, h2⟩ := forN_inv (fun i r => r = ofV ((List.range i).foldl g v)) n f (ofV v) rfl (by
    intro i r hi hr
    refine ⟨_, ?_, rfl⟩
    rw [hr, h i _ hi, List.range_succ, List.foldl_append]
    rfl)
  rw [h1, h2]

/-- The standard's compression function on a list of state words. -/
def comp8 {w : Nat} (P : Sha2 w) (s : List (BitVec w)) (b : List Byte) : List (BitVec w) :=
  (P.compress (V8.ofWords s) b).words

theorem sha256Process_ok (c : ShaCtx 32) (hs : c.state.length = 8) (hb : c.block.length = 64) :
    sha256ProcessBlock c = .ok { c with state := comp8 P256 c.state c.block, index := 0 } := by
  rw [sha256ProcessBlock, sha256Ws_ok _ hb, bind_ok, loadReg8_ok _ hs, bind_ok,
    rounds_ok 64 _ (P256.round c.block) (fun i v hi => sha256Step_ok _ i hi v), bind_ok,
    addReg8_ok _ hs]
  rfl

theorem sha512Process_ok (c : ShaCtx 64) (hs : c.state.length = 8) (hb : c.block.length = 128) :
    sha512ProcessBlock c = .ok { c with state := comp8 P512 c.state c.block, index := 0 } := by
  rw [sha512ProcessBlock, sha512Ws_ok _ hb, bind_ok, loadReg8_ok _ hs, bind_ok,
    rounds_ok 80 _ (P512.round c.block) (fun i v hi => sha512Step_ok _ i hi v), bind_ok,
    addReg8_ok _ hs]
  rfl

/-! ## SHA-1 -/

theorem sha1Ws_ok (b : List Byte) (h : b.length = 64) :
    sha1Ws b = .ok ((List.range 80).map (Pgfe.Spec.Sha.sha1W b)) := by
  have a1 := fill_ok (Pgfe.Spec.Sha.sha1W b) 0 16 (fun i _ => wordBE32 b (4 * i)) (by
    intro j hj
    rw [wordBE32_ok b j (by omega), Nat.zero_add, Pgfe.Spec.Sha.sha1W, if_pos hj])
  have a2 := fill_ok (Pgfe.Spec.Sha.sha1W b) 16 64 (fun j ws => do
    let i := 16 + j
    let a ← rd ws (i - 3)
    let b ← rd ws (i - 8)
    let c ← rd ws (i - 14)
    let d ← rd ws (i - 16)
    .ok (clshift (a ^^^ b ^^^ c ^^^ d) 1)) (by
    intro j hj
    dsimp only
    rw [rd_map_range _ _ _ (by omega), bind_ok, rd_map_range _ _ _ (by omega), bind_ok,
      rd_map_range _ _ _ (by omega), bind_ok, rd_map_range _ _ _ (by omega), bind_ok]
    conv => rhs; rw [Pgfe.Spec.Sha.sha1W, if_neg (by omega)]
    rfl)
  rw [sha1Ws]
  rw [List.range_zero, List.map_nil, Nat.zero_add] at a1
  rw [a1, bind_ok]
  simp only [bind_assoc, bind_ok] at a2
  exact a2

def ofV5 (v : V5) : Reg5 := ⟨v.a, v.b, v.c, v.d, v.e⟩
/-- The state words as the standard's hash value. -/
def toV5 (s : List W32) : V5 := ⟨s.getD 0 0, s.getD 1 0, s.getD 2 0, s.getD 3 0, s.getD 4 0⟩
def words5 (v : V5) : List W32 := [v.a, v.b, v.c, v.d, v.e]

/-- Twenty rounds of one kind. -/
theorem sha1Step_ok (b : List Byte) (base k : Nat) (f : W32 → W32 → W32 → W32) (kk : W32)
    (hk : rd sha1K k = .ok kk)
    (hf : ∀ j, j < 20 → ∀ x y z, f x y z = Pgfe.Spec.Sha.sha1F (base + j) x y z)
    (hK : ∀ j, j < 20 → kk = Pgfe.Spec.Sha.sha1K (base + j)) (hb : base + 20 ≤ 80) (v : V5) :
    forN 20 (fun j => sha1Step f k ((List.range 80).map (Pgfe.Spec.Sha.sha1W b)) (base + j)) (ofV5 v)
      = .ok (ofV5 ((List.range 20).foldl (fun v j => Pgfe.Spec.Sha.sha1Round b v (base + j)) v)) := by
  obtain ⟨s, h1, h2⟩ := forN_inv (fun i r => r = ofV5 ((List.range i).foldl
      (fun v j => Pgfe.Spec.Sha.sha1Round b v (base + j)) v)) 20
      (fun j => sha1Step f k ((List.range 80).map (Pgfe.Spec.Sha.sha1W b)) (base + j)) (ofV5 v) rfl (by
    intro i r hi hr
    refine ⟨_, ?_, rfl⟩
    have ei : List.range (i + 1) = List.range i ++ [i] := List.range_succ
    rw [hr, ei, List.foldl_append]
    generalize (List.range i).foldl _ v = u
    rw [sha1Step, rd_map_range _ _ _ (by omega), bind_ok, hk, bind_ok]
    simp only [ofV5, List.foldl_cons, List.foldl_nil, Pgfe.Spec.Sha.sha1Round]
    rw [hf i hi, ← hK i hi, clshift_eq _ 5 (by decide), clshift_eq _ 30 (by decide),
      BitVec.add_assoc _ kk, BitVec.add_comm kk, ← BitVec.add_assoc]
    )
  rw [h1, h2]

theorem range80 {α : Type} (g : α → Nat → α) (v : α) :
    (List.range 80).foldl g v =
      (List.range 20).foldl (fun v j => g v (60 + j)) ((List.range 20).foldl (fun v j => g v (40 + j))
        ((List.range 20).foldl (fun v j => g v (20 + j)) ((List.range 20).foldl (fun v j => g v (0 + j)) v))) := by
  have e : List.range 80 = (List.range 20).map (0 + ·) ++ ((List.range 20).map (20 + ·) ++
      ((List.range 20).map (40 + ·) ++ (List.range 20).map (60 + ·))) := by decide +kernel
  rw [e]
  simp only [List.foldl_append, List.foldl_map]

theorem sha1Rounds_ok (b : List Byte) (v : V5) :
    sha1Rounds ((List.range 80).map (Pgfe.Spec.Sha.sha1W b)) (ofV5 v)
      = .ok (ofV5 ((List.range 80).foldl (Pgfe.Spec.Sha.sha1Round b) v)) := by
  have s1 := sha1Step_ok b 0 0 (fun B C D => (B &&& C) ||| (~~~B &&& D)) 0x5a827999#32 rfl
    (by intro j hj x y z; rw [ch1_eq, Pgfe.Spec.Sha.sha1F, if_pos (by omega)])
    (by intro j hj; rw [Pgfe.Spec.Sha.sha1K, if_pos (by omega)]) (by omega)
  have s2 := sha1Step_ok b 20 1 (fun B C D => B ^^^ C ^^^ D) 0x6ed9eba1#32 rfl
    (by intro j hj x y z; rw [Pgfe.Spec.Sha.sha1F, if_neg (by omega), if_pos (by omega)]; rfl)
    (by intro j hj; rw [Pgfe.Spec.Sha.sha1K, if_neg (by omega), if_pos (by omega)]) (by omega)
  have s3 := sha1Step_ok b 40 2 (fun B C D => (B &&& C) ||| (B &&& D) ||| (C &&& D)) 0x8f1bbcdc#32 rfl
    (by intro j hj x y z
        rw [maj1_eq, Pgfe.Spec.Sha.sha1F, if_neg (by omega), if_neg (by omega), if_pos (by omega)])
    (by intro j hj
        rw [Pgfe.Spec.Sha.sha1K, if_neg (by omega), if_neg (by omega), if_pos (by omega)]) (by omega)
  have s4 := sha1Step_ok b 60 3 (fun B C D => B ^^^ C ^^^ D) 0xca62c1d6#32 rfl
    (by intro j hj x y z
        rw [Pgfe.Spec.Sha.sha1F, if_neg (by omega), if_neg (by omega), if_neg (by omega)]; rfl)
    (by intro j hj
        rw [Pgfe.Spec.Sha.sha1K, if_neg (by omega), if_neg (by omega), if_neg (by omega)]) (by omega)
  simp only [Nat.zero_add] at s1
  rw [sha1Rounds, range80, s1, bind_ok, s2, bind_ok, s3, bind_ok, s4]
  simp only [Nat.zero_add]

/-- The standard's SHA-1 compression function on a list of state words. -/
def comp5 (s : List W32) (b : List Byte) : List W32 := words5 (Pgfe.Spec.Sha.sha1Compress (toV5 s) b)

theorem sha1Process_ok (c : ShaCtx 32) (hs : c.state.length = 5) (hb : c.block.length = 64) :
    sha1ProcessBlock c = .ok { c with state := comp5 c.state c.block, index := 0 } := by
  obtain ⟨st, lo, hi, ix, bl⟩ := c
  dsimp only at hs hb
  rw [sha1ProcessBlock, sha1Ws_ok _ hb, bind_ok]
  match st, hs with
  | [a, b, c, d, e], _ =>
    have r0 : rd [a, b, c, d, e] 0 = .ok a := rfl
    have r1 : rd [a, b, c, d, e] 1 = .ok b := rfl
    have r2 : rd [a, b, c, d, e] 2 = .ok c := rfl
    have r3 : rd [a, b, c, d, e] 3 = .ok d := rfl
    have r4 : rd [a, b, c, d, e] 4 = .ok e := rfl
    have hr := sha1Rounds_ok bl ⟨a, b, c, d, e⟩
    simp only [ofV5] at hr
    simp only [r0, r1, r2, r3, r4, bind_ok, hr]
    have ht : toV5 [a, b, c, d, e] = ⟨a, b, c, d, e⟩ := rfl
    rw [comp5, ht, Pgfe.Spec.Sha.sha1Compress]
    generalize (List.range 80).foldl (Pgfe.Spec.Sha.sha1Round bl) ⟨a, b, c, d, e⟩ = v
    show Except.ok (⟨[a + v.a, b + v.b, c + v.c, d + v.d, e + v.e], lo, hi, 0, bl⟩ : ShaCtx 32) = _
    simp only [words5, BitVec.add_comm v.a, BitVec.add_comm v.b, BitVec.add_comm v.c, BitVec.add_comm v.d,
      BitVec.add_comm v.e]

/-! ## The three families -/

def F1 : Fam 32 where
  bs := 64
  ns := 5
  process := sha1ProcessBlock
  compress := comp5
  hw := by decide
  hbs := rfl
  hproc := sha1Process_ok
  hlen := fun _ _ _ _ => rfl

def F256 : Fam 32 where
  bs := 64
  ns := 8
  process := sha256ProcessBlock
  compress := comp8 P256
  hw := by decide
  hbs := rfl
  hproc := sha256Process_ok
  hlen := fun _ _ _ _ => rfl

def F512 : Fam 64 where
  bs := 128
  ns := 8
  process := sha512ProcessBlock
  compress := comp8 P512
  hw := by decide
  hbs := rfl
  hproc := sha512Process_ok
  hlen := fun _ _ _ _ => rfl

end Pgfe.Proofs.Sha
