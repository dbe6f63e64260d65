import Verif.Model.Trace
/-!
# The traced functions compute what the functions of the model compute
-/
namespace Pgfe.Proofs.Trace
open Pgfe.Model

theorem res_bind {α β : Type} (m : T α) (f : α → T β) : (m >>= f).res = m.res >>= fun a => (f a).res := by
  show (T.bind m f).res = _
  unfold T.bind
  cases h : m.res <;> rfl
theorem res_pure {α : Type} (a : α) : (pure a : T α).res = .ok a := rfl
theorem res_rd {α : Type} (a : Arr) (b : List α) (i : Nat) : (T.rd a b i).res = rd b i := rfl
theorem res_wr {α : Type} (a : Arr) (b : List α) (i : Nat) (v : α) : (T.wr a b i v).res = wr b i v := rfl
theorem res_rds {α : Type} (a : Arr) (b : List α) (i n : Nat) : (T.rds a b i n).res = rds b i n := rfl
theorem res_wrs {α : Type} (a : Arr) (b : List α) (i : Nat) (s : List α) : (T.wrs a b i s).res = wrs b i s := rfl
theorem res_push {α : Type} (a : Arr) (b : List α) (v : α) : (T.push a b v).res = .ok (b ++ [v]) := rfl
theorem res_br (c : Bool) : (T.br c).res = .ok c := rfl
theorem res_sw (c : Nat) : (T.sw c).res = .ok c := rfl
theorem res_fail {α : Type} (e : UB) : (T.fail e : T α).res = .error e := rfl
theorem res_rd2 {α : Type} (a : Arr) (t : List (List α)) (i j c : Nat) : (Tr.rd2 a t i j c).res = rd2 t i j := rfl
theorem res_ite {α : Type} (p : Prop) [Decidable p] (a b : T α) :
    (if p then a else b).res = if p then a.res else b.res := by split <;> rfl
theorem res_iter {σ : Type} (n : Nat) (f : Nat → σ → T σ) (s : σ) :
    (T.iter n f s).res = forN n (fun i s => (f i s).res) s := by
  induction n with
  | zero => rfl
  | succ n ih => rw [T.iter, res_bind, ih, forN]
theorem res_forN {σ : Type} (n : Nat) (f : Nat → σ → T σ) (s : σ) :
    (T.forN n f s).res = forN n (fun i s => (f i s).res) s := by
  rw [T.forN, res_bind, res_iter]
  have e : (fun (i : Nat) (s : σ) => (do let _ ← T.br true; f i s : T σ).res) = fun i s => (f i s).res := by
    funext i s; rw [res_bind]; rfl
  rw [e]
  cases forN n (fun i s => (f i s).res) s <;> rfl

theorem bind_id {α : Type} (m : C α) : (m >>= fun a => Except.ok a) = m := by cases m <;> rfl

/-- The simp set. -/
macro "erase" "[" ls:Lean.Parser.Tactic.simpLemma,* "]" : tactic =>
  `(tactic| simp only [res_bind, res_pure, res_rd, res_wr, res_rds, res_wrs, res_push, res_br, res_sw, res_fail, res_rd2,
    res_ite, res_iter, res_forN, bind_ok, bind_err, bind_id, pure_eq_ok, decide_eq_true_eq, $ls,*])

theorem shaInit_res {w : Nat} (h0 : List (BitVec w)) (c : ShaCtx w) : (Tr.shaInit h0 c).res = shaInit h0 c := by
  rw [Tr.shaInit, shaInit]; erase []

theorem shaUpdateBody_res {w : Nat} (p : ShaCtx w → T (ShaCtx w)) (q : ShaCtx w → C (ShaCtx w))
    (h : ∀ c, (p c).res = q c) (bs : Nat) (inp : List Byte) (i : Nat) (s : ShaCtx w × Bool) :
    (Tr.shaUpdateBody p bs inp i s).res = shaUpdateBody q bs inp i s := by
  obtain ⟨c, b⟩ := s
  cases b with
  | true => rfl
  | false => simp only [Tr.shaUpdateBody, shaUpdateBody]; erase [h]

theorem shaUpdate_res {w : Nat} (p : ShaCtx w → T (ShaCtx w)) (q : ShaCtx w → C (ShaCtx w))
    (h : ∀ c, (p c).res = q c) (bs : Nat) (c : ShaCtx w) (inp : Option (List Byte)) (n : Nat) :
    (Tr.shaUpdate p bs c inp n).res = shaUpdate q bs c inp n := by
  cases inp with
  | none => rfl
  | some x => simp only [Tr.shaUpdate, shaUpdate]; erase [shaUpdateBody_res p q h]

theorem shaOutput32_res (n : Nat) (s : List W32) (o : List Byte) : (Tr.shaOutput32 n s o).res = shaOutput32 n s o := by
  rw [Tr.shaOutput32, shaOutput32]; erase []
theorem shaOutput64_res (n : Nat) (s : List W64) (o : List Byte) : (Tr.shaOutput64 n s o).res = shaOutput64 n s o := by
  rw [Tr.shaOutput64, shaOutput64]; erase []
theorem wordBE32_res (b : List Byte) (i : Nat) : (Tr.wordBE32 b i).res = wordBE32 b i := by
  rw [Tr.wordBE32, wordBE32]; erase []
theorem wordBE64_res (b : List Byte) (i : Nat) : (Tr.wordBE64 b i).res = wordBE64 b i := by
  rw [Tr.wordBE64, wordBE64]; erase []
theorem addAt_res {w : Nat} (s : List (BitVec w)) (j : Nat) (v : BitVec w) : (Tr.addAt s j v).res = addAt s j v := by
  rw [Tr.addAt, addAt]; erase []
theorem sha1Step_res (f : W32 → W32 → W32 → W32) (k : Nat) (ws : List W32) (i : Nat) (r : Reg5) :
    (Tr.sha1Step f k ws i r).res = sha1Step f k ws i r := by
  rw [Tr.sha1Step, sha1Step]; erase []
theorem sha1Ws_res (b : List Byte) : (Tr.sha1Ws b).res = sha1Ws b := by
  rw [Tr.sha1Ws, sha1Ws]; erase [wordBE32_res]
theorem sha1Rounds_res (ws : List W32) (r : Reg5) : (Tr.sha1Rounds ws r).res = sha1Rounds ws r := by
  rw [Tr.sha1Rounds, sha1Rounds]; erase [sha1Step_res]
theorem sha1ProcessBlock_res (c : ShaCtx 32) : (Tr.sha1ProcessBlock c).res = sha1ProcessBlock c := by
  rw [Tr.sha1ProcessBlock, sha1ProcessBlock]; erase [sha1Ws_res, sha1Rounds_res, addAt_res]
theorem shaPadding32_res (p : ShaCtx 32 → T (ShaCtx 32)) (q : ShaCtx 32 → C (ShaCtx 32))
    (h : ∀ c, (p c).res = q c) (c : ShaCtx 32) : (Tr.shaPadding32 p c).res = shaPadding32 q c := by
  rw [Tr.shaPadding32, shaPadding32]; erase [h]

theorem wrs_zero {α : Type} (b : List α) (z : α) : wrs b 0 (List.replicate b.length z) = .ok (List.replicate b.length z) := by
  rw [wrs_ok (by rw [List.length_replicate]; omega), splice]
  simp

theorem sha1Digest_res (c : ShaCtx 32) (o : List Byte) : (Tr.sha1Digest c o).res = sha1Digest c o := by
  rw [Tr.sha1Digest, sha1Digest]
  erase [shaPadding32_res _ _ sha1ProcessBlock_res, shaOutput32_res, wrs_zero]
theorem sha256Ws_res (b : List Byte) : (Tr.sha256Ws b).res = sha256Ws b := by
  rw [Tr.sha256Ws, sha256Ws]; erase [wordBE32_res]
theorem sha256Step_res (ws : List W32) (i : Nat) (r : Reg8 32) : (Tr.sha256Step ws i r).res = sha256Step ws i r := by
  rw [Tr.sha256Step, sha256Step]; erase []
theorem loadReg8_res {w : Nat} (s : List (BitVec w)) : (Tr.loadReg8 s).res = loadReg8 s := by
  rw [Tr.loadReg8, loadReg8]; erase []
theorem addReg8_res {w : Nat} (s : List (BitVec w)) (r : Reg8 w) : (Tr.addReg8 s r).res = addReg8 s r := by
  rw [Tr.addReg8, addReg8]; erase [addAt_res]
theorem sha256ProcessBlock_res (c : ShaCtx 32) : (Tr.sha256ProcessBlock c).res = sha256ProcessBlock c := by
  rw [Tr.sha256ProcessBlock, sha256ProcessBlock]; erase [sha256Ws_res, loadReg8_res, sha256Step_res, addReg8_res]
theorem sha224n256Digest_res (n : Nat) (c : ShaCtx 32) (o : List Byte) :
    (Tr.sha224n256Digest n c o).res = sha224n256Digest n c o := by
  rw [Tr.sha224n256Digest, sha224n256Digest]
  erase [shaPadding32_res _ _ sha256ProcessBlock_res, shaOutput32_res]
theorem sha512Ws_res (b : List Byte) : (Tr.sha512Ws b).res = sha512Ws b := by
  rw [Tr.sha512Ws, sha512Ws]; erase [wordBE64_res]
theorem sha512Step_res (ws : List W64) (i : Nat) (r : Reg8 64) : (Tr.sha512Step ws i r).res = sha512Step ws i r := by
  rw [Tr.sha512Step, sha512Step]; erase []
theorem sha512ProcessBlock_res (c : ShaCtx 64) : (Tr.sha512ProcessBlock c).res = sha512ProcessBlock c := by
  rw [Tr.sha512ProcessBlock, sha512ProcessBlock]; erase [sha512Ws_res, loadReg8_res, sha512Step_res, addReg8_res]
theorem sha512Padding_res (c : ShaCtx 64) (b : Byte) : (Tr.sha512Padding c b).res = sha512Padding c b := by
  rw [Tr.sha512Padding, sha512Padding]; erase [sha512ProcessBlock_res]
theorem sha384n512Digest_res (n : Nat) (c : ShaCtx 64) (o : List Byte) :
    (Tr.sha384n512Digest n c o).res = sha384n512Digest n c o := by
  rw [Tr.sha384n512Digest, sha384n512Digest]; erase [sha512Padding_res, shaOutput64_res]

/-! ## MD5 -/

theorem md5Step_res (x : List W32) (r i : Nat) (b : List W32) : (Tr.md5Step x r i b).res = md5Step x r i b := by
  rw [Tr.md5Step, md5Step]
  erase []
  cases md5Fun r <;> rfl
theorem md5Decode_res (b : List Byte) (n : Nat) : (Tr.md5Decode b n).res = md5Decode b n := by
  rw [Tr.md5Decode, md5Decode]; erase []
theorem md5Encode_res (s d : Arr) (x : List W32) (n : Nat) (o : List Byte) :
    (Tr.md5Encode s d x n o).res = md5Encode x n o := by
  rw [Tr.md5Encode, md5Encode]; erase []
theorem md5Transform_res (s : List W32) (b : List Byte) : (Tr.md5Transform s b).res = md5Transform s b := by
  rw [Tr.md5Transform, md5Transform]; erase [md5Step_res, md5Decode_res, addAt_res]
theorem md5Init_res (c : Md5Ctx) : (Tr.md5Init c).res = md5Init c := by
  rw [Tr.md5Init, md5Init]; erase []

theorem md5Loop_res (inp : List Byte) (n : Nat) (c : Md5Ctx) (k : Nat) (l : Option (Nat × Nat)) :
    (Tr.md5Loop inp n c k l).res = md5Loop inp n c k l := by
  induction hk : n - k using Nat.strongRecOn generalizing c k l with
  | _ m ih =>
    rw [Tr.md5Loop, md5Loop]
    erase []
    by_cases h : k < n
    · rw [dif_pos h, dif_pos h]
      erase []
      by_cases h2 : n - k < 64 - md5Offset c
      · rw [if_pos h2, if_pos h2]
      · rw [if_neg h2, if_neg h2]
        erase [md5Transform_res]
        have ho := md5Offset_lt c
        congr 1; funext src; congr 1; funext blk; congr 1; funext st
        exact ih _ (by omega) _ _ _ rfl
    · rw [dif_neg h, dif_neg h]; rfl

theorem md5Finish_res (inp : List Byte) (n : Nat) (c : Md5Ctx) (k : Nat) (l : Option (Nat × Nat)) :
    (Tr.md5Finish inp n c k l).res = md5Finish inp n c k l := by
  cases l with
  | none => rfl
  | some p =>
    obtain ⟨o, r⟩ := p
    simp only [Tr.md5Finish, md5Finish]
    erase [md5Transform_res]

theorem md5Update_res (c : Md5Ctx) (inp : Option (List Byte)) (n : Nat) :
    (Tr.md5Update c inp n).res = md5Update c inp n := by
  cases inp with
  | none => rfl
  | some x => simp only [Tr.md5Update, md5Update]; erase [md5Loop_res, md5Finish_res]

theorem md5Digest_res (c : Md5Ctx) (o : List Byte) : (Tr.md5Digest c o).res = md5Digest c o := by
  rw [Tr.md5Digest, md5Digest]; erase [md5Encode_res, md5Update_res]

/-! ## KECCAK -/

theorem laneRd_res (A : List W64) (x y : Nat) : (Tr.laneRd A x y).res = laneRd A x y := rfl
theorem laneWr_res (A : List W64) (x y : Nat) (v : W64) : (Tr.laneWr A x y v).res = laneWr A x y v := rfl
theorem keccakTransform_res (A : List W64) (rc : W64) : (Tr.keccakTransform A rc).res = keccakTransform A rc := by
  rw [Tr.keccakTransform, keccakTransform]
  erase [Tr.keccakTheta, keccakTheta, Tr.keccakRhoPi, keccakRhoPi, Tr.keccakChi, keccakChi, Tr.keccakIota, keccakIota,
    laneRd_res, laneWr_res]
theorem seqToState_res (s : Arr) (m : List Byte) (off : Nat) (A : List W64) (n : Nat) :
    (Tr.seqToState s m off A n).res = seqToState m off A n := by
  rw [Tr.seqToState, seqToState]; erase [laneRd_res, laneWr_res]
theorem keccakPermutation_res (A : List W64) (n : Nat) : (Tr.keccakPermutation A n).res = keccakPermutation A n := by
  rw [Tr.keccakPermutation, keccakPermutation]; erase [keccakTransform_res]
theorem stateToSeq_res (A : List W64) (o : List Byte) (n : Nat) : (Tr.stateToSeq A o n).res = stateToSeq A o n := by
  rw [Tr.stateToSeq, stateToSeq]; erase [laneRd_res]
theorem keccakAbsorb1_res (s : Arr) (A : List W64) (m : List Byte) (off l nr : Nat) :
    (Tr.keccakAbsorb1 s A m off l nr).res = keccakAbsorb1 A m off l nr := by
  rw [Tr.keccakAbsorb1, keccakAbsorb1]; erase [seqToState_res, keccakPermutation_res]
theorem keccakAbsorbQueue_res (c : KeccakCtx) : (Tr.keccakAbsorbQueue c).res = keccakAbsorbQueue c := by
  rw [Tr.keccakAbsorbQueue, keccakAbsorbQueue]; erase [keccakAbsorb1_res]
theorem orBit_res (q : List Byte) (i k : Nat) : (Tr.orBit q i k).res = orBit q i k := by
  rw [Tr.orBit, orBit]; erase []
theorem keccakPadding_res (c : KeccakCtx) : (Tr.keccakPadding c).res = keccakPadding c := by
  rw [Tr.keccakPadding, keccakPadding]; erase [orBit_res, keccakAbsorbQueue_res, stateToSeq_res]
theorem keccakWhole_res (c : KeccakCtx) (x : List Byte) (off n : Nat) :
    (Tr.keccakWhole c x off n).res = keccakWhole c x off n := by
  rw [Tr.keccakWhole, keccakWhole]; erase [keccakAbsorb1_res]
theorem keccakPartial_res (c : KeccakCtx) (x : List Byte) (n i : Nat) :
    (Tr.keccakPartial c x n i).res = keccakPartial c x n i := by
  rw [Tr.keccakPartial, keccakPartial]; erase [keccakAbsorbQueue_res]

theorem keccakAbsorbLoop_res (c : KeccakCtx) (x : List Byte) (n i : Nat) :
    (Tr.keccakAbsorbLoop c x n i).res = keccakAbsorbLoop c x n i := by
  induction hk : n - i using Nat.strongRecOn generalizing c i with
  | _ m ih =>
    rw [Tr.keccakAbsorbLoop, keccakAbsorbLoop]
    erase []
    by_cases h : i < n
    · rw [dif_pos h, dif_pos h]
      erase []
      split
      · erase [keccakWhole_res]
        cases keccakWhole c x (i / 8) ((n - i) / c.rate) with
        | error e => rfl
        | ok st =>
          erase []
          by_cases h2 : 0 < (n - i) / c.rate * c.rate
          · rw [dif_pos h2, dif_pos h2]
            exact ih _ (by omega) _ _ rfl
          · rw [dif_neg h2, dif_neg h2]; rfl
      · erase [keccakPartial_res]
        cases keccakPartial c x n i with
        | error e => rfl
        | ok st =>
          obtain ⟨c', i'⟩ := st
          erase []
          by_cases h2 : i < i'
          · rw [dif_pos h2, dif_pos h2]
            exact ih _ (by omega) _ _ rfl
          · rw [dif_neg h2, dif_neg h2]; rfl
    · rw [dif_neg h, dif_neg h]; rfl

theorem keccakAbsorb_res (c : KeccakCtx) (x : List Byte) (n : Nat) : (Tr.keccakAbsorb c x n).res = keccakAbsorb c x n := by
  rw [Tr.keccakAbsorb, keccakAbsorb]; erase [keccakAbsorbLoop_res]
theorem keccakRefill_res (c : KeccakCtx) : (Tr.keccakRefill c).res = keccakRefill c := by
  rw [Tr.keccakRefill, keccakRefill]; erase [keccakPermutation_res, stateToSeq_res]

theorem bind_assoc' {α β γ : Type} (m : C α) (f : α → C β) (g : β → C γ) :
    (m >>= f >>= g) = m >>= fun a => f a >>= g := by cases m <;> rfl

theorem keccakSqueezeCopy_res (c : KeccakCtx) (o : List Byte) (i n : Nat) :
    (Tr.keccakSqueezeCopy c o i n).res = keccakSqueezeCopy c o i n := by
  rw [Tr.keccakSqueezeCopy, keccakSqueezeCopy]; erase []

theorem squeezeStep_aux (c' : KeccakCtx) (b : Bool) (k i : Nat) (f : C (List Byte)) (g : T (List Byte))
    (h : g.res = f) :
    (T.br b >>= fun _ => g >>= fun o' =>
      (pure ({ c' with squeezable := c'.squeezable - k }, o', i + k) : T (KeccakCtx × List Byte × Nat))).res =
    f >>= fun o' => Except.ok ({ c' with squeezable := c'.squeezable - k }, o', i + k) := by
  rw [res_bind, res_br, bind_ok, res_bind, h]; rfl

theorem keccakSqueezeStep_res (c : KeccakCtx) (o : List Byte) (n i : Nat) :
    (Tr.keccakSqueezeStep c o n i).res = keccakSqueezeStep c o n i := by
  rw [Tr.keccakSqueezeStep, keccakSqueezeStep, res_bind, keccakRefill_res]
  exact congrArg (fun f => keccakRefill c >>= f)
    (funext fun c' => squeezeStep_aux c' _ _ i _ _ (keccakSqueezeCopy_res c' o i _))

theorem keccakSqueezeLoop_res (c : KeccakCtx) (o : List Byte) (n i : Nat) :
    (Tr.keccakSqueezeLoop c o n i).res = keccakSqueezeLoop c o n i := by
  induction hk : n - i using Nat.strongRecOn generalizing c o i with
  | _ m ih =>
    rw [Tr.keccakSqueezeLoop, keccakSqueezeLoop]
    erase []
    by_cases h : i < n
    · rw [dif_pos h, dif_pos h]
      erase [keccakSqueezeStep_res]
      cases keccakSqueezeStep c o n i with
      | error e => rfl
      | ok st =>
        obtain ⟨c', o', i'⟩ := st
        erase []
        by_cases h2 : i < i'
        · rw [dif_pos h2, dif_pos h2]
          exact ih _ (by omega) _ _ _ rfl
        · rw [dif_neg h2, dif_neg h2]; rfl
    · rw [dif_neg h, dif_neg h]; rfl

theorem keccakSqueeze_res (c : KeccakCtx) (o : List Byte) : (Tr.keccakSqueeze c o).res = keccakSqueeze c o := by
  rw [Tr.keccakSqueeze, keccakSqueeze]
  erase [keccakAbsorb_res, keccakPadding_res, keccakSqueezeLoop_res, Bool.not_eq_true, Bool.not_eq_eq_eq_not, Bool.not_true]
theorem keccakUpdate_res (c : KeccakCtx) (x : Option (List Byte)) (n : Nat) :
    (Tr.keccakUpdate c x n).res = keccakUpdate c x n := by
  cases x with
  | none => simp only [Tr.keccakUpdate, keccakUpdate]; erase []
  | some x => simp only [Tr.keccakUpdate, keccakUpdate]; erase [keccakAbsorb_res]

/-! ## All of them -/

/-- `t` computes what `I` computes. -/
structure Erases {I : HashImpl} (t : Traced I) : Prop where
  init : ∀ g, (t.init g).res = I.init g
  update : ∀ c x n, (t.update c x n).res = I.update c x n
  digest : ∀ c o, (t.digest c o).res = I.digest c o

theorem erases (a : Alg) (bits : Nat) : Erases (a.traced bits) := by
  cases a
  case MD5 => exact ⟨md5Init_res, md5Update_res, md5Digest_res⟩
  case SHA1 => exact ⟨shaInit_res _, shaUpdate_res _ _ sha1ProcessBlock_res _, sha1Digest_res⟩
  case SHA224 => exact ⟨shaInit_res _, shaUpdate_res _ _ sha256ProcessBlock_res _, sha224n256Digest_res _⟩
  case SHA256 => exact ⟨shaInit_res _, shaUpdate_res _ _ sha256ProcessBlock_res _, sha224n256Digest_res _⟩
  case SHA384 => exact ⟨shaInit_res _, shaUpdate_res _ _ sha512ProcessBlock_res _, sha384n512Digest_res _⟩
  case SHA512 => exact ⟨shaInit_res _, shaUpdate_res _ _ sha512ProcessBlock_res _, sha384n512Digest_res _⟩
  case SHA512_224 => exact ⟨shaInit_res _, shaUpdate_res _ _ sha512ProcessBlock_res _, sha384n512Digest_res _⟩
  case SHA512_256 => exact ⟨shaInit_res _, shaUpdate_res _ _ sha512ProcessBlock_res _, sha384n512Digest_res _⟩
  case SHA3_224 => exact ⟨fun _ => rfl, keccakUpdate_res, keccakSqueeze_res⟩
  case SHA3_256 => exact ⟨fun _ => rfl, keccakUpdate_res, keccakSqueeze_res⟩
  case SHA3_384 => exact ⟨fun _ => rfl, keccakUpdate_res, keccakSqueeze_res⟩
  case SHA3_512 => exact ⟨fun _ => rfl, keccakUpdate_res, keccakSqueeze_res⟩
  case RawSHAKE128 => exact ⟨fun _ => rfl, keccakUpdate_res, fun c o => keccakSqueeze_res _ o⟩
  case SHAKE128 => exact ⟨fun _ => rfl, keccakUpdate_res, fun c o => keccakSqueeze_res _ o⟩
  case RawSHAKE256 => exact ⟨fun _ => rfl, keccakUpdate_res, fun c o => keccakSqueeze_res _ o⟩
  case SHAKE256 => exact ⟨fun _ => rfl, keccakUpdate_res, fun c o => keccakSqueeze_res _ o⟩

section
variable {I : HashImpl} {t : Traced I} (E : Erases t)
include E

theorem calls_res (l : List HashImpl.Call) : ∀ c, (t.calls c l).res = I.calls c l := by
  induction l with
  | nil => intro c; rfl
  | cons x l ih =>
    intro c
    cases x with
    | update x => rw [Traced.calls, HashImpl.calls]; erase [E.update, ih]
    | digest o => rw [Traced.calls, HashImpl.calls]; erase [E.digest, ih]

theorem encodeMultipleLoop_res (l : List (Option (List Byte) × Nat)) :
    ∀ c, (t.encodeMultipleLoop c l).res = I.encodeMultipleLoop c l := by
  induction l with
  | nil => intro c; rfl
  | cons x l ih =>
    intro c
    obtain ⟨x, n⟩ := x
    cases x with
    | none => rw [Traced.encodeMultipleLoop, HashImpl.encodeMultipleLoop]; erase [ih]
    | some x => rw [Traced.encodeMultipleLoop, HashImpl.encodeMultipleLoop]; erase [E.update, ih]

theorem encodeMultiple_res (g : I.Ctx) (o : List Byte) (l : List (Option (List Byte) × Nat)) :
    (t.encodeMultiple g o l).res = I.encodeMultiple g o l := by
  rw [Traced.encodeMultiple, HashImpl.encodeMultiple]; erase [E.init, encodeMultipleLoop_res E, E.digest]

theorem macInit_res (bs : Nat) (c : HmacCtx I) : (t.macInit bs c).res = HmacCtx.init I bs c := by
  rw [Traced.macInit, HmacCtx.init]; erase [E.init, E.update]

omit E in
theorem arrcpy_res (a : Arr) (d : List Byte) (n : Nat) (s : List Byte) (m : Nat) :
    (Traced.arrcpy a d n s m).res = arrcpy d n s m := by
  rw [Traced.arrcpy, arrcpy]; erase [arrinit]

omit E in
theorem xorPads_res (bs : Nat) (a b : List Byte) : (Traced.xorPads bs a b).res = HmacCtx.xorPads bs a b := by
  rw [Traced.xorPads, HmacCtx.xorPads]; erase []

theorem macSetKey_res (bs : Nat) (c : HmacCtx I) (k : List Byte) (n : Nat) :
    (t.macSetKey bs c k n).res = HmacCtx.setKey I bs c k n := by
  rw [Traced.macSetKey, HmacCtx.setKey]; erase [E.init, E.update, arrcpy_res, xorPads_res]

theorem macUpdate_res (c : HmacCtx I) (x : Option (List Byte)) (n : Nat) :
    (t.macUpdate c x n).res = HmacCtx.update I c x n := by
  rw [Traced.macUpdate, HmacCtx.update]; erase [E.update]

theorem macDigest_res (bs ds : Nat) (mid : List Byte) (g : I.Ctx) (c : HmacCtx I) (o : List Byte) :
    (t.macDigest bs ds mid g c o).res = HmacCtx.digest I bs ds mid g c o := by
  rw [Traced.macDigest, HmacCtx.digest]; erase [E.digest, encodeMultiple_res E]

theorem macOneShot_res (bs ds : Nat) (g : HmacCtx.Mem I) (k : List Byte) (n : Nat) (x : List Byte) (m : Nat) (o : List Byte) :
    (t.macOneShot bs ds g k n x m o).res = HmacCtx.oneShot I bs ds g k n x m o := by
  rw [Traced.macOneShot, HmacCtx.oneShot]
  erase [macInit_res E, macSetKey_res E, macUpdate_res E, macDigest_res E]

theorem macCalls_res (bs ds : Nat) (l : List (HmacCtx.Call I)) :
    ∀ c, (t.macCalls bs ds c l).res = HmacCtx.calls I bs ds c l := by
  induction l with
  | nil => intro c; rfl
  | cons x l ih =>
    intro c
    cases x with
    | init => rw [Traced.macCalls, HmacCtx.calls, HmacCtx.call]; erase [macInit_res E, ih]
    | setKey k => rw [Traced.macCalls, HmacCtx.calls, HmacCtx.call]; erase [macSetKey_res E, ih]
    | update x => rw [Traced.macCalls, HmacCtx.calls, HmacCtx.call]; erase [macUpdate_res E, ih]
    | digest m g o => rw [Traced.macCalls, HmacCtx.calls, HmacCtx.call]; erase [macDigest_res E, ih, bind_assoc']

end
end Pgfe.Proofs.Trace
