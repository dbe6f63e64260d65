import Verif.Model.CharSign
/-!
# Proofs: the parsers on either kind of `char` compute what the byte model computes
-/
namespace Pgfe.Proofs.CharSign
open Pgfe Pgfe.Model

/-- Promotion loses nothing. -/
theorem int_inj (k : CharKind) (b c : Byte) : k.int b = k.int c ↔ b = c := by
  cases k
  · exact BitVec.toInt_inj
  · unfold CharKind.int
    rw [Int.ofNat_inj]
    exact BitVec.toNat_inj

theorem int_zero (k : CharKind) (b : Byte) : k.int b = 0 ↔ b = 0#8 := by
  have h : k.int 0#8 = 0 := by cases k <;> rfl
  rw [← h]
  exact int_inj k b _

/-- An ASCII character promotes to its code on either platform. -/
theorem int_ascii (k : CharKind) (b : Byte) (n : Nat) (hn : n < 128) :
    k.int b = (n : Int) ↔ b = BitVec.ofNat 8 n := by
  have h : k.int (BitVec.ofNat 8 n) = (n : Int) := by
    cases k
    · show (BitVec.ofNat 8 n).toInt = (n : Int)
      rw [BitVec.toInt_eq_toNat_of_lt] <;> simp only [BitVec.toNat_ofNat] <;> omega
    · show ((BitVec.ofNat 8 n).toNat : Int) = (n : Int)
      simp only [BitVec.toNat_ofNat]
      omega
  rw [← h]
  exact int_inj k b _

/-- A range of ASCII characters contains the same bytes on either platform, and the distance from
its start is the same. -/
theorem int_range (k : CharKind) (b : Byte) (lo hi : Nat) (hh : hi < 128) :
    (k.int b ≥ (lo : Int) ∧ k.int b ≤ (hi : Int)) ↔ lo ≤ b.toNat ∧ b.toNat ≤ hi := by
  have hb := b.isLt
  cases k
  · show b.toInt ≥ (lo : Int) ∧ b.toInt ≤ (hi : Int) ↔ _
    rw [BitVec.toInt_eq_toNat_cond]
    split <;> omega
  · show (b.toNat : Int) ≥ (lo : Int) ∧ (b.toNat : Int) ≤ (hi : Int) ↔ _
    omega

/-- Within a range of ASCII characters, subtracting the first character and adding an offset is the
same as on bytes. -/
theorem toByte_sub (k : CharKind) (b : Byte) (m n : Nat) :
    toByte (k.int b - (m : Int) + (n : Int)) = b - BitVec.ofNat 8 m + BitVec.ofNat 8 n := by
  have hk : toByte (k.int b) = b := by
    cases k
    · exact BitVec.ofInt_toInt
    · show BitVec.ofInt 8 (b.toNat : Int) = b
      rw [BitVec.ofInt_natCast, BitVec.ofNat_toNat, BitVec.setWidth_eq]
  have h1 : toByte (k.int b - (m : Int) + (n : Int))
      = toByte (k.int b) - BitVec.ofNat 8 m + BitVec.ofNat 8 n := by
    unfold toByte
    rw [BitVec.ofInt_add, Int.sub_eq_add_neg, BitVec.ofInt_add, BitVec.ofInt_neg,
      BitVec.ofInt_natCast, BitVec.ofInt_natCast, ← BitVec.sub_eq_add_neg]
  rw [h1, hk]

theorem toByte_sub0 (k : CharKind) (b : Byte) (m : Nat) :
    toByte (k.int b - (m : Int)) = b - BitVec.ofNat 8 m := by
  have := toByte_sub k b m 0
  simpa using this

theorem le_iff (a b : Byte) : a ≤ b ↔ a.toNat ≤ b.toNat := BitVec.le_def

/-- The range test of the byte model. -/
theorem range_model (k : CharKind) (b : Byte) (lo hi : Nat) (hh : hi < 128) (hl : lo < 128) :
    (k.int b ≥ (lo : Int) ∧ k.int b ≤ (hi : Int)) ↔ BitVec.ofNat 8 lo ≤ b ∧ b ≤ BitVec.ofNat 8 hi := by
  rw [int_range k b lo hi hh, le_iff, le_iff]
  simp only [BitVec.toNat_ofNat]
  rw [Nat.mod_eq_of_lt (by omega), Nat.mod_eq_of_lt (by omega)]

theorem inRange_model (k : CharKind) (b : Byte) (lo hi : Nat) (hh : hi < 128) (hl : lo < 128) :
    (k.int b ≥ (lo : Int) ∧ k.int b ≤ (hi : Int)) ↔
      inRange b (BitVec.ofNat 8 lo) (BitVec.ofNat 8 hi) = true := by
  rw [range_model k b lo hi hh hl]
  simp only [inRange, Bool.and_eq_true, decide_eq_true_eq]

theorem ch2hex_eq (k : CharKind) (b : Byte) : k.ch2hex b = ch2hex b := by
  unfold CharKind.ch2hex Model.ch2hex
  have r1 := range_model k b 48 57 (by decide) (by decide)
  have r2 := range_model k b 65 70 (by decide) (by decide)
  have r3 := range_model k b 97 102 (by decide) (by decide)
  exact ite_congr (propext r1) (fun _ => toByte_sub0 k b 48) fun _ =>
    ite_congr (propext r2) (fun _ => toByte_sub k b 65 10) fun _ =>
    ite_congr (propext r3) (fun _ => toByte_sub k b 97 10) fun _ => rfl

theorem decode16_eq (k : CharKind) (b : Byte) : k.decode16 b = decodeBase16Char b := by
  unfold CharKind.decode16 decodeBase16Char
  exact ite_congr (propext (inRange_model k b 48 57 (by decide) (by decide)))
      (fun _ => toByte_sub0 k b 48) fun _ =>
    ite_congr (propext (inRange_model k b 65 70 (by decide) (by decide)))
      (fun _ => toByte_sub k b 65 10) fun _ =>
    ite_congr (propext (inRange_model k b 97 102 (by decide) (by decide)))
      (fun _ => toByte_sub k b 97 10) fun _ => rfl

theorem decode32_eq (k : CharKind) (b : Byte) : k.decode32 b = decodeBase32Char b := by
  unfold CharKind.decode32 decodeBase32Char
  exact ite_congr (propext (inRange_model k b 50 55 (by decide) (by decide)))
      (fun _ => toByte_sub k b 50 26) fun _ =>
    ite_congr (propext (inRange_model k b 65 90 (by decide) (by decide)))
      (fun _ => toByte_sub0 k b 65) fun _ =>
    ite_congr (propext (inRange_model k b 97 122 (by decide) (by decide)))
      (fun _ => toByte_sub0 k b 97) fun _ =>
    ite_congr (propext (int_ascii k b 61 (by decide))) (fun _ => rfl) fun _ => rfl

theorem decode32hex_eq (k : CharKind) (b : Byte) : k.decode32hex b = decodeBase32HexChar b := by
  unfold CharKind.decode32hex decodeBase32HexChar
  exact ite_congr (propext (inRange_model k b 48 57 (by decide) (by decide)))
      (fun _ => toByte_sub0 k b 48) fun _ =>
    ite_congr (propext (inRange_model k b 65 86 (by decide) (by decide)))
      (fun _ => toByte_sub k b 65 10) fun _ =>
    ite_congr (propext (inRange_model k b 97 118 (by decide) (by decide)))
      (fun _ => toByte_sub k b 97 10) fun _ =>
    ite_congr (propext (int_ascii k b 61 (by decide))) (fun _ => rfl) fun _ => rfl

theorem decode64_eq (k : CharKind) (b : Byte) : k.decode64 b = decodeBase64Char b := by
  unfold CharKind.decode64 decodeBase64Char
  exact ite_congr (propext (inRange_model k b 97 122 (by decide) (by decide)))
      (fun _ => toByte_sub k b 97 26) fun _ =>
    ite_congr (propext (inRange_model k b 48 57 (by decide) (by decide)))
      (fun _ => toByte_sub k b 48 52) fun _ =>
    ite_congr (propext (inRange_model k b 65 90 (by decide) (by decide)))
      (fun _ => toByte_sub0 k b 65) fun _ =>
    ite_congr (propext (or_congr (int_ascii k b 43 (by decide)) (int_ascii k b 45 (by decide))))
      (fun _ => rfl) fun _ =>
    ite_congr (propext (or_congr (int_ascii k b 47 (by decide)) (int_ascii k b 95 (by decide))))
      (fun _ => rfl) fun _ =>
    ite_congr (propext (int_ascii k b 61 (by decide))) (fun _ => rfl) fun _ => rfl

theorem charFn_eq (k : CharKind) (a : BaseAlg) : k.charFn a = a.charFn := by
  funext b
  cases a
  · exact decode16_eq k b
  · exact decode32_eq k b
  · exact decode32hex_eq k b
  · exact decode64_eq k b
  · exact decode64_eq k b

theorem decGroup_eq (k : CharKind) (P : BaseParams) (f : Byte → Byte) (cs : List Byte) :
    ∀ (i : Nat) (u : W64), k.decGroup P f cs i u = decGroup P f cs i u := by
  induction cs with
  | nil => intros; rfl
  | cons c r ih =>
    intro i u
    unfold CharKind.decGroup Model.decGroup
    simp only [int_zero, ih]

theorem decLoop_eq (k : CharKind) (P : BaseParams) (f : Byte → Byte) (n : Nat) :
    ∀ (cs : List Byte) (u : W64) (op : Nat) (out : List Byte) (o : Option (List Byte)),
      k.decLoop P f n cs u op out o = decLoop P f n cs u op out o := by
  induction n with
  | zero => intros; rfl
  | succ n ih =>
    intro cs u op out o
    cases cs with
    | nil => rfl
    | cons c r =>
      unfold CharKind.decLoop Model.decLoop
      simp only [int_zero, ih, decGroup_eq]

theorem decode_eq (k : CharKind) (a : BaseAlg) (cs out : List Byte) :
    k.decode a cs out = pgfeDecode a cs out := by
  unfold CharKind.decode pgfeDecode decodeBase
  rw [charFn_eq, decLoop_eq]
  rfl

theorem padLoop_eq (k : CharKind) (z p : Byte) (l : List Byte) : k.padLoop z p l = padLoop z p l := by
  induction l with
  | nil => rfl
  | cons c r ih =>
    unfold CharKind.padLoop Model.padLoop
    simp only [ih, ne_eq, int_inj]

theorem unittostr_eq (k : CharKind) : k.unittostr = unittostr := by
  funext S P g a u p
  unfold CharKind.unittostr Model.unittostr
  simp only [padLoop_eq]

theorem encode_eq (k : CharKind) (a : BaseAlg) (S : Slack) (g input : List Byte) (n : Nat)
    (out : List Byte) : k.encode a S g input n out = pgfeEncode a S g input n out := by
  unfold CharKind.encode pgfeEncode encodeBase
  rw [unittostr_eq]

theorem hexLoop_eq (k : CharKind) (cs : List Byte) :
    ∀ (odd : Bool) (h : Byte) (op : Nat) (out : List Byte),
      k.hexLoop cs odd h op out = hexLoop cs odd h op out := by
  induction cs with
  | nil => intros; rfl
  | cons c r ih =>
    intro odd h op out
    unfold CharKind.hexLoop Model.hexLoop
    simp only [int_zero, ih, ch2hex_eq]

theorem int_x (k : CharKind) (b : Byte) : (k.int b = 120 ∨ k.int b = 88) ↔ b = 0x78#8 ∨ b = 0x58#8 :=
  or_congr (int_ascii k b 120 (by decide)) (int_ascii k b 88 (by decide))

theorem int_h (k : CharKind) (b : Byte) : (k.int b = 104 ∨ k.int b = 72) ↔ b = 0x68#8 ∨ b = 0x48#8 :=
  or_congr (int_ascii k b 104 (by decide)) (int_ascii k b 72 (by decide))

theorem hexStringToHash_eq (k : CharKind) (s out : List Byte) :
    k.hexStringToHash s out = hexStringToHash s out := by
  unfold CharKind.hexStringToHash Model.hexStringToHash
  simp only [int_x, int_h, hexLoop_eq]

theorem cleanLoop_eq (k : CharKind) (cs : List Byte) :
    ∀ (f : Int) (op : Nat) (out : List Byte), k.cleanLoop cs f op out = cleanLoop cs f op out := by
  induction cs with
  | nil => intros; rfl
  | cons c r ih =>
    intro f op out
    unfold CharKind.cleanLoop Model.cleanLoop
    simp only [int_zero, int_x, ih, ch2hex_eq]

theorem hashStringClean_eq (k : CharKind) (s out : List Byte) :
    k.hashStringClean s out = hashStringClean s out := by
  unfold CharKind.hashStringClean Model.hashStringClean
  rw [cleanLoop_eq]

theorem cleanLoopIn_eq (k : CharKind) (n : Nat) :
    ∀ (r : Nat) (f : Int) (op : Nat) (b : List Byte),
      k.cleanLoopIn n r f op b = cleanLoopIn n r f op b := by
  induction n with
  | zero => intros; rfl
  | succ n ih =>
    intro r f op b
    unfold CharKind.cleanLoopIn Model.cleanLoopIn
    simp only [int_zero, int_x, ih, ch2hex_eq]

theorem hashStringCleanInPlace_eq (k : CharKind) (b : List Byte) :
    k.hashStringCleanInPlace b = hashStringCleanInPlace b := by
  unfold CharKind.hashStringCleanInPlace Model.hashStringCleanInPlace
  rw [cleanLoopIn_eq]

theorem hashLength_eq (k : CharKind) (g s : List Byte) : k.hashLength g s = hashLength g s := by
  unfold CharKind.hashLength Model.hashLength
  simp only [hashStringClean_eq]

theorem fromHexString_eq (k : CharKind) (g s : List Byte) :
    k.fromHexString g s = fromHexString g s := by
  unfold CharKind.fromHexString Model.fromHexString
  simp only [hexStringToHash_eq]

end Pgfe.Proofs.CharSign
