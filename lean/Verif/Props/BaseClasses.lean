import Verif.Model.BaseClasses
import Verif.Proofs.Double
/-!
# C13, C14 in double precision; C66: the classes `Base16`, `Base32`, `Base64`
-/
namespace Pgfe.Spec
open Pgfe.Model

/-- The RFC 4648 encoding an object is for. -/
def rfcOf : BaseKind → BaseSpec
  | .b16 => rfcBase16
  | .b32 false => rfcBase32
  | .b32 true => rfcBase32Hex
  | .b64 false => rfcBase64
  | .b64 true => rfcBase64Url

/-- The bytes an argument of `encode` stands for. -/
def EncArg.bytes : EncArg → List Byte
  | .seq mem n => mem.take n
  | .cs mem => mem.takeWhile (fun b => b ≠ 0#8)
  | .str s => s
  | .sd s => s

/-- The array is long enough, the C string terminated. -/
def EncArg.ok : EncArg → Prop
  | .seq mem n => n ≤ mem.length
  | .cs mem => 0#8 ∈ mem
  | .str _ | .sd _ => True

/-- The text an argument of `decode` stands for; that of a `std::string` ends at the first NUL in it. -/
def DecArg.text : DecArg → List Byte
  | .cs mem => mem.takeWhile (fun b => b ≠ 0#8)
  | .str s => s.takeWhile (fun b => b ≠ 0#8)

/-- The C string is terminated. -/
def DecArg.ok : DecArg → Prop
  | .cs mem => 0#8 ∈ mem
  | .str _ => True

end Pgfe.Spec

namespace Pgfe.Props
open Pgfe.Model Pgfe.Spec Pgfe.Proofs

/-- **C13.** For the size estimates the code computes in double precision. -/
theorem C13_double (al : BaseAlg) (cs : List BaseCall) (hc : ∀ c ∈ cs, ValidCall (libBase al) c) :
    ∃ rs o, objCalls (libBase al) cs baseObjInit = .ok (rs, o) ∧ rs.length = cs.length ∧
      ∀ cr ∈ cs.zip rs, IsResult (libBase al) cr.1 cr.2 :=
  C13 _ (libBase_good al) cs hc

/-- **C14.** The same for threads. -/
theorem C14_double (al : BaseAlg) (work : Nat → List BaseCall)
    (hw : ∀ i, ∀ c ∈ work i, ValidCall (libBase al) c) (sched : List Nat) :
    ∃ s, sysRun (libBase al) sched (sysInit work) = .ok s ∧
      (∀ i, ∀ cr ∈ (s.threads i).done, IsResult (libBase al) cr.1 cr.2) ∧
      (∀ i, (s.threads i).done.reverse.map Prod.fst ++ ((s.threads i).cur.toList.map Prod.fst)
        ++ (s.threads i).todo = work i) ∧
      (∀ i j, (encView (s.threads i)).isSome → (encView (s.threads j)).isSome → i = j) ∧
      (∀ i j, (decView (s.threads i)).isSome → (decView (s.threads j)).isSome → i = j) :=
  C14 _ (libBase_good al) work hw sched

/-! ## C66 -/

/-- Scratch memory of an encode call as in C11; a non-empty text for decode. -/
def bcallOK (k : BaseKind) : BCall → Prop
  | .enc S g arg => Roomy S ∧ (rfcOf k).chars ≤ g.length ∧ EncArg.ok arg
  | .dec arg => DecArg.ok arg ∧ DecArg.text arg ≠ []

theorem specOf_enc (k : BaseKind) : specOf k.encF = rfcOf k := by
  cases k with
  | b16 => rfl
  | b32 h => cases h <;> rfl
  | b64 h => cases h <;> rfl

theorem enc_good (k : BaseKind) : GoodEstimates k.encClass := by
  cases k with
  | b16 => exact libBase_good .base16
  | b32 h => cases h <;> first | exact libBase_good .base32 | exact libBase_good .base32hex
  | b64 h => cases h <;> first | exact libBase_good .base64 | exact libBase_good .base64url

theorem dec_good (k : BaseKind) : GoodEstimates k.decClass := by
  cases k with
  | b16 => exact libBase_good .base16
  | b32 h => cases h <;> first | exact libBase_good .base32 | exact libBase_good .base32hex
  | b64 h => exact libBase_good .base64

/-- The result of a call: encode, the text C06-C08 speak about; decode, the bytes. -/
def bresult (k : BaseKind) : BCall → List Byte
  | .enc _ _ arg => (rfcOf k).libEncode (EncArg.bytes arg)
  | .dec arg => (specOf k.decF).libDecode (codeOf k.decF) (DecArg.text arg)

theorem encodeSeq_ok (K : BaseClass) (hK : GoodEstimates K) (S : Slack) (hS : Roomy S) (g x junk : List Byte)
    (hg : Scratch K.alg g) (o : BaseObj) (h1 : EncIdle o) (h2 : DecIdle o) :
    ∃ o', objEncodeSeq K S g (x ++ junk) x.length o = .ok ((specOf K.alg).libEncode x, o') ∧ EncIdle o' ∧ DecIdle o' := by
  obtain ⟨o1, e1, a1, d1⟩ : ∃ o1, (if o.encsz ≤ K.encEst x.length
      then encSetSize (K.encEst x.length) (encAlloc (K.encEst x.length) o) else o) = o1 ∧
      EncAt K o1 x .ready ∧ DecIdle o1 := by
    refine ⟨_, rfl, ?_⟩
    have := h1.2
    split
    · exact ⟨⟨⟨by simp [encSetSize, encAlloc], by simp [encSetSize]; omega⟩,
        by simp [encSetSize]⟩, h2⟩
    · exact ⟨⟨h1, by omega⟩, h2⟩
  have hf : Fits K.alg x.length o1.enCache := by
    have := enc_size K hK x.length o1.encsz a1.1.2 a1.2
    have := a1.1.1
    unfold Fits
    omega
  have he := enc_all K.alg S hS g x junk o1.enCache hg hf
  have he' := enc_all K.alg S hS g x [] o1.enCache hg hf
  rw [List.append_nil] at he'
  obtain ⟨n, b, e2, a2⟩ := enc_run K hK S g x o1 ⟨hS, hg⟩ a1
  obtain ⟨b', e3, a3⟩ := enc_nul K x _ n a2
  have e4 := enc_str K x _ n a3
  refine ⟨{ o1 with enCache := b' }, ?_, a3.1, d1⟩
  unfold encRun at e2
  rw [he', bind_ok] at e2
  unfold objEncodeSeq
  dsimp only
  rw [e1, he, bind_ok]
  dsimp only at e2 ⊢
  cases e2
  rw [e3, bind_ok, e4, bind_ok]

theorem decoded_unique {r : C (Nat × List Byte)} {a b : List Byte} (ha : Decoded r a) (hb : Decoded r b) : a = b := by
  obtain ⟨o1, e1, q1, _⟩ := ha
  obtain ⟨o2, e2, q2, _⟩ := hb
  rw [e1, Except.ok.injEq, Prod.mk.injEq] at e2
  obtain ⟨h1, rfl⟩ := e2
  rw [← q1, ← q2, h1]

theorem decodeText_ok (K : BaseClass) (hK : GoodEstimates K) (s : List Byte) (hs : 0#8 ∉ s) (hne : s ≠ []) (o : BaseObj)
    (h1 : EncIdle o) (h2 : DecIdle o) :
    ∃ o', objDecode K s o = .ok ((specOf K.alg).libDecode (codeOf K.alg) s, o') ∧ EncIdle o' ∧ DecIdle o' := by
  obtain ⟨r, o', e, hr, i1, i2⟩ := objCall_ok K hK (.dec s) ⟨hs, hne⟩ o h1 h2
  refine ⟨o', ?_, i1, i2⟩
  have e : objDecode K s o = .ok (r, o') := e
  have hsz : ∃ out : List Byte, DecFits K.alg s.length out := ⟨List.replicate _ 0#8, by
    unfold DecFits; rw [List.length_replicate]⟩
  obtain ⟨out, ho⟩ := hsz
  rw [e, decoded_unique (hr out ho) (isResult_dec K s ⟨hs, hne⟩ out ho)]

theorem nozero_takeWhile (l : List Byte) : 0#8 ∉ l.takeWhile (fun b => b ≠ 0#8) := by
  induction l with
  | nil => simp
  | cons a l ih =>
    rw [List.takeWhile_cons]
    split
    · next h =>
      intro hm
      rcases List.mem_cons.mp hm with h' | h'
      · rw [← h'] at h; simp at h
      · exact ih h'
    · simp

theorem bcall_ok (k : BaseKind) (c : BCall) (hc : bcallOK k c) (o : BaseObj) (h1 : EncIdle o) (h2 : DecIdle o) :
    ∃ o', bcall k o c = .ok (bresult k c, o') ∧ EncIdle o' ∧ DecIdle o' := by
  cases c with
  | enc S g arg =>
    obtain ⟨hS, hg, ha⟩ := hc
    have hg : Scratch k.encClass.alg g := by
      show (specOf k.encF).chars ≤ g.length
      rw [specOf_enc]; exact hg
    have key : ∀ mem n, n ≤ mem.length → ∃ o', objEncodeSeq k.encClass S g mem n o
        = .ok ((rfcOf k).libEncode (mem.take n), o') ∧ EncIdle o' ∧ DecIdle o' := by
      intro mem n hn
      obtain ⟨o', e, i⟩ := encodeSeq_ok k.encClass (enc_good k) S hS g (mem.take n) (mem.drop n) hg o h1 h2
      have hl : (mem.take n).length = n := by rw [List.length_take]; omega
      rw [List.take_append_drop, hl] at e
      have es : specOf k.encClass.alg = rfcOf k := specOf_enc k
      rw [es] at e
      exact ⟨o', e, i⟩
    cases arg with
    | seq mem n => exact key mem n ha
    | cs mem =>
      obtain ⟨q1, q2, q3⟩ := strlen_take mem ha
      obtain ⟨o', e, i⟩ := key mem _ q2
      rw [q3] at e
      refine ⟨o', ?_, i⟩
      show objEncodeArg _ S g o (.cs mem) = _
      rw [objEncodeArg, q1, bind_ok, e]
      rfl
    | str t =>
      obtain ⟨o', e, i⟩ := key (t ++ [0#8]) t.length (by simp)
      rw [List.take_left' rfl] at e
      exact ⟨o', e, i⟩
    | sd t =>
      obtain ⟨o', e, i⟩ := key (t ++ [0#8]) t.length (by simp)
      rw [List.take_left' rfl] at e
      exact ⟨o', e, i⟩
  | dec arg =>
    obtain ⟨ha, hne⟩ := hc
    have hz : ∀ l : List Byte, 0#8 ∉ l.takeWhile (fun b => b ≠ 0#8) := by
      intro l h
      exact nozero_takeWhile l h
    have hcs : ∀ mem, 0#8 ∈ mem → cstr mem = .ok (mem.takeWhile (fun b => b ≠ 0#8)) := by
      intro mem hm
      obtain ⟨q1, q2, q3⟩ := strlen_take mem hm
      rw [cstr, q1, bind_ok, rds_ok (by omega), List.drop_zero, q3]
    cases arg with
    | cs mem =>
      obtain ⟨o', e, i⟩ := decodeText_ok k.decClass (dec_good k) _ (hz mem) hne o h1 h2
      refine ⟨o', ?_, i⟩
      show objDecodeArg _ o (.cs mem) = _
      rw [objDecodeArg, hcs mem ha, bind_ok, e]
      rfl
    | str t =>
      have et : (t ++ [0#8]).takeWhile (fun b => b ≠ 0#8) = t.takeWhile (fun b => b ≠ 0#8) := by
        rw [List.takeWhile_append]
        split
        · next h =>
          have e := List.takeWhile_prefix (l := t) (fun b : Byte => decide (b ≠ 0#8))
          rw [(List.IsPrefix.eq_of_length e h)]
          simp
        · rfl
      obtain ⟨o', e, i⟩ := decodeText_ok k.decClass (dec_good k) _ (hz t) hne o h1 h2
      refine ⟨o', ?_, i⟩
      show objDecodeArg _ o (.str t) = _
      rw [objDecodeArg, hcs (t ++ [0#8]) (by simp), bind_ok, et, e]
      rfl

theorem bcalls_ok (k : BaseKind) (l : List BCall) (hl : ∀ c ∈ l, bcallOK k c) :
    ∀ o, EncIdle o → DecIdle o →
      ∃ o', bcalls k l o = .ok (l.map (bresult k), o') ∧ EncIdle o' ∧ DecIdle o' := by
  induction l with
  | nil => intro o h1 h2; exact ⟨o, rfl, h1, h2⟩
  | cons c l ih =>
    intro o h1 h2
    obtain ⟨o1, e1, i1, i2⟩ := bcall_ok k c (hl c (List.mem_cons_self ..)) o h1 h2
    obtain ⟨o2, e2, i3⟩ := ih (fun c h => hl c (List.mem_cons_of_mem _ h)) o1 i1 i2
    exact ⟨o2, by rw [bcalls, e1, bind_ok, e2]; rfl, i3⟩

/-- `r` is the text (bytes) the C function of the object's class and mode produces for the bytes (the text) the
argument stands for, in any sufficient buffer. -/
def bcallMatches (k : BaseKind) (c : BCall) (r : List Byte) : Prop :=
  match c with
  | .enc S g arg => ∀ out, (rfcOf k).chars * ceilDiv (EncArg.bytes arg).length (rfcOf k).unit + 1 ≤ out.length →
      ∃ rest, pgfeEncode k.encF S g (EncArg.bytes arg) (EncArg.bytes arg).length out = .ok (r.length, r ++ 0#8 :: rest)
  | .dec arg => ∀ out, DecFits k.decF (DecArg.text arg).length out →
      Decoded (pgfeDecode k.decF (DecArg.text arg ++ [0#8]) out) r

theorem bresult_matches (k : BaseKind) (c : BCall) (hc : bcallOK k c) : bcallMatches k c (bresult k c) := by
  cases c with
  | enc S g arg =>
    intro out ho
    obtain ⟨hS, hg, ha⟩ := hc
    have := enc_all k.encF S hS g (EncArg.bytes arg) [] out (by unfold Scratch; rw [specOf_enc]; exact hg)
      (by unfold Fits; rw [specOf_enc]; exact ho)
    rw [List.append_nil, specOf_enc] at this
    exact ⟨_, this⟩
  | dec arg =>
    obtain ⟨ha, hne⟩ := hc
    have hz : 0#8 ∉ DecArg.text arg := by
      cases arg <;> exact nozero_takeWhile _
    exact isResult_dec ⟨k.decF, fun _ => 0, fun _ => 0⟩ (DecArg.text arg) ⟨hz, hne⟩

/-- **C66, every history.** Any sequence of calls of any overloads on a new object of any class and mode succeeds,
and every call returns what the C function of that class and mode computes from the bytes the argument stands
for. -/
theorem C66 (k : BaseKind) (l : List BCall) (hl : ∀ c ∈ l, bcallOK k c) :
    ∃ rs o, bcalls k l baseObjInit = .ok (rs, o) ∧ rs.length = l.length ∧ ∀ cr ∈ l.zip rs, bcallMatches k cr.1 cr.2 := by
  obtain ⟨o, e, _⟩ := bcalls_ok k l hl _ init_idle.1 init_idle.2
  refine ⟨_, o, e, by simp, ?_⟩
  intro cr hcr
  rw [List.zip_map_right, List.mem_map] at hcr
  obtain ⟨⟨c, c'⟩, hm, rfl⟩ := hcr
  have hcc : c = c' ∧ c ∈ l := by
    have := List.of_mem_zip hm
    rw [List.zip_eq_zipWith, List.zipWith_self] at hm
    simp only [List.mem_map, Prod.mk.injEq] at hm
    obtain ⟨x, hx, rfl, rfl⟩ := hm
    exact ⟨rfl, hx⟩
  obtain ⟨rfl, hc⟩ := hcc
  exact bresult_matches k c (hl c hc)

/-- **C66, encoding** (partial: C06). After any calls, `encode` returns the RFC 4648 text for the object's
alphabet. -/
theorem C66_rfc_partial (k : BaseKind) (l : List BCall) (hl : ∀ c ∈ l, bcallOK k c) (rs : List (List Byte)) (o : BaseObj)
    (ho : bcalls k l baseObjInit = .ok (rs, o)) (S : Slack) (g : List Byte) (arg : EncArg) (hc : bcallOK k (.enc S g arg))
    (h : (EncArg.bytes arg).length % (rfcOf k).unit = 0 ∨ ((rfcOf k).digits (EncArg.bytes arg)).getLast? ≠ some 0) :
    ∃ o', bcall k o (.enc S g arg) = .ok ((rfcOf k).encode (EncArg.bytes arg), o') := by
  obtain ⟨o1, e1, i1, i2⟩ := bcalls_ok k l hl _ init_idle.1 init_idle.2
  rw [ho, Except.ok.injEq, Prod.mk.injEq] at e1
  obtain ⟨_, rfl⟩ := e1
  obtain ⟨o2, e2, _⟩ := bcall_ok k _ hc o i1 i2
  refine ⟨o2, ?_⟩
  have hr := (rfc_iff k.encF (EncArg.bytes arg)).mpr (by unfold EndsInZero; rw [specOf_enc]; exact h)
  rw [specOf_enc] at hr
  rw [e2, bresult, hr]

theorem libDecode_alphabet (b c : Nat) (A A' : List Byte) (code : Byte → Option Nat) (s : List Byte) :
    (BaseSpec.mk b c A).libDecode code s = (BaseSpec.mk b c A').libDecode code s := by
  simp only [BaseSpec.libDecode, BaseSpec.rawDecode, BaseSpec.groups, BaseSpec.unit, BaseSpec.bytes]

theorem dec_same (k : BaseKind) (s : List Byte) :
    (specOf k.decF).libDecode (codeOf k.decF) s = (specOf k.encF).libDecode (codeOf k.encF) s := by
  cases k with
  | b16 => rfl
  | b32 h => cases h <;> rfl
  | b64 h =>
    cases h
    · rfl
    · exact libDecode_alphabet _ _ _ _ code64 s

/-- **C66, round trip.** After any calls, `encode` by any overload, then any other calls, then `decode` of the
text: the bytes, the last group cut at its first zero byte (C08). -/
theorem C66_roundtrip (k : BaseKind) (l₁ l₂ : List BCall) (hl₁ : ∀ c ∈ l₁, bcallOK k c) (hl₂ : ∀ c ∈ l₂, bcallOK k c)
    (S : Slack) (g : List Byte) (arg : EncArg) (hc : bcallOK k (.enc S g arg)) (hne : EncArg.bytes arg ≠ []) :
    ∃ rs₁ t rs₂ o, bcalls k (l₁ ++ .enc S g arg :: l₂) baseObjInit = .ok (rs₁ ++ t :: rs₂, o) ∧ rs₁.length = l₁.length ∧
      ∀ darg, DecArg.ok darg → DecArg.text darg = t →
        ∃ o', bcall k o (.dec darg) = .ok (cutLast (rfcOf k).unit (EncArg.bytes arg), o') := by
  obtain ⟨o, e, i1, i2⟩ := bcalls_ok k (l₁ ++ .enc S g arg :: l₂) (by
    intro c hc'
    rcases List.mem_append.mp hc' with h | h
    · exact hl₁ c h
    · rcases List.mem_cons.mp h with rfl | h
      · exact hc
      · exact hl₂ c h) _ init_idle.1 init_idle.2
  rw [List.map_append, List.map_cons] at e
  refine ⟨_, _, _, o, e, by simp, ?_⟩
  intro darg hd ht
  obtain ⟨hS, hg, ha⟩ := hc
  let out : List Byte := List.replicate ((specOf k.encF).chars * ceilDiv (EncArg.bytes arg).length (specOf k.encF).unit + 1) 0#8
  have hfit : Fits k.encF (EncArg.bytes arg).length out := by
    unfold Fits; exact Nat.le_of_eq (List.length_replicate).symm
  have hsc : Scratch k.encF g := by unfold Scratch; rw [specOf_enc]; exact hg
  have he := enc_all k.encF S hS g (EncArg.bytes arg) [] out hsc hfit
  have ht' : DecArg.text darg = (specOf k.encF).libEncode (EncArg.bytes arg) := by rw [ht, specOf_enc]; rfl
  rw [← ht'] at he
  have hne' : DecArg.text darg ≠ [] := by
    rw [ht']
    intro h0
    have hl := libEncode_length (good k.encF) (EncArg.bytes arg)
    rw [h0, List.length_nil] at hl
    have hl : 0 = (specOf k.encF).chars * ngroups (specOf k.encF) (EncArg.bytes arg).length := hl
    have h3 : 0 < (EncArg.bytes arg).length := List.length_pos_iff.mpr hne
    have h4 : 0 < ngroups (specOf k.encF) (EncArg.bytes arg).length := by
      unfold ngroups; exact Nat.div_pos (by omega) (good k.encF).unit_pos
    have := Nat.mul_pos (good k.encF).chars_pos h4
    omega
  have hz : 0#8 ∉ DecArg.text darg := by cases darg <;> exact nozero_takeWhile _
  let dout : List Byte := List.replicate ((specOf k.encF).unit * ceilDiv (DecArg.text darg).length (specOf k.encF).chars + 1) 0#8
  have hdf : DecFits k.encF (DecArg.text darg).length dout := by
    unfold DecFits; exact Nat.le_of_eq (List.length_replicate).symm
  have h8 := C08_exact k.encF S hS g (EncArg.bytes arg) [] out _ _ dout _ hsc hfit hne he rfl hdf
  have h9 := decoded_ok k.encF (DecArg.text darg) (out.drop ((DecArg.text darg).length + 1)) dout hz hne' (by
    have := raw_le k.encF (DecArg.text darg)
    unfold DecFits at hdf; omega)
  obtain ⟨o', e', _⟩ := bcall_ok k (.dec darg) ⟨hd, hne'⟩ o i1 i2
  refine ⟨o', ?_⟩
  rw [e', bresult, dec_same, decoded_unique h9 h8, specOf_enc]

/-- For example, a new `Base64(true)` encodes the `SequentialData` fb ff fe, which contains no valid text, to
"-__-"; and the hypotheses of the round trip are met. -/
theorem C66_example : ∃ o', bcall (.b64 true) baseObjInit
    (.enc ⟨[0#8], [0#8, 0#8]⟩ (List.replicate 4 0xcc#8) (.sd [0xfb#8, 0xff#8, 0xfe#8])) = .ok (str "-__-", o') := by
  obtain ⟨o', e⟩ := C66_rfc_partial (.b64 true) [] (by simp) [] baseObjInit rfl ⟨[0#8], [0#8, 0#8]⟩
    (List.replicate 4 0xcc#8) (.sd [0xfb#8, 0xff#8, 0xfe#8])
    ⟨by unfold Roomy; decide, by decide, trivial⟩ (by left; decide)
  exact ⟨o', by rw [e]; congr 2⟩

/-- **C66, sizes.** The accessors agree with RFC 4648: a unit of bytes is a chunk of characters, and the alphabet
has 2^bits characters. -/
theorem C66_sizes (k : BaseKind) : k.unitSize = (rfcOf k).unit ∧ k.chunkSize = (rfcOf k).chars ∧
    k.bitSize = (rfcOf k).bits ∧ k.alphabetSize = (rfcOf k).alphabet.length ∧ 8 * k.unitSize = k.bitSize * k.chunkSize ∧
    k.alphabetSize = 2 ^ k.bitSize := by
  cases k with
  | b16 => decide
  | b32 h => cases h <;> decide
  | b64 h => cases h <;> decide

end Pgfe.Props
