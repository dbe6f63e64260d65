import Verif.Model.BaseObject
import Verif.Props.Base
import Verif.Proofs.Hex
/-!
# C13, C14: the C++ classes `Base16`, `Base32`, `Base64`
-/
namespace Pgfe.Props
open Pgfe.Model Pgfe.Spec Pgfe.Proofs

/-! ## Specification -/

/-- The size estimates are at least 1.1 times the needed number minus one.  The code computes 1.2
times the needed number, rounded up; see `estimate_of_exact`. -/
structure GoodEstimates (K : BaseClass) : Prop where
  enc : ∀ n, 88 * n ≤ 10 * (specOf K.alg).bits * (K.encEst n + 1)
  dec : ∀ n, 11 * (specOf K.alg).bits * n ≤ 80 * (K.decEst n + 1)

/-- Estimates that differ by at most one from the exact value of
`⌈length·(8/bits)·1.2⌉`, `⌈length·(bits/8)·1.2⌉`, or exceed it, are good. -/
theorem estimate_of_exact (K : BaseClass)
    (he : ∀ n, ceilDiv (96 * n) (10 * (specOf K.alg).bits) ≤ K.encEst n + 1)
    (hd : ∀ n, ceilDiv (12 * (specOf K.alg).bits * n) 80 ≤ K.decEst n + 1) : GoodEstimates K := by
  constructor
  · intro n
    have h := he n
    have hb := (good K.alg).bits_pos
    unfold ceilDiv at h
    have h2 := Nat.lt_succ_iff.mpr h
    rw [Nat.div_lt_iff_lt_mul (by omega), Nat.succ_mul (K.encEst n + 1),
      Nat.mul_comm (K.encEst n + 1)] at h2
    omega
  · intro n
    have h := hd n
    unfold ceilDiv at h
    have e : 12 * (specOf K.alg).bits * n = 12 * ((specOf K.alg).bits * n) := Nat.mul_assoc _ _ _
    have e' : 11 * (specOf K.alg).bits * n = 11 * ((specOf K.alg).bits * n) := Nat.mul_assoc _ _ _
    rw [e] at h; rw [e']
    omega

/-- Calls covered: for decoding, a non-empty C string. -/
def ValidCall (K : BaseClass) : BaseCall → Prop
  | .enc S g _ => Roomy S ∧ Scratch K.alg g
  | .dec s => 0#8 ∉ s ∧ s ≠ []

/-- `r` is what the C function computes for this call into any sufficient buffer. -/
def IsResult (K : BaseClass) (c : BaseCall) (r : List Byte) : Prop :=
  match c with
  | .enc S g x => ∀ out, Fits K.alg x.length out →
      ∃ rest, pgfeEncode K.alg S g x x.length out = .ok (r.length, r ++ 0#8 :: rest)
  | .dec s => ∀ out, DecFits K.alg s.length out → Decoded (pgfeDecode K.alg (s ++ [0#8]) out) r

/-! ## Size arithmetic -/

theorem enc_size (K : BaseClass) (hK : GoodEstimates K) (n m : Nat) (h1 : 127 ≤ m)
    (h2 : K.encEst n ≤ m) : (specOf K.alg).chars * ceilDiv n (specOf K.alg).unit ≤ m := by
  have h := hK.enc n
  revert h
  cases K.alg
  · show 88 * n ≤ 10 * 4 * _ → 2 * ((n + 1 - 1) / 1) ≤ m; omega
  · show 88 * n ≤ 10 * 5 * _ → 8 * ((n + 5 - 1) / 5) ≤ m; omega
  · show 88 * n ≤ 10 * 5 * _ → 8 * ((n + 5 - 1) / 5) ≤ m; omega
  · show 88 * n ≤ 10 * 6 * _ → 4 * ((n + 3 - 1) / 3) ≤ m; omega
  · show 88 * n ≤ 10 * 6 * _ → 4 * ((n + 3 - 1) / 3) ≤ m; omega

theorem dec_size (K : BaseClass) (hK : GoodEstimates K) (n m : Nat) (h1 : 64 ≤ m)
    (h2 : K.decEst n ≤ m) : (specOf K.alg).unit * ceilDiv n (specOf K.alg).chars + 1 ≤ m := by
  have h := hK.dec n
  revert h
  cases K.alg
  · show 11 * 4 * n ≤ 80 * _ → 1 * ((n + 2 - 1) / 2) + 1 ≤ m; omega
  · show 11 * 5 * n ≤ 80 * _ → 5 * ((n + 8 - 1) / 8) + 1 ≤ m; omega
  · show 11 * 5 * n ≤ 80 * _ → 5 * ((n + 8 - 1) / 8) + 1 ≤ m; omega
  · show 11 * 6 * n ≤ 80 * _ → 3 * ((n + 4 - 1) / 4) + 1 ≤ m; omega
  · show 11 * 6 * n ≤ 80 * _ → 3 * ((n + 4 - 1) / 4) + 1 ≤ m; omega

/-! ## State predicates -/

/-- The encoder side between calls. -/
def EncIdle (o : BaseObj) : Prop := o.enCache.length = o.encsz + 1 ∧ 127 ≤ o.encsz
/-- The decoder side between calls. -/
def DecIdle (o : BaseObj) : Prop := o.deCache.length = o.decsz ∧ 64 ≤ o.decsz

/-- The encoder side while a thread is inside `encode(x)`. -/
def EncAt (K : BaseClass) (o : BaseObj) (x : List Byte) : Phase → Prop
  | .start => EncIdle o
  | .locked => EncIdle o
  | .alloc sz => o.enCache.length = sz + 1 ∧ 127 ≤ sz ∧ K.encEst x.length ≤ sz
  | .ready => EncIdle o ∧ K.encEst x.length ≤ o.encsz
  | .ran n | .closed n => EncIdle o ∧ n = ((specOf K.alg).libEncode x).length ∧
      ∃ rest, o.enCache = (specOf K.alg).libEncode x ++ 0#8 :: rest
  | .built r => EncIdle o ∧ r = (specOf K.alg).libEncode x

/-- The decoder side while a thread is inside `decode(s)`. -/
def DecAt (K : BaseClass) (o : BaseObj) (s : List Byte) : Phase → Prop
  | .start => DecIdle o
  | .locked => DecIdle o
  | .alloc sz => o.deCache.length = sz ∧ 64 ≤ sz ∧ K.decEst s.length ≤ sz
  | .ready => DecIdle o ∧ K.decEst s.length ≤ o.decsz
  | .ran n | .closed n => DecIdle o ∧ n = ((specOf K.alg).libDecode (codeOf K.alg) s).length ∧
      ∃ rest, o.deCache = (specOf K.alg).libDecode (codeOf K.alg) s ++ 0#8 :: rest
  | .built r => DecIdle o ∧ r = (specOf K.alg).libDecode (codeOf K.alg) s

theorem isResult_enc (K : BaseClass) (S : Slack) (g x : List Byte) (h : ValidCall K (.enc S g x)) :
    IsResult K (.enc S g x) ((specOf K.alg).libEncode x) := by
  intro out ho
  have := enc_all K.alg S h.1 g x [] out h.2 ho
  rw [List.append_nil] at this
  exact ⟨_, this⟩

theorem isResult_dec (K : BaseClass) (s : List Byte) (h : ValidCall K (.dec s)) :
    IsResult K (.dec s) ((specOf K.alg).libDecode (codeOf K.alg) s) := by
  intro out ho
  have := raw_le K.alg s
  unfold DecFits at ho
  exact decoded_ok K.alg s [] out h.1 h.2 (by omega)

theorem libEncode_nozero (al : BaseAlg) (x : List Byte) : 0#8 ∉ (specOf al).libEncode x :=
  carries_nozero (carries_libEncode al x)

/-! Steps of `encode`. -/

theorem enc_run (K : BaseClass) (hK : GoodEstimates K) (S : Slack) (g x : List Byte) (o : BaseObj)
    (hv : ValidCall K (.enc S g x)) (h : EncAt K o x .ready) :
    ∃ n b, encRun K S g x o = .ok (n, { o with enCache := b }) ∧
      EncAt K { o with enCache := b } x (.ran n) := by
  obtain ⟨⟨h1, h2⟩, h3⟩ := h
  have hf : Fits K.alg x.length o.enCache := by
    unfold Fits
    have := enc_size K hK x.length o.encsz h2 h3
    omega
  have he := enc_all K.alg S hv.1 g x [] o.enCache hv.2 hf
  rw [List.append_nil] at he
  refine ⟨_, (specOf K.alg).libEncode x ++ 0#8 :: o.enCache.drop
    (((specOf K.alg).libEncode x).length + 1), by unfold encRun; rw [he]; rfl,
    ⟨⟨?_, h2⟩, rfl, _, rfl⟩⟩
  have hl := libEncode_length (good K.alg) x
  unfold Fits ceilDiv at hf
  simp only [List.length_append, List.length_cons, List.length_drop]
  omega

theorem enc_nul (K : BaseClass) (x : List Byte) (o : BaseObj) (n : Nat) (h : EncAt K o x (.ran n)) :
    ∃ b, encNul n o = .ok { o with enCache := b } ∧ EncAt K { o with enCache := b } x (.closed n) := by
  obtain ⟨h1, h2, rest, h3⟩ := h
  subst h2
  refine ⟨o.enCache, ?_, h1, rfl, rest, h3⟩
  unfold encNul
  rw [h3, wr_append, bind_ok]

theorem enc_str (K : BaseClass) (x : List Byte) (o : BaseObj) (n : Nat) (h : EncAt K o x (.closed n)) :
    cstr o.enCache = .ok ((specOf K.alg).libEncode x) := by
  obtain ⟨h1, h2, rest, h3⟩ := h
  unfold cstr
  rw [h3, strlen_cstr _ _ (libEncode_nozero K.alg x), bind_ok, rds_ok (by simp)]
  simp

theorem dec_run (K : BaseClass) (hK : GoodEstimates K) (s : List Byte) (o : BaseObj)
    (hv : ValidCall K (.dec s)) (h : DecAt K o s .ready) :
    ∃ n b, decRun K s o = .ok (n, { o with deCache := b }) ∧
      DecAt K { o with deCache := b } s (.ran n) := by
  obtain ⟨⟨h1, h2⟩, h3⟩ := h
  have hsz := dec_size K hK s.length o.decsz h2 h3
  have hr := raw_le K.alg s
  obtain ⟨tail, e1, e2, _⟩ := decode_ok K.alg s [] o.deCache hv.1 hv.2 (by omega)
  refine ⟨_, (specOf K.alg).libDecode (codeOf K.alg) s ++ 0#8 :: tail,
    by unfold decRun; rw [e1]; rfl, ⟨⟨?_, h2⟩, rfl, _, rfl⟩⟩
  rw [← h1]; exact e2

theorem dec_nul (K : BaseClass) (s : List Byte) (o : BaseObj) (n : Nat) (h : DecAt K o s (.ran n)) :
    ∃ b, decNul n o = .ok { o with deCache := b } ∧ DecAt K { o with deCache := b } s (.closed n) := by
  obtain ⟨h1, h2, rest, h3⟩ := h
  subst h2
  refine ⟨o.deCache, ?_, h1, rfl, rest, h3⟩
  unfold decNul
  rw [h3, wr_append, bind_ok]

theorem dec_data (K : BaseClass) (s : List Byte) (o : BaseObj) (n : Nat) (h : DecAt K o s (.closed n)) :
    rds o.deCache 0 n = .ok ((specOf K.alg).libDecode (codeOf K.alg) s) := by
  obtain ⟨h1, h2, rest, h3⟩ := h
  rw [h3, h2, rds_ok (by simp)]
  simp

/-! ## C13 -/

theorem objCall_ok (K : BaseClass) (hK : GoodEstimates K) (c : BaseCall) (hc : ValidCall K c)
    (o : BaseObj) (h1 : EncIdle o) (h2 : DecIdle o) :
    ∃ r o', objCall K c o = .ok (r, o') ∧ IsResult K c r ∧ EncIdle o' ∧ DecIdle o' := by
  cases c with
  | enc S g x =>
    have hready : ∃ o1, (if o.encsz ≤ K.encEst x.length
        then encSetSize (K.encEst x.length) (encAlloc (K.encEst x.length) o) else o) = o1 ∧
        EncAt K o1 x .ready ∧ DecIdle o1 := by
      refine ⟨_, rfl, ?_⟩
      have := h1.2
      split
      · exact ⟨⟨⟨by simp [encSetSize, encAlloc], by simp [encSetSize]; omega⟩,
          by simp [encSetSize]⟩, h2⟩
      · exact ⟨⟨h1, by omega⟩, h2⟩
    obtain ⟨o1, e1, a1, d1⟩ := hready
    obtain ⟨n, b, e2, a2⟩ := enc_run K hK S g x o1 hc a1
    obtain ⟨b', e3, a3⟩ := enc_nul K x _ n a2
    have e4 := enc_str K x _ n a3
    refine ⟨_, { o1 with enCache := b' }, ?_, isResult_enc K S g x hc, a3.1, d1⟩
    unfold objCall objEncode
    dsimp only
    rw [e1, e2, bind_ok]
    dsimp only
    rw [e3, bind_ok, e4, bind_ok]
  | dec s =>
    have hready : ∃ o1, (if o.decsz ≤ K.decEst s.length
        then decSetSize (K.decEst s.length) (decAlloc (K.decEst s.length) o) else o) = o1 ∧
        DecAt K o1 s .ready ∧ EncIdle o1 := by
      refine ⟨_, rfl, ?_⟩
      have := h2.2
      split
      · exact ⟨⟨⟨by simp [decSetSize, decAlloc], by simp [decSetSize]; omega⟩,
          by simp [decSetSize]⟩, h1⟩
      · exact ⟨⟨h2, by omega⟩, h1⟩
    obtain ⟨o1, e1, a1, d1⟩ := hready
    obtain ⟨n, b, e2, a2⟩ := dec_run K hK s o1 hc a1
    obtain ⟨b', e3, a3⟩ := dec_nul K s _ n a2
    have e4 := dec_data K s _ n a3
    refine ⟨_, { o1 with deCache := b' }, ?_, isResult_dec K s hc, d1, a3.1⟩
    unfold objCall objDecode
    dsimp only
    rw [e1, e2, bind_ok]
    dsimp only
    rw [e3, bind_ok, e4, bind_ok]

theorem objCalls_ok (K : BaseClass) (hK : GoodEstimates K) (cs : List BaseCall)
    (hc : ∀ c ∈ cs, ValidCall K c) : ∀ o, EncIdle o → DecIdle o →
    ∃ rs o', objCalls K cs o = .ok (rs, o') ∧ rs.length = cs.length ∧ ∀ cr ∈ cs.zip rs, IsResult K cr.1 cr.2 := by
  induction cs with
  | nil => intro o _ _; exact ⟨[], o, rfl, rfl, by simp⟩
  | cons c cs ih =>
    intro o h1 h2
    obtain ⟨r, o1, e1, r1, i1, d1⟩ := objCall_ok K hK c (hc c (by simp)) o h1 h2
    obtain ⟨rs, o2, e2, l2, r2⟩ := ih (fun c h => hc c (by simp [h])) o1 i1 d1
    refine ⟨r :: rs, o2, ?_, by simp [l2], ?_⟩
    rotate_left
    · intro cr hcr
      rw [List.zip_cons_cons] at hcr
      rcases List.mem_cons.mp hcr with rfl | hcr
      · exact r1
      · exact r2 cr hcr
    unfold objCalls
    rw [e1, bind_ok]
    dsimp only
    rw [e2, bind_ok]

theorem init_idle : EncIdle baseObjInit ∧ DecIdle baseObjInit := by
  refine ⟨⟨?_, ?_⟩, ?_, ?_⟩ <;> simp [baseObjInit]

/-- **C13.**  In every history of calls on a fresh object no call leaves a buffer, and every call
returns what the C function computes into a sufficient buffer. -/
theorem C13 (K : BaseClass) (hK : GoodEstimates K) (cs : List BaseCall)
    (hc : ∀ c ∈ cs, ValidCall K c) :
    ∃ rs o, objCalls K cs baseObjInit = .ok (rs, o) ∧ rs.length = cs.length ∧ ∀ cr ∈ cs.zip rs, IsResult K cr.1 cr.2 :=
  objCalls_ok K hK cs hc _ init_idle.1 init_idle.2

/-- The precondition on decoding is needed: the empty text is undefined behaviour. -/
theorem C13_empty (K : BaseClass) (o : BaseObj) : ∃ e, objCall K (.dec []) o = .error e := by
  refine ⟨.oobRead, ?_⟩
  unfold objCall objDecode decRun
  dsimp only
  rw [List.nil_append, C12_empty]
  rfl

/-- A member class with exact estimates, and a history with growing and shrinking inputs. -/
theorem C13_satisfiable : GoodEstimates ⟨.base64, fun n => ceilDiv (96 * n) 60,
    fun n => ceilDiv (72 * n) 80⟩ ∧
    ValidCall ⟨.base64, fun n => ceilDiv (96 * n) 60, fun n => ceilDiv (72 * n) 80⟩
      (.enc ⟨[0#8], [0#8, 0#8]⟩ (List.replicate 4 0#8) (List.replicate 1000 0x61#8)) := by
  constructor
  · apply estimate_of_exact
    · intro n; exact Nat.le_succ _
    · intro n; exact Nat.le_succ _
  · constructor
    · unfold Roomy; decide
    · unfold Scratch; decide

/-! ## C14 -/

/-- The argument and phase of the `encode` critical section a thread is in. -/
def encView (t : Thread) : Option (List Byte × Phase) :=
  match t.cur with
  | some (.enc _ _ x, .locked) => some (x, .locked)
  | some (.enc _ _ x, .alloc n) => some (x, .alloc n)
  | some (.enc _ _ x, .ready) => some (x, .ready)
  | some (.enc _ _ x, .ran n) => some (x, .ran n)
  | some (.enc _ _ x, .closed n) => some (x, .closed n)
  | some (.enc _ _ x, .built r) => some (x, .built r)
  | _ => none
/-- The same for `decode`. -/
def decView (t : Thread) : Option (List Byte × Phase) :=
  match t.cur with
  | some (.dec x, .locked) => some (x, .locked)
  | some (.dec x, .alloc n) => some (x, .alloc n)
  | some (.dec x, .ready) => some (x, .ready)
  | some (.dec x, .ran n) => some (x, .ran n)
  | some (.dec x, .closed n) => some (x, .closed n)
  | some (.dec x, .built r) => some (x, .built r)
  | _ => none

structure EncInv (K : BaseClass) (o : BaseObj) (th : Nat → Thread) : Prop where
  lock : ∀ i, (encView (th i)).isSome ↔ o.encLock = some i
  idle : o.encLock = none → EncIdle o
  at_ : ∀ i x ph, encView (th i) = some (x, ph) → EncAt K o x ph

structure DecInv (K : BaseClass) (o : BaseObj) (th : Nat → Thread) : Prop where
  lock : ∀ i, (decView (th i)).isSome ↔ o.decLock = some i
  idle : o.decLock = none → DecIdle o
  at_ : ∀ i x ph, decView (th i) = some (x, ph) → DecAt K o x ph

/-- Per-thread facts: all calls valid, all results right, calls made in program order. -/
structure ThreadInv (K : BaseClass) (w : List BaseCall) (t : Thread) : Prop where
  order : t.done.reverse.map Prod.fst ++ (t.cur.toList.map Prod.fst) ++ t.todo = w
  res : ∀ cr ∈ t.done, IsResult K cr.1 cr.2

theorem encAt_congr (K : BaseClass) (o o' : BaseObj) (h1 : o'.enCache = o.enCache)
    (h2 : o'.encsz = o.encsz) (x : List Byte) (ph : Phase) : EncAt K o x ph → EncAt K o' x ph := by
  cases ph <;> simp only [EncAt, EncIdle, h1, h2] <;> exact id

theorem decAt_congr (K : BaseClass) (o o' : BaseObj) (h1 : o'.deCache = o.deCache)
    (h2 : o'.decsz = o.decsz) (x : List Byte) (ph : Phase) : DecAt K o x ph → DecAt K o' x ph := by
  cases ph <;> simp only [DecAt, DecIdle, h1, h2] <;> exact id

/-- A step that does not touch the encoder side. -/
theorem EncInv.frame {K : BaseClass} {o o' : BaseObj} {th : Nat → Thread} (h : EncInv K o th)
    (me : Nat) (t' : Thread) (h1 : o'.enCache = o.enCache) (h2 : o'.encsz = o.encsz)
    (h3 : o'.encLock = o.encLock) (h4 : encView t' = encView (th me)) :
    EncInv K o' (fun j => if j = me then t' else th j) := by
  have hv : ∀ i, encView ((fun j => if j = me then t' else th j) i) = encView (th i) := by
    intro i
    dsimp only
    split
    · rename_i e; rw [h4, e]
    · rfl
  constructor
  · intro i; rw [hv, h3]; exact h.lock i
  · rw [h3]; intro hn; obtain ⟨a, b⟩ := h.idle hn; exact ⟨by rw [h1, h2]; exact a, by rw [h2]; exact b⟩
  · intro i x ph hi; rw [hv] at hi; exact encAt_congr K o o' h1 h2 x ph (h.at_ i x ph hi)

theorem DecInv.frame {K : BaseClass} {o o' : BaseObj} {th : Nat → Thread} (h : DecInv K o th)
    (me : Nat) (t' : Thread) (h1 : o'.deCache = o.deCache) (h2 : o'.decsz = o.decsz)
    (h3 : o'.decLock = o.decLock) (h4 : decView t' = decView (th me)) :
    DecInv K o' (fun j => if j = me then t' else th j) := by
  have hv : ∀ i, decView ((fun j => if j = me then t' else th j) i) = decView (th i) := by
    intro i
    dsimp only
    split
    · rename_i e; rw [h4, e]
    · rfl
  constructor
  · intro i; rw [hv, h3]; exact h.lock i
  · rw [h3]; intro hn; obtain ⟨a, b⟩ := h.idle hn; exact ⟨by rw [h1, h2]; exact a, by rw [h2]; exact b⟩
  · intro i x ph hi; rw [hv] at hi; exact decAt_congr K o o' h1 h2 x ph (h.at_ i x ph hi)

/-- A step inside the encoder's critical section (or entering or leaving it). -/
theorem EncInv.step {K : BaseClass} {o o' : BaseObj} {th : Nat → Thread} (h : EncInv K o th)
    (me : Nat) (t' : Thread) (h0 : o.encLock = none ∨ o.encLock = some me)
    (h1 : (encView t').isSome ↔ o'.encLock = some me) (h2 : o'.encLock = none ∨ o'.encLock = some me)
    (h3 : o'.encLock = none → EncIdle o')
    (h4 : ∀ x ph, encView t' = some (x, ph) → EncAt K o' x ph) :
    EncInv K o' (fun j => if j = me then t' else th j) := by
  have hother : ∀ i, i ≠ me → encView (th i) = none := by
    intro i hi
    have := h.lock i
    cases hv : encView (th i) with
    | none => rfl
    | some a =>
      rw [hv] at this
      have := this.mp rfl
      rcases h0 with e | e
      · rw [e] at this; cases this
      · rw [e] at this; exact absurd (Option.some.inj this).symm hi
  constructor
  · intro i
    split
    · rename_i e; rw [e]; exact h1
    · rename_i e
      rw [hother i e]
      simp only [Option.isSome_none]
      constructor
      · intro hf; cases hf
      · intro hf
        rcases h2 with e' | e'
        · rw [e'] at hf; cases hf
        · rw [e'] at hf; exact absurd (Option.some.inj hf).symm e
  · exact h3
  · intro i x ph hi
    split at hi
    · exact h4 x ph hi
    · rename_i e; rw [hother i e] at hi; cases hi

theorem DecInv.step {K : BaseClass} {o o' : BaseObj} {th : Nat → Thread} (h : DecInv K o th)
    (me : Nat) (t' : Thread) (h0 : o.decLock = none ∨ o.decLock = some me)
    (h1 : (decView t').isSome ↔ o'.decLock = some me) (h2 : o'.decLock = none ∨ o'.decLock = some me)
    (h3 : o'.decLock = none → DecIdle o')
    (h4 : ∀ x ph, decView t' = some (x, ph) → DecAt K o' x ph) :
    DecInv K o' (fun j => if j = me then t' else th j) := by
  have hother : ∀ i, i ≠ me → decView (th i) = none := by
    intro i hi
    have := h.lock i
    cases hv : decView (th i) with
    | none => rfl
    | some a =>
      rw [hv] at this
      have := this.mp rfl
      rcases h0 with e | e
      · rw [e] at this; cases this
      · rw [e] at this; exact absurd (Option.some.inj this).symm hi
  constructor
  · intro i
    split
    · rename_i e; rw [e]; exact h1
    · rename_i e
      rw [hother i e]
      simp only [Option.isSome_none]
      constructor
      · intro hf; cases hf
      · intro hf
        rcases h2 with e' | e'
        · rw [e'] at hf; cases hf
        · rw [e'] at hf; exact absurd (Option.some.inj hf).symm e
  · exact h3
  · intro i x ph hi
    split at hi
    · exact h4 x ph hi
    · rename_i e; rw [hother i e] at hi; cases hi

/-- Invariant of the whole system. -/
structure SysInv (K : BaseClass) (work : Nat → List BaseCall) (s : System) : Prop where
  enc : EncInv K s.obj s.threads
  dec : DecInv K s.obj s.threads
  thr : ∀ i, ThreadInv K (work i) (s.threads i)

theorem threadInv_update {K : BaseClass} {work : Nat → List BaseCall} {th : Nat → Thread}
    (h : ∀ i, ThreadInv K (work i) (th i)) (me : Nat) (t' : Thread)
    (h' : ThreadInv K (work me) t') :
    ∀ i, ThreadInv K (work i) ((fun j => if j = me then t' else th j) i) := by
  intro i
  dsimp only
  split
  · rename_i e; rw [e]; exact h'
  · exact h i

/-- Moving on inside the same call keeps the per-thread facts. -/
theorem ThreadInv.move {K : BaseClass} {w : List BaseCall} {t : Thread} (h : ThreadInv K w t)
    {c : BaseCall} {ph ph' : Phase} (hc : t.cur = some (c, ph)) :
    ThreadInv K w { t with cur := some (c, ph') } := by
  obtain ⟨h1, h2⟩ := h
  rw [hc] at h1
  exact ⟨h1, h2⟩

theorem ThreadInv.finish {K : BaseClass} {w : List BaseCall} {t : Thread} (h : ThreadInv K w t)
    {c : BaseCall} {ph : Phase} {r : List Byte} (hc : t.cur = some (c, ph)) (hr : IsResult K c r) :
    ThreadInv K w { t with cur := none, done := (c, r) :: t.done } := by
  obtain ⟨h1, h2⟩ := h
  rw [hc] at h1
  refine ⟨?_, ?_⟩
  · rw [← h1]; simp
  · intro cr hcr
    rcases List.mem_cons.mp hcr with rfl | hcr
    · exact hr
    · exact h2 cr hcr

theorem sysStep_ok (K : BaseClass) (hK : GoodEstimates K) (work : Nat → List BaseCall)
    (hw : ∀ i, ∀ c ∈ work i, ValidCall K c) (i : Nat) (s : System) (h : SysInv K work s) :
    ∃ s', sysStep K i s = .ok s' ∧ SysInv K work s' := by
  obtain ⟨hE, hD, hT⟩ := h
  have hti := hT i
  have hvalid : ∀ c ph, (s.threads i).cur = some (c, ph) → ValidCall K c := by
    intro c ph hc
    apply hw i
    rw [← hti.order, hc]; simp
  unfold sysStep threadStep
  cases hcur : (s.threads i).cur with
  | none =>
    cases htodo : (s.threads i).todo with
    | nil => exact ⟨s, rfl, hE, hD, hT⟩
    | cons c cs =>
      refine ⟨_, rfl, ?_, ?_, ?_⟩
      · refine hE.frame i _ rfl rfl rfl ?_
        unfold encView
        rw [hcur]
        cases c <;> rfl
      · refine hD.frame i _ rfl rfl rfl ?_
        unfold decView
        rw [hcur]
        cases c <;> rfl
      · refine threadInv_update hT i _ ⟨?_, hti.res⟩
        have := hti.order
        rw [hcur, htodo] at this
        rw [← this]; simp
  | some cp =>
    obtain ⟨c, ph⟩ := cp
    have hv := hvalid c ph hcur
    cases c with
    | enc S g x =>
      have hdv : ∀ ph', decView { s.threads i with cur := some (.enc S g x, ph') }
          = decView (s.threads i) := by
        intro ph'; unfold decView; rw [hcur]
      have hdv' : ∀ d, decView { s.threads i with cur := none, done := d }
          = decView (s.threads i) := by
        intro ph'; unfold decView; rw [hcur]
      cases ph with
      | start =>
        dsimp only
        cases hl : s.obj.encLock with
        | some j => exact ⟨s, rfl, hE, hD, hT⟩
        | none =>
          refine ⟨_, rfl, ?_, hD.frame i _ rfl rfl rfl (hdv _),
            threadInv_update hT i _ (hti.move hcur)⟩
          refine hE.step i _ (.inl hl) (by simp [encView]) (.inr rfl) (by intro h; cases h) ?_
          intro x' ph' he
          simp only [encView, Option.some.injEq, Prod.mk.injEq] at he
          obtain ⟨rfl, rfl⟩ := he
          exact hE.idle hl
      | locked =>
        have hl : s.obj.encLock = some i := (hE.lock i).mp (by simp [encView, hcur])
        have ha : EncAt K s.obj x .locked := hE.at_ i x _ (by simp [encView, hcur])
        obtain ⟨ha1, ha2⟩ := ha
        dsimp only
        by_cases hle : s.obj.encsz ≤ K.encEst x.length
        · rw [if_pos hle]
          refine ⟨_, rfl, ?_, hD.frame i _ rfl rfl rfl (hdv _),
            threadInv_update hT i _ (hti.move hcur)⟩
          refine hE.step i _ (.inr hl) ?_ (.inr hl) (by intro h; rw [show (encAlloc (K.encEst x.length) s.obj).encLock = s.obj.encLock from rfl, hl] at h; cases h) ?_
          · simp [encView, encAlloc, hl]
          · intro x' ph' he
            simp only [encView, Option.some.injEq, Prod.mk.injEq] at he
            obtain ⟨rfl, rfl⟩ := he
            exact ⟨by simp [encAlloc], by omega, Nat.le_refl _⟩
        · rw [if_neg hle]
          refine ⟨_, rfl, ?_, hD.frame i _ rfl rfl rfl (hdv _),
            threadInv_update hT i _ (hti.move hcur)⟩
          refine hE.step i _ (.inr hl) ?_ (.inr hl) (by intro h; rw [hl] at h; cases h) ?_
          · simp [encView, hl]
          · intro x' ph' he
            simp only [encView, Option.some.injEq, Prod.mk.injEq] at he
            obtain ⟨rfl, rfl⟩ := he
            exact ⟨⟨ha1, ha2⟩, Nat.le_of_lt (Nat.lt_of_not_le hle)⟩
      | alloc sz =>
        have hl : s.obj.encLock = some i := (hE.lock i).mp (by simp [encView, hcur])
        have ha : EncAt K s.obj x (.alloc sz) := hE.at_ i x _ (by simp [encView, hcur])
        obtain ⟨ha1, ha2, ha3⟩ := ha
        refine ⟨_, rfl, ?_, hD.frame i _ rfl rfl rfl (hdv _),
          threadInv_update hT i _ (hti.move hcur)⟩
        refine hE.step i _ (.inr hl) ?_ (.inr hl) (by intro h; rw [show (encSetSize sz s.obj).encLock = s.obj.encLock from rfl, hl] at h; cases h) ?_
        · simp [encView, encSetSize, hl]
        · intro x' ph' he
          simp only [encView, Option.some.injEq, Prod.mk.injEq] at he
          obtain ⟨rfl, rfl⟩ := he
          exact ⟨⟨ha1, ha2⟩, ha3⟩
      | ready =>
        have hl : s.obj.encLock = some i := (hE.lock i).mp (by simp [encView, hcur])
        have ha : EncAt K s.obj x .ready := hE.at_ i x _ (by simp [encView, hcur])
        obtain ⟨n, b, e1, a1⟩ := enc_run K hK S g x s.obj hv ha
        dsimp only
        rw [e1]
        refine ⟨_, rfl, ?_, hD.frame i _ rfl rfl rfl (hdv _),
          threadInv_update hT i _ (hti.move hcur)⟩
        refine hE.step i _ (.inr hl) ?_ (.inr hl) (by intro h; dsimp only at h; rw [hl] at h; cases h) ?_
        · simp [encView, hl]
        · intro x' ph' he
          simp only [encView, Option.some.injEq, Prod.mk.injEq] at he
          obtain ⟨rfl, rfl⟩ := he
          exact a1
      | ran n =>
        have hl : s.obj.encLock = some i := (hE.lock i).mp (by simp [encView, hcur])
        have ha : EncAt K s.obj x (.ran n) := hE.at_ i x _ (by simp [encView, hcur])
        obtain ⟨b, e1, a1⟩ := enc_nul K x s.obj n ha
        dsimp only
        rw [e1]
        refine ⟨_, rfl, ?_, hD.frame i _ rfl rfl rfl (hdv _),
          threadInv_update hT i _ (hti.move hcur)⟩
        refine hE.step i _ (.inr hl) ?_ (.inr hl) (by intro h; dsimp only at h; rw [hl] at h; cases h) ?_
        · simp [encView, hl]
        · intro x' ph' he
          simp only [encView, Option.some.injEq, Prod.mk.injEq] at he
          obtain ⟨rfl, rfl⟩ := he
          exact a1
      | closed n =>
        have hl : s.obj.encLock = some i := (hE.lock i).mp (by simp [encView, hcur])
        have ha : EncAt K s.obj x (.closed n) := hE.at_ i x _ (by simp [encView, hcur])
        have e1 := enc_str K x s.obj n ha
        dsimp only
        rw [e1]
        refine ⟨_, rfl, ?_, hD.frame i _ rfl rfl rfl (hdv _),
          threadInv_update hT i _ (hti.move hcur)⟩
        refine hE.step i _ (.inr hl) ?_ (.inr hl) (by intro h; rw [hl] at h; cases h) ?_
        · simp [encView, hl]
        · intro x' ph' he
          simp only [encView, Option.some.injEq, Prod.mk.injEq] at he
          obtain ⟨rfl, rfl⟩ := he
          exact ⟨ha.1, rfl⟩
      | built r =>
        have hl : s.obj.encLock = some i := (hE.lock i).mp (by simp [encView, hcur])
        have ha : EncAt K s.obj x (.built r) := hE.at_ i x _ (by simp [encView, hcur])
        have hr : IsResult K (.enc S g x) r := by rw [ha.2]; exact isResult_enc K S g x hv
        refine ⟨_, rfl, ?_, hD.frame i _ rfl rfl rfl (hdv' _),
          threadInv_update hT i _ (hti.finish hcur hr)⟩
        refine hE.step i _ (.inr hl) (by simp [encView]) (.inl rfl) (fun _ => ha.1) ?_
        intro x' ph' he
        simp [encView] at he
    | dec x =>
      have hdv : ∀ ph', encView { s.threads i with cur := some (.dec x, ph') }
          = encView (s.threads i) := by
        intro ph'; unfold encView; rw [hcur]
      have hdv' : ∀ d, encView { s.threads i with cur := none, done := d }
          = encView (s.threads i) := by
        intro ph'; unfold encView; rw [hcur]
      cases ph with
      | start =>
        dsimp only
        cases hl : s.obj.decLock with
        | some j => exact ⟨s, rfl, hE, hD, hT⟩
        | none =>
          refine ⟨_, rfl, hE.frame i _ rfl rfl rfl (hdv _), ?_,
            threadInv_update hT i _ (hti.move hcur)⟩
          refine hD.step i _ (.inl hl) (by simp [decView]) (.inr rfl) (by intro h; cases h) ?_
          intro x' ph' he
          simp only [decView, Option.some.injEq, Prod.mk.injEq] at he
          obtain ⟨rfl, rfl⟩ := he
          exact hD.idle hl
      | locked =>
        have hl : s.obj.decLock = some i := (hD.lock i).mp (by simp [decView, hcur])
        have ha : DecAt K s.obj x .locked := hD.at_ i x _ (by simp [decView, hcur])
        obtain ⟨ha1, ha2⟩ := ha
        dsimp only
        by_cases hle : s.obj.decsz ≤ K.decEst x.length
        · rw [if_pos hle]
          refine ⟨_, rfl, hE.frame i _ rfl rfl rfl (hdv _), ?_,
            threadInv_update hT i _ (hti.move hcur)⟩
          refine hD.step i _ (.inr hl) ?_ (.inr hl) (by intro h; rw [show (decAlloc (K.decEst x.length) s.obj).decLock = s.obj.decLock from rfl, hl] at h; cases h) ?_
          · simp [decView, decAlloc, hl]
          · intro x' ph' he
            simp only [decView, Option.some.injEq, Prod.mk.injEq] at he
            obtain ⟨rfl, rfl⟩ := he
            exact ⟨by simp [decAlloc], by omega, Nat.le_refl _⟩
        · rw [if_neg hle]
          refine ⟨_, rfl, hE.frame i _ rfl rfl rfl (hdv _), ?_,
            threadInv_update hT i _ (hti.move hcur)⟩
          refine hD.step i _ (.inr hl) ?_ (.inr hl) (by intro h; rw [hl] at h; cases h) ?_
          · simp [decView, hl]
          · intro x' ph' he
            simp only [decView, Option.some.injEq, Prod.mk.injEq] at he
            obtain ⟨rfl, rfl⟩ := he
            exact ⟨⟨ha1, ha2⟩, Nat.le_of_lt (Nat.lt_of_not_le hle)⟩
      | alloc sz =>
        have hl : s.obj.decLock = some i := (hD.lock i).mp (by simp [decView, hcur])
        have ha : DecAt K s.obj x (.alloc sz) := hD.at_ i x _ (by simp [decView, hcur])
        obtain ⟨ha1, ha2, ha3⟩ := ha
        refine ⟨_, rfl, hE.frame i _ rfl rfl rfl (hdv _), ?_,
          threadInv_update hT i _ (hti.move hcur)⟩
        refine hD.step i _ (.inr hl) ?_ (.inr hl) (by intro h; rw [show (decSetSize sz s.obj).decLock = s.obj.decLock from rfl, hl] at h; cases h) ?_
        · simp [decView, decSetSize, hl]
        · intro x' ph' he
          simp only [decView, Option.some.injEq, Prod.mk.injEq] at he
          obtain ⟨rfl, rfl⟩ := he
          exact ⟨⟨ha1, ha2⟩, ha3⟩
      | ready =>
        have hl : s.obj.decLock = some i := (hD.lock i).mp (by simp [decView, hcur])
        have ha : DecAt K s.obj x .ready := hD.at_ i x _ (by simp [decView, hcur])
        obtain ⟨n, b, e1, a1⟩ := dec_run K hK x s.obj hv ha
        dsimp only
        rw [e1]
        refine ⟨_, rfl, hE.frame i _ rfl rfl rfl (hdv _), ?_,
          threadInv_update hT i _ (hti.move hcur)⟩
        refine hD.step i _ (.inr hl) ?_ (.inr hl) (by intro h; dsimp only at h; rw [hl] at h; cases h) ?_
        · simp [decView, hl]
        · intro x' ph' he
          simp only [decView, Option.some.injEq, Prod.mk.injEq] at he
          obtain ⟨rfl, rfl⟩ := he
          exact a1
      | ran n =>
        have hl : s.obj.decLock = some i := (hD.lock i).mp (by simp [decView, hcur])
        have ha : DecAt K s.obj x (.ran n) := hD.at_ i x _ (by simp [decView, hcur])
        obtain ⟨b, e1, a1⟩ := dec_nul K x s.obj n ha
        dsimp only
        rw [e1]
        refine ⟨_, rfl, hE.frame i _ rfl rfl rfl (hdv _), ?_,
          threadInv_update hT i _ (hti.move hcur)⟩
        refine hD.step i _ (.inr hl) ?_ (.inr hl) (by intro h; dsimp only at h; rw [hl] at h; cases h) ?_
        · simp [decView, hl]
        · intro x' ph' he
          simp only [decView, Option.some.injEq, Prod.mk.injEq] at he
          obtain ⟨rfl, rfl⟩ := he
          exact a1
      | closed n =>
        have hl : s.obj.decLock = some i := (hD.lock i).mp (by simp [decView, hcur])
        have ha : DecAt K s.obj x (.closed n) := hD.at_ i x _ (by simp [decView, hcur])
        have e1 := dec_data K x s.obj n ha
        dsimp only
        rw [e1]
        refine ⟨_, rfl, hE.frame i _ rfl rfl rfl (hdv _), ?_,
          threadInv_update hT i _ (hti.move hcur)⟩
        refine hD.step i _ (.inr hl) ?_ (.inr hl) (by intro h; rw [hl] at h; cases h) ?_
        · simp [decView, hl]
        · intro x' ph' he
          simp only [decView, Option.some.injEq, Prod.mk.injEq] at he
          obtain ⟨rfl, rfl⟩ := he
          exact ⟨ha.1, rfl⟩
      | built r =>
        have hl : s.obj.decLock = some i := (hD.lock i).mp (by simp [decView, hcur])
        have ha : DecAt K s.obj x (.built r) := hD.at_ i x _ (by simp [decView, hcur])
        have hr : IsResult K (.dec x) r := by rw [ha.2]; exact isResult_dec K x hv
        refine ⟨_, rfl, hE.frame i _ rfl rfl rfl (hdv' _), ?_,
          threadInv_update hT i _ (hti.finish hcur hr)⟩
        refine hD.step i _ (.inr hl) (by simp [decView]) (.inl rfl) (fun _ => ha.1) ?_
        intro x' ph' he
        simp [decView] at he

theorem sysRun_ok (K : BaseClass) (hK : GoodEstimates K) (work : Nat → List BaseCall)
    (hw : ∀ i, ∀ c ∈ work i, ValidCall K c) (sched : List Nat) :
    ∀ s, SysInv K work s → ∃ s', sysRun K sched s = .ok s' ∧ SysInv K work s' := by
  induction sched with
  | nil => intro s h; exact ⟨s, rfl, h⟩
  | cons i is ih =>
    intro s h
    obtain ⟨s1, e1, h1⟩ := sysStep_ok K hK work hw i s h
    obtain ⟨s2, e2, h2⟩ := ih s1 h1
    exact ⟨s2, by unfold sysRun; rw [e1, bind_ok, e2], h2⟩

theorem sysInit_inv (K : BaseClass) (work : Nat → List BaseCall) : SysInv K work (sysInit work) := by
  refine ⟨⟨?_, fun _ => init_idle.1, ?_⟩, ⟨?_, fun _ => init_idle.2, ?_⟩, ?_⟩
  · intro i; simp [encView, sysInit, baseObjInit]
  · intro i x ph h; simp [encView, sysInit] at h
  · intro i; simp [decView, sysInit, baseObjInit]
  · intro i x ph h; simp [decView, sysInit] at h
  · intro i
    exact ⟨by simp [sysInit], by simp [sysInit]⟩

/-- **C14.**  Any number of threads, any work, any schedule: no call leaves a buffer, every finished
call has returned what the C function computes alone, each thread's calls happen in its program
order, and never two threads are inside `encode`'s (or `decode`'s) locked region. -/
theorem C14 (K : BaseClass) (hK : GoodEstimates K) (work : Nat → List BaseCall)
    (hw : ∀ i, ∀ c ∈ work i, ValidCall K c) (sched : List Nat) :
    ∃ s, sysRun K sched (sysInit work) = .ok s ∧
      (∀ i, ∀ cr ∈ (s.threads i).done, IsResult K cr.1 cr.2) ∧
      (∀ i, (s.threads i).done.reverse.map Prod.fst ++ ((s.threads i).cur.toList.map Prod.fst)
        ++ (s.threads i).todo = work i) ∧
      (∀ i j, (encView (s.threads i)).isSome → (encView (s.threads j)).isSome → i = j) ∧
      (∀ i j, (decView (s.threads i)).isSome → (decView (s.threads j)).isSome → i = j) := by
  obtain ⟨s, e, h⟩ := sysRun_ok K hK work hw sched _ (sysInit_inv K work)
  refine ⟨s, e, fun i => (h.thr i).res, fun i => (h.thr i).order, ?_, ?_⟩
  · intro i j hi hj
    have h1 := (h.enc.lock i).mp hi
    have h2 := (h.enc.lock j).mp hj
    rw [h1] at h2; exact Option.some.inj h2
  · intro i j hi hj
    have h1 := (h.dec.lock i).mp hi
    have h2 := (h.dec.lock j).mp hj
    rw [h1] at h2; exact Option.some.inj h2

/-- **C14, no deadlock.**  After any schedule, as long as some thread is not finished, some thread
can make a step. -/
theorem C14_progress (K : BaseClass) (hK : GoodEstimates K) (work : Nat → List BaseCall)
    (hw : ∀ i, ∀ c ∈ work i, ValidCall K c) (sched : List Nat) (s : System)
    (hs : sysRun K sched (sysInit work) = .ok s) (i : Nat)
    (hi : (s.threads i).cur ≠ none ∨ (s.threads i).todo ≠ []) :
    ∃ j r, threadStep K j s.obj (s.threads j) = some r := by
  obtain ⟨s', e, h⟩ := sysRun_ok K hK work hw sched _ (sysInit_inv K work)
  rw [hs] at e
  obtain rfl := Except.ok.inj e
  -- a thread inside a locked region can step
  have hinE : ∀ j, (encView (s.threads j)).isSome → ∃ r, threadStep K j s.obj (s.threads j) = some r := by
    intro j hj
    unfold threadStep
    unfold encView at hj
    split at hj <;> rename_i heq <;> simp only [heq] <;>
      first
        | exact ⟨_, rfl⟩
        | (rename_i x; by_cases hle : s.obj.encsz ≤ K.encEst x.length
           · rw [if_pos hle]; exact ⟨_, rfl⟩
           · rw [if_neg hle]; exact ⟨_, rfl⟩)
        | (exfalso; revert hj; simp)
  have hinD : ∀ j, (decView (s.threads j)).isSome → ∃ r, threadStep K j s.obj (s.threads j) = some r := by
    intro j hj
    unfold threadStep
    unfold decView at hj
    split at hj <;> rename_i heq <;> simp only [heq] <;>
      first
        | exact ⟨_, rfl⟩
        | (rename_i x; by_cases hle : s.obj.decsz ≤ K.decEst x.length
           · rw [if_pos hle]; exact ⟨_, rfl⟩
           · rw [if_neg hle]; exact ⟨_, rfl⟩)
        | (exfalso; revert hj; simp)
  by_cases hE : s.obj.encLock = none
  · by_cases hD : s.obj.decLock = none
    · refine ⟨i, ?_⟩
      cases hcur : (s.threads i).cur with
      | none =>
        cases htodo : (s.threads i).todo with
        | nil => rcases hi with hi | hi
                 · exact absurd hcur hi
                 · exact absurd htodo hi
        | cons c cs => unfold threadStep; rw [hcur]; dsimp only; rw [htodo]; exact ⟨_, rfl⟩
      | some cp =>
        obtain ⟨c, ph⟩ := cp
        unfold threadStep
        rw [hcur]
        cases c <;> cases ph <;> dsimp only <;>
          first
            | exact ⟨_, rfl⟩
            | (rw [hE]; exact ⟨_, rfl⟩)
            | (rw [hD]; exact ⟨_, rfl⟩)
            | (split <;> exact ⟨_, rfl⟩)
    · obtain ⟨j, hj⟩ := Option.ne_none_iff_exists'.mp hD
      exact ⟨j, hinD j ((h.dec.lock j).mpr hj)⟩
  · obtain ⟨j, hj⟩ := Option.ne_none_iff_exists'.mp hE
    exact ⟨j, hinE j ((h.enc.lock j).mpr hj)⟩

end Pgfe.Props
