import Verif.Model.OtpThrow
import Verif.Props.Totp
/-!
# C77: HOTP and TOTP objects when memory runs out
-/
namespace Pgfe.Spec
open Pgfe.Model

/-- A secret given as base32 text. -/
def isBase32 : Totp.SecretArg → Bool
  | .base32Cs _ _ | .base32Str _ _ => true
  | _ => false

/-- A call that decodes base32 text. -/
def usesBase32 {a : Alg} : Totp.HCall a → Bool
  | .setSecretArg arg => isBase32 arg
  | _ => false

/-- A call that asks for a code. -/
def asksCode {a : Alg} : Totp.HCall a → Bool
  | .generate _ _ | .generateStr _ _ => true
  | _ => false

/-- The failure of this allocation makes the call throw, whatever the state of the object. -/
def mustThrow {a : Alg} (x : Totp.HCall a) (f : Option Totp.Point) : Bool :=
  match x with
  | .setSecret _ => f == some .secret
  | .setSecretArg arg => f == some .secret || (isBase32 arg && (f == some .decoded || f == some .returned))
  | .generateStr _ _ => f == some .text
  | _ => false

/-- The failure of this allocation may make the call throw: also if the decoder's buffer has to grow. -/
def canThrow {a : Alg} (x : Totp.HCall a) (f : Option Totp.Point) : Bool :=
  mustThrow x f || (usesBase32 x && f == some .cache)

/-- The exception comes out of the decoder while it is locked. -/
def inDecoder (f : Option Totp.Point) : Bool := f == some .cache || f == some .decoded

/-- How the calls of a history on a HOTP object should end, given the secret and the counter set before and whether
the decoder is already stuck.  A call that throws changes nothing, except that the decoder gets stuck when the
exception comes from it. -/
def hotpOutsOK (a : Alg) : Option (List Byte) → W64 → Bool → List (Totp.HCall a × Option Totp.Point) →
    List Totp.Out → Prop
  | _, _, _, [], outs => outs = []
  | _, _, _, _ :: _, [] => False
  | s, c, stuck, (x, f) :: l, .ret r :: outs =>
    mustThrow x f = false ∧ (usesBase32 x = true → stuck = false) ∧
    match x with
    | .setSecret t => r = .unit ∧ hotpOutsOK a (some t) c stuck l outs
    | .setSecretArg arg => r = .unit ∧ hotpOutsOK a (some (SecretArg.secret arg)) c stuck l outs
    | .setCounter c' => r = .unit ∧ hotpOutsOK a s c' stuck l outs
    | .generate _ d => (∃ t, s = some t ∧ r = .code (stdHotp a (t.take (blockBytes a)) c.toNat d)) ∧
        hotpOutsOK a s c stuck l outs
    | .generateStr _ d => (∃ t, s = some t ∧
        r = .text (decDigits (max d 1) (stdHotp a (t.take (blockBytes a)) c.toNat d))) ∧ hotpOutsOK a s c stuck l outs
  | s, c, stuck, (x, f) :: l, .outOfMemory :: outs =>
    canThrow x f = true ∧ (usesBase32 x = true → stuck = false) ∧
      hotpOutsOK a s c (stuck || (usesBase32 x && inDecoder f)) l outs
  | s, c, stuck, (x, _) :: l, .notInitialized :: outs => asksCode x = true ∧ s = none ∧ hotpOutsOK a s c stuck l outs
  | _, _, stuck, (x, _) :: _, .hang :: outs => usesBase32 x = true ∧ stuck = true ∧ outs = []

end Pgfe.Spec

namespace Pgfe.Props
open Pgfe.Model Pgfe.Spec Pgfe.Proofs Pgfe.Proofs.Hash Pgfe.Proofs.Hmac Pgfe.Proofs.Otp

theorem objDecode_lock (K : BaseClass) (s : List Byte) (o : BaseObj) (r : List Byte × BaseObj)
    (h : objDecode K s o = .ok r) : r.2.decLock = o.decLock := by
  unfold objDecode at h
  dsimp only at h
  generalize ho1 : (if o.decsz ≤ K.decEst s.length then decSetSize (K.decEst s.length)
    (decAlloc (K.decEst s.length) o) else o) = o1 at h
  have e1 : o1.decLock = o.decLock := by
    rw [← ho1]; split <;> rfl
  unfold decRun at h
  cases hd : pgfeDecode K.alg (s ++ [0#8]) o1.deCache with
  | error _ => rw [hd] at h; cases h
  | ok q =>
    rw [hd, bind_ok, bind_ok] at h
    dsimp only at h
    unfold decNul at h
    dsimp only at h
    cases hn : wr q.2 q.1 0#8 with
    | error _ => rw [hn] at h; cases h
    | ok b =>
      rw [hn, bind_ok, bind_ok] at h
      dsimp only at h
      cases hr : rds b 0 q.1 with
      | error _ => rw [hr] at h; cases h
      | ok d =>
        rw [hr, bind_ok] at h
        cases h
        exact e1

theorem takeWhile_nul (t : List Byte) :
    (t ++ [0#8]).takeWhile (fun b => b ≠ 0#8) = t.takeWhile (fun b => b ≠ 0#8) := by
  induction t with
  | nil => rfl
  | cons b t ih =>
    rw [List.cons_append, List.takeWhile_cons, List.takeWhile_cons, ih]

/-- The base32 case, given that the decoder works. -/
theorem base32F_ok {a : Alg} (o : Totp a) (t s : List Byte) (f : Option Totp.Point) (he : EncIdle o.base32)
    (hd : DecIdle o.base32)
    (hk : ∀ b, EncIdle b → DecIdle b → ∃ b', objDecode (BaseKind.b32 false).decClass s b = .ok (t, b') ∧
      EncIdle b' ∧ DecIdle b') :
    ∃ o' out, o.setSecretBase32F .leftFirst s f = .ok (o', out) ∧ EncIdle o'.base32 ∧ DecIdle o'.base32 ∧
      o'.co = o.co ∧
      ((out = .ret .unit ∧ o.base32.decLock = none ∧ o'.base32.decLock = none ∧ o'.secret = some t ∧
          f ≠ some .secret ∧ f ≠ some .decoded ∧ f ≠ some .returned) ∨
        (out = .outOfMemory ∧ o.base32.decLock = none ∧ o'.secret = o.secret ∧
          (f = some .secret ∨ f = some .decoded ∨ f = some .returned ∨ f = some .cache) ∧
          o'.base32.decLock.isSome = inDecoder f) ∨
        (out = .hang ∧ o.base32.decLock.isSome ∧ o' = o)) := by
  unfold Totp.setSecretBase32F
  dsimp only
  by_cases hl : o.base32.decLock.isSome = true
  · rw [if_pos hl]
    exact ⟨_, _, rfl, he, hd, rfl, .inr (.inr ⟨rfl, hl, rfl⟩)⟩
  have hl0 : o.base32.decLock = none := by
    cases h : o.base32.decLock with
    | none => rfl
    | some _ => rw [h] at hl; exact absurd rfl hl
  rw [if_neg hl]
  split
  · rename_i hc
    exact ⟨_, _, rfl, he, hd, rfl, .inr (.inl ⟨rfl, hl0, rfl, .inr (.inr (.inr hc.2)), by rw [hc.2]; rfl⟩)⟩
  obtain ⟨b', e, i1, i2⟩ := hk { o.base32 with decLock := some 0 } he hd
  have hlock := objDecode_lock _ _ _ _ e
  rw [e, bind_ok]
  dsimp only at hlock ⊢
  split
  · rename_i hf
    refine ⟨_, _, rfl, i1, i2, rfl, .inr (.inl ⟨rfl, hl0, rfl, .inr (.inl hf), ?_⟩)⟩
    dsimp only
    rw [hlock, hf]; rfl
  rename_i hf1
  split
  · rename_i hf
    exact ⟨_, _, rfl, i1, i2, rfl, .inr (.inl ⟨rfl, hl0, rfl, .inr (.inr (.inl hf)), by rw [hf]; rfl⟩)⟩
  rename_i hf2
  rw [setSecretSd_ok, bind_ok]
  split
  · rename_i hf
    exact ⟨_, _, rfl, i1, i2, rfl, .inr (.inl ⟨rfl, hl0, rfl, .inl hf, by rw [hf]; rfl⟩)⟩
  · rename_i hf3
    exact ⟨_, _, rfl, i1, i2, rfl, .inl ⟨rfl, hl0, rfl, rfl, hf3, hf1, hf2⟩⟩

/-- The state of an object seen by its user. -/
structure Seen {a : Alg} (s : Option (List Byte)) (c : W64) (stuck : Bool) (o : Totp a) : Prop where
  secret : o.secret = s
  co : o.co = c
  stuck : o.base32.decLock.isSome = stuck
  enc : EncIdle o.base32
  dec : DecIdle o.base32

theorem stuck_none {a : Alg} {s c stuck} {o : Totp a} (h : Seen s c stuck o) (hl : o.base32.decLock = none) :
    stuck = false := by
  rw [← h.stuck, hl]; rfl

/-- Every call, in every state. -/
theorem hcallF_ok (a : Alg) (ha : isShake a = false) (h5 : a ≠ .MD5) (x : Totp.HCall a) (f : Option Totp.Point)
    (hx : hstackOK a x) (s : Option (List Byte)) (c : W64) (stuck : Bool) (o : Totp a) (ho : Seen s c stuck o) :
    ∃ o' out s' c' stuck', o.hcallF x f = .ok (o', out) ∧ Seen s' c' stuck' o' ∧
      ∀ l outs, (if out = .hang then outs = [] else hotpOutsOK a s' c' stuck' l outs) →
        hotpOutsOK a s c stuck ((x, f) :: l) (out :: outs) := by
  obtain ⟨q1, q2, q3, q4, q5⟩ := ho
  have hS : Seen s c stuck o := ⟨q1, q2, q3, q4, q5⟩
  -- secrets given as base32 text
  have key32 : ∀ (arg : Totp.SecretArg) (t : List Byte), x = .setSecretArg arg → isBase32 arg = true →
      (∀ b, EncIdle b → DecIdle b → ∃ b', objDecode (BaseKind.b32 false).decClass t b
        = .ok (SecretArg.secret arg, b') ∧ EncIdle b' ∧ DecIdle b') →
      o.hcallF x f = o.setSecretBase32F .leftFirst t f →
      ∃ o' out s' c' stuck', o.hcallF x f = .ok (o', out) ∧ Seen s' c' stuck' o' ∧
      ∀ l outs, (if out = .hang then outs = [] else hotpOutsOK a s' c' stuck' l outs) →
        hotpOutsOK a s c stuck ((x, f) :: l) (out :: outs) := by
    intro arg t hxa h32 hk e
    subst hxa
    obtain ⟨o', out, e1, i1, i2, hco, h⟩ := base32F_ok o (SecretArg.secret arg) t f q4 q5 hk
    rw [e]
    rcases h with ⟨rfl, l0, l1, hs, f1, f2, f3⟩ | ⟨rfl, l0, hs, hf, l1⟩ | ⟨rfl, l0, rfl⟩
    · refine ⟨o', _, some (SecretArg.secret arg), c, stuck, e1, ⟨hs, by rw [hco, q2], ?_, i1, i2⟩, ?_⟩
      · rw [l1, stuck_none hS l0]; rfl
      · intro l outs h
        rw [if_neg (by simp)] at h
        refine ⟨?_, fun _ => stuck_none hS l0, rfl, h⟩
        simp [mustThrow, f1, f2, f3]
    · refine ⟨o', _, s, c, inDecoder f, e1, ⟨by rw [hs, q1], by rw [hco, q2], l1, i1, i2⟩, ?_⟩
      intro l outs h
      rw [if_neg (by simp)] at h
      refine ⟨?_, fun _ => stuck_none hS l0, ?_⟩
      · rcases hf with rfl | rfl | rfl | rfl <;> simp [canThrow, mustThrow, usesBase32, h32]
      · rw [stuck_none hS l0]
        simpa [usesBase32, h32] using h
    · refine ⟨o', _, s, c, stuck, e1, hS, ?_⟩
      intro l outs h
      rw [if_pos rfl] at h
      exact ⟨h32, by rw [← q3]; exact l0, h⟩
  -- other secrets
  have keyS : ∀ t, (∀ l outs r, hotpOutsOK a (some t) c stuck l outs → mustThrow x f = false → r = .unit →
        hotpOutsOK a s c stuck ((x, f) :: l) (.ret r :: outs)) →
      usesBase32 x = false → (f = some .secret → mustThrow x f = true) → (f ≠ some .secret → mustThrow x f = false) →
      o.hcallF x f = (if f = some .secret then .ok (o, .outOfMemory) else .ok (o.setSecret t, .ret .unit)) →
      ∃ o' out s' c' stuck', o.hcallF x f = .ok (o', out) ∧ Seen s' c' stuck' o' ∧
      ∀ l outs, (if out = .hang then outs = [] else hotpOutsOK a s' c' stuck' l outs) →
        hotpOutsOK a s c stuck ((x, f) :: l) (out :: outs) := by
    intro t hr hb hm hm' e
    rw [e]
    by_cases hf : f = some .secret
    · rw [if_pos hf]
      refine ⟨_, _, s, c, stuck, rfl, hS, ?_⟩
      intro l outs h
      rw [if_neg (by simp)] at h
      refine ⟨by rw [canThrow, hm hf]; rfl, fun h' => (by rw [hb] at h'; cases h'), ?_⟩
      simpa [hb] using h
    · rw [if_neg hf]
      refine ⟨_, _, some t, c, stuck, rfl, ⟨rfl, q2, q3, q4, q5⟩, ?_⟩
      intro l outs h
      rw [if_neg (by simp)] at h
      exact hr l outs _ h (hm' hf) rfl
  -- text to decode
  have hdec : ∀ (d : DecArg) (hd : bcallOK (.b32 false) (.dec d)) (t : List Byte),
      (∀ b, objDecodeArg (BaseKind.b32 false).decClass b d = objDecode (BaseKind.b32 false).decClass t b) →
      ∀ b, EncIdle b → DecIdle b → ∃ b', objDecode (BaseKind.b32 false).decClass t b
        = .ok (bresult (.b32 false) (.dec d), b') ∧ EncIdle b' ∧ DecIdle b' := by
    intro d hd t ht b h1 h2
    obtain ⟨b', e, i⟩ := bcall_ok (.b32 false) (.dec d) hd b h1 h2
    exact ⟨b', by rw [← ht]; exact e, i⟩
  have hcs : ∀ mem : List Byte, 0#8 ∈ mem → cstr mem = .ok (mem.takeWhile (fun b => b ≠ 0#8)) := by
    intro mem h
    obtain ⟨p1, p2, p3⟩ := strlen_take mem h
    rw [cstr, p1, bind_ok, rds_ok (by omega), List.drop_zero, p3]
  cases x with
  | setSecret t =>
    refine keyS t ?_ rfl (fun h => by rw [h]; rfl) (fun h => ?_) rfl
    · intro l outs r h hm hr
      exact ⟨hm, (fun h => by cases h), hr, h⟩
    · simp [mustThrow, h]
  | setCounter t =>
    refine ⟨_, _, s, t, stuck, rfl, ⟨q1, rfl, q3, q4, q5⟩, ?_⟩
    intro l outs h
    rw [if_neg (by simp)] at h
    exact ⟨rfl, (fun h => by cases h), rfl, h⟩
  | generate mem d =>
    rw [Totp.hcallF, Totp.hotpGenerateF, q1]
    cases s with
    | none =>
      refine ⟨o, .notInitialized, none, c, stuck, rfl, hS, ?_⟩
      intro l outs h
      rw [if_neg (by simp)] at h
      exact ⟨rfl, rfl, h⟩
    | some t =>
      dsimp only
      rw [hotpGenerate_ok a ha h5 o t q1 mem hx d, bind_ok]
      refine ⟨o, _, some t, c, stuck, rfl, hS, ?_⟩
      intro l outs h
      rw [if_neg (by simp)] at h
      exact ⟨rfl, (fun h => by cases h), ⟨t, rfl, by rw [q2]⟩, h⟩
  | generateStr mem d =>
    rw [Totp.hcallF, Totp.hotpGenerateF, q1]
    cases s with
    | none =>
      refine ⟨o, .notInitialized, none, c, stuck, rfl, hS, ?_⟩
      intro l outs h
      rw [if_neg (by simp)] at h
      exact ⟨rfl, rfl, h⟩
    | some t =>
      dsimp only
      rw [hotpGenerate_ok a ha h5 o t q1 mem hx d, bind_ok, if_pos rfl]
      by_cases hf : f = some .text
      · rw [if_pos hf]
        refine ⟨o, .outOfMemory, some t, c, stuck, rfl, hS, ?_⟩
        intro l outs h
        rw [if_neg (by simp)] at h
        refine ⟨by rw [hf]; rfl, (fun h => by cases h), ?_⟩
        simpa [usesBase32] using h
      · rw [if_neg hf]
        refine ⟨o, _, some t, c, stuck, rfl, hS, ?_⟩
        intro l outs h
        rw [if_neg (by simp)] at h
        refine ⟨by simp [mustThrow, hf], (fun h => by cases h), ⟨t, rfl, ?_⟩, h⟩
        rw [q2, generateStr_max (stdHotp a (t.take (blockBytes a)) c.toNat d) d (Nat.mod_lt _ (Nat.pow_pos (by decide)))]
  | setSecretArg arg =>
    have plain : isBase32 arg = false → o.setSecretF arg f
        = (do let o' ← o.setSecretArg arg
              if f = some .secret then .ok (o, .outOfMemory) else .ok (o', .ret .unit)) →
        o.setSecretArg arg = .ok (o.setSecret (SecretArg.secret arg)) →
        ∃ o' out s' c' stuck', o.hcallF (.setSecretArg arg) f = .ok (o', out) ∧ Seen s' c' stuck' o' ∧
        ∀ l outs, (if out = .hang then outs = [] else hotpOutsOK a s' c' stuck' l outs) →
          hotpOutsOK a s c stuck ((.setSecretArg arg, f) :: l) (out :: outs) := by
      intro hb e1 e2
      refine keyS (SecretArg.secret arg) ?_ hb (fun h => by rw [h]; rfl) (fun h => by simp [mustThrow, h, hb]) ?_
      · intro l outs r h hm hr
        exact ⟨hm, (fun h => by rw [show usesBase32 _ = isBase32 arg from rfl, hb] at h; cases h), hr, h⟩
      · rw [Totp.hcallF, e1, e2, bind_ok]
    cases arg with
    | seq mem n => exact plain rfl rfl (setSecretSeq_ok o mem n hx)
    | cs mem =>
      obtain ⟨p1, p2, p3⟩ := strlen_take mem hx
      refine plain rfl rfl ?_
      rw [Totp.setSecretArg, Totp.setSecretCs, p1, bind_ok, setSecretSeq_ok o mem _ p2, p3]
      rfl
    | str t =>
      refine plain rfl rfl ?_
      rw [Totp.setSecretArg, Totp.setSecretStr, setSecretSeq_ok o _ _ (by simp), List.take_left' rfl]
      rfl
    | sd ord t =>
      cases (show ord = .leftFirst from hx)
      exact plain rfl rfl (setSecretSd_ok o t)
    | base32Cs ord mem =>
      obtain ⟨rfl, h1, h2⟩ := hx
      refine key32 _ (mem.takeWhile (fun b => b ≠ 0#8)) rfl rfl (hdec (.cs mem) ⟨h1, h2⟩ _ ?_) ?_
      · intro b; rw [objDecodeArg, hcs mem h1, bind_ok]
      · rw [Totp.hcallF, Totp.setSecretF, hcs mem h1, bind_ok]
    | base32Str ord t =>
      obtain ⟨rfl, h2⟩ := hx
      have hz : cstr (t ++ [0#8]) = .ok (t.takeWhile (fun b => b ≠ 0#8)) := by
        rw [hcs _ (by simp)]
        rw [takeWhile_nul]
      refine key32 _ (t.takeWhile (fun b => b ≠ 0#8)) rfl rfl (hdec (.str t) ⟨trivial, h2⟩ _ ?_) ?_
      · intro b; rw [objDecodeArg, hz, bind_ok]
      · rw [Totp.hcallF, Totp.setSecretF, hz, bind_ok]

/-- **C77, HOTP.** For SHA-1, SHA-2 and SHA-3 and every history of calls on a new HOTP object in which any allocation
may fail: no call has undefined behaviour; a call that runs out of memory throws and has no effect on the secret, the
counter and all later codes, and so does asking for a code without a secret; every code is the RFC 4226 value of the
secret and the counter set last; and a call hangs exactly if it gives the secret as base32 text after another such
call has run out of memory inside the decoder. -/
theorem C77_hotp (a : Alg) (ha : isShake a = false) (h5 : a ≠ .MD5) (co : W64) (x : Nat)
    (l : List (Totp.HCall a × Option Totp.Point)) (hl : ∀ q ∈ l, hstackOK a q.1) :
    ∃ o outs, (Totp.create a co x).hcallsF l = .ok (o, outs) ∧ hotpOutsOK a none co false l outs := by
  have key : ∀ (l : List (Totp.HCall a × Option Totp.Point)), (∀ q ∈ l, hstackOK a q.1) → ∀ s c stuck (o : Totp a),
      Seen s c stuck o → ∃ o' outs, o.hcallsF l = .ok (o', outs) ∧ hotpOutsOK a s c stuck l outs := by
    intro l
    induction l with
    | nil => intro _ s c stuck o _; exact ⟨o, [], rfl, rfl⟩
    | cons q l ih =>
      intro hl s c stuck o ho
      obtain ⟨y, f⟩ := q
      obtain ⟨o1, out, s1, c1, stuck1, e1, h1, hn⟩ := hcallF_ok a ha h5 y f (hl _ (List.mem_cons_self ..)) s c stuck o ho
      rw [Totp.hcallsF, e1, bind_ok]
      dsimp only
      by_cases hh : out = .hang
      · rw [if_pos hh]
        subst hh
        exact ⟨o1, _, rfl, hn l [] (by rw [if_pos rfl])⟩
      · rw [if_neg hh]
        obtain ⟨o2, outs, e2, h2⟩ := ih (fun q h => hl q (List.mem_cons_of_mem _ h)) s1 c1 stuck1 o1 h1
        exact ⟨o2, out :: outs, by rw [e2, bind_ok], hn l outs (by rw [if_neg hh]; exact h2)⟩
  exact key l hl none co false _ ⟨rfl, rfl, rfl, init_idle.1, init_idle.2⟩

/-! ## The expected property fails -/

theorem stuck_hangs (a : Alg) (l : List (Totp.HCall a × Option Totp.Point)) : ∀ s c outs, hotpOutsOK a s c true l outs →
    (∃ q ∈ l, usesBase32 q.1 = true) → outs.getLast? = some .hang := by
  induction l with
  | nil => intro s c outs _ h; obtain ⟨q, hq, _⟩ := h; cases hq
  | cons y l ih =>
    intro s c outs h hq
    obtain ⟨x, f⟩ := y
    have hmem : usesBase32 x = false → ∃ q ∈ l, usesBase32 q.1 = true := by
      intro hx
      obtain ⟨q, h1, h2⟩ := hq
      rw [List.mem_cons] at h1
      rcases h1 with rfl | h1
      · rw [hx] at h2; cases h2
      · exact ⟨q, h1, h2⟩
    have hcons : ∀ (e : Totp.Out) (r : List Totp.Out), r.getLast? = some .hang → (e :: r).getLast? = some .hang := by
      intro e r hr
      rw [List.getLast?_cons, hr]; rfl
    cases outs with
    | nil => exact h.elim
    | cons out outs =>
      cases out with
      | hang =>
        obtain ⟨_, _, rfl⟩ := h
        rfl
      | notInitialized =>
        obtain ⟨h1, _, h2⟩ := h
        refine hcons _ _ (ih _ _ _ h2 (hmem ?_))
        cases x <;> first | rfl | cases h1
      | outOfMemory =>
        obtain ⟨_, h1, h2⟩ := h
        have hx : usesBase32 x = false := by
          cases hx : usesBase32 x with
          | false => rfl
          | true => exact absurd (h1 hx) (by simp)
        exact hcons _ _ (ih _ _ _ h2 (hmem hx))
      | ret r =>
        obtain ⟨_, h1, h2⟩ := h
        have hx : usesBase32 x = false := by
          cases hx : usesBase32 x with
          | false => rfl
          | true => exact absurd (h1 hx) (by simp)
        cases x with
        | setSecret t => exact hcons _ _ (ih _ _ _ h2.2 (hmem hx))
        | setSecretArg t => exact hcons _ _ (ih _ _ _ h2.2 (hmem hx))
        | setCounter t => exact hcons _ _ (ih _ _ _ h2.2 (hmem hx))
        | generate m d => exact hcons _ _ (ih _ _ _ h2.2 (hmem hx))
        | generateStr m d => exact hcons _ _ (ih _ _ _ h2.2 (hmem hx))

theorem decoded_hangs (a : Alg) (x : Totp.HCall a) (hx : usesBase32 x = true)
    (rest : List (Totp.HCall a × Option Totp.Point)) (hr : ∃ q ∈ rest, usesBase32 q.1 = true)
    (pre : List (Totp.HCall a × Option Totp.Point)) : ∀ s c stuck outs,
    hotpOutsOK a s c stuck (pre ++ (x, some .decoded) :: rest) outs → outs.getLast? = some .hang := by
  have hcons : ∀ (e : Totp.Out) (r : List Totp.Out), r.getLast? = some .hang → (e :: r).getLast? = some .hang := by
    intro e r hr
    rw [List.getLast?_cons, hr]; rfl
  induction pre with
  | nil =>
    intro s c stuck outs h
    rw [List.nil_append] at h
    cases outs with
    | nil => exact h.elim
    | cons out outs =>
      cases out with
      | hang => obtain ⟨_, _, rfl⟩ := h; rfl
      | notInitialized =>
        obtain ⟨h1, _⟩ := h
        cases x <;> first | cases hx | cases h1
      | outOfMemory =>
        obtain ⟨_, _, h2⟩ := h
        rw [hx, show inDecoder (some .decoded) = true from rfl, Bool.and_self, Bool.or_true] at h2
        exact hcons _ _ (stuck_hangs a rest _ _ _ h2 hr)
      | ret r =>
        obtain ⟨h1, _⟩ := h
        cases x with
        | setSecretArg arg =>
          rw [show usesBase32 _ = isBase32 arg from rfl] at hx
          simp [mustThrow, hx] at h1
        | _ => cases hx
  | cons y pre ih =>
    intro s c stuck outs h
    obtain ⟨y, f⟩ := y
    rw [List.cons_append] at h
    cases outs with
    | nil => exact h.elim
    | cons out outs =>
      cases out with
      | hang => obtain ⟨_, _, rfl⟩ := h; rfl
      | notInitialized => exact hcons _ _ (ih _ _ _ _ h.2.2)
      | outOfMemory => exact hcons _ _ (ih _ _ _ _ h.2.2)
      | ret r =>
        obtain ⟨_, _, h2⟩ := h
        cases y with
        | setSecret t => exact hcons _ _ (ih _ _ _ _ h2.2)
        | setSecretArg t => exact hcons _ _ (ih _ _ _ _ h2.2)
        | setCounter t => exact hcons _ _ (ih _ _ _ _ h2.2)
        | generate m d => exact hcons _ _ (ih _ _ _ _ h2.2)
        | generateStr m d => exact hcons _ _ (ih _ _ _ _ h2.2)

/-- **C77, violation.** Whatever was done before: once a base32 secret has run out of memory inside the decoder, the
next base32 secret hangs for ever (and so the history ends there), whatever is done in between. -/
theorem C77_violation (a : Alg) (ha : isShake a = false) (h5 : a ≠ .MD5) (co : W64) (n : Nat)
    (pre rest : List (Totp.HCall a × Option Totp.Point)) (x : Totp.HCall a) (hx : usesBase32 x = true)
    (hr : ∃ q ∈ rest, usesBase32 q.1 = true) (hl : ∀ q ∈ pre ++ (x, some .decoded) :: rest, hstackOK a q.1) :
    ∃ o outs, (Totp.create a co n).hcallsF (pre ++ (x, some .decoded) :: rest) = .ok (o, outs) ∧
      outs.getLast? = some .hang := by
  obtain ⟨o, outs, e, h⟩ := C77_hotp a ha h5 co n _ hl
  exact ⟨o, outs, e, decoded_hangs a x hx rest hr pre _ _ _ _ h⟩

/-! ## TOTP -/

/-- **C77, TOTP, exceptions.** A call on a TOTP object in any state that runs out of memory leaves the secret, the
interval and the initial time as they are; if it is not `generate_str` also the counter and the times; and
`generate_str` leaves the object as `generate` at the same time would have. -/
theorem C77_totp (a : Alg) (o o' : Totp a) (x : Totp.Call a) (f : Option Totp.Point)
    (h : o.callF x f = .ok (o', .outOfMemory)) :
    f ≠ none ∧ o'.secret = o.secret ∧ o'.interval = o.interval ∧ o'.initialTime = o.initialTime ∧
    ((∃ t1 t2 mem d v, x = .generateStr t1 t2 mem d ∧ o.generate t1 t2 mem d = .ok (o', v)) ∨
      (o'.co = o.co ∧ o'.updateTime = o.updateTime ∧ o'.delta = o.delta)) := by
  have hB : ∀ ord s, o.setSecretBase32F ord s f = .ok (o', .outOfMemory) →
      f ≠ none ∧ o'.secret = o.secret ∧ o'.interval = o.interval ∧ o'.initialTime = o.initialTime ∧
      (o'.co = o.co ∧ o'.updateTime = o.updateTime ∧ o'.delta = o.delta) := by
    intro ord s h
    unfold Totp.setSecretBase32F at h
    dsimp only at h
    split at h
    · cases h
    split at h
    · rename_i hc
      cases h
      exact ⟨by rw [hc.2]; simp, rfl, rfl, rfl, rfl, rfl, rfl⟩
    cases hd : objDecode (BaseKind.b32 false).decClass s { o.base32 with decLock := some 0 } with
    | error _ => rw [hd] at h; cases h
    | ok r =>
      rw [hd, bind_ok] at h
      split at h
      · rename_i hc
        cases h
        exact ⟨by rw [hc]; simp, rfl, rfl, rfl, rfl, rfl, rfl⟩
      split at h
      · rename_i hc
        cases h
        exact ⟨by rw [hc]; simp, rfl, rfl, rfl, rfl, rfl, rfl⟩
      generalize Totp.setSecretSd ord _ r.1 = z at h
      cases z with
      | error _ => cases h
      | ok z =>
        rw [bind_ok] at h
        split at h
        · rename_i hc
          cases h
          exact ⟨by rw [hc]; simp, rfl, rfl, rfl, rfl, rfl, rfl⟩
        · cases h
  have hP : ∀ z : C (Totp a), (z >>= fun o'' => if f = some .secret then (.ok (o, .outOfMemory) : C (Totp a × Totp.Out))
      else .ok (o'', .ret .unit)) = .ok (o', .outOfMemory) →
      f ≠ none ∧ o'.secret = o.secret ∧ o'.interval = o.interval ∧ o'.initialTime = o.initialTime ∧
      (o'.co = o.co ∧ o'.updateTime = o.updateTime ∧ o'.delta = o.delta) := by
    intro z h
    cases z with
    | error _ => cases h
    | ok z =>
      rw [bind_ok] at h
      split at h
      · rename_i hc
        cases h
        exact ⟨by rw [hc]; simp, rfl, rfl, rfl, rfl, rfl, rfl⟩
      · cases h
  have hC : ∀ z : C (Totp a × Totp.Res), (z >>= fun r => (.ok (r.1, Totp.Out.ret r.2) : C (Totp a × Totp.Out)))
      = .ok (o', .outOfMemory) → False := by
    intro z h
    cases z with
    | error _ => cases h
    | ok z => cases h
  cases x with
  | setSecret s =>
    obtain ⟨h1, h2, h3, h4, h5⟩ := hP (.ok (o.setSecret s)) h
    exact ⟨h1, h2, h3, h4, .inr h5⟩
  | setSecretArg arg =>
    have : f ≠ none ∧ o'.secret = o.secret ∧ o'.interval = o.interval ∧ o'.initialTime = o.initialTime ∧
      (o'.co = o.co ∧ o'.updateTime = o.updateTime ∧ o'.delta = o.delta) := by
      rw [Totp.callF] at h
      cases arg with
      | base32Cs ord mem =>
        rw [Totp.setSecretF] at h
        cases hc : cstr mem with
        | error _ => rw [hc] at h; cases h
        | ok t => rw [hc, bind_ok] at h; exact hB ord t h
      | base32Str ord mem =>
        rw [Totp.setSecretF] at h
        cases hc : cstr (mem ++ [0#8]) with
        | error _ => rw [hc] at h; cases h
        | ok t => rw [hc, bind_ok] at h; exact hB ord t h
      | seq mem n => exact hP _ h
      | cs mem => exact hP _ h
      | str s => exact hP _ h
      | sd ord s => exact hP _ h
    obtain ⟨h1, h2, h3, h4, h5⟩ := this
    exact ⟨h1, h2, h3, h4, .inr h5⟩
  | generate t1 t2 mem d =>
    rw [Totp.callF] at h
    cases hr : o.refresh t1 t2 with
    | error _ => rw [hr] at h; cases h
    | ok o1 =>
      rw [hr, bind_ok, Totp.hotpGenerateF] at h
      split at h
      · cases h
      · cases hg : o1.hotpGenerate mem d with
        | error _ => rw [hg] at h; cases h
        | ok v => rw [hg] at h; cases h
  | generateStr t1 t2 mem d =>
    rw [Totp.callF] at h
    cases hr : o.refresh t1 t2 with
    | error _ => rw [hr] at h; cases h
    | ok o1 =>
      have hfields : o1.secret = o.secret ∧ o1.interval = o.interval ∧ o1.initialTime = o.initialTime := by
        unfold Totp.refresh at hr
        cases hm : o.remainingTime t1 with
        | error _ => rw [hm] at hr; cases hr
        | ok r =>
          rw [hm, bind_ok] at hr
          split at hr
          · unfold Totp.updateCounter at hr
            cases hq : calcPeriodicCounter t2 o.interval o.initialTime with
            | error _ => rw [hq] at hr; cases hr
            | ok q => rw [hq, bind_ok] at hr; cases hr; exact ⟨rfl, rfl, rfl⟩
          · cases hr; exact ⟨rfl, rfl, rfl⟩
      rw [hr, bind_ok, Totp.hotpGenerateF] at h
      split at h
      · cases h
      · cases hg : o1.hotpGenerate mem d with
        | error _ => rw [hg] at h; cases h
        | ok v =>
          rw [hg, bind_ok, if_pos rfl] at h
          split at h
          · rename_i hf
            cases h
            refine ⟨by rw [hf]; simp, hfields.1, hfields.2.1, hfields.2.2, .inl ⟨t1, t2, mem, d, v, rfl, ?_⟩⟩
            rw [Totp.generate, hr, bind_ok, hg, bind_ok]
          · cases h
  | remaining t => exact (hC _ h).elim
  | setCounter c => exact (hC _ h).elim
  | setInterval i => exact (hC _ h).elim
  | setInitialTime t => exact (hC _ h).elim
  | interval => exact (hC _ h).elim
  | initialTime => exact (hC _ h).elim
  | updateTime => exact (hC _ h).elim

theorem objDecode_setLock (K : BaseClass) (s : List Byte) (o : BaseObj) (n : Option Nat) (r : List Byte × BaseObj)
    (h : objDecode K s { o with decLock := n } = .ok r) :
    objDecode K s o = .ok (r.1, { r.2 with decLock := o.decLock }) := by
  unfold objDecode at h ⊢
  dsimp only at h ⊢
  have e : (if o.decsz ≤ K.decEst s.length then decSetSize (K.decEst s.length)
      (decAlloc (K.decEst s.length) { o with decLock := n }) else { o with decLock := n })
      = { (if o.decsz ≤ K.decEst s.length then decSetSize (K.decEst s.length)
        (decAlloc (K.decEst s.length) o) else o) with decLock := n } := by split <;> rfl
  have el : (if o.decsz ≤ K.decEst s.length then decSetSize (K.decEst s.length)
        (decAlloc (K.decEst s.length) o) else o).decLock = o.decLock := by split <;> rfl
  rw [e] at h
  generalize (if o.decsz ≤ K.decEst s.length then decSetSize (K.decEst s.length)
        (decAlloc (K.decEst s.length) o) else o) = o1 at h el ⊢
  unfold decRun at h ⊢
  dsimp only at h ⊢
  cases hd : pgfeDecode K.alg (s ++ [0#8]) o1.deCache with
  | error _ => rw [hd] at h; cases h
  | ok q =>
    rw [hd, bind_ok, bind_ok] at h
    rw [bind_ok, bind_ok]
    dsimp only at h ⊢
    unfold decNul at h ⊢
    dsimp only at h ⊢
    cases hn : wr q.2 q.1 0#8 with
    | error _ => rw [hn] at h; cases h
    | ok b =>
      rw [hn, bind_ok, bind_ok] at h
      rw [bind_ok, bind_ok]
      dsimp only at h ⊢
      cases hr : rds b 0 q.1 with
      | error _ => rw [hr] at h; cases h
      | ok d =>
        rw [hr, bind_ok] at h
        rw [bind_ok]
        cases h
        dsimp only
        rw [← el]

/-- **C77, calls that return.** A call on a TOTP object in any state that returns although allocations may fail returns
and does what it does without failures (C41, C42, C57, C59; the object differs at most in the decoder's mutex). -/
theorem C77_same (a : Alg) (o o' : Totp a) (x : Totp.Call a) (f : Option Totp.Point) (r : Totp.Res)
    (h : o.callF x f = .ok (o', .ret r)) : ∃ b, o.call x = .ok ({ o' with base32 := b }, r) := by
  have hP : ∀ z : C (Totp a), (z >>= fun o'' => if f = some .secret then (.ok (o, .outOfMemory) : C (Totp a × Totp.Out))
      else .ok (o'', .ret .unit)) = .ok (o', .ret r) → z = .ok o' ∧ r = .unit := by
    intro z h
    cases z with
    | error _ => cases h
    | ok z =>
      rw [bind_ok] at h
      split at h
      · cases h
      · cases h; exact ⟨rfl, rfl⟩
  have hC : ∀ z : C (Totp a × Totp.Res), (z >>= fun r => (.ok (r.1, Totp.Out.ret r.2) : C (Totp a × Totp.Out)))
      = .ok (o', .ret r) → ∃ b, z = .ok ({ o' with base32 := b }, r) := by
    intro z h
    cases z with
    | error _ => cases h
    | ok z => cases h; exact ⟨_, rfl⟩
  have hS : ∀ ord s, o.setSecretBase32F ord s f = .ok (o', .ret r) → ∃ b,
      (objDecode (BaseKind.b32 false).decClass s o.base32 >>= fun q =>
        Totp.setSecretSd ord { o with base32 := q.2 } q.1) = .ok ({ o' with base32 := b } : Totp a) ∧ r = .unit := by
    intro ord s h
    unfold Totp.setSecretBase32F at h
    dsimp only at h
    split at h
    · cases h
    split at h
    · cases h
    cases hd : objDecode (BaseKind.b32 false).decClass s { o.base32 with decLock := some 0 } with
    | error _ => rw [hd] at h; cases h
    | ok q =>
      rw [hd, bind_ok] at h
      rw [objDecode_setLock _ _ _ _ _ hd, bind_ok]
      split at h
      · cases h
      split at h
      · cases h
      obtain ⟨z, hz⟩ : ∃ z, z = Totp.setSecretSd ord { o with base32 := { q.2 with decLock := none } } q.1 := ⟨_, rfl⟩
      rw [← hz] at h
      obtain ⟨h1, h2⟩ : z = .ok o' ∧ r = .unit := by
        cases z with
        | error _ => cases h
        | ok z =>
          rw [bind_ok] at h
          split at h
          · cases h
          · cases h; exact ⟨rfl, rfl⟩
      rw [h1] at hz
      unfold Totp.setSecretSd Totp.setSecretSeq at hz ⊢
      cases hs : sdArgs ord q.1 with
      | error _ => rw [hs] at hz; cases hz
      | ok w =>
        rw [hs, bind_ok] at hz
        rw [bind_ok]
        cases ht : rds w.1 0 w.2 with
        | error _ => rw [ht] at hz; cases hz
        | ok y =>
          rw [ht, bind_ok] at hz
          rw [bind_ok]
          cases hz
          exact ⟨{ q.2 with decLock := o.base32.decLock }, rfl, h2⟩
  cases x with
  | setSecret s =>
    obtain ⟨h1, h2⟩ := hP (.ok (o.setSecret s)) h
    refine ⟨o'.base32, ?_⟩
    rw [Totp.call, h2, ← Except.ok.inj h1]
  | setSecretArg arg =>
    rw [Totp.callF] at h
    rw [Totp.call]
    have fin : ∀ z b, z = .ok { o' with base32 := b } → r = .unit →
        (z >>= fun o => (.ok (o, .unit) : C (Totp a × Totp.Res))) = .ok ({ o' with base32 := b }, r) := by
      intro z b hz hr; rw [hz, hr]; rfl
    cases arg with
    | base32Cs ord mem =>
      rw [Totp.setSecretF] at h
      cases hc : cstr mem with
      | error _ => rw [hc] at h; cases h
      | ok t =>
        rw [hc, bind_ok] at h
        obtain ⟨b, h1, h2⟩ := hS ord t h
        refine ⟨b, fin _ _ ?_ h2⟩
        rw [Totp.setSecretArg, Totp.setSecretBase32Cs, objDecodeArg, hc, bind_ok]
        exact h1
    | base32Str ord mem =>
      rw [Totp.setSecretF] at h
      cases hc : cstr (mem ++ [0#8]) with
      | error _ => rw [hc] at h; cases h
      | ok t =>
        rw [hc, bind_ok] at h
        obtain ⟨b, h1, h2⟩ := hS ord t h
        refine ⟨b, fin _ _ ?_ h2⟩
        rw [Totp.setSecretArg, Totp.setSecretBase32Str, objDecodeArg, hc, bind_ok]
        exact h1
    | seq mem n => obtain ⟨h1, h2⟩ := hP _ h; exact ⟨_, fin _ o'.base32 h1 h2⟩
    | cs mem => obtain ⟨h1, h2⟩ := hP _ h; exact ⟨_, fin _ o'.base32 h1 h2⟩
    | str s => obtain ⟨h1, h2⟩ := hP _ h; exact ⟨_, fin _ o'.base32 h1 h2⟩
    | sd ord s => obtain ⟨h1, h2⟩ := hP _ h; exact ⟨_, fin _ o'.base32 h1 h2⟩
  | generate t1 t2 mem d =>
    rw [Totp.callF] at h
    rw [Totp.call, Totp.generate]
    cases hr : o.refresh t1 t2 with
    | error _ => rw [hr] at h; cases h
    | ok o1 =>
      rw [hr, bind_ok, Totp.hotpGenerateF] at h
      rw [bind_ok]
      split at h
      · cases h
      · cases hg : o1.hotpGenerate mem d with
        | error _ => rw [hg] at h; cases h
        | ok v => rw [hg] at h; cases h; exact ⟨_, rfl⟩
  | generateStr t1 t2 mem d =>
    rw [Totp.callF] at h
    rw [Totp.call, Totp.generateStr]
    cases hr : o.refresh t1 t2 with
    | error _ => rw [hr] at h; cases h
    | ok o1 =>
      rw [hr, bind_ok, Totp.hotpGenerateF] at h
      rw [bind_ok]
      split at h
      · cases h
      · cases hg : o1.hotpGenerate mem d with
        | error _ => rw [hg] at h; cases h
        | ok v =>
          rw [hg, bind_ok, if_pos rfl] at h
          split at h
          · cases h
          · cases h; exact ⟨_, rfl⟩
  | remaining t => exact hC _ h
  | setCounter c => exact hC _ h
  | setInterval i => exact hC _ h
  | setInitialTime t => exact hC _ h
  | interval => exact hC _ h
  | initialTime => exact hC _ h
  | updateTime => exact hC _ h

/-- **C77, TOTP, the defect.** With the decoder stuck every base32 secret hangs, in every state of the object. -/
theorem C77_totp_violation (a : Alg) (o : Totp a) (t : List Byte) (f g : Option Totp.Point)
    (hs : o.base32.decLock.isSome = true) :
    o.callF (.setSecretArg (.base32Str .leftFirst t)) f = .ok (o, .hang) ∧
    ∀ o' x r, o.callF x g = .ok (o', r) → o'.base32.decLock.isSome = true := by
  have hz : ∃ s, cstr (t ++ [0#8]) = .ok s := by
    obtain ⟨p1, p2, p3⟩ := strlen_take (t ++ [0#8]) (by simp)
    exact ⟨_, by rw [cstr, p1, bind_ok, rds_ok (by omega)]⟩
  have hSd : ∀ (o o' : Totp a) ord s, o.setSecretSd ord s = .ok o' → o'.base32 = o.base32 := by
    intro o o' ord s h
    unfold Totp.setSecretSd Totp.setSecretSeq at h
    cases h1 : sdArgs ord s with
    | error _ => rw [h1] at h; cases h
    | ok w =>
      rw [h1, bind_ok] at h
      cases h2 : rds w.1 0 w.2 with
      | error _ => rw [h2] at h; cases h
      | ok y => rw [h2, bind_ok] at h; cases h; rfl
  have hSeq : ∀ (o o' : Totp a) mem n, o.setSecretSeq mem n = .ok o' → o'.base32 = o.base32 := by
    intro o o' mem n h
    unfold Totp.setSecretSeq at h
    cases h2 : rds mem 0 n with
    | error _ => rw [h2] at h; cases h
    | ok y => rw [h2, bind_ok] at h; cases h; rfl
  have hR : ∀ (o1 : Totp a) t1 t2, o.refresh t1 t2 = .ok o1 → o1.base32 = o.base32 := by
    intro o1 t1 t2 hr
    unfold Totp.refresh at hr
    cases hm : o.remainingTime t1 with
    | error _ => rw [hm] at hr; cases hr
    | ok r =>
      rw [hm, bind_ok] at hr
      split at hr
      · unfold Totp.updateCounter at hr
        cases hq : calcPeriodicCounter t2 o.interval o.initialTime with
        | error _ => rw [hq] at hr; cases hr
        | ok q => rw [hq, bind_ok] at hr; cases hr; rfl
      · cases hr; rfl
  constructor
  · obtain ⟨s, hs'⟩ := hz
    rw [Totp.callF, Totp.setSecretF, hs', bind_ok, Totp.setSecretBase32F]
    dsimp only
    rw [if_pos hs]
  · intro o' x r h
    have hP : ∀ z : C (Totp a), (∀ o'', z = .ok o'' → o''.base32 = o.base32) →
        (z >>= fun o'' => if g = some .secret then (.ok (o, .outOfMemory) : C (Totp a × Totp.Out))
          else .ok (o'', .ret .unit)) = .ok (o', r) → o'.base32.decLock.isSome = true := by
      intro z hz h
      cases z with
      | error _ => cases h
      | ok z =>
        rw [bind_ok] at h
        split at h
        · cases h; exact hs
        · cases h; rw [hz o' rfl]; exact hs
    have hG : ∀ t1 t2 mem d b, (o.refresh t1 t2 >>= fun o => Totp.hotpGenerateF o mem d b g >>= fun r =>
        (.ok (o, r) : C (Totp a × Totp.Out))) = .ok (o', r) → o'.base32.decLock.isSome = true := by
      intro t1 t2 mem d b h
      cases hr : o.refresh t1 t2 with
      | error _ => rw [hr] at h; cases h
      | ok o1 =>
        rw [hr, bind_ok] at h
        cases hg : Totp.hotpGenerateF o1 mem d b g with
        | error _ => rw [hg] at h; cases h
        | ok v => rw [hg, bind_ok] at h; cases h; rw [hR _ _ _ hr]; exact hs
    cases x with
    | setSecret s => exact hP (.ok (o.setSecret s)) (fun o'' h => by cases h; rfl) h
    | setSecretArg arg =>
      rw [Totp.callF] at h
      cases arg with
      | base32Cs ord mem =>
        rw [Totp.setSecretF] at h
        cases hc : cstr mem with
        | error _ => rw [hc] at h; cases h
        | ok t =>
          rw [hc, bind_ok, Totp.setSecretBase32F] at h
          dsimp only at h
          rw [if_pos hs] at h
          cases h; exact hs
      | base32Str ord mem =>
        rw [Totp.setSecretF] at h
        cases hc : cstr (mem ++ [0#8]) with
        | error _ => rw [hc] at h; cases h
        | ok t =>
          rw [hc, bind_ok, Totp.setSecretBase32F] at h
          dsimp only at h
          rw [if_pos hs] at h
          cases h; exact hs
      | seq mem n => exact hP _ (fun o'' h => hSeq _ _ _ _ h) h
      | cs mem =>
        refine hP _ (fun o'' h => ?_) h
        rw [Totp.setSecretArg, Totp.setSecretCs] at h
        cases h1 : strlen mem with
        | error _ => rw [h1] at h; cases h
        | ok n => rw [h1, bind_ok] at h; exact hSeq _ _ _ _ h
      | str s => exact hP _ (fun o'' h => hSeq _ _ _ _ h) h
      | sd ord s => exact hP _ (fun o'' h => hSd _ _ _ _ h) h
    | generate t1 t2 mem d => exact hG t1 t2 mem d false h
    | generateStr t1 t2 mem d => exact hG t1 t2 mem d true h
    | remaining t =>
      rw [Totp.callF, Totp.call] at h
      · cases hr : o.remainingTime t with
        | error _ => rw [hr] at h; cases h
        | ok y => rw [hr] at h; cases h; exact hs
      all_goals simp
    | setCounter c => cases h; exact hs
    | setInterval i => cases h; exact hs
    | setInitialTime t => cases h; exact hs
    | interval => cases h; exact hs
    | initialTime => cases h; exact hs
    | updateTime => cases h; exact hs

/-- How a TOTP object gets there: an unlocked one, and a base32 secret that runs out of memory inside the decoder. -/
theorem C77_totp_stuck (a : Alg) (o : Totp a) (he : EncIdle o.base32) (hd : DecIdle o.base32)
    (hl : o.base32.decLock = none) (t : List Byte) (ht : t.takeWhile (fun b => b ≠ 0#8) ≠ []) :
    ∃ o', o.callF (.setSecretArg (.base32Str .leftFirst t)) (some .decoded) = .ok (o', .outOfMemory) ∧
      o'.base32.decLock.isSome = true := by
  have hz : cstr (t ++ [0#8]) = .ok (t.takeWhile (fun b => b ≠ 0#8)) := by
    obtain ⟨p1, p2, p3⟩ := strlen_take (t ++ [0#8]) (by simp)
    rw [cstr, p1, bind_ok, rds_ok (by omega), List.drop_zero, p3, takeWhile_nul]
  obtain ⟨o', out, e, _, _, _, h⟩ := base32F_ok o (bresult (.b32 false) (.dec (.str t)))
    (t.takeWhile (fun b => b ≠ 0#8)) (some .decoded) he hd (by
      intro b h1 h2
      obtain ⟨b', e, i⟩ := bcall_ok (.b32 false) (.dec (.str t)) ⟨trivial, ht⟩ b h1 h2
      have e : objDecodeArg _ b (.str t) = _ := e
      rw [objDecodeArg, hz, bind_ok] at e
      exact ⟨b', e, i⟩)
  rw [Totp.callF, Totp.setSecretF, hz, bind_ok, e]
  rcases h with ⟨_, _, _, _, _, h, _⟩ | ⟨rfl, _, _, _, h⟩ | ⟨_, h, _⟩
  · exact absurd rfl h
  · exact ⟨o', rfl, by rw [h]; rfl⟩
  · rw [hl] at h; cases h

/-- A concrete history: the secret is set; a second one, in base32, runs out of memory inside the decoder; codes are
still those of the first secret; the next base32 secret hangs. -/
theorem C77_example : ∃ o, (Totp.create .SHA1 0#64 30).hcallsF
      [(.setSecret rfcSecret, none), (.setSecretArg (.base32Str .leftFirst (str "GEZDGNBV")), some .decoded),
       (.generate sha1Stack 6, none), (.setSecretArg (.base32Str .leftFirst (str "GEZDGNBV")), none),
       (.generate sha1Stack 6, none)]
    = .ok (o, [.ret .unit, .outOfMemory, .ret (.code 755224), .hang]) := by
  obtain ⟨o, outs, e, h⟩ := C77_hotp .SHA1 rfl (by decide) 0#64 30
      [(.setSecret rfcSecret, none), (.setSecretArg (.base32Str .leftFirst (str "GEZDGNBV")), some .decoded),
       (.generate sha1Stack 6, none), (.setSecretArg (.base32Str .leftFirst (str "GEZDGNBV")), none),
       (.generate sha1Stack 6, none)] (by
    intro q hq
    simp only [List.mem_cons, List.not_mem_nil, or_false] at hq
    rcases hq with rfl | rfl | rfl | rfl | rfl <;> first
      | exact trivial | exact sha1Stack_ok | exact ⟨rfl, by decide⟩)
  refine ⟨o, ?_⟩
  rw [e]
  congr 2
  have hcode : stdHotp .SHA1 (rfcSecret.take (blockBytes .SHA1)) 0 6 = 755224 := by
    rw [show rfcSecret.take (blockBytes .SHA1) = rfcSecret by decide, rfcCode0]
  rcases outs with _ | ⟨x1, outs⟩
  · exact h.elim
  cases x1 <;> simp only [hotpOutsOK, mustThrow, canThrow, usesBase32, asksCode] at h <;> simp at h
  obtain ⟨rfl, h⟩ := h
  rcases outs with _ | ⟨x2, outs⟩
  · exact h.elim
  cases x2 <;> simp only [hotpOutsOK, mustThrow, canThrow, usesBase32, asksCode, isBase32] at h <;> simp at h
  rcases outs with _ | ⟨x3, outs⟩
  · exact h.elim
  cases x3 <;> simp only [hotpOutsOK, mustThrow, canThrow, usesBase32, asksCode] at h <;> simp at h
  obtain ⟨rfl, h⟩ := h
  rcases outs with _ | ⟨x4, outs⟩
  · exact h.elim
  cases x4 <;> simp only [hotpOutsOK, mustThrow, canThrow, usesBase32, asksCode, isBase32] at h <;>
    simp [inDecoder] at h
  subst h
  rw [hcode]

end Pgfe.Props
