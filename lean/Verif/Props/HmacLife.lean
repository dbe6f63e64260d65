import Verif.Props.HmacEncoder
import Verif.Model.HmacLife
/-!
# C78: `HMACEncoder` objects, moved, destroyed and running out of memory

A program is a list of `HOp`.  `HWorld` is what its author has to know: which objects exist, with which key and which
message so far, whether `get_digest` was called on them, and which result each of them owns.  `HWorld.allows` says
which operations are proper uses, `HWorld.after` what they mean.
-/
namespace Pgfe.Spec
open Pgfe.Model

/-- What a program does with `HMACEncoder` objects; `i`, `j` are numbers of objects in order of construction. -/
inductive HOp where
  /-- construction in memory with contents `g` -/
  | construct (g : HmacEnc) (a : Alg) (k : KeyArg)
  /-- `update` in one of its forms, or `reset` -/
  | change (i : Nat) (c : HmacEnc.Call)
  | getDigest (i : Nat) (st : HmacEnc.Stack)
  /-- `get_digest` that throws `std::bad_alloc`, which the program catches -/
  | digestThrows (i : Nat) (st : HmacEnc.Stack)
  /-- `HMACEncoder x(std::move(y))` where `y` is number `j` -/
  | moveNew (j : Nat)
  /-- `x = std::move(y)` where `x` is number `i`, `y` number `j` -/
  | moveAssign (i j : Nat)
  | destroy (i : Nat)

/-- The operation in the model; also returns the pointers that `get_digest` returned. -/
def HOp.exec (s : HmacSys) : HOp → C (HmacSys × List (Option Nat))
  | .construct g a k => do
    let e ← k.construct g a
    .ok (s.construct e, [])
  | .change i c => do
    let s ← s.change i c
    .ok (s, [])
  | .getDigest i st => do
    let r ← s.getDigest i st
    .ok (r.1, [r.2])
  | .digestThrows i st => do
    let s ← s.digestThrows i st
    .ok (s, [])
  | .moveNew j => do
    let s ← s.moveNew j
    .ok (s, [])
  | .moveAssign i j => do
    let s ← s.moveAssign i j
    .ok (s, [])
  | .destroy i => do
    let s ← s.destroy i
    .ok (s, [])

/-- A program. -/
def HOp.execs (s : HmacSys) : List HOp → C (HmacSys × List (Option Nat))
  | [] => .ok (s, [])
  | x :: rest => do
    let r ← x.exec s
    let t ← execs r.1 rest
    .ok (t.1, r.2 ++ t.2)

/-- `digest_size()` and `block_size()` after construction in memory `g`: those of the algorithm, but see C64; there is
no HMAC with the SHAKE algorithms. -/
def hmacSizes (g : HmacEnc) (a : Alg) : Nat × Nat :=
  if g.curAlg = some a ∨ isShake a = true then (g.digsz, g.blocksz) else (outSize a 0, blockBytes a)

/-- An object as its user sees it: algorithm, the two sizes, key, all bytes passed to `update`, whether `get_digest` was
called before, and the result (a number in order of creation) it owns. -/
structure HView where
  alg : Alg
  sizes : Nat × Nat
  key : List Byte
  msg : List Byte
  asked : Bool
  out : Option Nat

/-- The MAC: HMAC with the key cut to the block size, as in C33 and C50. -/
def HView.mac (v : HView) : List Byte :=
  hmacShort (libHash v.alg 0) (blockBytes v.alg) (v.key.take (blockBytes v.alg)) v.msg

/-- All objects (`none`: destroyed), and for every result made so far the bytes it has to show, if this is
specified. -/
structure HWorld where
  objs : List (Option HView)
  vals : List (Option (List Byte))

/-- The object number `i`, if it exists. -/
def HWorld.view (w : HWorld) (i : Nat) : Option HView := (w.objs[i]?).join

/-- Proper uses. -/
def HWorld.allows (w : HWorld) : HOp → Prop
  | .construct g _ k => hmacGarbageOK g ∧ k.ok
  | .change i c => ∃ v, w.view i = some v ∧ hmacUpdateOK v.alg c ∧
      okTot v.alg (blockBytes v.alg + (v.msg.length + (hmacInputOf c).length))
  | .getDigest i st => ∃ v, w.view i = some v ∧ (isShake v.alg = false → hmacStackOK v.alg st)
  | .digestThrows i st => ∃ v, w.view i = some v ∧ isShake v.alg = false ∧ hmacStackOK v.alg st
  | .moveNew j => ∃ v, w.view j = some v
  | .moveAssign i j => (∃ v, w.view i = some v) ∧ ∃ v, w.view j = some v
  | .destroy i => ∃ v, w.view i = some v

/-- What the operations mean. -/
def HWorld.after (w : HWorld) : HOp → HWorld
  | .construct g a k => { w with objs := w.objs ++ [some ⟨a, hmacSizes g a, k.key, [], false, none⟩] }
  | .change i c =>
    match w.view i with
    | none => w
    | some v => { w with objs := w.objs.set i (some { v with msg := v.msg ++ hmacInputOf c }) }
  | .getDigest i _ =>
    match w.view i with
    | none => w
    | some v =>
      if isShake v.alg then w
      else ⟨w.objs.set i (some { v with asked := true, out := some w.vals.length }),
        w.vals ++ [if v.asked then none else some v.mac]⟩
  | .digestThrows i _ =>
    match w.view i with
    | none => w
    | some v => { w with objs := w.objs.set i (some { v with asked := true }) }
  | .moveNew j =>
    match w.view j with
    | none => w
    | some v => { w with objs := w.objs.set j (some { v with out := none }) ++ [some v] }
  | .moveAssign i j =>
    match w.view j with
    | none => w
    | some v => if i = j then w else { w with objs := (w.objs.set j (some { v with out := none })).set i (some v) }
  | .destroy i => { w with objs := w.objs.set i none }

/-- The pointers that `get_digest` has to return: the new result, null for the SHAKE algorithms. -/
def HWorld.returned (w : HWorld) : HOp → List (Option Nat)
  | .getDigest i _ =>
    match w.view i with
    | none => []
    | some v => if isShake v.alg then [none] else [some w.vals.length]
  | _ => []

/-- A program of proper uses. -/
def HWorld.allowsAll (w : HWorld) : List HOp → Prop
  | [] => True
  | x :: rest => w.allows x ∧ (w.after x).allowsAll rest

/-- Its meaning. -/
def HWorld.afterAll (w : HWorld) : List HOp → HWorld
  | [] => w
  | x :: rest => (w.after x).afterAll rest

/-- All pointers returned. -/
def HWorld.returnedAll (w : HWorld) : List HOp → List (Option Nat)
  | [] => []
  | x :: rest => w.returned x ++ (w.after x).returnedAll rest

/-- Some object owns the result number `p`. -/
def HWorld.owned (w : HWorld) (p : Nat) : Prop := ∃ i v, w.view i = some v ∧ v.out = some p

end Pgfe.Spec

namespace Pgfe.Props
open Pgfe.Model Pgfe.Spec Pgfe.Proofs Pgfe.Proofs.Hash Pgfe.Proofs.Hmac

/-- Some correctness data for every algorithm. -/
noncomputable def kOf (a : Alg) : HashOK (a.impl 0) (libHash a 0) := Classical.choose (exists_ok0 a)

theorem kOf_conf (a : Alg) : Conf (kOf a) (memOK a 0) (outSize a 0) (okUpd a) (okTot a) :=
  Classical.choose_spec (exists_ok0 a)

/-- The object `o` is as `v` says. -/
structure VRel (v : HView) (o : OwnedHmac) : Prop where
  alg : o.enc.curAlg = some v.alg
  sizes : (o.enc.digsz, o.enc.blocksz) = v.sizes
  own : o.owned = v.out
  shake : isShake v.alg = true → v.out = none
  safe : isShake v.alg = false → ∃ n, (kOf v.alg).Safe n (o.enc.ctx v.alg).hash ∧
    (o.enc.ctx v.alg).kIPad.length = blockBytes v.alg ∧ (o.enc.ctx v.alg).kOPad.length = blockBytes v.alg ∧
    blockBytes v.alg ≤ n ∧ n ≤ blockBytes v.alg + v.msg.length
  tot : okTot v.alg (blockBytes v.alg + v.msg.length)
  inv : isShake v.alg = false → v.asked = false →
    HInv (kOf v.alg) (blockBytes v.alg) (v.key.take (blockBytes v.alg)) v.msg (o.enc.ctx v.alg)

/-- The memory is as `w` says. -/
structure WRel (w : HWorld) (s : HmacSys) : Prop where
  len : s.objs.length = w.objs.length
  obj : ∀ (i : Nat) (v : HView), w.objs[i]? = some (some v) → ∃ o, s.objs[i]? = some (some o) ∧ VRel v o
  vl : s.results.length = w.vals.length
  live : ∀ p : Nat, (∃ d, s.results[p]? = some (some d)) ↔ ∃ (i : Nat) (v : HView), w.objs[i]? = some (some v) ∧ v.out = some p
  uniq : ∀ (i j : Nat) (v v' : HView) (p : Nat), w.objs[i]? = some (some v) → w.objs[j]? = some (some v') → v.out = some p → v'.out = some p →
    i = j
  val : ∀ (p : Nat) (d d' : List Byte), s.results[p]? = some (some d) → w.vals[p]? = some (some d') → d = d'

theorem view_some {w : HWorld} {i : Nat} {v : HView} : w.view i = some v ↔ w.objs[i]? = some (some v) := by
  rw [HWorld.view]
  cases h : w.objs[i]? with
  | none => simp
  | some x => simp

theorem lt_of_some {α : Type} {l : List α} {i : Nat} {x : α} (h : l[i]? = some x) : i < l.length := by
  rcases Nat.lt_or_ge i l.length with h1 | h1
  · exact h1
  · rw [List.getElem?_eq_none h1] at h; cases h

theorem WRel.objOf {w : HWorld} {s : HmacSys} (r : WRel w s) {i : Nat} {v : HView} (h : w.view i = some v) :
    ∃ o, s.obj i = .ok o ∧ VRel v o ∧ i < s.objs.length ∧ i < w.objs.length := by
  have h' := view_some.mp h
  obtain ⟨o, e, vr⟩ := r.obj i v h'
  exact ⟨o, by rw [HmacSys.obj, e], vr, lt_of_some e, lt_of_some h'⟩

theorem WRel.bound {w : HWorld} {s : HmacSys} (r : WRel w s) {i p : Nat} {v : HView} (h : w.objs[i]? = some (some v))
    (hp : v.out = some p) : p < s.results.length := by
  obtain ⟨d, e⟩ := (r.live p).mpr ⟨i, v, h, hp⟩
  exact lt_of_some e

/-- Replacing an object by one that owns the same result. -/
theorem WRel.same {w : HWorld} {s : HmacSys} (r : WRel w s) {i : Nat} {v v' : HView} {o' : OwnedHmac}
    (h : w.objs[i]? = some (some v)) (ho : v'.out = v.out) (vr : VRel v' o') :
    WRel { w with objs := w.objs.set i (some v') } { s with objs := s.objs.set i (some o') } := by
  have hw := lt_of_some h
  have hs : i < s.objs.length := by rw [r.len]; exact hw
  have key : ∀ (j : Nat) (x : HView), (w.objs.set i (some v'))[j]? = some (some x) →
      (j = i ∧ x = v') ∨ (j ≠ i ∧ w.objs[j]? = some (some x)) := by
    intro j x hx
    rw [List.getElem?_set] at hx
    by_cases hj : i = j
    · rw [if_pos hj, if_pos (by omega)] at hx
      simp only [Option.some.injEq] at hx
      exact Or.inl ⟨hj.symm, hx.symm⟩
    · rw [if_neg hj] at hx
      exact Or.inr ⟨fun e => hj e.symm, hx⟩
  have back : ∀ (j : Nat) (x : HView), (w.objs.set i (some v'))[j]? = some (some x) → ∃ y, w.objs[j]? = some (some y) ∧ y.out = x.out := by
    intro j x hx
    rcases key j x hx with ⟨rfl, rfl⟩ | ⟨_, h1⟩
    · exact ⟨v, h, ho.symm⟩
    · exact ⟨x, h1, rfl⟩
  refine ⟨by simp [r.len], ?_, r.vl, ?_, ?_, r.val⟩
  · intro j x hx
    rcases key j x hx with ⟨rfl, rfl⟩ | ⟨hj, h1⟩
    · exact ⟨o', by rw [List.getElem?_set, if_pos rfl, if_pos hs], vr⟩
    · obtain ⟨o, e, vr'⟩ := r.obj j x h1
      exact ⟨o, by rw [List.getElem?_set, if_neg (fun e => hj e.symm)]; exact e, vr'⟩
  · intro p
    rw [r.live p]
    constructor
    · rintro ⟨j, x, h1, h2⟩
      by_cases hj : i = j
      · subst hj
        rw [h] at h1
        cases h1
        exact ⟨i, v', by rw [List.getElem?_set, if_pos rfl, if_pos hw], by rw [ho]; exact h2⟩
      · exact ⟨j, x, by rw [List.getElem?_set, if_neg hj]; exact h1, h2⟩
    · rintro ⟨j, x, h1, h2⟩
      obtain ⟨y, h3, h4⟩ := back j x h1
      exact ⟨j, y, h3, by rw [h4]; exact h2⟩
  · intro j k x y p hx hy hxp hyp
    obtain ⟨x', h1, h2⟩ := back j x hx
    obtain ⟨y', h3, h4⟩ := back k y hy
    exact r.uniq j k x' y' p h1 h3 (by rw [h2]; exact hxp) (by rw [h4]; exact hyp)

/-- Making an object without a result. -/
theorem WRel.new {w : HWorld} {s : HmacSys} (r : WRel w s) {v : HView} {o : OwnedHmac} (hv : v.out = none)
    (vr : VRel v o) : WRel { w with objs := w.objs ++ [some v] } { s with objs := s.objs ++ [some o] } := by
  have key : ∀ (j : Nat) (x : HView), (w.objs ++ [some v])[j]? = some (some x) →
      (j = w.objs.length ∧ x = v) ∨ w.objs[j]? = some (some x) := by
    intro j x hx
    rcases Nat.lt_trichotomy j w.objs.length with hj | hj | hj
    · rw [List.getElem?_append_left hj] at hx; exact Or.inr hx
    · subst hj; simp at hx; exact Or.inl ⟨rfl, hx.symm⟩
    · rw [List.getElem?_eq_none (by simp; omega)] at hx; cases hx
  have keep : ∀ (j : Nat) (x : HView), w.objs[j]? = some (some x) → (w.objs ++ [some v])[j]? = some (some x) := by
    intro j x hx
    rw [List.getElem?_append_left (lt_of_some hx)]; exact hx
  refine ⟨by simp [r.len], ?_, r.vl, ?_, ?_, r.val⟩
  · intro j x hx
    rcases key j x hx with ⟨rfl, rfl⟩ | h1
    · exact ⟨o, by simp [← r.len], vr⟩
    · obtain ⟨o', e, vr'⟩ := r.obj j x h1
      exact ⟨o', by show (s.objs ++ [some o])[j]? = _; rw [List.getElem?_append_left (lt_of_some e)]; exact e, vr'⟩
  · intro p
    rw [r.live p]
    constructor
    · rintro ⟨j, x, h1, h2⟩
      exact ⟨j, x, keep j x h1, h2⟩
    · rintro ⟨j, x, h1, h2⟩
      rcases key j x h1 with ⟨rfl, rfl⟩ | h3
      · rw [hv] at h2; cases h2
      · exact ⟨j, x, h3, h2⟩
  · intro j k x y p hx hy hxp hyp
    rcases key j x hx with ⟨rfl, rfl⟩ | h1
    · rw [hv] at hxp; cases hxp
    · rcases key k y hy with ⟨rfl, rfl⟩ | h2
      · rw [hv] at hyp; cases hyp
      · exact r.uniq j k x y p h1 h2 hxp hyp

theorem release_get (l : List (Option (List Byte))) (q : Option Nat) (p : Nat) (d : List Byte) :
    (HmacSys.release l q)[p]? = some (some d) ↔ l[p]? = some (some d) ∧ q ≠ some p := by
  cases q with
  | none => simp [HmacSys.release]
  | some q =>
    rw [HmacSys.release, List.getElem?_set]
    by_cases h : q = p
    · subst h
      rw [if_pos rfl]
      constructor
      · intro e; split at e <;> simp at e
      · rintro ⟨_, e⟩; exact absurd rfl e
    · rw [if_neg h]
      simp [h]

theorem release_length (l : List (Option (List Byte))) (q : Option Nat) : (HmacSys.release l q).length = l.length := by
  cases q <;> simp [HmacSys.release]

/-- Taking the result away from an object (which is not used any more, or gets another). -/
theorem WRel.drop {w : HWorld} {s : HmacSys} (r : WRel w s) {i : Nat} {v : HView} (h : w.objs[i]? = some (some v))
    (x : Option HView) (o' : Option OwnedHmac) (hx : ∀ y, x = some y → y.out = none ∧ ∃ z, o' = some z ∧ VRel y z) :
    WRel { w with objs := w.objs.set i x } ⟨s.objs.set i o', HmacSys.release s.results v.out⟩ := by
  have hw := lt_of_some h
  have hs : i < s.objs.length := by rw [r.len]; exact hw
  have key : ∀ (j : Nat) (y : HView), (w.objs.set i x)[j]? = some (some y) →
      (j = i ∧ x = some y ∧ y.out = none) ∨ (j ≠ i ∧ w.objs[j]? = some (some y)) := by
    intro j y hy
    rw [List.getElem?_set] at hy
    by_cases hj : i = j
    · rw [if_pos hj, if_pos (by omega)] at hy
      simp only [Option.some.injEq] at hy
      exact Or.inl ⟨hj.symm, hy, (hx y hy).1⟩
    · rw [if_neg hj] at hy
      exact Or.inr ⟨fun e => hj e.symm, hy⟩
  refine ⟨by simp [r.len], ?_, by rw [release_length]; exact r.vl, ?_, ?_, ?_⟩
  · intro j y hy
    rcases key j y hy with ⟨rfl, h1, _⟩ | ⟨hj, h1⟩
    · obtain ⟨_, z, hz, vr⟩ := hx y h1
      subst hz
      exact ⟨z, by rw [List.getElem?_set, if_pos rfl, if_pos hs], vr⟩
    · obtain ⟨o, e, vr'⟩ := r.obj j y h1
      exact ⟨o, by rw [List.getElem?_set, if_neg (fun e => hj e.symm)]; exact e, vr'⟩
  · intro p
    constructor
    · rintro ⟨d, e⟩
      obtain ⟨e1, e2⟩ := (release_get _ _ _ _).mp e
      obtain ⟨j, y, h1, h2⟩ := (r.live p).mp ⟨d, e1⟩
      refine ⟨j, y, ?_, h2⟩
      have hj : i ≠ j := by
        rintro rfl
        rw [h] at h1
        cases h1
        exact e2 h2
      rw [List.getElem?_set, if_neg hj]
      exact h1
    · rintro ⟨j, y, h1, h2⟩
      rcases key j y h1 with ⟨_, _, h3⟩ | ⟨hj, h3⟩
      · rw [h3] at h2; cases h2
      · obtain ⟨d, e⟩ := (r.live p).mpr ⟨j, y, h3, h2⟩
        refine ⟨d, (release_get _ _ _ _).mpr ⟨e, fun e' => hj ?_⟩⟩
        exact r.uniq j i y v p h3 h h2 e'
  · intro j k y z p hy hz hyp hzp
    rcases key j y hy with ⟨_, _, h3⟩ | ⟨_, h3⟩
    · rw [h3] at hyp; cases hyp
    · rcases key k z hz with ⟨_, _, h4⟩ | ⟨_, h4⟩
      · rw [h4] at hzp; cases hzp
      · exact r.uniq j k y z p h3 h4 hyp hzp
  · intro p d d' e e'
    exact r.val p d d' ((release_get _ _ _ _).mp e).1 e'

/-- Giving a new result to an object that has none. -/
theorem WRel.give {w : HWorld} {s : HmacSys} (r : WRel w s) {i : Nat} {v v' : HView} {o' : OwnedHmac}
    (h : w.objs[i]? = some (some v)) (hv : v.out = none) (ho : v'.out = some w.vals.length) (vr : VRel v' o')
    (d : List Byte) (x : Option (List Byte)) (hx : ∀ d', x = some d' → d = d') :
    WRel ⟨w.objs.set i (some v'), w.vals ++ [x]⟩ ⟨s.objs.set i (some o'), s.results ++ [some d]⟩ := by
  have hw := lt_of_some h
  have hs : i < s.objs.length := by rw [r.len]; exact hw
  have key : ∀ (j : Nat) (y : HView), (w.objs.set i (some v'))[j]? = some (some y) →
      (j = i ∧ y = v') ∨ (j ≠ i ∧ w.objs[j]? = some (some y)) := by
    intro j y hx
    rw [List.getElem?_set] at hx
    by_cases hj : i = j
    · rw [if_pos hj, if_pos (by omega)] at hx
      simp only [Option.some.injEq] at hx
      exact Or.inl ⟨hj.symm, hx.symm⟩
    · rw [if_neg hj] at hx
      exact Or.inr ⟨fun e => hj e.symm, hx⟩
  have old : ∀ (j : Nat) (y : HView), w.objs[j]? = some (some y) → y.out ≠ some w.vals.length := by
    intro j y h1 h2
    have := r.bound h1 h2
    have := r.vl
    omega
  refine ⟨by simp [r.len], ?_, by simp [r.vl], ?_, ?_, ?_⟩
  · intro j x hx
    rcases key j x hx with ⟨rfl, rfl⟩ | ⟨hj, h1⟩
    · exact ⟨o', by rw [List.getElem?_set, if_pos rfl, if_pos hs], vr⟩
    · obtain ⟨o, e, vr'⟩ := r.obj j x h1
      exact ⟨o, by rw [List.getElem?_set, if_neg (fun e => hj e.symm)]; exact e, vr'⟩
  · intro p
    constructor
    · rintro ⟨d', e⟩
      dsimp only at e
      rcases Nat.lt_or_ge p s.results.length with hp | hp
      · rw [List.getElem?_append_left hp] at e
        obtain ⟨j, y, h1, h2⟩ := (r.live p).mp ⟨d', e⟩
        refine ⟨j, y, ?_, h2⟩
        have hj : i ≠ j := by
          rintro rfl
          rw [h] at h1
          cases h1
          rw [hv] at h2
          cases h2
        rw [List.getElem?_set, if_neg hj]
        exact h1
      · have hlt := lt_of_some e
        rw [List.length_append, List.length_singleton] at hlt
        exact ⟨i, v', by rw [List.getElem?_set, if_pos rfl, if_pos hw], by
          rw [ho, ← r.vl, show p = s.results.length by omega]⟩
    · rintro ⟨j, y, h1, h2⟩
      rcases key j y h1 with ⟨rfl, rfl⟩ | ⟨hj, h3⟩
      · rw [ho, ← r.vl] at h2
        cases h2
        exact ⟨d, by simp⟩
      · obtain ⟨d', e⟩ := (r.live p).mpr ⟨j, y, h3, h2⟩
        exact ⟨d', by show (s.results ++ [some d])[p]? = _; rw [List.getElem?_append_left (lt_of_some e)]; exact e⟩
  · intro j k y z p hy hz hyp hzp
    rcases key j y hy with ⟨rfl, rfl⟩ | ⟨_, h3⟩
    · rcases key k z hz with ⟨rfl, rfl⟩ | ⟨_, h4⟩
      · rfl
      · exact absurd (hzp.trans (hyp.symm.trans ho)) (old k z h4)
    · rcases key k z hz with ⟨rfl, rfl⟩ | ⟨_, h4⟩
      · exact absurd (hyp.trans (hzp.symm.trans ho)) (old j y h3)
      · exact r.uniq j k y z p h3 h4 hyp hzp
  · intro p e e' h1 h2
    dsimp only at h1 h2
    rcases Nat.lt_or_ge p s.results.length with hp | hp
    · rw [List.getElem?_append_left hp] at h1
      rw [List.getElem?_append_left (by rw [← r.vl]; exact hp)] at h2
      exact r.val p e e' h1 h2
    · have hlt := lt_of_some h1
      rw [List.length_append, List.length_singleton] at hlt
      rw [show p = s.results.length by omega] at h1 h2
      simp at h1
      rw [r.vl] at h2
      simp at h2
      rw [← h1]
      exact hx _ h2

/-- Passing a result on from one object to another that has none. -/
theorem WRel.pass {w : HWorld} {s : HmacSys} (r : WRel w s) {i j : Nat} {vi vj vi' vj' : HView} {oi oj : OwnedHmac}
    (hi : w.objs[i]? = some (some vi)) (hj : w.objs[j]? = some (some vj)) (hij : i ≠ j)
    (h1 : vi.out = none) (h2 : vi'.out = vj.out) (h3 : vj'.out = none) (vri : VRel vi' oi) (vrj : VRel vj' oj) :
    WRel { w with objs := (w.objs.set j (some vj')).set i (some vi') }
      { s with objs := (s.objs.set j (some oj)).set i (some oi) } := by
  have hiw := lt_of_some hi
  have hjw := lt_of_some hj
  have his : i < s.objs.length := by rw [r.len]; exact hiw
  have hjs : j < s.objs.length := by rw [r.len]; exact hjw
  have geti : ((w.objs.set j (some vj')).set i (some vi'))[i]? = some (some vi') := by
    rw [List.getElem?_set, if_pos rfl, if_pos (by rw [List.length_set]; exact hiw)]
  have key : ∀ (k : Nat) (y : HView), ((w.objs.set j (some vj')).set i (some vi'))[k]? = some (some y) →
      (k = i ∧ y = vi') ∨ (k = j ∧ y = vj') ∨ (k ≠ i ∧ k ≠ j ∧ w.objs[k]? = some (some y)) := by
    intro k y hx
    rw [List.getElem?_set] at hx
    by_cases hk : i = k
    · rw [if_pos hk, if_pos (by rw [List.length_set]; omega)] at hx
      simp only [Option.some.injEq] at hx
      exact Or.inl ⟨hk.symm, hx.symm⟩
    · rw [if_neg hk, List.getElem?_set] at hx
      by_cases hk' : j = k
      · rw [if_pos hk', if_pos (by omega)] at hx
        simp only [Option.some.injEq] at hx
        exact Or.inr (Or.inl ⟨hk'.symm, hx.symm⟩)
      · rw [if_neg hk'] at hx
        exact Or.inr (Or.inr ⟨fun e => hk e.symm, fun e => hk' e.symm, hx⟩)
  refine ⟨by simp [r.len], ?_, r.vl, ?_, ?_, r.val⟩
  · intro k y hy
    rcases key k y hy with ⟨rfl, rfl⟩ | ⟨rfl, rfl⟩ | ⟨n1, n2, h4⟩
    · exact ⟨oi, by rw [List.getElem?_set, if_pos rfl, if_pos (by rw [List.length_set]; exact his)], vri⟩
    · exact ⟨oj, by rw [List.getElem?_set, if_neg hij, List.getElem?_set, if_pos rfl, if_pos hjs], vrj⟩
    · obtain ⟨o, e, vr'⟩ := r.obj k y h4
      exact ⟨o, by rw [List.getElem?_set, if_neg (fun e => n1 e.symm), List.getElem?_set,
        if_neg (fun e => n2 e.symm)]; exact e, vr'⟩
  · intro p
    rw [r.live p]
    constructor
    · rintro ⟨k, y, h4, h5⟩
      by_cases hk : j = k
      · subst hk
        rw [hj] at h4
        cases h4
        exact ⟨i, vi', geti, by rw [h2]; exact h5⟩
      · have hk' : i ≠ k := by
          rintro rfl
          rw [hi] at h4
          cases h4
          rw [h1] at h5
          cases h5
        exact ⟨k, y, by rw [List.getElem?_set, if_neg hk', List.getElem?_set, if_neg hk]; exact h4, h5⟩
    · rintro ⟨k, y, h4, h5⟩
      rcases key k y h4 with ⟨rfl, rfl⟩ | ⟨rfl, rfl⟩ | ⟨n1, n2, h6⟩
      · exact ⟨j, vj, hj, by rw [← h2]; exact h5⟩
      · rw [h3] at h5; cases h5
      · exact ⟨k, y, h6, h5⟩
  · intro k l y z p hy hz hyp hzp
    rcases key k y hy with ⟨rfl, rfl⟩ | ⟨rfl, rfl⟩ | ⟨n1, n2, h4⟩
    · rcases key l z hz with ⟨rfl, rfl⟩ | ⟨rfl, rfl⟩ | ⟨n3, n4, h5⟩
      · rfl
      · rw [h3] at hzp; cases hzp
      · exact absurd (r.uniq l j z vj p h5 hj hzp (by rw [← h2]; exact hyp)) n4
    · rw [h3] at hyp; cases hyp
    · rcases key l z hz with ⟨rfl, rfl⟩ | ⟨rfl, rfl⟩ | ⟨n3, n4, h5⟩
      · exact absurd (r.uniq k j y vj p h4 hj hyp (by rw [← h2]; exact hzp)) n2
      · rw [h3] at hzp; cases hzp
      · exact r.uniq k l y z p h4 h5 hyp hzp

theorem VRel.reout {v : HView} {o : OwnedHmac} (r : VRel v o) (q : Option Nat) (out : Option (List Byte))
    (hq : isShake v.alg = true → q = none) : VRel { v with out := q } ⟨{ o.enc with output := out }, q⟩ :=
  ⟨r.alg, r.sizes, rfl, hq, r.safe, r.tot, r.inv⟩

theorem viewDigest_ok {v : HView} {o : OwnedHmac} (r : VRel v o) (hs : isShake v.alg = false) (st : HmacEnc.Stack)
    (hst : hmacStackOK v.alg st) :
    ∃ e d, HmacEnc.getDigest o.enc st = .ok (e, some d) ∧ (v.asked = false → d = v.mac) ∧
      ∀ q out, VRel { v with asked := true, out := q } ⟨{ e with output := out }, q⟩ := by
  have cf := kOf_conf v.alg
  have hd := cf.ds
  obtain ⟨h1, h2, h3⟩ := hmac_sizes v.alg hs
  obtain ⟨n, s1, s2, s3, s4, s5⟩ := r.safe hs
  have hout : ((List.range v.alg.digestSize).map st.out).length = (kOf v.alg).ds := by
    rw [List.length_map, List.length_range, digestSize_eq _ hs, hd]
  obtain ⟨c', n', e1, b1, b2, b3⟩ := call_ok (kOf v.alg) (blockBytes v.alg) n (o.enc.ctx v.alg)
    (.digest st.mid (st.inner v.alg) ((List.range v.alg.digestSize).map st.out)) ⟨s1, s2, s3⟩ s4 (cf.u _ h1)
    (by rw [hd]; exact cf.u _ h2) (by rw [hd]; exact cf.t _ h3)
    ⟨cf.wf _ hst.2, by rw [hst.1, hd]; omega, by rw [hout]; exact Nat.le_refl _,
      (kOf v.alg).tot_mono _ _ s5 (cf.t _ r.tot)⟩
  have b2' : n' ≤ n := b2
  rw [HmacCtx.call] at e1
  cases e2 : HmacCtx.digest (v.alg.impl 0) (blockBytes v.alg) (kOf v.alg).ds st.mid (st.inner v.alg) (o.enc.ctx v.alg)
      ((List.range v.alg.digestSize).map st.out) with
  | error _ => rw [e2] at e1; cases e1
  | ok x =>
    rw [e2, bind_ok] at e1
    have e3 : x.1 = c' := by cases e1; rfl
    refine ⟨{ HmacEnc.setCtx o.enc v.alg x.1 with output := some x.2 }, x.2, ?_, ?_, ?_⟩
    · rw [HmacEnc.getDigest, r.alg]
      dsimp only
      rw [if_pos (by rw [spCase_eq, hs]; rfl), blockSize_eq]
      rw [hd, ← digestSize_eq _ hs] at e2
      rw [e2]
      rfl
    · intro ha
      obtain ⟨c3, e4, _⟩ := digest_ok (kOf v.alg) (blockBytes v.alg) _ _ (o.enc.ctx v.alg) (r.inv hs ha) st.mid
        (st.inner v.alg) (cf.wf _ hst.2) (by rw [hst.1, hd]; omega) ((List.range v.alg.digestSize).map st.out)
        (by rw [hout]; exact Nat.le_refl _) (cf.t _ r.tot) (by rw [hd]; exact cf.t _ h3) (cf.u _ h1)
        (by rw [hd]; exact cf.u _ h2)
      rw [List.drop_of_length_le (by rw [hout]; exact Nat.le_refl _), List.append_nil, e2] at e4
      rw [Except.ok.injEq] at e4
      rw [e4]
      rfl
    · intro q out
      refine ⟨r.alg, r.sizes, rfl, (fun h => by rw [hs] at h; cases h), fun _ => ?_, r.tot, (fun _ h => by cases h)⟩
      refine ⟨n', ?_⟩
      show (kOf v.alg).Safe n' ((HmacEnc.setCtx o.enc v.alg x.1).ctx v.alg).hash ∧
        ((HmacEnc.setCtx o.enc v.alg x.1).ctx v.alg).kIPad.length = _ ∧
        ((HmacEnc.setCtx o.enc v.alg x.1).ctx v.alg).kOPad.length = _ ∧ _ ≤ n' ∧ n' ≤ _ + v.msg.length
      rw [setCtx_same, e3]
      exact ⟨b3.1, b3.2.1, b3.2.2, b1, Nat.le_trans b2' s5⟩

theorem viewUpdate_ok {v : HView} {o : OwnedHmac} (r : VRel v o) (x : List Byte) (n : Nat) (hu : okUpd v.alg n)
    (hn : n ≤ x.length) (ht : okTot v.alg (blockBytes v.alg + (v.msg.length + n))) :
    ∃ e, HmacEnc.update o.enc x n = .ok e ∧ VRel { v with msg := v.msg ++ x.take n } ⟨e, o.owned⟩ := by
  have cf := kOf_conf v.alg
  have hl : (v.msg ++ x.take n).length = v.msg.length + n := by
    rw [List.length_append, List.length_take]; omega
  have ht' : okTot v.alg (blockBytes v.alg + (v.msg ++ x.take n).length) := by rw [hl]; exact ht
  cases hs : isShake v.alg with
  | true =>
    refine ⟨o.enc, ?_, r.alg, r.sizes, r.own, r.shake, (fun h => by rw [hs] at h; cases h), ht', (fun h => by rw [hs] at h; cases h)⟩
    rw [HmacEnc.update, r.alg]
    dsimp only
    rw [if_neg (by rw [spCase_eq, hs]; decide)]
  | false =>
    obtain ⟨k, s1, s2, s3, s4, s5⟩ := r.safe hs
    obtain ⟨c1, e1, i1⟩ := (kOf v.alg).safe_update k (o.enc.ctx v.alg).hash x n s1 (cf.u _ hu) hn
      ((kOf v.alg).tot_mono _ _ (by omega) (cf.t _ ht))
    refine ⟨HmacEnc.setCtx o.enc v.alg { o.enc.ctx v.alg with hash := c1 }, ?_, r.alg, r.sizes, r.own, r.shake, ?_, ht', ?_⟩
    · rw [HmacEnc.update, r.alg]
      dsimp only
      rw [if_pos (by rw [spCase_eq, hs]; rfl), HmacCtx.update, e1]
      rfl
    · intro _
      refine ⟨k + n, ?_⟩
      dsimp only
      rw [setCtx_same, hl]
      exact ⟨i1, s2, s3, by omega, by omega⟩
    · intro _ ha
      obtain ⟨c2, e2, i2⟩ := update_ok (kOf v.alg) (blockBytes v.alg) _ _ (o.enc.ctx v.alg) (r.inv hs ha) x n
        (cf.u _ hu) hn ((kOf v.alg).tot_mono _ _ (by omega) (cf.t _ ht))
      rw [HmacCtx.update, e1, bind_ok, Except.ok.injEq] at e2
      dsimp only
      rw [setCtx_same, e2]
      exact i2

theorem viewChange_ok {v : HView} {o : OwnedHmac} (r : VRel v o) (c : HmacEnc.Call) (hc : hmacUpdateOK v.alg c)
    (ht : okTot v.alg (blockBytes v.alg + (v.msg.length + (hmacInputOf c).length))) :
    ∃ e, HmacEnc.calls o.enc [c] = .ok (e, []) ∧ VRel { v with msg := v.msg ++ hmacInputOf c } ⟨e, o.owned⟩ := by
  have key : ∀ y n, okUpd v.alg n → n ≤ y.length → y.take n = hmacInputOf c →
      ∃ e, HmacEnc.update o.enc y n = .ok e ∧ VRel { v with msg := v.msg ++ hmacInputOf c } ⟨e, o.owned⟩ := by
    intro y n hu hn e
    have hl : (hmacInputOf c).length = n := by rw [← e, List.length_take]; omega
    rw [hl] at ht
    obtain ⟨e1, h1, h2⟩ := viewUpdate_ok r y n hu hn ht
    rw [e] at h2
    exact ⟨e1, h1, h2⟩
  cases c with
  | update y =>
    obtain ⟨e, h1, h2⟩ := key y y.length hc (Nat.le_refl _) List.take_length
    exact ⟨e, by rw [HmacEnc.calls, h1]; rfl, h2⟩
  | updateC mem =>
    obtain ⟨q1, q2, q3⟩ := strlen_take mem hc.1
    obtain ⟨e, h1, h2⟩ := key mem _ hc.2 q2 q3
    exact ⟨e, by rw [HmacEnc.calls, HmacEnc.updateC, q1, bind_ok, h1]; rfl, h2⟩
  | updateS s =>
    obtain ⟨e, h1, h2⟩ := key (s ++ [0#8]) s.length hc (by simp) (List.take_left' rfl)
    exact ⟨e, by rw [HmacEnc.calls, HmacEnc.updateS, h1]; rfl, h2⟩
  | updateSd ord s =>
    obtain ⟨rfl, hc1⟩ := hc
    obtain ⟨e, h1, h2⟩ := key (s ++ [0#8]) s.length hc1 (by simp) (List.take_left' rfl)
    exact ⟨e, by rw [HmacEnc.calls, HmacEnc.updateSd, sdArgs, bind_ok, h1]; rfl, h2⟩
  | reset =>
    refine ⟨o.enc, rfl, ?_⟩
    rw [show v.msg ++ hmacInputOf .reset = v.msg from List.append_nil _]
    exact ⟨r.alg, r.sizes, r.own, r.shake, r.safe, r.tot, r.inv⟩
  | getDigest _ => exact absurd hc (by simp [hmacUpdateOK])

theorem setKey_sizes (o : HmacEnc) (x : List Byte) (n : Nat) (e : HmacEnc) (h : o.setKey x n = .ok e) :
    e.digsz = o.digsz ∧ e.blocksz = o.blocksz := by
  rw [HmacEnc.setKey] at h
  cases hc : o.curAlg with
  | none => rw [hc] at h; cases h; exact ⟨rfl, rfl⟩
  | some a =>
    rw [hc] at h
    dsimp only at h
    split at h
    · cases hk : HmacCtx.setKey (a.impl 0) a.blockSize (o.ctx a) x n with
      | error _ => rw [hk] at h; cases h
      | ok c => rw [hk, bind_ok] at h; cases h; exact ⟨rfl, rfl⟩
    · cases h; exact ⟨rfl, rfl⟩

theorem select_sizes (g : HmacEnc) (a : Alg) (o : HmacEnc)
    (h : HmacEnc.selectAlgorithm a { g with output := none } = .ok o) : (o.digsz, o.blocksz) = hmacSizes g a := by
  rw [HmacEnc.selectAlgorithm] at h
  rw [hmacSizes]
  dsimp only at h
  by_cases hc : g.curAlg = some a
  · rw [if_pos hc] at h
    rw [if_pos (Or.inl hc)]
    cases h
    rfl
  · rw [if_neg hc, HmacEnc.afterChangeAlg] at h
    dsimp only at h
    cases hs : isShake a with
    | true =>
      rw [if_neg (by rw [spCase_eq, hs]; decide)] at h
      rw [if_pos (Or.inr rfl)]
      cases h
      rfl
    | false =>
      rw [if_pos (by rw [spCase_eq, hs]; rfl)] at h
      rw [if_neg (by simp [hc])]
      cases hk : HmacCtx.init (a.impl 0) a.blockSize (g.ctx a) with
      | error _ => rw [hk] at h; cases h
      | ok c =>
        rw [hk, bind_ok] at h
        cases h
        rw [← digestSize_eq a hs, ← blockSize_eq]

theorem construct_sizes (g : HmacEnc) (a : Alg) (k : KeyArg) (e : HmacEnc) (h : k.construct g a = .ok e) :
    (e.digsz, e.blocksz) = hmacSizes g a := by
  have key : ∀ (f : HmacEnc → C HmacEnc), (∀ o e, f o = .ok e → ∃ x n, o.setKey x n = .ok e) →
      (HmacEnc.selectAlgorithm a { g with output := none } >>= f) = .ok e → (e.digsz, e.blocksz) = hmacSizes g a := by
    intro f hf h
    cases hs : HmacEnc.selectAlgorithm a { g with output := none } with
    | error _ => rw [hs] at h; cases h
    | ok o =>
      rw [hs, bind_ok] at h
      obtain ⟨x, n, h'⟩ := hf o e h
      obtain ⟨h1, h2⟩ := setKey_sizes o x n e h'
      rw [h1, h2]
      exact select_sizes g a o hs
  cases k with
  | bytes seq n => exact key _ (fun o e h => ⟨_, _, h⟩) h
  | cstr mem =>
    refine key _ (fun o e h => ?_) h
    cases hs : strlen mem with
    | error _ => rw [hs] at h; cases h
    | ok n => rw [hs, bind_ok] at h; exact ⟨_, _, h⟩
  | str s => exact key _ (fun o e h => ⟨_, _, h⟩) h
  | sd ord s =>
    refine key _ (fun o e h => ?_) h
    cases hs : sdArgs ord s with
    | error _ => rw [hs] at h; cases h
    | ok n => rw [hs, bind_ok] at h; exact ⟨_, _, h⟩

theorem viewConstruct_ok (g : HmacEnc) (hg : hmacGarbageOK g) (a : Alg) (k : KeyArg) (hk : k.ok) :
    ∃ e, k.construct g a = .ok e ∧ VRel ⟨a, hmacSizes g a, k.key, [], false, none⟩ ⟨e, none⟩ := by
  have cf := kOf_conf a
  have ht : okTot a (blockBytes a + 0) := by cases a <;> simp [okTot, blockBytes]
  cases hs : isShake a with
  | false =>
    obtain ⟨e, h1, h2, h3⟩ := construct_ok hs (kOf a) cf g hg k hk
    refine ⟨e, h1, h2, construct_sizes g a k e h1, rfl, fun h => (by rfl), fun _ => ?_, ht, fun _ _ => h3⟩
    have h4 := (kOf a).safe _ _ h3.inv
    rw [List.append_nil, xorPad_length _ _ _ h3.kl] at h4
    exact ⟨_, h4, h3.il, by rw [h3.op, xorPad_length _ _ _ h3.kl], Nat.le_refl _, Nat.le_add_right _ _⟩
  | true =>
    have hsel : ∃ o, HmacEnc.selectAlgorithm a { g with output := none } = .ok o ∧ o.curAlg = some a := by
      rw [HmacEnc.selectAlgorithm]
      by_cases hc : g.curAlg = some a
      · rw [if_pos hc]; exact ⟨_, rfl, hc⟩
      · rw [if_neg hc, HmacEnc.afterChangeAlg]
        dsimp only
        rw [if_neg (by rw [spCase_eq, hs]; decide)]
        exact ⟨_, rfl, rfl⟩
    obtain ⟨o1, e1, c1⟩ := hsel
    have hsk : ∀ y n, o1.setKey y n = .ok o1 := by
      intro y n
      rw [HmacEnc.setKey, c1]
      dsimp only
      rw [if_neg (by rw [spCase_eq, hs]; decide)]
    have e2 : k.construct g a = .ok o1 := ?_
    · exact ⟨o1, e2, c1, construct_sizes g a k o1 e2, rfl, fun _ => rfl, (fun h => by rw [hs] at h; cases h), ht,
        (fun h => by rw [hs] at h; cases h)⟩
    cases k with
    | bytes seq n => rw [KeyArg.construct, HmacEnc.construct, e1, bind_ok, hsk]
    | cstr mem => rw [KeyArg.construct, HmacEnc.constructC, e1, bind_ok, (strlen_take mem hk).1, bind_ok, hsk]
    | str s => rw [KeyArg.construct, HmacEnc.constructS, e1, bind_ok, hsk]
    | sd ord s =>
      cases (show ord = .leftFirst from hk)
      rw [KeyArg.construct, HmacEnc.constructSd, e1, bind_ok, sdArgs, bind_ok, hsk]

theorem set_set' {α : Type} (l : List α) (i : Nat) (x y : α) : (l.set i x).set i y = l.set i y := by simp

theorem exec_ok {w : HWorld} {s : HmacSys} (r : WRel w s) (x : HOp) (hx : w.allows x) :
    ∃ s', x.exec s = .ok (s', w.returned x) ∧ WRel (w.after x) s' := by
  cases x with
  | construct g a k =>
    obtain ⟨e, h1, h2⟩ := viewConstruct_ok g hx.1 a k hx.2
    exact ⟨_, by rw [HOp.exec, h1, bind_ok]; rfl, r.new rfl h2⟩
  | change i c =>
    obtain ⟨v, hv, hc, ht⟩ := hx
    obtain ⟨o, h1, h2, h3, h4⟩ := r.objOf hv
    obtain ⟨e, h5, h6⟩ := viewChange_ok h2 c hc ht
    refine ⟨{ s with objs := s.objs.set i (some ⟨e, o.owned⟩) }, ?_, ?_⟩
    · rw [HOp.exec, HmacSys.change, h1, bind_ok, h5]; rfl
    · rw [HWorld.after, hv]
      exact r.same (view_some.mp hv) rfl h6
  | getDigest i st =>
    obtain ⟨v, hv, hst⟩ := hx
    obtain ⟨o, h1, h2, h3, h4⟩ := r.objOf hv
    have hv' := view_some.mp hv
    cases hs : isShake v.alg with
    | true =>
      refine ⟨s, ?_, ?_⟩
      · rw [HOp.exec, HmacSys.getDigest, h1, bind_ok, HmacEnc.getDigest, h2.alg]
        dsimp only
        rw [if_neg (by rw [spCase_eq, hs]; decide), bind_ok, if_neg (by rw [spCase_eq, hs]; decide), bind_ok,
          HWorld.returned, hv]
        dsimp only
        rw [if_pos hs, h2.own, h2.shake hs]
      · rw [HWorld.after, hv]
        dsimp only
        rw [if_pos hs]
        exact r
    | false =>
      obtain ⟨e, d, h5, h6, h7⟩ := viewDigest_ok h2 hs st (hst hs)
      have h8 : VRel { v with asked := true, out := some s.results.length } ⟨e, some s.results.length⟩ :=
        h7 (some s.results.length) e.output
      refine ⟨⟨s.objs.set i (some ⟨e, some s.results.length⟩), HmacSys.release s.results o.owned ++ [some d]⟩, ?_, ?_⟩
      · rw [HOp.exec, HmacSys.getDigest, h1, bind_ok, h5, bind_ok, h2.alg]
        dsimp only
        rw [if_pos (by rw [spCase_eq, hs]; rfl), bind_ok, HWorld.returned, hv]
        dsimp only
        rw [if_neg (by rw [hs]; decide), r.vl]
      · rw [HWorld.after, hv]
        dsimp only
        rw [if_neg (by rw [hs]; decide), h2.own]
        have r1 := r.drop hv' (some { v with out := none }) (some ⟨{ o.enc with output := none }, none⟩)
          (fun y hy => by cases hy; exact ⟨rfl, _, rfl, h2.reout none none (fun _ => rfl)⟩)
        have h9 : (w.objs.set i (some { v with out := none }))[i]? = some (some { v with out := none }) := by
          rw [List.getElem?_set, if_pos rfl, if_pos h4]
        have r2 := r1.give (v' := { v with asked := true, out := some w.vals.length }) h9 rfl rfl
          (o' := ⟨e, some s.results.length⟩) (by rw [← r.vl]; exact h8) d
          (if v.asked then none else some v.mac) (by
            intro d' hd'
            cases ha : v.asked with
            | true => rw [ha] at hd'; cases hd'
            | false => rw [ha] at hd'; cases hd'; exact h6 ha)
        dsimp only at r2
        rw [set_set', set_set'] at r2
        exact r2
  | digestThrows i st =>
    obtain ⟨v, hv, hs, hst⟩ := hx
    obtain ⟨o, h1, h2, h3, h4⟩ := r.objOf hv
    obtain ⟨e, d, h5, h6, h7⟩ := viewDigest_ok h2 hs st hst
    refine ⟨{ s with objs := s.objs.set i (some ⟨{ e with output := o.enc.output }, o.owned⟩) }, ?_, ?_⟩
    · rw [HOp.exec, HmacSys.digestThrows, h1, bind_ok, h5]; rfl
    · rw [HWorld.after, hv]
      have h8 := h7 v.out o.enc.output
      rw [h2.own]
      exact r.same (view_some.mp hv) rfl h8
  | moveNew j =>
    obtain ⟨v, hv⟩ := hx
    obtain ⟨o, h1, h2, h3, h4⟩ := r.objOf hv
    have hv' := view_some.mp hv
    refine ⟨{ s with objs := s.objs.set j (some ⟨{ o.enc with output := none }, none⟩) ++ [some o] }, ?_, ?_⟩
    · rw [HOp.exec, HmacSys.moveNew, h1]; rfl
    · rw [HWorld.after, hv]
      dsimp only
      have vn := h2.reout none none (fun _ => rfl)
      have r1 := r.new (v := { v with out := none }) rfl vn
      have g1 : (w.objs ++ [some { v with out := none }])[w.objs.length]? = some (some { v with out := none }) := by
        simp
      have g2 : (w.objs ++ [some { v with out := none }])[j]? = some (some v) := by
        rw [List.getElem?_append_left h4]; exact hv'
      have r2 := r1.pass g1 g2 (by omega) rfl rfl (vi' := v) (vj' := { v with out := none }) rfl h2 vn
      dsimp only at r2
      have e1 : ∀ {α : Type} (l : List α) (x y z : α), j < l.length →
          ((l ++ [x]).set j y).set l.length z = l.set j y ++ [z] := by
        intro α l x y z hj
        rw [List.set_append_left _ _ hj, List.set_append_right _ _ (by simp)]
        simp
      rw [e1 _ _ _ _ h4] at r2
      rw [← r.len] at r2
      rw [e1 _ _ _ _ h3] at r2
      exact r2
  | moveAssign i j =>
    obtain ⟨⟨vi, hvi⟩, ⟨vj, hvj⟩⟩ := hx
    obtain ⟨oi, h1, h2, h3, h4⟩ := r.objOf hvi
    obtain ⟨oj, k1, k2, k3, k4⟩ := r.objOf hvj
    by_cases hij : i = j
    · refine ⟨s, ?_, ?_⟩
      · rw [HOp.exec, HmacSys.moveAssign, h1, bind_ok, k1, bind_ok, if_pos hij]; rfl
      · rw [HWorld.after, hvj]
        dsimp only
        rw [if_pos hij]
        exact r
    · refine ⟨⟨(s.objs.set j (some ⟨{ oj.enc with output := none }, none⟩)).set i (some oj),
        HmacSys.release s.results oi.owned⟩, ?_, ?_⟩
      · rw [HOp.exec, HmacSys.moveAssign, h1, bind_ok, k1, bind_ok, if_neg hij]; rfl
      · rw [HWorld.after, hvj]
        dsimp only
        rw [if_neg hij, h2.own]
        have r1 := r.drop (view_some.mp hvi) (some { vi with out := none }) (some ⟨{ oi.enc with output := none }, none⟩)
          (fun y hy => by cases hy; exact ⟨rfl, _, rfl, h2.reout none none (fun _ => rfl)⟩)
        have g1 : (w.objs.set i (some { vi with out := none }))[i]? = some (some { vi with out := none }) := by
          rw [List.getElem?_set, if_pos rfl, if_pos h4]
        have g2 : (w.objs.set i (some { vi with out := none }))[j]? = some (some vj) := by
          rw [List.getElem?_set, if_neg hij]; exact view_some.mp hvj
        have r2 := r1.pass g1 g2 hij rfl rfl (vi' := vj) (vj' := { vj with out := none }) rfl k2
          (k2.reout none none (fun _ => rfl))
        dsimp only at r2
        have e1 : ∀ {α : Type} (l : List α) (x y z : α), ((l.set i x).set j y).set i z = (l.set j y).set i z := by
          intro α l x y z
          rw [List.set_comm _ _ hij, set_set']
        rw [e1, e1] at r2
        exact r2
  | destroy i =>
    obtain ⟨v, hv⟩ := hx
    obtain ⟨o, h1, h2, h3, h4⟩ := r.objOf hv
    refine ⟨⟨s.objs.set i none, HmacSys.release s.results o.owned⟩, ?_, ?_⟩
    · rw [HOp.exec, HmacSys.destroy, h1]; rfl
    · rw [h2.own]
      exact r.drop (view_some.mp hv) none none (fun y hy => by cases hy)

theorem execs_ok (l : List HOp) : ∀ {w : HWorld} {s : HmacSys}, WRel w s → w.allowsAll l →
    ∃ s', HOp.execs s l = .ok (s', w.returnedAll l) ∧ WRel (w.afterAll l) s' := by
  induction l with
  | nil => intro w s r _; exact ⟨s, rfl, r⟩
  | cons x l ih =>
    intro w s r h
    obtain ⟨s1, e1, r1⟩ := exec_ok r x h.1
    obtain ⟨s2, e2, r2⟩ := ih r1 h.2
    exact ⟨s2, by rw [HOp.execs, e1, bind_ok, e2]; rfl, r2⟩

theorem WRel.start : WRel ⟨[], []⟩ ⟨[], []⟩ :=
  ⟨rfl, by intro i v h; simp at h, rfl, by intro p; simp, by intro i j v v' p h; simp at h, by intro p d d' h; simp at h⟩

/-- **C78.** Every program that makes `HMACEncoder` objects, uses, moves and destroys them, with failing allocations at
any point, is well defined; `get_digest` returns a new result each time (null for the SHAKE algorithms); and at every
point exactly the results that some object owns can be read: the one an object got last, until it gets another, is
assigned to or is destroyed, whether or not it was moved meanwhile. -/
theorem C78 (l : List HOp) (hl : HWorld.allowsAll ⟨[], []⟩ l) :
    ∃ s, HOp.execs ⟨[], []⟩ l = .ok (s, HWorld.returnedAll ⟨[], []⟩ l) ∧
      ∀ p, (∃ d, s.read p = .ok d) ↔ (HWorld.afterAll ⟨[], []⟩ l).owned p := by
  obtain ⟨s, e, r⟩ := execs_ok l WRel.start hl
  refine ⟨s, e, fun p => ?_⟩
  have h1 : (∃ d, s.read p = .ok d) ↔ ∃ d, s.results[p]? = some (some d) := by
    rw [HmacSys.read]
    cases h : s.results[p]? with
    | none => simp
    | some x => cases x <;> simp
  rw [h1, r.live p, HWorld.owned]
  simp only [view_some]

/-- **C78, values.** What is read is the MAC of the bytes that had been passed to the object, and to those it was moved
from, when `get_digest` was called on it for the first time. -/
theorem C78_values (l : List HOp) (hl : HWorld.allowsAll ⟨[], []⟩ l) (p : Nat) (d : List Byte)
    (hd : (HWorld.afterAll ⟨[], []⟩ l).vals[p]? = some (some d)) (ho : (HWorld.afterAll ⟨[], []⟩ l).owned p) :
    ∃ s, HOp.execs ⟨[], []⟩ l = .ok (s, HWorld.returnedAll ⟨[], []⟩ l) ∧ s.read p = .ok d := by
  obtain ⟨s, e, r⟩ := execs_ok l WRel.start hl
  obtain ⟨i, v, hv, hp⟩ := ho
  obtain ⟨d', e'⟩ := (r.live p).mpr ⟨i, v, view_some.mp hv, hp⟩
  exact ⟨s, e, by rw [HmacSys.read, e', ← r.val p d' d e' hd]⟩

/-- **C78, accessors.** `algorithm()`, `digest_size()` and `block_size()` of every object, also after moves. -/
theorem C78_accessors (l : List HOp) (hl : HWorld.allowsAll ⟨[], []⟩ l) (i : Nat) (v : HView)
    (hv : (HWorld.afterAll ⟨[], []⟩ l).view i = some v) :
    ∃ s o, HOp.execs ⟨[], []⟩ l = .ok (s, HWorld.returnedAll ⟨[], []⟩ l) ∧ s.obj i = .ok o ∧
      o.enc.curAlg = some v.alg ∧ (o.enc.digsz, o.enc.blocksz) = v.sizes := by
  obtain ⟨s, e, r⟩ := execs_ok l WRel.start hl
  obtain ⟨o, h1, h2, _⟩ := r.objOf hv
  exact ⟨s, o, e, h1, h2.alg, h2.sizes⟩

/-- **C78, no leaks.** When all objects have been destroyed, so have all results. -/
theorem C78_leaks (l : List HOp) (hl : HWorld.allowsAll ⟨[], []⟩ l)
    (hd : ∀ i, (HWorld.afterAll ⟨[], []⟩ l).view i = none) :
    ∃ s, HOp.execs ⟨[], []⟩ l = .ok (s, HWorld.returnedAll ⟨[], []⟩ l) ∧ ∀ x ∈ s.results, x = none := by
  obtain ⟨s, e, r⟩ := execs_ok l WRel.start hl
  refine ⟨s, e, fun x hx => ?_⟩
  cases x with
  | none => rfl
  | some d =>
    obtain ⟨p, hp⟩ := List.mem_iff_getElem?.mp hx
    obtain ⟨i, v, h1, _⟩ := (r.live p).mp ⟨d, hp⟩
    have := hd i
    rw [view_some.mpr h1] at this
    cases this

/-- **C78.** The value is the standard's MAC (partial: keys up to the block size, C33; messages that need no second
padding block, C18-C20). -/
theorem C78_standard_partial (v : HView) (hs : isShake v.alg = false) (hk : v.key.length ≤ blockBytes v.alg)
    (h1 : onePadBlock v.alg v.msg.length) : v.mac = hmac (stdHash v.alg 0) (blockBytes v.alg) v.key v.msg := by
  rw [HView.mac, List.take_of_length_le hk, hmac, if_neg (by omega), hmac_std v.alg hs _ _ hk h1]

/-! ## Concrete cases -/

/-- Two objects from one: the first gets "what do ya want ", is moved to the second, both get an ending, the second a
result, which survives a failing `get_digest`, a move into the first and the destruction of the second. -/
def moveProg : List HOp :=
  [.construct someHmacObj .SHA1 (.str (Pgfe.str "Jefe")), .change 0 (.update (Pgfe.str "what do ya want ")), .moveNew 0,
   .change 0 (.updateS (Pgfe.str "to eat?")), .change 1 (.updateS (Pgfe.str "for nothing?")), .getDigest 0 someHmacStack,
   .getDigest 1 someHmacStack, .digestThrows 1 someHmacStack, .moveAssign 0 1, .destroy 1]

theorem moveProg_ok : HWorld.allowsAll ⟨[], []⟩ moveProg := by
  have ht : ∀ n, n < 1000 → okTot .SHA1 (blockBytes .SHA1 + n) := by
    intro n hn; show 8 * (64 + n) < 2 ^ 64; omega
  have hu : ∀ n, n < 1000 → okUpd .SHA1 n := by intro n hn; show n < 2 ^ 31; omega
  refine ⟨⟨someHmacObj_ok, trivial⟩, ⟨_, rfl, hu _ (by decide), ht _ (by decide)⟩, ⟨_, rfl⟩,
    ⟨_, rfl, hu _ (by decide), ht _ (by decide)⟩, ⟨_, rfl, hu _ (by decide), ht _ (by decide)⟩,
    ⟨_, rfl, fun _ => someHmacStack_ok⟩, ⟨_, rfl, fun _ => someHmacStack_ok⟩, ⟨_, rfl, rfl, someHmacStack_ok⟩,
    ⟨⟨_, rfl⟩, ⟨_, rfl⟩⟩, ⟨_, rfl⟩, trivial⟩

/-- `C78`, `C78_values` for this program: pointer 1 shows the MAC of RFC 2202, pointer 0 is invalid. -/
theorem C78_example : ∃ s, HOp.execs ⟨[], []⟩ moveProg = .ok (s, [some 0, some 1]) ∧ s.read 1 = .ok jefeMac ∧
    ∀ d, s.read 0 ≠ .ok d := by
  obtain ⟨s, e, h⟩ := C78 moveProg moveProg_ok
  have h1 : (HWorld.afterAll ⟨[], []⟩ moveProg).vals[1]? = some (some (HView.mac ⟨.SHA1, (0, 0), Pgfe.str "Jefe", jefeMsg, false, none⟩)) :=
    rfl
  obtain ⟨s', e', h'⟩ := C78_values moveProg moveProg_ok 1 _ h1 ⟨0, _, rfl, rfl⟩
  rw [e, Except.ok.injEq, Prod.mk.injEq] at e'
  obtain ⟨rfl, _⟩ := e'
  rw [C78_standard_partial _ rfl (by decide) (by show _ % 64 < 56; decide), jefeMac_eq] at h'
  refine ⟨s, e, h', fun d hd => ?_⟩
  obtain ⟨i, v, hv, hp⟩ := (h 0).mp ⟨d, hd⟩
  have hw : HWorld.afterAll ⟨[], []⟩ moveProg =
      ⟨[some ⟨.SHA1, (77, 78), Pgfe.str "Jefe", Pgfe.str "what do ya want " ++ Pgfe.str "for nothing?", true, some 1⟩, none],
       (HWorld.afterAll ⟨[], []⟩ moveProg).vals⟩ := rfl
  rw [hw, view_some] at hv
  match i, hv with
  | 0, hv => cases hv; cases hp
  | 1, hv => cases hv
  | i + 2, hv => simp at hv

/-- `C78_leaks` for this program followed by the destruction of the first object. -/
theorem C78_leaks_example : ∃ s, HOp.execs ⟨[], []⟩ (moveProg ++ [.destroy 0]) = .ok (s, [some 0, some 1]) ∧
    ∀ x ∈ s.results, x = none := by
  have h : ∀ (l : List HOp) (w : HWorld) (x : HOp), w.allowsAll l → (w.afterAll l).allows x → w.allowsAll (l ++ [x]) := by
    intro l
    induction l with
    | nil => intro w x _ h; exact ⟨h, trivial⟩
    | cons y l ih => intro w x h1 h2; exact ⟨h1.1, ih _ _ h1.2 h2⟩
  refine C78_leaks _ (h _ _ _ moveProg_ok ⟨_, rfl⟩) (fun i => ?_)
  have hw : HWorld.afterAll ⟨[], []⟩ (moveProg ++ [.destroy 0]) = ⟨[none, none],
    (HWorld.afterAll ⟨[], []⟩ (moveProg ++ [.destroy 0])).vals⟩ := rfl
  rw [hw, HWorld.view]
  match i with
  | 0 => rfl
  | 1 => rfl
  | i + 2 => simp

/-- **C78, violation.** A `get_digest` that ran out of memory cannot be repeated: the second attempt returns other bytes
than the MAC. -/
theorem C78_retry_violation : ∃ s d, HOp.execs ⟨[], []⟩ [.construct someHmacObj .SHA1 (.str (Pgfe.str "Jefe")),
      .change 0 (.update jefeMsg), .digestThrows 0 someHmacStack, .getDigest 0 someHmacStack] = .ok (s, [some 0]) ∧
    s.read 0 = .ok d ∧ d ≠ HView.mac ⟨.SHA1, (0, 0), Pgfe.str "Jefe", jefeMsg, false, none⟩ := by
  have hl : HWorld.allowsAll ⟨[], []⟩ [.construct someHmacObj .SHA1 (.str (Pgfe.str "Jefe")),
      .change 0 (.update jefeMsg), .digestThrows 0 someHmacStack, .getDigest 0 someHmacStack] := by
    refine ⟨⟨someHmacObj_ok, trivial⟩, ⟨_, rfl, ?_, ?_⟩, ⟨_, rfl, rfl, someHmacStack_ok⟩,
      ⟨_, rfl, fun _ => someHmacStack_ok⟩, trivial⟩
    · show List.length _ < 2 ^ 31; decide
    · show 8 * _ < 2 ^ 64; decide
  obtain ⟨s, e, h⟩ := C78 _ hl
  obtain ⟨d, hd⟩ := (h 0).mpr ⟨0, _, rfl, rfl⟩
  refine ⟨s, d, e, hd, ?_⟩
  rw [C78_standard_partial _ rfl (by decide) (by show _ % 64 < 56; decide), jefeMac_eq]
  rintro rfl
  have hk : ((HOp.execs ⟨[], []⟩ [.construct someHmacObj .SHA1 (.str (Pgfe.str "Jefe")),
      .change 0 (.update jefeMsg), .digestThrows 0 someHmacStack, .getDigest 0 someHmacStack] >>= fun r => r.1.read 0).toOption.map
      List.head?) = some (some 0xcc#8) := by decide +kernel
  rw [e, bind_ok] at hk
  dsimp only at hk
  rw [hd] at hk
  exact absurd hk (by decide)

end Pgfe.Props
