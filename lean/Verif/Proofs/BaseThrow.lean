import Verif.Model.BaseThrow
import Verif.Props.BaseObject
/-!
# Invariants of base-encoding objects in the presence of exceptions
-/
namespace Pgfe.Proofs.Throw
open Pgfe.Model Pgfe.Spec Pgfe.Proofs Pgfe.Props

/-- `o0` is `o` with its dead halves replaced by something usable. -/
structure Heals (e d : Bool) (o o0 : BaseObj) : Prop where
  encAlive : e = false → o.enCache = o0.enCache ∧ o.encsz = o0.encsz ∧ o.encLock = o0.encLock
  encDead : e = true → o0.encLock = none ∧ o.encLock ≠ none
  decAlive : d = false → o.deCache = o0.deCache ∧ o.decsz = o0.decsz ∧ o.decLock = o0.decLock
  decDead : d = true → o0.decLock = none ∧ o.decLock ≠ none

/-- The invariant; `e` and `d` say that an exception has left `encode` and `decode`. -/
def Inv (K : BaseClass) (work : Nat → List BaseCall) (e d : Bool) (s : System) : Prop :=
  ∃ o0, SysInv K work ⟨o0, s.threads⟩ ∧ Heals e d s.obj o0

theorem encView_start {t : Thread} {S g x ph} (hc : t.cur = some (.enc S g x, ph))
    (hv : encView t = none) : ph = .start := by
  unfold encView at hv
  rw [hc] at hv
  cases ph <;> simp at hv <;> rfl

theorem decView_start {t : Thread} {x ph} (hc : t.cur = some (.dec x, ph))
    (hv : decView t = none) : ph = .start := by
  unfold decView at hv
  rw [hc] at hv
  cases ph <;> simp at hv <;> rfl

/-- A step of `encode` on two objects with the same encoder side. -/
theorem encStep_same (K : BaseClass) (i : Nat) (t : Thread) (o o0 : BaseObj) {S g x ph}
    (hc : t.cur = some (.enc S g x, ph)) (h1 : o.enCache = o0.enCache) (h2 : o.encsz = o0.encsz)
    (h3 : o.encLock = o0.encLock) :
    threadStep K i o t = (threadStep K i o0 t).map (fun r => r.map fun p =>
      ({ p.1 with deCache := o.deCache, decsz := o.decsz, decLock := o.decLock }, p.2)) ∧
    ∀ p, threadStep K i o0 t = some (.ok p) → p.1.deCache = o0.deCache ∧ p.1.decsz = o0.decsz ∧
      p.1.decLock = o0.decLock := by
  obtain ⟨a, b, a', b', l, l'⟩ := o
  obtain ⟨c, d, c', d', m, m'⟩ := o0
  dsimp only at h1 h2 h3
  subst h1 h2 h3
  unfold threadStep
  rw [hc]
  cases ph <;> dsimp only
  · cases l <;> exact ⟨rfl, by simp⟩
  · by_cases hle : b ≤ K.encEst x.length
    · rw [if_pos hle, if_pos hle]; exact ⟨rfl, by simp [encAlloc]⟩
    · rw [if_neg hle, if_neg hle]; exact ⟨rfl, by simp⟩
  · exact ⟨rfl, by simp [encSetSize]⟩
  · unfold encRun
    generalize pgfeEncode _ _ _ _ _ _ = q
    cases q with
    | error e => exact ⟨rfl, by intro p hp; cases hp⟩
    | ok q => exact ⟨rfl, by intro p hp; cases hp; exact ⟨rfl, rfl, rfl⟩⟩
  · unfold encNul
    generalize wr _ _ _ = q
    cases q with
    | error e => exact ⟨rfl, by intro p hp; cases hp⟩
    | ok q => exact ⟨rfl, by intro p hp; cases hp; exact ⟨rfl, rfl, rfl⟩⟩
  · generalize cstr _ = q
    cases q with
    | error e => exact ⟨rfl, by intro p hp; cases hp⟩
    | ok q => exact ⟨rfl, by intro p hp; cases hp; exact ⟨rfl, rfl, rfl⟩⟩
  · exact ⟨rfl, by simp⟩

/-- A step of `decode` on two objects with the same decoder side. -/
theorem decStep_same (K : BaseClass) (i : Nat) (t : Thread) (o o0 : BaseObj) {x ph}
    (hc : t.cur = some (.dec x, ph)) (h1 : o.deCache = o0.deCache) (h2 : o.decsz = o0.decsz)
    (h3 : o.decLock = o0.decLock) :
    threadStep K i o t = (threadStep K i o0 t).map (fun r => r.map fun p =>
      ({ p.1 with enCache := o.enCache, encsz := o.encsz, encLock := o.encLock }, p.2)) ∧
    ∀ p, threadStep K i o0 t = some (.ok p) → p.1.enCache = o0.enCache ∧ p.1.encsz = o0.encsz ∧
      p.1.encLock = o0.encLock := by
  obtain ⟨a', b', a, b, l', l⟩ := o
  obtain ⟨c', d', c, d, m', m⟩ := o0
  dsimp only at h1 h2 h3
  subst h1 h2 h3
  unfold threadStep
  rw [hc]
  cases ph <;> dsimp only
  · cases l <;> exact ⟨rfl, by simp⟩
  · by_cases hle : b ≤ K.decEst x.length
    · rw [if_pos hle, if_pos hle]; exact ⟨rfl, by simp [decAlloc]⟩
    · rw [if_neg hle, if_neg hle]; exact ⟨rfl, by simp⟩
  · exact ⟨rfl, by simp [decSetSize]⟩
  · unfold decRun
    generalize pgfeDecode _ _ _ = q
    cases q with
    | error e => exact ⟨rfl, by intro p hp; cases hp⟩
    | ok q => exact ⟨rfl, by intro p hp; cases hp; exact ⟨rfl, rfl, rfl⟩⟩
  · unfold decNul
    generalize wr _ _ _ = q
    cases q with
    | error e => exact ⟨rfl, by intro p hp; cases hp⟩
    | ok q => exact ⟨rfl, by intro p hp; cases hp; exact ⟨rfl, rfl, rfl⟩⟩
  · generalize rds _ _ _ = q
    cases q with
    | error e => exact ⟨rfl, by intro p hp; cases hp⟩
    | ok q => exact ⟨rfl, by intro p hp; cases hp; exact ⟨rfl, rfl, rfl⟩⟩
  · exact ⟨rfl, by simp⟩

theorem sysStep_none {K : BaseClass} {i : Nat} {s : System}
    (h : threadStep K i s.obj (s.threads i) = none) : sysStep K i s = .ok s := by
  unfold sysStep; rw [h]

theorem sysStep_some {K : BaseClass} {i : Nat} {s : System} {p : BaseObj × Thread}
    (h : threadStep K i s.obj (s.threads i) = some (.ok p)) :
    sysStep K i s = .ok ⟨p.1, fun j => if j = i then p.2 else s.threads j⟩ := by
  unfold sysStep; rw [h]; rfl

theorem sysStep_inv {K : BaseClass} {i : Nat} {s s' : System} (h : sysStep K i s = .ok s') :
    (threadStep K i s.obj (s.threads i) = none ∧ s' = s) ∨
    ∃ p, threadStep K i s.obj (s.threads i) = some (.ok p) ∧
      s' = ⟨p.1, fun j => if j = i then p.2 else s.threads j⟩ := by
  unfold sysStep at h
  cases hp : threadStep K i s.obj (s.threads i) with
  | none => rw [hp] at h; cases h; exact .inl ⟨rfl, rfl⟩
  | some r =>
    rw [hp] at h
    cases r with
    | error e => cases h
    | ok p => cases h; exact .inr ⟨p, rfl, rfl⟩

/-- Steps keep the invariant. -/
theorem step_ok (K : BaseClass) (hK : GoodEstimates K) (work : Nat → List BaseCall)
    (hw : ∀ i, ∀ c ∈ work i, ValidCall K c) (e d : Bool) (i : Nat) (s : System)
    (h : Inv K work e d s) : ∃ s', sysStep K i s = .ok s' ∧ Inv K work e d s' := by
  obtain ⟨o0, hI, hH⟩ := h
  obtain ⟨s1, e1, h1⟩ := sysStep_ok K hK work hw i ⟨o0, s.threads⟩ hI
  cases hcur : (s.threads i).cur with
  | none =>
    cases htodo : (s.threads i).todo with
    | nil =>
      refine ⟨s, sysStep_none ?_, o0, hI, hH⟩
      unfold threadStep; rw [hcur]; dsimp only; rw [htodo]
    | cons c cs =>
      have st : ∀ o, threadStep K i o (s.threads i)
          = some (.ok (o, { s.threads i with cur := some (c, .start), todo := cs })) := by
        intro o; unfold threadStep; rw [hcur]; dsimp only; rw [htodo]
      refine ⟨_, sysStep_some (st _), o0, ?_, hH⟩
      rw [sysStep_some (s := ⟨o0, s.threads⟩) (st _)] at e1
      cases e1
      exact h1
  | some cp =>
    obtain ⟨c, ph⟩ := cp
    cases c with
    | enc S g x =>
      cases e with
      | true =>
        obtain ⟨hd1, hd2⟩ := hH.encDead rfl
        have hv : encView (s.threads i) = none := by
          cases hv : encView (s.threads i) with
          | none => rfl
          | some a =>
            have := (hI.enc.lock i).mp (by rw [hv]; rfl)
            rw [hd1] at this; cases this
        have := encView_start hcur hv
        subst this
        refine ⟨s, sysStep_none ?_, o0, hI, hH⟩
        unfold threadStep; rw [hcur]; dsimp only
        cases hl : s.obj.encLock with
        | none => exact absurd hl hd2
        | some j => rfl
      | false =>
        obtain ⟨a1, a2, a3⟩ := hH.encAlive rfl
        obtain ⟨st, hp⟩ := encStep_same K i _ s.obj o0 hcur a1 a2 a3
        rcases sysStep_inv e1 with ⟨hn, rfl⟩ | ⟨p, hp', rfl⟩
        · rw [hn] at st
          exact ⟨s, sysStep_none st, o0, hI, hH⟩
        · rw [hp'] at st
          obtain ⟨b1, b2, b3⟩ := hp p hp'
          refine ⟨_, sysStep_some st, p.1, h1, ⟨fun _ => ⟨rfl, rfl, rfl⟩, (fun h => by cases h), ?_, ?_⟩⟩
          · intro hd; obtain ⟨c1, c2, c3⟩ := hH.decAlive hd
            exact ⟨by rw [b1]; exact c1, by rw [b2]; exact c2, by rw [b3]; exact c3⟩
          · intro hd; obtain ⟨c1, c2⟩ := hH.decDead hd
            exact ⟨by rw [b3]; exact c1, c2⟩
    | dec x =>
      cases d with
      | true =>
        obtain ⟨hd1, hd2⟩ := hH.decDead rfl
        have hv : decView (s.threads i) = none := by
          cases hv : decView (s.threads i) with
          | none => rfl
          | some a =>
            have := (hI.dec.lock i).mp (by rw [hv]; rfl)
            rw [hd1] at this; cases this
        have := decView_start hcur hv
        subst this
        refine ⟨s, sysStep_none ?_, o0, hI, hH⟩
        unfold threadStep; rw [hcur]; dsimp only
        cases hl : s.obj.decLock with
        | none => exact absurd hl hd2
        | some j => rfl
      | false =>
        obtain ⟨a1, a2, a3⟩ := hH.decAlive rfl
        obtain ⟨st, hp⟩ := decStep_same K i _ s.obj o0 hcur a1 a2 a3
        rcases sysStep_inv e1 with ⟨hn, rfl⟩ | ⟨p, hp', rfl⟩
        · rw [hn] at st
          exact ⟨s, sysStep_none st, o0, hI, hH⟩
        · rw [hp'] at st
          obtain ⟨b1, b2, b3⟩ := hp p hp'
          refine ⟨_, sysStep_some st, p.1, h1, ⟨?_, ?_, fun _ => ⟨rfl, rfl, rfl⟩, (fun h => by cases h)⟩⟩
          · intro hd; obtain ⟨c1, c2, c3⟩ := hH.encAlive hd
            exact ⟨by rw [b1]; exact c1, by rw [b2]; exact c2, by rw [b3]; exact c3⟩
          · intro hd; obtain ⟨c1, c2⟩ := hH.encDead hd
            exact ⟨by rw [b3]; exact c1, c2⟩

/-- Dropping the call in progress from a thread's work. -/
theorem thr_drop {K : BaseClass} {work : Nat → List BaseCall} {th : Nat → Thread}
    (h : ∀ j, ThreadInv K (work j) (th j)) (i : Nat) :
    ∀ j, ThreadInv K ((fun j => if j = i then (th i).done.reverse.map Prod.fst ++ (th i).todo
        else work j) j) ((fun j => if j = i then { th i with cur := none } else th j) j) := by
  intro j
  dsimp only
  split
  · exact ⟨by simp, (h i).res⟩
  · exact h j

theorem EncInv.free {K : BaseClass} {o : BaseObj} {th th' : Nat → Thread} (h : EncInv K o th)
    (i : Nat) (hl : o.encLock = some i) (h1 : ∀ j, j ≠ i → encView (th' j) = encView (th j))
    (h2 : encView (th' i) = none) (b : List Byte) (n : Nat) (hb : b.length = n + 1) (hn : 127 ≤ n) :
    EncInv K { o with enCache := b, encsz := n, encLock := none } th' := by
  have hv : ∀ j, encView (th' j) = none := by
    intro j
    by_cases hj : j = i
    · rw [hj]; exact h2
    · rw [h1 j hj]
      cases hv : encView (th j) with
      | none => rfl
      | some a =>
        have := (h.lock j).mp (by rw [hv]; rfl)
        rw [hl] at this; exact absurd (Option.some.inj this).symm hj
  refine ⟨?_, fun _ => ⟨hb, hn⟩, ?_⟩
  · intro j; rw [hv j]; simp
  · intro j x ph hj; rw [hv j] at hj; cases hj

theorem DecInv.free {K : BaseClass} {o : BaseObj} {th th' : Nat → Thread} (h : DecInv K o th)
    (i : Nat) (hl : o.decLock = some i) (h1 : ∀ j, j ≠ i → decView (th' j) = decView (th j))
    (h2 : decView (th' i) = none) (b : List Byte) (n : Nat) (hb : b.length = n) (hn : 64 ≤ n) :
    DecInv K { o with deCache := b, decsz := n, decLock := none } th' := by
  have hv : ∀ j, decView (th' j) = none := by
    intro j
    by_cases hj : j = i
    · rw [hj]; exact h2
    · rw [h1 j hj]
      cases hv : decView (th j) with
      | none => rfl
      | some a =>
        have := (h.lock j).mp (by rw [hv]; rfl)
        rw [hl] at this; exact absurd (Option.some.inj this).symm hj
  refine ⟨?_, fun _ => ⟨hb, hn⟩, ?_⟩
  · intro j; rw [hv j]; simp
  · intro j x ph hj; rw [hv j] at hj; cases hj

/-- What an exception changes, if it can occur. -/
theorem sysThrow_cases (K : BaseClass) (i : Nat) (s : TSystem) :
    sysThrow K i s = s ∨ ∃ c ph, (s.sys.threads i).cur = some (c, ph) ∧ ph ≠ .start ∧
      sysThrow K i s = ⟨⟨s.sys.obj, fun j => if j = i then { s.sys.threads i with cur := none }
        else s.sys.threads j⟩, (i, c) :: s.thrown⟩ := by
  unfold sysThrow
  by_cases h : mayThrow K s.sys.obj (s.sys.threads i)
  · rw [if_pos h]
    cases hc : (s.sys.threads i).cur with
    | none => exact .inl rfl
    | some cp =>
      refine .inr ⟨cp.1, cp.2, rfl, ?_, rfl⟩
      intro hp
      obtain ⟨c, ph⟩ := cp
      dsimp only at hp
      subst hp
      unfold mayThrow at h
      rw [hc] at h
      cases c <;> cases h
  · rw [if_neg h]; exact .inl rfl

theorem encView_in {t : Thread} {S g x ph} (hc : t.cur = some (.enc S g x, ph)) (hp : ph ≠ .start) :
    encView t = some (x, ph) := by
  unfold encView
  rw [hc]
  cases ph <;> first | rfl | exact absurd rfl hp

theorem decView_in {t : Thread} {x ph} (hc : t.cur = some (.dec x, ph)) (hp : ph ≠ .start) :
    decView t = some (x, ph) := by
  unfold decView
  rw [hc]
  cases ph <;> first | rfl | exact absurd rfl hp

/-- An exception out of a call keeps the invariant, kills one half of the object, and removes the
call from the work. -/
theorem throw_ok (K : BaseClass) (work : Nat → List BaseCall) (e d : Bool) (i : Nat) (s : System)
    (h : Inv K work e d s) (c : BaseCall) (ph : Phase) (hc : (s.threads i).cur = some (c, ph))
    (hp : ph ≠ .start) :
    ∃ work', Inv K work' (e || isEnc c) (d || !isEnc c)
        ⟨s.obj, fun j => if j = i then { s.threads i with cur := none } else s.threads j⟩ ∧
      (∀ j, (work' j).Sublist (work j)) ∧ (work' i ++ [c]).Perm (work i) ∧
      (∀ j, j ≠ i → work' j = work j) := by
  obtain ⟨o0, hI, hH⟩ := h
  have hsub : ∀ j, ((fun j => if j = i then (s.threads i).done.reverse.map Prod.fst ++ (s.threads i).todo
        else work j) j).Sublist (work j) := by
    intro j
    dsimp only
    split
    · rename_i hj
      rw [hj, ← (hI.thr i).order]
      exact List.Sublist.append (List.sublist_append_left _ _) (List.Sublist.refl _)
    · exact List.Sublist.refl _
  refine ⟨_, ?_, hsub, ?_, fun j hj => if_neg hj⟩
  rotate_left
  · rw [if_pos rfl, ← (hI.thr i).order]
    dsimp only
    rw [hc]
    simp only [Option.toList, List.map_cons, List.map_nil, List.append_assoc]
    exact List.Perm.append_left _ List.perm_append_comm
  have hother : ∀ j, j ≠ i → (fun j => if j = i then { s.threads i with cur := none }
      else s.threads j) j = s.threads j := by
    intro j hj; dsimp only; rw [if_neg hj]
  have hself : (fun j => if j = i then { s.threads i with cur := none }
      else s.threads j) i = { s.threads i with cur := none } := by
    dsimp only; rw [if_pos rfl]
  cases c with
  | enc S g x =>
    have hl := (hI.enc.lock i).mp (by rw [encView_in hc hp]; rfl)
    dsimp only at hl
    have he : e = false := by
      cases e with
      | false => rfl
      | true => have := (hH.encDead rfl).1; rw [hl] at this; cases this
    subst he
    obtain ⟨a1, a2, a3⟩ := hH.encAlive rfl
    refine ⟨{ o0 with enCache := List.replicate 128 0#8, encsz := 127, encLock := none },
      ⟨?_, ?_, thr_drop hI.thr i⟩, ⟨?_, ?_, ?_, ?_⟩⟩
    · refine EncInv.free hI.enc i hl (fun j hj => congrArg _ (hother j hj)) ?_ _ _ (by simp) (by omega)
      exact (congrArg _ hself).trans rfl
    · refine hI.dec.frame i _ rfl rfl rfl ?_
      unfold decView; rw [hc]
    · intro h; cases h
    · intro _; exact ⟨rfl, by rw [a3, hl]; simp⟩
    · intro h; exact hH.decAlive (by simpa [isEnc] using h)
    · intro h; exact hH.decDead (by simpa [isEnc] using h)
  | dec x =>
    have hl := (hI.dec.lock i).mp (by rw [decView_in hc hp]; rfl)
    dsimp only at hl
    have he : d = false := by
      cases d with
      | false => rfl
      | true => have := (hH.decDead rfl).1; rw [hl] at this; cases this
    subst he
    obtain ⟨a1, a2, a3⟩ := hH.decAlive rfl
    refine ⟨{ o0 with deCache := List.replicate 64 0#8, decsz := 64, decLock := none },
      ⟨?_, ?_, thr_drop hI.thr i⟩, ⟨?_, ?_, ?_, ?_⟩⟩
    · refine hI.enc.frame i _ rfl rfl rfl ?_
      unfold encView; rw [hc]
    · refine DecInv.free hI.dec i hl (fun j hj => congrArg _ (hother j hj)) ?_ _ _ (by simp) (by omega)
      exact (congrArg _ hself).trans rfl
    · intro h; exact hH.encAlive (by simpa [isEnc] using h)
    · intro h; exact hH.encDead (by simpa [isEnc] using h)
    · intro h; cases h
    · intro _; exact ⟨rfl, by rw [a3, hl]; simp⟩

/-! ## Finishing calls -/

/-- Steps a call still needs at most once it holds the mutex. -/
def rank : Phase → Nat
  | .start => 7
  | .locked => 6
  | .alloc _ => 5
  | .ready => 4
  | .ran _ => 3
  | .closed _ => 2
  | .built _ => 1

/-- One step inside a locked region. -/
theorem enc_advance (K : BaseClass) (i : Nat) (s s' : System) {S g x ph}
    (hc : (s.threads i).cur = some (.enc S g x, ph)) (hp : ph ≠ .start)
    (hs : sysStep K i s = .ok s') :
    (∀ j, j ≠ i → s'.threads j = s.threads j) ∧ (s'.threads i).todo = (s.threads i).todo ∧
    ((∃ ph', (s'.threads i).cur = some (.enc S g x, ph') ∧ ph' ≠ .start ∧ rank ph' < rank ph ∧
        (s'.threads i).done = (s.threads i).done) ∨
     (∃ r, (s'.threads i).cur = none ∧ (s'.threads i).done = (.enc S g x, r) :: (s.threads i).done ∧
        s'.obj.encLock = none)) := by
  rcases sysStep_inv hs with ⟨hn, rfl⟩ | ⟨p, hp', rfl⟩
  · exfalso
    unfold threadStep at hn
    rw [hc] at hn
    cases ph <;> dsimp only at hn <;> first | exact hp rfl | cases hn | skip
    split at hn <;> cases hn
  · refine ⟨fun j hj => by dsimp only; rw [if_neg hj], ?_⟩
    dsimp only
    rw [if_pos rfl]
    unfold threadStep at hp'
    rw [hc] at hp'
    cases ph <;> dsimp only at hp'
    · exact absurd rfl hp
    · split at hp' <;> cases hp'
      · exact ⟨rfl, .inl ⟨_, rfl, by simp, by simp [rank], rfl⟩⟩
      · exact ⟨rfl, .inl ⟨_, rfl, by simp, by simp [rank], rfl⟩⟩
    · cases hp'; exact ⟨rfl, .inl ⟨_, rfl, by simp, by simp [rank], rfl⟩⟩
    · revert hp'
      generalize encRun K S g x s.obj = q
      cases q with
      | error e => intro hp'; cases hp'
      | ok q => intro hp'; cases hp'; exact ⟨rfl, .inl ⟨_, rfl, by simp, by simp [rank], rfl⟩⟩
    · revert hp'
      generalize encNul _ s.obj = q
      cases q with
      | error e => intro hp'; cases hp'
      | ok q => intro hp'; cases hp'; exact ⟨rfl, .inl ⟨_, rfl, by simp, by simp [rank], rfl⟩⟩
    · revert hp'
      generalize cstr s.obj.enCache = q
      cases q with
      | error e => intro hp'; cases hp'
      | ok q => intro hp'; cases hp'; exact ⟨rfl, .inl ⟨_, rfl, by simp, by simp [rank], rfl⟩⟩
    · cases hp'; exact ⟨rfl, .inr ⟨_, rfl, rfl, rfl⟩⟩

theorem dec_advance (K : BaseClass) (i : Nat) (s s' : System) {x ph}
    (hc : (s.threads i).cur = some (.dec x, ph)) (hp : ph ≠ .start)
    (hs : sysStep K i s = .ok s') :
    (∀ j, j ≠ i → s'.threads j = s.threads j) ∧ (s'.threads i).todo = (s.threads i).todo ∧
    ((∃ ph', (s'.threads i).cur = some (.dec x, ph') ∧ ph' ≠ .start ∧ rank ph' < rank ph ∧
        (s'.threads i).done = (s.threads i).done) ∨
     (∃ r, (s'.threads i).cur = none ∧ (s'.threads i).done = (.dec x, r) :: (s.threads i).done ∧
        s'.obj.decLock = none)) := by
  rcases sysStep_inv hs with ⟨hn, rfl⟩ | ⟨p, hp', rfl⟩
  · exfalso
    unfold threadStep at hn
    rw [hc] at hn
    cases ph <;> dsimp only at hn <;> first | exact hp rfl | cases hn | skip
    split at hn <;> cases hn
  · refine ⟨fun j hj => by dsimp only; rw [if_neg hj], ?_⟩
    dsimp only
    rw [if_pos rfl]
    unfold threadStep at hp'
    rw [hc] at hp'
    cases ph <;> dsimp only at hp'
    · exact absurd rfl hp
    · split at hp' <;> cases hp'
      · exact ⟨rfl, .inl ⟨_, rfl, by simp, by simp [rank], rfl⟩⟩
      · exact ⟨rfl, .inl ⟨_, rfl, by simp, by simp [rank], rfl⟩⟩
    · cases hp'; exact ⟨rfl, .inl ⟨_, rfl, by simp, by simp [rank], rfl⟩⟩
    · revert hp'
      generalize decRun K x s.obj = q
      cases q with
      | error e => intro hp'; cases hp'
      | ok q => intro hp'; cases hp'; exact ⟨rfl, .inl ⟨_, rfl, by simp, by simp [rank], rfl⟩⟩
    · revert hp'
      generalize decNul _ s.obj = q
      cases q with
      | error e => intro hp'; cases hp'
      | ok q => intro hp'; cases hp'; exact ⟨rfl, .inl ⟨_, rfl, by simp, by simp [rank], rfl⟩⟩
    · revert hp'
      generalize rds _ _ _ = q
      cases q with
      | error e => intro hp'; cases hp'
      | ok q => intro hp'; cases hp'; exact ⟨rfl, .inl ⟨_, rfl, by simp, by simp [rank], rfl⟩⟩
    · cases hp'; exact ⟨rfl, .inr ⟨_, rfl, rfl, rfl⟩⟩

theorem sysRun_append (K : BaseClass) (a b : List Nat) : ∀ s s' s'', sysRun K a s = .ok s' →
    sysRun K b s' = .ok s'' → sysRun K (a ++ b) s = .ok s'' := by
  induction a with
  | nil => intro s s' s'' h1 h2; cases h1; exact h2
  | cons i is ih =>
    intro s s' s'' h1 h2
    unfold sysRun at h1
    cases hs : sysStep K i s with
    | error e => rw [hs] at h1; cases h1
    | ok s1 =>
      rw [hs, bind_ok] at h1
      show sysRun K (i :: (is ++ b)) s = _
      unfold sysRun
      rw [hs, bind_ok]
      exact ih s1 s' s'' h1 h2

/-- A thread inside `encode`'s locked region, scheduled alone, comes out. -/
theorem enc_finish (K : BaseClass) (hK : GoodEstimates K) (work : Nat → List BaseCall)
    (hw : ∀ i, ∀ c ∈ work i, ValidCall K c) (e d : Bool) (i : Nat) (S : Slack) (g x : List Byte) :
    ∀ n ph (s : System), rank ph ≤ n → Inv K work e d s →
      (s.threads i).cur = some (.enc S g x, ph) → ph ≠ .start →
    ∃ m s', sysRun K (List.replicate m i) s = .ok s' ∧ Inv K work e d s' ∧
      (∀ j, j ≠ i → s'.threads j = s.threads j) ∧ (s'.threads i).todo = (s.threads i).todo ∧
      ∃ r, (s'.threads i).cur = none ∧ (s'.threads i).done = (.enc S g x, r) :: (s.threads i).done ∧
        s'.obj.encLock = none := by
  intro n
  induction n with
  | zero => intro ph s h; cases ph <;> exact absurd h (by simp [rank])
  | succ n ih =>
    intro ph s hr hI hc hp
    obtain ⟨s1, e1, h1⟩ := step_ok K hK work hw e d i s hI
    obtain ⟨o1, t1, hx⟩ := enc_advance K i s s1 hc hp e1
    rcases hx with ⟨ph', c1, p1, r1, d1⟩ | ⟨r, c1, d1, l1⟩
    · obtain ⟨m, s2, e2, h2, o2, t2, r2, c2, d2, l2⟩ := ih ph' s1 (by omega) h1 c1 p1
      refine ⟨m + 1, s2, ?_, h2, fun j hj => by rw [o2 j hj, o1 j hj], by rw [t2, t1], r2, c2,
        by rw [d2, d1], l2⟩
      rw [List.replicate_succ]
      unfold sysRun
      rw [e1, bind_ok]; exact e2
    · exact ⟨1, s1, by show sysRun K [i] s = _; unfold sysRun; rw [e1, bind_ok]; rfl, h1, o1, t1, r,
        c1, d1, l1⟩

theorem dec_finish (K : BaseClass) (hK : GoodEstimates K) (work : Nat → List BaseCall)
    (hw : ∀ i, ∀ c ∈ work i, ValidCall K c) (e d : Bool) (i : Nat) (x : List Byte) :
    ∀ n ph (s : System), rank ph ≤ n → Inv K work e d s →
      (s.threads i).cur = some (.dec x, ph) → ph ≠ .start →
    ∃ m s', sysRun K (List.replicate m i) s = .ok s' ∧ Inv K work e d s' ∧
      (∀ j, j ≠ i → s'.threads j = s.threads j) ∧ (s'.threads i).todo = (s.threads i).todo ∧
      ∃ r, (s'.threads i).cur = none ∧ (s'.threads i).done = (.dec x, r) :: (s.threads i).done ∧
        s'.obj.decLock = none := by
  intro n
  induction n with
  | zero => intro ph s h; cases ph <;> exact absurd h (by simp [rank])
  | succ n ih =>
    intro ph s hr hI hc hp
    obtain ⟨s1, e1, h1⟩ := step_ok K hK work hw e d i s hI
    obtain ⟨o1, t1, hx⟩ := dec_advance K i s s1 hc hp e1
    rcases hx with ⟨ph', c1, p1, r1, d1⟩ | ⟨r, c1, d1, l1⟩
    · obtain ⟨m, s2, e2, h2, o2, t2, r2, c2, d2, l2⟩ := ih ph' s1 (by omega) h1 c1 p1
      refine ⟨m + 1, s2, ?_, h2, fun j hj => by rw [o2 j hj, o1 j hj], by rw [t2, t1], r2, c2,
        by rw [d2, d1], l2⟩
      rw [List.replicate_succ]
      unfold sysRun
      rw [e1, bind_ok]; exact e2
    · exact ⟨1, s1, by show sysRun K [i] s = _; unfold sysRun; rw [e1, bind_ok]; rfl, h1, o1, t1, r,
        c1, d1, l1⟩

/-- With the encoder half alive, a started `encode` can be brought to its end. -/
theorem enc_complete (K : BaseClass) (hK : GoodEstimates K) (work : Nat → List BaseCall)
    (hw : ∀ i, ∀ c ∈ work i, ValidCall K c) (d : Bool) (i : Nat) (S : Slack) (g x : List Byte)
    (ph : Phase) (s : System) (hI : Inv K work false d s)
    (hc : (s.threads i).cur = some (.enc S g x, ph)) :
    ∃ sched s' r, sysRun K sched s = .ok s' ∧ Inv K work false d s' ∧
      (s'.threads i).todo = (s.threads i).todo ∧ (s'.threads i).cur = none ∧
      (s'.threads i).done = (.enc S g x, r) :: (s.threads i).done := by
  by_cases hp : ph = .start
  · subst hp
    -- first free the mutex
    have hfree : ∃ sched s1, sysRun K sched s = .ok s1 ∧ Inv K work false d s1 ∧
        s1.threads i = s.threads i ∧ s1.obj.encLock = none := by
      obtain ⟨o0, hS, hH⟩ := id hI
      cases hl : s.obj.encLock with
      | none => exact ⟨[], s, rfl, hI, rfl, hl⟩
      | some j =>
        have hl0 : o0.encLock = some j := by rw [← (hH.encAlive rfl).2.2]; exact hl
        have hv := (hS.enc.lock j).mpr hl0
        have hji : i ≠ j := by
          intro hij
          subst hij
          unfold encView at hv
          dsimp only at hv
          rw [hc] at hv
          cases hv
        obtain ⟨a, ha⟩ := Option.isSome_iff_exists.mp hv
        have hcj : ∃ S' g' x' ph', (s.threads j).cur = some (.enc S' g' x', ph') ∧ ph' ≠ .start := by
          unfold encView at ha
          dsimp only at ha
          split at ha <;> first | (rename_i hh; exact ⟨_, _, _, _, hh, by simp⟩) | cases ha
        obtain ⟨S', g', x', ph', c', p'⟩ := hcj
        obtain ⟨m, s1, e1, h1, o1, _, _, _, _, l1⟩ := enc_finish K hK work hw false d j S' g' x' _ ph' s
          (Nat.le_refl _) hI c' p'
        exact ⟨_, s1, e1, h1, o1 i hji, l1⟩
    obtain ⟨sched1, s1, e1, h1, t1, l1⟩ := hfree
    have hc1 : (s1.threads i).cur = some (.enc S g x, .start) := by rw [t1]; exact hc
    obtain ⟨s2, e2, h2⟩ := step_ok K hK work hw false d i s1 h1
    have hts : threadStep K i s1.obj (s1.threads i) = some (.ok ({ s1.obj with encLock := some i },
        { s1.threads i with cur := some (.enc S g x, .locked) })) := by
      unfold threadStep; rw [hc1]; dsimp only; rw [l1]
    rw [sysStep_some hts] at e2
    have e2' := Except.ok.inj e2
    have ht2 : s2.threads i = { s1.threads i with cur := some (.enc S g x, .locked) } := by
      rw [← e2']; dsimp only; rw [if_pos rfl]
    obtain ⟨m, s3, e3, h3, _, t3, r, c3, d3, _⟩ := enc_finish K hK work hw false d i S g x _ .locked s2
      (Nat.le_refl _) h2 (by rw [ht2]) (by simp)
    refine ⟨sched1 ++ ([i] ++ List.replicate m i), s3, r, ?_, h3, ?_, c3, ?_⟩
    · refine sysRun_append K _ _ _ _ _ e1 (sysRun_append K _ _ _ s2 _ ?_ e3)
      unfold sysRun
      rw [sysStep_some hts, bind_ok, e2']; rfl
    · rw [t3, ht2, t1]
    · rw [d3, ht2, t1]
  · obtain ⟨m, s1, e1, h1, _, t1, r, c1, d1, _⟩ := enc_finish K hK work hw false d i S g x _ ph s
      (Nat.le_refl _) hI hc hp
    exact ⟨_, s1, r, e1, h1, t1, c1, d1⟩

theorem dec_complete (K : BaseClass) (hK : GoodEstimates K) (work : Nat → List BaseCall)
    (hw : ∀ i, ∀ c ∈ work i, ValidCall K c) (e : Bool) (i : Nat) (x : List Byte)
    (ph : Phase) (s : System) (hI : Inv K work e false s)
    (hc : (s.threads i).cur = some (.dec x, ph)) :
    ∃ sched s' r, sysRun K sched s = .ok s' ∧ Inv K work e false s' ∧
      (s'.threads i).todo = (s.threads i).todo ∧ (s'.threads i).cur = none ∧
      (s'.threads i).done = (.dec x, r) :: (s.threads i).done := by
  by_cases hp : ph = .start
  · subst hp
    have hfree : ∃ sched s1, sysRun K sched s = .ok s1 ∧ Inv K work e false s1 ∧
        s1.threads i = s.threads i ∧ s1.obj.decLock = none := by
      obtain ⟨o0, hS, hH⟩ := id hI
      cases hl : s.obj.decLock with
      | none => exact ⟨[], s, rfl, hI, rfl, hl⟩
      | some j =>
        have hl0 : o0.decLock = some j := by rw [← (hH.decAlive rfl).2.2]; exact hl
        have hv := (hS.dec.lock j).mpr hl0
        have hji : i ≠ j := by
          intro hij
          subst hij
          unfold decView at hv
          dsimp only at hv
          rw [hc] at hv
          cases hv
        obtain ⟨a, ha⟩ := Option.isSome_iff_exists.mp hv
        have hcj : ∃ x' ph', (s.threads j).cur = some (.dec x', ph') ∧ ph' ≠ .start := by
          unfold decView at ha
          dsimp only at ha
          split at ha <;> first | (rename_i hh; exact ⟨_, _, hh, by simp⟩) | cases ha
        obtain ⟨x', ph', c', p'⟩ := hcj
        obtain ⟨m, s1, e1, h1, o1, _, _, _, _, l1⟩ := dec_finish K hK work hw e false j x' _ ph' s
          (Nat.le_refl _) hI c' p'
        exact ⟨_, s1, e1, h1, o1 i hji, l1⟩
    obtain ⟨sched1, s1, e1, h1, t1, l1⟩ := hfree
    have hc1 : (s1.threads i).cur = some (.dec x, .start) := by rw [t1]; exact hc
    obtain ⟨s2, e2, h2⟩ := step_ok K hK work hw e false i s1 h1
    have hts : threadStep K i s1.obj (s1.threads i) = some (.ok ({ s1.obj with decLock := some i },
        { s1.threads i with cur := some (.dec x, .locked) })) := by
      unfold threadStep; rw [hc1]; dsimp only; rw [l1]
    rw [sysStep_some hts] at e2
    have e2' := Except.ok.inj e2
    have ht2 : s2.threads i = { s1.threads i with cur := some (.dec x, .locked) } := by
      rw [← e2']; dsimp only; rw [if_pos rfl]
    obtain ⟨m, s3, e3, h3, _, t3, r, c3, d3, _⟩ := dec_finish K hK work hw e false i x _ .locked s2
      (Nat.le_refl _) h2 (by rw [ht2]) (by simp)
    refine ⟨sched1 ++ ([i] ++ List.replicate m i), s3, r, ?_, h3, ?_, c3, ?_⟩
    · refine sysRun_append K _ _ _ _ _ e1 (sysRun_append K _ _ _ s2 _ ?_ e3)
      unfold sysRun
      rw [sysStep_some hts, bind_ok, e2']; rfl
    · rw [t3, ht2, t1]
    · rw [d3, ht2, t1]
  · obtain ⟨m, s1, e1, h1, _, t1, r, c1, d1, _⟩ := dec_finish K hK work hw e false i x _ ph s
      (Nat.le_refl _) hI hc hp
    exact ⟨_, s1, r, e1, h1, t1, c1, d1⟩

end Pgfe.Proofs.Throw
