import Verif.Props.BaseThrow
/-!
# C74: which steps may throw
-/
namespace Pgfe.Props
open Pgfe.Model Pgfe.Spec Pgfe.Proofs

/-- The next step of the thread leaves it with a new cache: it calls `make_unique`. -/
def getsCache (K : BaseClass) (i : Nat) (s : System) : Prop :=
  ∃ o t c sz, threadStep K i s.obj (s.threads i) = some (.ok (o, t)) ∧ t.cur = some (c, .alloc sz)

/-- The next step of the thread makes the result. -/
def getsResult (i : Nat) (s : System) : Prop := ∃ c n, (s.threads i).cur = some (c, .closed n)

theorem bind_some_ok {α β : Type} {m : C α} {k : α → C β} {b : β} (h : some (m >>= k) = some (Except.ok b)) :
    ∃ a, m = .ok a ∧ k a = .ok b := by
  have h := Option.some.inj h
  cases m with
  | error e => cases h
  | ok a => exact ⟨a, rfl, h⟩

/-- **C74 (exceptions).**  Exactly the steps that ask for memory may end in an exception: the one that enlarges the cache,
and the one that makes the result. -/
theorem C74_throws (K : BaseClass) (i : Nat) (s : TSystem) :
    (∃ c s', evStep K (.throw i) s = .ok s' ∧ s'.thrown = (i, c) :: s.thrown) ↔ getsCache K i s.sys ∨ getsResult i s.sys := by
  have h1 : (∃ c s', evStep K (.throw i) s = .ok s' ∧ s'.thrown = (i, c) :: s.thrown) ↔
      mayThrow K s.sys.obj (s.sys.threads i) = true := by
    unfold evStep sysThrow
    dsimp only
    constructor
    · rintro ⟨c, s', h, ht⟩
      cases hm : mayThrow K s.sys.obj (s.sys.threads i) with
      | true => rfl
      | false =>
        rw [hm, if_neg (by decide)] at h
        cases h
        exact absurd (congrArg List.length ht) (by simp)
    · intro hm
      rw [hm, if_pos rfl]
      cases hc : (s.sys.threads i).cur with
      | none => unfold mayThrow at hm; rw [hc] at hm; cases hm
      | some cp => exact ⟨cp.1, _, rfl, rfl⟩
  rw [h1]
  unfold getsCache getsResult mayThrow threadStep
  generalize s.sys.threads i = t
  generalize s.sys.obj = o
  obtain ⟨cur, todo, done⟩ := t
  dsimp only
  rcases cur with _ | ⟨c, ph⟩
  · refine ⟨fun h => (by cases h), ?_⟩
    rintro (⟨o', t', c, sz, h, ht⟩ | ⟨c, n, h⟩)
    · cases todo with
      | nil => cases h
      | cons a as =>
        cases h
        exact absurd (congrArg (Option.map Prod.snd) ht) (by simp)
    · cases h
  · cases c with
    | enc S g x =>
      cases ph with
      | locked =>
        dsimp only
        rw [decide_eq_true_eq]
        constructor
        · intro h
          rw [if_pos h]
          exact .inl ⟨_, _, _, _, rfl, rfl⟩
        · rintro (⟨o', t', c, sz, h, ht⟩ | ⟨c, n, h⟩)
          · by_cases hle : o.encsz ≤ K.encEst x.length
            · exact hle
            · rw [if_neg hle] at h; cases h; cases ht
          · cases h
      | closed n => exact ⟨fun _ => .inr ⟨_, _, rfl⟩, fun _ => rfl⟩
      | start =>
        refine ⟨fun h => (by cases h), ?_⟩
        rintro (⟨o', t', c, sz, h, ht⟩ | ⟨c, n, h⟩)
        · revert h
          dsimp only
          split
          · intro h; cases h; cases ht
          · intro h; cases h
        · cases h
      | alloc z =>
        refine ⟨fun h => (by cases h), ?_⟩
        rintro (⟨o', t', c, sz, h, ht⟩ | ⟨c, n, h⟩)
        · cases h; cases ht
        · cases h
      | built r =>
        refine ⟨fun h => (by cases h), ?_⟩
        rintro (⟨o', t', c, sz, h, ht⟩ | ⟨c, n, h⟩)
        · cases h; cases ht
        · cases h
      | ready =>
        refine ⟨fun h => (by cases h), ?_⟩
        rintro (⟨o', t', c, sz, h, ht⟩ | ⟨c, n, h⟩)
        · obtain ⟨a, -, h⟩ := bind_some_ok h; cases h; cases ht
        · cases h
      | ran n =>
        refine ⟨fun h => (by cases h), ?_⟩
        rintro (⟨o', t', c, sz, h, ht⟩ | ⟨c, n, h⟩)
        · obtain ⟨a, -, h⟩ := bind_some_ok h; cases h; cases ht
        · cases h
    | dec x =>
      cases ph with
      | locked =>
        dsimp only
        rw [decide_eq_true_eq]
        constructor
        · intro h
          rw [if_pos h]
          exact .inl ⟨_, _, _, _, rfl, rfl⟩
        · rintro (⟨o', t', c, sz, h, ht⟩ | ⟨c, n, h⟩)
          · by_cases hle : o.decsz ≤ K.decEst x.length
            · exact hle
            · rw [if_neg hle] at h; cases h; cases ht
          · cases h
      | closed n => exact ⟨fun _ => .inr ⟨_, _, rfl⟩, fun _ => rfl⟩
      | start =>
        refine ⟨fun h => (by cases h), ?_⟩
        rintro (⟨o', t', c, sz, h, ht⟩ | ⟨c, n, h⟩)
        · revert h
          dsimp only
          split
          · intro h; cases h; cases ht
          · intro h; cases h
        · cases h
      | alloc z =>
        refine ⟨fun h => (by cases h), ?_⟩
        rintro (⟨o', t', c, sz, h, ht⟩ | ⟨c, n, h⟩)
        · cases h; cases ht
        · cases h
      | built r =>
        refine ⟨fun h => (by cases h), ?_⟩
        rintro (⟨o', t', c, sz, h, ht⟩ | ⟨c, n, h⟩)
        · cases h; cases ht
        · cases h
      | ready =>
        refine ⟨fun h => (by cases h), ?_⟩
        rintro (⟨o', t', c, sz, h, ht⟩ | ⟨c, n, h⟩)
        · obtain ⟨a, -, h⟩ := bind_some_ok h; cases h; cases ht
        · cases h
      | ran n =>
        refine ⟨fun h => (by cases h), ?_⟩
        rintro (⟨o', t', c, sz, h, ht⟩ | ⟨c, n, h⟩)
        · obtain ⟨a, -, h⟩ := bind_some_ok h; cases h; cases ht
        · cases h

/-- A fresh object of class `Base16` (with exact estimates): a text of 106 letters takes a cache of 64 bytes, just the size
that is there, but a new one is asked for, and so the exception can come. -/
theorem C74_throws_example :
    getsCache ⟨.base16, fun n => ceilDiv (96 * n) 40, fun n => ceilDiv (48 * n) 80⟩ 0
      ⟨baseObjInit, fun _ => ⟨some (.dec (List.replicate 106 0x41#8), .locked), [], []⟩⟩ :=
  ⟨decAlloc 64 baseObjInit, ⟨some (.dec (List.replicate 106 0x41#8), .alloc 64), [], []⟩, _, 64, rfl, rfl⟩

end Pgfe.Props
