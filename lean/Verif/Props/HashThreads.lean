import Verif.Proofs.HashThreads
import Verif.Props.AgainViolation
/-!
# C92: hash contexts and threads
-/
namespace Pgfe.Props
open Pgfe.Model Pgfe.Spec Pgfe.Spec.Again Pgfe.Proofs.Hash Pgfe.Proofs.HashThreads
open Pgfe.Model.HashImpl (Call)
open Pgfe.Proofs.Sha (Fam F1 F256 F512)

/-- Contexts of the algorithms `a 0`, `a 1`, … and threads `0, 1, …`, thread `t` on context `own t`. -/
abbrev HashWorld (a : Nat → Alg) (bits own : Nat → Nat) : Type :=
  HWorld (fun k => (a k).impl (bits k)) (fun k => (a k).micro (bits k)) own

/-- A thread that has made all its calls, and the last one has returned. -/
def hashIdle {I : HashImpl} {M : Micro I} (th : HThread I M) : Prop := th.cur = none ∧ th.todo = []

/-- **C92, a context for each thread.** Any number of threads, any mix of algorithms, each thread with a
context of its own on which init was called, and for each thread any sequence of update and digest calls
(lengths as in C80).  Then for every schedule, i.e. however the steps of the calls are interleaved: nothing
leaves the defined behaviour; a thread that got enough turns has finished; and a finished thread has received
what the abstract machine of its algorithm answers to its own calls, whatever the other threads did.

What is missing from the property as one would want it: that calls on one context from several threads are
safe too (`C92_violation`, `C92_lost_update`). -/
theorem C92_partial (a : Nat → Alg) (bits own : Nat → Nat) (hown : ∀ t u, own t = own u → t = u)
    (hb : ∀ k, bits k < 2 ^ 32) (h8 : ∀ k, isShake (a k) = true → bits k % 8 = 0)
    (g c : ∀ k, ((a k).impl (bits k)).Ctx) (hg : ∀ k, memOK (a k) (bits k) (g k))
    (hc : ∀ k, ((a k).impl (bits k)).init (g k) = .ok (c k)) (work : Nat → List Call)
    (hu : ∀ t x, Call.update x ∈ work t → okUpd (a (own t)) x.length)
    (ht : ∀ t, okTot (a (own t)) (total (work t)))
    (ho : ∀ t o, Call.digest o ∈ work t → outSize (a (own t)) (bits (own t)) ≤ o.length) :
    ∃ need : Nat → Nat, ∀ sched : List Nat, ∃ s : HashWorld a bits own,
      (HWorld.start c work : HashWorld a bits own).run sched = .ok s ∧ ∀ t,
        (need t ≤ sched.count t → hashIdle (s.threads t)) ∧
        (hashIdle (s.threads t) → (s.threads t).outs = answers (a (own t)) (bits (own t) / 8) (work t)) := by
  have h : ∀ t, ∃ c', ((a (own t)).impl (bits (own t))).calls (c (own t)) (work t)
      = .ok (c', answers (a (own t)) (bits (own t) / 8) (work t)) := fun t => by
    obtain ⟨c', e⟩ := C80_partial (a (own t)) (bits (own t)) (hb _) (h8 _) (g _) (hg _) (work t) (hu t) (ht t) (ho t)
    rw [hc, bind_ok] at e
    exact ⟨c', e⟩
  obtain ⟨need, hn⟩ := run_all (I := fun k => (a k).impl (bits k)) (M := fun k => (a k).micro (bits k)) (own := own)
    hown (fun k => adequate (a k) (bits k)) c work (fun t => (h t).choose)
    (fun t => answers (a (own t)) (bits (own t) / 8) (work t)) (fun t => (h t).choose_spec)
  refine ⟨need, fun sched => ?_⟩
  obtain ⟨s, e1, e2⟩ := hn sched
  exact ⟨s, e1, fun t => ⟨(e2 t).1, fun hi => ((e2 t).2 hi).2⟩⟩

/-- **C92, one message for each thread**: a finished thread that absorbed the parts of its message and took
the digest has the hash of its message in its buffer. -/
theorem C92_digest (a : Nat → Alg) (bits own : Nat → Nat) (hown : ∀ t u, own t = own u → t = u)
    (hb : ∀ k, bits k < 2 ^ 32) (h8 : ∀ k, isShake (a k) = true → bits k % 8 = 0)
    (g c : ∀ k, ((a k).impl (bits k)).Ctx) (hg : ∀ k, memOK (a k) (bits k) (g k))
    (hc : ∀ k, ((a k).impl (bits k)).init (g k) = .ok (c k)) (parts : Nat → List (List Byte)) (out : Nat → List Byte)
    (hu : ∀ t, ∀ x ∈ parts t, okUpd (a (own t)) x.length)
    (ht : ∀ t, okTot (a (own t)) (parts t).flatten.length)
    (ho : ∀ t, outSize (a (own t)) (bits (own t)) ≤ (out t).length) :
    ∃ need : Nat → Nat, ∀ sched : List Nat, ∃ s : HashWorld a bits own,
      (HWorld.start c (fun t => (parts t).map .update ++ [.digest (out t)]) : HashWorld a bits own).run sched = .ok s ∧
      ∀ t, (need t ≤ sched.count t → hashIdle (s.threads t)) ∧
        (hashIdle (s.threads t) →
          (s.threads t).outs.head? = some (put (libHash (a (own t)) (bits (own t) / 8) (parts t).flatten) (out t))) := by
  have htot : ∀ (p : List (List Byte)) (o : List Byte), total (p.map Call.update ++ [Call.digest o]) = p.flatten.length := by
    intro p o
    induction p with
    | nil => rfl
    | cons x p ih => rw [List.map_cons, List.cons_append, total, ih, List.flatten_cons, List.length_append]
  obtain ⟨need, hn⟩ := C92_partial a bits own hown hb h8 g c hg hc (fun t => (parts t).map .update ++ [.digest (out t)])
    (by
      intro t x hx
      simp only [List.mem_append, List.mem_map, List.mem_singleton, reduceCtorEq, or_false, Call.update.injEq,
        exists_eq_right] at hx
      exact hu t x hx)
    (by intro t; rw [htot]; exact ht t)
    (by
      intro t o hx
      simp only [List.mem_append, List.mem_map, List.mem_singleton, reduceCtorEq, and_false, exists_false, false_or,
        Call.digest.injEq] at hx
      rw [hx]; exact ho t)
  refine ⟨need, fun sched => ?_⟩
  obtain ⟨s, e1, e2⟩ := hn sched
  refine ⟨s, e1, fun t => ⟨(e2 t).1, fun hi => ?_⟩⟩
  rw [(e2 t).2 hi]
  exact first_answer _ _ _ _ _

/-! ## One context for several threads -/

theorem shared_oob {w : Nat} (init update digest) (process : ShaCtx w → C (ShaCtx w)) (bs : Nat) (c : ShaCtx w)
    (hbs : 0 < bs) (hi : c.index = bs - 1) (hbl : c.block.length = bs) (x y : Byte) :
    (HWorld.start (I := fun _ => ⟨ShaCtx w, init, update, digest⟩)
      (M := fun _ => shaMicro init update digest process bs) (own := fun _ => 0) (fun _ => c)
      (fun t => if t = 0 then [.update [x]] else if t = 1 then [.update [y]] else [])).run [0, 0, 0, 1, 1, 1, 1]
      = .error .oobWrite := by
  have e : bs - 1 + 1 = bs := by omega
  have hw : wr c.block bs y = .error .oobWrite := by
    simp [wr, hbl]
  simp [HWorld.run, HWorld.step, HWorld.start, HThread.step, setAt, shaMicroStep, hi, e, hw, rd]

/-- **C92, violation.** Two threads, one context, SHA-1 or SHA-2, one byte each: if the message so far is
one byte short of a block, both bytes may be stored before the block is processed, and the second lands
behind the end of the block buffer. -/
theorem C92_violation (a : Alg) (ha : a ≠ .MD5) (hk : isKeccak a = false) (bits : Nat) (g c₀ c : (a.impl bits).Ctx)
    (hg : memOK a bits g) (h₀ : (a.impl bits).init g = .ok c₀) (m : List Byte) (hm : m.length < 2 ^ 31)
    (hmod : m.length % blockBytes a = blockBytes a - 1) (h : (a.impl bits).update c₀ (some m) m.length = .ok c)
    (x y : Byte) :
    (HWorld.start (fun _ => c) (fun t => if t = 0 then [.update [x]] else if t = 1 then [.update [y]] else []) :
      HashWorld (fun _ => a) (fun _ => bits) (fun _ => 0)).run [0, 0, 0, 1, 1, 1, 1] = .error .oobWrite := by
  have key : ∀ {w : Nat} (init : ShaCtx w → C (ShaCtx w)) (update : ShaCtx w → Option (List Byte) → Nat → C (ShaCtx w))
      (digest : ShaCtx w → List Byte → C (ShaCtx w × List Byte)) (F : Fam w) (h0 : List (BitVec w))
      (H : List Byte → List Byte) (K : HashOK ⟨ShaCtx w, init, update, digest⟩ H) (hK : ∀ m c, K.Inv m c → F.Inv h0 m c)
      (g c₀ c : ShaCtx w) (hg : K.WF g) (h₀ : init g = .ok c₀) (hu : K.okUpd m.length) (ht : K.okTot m.length)
      (hmod : m.length % F.bs = F.bs - 1) (h : update c₀ (some m) m.length = .ok c),
      (HWorld.start (I := fun _ => ⟨ShaCtx w, init, update, digest⟩)
        (M := fun _ => shaMicro init update digest F.process F.bs) (own := fun _ => 0) (fun _ => c)
        (fun t => if t = 0 then [.update [x]] else if t = 1 then [.update [y]] else [])).run [0, 0, 0, 1, 1, 1, 1]
        = .error .oobWrite := by
    intro w init update digest F h0 H K hK g c₀ c hg h₀ hu ht hmod h
    obtain ⟨c1, e1, i1⟩ := K.init_ok g hg
    have e1 : init g = .ok c1 := e1
    rw [h₀, Except.ok.injEq] at e1
    subst e1
    obtain ⟨c2, e2, i2⟩ := K.update_ok [] c₀ m m.length i1 hu (Nat.le_refl _) (by simpa using ht)
    have e2 : update c₀ (some m) m.length = .ok c2 := e2
    rw [h, Except.ok.injEq] at e2
    subst e2
    have i3 := hK _ _ i2
    rw [List.nil_append, List.take_length] at i3
    exact shared_oob init update digest F.process F.bs c F.bs_pos (i3.2.1.trans hmod) i3.1.2 x y
  have t1 : 8 * m.length < 2 ^ 64 := by omega
  have t2 : 8 * m.length < 2 ^ 128 := by omega
  cases a
  case SHA1 => exact key _ _ _ F1 _ _ hashOK_sha1 (fun _ _ h => h) g c₀ c hg h₀ hm t1 hmod h
  case SHA224 => exact key _ _ _ F256 _ _ hashOK_sha224 (fun _ _ h => h) g c₀ c hg h₀ hm t1 hmod h
  case SHA256 => exact key _ _ _ F256 _ _ hashOK_sha256 (fun _ _ h => h) g c₀ c hg h₀ hm t1 hmod h
  case SHA384 => exact key _ _ _ F512 _ _ hashOK_sha384 (fun _ _ h => h) g c₀ c hg h₀ hm t2 hmod h
  case SHA512 => exact key _ _ _ F512 _ _ hashOK_sha512 (fun _ _ h => h) g c₀ c hg h₀ hm t2 hmod h
  case SHA512_224 => exact key _ _ _ F512 _ _ hashOK_sha512_224 (fun _ _ h => h) g c₀ c hg h₀ hm t2 hmod h
  case SHA512_256 => exact key _ _ _ F512 _ _ hashOK_sha512_256 (fun _ _ h => h) g c₀ c hg h₀ hm t2 hmod h
  case MD5 => exact absurd rfl ha
  all_goals cases hk

/-- Two threads on one context: the first absorbs `a`, the second `b` and then takes the digest. -/
def lostWork (t : Nat) : List Call :=
  if t = 0 then [.update [0x61#8]] else if t = 1 then [.update [0x62#8], .digest (List.replicate 32 0#8)] else []

/-- Both read the index before one of them writes it back; otherwise one after the other. -/
def lostSched : List Nat := [0, 0, 1, 1] ++ List.replicate 8 0 ++ List.replicate 9 1

theorem lost_run : (sha256Impl.init (freshMem .SHA256) >>= fun c =>
      (HWorld.start (fun _ => c) lostWork : HashWorld (fun _ => .SHA256) (fun _ => 256) (fun _ => 0)).run lostSched).toOption.map
      (fun s => ((s.threads 0).cur.isNone && (s.threads 0).todo.isEmpty && (s.threads 1).cur.isNone
        && (s.threads 1).todo.isEmpty && (s.threads 1).outs.length == 1
        && (s.threads 1).outs != [evalBytes sha256ProcessBlock sha256H0 32 (Pgfe.Spec.Sha.blocks 64 (Pgfe.Spec.Sha.stalePad 64 8 [0x61#8, 0x62#8]))]
        && (s.threads 1).outs != [evalBytes sha256ProcessBlock sha256H0 32 (Pgfe.Spec.Sha.blocks 64 (Pgfe.Spec.Sha.stalePad 64 8 [0x62#8, 0x61#8]))]))
      = some true := by
  decide +kernel

/-- **C92, a lost update.** Two threads, one fresh SHA-256 context: the first absorbs `a`, the second `b` and
then takes the digest, and the schedule lets the first finish before the digest is taken.  The digest is
neither that of `ab` nor that of `ba`. -/
theorem C92_lost_update : ∃ c s d, sha256Impl.init (freshMem .SHA256) = .ok c ∧
    (HWorld.start (fun _ => c) lostWork : HashWorld (fun _ => .SHA256) (fun _ => 256) (fun _ => 0)).run lostSched = .ok s ∧
      hashIdle (s.threads 0) ∧ hashIdle (s.threads 1) ∧ (s.threads 1).outs = [d] ∧
      d ≠ libHash .SHA256 32 [0x61#8, 0x62#8] ∧ d ≠ libHash .SHA256 32 [0x62#8, 0x61#8] := by
  have e := lost_run
  rw [← sha256Stale_eval, ← sha256Stale_eval] at e
  generalize sha256Impl.init (freshMem .SHA256) = q at e ⊢
  cases q with
  | error _ => cases e
  | ok c =>
    rw [bind_ok] at e
    refine ⟨c, ?_⟩
    generalize (HWorld.start (fun _ => c) lostWork : HashWorld (fun _ => .SHA256) (fun _ => 256) (fun _ => 0)).run lostSched = q at e ⊢
    cases q with
    | error _ => cases e
    | ok s =>
      simp only [Except.toOption, Option.map_some, Option.some.injEq, Bool.and_eq_true, Option.isNone_iff_eq_none,
        List.isEmpty_iff, bne_iff_ne, beq_iff_eq] at e
      obtain ⟨⟨⟨⟨⟨⟨h1, h2⟩, h3⟩, h4⟩, h5⟩, h6⟩, h7⟩ := e
      obtain ⟨d, hd⟩ := List.length_eq_one_iff.1 h5
      refine ⟨s, d, rfl, rfl, ⟨h1, h2⟩, ⟨h3, h4⟩, hd, ?_, ?_⟩
      · rintro rfl; exact h6 hd
      · rintro rfl; exact h7 hd

/-! ## Concrete cases -/

/-- Even contexts SHA-256, odd ones SHAKE128; thread `t` on context `t`, the message in two parts. -/
def mixAlg (k : Nat) : Alg := if k % 2 = 0 then .SHA256 else .SHAKE128
def mixParts (t : Nat) : List (List Byte) := [[0x61#8], List.replicate (t % 100) 0x62#8]

/-- A case for `C92_digest` (and so for `C92_partial`): all hypotheses hold. -/
theorem C92_example : ∃ c : ∀ k, ((mixAlg k).impl 256).Ctx,
    (∀ k, ((mixAlg k).impl 256).init (freshMem (mixAlg k)) = .ok (c k)) ∧
    ∃ need : Nat → Nat, ∀ sched : List Nat, ∃ s : HashWorld mixAlg (fun _ => 256) id,
      (HWorld.start c (fun t => (mixParts t).map .update ++ [.digest (List.replicate 32 0#8)]) :
        HashWorld mixAlg (fun _ => 256) id).run sched = .ok s ∧
      ∀ t, (need t ≤ sched.count t → hashIdle (s.threads t)) ∧
        (hashIdle (s.threads t) →
          (s.threads t).outs.head? = some (put (libHash (mixAlg t) 32 (mixParts t).flatten) (List.replicate 32 0#8))) := by
  have hi : ∀ k, ∃ c, ((mixAlg k).impl 256).init (freshMem (mixAlg k)) = .ok c := fun k => by
    obtain ⟨K, hK⟩ := exists_ok (mixAlg k) 256 (by decide)
    obtain ⟨c, h, _⟩ := K.init_ok _ (hK.1 _ (freshMem_ok _))
    exact ⟨c, h⟩
  refine ⟨fun k => (hi k).choose, fun k => (hi k).choose_spec, ?_⟩
  have hlen : ∀ t, ∀ x ∈ mixParts t, x.length < 101 := by
    intro t x hx
    simp only [mixParts, List.mem_cons, List.not_mem_nil, or_false] at hx
    rcases hx with rfl | rfl
    · decide
    · rw [List.length_replicate]; omega
  have hfl : ∀ t, (mixParts t).flatten.length < 102 := by
    intro t
    simp only [mixParts, List.flatten_cons, List.flatten_nil, List.length_append, List.length_replicate, List.length_cons,
      List.length_nil]
    omega
  refine C92_digest mixAlg (fun _ => 256) id (fun t u h => h) (fun _ => by decide) (fun _ _ => by decide)
    (fun k => freshMem (mixAlg k)) _ (fun k => freshMem_ok _) (fun k => (hi k).choose_spec) mixParts
    (fun _ => List.replicate 32 0#8) ?_ ?_ ?_
  · intro t x hx
    have := hlen t x hx
    show okUpd (mixAlg t) x.length
    rw [mixAlg]
    split
    · show _ < 2 ^ 31; omega
    · show _ ≤ 2 ^ 29 - 192; omega
  · intro t
    have := hfl t
    show okTot (mixAlg t) _
    rw [mixAlg]
    split
    · show 8 * _ < 2 ^ 64; omega
    · exact trivial
  · intro t
    show outSize (mixAlg t) 256 ≤ _
    rw [mixAlg, List.length_replicate]
    split <;> decide

/-- A case for `C92_violation`: SHA-512, 127 bytes absorbed. -/
theorem C92_violation_example : ∃ c₀ c, sha512Impl.init (freshMem .SHA512) = .ok c₀ ∧
    sha512Impl.update c₀ (some (List.replicate 127 0x61#8)) 127 = .ok c ∧
    (HWorld.start (fun _ => c) (fun t => if t = 0 then [.update [0x62#8]] else if t = 1 then [.update [0x63#8]] else []) :
      HashWorld (fun _ => .SHA512) (fun _ => 256) (fun _ => 0)).run [0, 0, 0, 1, 1, 1, 1] = .error .oobWrite := by
  obtain ⟨c₀, h₀, i₀⟩ := hashOK_sha512.init_ok (freshMem .SHA512) ⟨rfl, rfl⟩
  obtain ⟨c, h, _⟩ := hashOK_sha512.update_ok [] c₀ (List.replicate 127 0x61#8) 127 i₀
    (by show 127 < 2 ^ 31; decide) (by rw [List.length_replicate]; exact Nat.le_refl _) (by show 8 * (0 + 127) < 2 ^ 128; decide)
  refine ⟨c₀, c, h₀, h, ?_⟩
  refine C92_violation .SHA512 (by decide) rfl 256 (freshMem .SHA512) c₀ c (freshMem_ok .SHA512) h₀
    (List.replicate 127 0x61#8) ?_ ?_ ?_ 0x62#8 0x63#8
  · rw [List.length_replicate]; decide
  · rw [List.length_replicate]; decide
  · rw [List.length_replicate]; exact h

end Pgfe.Props
