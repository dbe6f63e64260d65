import Verif.Proofs.Short
import Verif.Props.Hmac
/-!
# Invariants of contexts under arbitrary histories, for the encoder objects
-/
namespace Pgfe.Proofs.Enc
open Pgfe.Model Pgfe.Spec Pgfe.Props
open Pgfe.Proofs.Sha Pgfe.Proofs.Hash Pgfe.Proofs.Short
open Pgfe.Proofs.Keccak (Sq Abs At squeeze_abs squeeze_at squeeze_safe)

/-- The context after a digest does not depend on the array the digest is written to. -/
def Indep {X : Type} (D : X → List Byte → C (X × List Byte)) : Prop :=
  ∀ c o₁ o₂ c₁ c₂ r₁ r₂, D c o₁ = .ok (c₁, r₁) → D c o₂ = .ok (c₂, r₂) → c₁ = c₂

/-- A digest function which first computes the context and then writes. -/
theorem indep_of {X : Type} (D : X → List Byte → C (X × List Byte)) (prep : X → C X)
    (outF : X → List Byte → C (List Byte)) (h : ∀ c o, D c o = (prep c >>= fun c' => outF c' o >>= fun r => .ok (c', r))) :
    Indep D := by
  intro c o₁ o₂ c₁ c₂ r₁ r₂ h₁ h₂
  rw [h] at h₁ h₂
  cases e : prep c with
  | error _ => rw [e] at h₁; cases h₁
  | ok c' =>
    rw [e, bind_ok] at h₁ h₂
    cases e₁ : outF c' o₁ with
    | error _ => rw [e₁] at h₁; cases h₁
    | ok _ =>
      cases e₂ : outF c' o₂ with
      | error _ => rw [e₂] at h₂; cases h₂
      | ok _ =>
        rw [e₁] at h₁; rw [e₂] at h₂
        cases h₁; cases h₂; rfl

theorem indep_sha1 : Indep sha1Digest :=
  indep_of _ (fun ctx => do
    let ctx ← shaPadding32 sha1ProcessBlock ctx
    let ctx := { ctx with block := List.replicate ctx.block.length 0#8 }
    .ok { ctx with lenLow := 0#32, lenHigh := 0#32 }) (fun ctx => shaOutput32 20 ctx.state) (by
    intro c o
    rw [sha1Digest]
    cases shaPadding32 sha1ProcessBlock c <;> rfl)

theorem indep_256 (n : Nat) : Indep (sha224n256Digest n) :=
  indep_of _ (shaPadding32 sha256ProcessBlock) (fun ctx => shaOutput32 n ctx.state) (fun _ _ => rfl)

theorem indep_512 (n : Nat) : Indep (sha384n512Digest n) :=
  indep_of _ (fun c => sha512Padding c PADDING_HEADER) (fun ctx => shaOutput64 n ctx.state) (fun _ _ => rfl)

theorem indep_md5 : Indep md5Digest := by
  intro c o₁ o₂ c₁ c₂ r₁ r₂ h₁ h₂
  rw [md5Digest] at h₁ h₂
  dsimp only at h₁ h₂
  generalize md5Encode _ 8 _ = a at h₁ h₂
  cases a with
  | error _ => rw [bind_err] at h₁; cases h₁
  | ok chunk =>
    rw [bind_ok] at h₁ h₂
    generalize md5Update c _ _ = b at h₁ h₂
    cases b with
    | error _ => rw [bind_err] at h₁; cases h₁
    | ok c' =>
      rw [bind_ok] at h₁ h₂
      generalize md5Update c' _ _ = d at h₁ h₂
      cases d with
      | error _ => rw [bind_err] at h₁; cases h₁
      | ok c'' =>
        rw [bind_ok] at h₁ h₂
        generalize md5Encode _ _ o₁ = x at h₁
        generalize md5Encode _ _ o₂ = y at h₂
        cases x with
        | error _ => rw [bind_err] at h₁; cases h₁
        | ok x =>
          cases y with
          | error _ => rw [bind_err] at h₂; cases h₂
          | ok y =>
            rw [bind_ok] at h₁ h₂
            cases h₁; cases h₂; rfl

theorem indep_step (bitLen i : Nat) (c : KeccakCtx) (o₁ o₂ : List Byte) (x y : KeccakCtx × List Byte × Nat)
    (h₁ : keccakSqueezeStep c o₁ bitLen i = .ok x) (h₂ : keccakSqueezeStep c o₂ bitLen i = .ok y) :
    x.1 = y.1 ∧ x.2.2 = y.2.2 := by
  unfold keccakSqueezeStep at h₁ h₂
  generalize keccakRefill c = a at h₁ h₂
  cases a with
  | error _ => rw [bind_err] at h₁; cases h₁
  | ok c' =>
    rw [bind_ok] at h₁ h₂
    dsimp only at h₁ h₂
    generalize squeezeChunk c'.squeezable bitLen i = n at h₁ h₂
    generalize keccakSqueezeCopy c' o₁ i n = a at h₁
    generalize keccakSqueezeCopy c' o₂ i n = b at h₂
    cases a with
    | error _ => rw [bind_err] at h₁; cases h₁
    | ok a =>
      cases b with
      | error _ => rw [bind_err] at h₂; cases h₂
      | ok b =>
        rw [bind_ok] at h₁ h₂
        cases h₁; cases h₂; exact ⟨rfl, rfl⟩

theorem indep_loop (bitLen : Nat) : ∀ (i : Nat) (c : KeccakCtx) (o₁ o₂ : List Byte) c₁ c₂ r₁ r₂,
    keccakSqueezeLoop c o₁ bitLen i = .ok (c₁, r₁) → keccakSqueezeLoop c o₂ bitLen i = .ok (c₂, r₂) → c₁ = c₂ := by
  intro i
  induction hm : bitLen - i using Nat.strongRecOn generalizing i with
  | _ m ih =>
    intro c o₁ o₂ c₁ c₂ r₁ r₂ h₁ h₂
    rw [keccakSqueezeLoop] at h₁ h₂
    by_cases hi : i < bitLen
    · rw [dif_pos hi] at h₁ h₂
      have key := indep_step bitLen i c o₁ o₂
      generalize keccakSqueezeStep c o₁ bitLen i = a at h₁ key
      generalize keccakSqueezeStep c o₂ bitLen i = b at h₂ key
      cases a with
      | error _ => cases h₁
      | ok x =>
        cases b with
        | error _ => cases h₂
        | ok y =>
          have key := key x y rfl rfl
          obtain ⟨x1, x2, x3⟩ := x
          obtain ⟨y1, y2, y3⟩ := y
          obtain ⟨rfl, e⟩ := key
          have e : x3 = y3 := e
          subst e
          dsimp only at h₁ h₂
          by_cases hlt : i < x3
          · rw [dif_pos hlt] at h₁ h₂
            exact ih _ (by omega) _ rfl _ _ _ _ _ _ _ h₁ h₂
          · rw [dif_neg hlt] at h₁; cases h₁
    · rw [dif_neg hi] at h₁ h₂
      cases h₁; cases h₂; rfl

theorem indep_squeeze : Indep keccakSqueeze := by
  intro c o₁ o₂ c₁ c₂ r₁ r₂ h₁ h₂
  rw [keccakSqueeze] at h₁ h₂
  generalize (if c.apLen ≠ 0 ∧ ¬ c.apAdded = true then _ else _ : C KeccakCtx) = a at h₁ h₂
  cases a with
  | error _ => cases h₁
  | ok c' =>
    rw [bind_ok] at h₁ h₂
    generalize (if ¬ c'.squeezing = true then _ else _ : C KeccakCtx) = b at h₁ h₂
    cases b with
    | error _ => cases h₁
    | ok c'' =>
      rw [bind_ok] at h₁ h₂
      exact indep_loop _ _ _ _ _ _ _ _ _ h₁ h₂

/-- `S k c₁ c₂`: the contexts were reached by the same history of calls, which absorbed at most `k` bytes,
from possibly different memory contents. -/
structure FixS (I : HashImpl) (WF : I.Ctx → Prop) (ds : Nat) (u t : Nat → Prop) (S : Nat → I.Ctx → I.Ctx → Prop) :
    Prop where
  init : ∀ g₁ g₂, WF g₁ → WF g₂ → ∃ c₁ c₂, I.init g₁ = .ok c₁ ∧ I.init g₂ = .ok c₂ ∧ S 0 c₁ c₂
  upd : ∀ k c₁ c₂ (inp : List Byte) n, S k c₁ c₂ → u n → n ≤ inp.length → t (k + n) →
    ∃ c₁' c₂', I.update c₁ (some inp) n = .ok c₁' ∧ I.update c₂ (some inp) n = .ok c₂' ∧ S (k + n) c₁' c₂'
  dig : ∀ k c₁ c₂, S k c₁ c₂ → t k → ∃ c₁' c₂' d, d.length = ds ∧ S k c₁' c₂' ∧
    ∀ out : List Byte, ds ≤ out.length →
      I.digest c₁ out = .ok (c₁', d ++ out.drop ds) ∧ I.digest c₂ out = .ok (c₂', d ++ out.drop ds)
  short : ∀ k c₁ c₂ (out : List Byte), S k c₁ c₂ → t k → out.length < ds → I.digest c₁ out = .error .oobWrite
  mono : ∀ k k' c₁ c₂, S k c₁ c₂ → k ≤ k' → S k' c₁ c₂

theorem digest_uniform {I : HashImpl} {H : List Byte → List Byte} (K : HashOK I H) (hi : Indep I.digest)
    (hx : ∀ k c, K.Safe k c → ∃ d, ∀ out : List Byte, K.ds ≤ out.length →
      ∃ c', I.digest c out = .ok (c', d ++ out.drop K.ds)) (k : Nat) (c : I.Ctx) (hs : K.Safe k c) (ht : K.okTot k) :
    ∃ c' d, d.length = K.ds ∧ K.Safe k c' ∧ ∀ out : List Byte, K.ds ≤ out.length →
      I.digest c out = .ok (c', d ++ out.drop K.ds) := by
  obtain ⟨d, hd⟩ := hx k c hs
  obtain ⟨c', d', e', l', s'⟩ := K.safe_digest k c (List.replicate K.ds 0#8) hs ht (by simp)
  obtain ⟨c'', e''⟩ := hd (List.replicate K.ds 0#8) (by simp)
  rw [e''] at e'
  rw [List.drop_of_length_le (by simp), List.append_nil, List.append_nil] at e'
  cases e'
  refine ⟨_, d, l', s', ?_⟩
  intro out ho
  obtain ⟨c3, e3⟩ := hd out ho
  rw [hi _ _ _ _ _ _ _ e'' e3, e3]

theorem FixS.ofK {I : HashImpl} {H : List Byte → List Byte} (K : HashOK I H) {WF : I.Ctx → Prop} {ds : Nat}
    {u t : Nat → Prop} (hK : Conf K WF ds u t) (hi : Indep I.digest)
    (hx : ∀ k c, K.Safe k c → ∃ d, ∀ out : List Byte, K.ds ≤ out.length →
      ∃ c', I.digest c out = .ok (c', d ++ out.drop K.ds))
    (h : ∀ k c (out : List Byte), K.Safe k c → out.length < ds → I.digest c out = .error .oobWrite)
    (hm : ∀ k k' c, K.Safe k c → k ≤ k' → K.Safe k' c) :
    FixS I WF ds u t (fun k c₁ c₂ => K.Safe k c₁ ∧ K.Safe k c₂ ∧ K.Rel c₁ c₂) where
  init := fun g₁ g₂ h₁ h₂ => by
    obtain ⟨c₁, a1, a2⟩ := K.init_ok g₁ (hK.wf _ h₁)
    obtain ⟨c₂, b1, b2⟩ := K.init_ok g₂ (hK.wf _ h₂)
    exact ⟨c₁, c₂, a1, b1, by simpa using K.safe _ _ a2, by simpa using K.safe _ _ b2,
      K.rel_init _ _ _ _ (hK.wf _ h₁) (hK.wf _ h₂) a1 b1⟩
  upd := fun k c₁ c₂ inp n hs hu hn ht => by
    obtain ⟨s₁, s₂, r⟩ := hs
    obtain ⟨c₁', a1, a2⟩ := K.safe_update k c₁ inp n s₁ (hK.u n hu) hn (hK.t _ ht)
    obtain ⟨c₂', b1, b2⟩ := K.safe_update k c₂ inp n s₂ (hK.u n hu) hn (hK.t _ ht)
    exact ⟨c₁', c₂', a1, b1, a2, b2, K.rel_update k _ _ inp n _ _ s₁ s₂ r (hK.u n hu) hn (hK.t _ ht) a1 b1⟩
  dig := fun k c₁ c₂ hs ht => by
    obtain ⟨s₁, s₂, r⟩ := hs
    obtain ⟨c₁', d₁, l₁, q₁, f₁⟩ := digest_uniform K hi hx k c₁ s₁ (hK.t _ ht)
    obtain ⟨c₂', d₂, l₂, q₂, f₂⟩ := digest_uniform K hi hx k c₂ s₂ (hK.t _ ht)
    have a := f₁ (List.replicate K.ds 0#8) (by simp)
    have b := f₂ (List.replicate K.ds 0#8) (by simp)
    obtain ⟨e, r'⟩ := K.rel_digest k c₁ c₂ (List.replicate K.ds 0#8) _ _ _ _ s₁ s₂ r (hK.t _ ht) (by simp) a b
    have e := List.append_inj_left' e rfl
    subst e
    rw [← hK.ds]
    exact ⟨c₁', c₂', d₁, l₁, ⟨q₁, q₂, r'⟩, fun out ho => ⟨f₁ out ho, f₂ out ho⟩⟩
  short := fun k c₁ _ out hs _ ho => h k c₁ out hs.1 ho
  mono := fun k k' c₁ c₂ hs hk => ⟨hm _ _ _ hs.1 hk, hm _ _ _ hs.2.1 hk, hs.2.2⟩

/-- KECCAK contexts which stay at a byte boundary of the output stream; `ob o` are the possible values of
`out_length`. -/
def S3 (P : Keccak.Fam) (ob : Nat → Prop) (c : KeccakCtx) : Prop :=
  (∃ o f t, ob o ∧ Abs P.n P.ap P.al o c f t) ∨ (∃ o F pos, ob o ∧ At P.n o F pos c)

theorem S3.upd {P : Keccak.Fam} {ob : Nat → Prop} {c : KeccakCtx} (hs : S3 P ob c) (inp : List Byte) (n : Nat)
    (hu : n ≤ 2 ^ 29 - 192) (hn : n ≤ inp.length) :
    ∃ c', keccakUpdate c (some inp) n = .ok c' ∧ S3 P ob c' := by
  rcases hs with ⟨o, f, t, hob, h⟩ | ⟨o, F, pos, hob, k', off, ho, hp, h⟩
  · obtain ⟨c', h1, h2⟩ := Keccak.Fam.absorb_step h inp n hn (by omega)
      (Keccak.Fam.good_of_small h.n24 h.tl (by omega))
    exact ⟨c', h1, Or.inl ⟨_, _, _, hob, h2⟩⟩
  · exact ⟨c, Keccak.Fam.update_sq h inp n, Or.inr ⟨o, F, pos, hob, k', off, ho, hp, h⟩⟩

theorem S3.dig {P : Keccak.Fam} {ob : Nat → Prop} {c : KeccakCtx} (hs : S3 P ob c) (bits : Nat)
    (hlt : bits < 2 ^ 32) (h8 : bits % 8 = 0) (hob : ob bits) :
    ∃ c' d, d.length = bits / 8 ∧ S3 P ob c' ∧ ∀ out : List Byte, bits / 8 ≤ out.length →
      keccakSqueeze { c with outLength := bits } out = .ok (c', d ++ out.drop (bits / 8)) := by
  have key : ∃ d, d.length = bits / 8 ∧ ∀ out : List Byte, bits / 8 ≤ out.length →
      ∃ c', keccakSqueeze { c with outLength := bits } out = .ok (c', d ++ out.drop (bits / 8)) ∧ S3 P ob c' := by
    rcases hs with ⟨o, f, t, _, h⟩ | ⟨o, F, pos, _, h⟩
    · refine ⟨Keccak.piece (8 * P.n) (Keccak.absF f (t ++ Keccak.padTail (8 * P.n - t.length)
        (Keccak.dsep P.ap P.al))) 0 (bits / 8), Keccak.piece_length .., fun out ho => ?_⟩
      obtain ⟨c', h1, h2, _⟩ := squeeze_abs h P.al0 P.al4 bits hlt out ho
      exact ⟨c', h1, Or.inr ⟨_, _, _, hob, h2 h8⟩⟩
    · refine ⟨Keccak.piece (8 * P.n) F pos (bits / 8), Keccak.piece_length .., fun out ho => ?_⟩
      obtain ⟨c', h1, h2⟩ := squeeze_at h bits hlt out ho
      exact ⟨c', h1, Or.inr ⟨_, _, _, hob, h2 h8⟩⟩
  obtain ⟨d, hl, hd⟩ := key
  obtain ⟨c', e, hs'⟩ := hd (List.replicate (bits / 8) 0#8) (by simp)
  refine ⟨c', d, hl, hs', fun out ho => ?_⟩
  obtain ⟨c2, e2, _⟩ := hd out ho
  rw [e2, indep_squeeze _ _ _ _ _ _ _ e e2]

theorem FixS.sha3 (P : Keccak.Fam) (h8 : P.bits % 8 = 0) (ds : Nat) (hds : P.bits / 8 = ds) :
    FixS P.I (fun _ => True) ds (fun n => n ≤ 2 ^ 29 - 192) (fun _ => True)
      (fun _ c₁ c₂ => S3 P (fun o => o = P.o ∨ o = P.bits) c₁ ∧ c₁ = c₂) where
  init := fun g₁ g₂ _ _ => ⟨P.c0, P.c0, P.hinit _, P.hinit _, Or.inl ⟨_, _, _, Or.inl rfl, P.h0⟩, rfl⟩
  upd := by
    intro k c₁ c₂ inp n hs hu hn _
    obtain ⟨hs, rfl⟩ := hs
    obtain ⟨c', h1, h2⟩ := hs.upd inp n hu hn
    exact ⟨c', c', h1, h1, h2, rfl⟩
  dig := by
    subst hds
    intro k c₁ c₂ hs _
    obtain ⟨hs, rfl⟩ := hs
    have hol : c₁.outLength = P.o ∨ c₁.outLength = P.bits := by
      rcases hs with ⟨_, f, t, ho, h⟩ | ⟨_, F, pos, ho, _, _, _, _, h⟩
      · rw [h.ol]; exact ho
      · rw [h.ol]; exact ho
    obtain ⟨c', d, hl, hs', hd⟩ := hs.dig P.bits P.hbits h8 (Or.inr rfl)
    refine ⟨c', c', d, hl, ⟨hs', rfl⟩, fun out ho => ?_⟩
    have e : P.digest c₁ out = .ok (c', d ++ out.drop (P.bits / 8)) := by rw [P.hd _ _ hol, hd out ho]
    exact ⟨e, e⟩
  short := by
    subst hds
    intro k c c₂ out hs _ ho
    obtain ⟨hs, rfl⟩ := hs
    show P.digest c out = _
    rcases hs with ⟨o, f, t, hob, h⟩ | ⟨o, F, pos, hob, k', off, hoff, hp, h⟩
    · rw [P.hd c out (by rw [h.ol]; exact hob)]
      obtain ⟨c1, g, hq, e⟩ := squeeze_start h P.al0 P.al4 P.bits out
      rw [e]
      exact squeezeLoop_short P.bits h8 0 c1 g _ out hq rfl (by omega) (Nat.zero_le _) ho
    · rw [P.hd c out (by rw [h.ol]; exact hob)]
      obtain ⟨hq, e⟩ := squeeze_restart h P.bits out
      rw [e]
      exact squeezeLoop_short P.bits h8 0 _ _ _ out hq rfl (by omega) (Nat.zero_le _) ho
  mono := fun _ _ _ _ h _ => h

/-- Every algorithm with a fixed output length. -/
theorem fixed_ok (a : Alg) (ha : isShake a = false) :
    ∃ S, FixS (a.impl 0) (memOK a 0) (outSize a 0) (okUpd a) (okTot a) S := by
  have hb : (0 : Nat) < 2 ^ 32 := by decide
  cases a
  case MD5 =>
    exact ⟨_, FixS.ofK Pgfe.Proofs.Md5.hashOK ⟨fun _ h => h, rfl, fun _ h => h, fun _ h => h⟩
      indep_md5 (fun k c h => ⟨_, fun out ho => let ⟨c', h1, _⟩ := Pgfe.Proofs.Md5.digest_ok (Pgfe.Proofs.Md5.WF.abs h) out ho; ⟨c', h1⟩⟩)
      (fun k c out h ho => md5_short c h out ho) (fun _ _ _ h _ => h)⟩
  case SHA1 =>
    exact ⟨_, FixS.ofK hashOK_sha1 ⟨fun _ h => h, rfl, fun _ h => h, fun _ h => h⟩
      indep_sha1 (fun k c h => ⟨_, fun out ho => let ⟨c', h1, _⟩ := digest1_ok c out h.1 h.2.1 ho; ⟨c', h1⟩⟩)
      (fun k c out h ho => digest1_short c out h.1 h.2.1 ho)
      (fun _ _ _ h hk => ⟨h.1, h.2.1, Nat.le_trans h.2.2 (Nat.mul_le_mul_left 8 hk)⟩)⟩
  case SHA224 =>
    exact ⟨_, FixS.ofK hashOK_sha224 ⟨fun _ h => h, rfl, fun _ h => h, fun _ h => h⟩
      (indep_256 28) (fun k c h => ⟨_, fun out ho =>
        let ⟨c', h1, _⟩ := digest256_ok 28 (by decide) c out h.1 h.2.1 ho; ⟨c', h1⟩⟩)
      (fun k c out h ho => digest256_short 28 (by decide) c out h.1 h.2.1 ho)
      (fun _ _ _ h hk => ⟨h.1, h.2.1, Nat.le_trans h.2.2 (Nat.mul_le_mul_left 8 hk)⟩)⟩
  case SHA256 =>
    exact ⟨_, FixS.ofK hashOK_sha256 ⟨fun _ h => h, rfl, fun _ h => h, fun _ h => h⟩
      (indep_256 32) (fun k c h => ⟨_, fun out ho =>
        let ⟨c', h1, _⟩ := digest256_ok 32 (by decide) c out h.1 h.2.1 ho; ⟨c', h1⟩⟩)
      (fun k c out h ho => digest256_short 32 (by decide) c out h.1 h.2.1 ho)
      (fun _ _ _ h hk => ⟨h.1, h.2.1, Nat.le_trans h.2.2 (Nat.mul_le_mul_left 8 hk)⟩)⟩
  case SHA384 =>
    exact ⟨_, FixS.ofK hashOK_sha384 ⟨fun _ h => h, rfl, fun _ h => h, fun _ h => h⟩
      (indep_512 48) (fun k c h => ⟨_, fun out ho =>
        let ⟨c', h1, _⟩ := digest512_ok 48 (by decide) c out h.1 h.2.1 ho; ⟨c', h1⟩⟩)
      (fun k c out h ho => digest512_short 48 (by decide) c out h.1 h.2.1 ho)
      (fun _ _ _ h hk => ⟨h.1, h.2.1, Nat.le_trans h.2.2 (Nat.mul_le_mul_left 8 hk)⟩)⟩
  case SHA512 =>
    exact ⟨_, FixS.ofK hashOK_sha512 ⟨fun _ h => h, rfl, fun _ h => h, fun _ h => h⟩
      (indep_512 64) (fun k c h => ⟨_, fun out ho =>
        let ⟨c', h1, _⟩ := digest512_ok 64 (by decide) c out h.1 h.2.1 ho; ⟨c', h1⟩⟩)
      (fun k c out h ho => digest512_short 64 (by decide) c out h.1 h.2.1 ho)
      (fun _ _ _ h hk => ⟨h.1, h.2.1, Nat.le_trans h.2.2 (Nat.mul_le_mul_left 8 hk)⟩)⟩
  case SHA512_224 =>
    exact ⟨_, FixS.ofK hashOK_sha512_224 ⟨fun _ h => h, rfl, fun _ h => h, fun _ h => h⟩
      (indep_512 28) (fun k c h => ⟨_, fun out ho =>
        let ⟨c', h1, _⟩ := digest512_ok 28 (by decide) c out h.1 h.2.1 ho; ⟨c', h1⟩⟩)
      (fun k c out h ho => digest512_short 28 (by decide) c out h.1 h.2.1 ho)
      (fun _ _ _ h hk => ⟨h.1, h.2.1, Nat.le_trans h.2.2 (Nat.mul_le_mul_left 8 hk)⟩)⟩
  case SHA512_256 =>
    exact ⟨_, FixS.ofK hashOK_sha512_256 ⟨fun _ h => h, rfl, fun _ h => h, fun _ h => h⟩
      (indep_512 32) (fun k c h => ⟨_, fun out ho =>
        let ⟨c', h1, _⟩ := digest512_ok 32 (by decide) c out h.1 h.2.1 ho; ⟨c', h1⟩⟩)
      (fun k c out h ho => digest512_short 32 (by decide) c out h.1 h.2.1 ho)
      (fun _ _ _ h hk => ⟨h.1, h.2.1, Nat.le_trans h.2.2 (Nat.mul_le_mul_left 8 hk)⟩)⟩
  case SHA3_224 => exact ⟨_, FixS.sha3 (kfam .SHA3_224 0 hb) (by decide : 224 % 8 = 0) 28 (by decide : 224 / 8 = 28)⟩
  case SHA3_256 => exact ⟨_, FixS.sha3 (kfam .SHA3_256 0 hb) (by decide : 256 % 8 = 0) 32 (by decide : 256 / 8 = 32)⟩
  case SHA3_384 => exact ⟨_, FixS.sha3 (kfam .SHA3_384 0 hb) (by decide : 384 % 8 = 0) 48 (by decide : 384 / 8 = 48)⟩
  case SHA3_512 => exact ⟨_, FixS.sha3 (kfam .SHA3_512 0 hb) (by decide : 512 % 8 = 0) 64 (by decide : 512 / 8 = 64)⟩
  all_goals exact absurd ha (by decide)

/-- What a SHAKE context satisfies; the lengths of successive digests may differ. -/
structure ShakeS (I : HashImpl) (digest : Nat → I.Ctx → List Byte → C (I.Ctx × List Byte)) (S : I.Ctx → Prop) : Prop where
  init : ∀ g, ∃ c, I.init g = .ok c ∧ S c
  upd : ∀ c (inp : List Byte) n, S c → n ≤ 2 ^ 29 - 192 → n ≤ inp.length →
    ∃ c', I.update c (some inp) n = .ok c' ∧ S c'
  dig : ∀ c bits (out : List Byte), S c → bits % 2 ^ 32 / 8 ≤ out.length →
    ∃ c' o', digest bits c out = .ok (c', o') ∧ o'.length = out.length ∧
      o'.drop (bits % 2 ^ 32 / 8) = out.drop (bits % 2 ^ 32 / 8) ∧ S c'
  empty : ∀ c bits, S c → 16 ≤ bits % 2 ^ 32 → digest bits c [] = .error .oobWrite

def SK (P : Keccak.Fam) (c : KeccakCtx) : Prop :=
  (∃ o f t, Abs P.n P.ap P.al o c f t) ∨ (∃ o g s, Sq P.n o c g s)

theorem ShakeS.fam (P : Keccak.Fam) : ShakeS P.I shakeDigest (SK P) where
  init := fun g => ⟨P.c0, P.hinit g, Or.inl ⟨_, _, _, P.h0⟩⟩
  upd := by
    intro c inp n hs hu hn
    rcases hs with ⟨o, f, t, h⟩ | ⟨o, g, s, h⟩
    · obtain ⟨c', h1, h2⟩ := Keccak.Fam.absorb_step h inp n hn (by omega)
        (Keccak.Fam.good_of_small h.n24 h.tl (by omega))
      exact ⟨c', h1, Or.inl ⟨_, _, _, h2⟩⟩
    · exact ⟨c, Keccak.Fam.update_sq h inp n, Or.inr ⟨_, _, _, h⟩⟩
  dig := by
    intro c bits out hs ho
    have hlt : bits % 2 ^ 32 < 2 ^ 32 := Nat.mod_lt _ (by decide)
    rw [shakeDigest]
    rcases hs with ⟨o, f, t, h⟩ | ⟨o, g, s, h⟩
    · obtain ⟨c', h1, _, g', s', h2⟩ := squeeze_abs h P.al0 P.al4 (bits % 2 ^ 32) hlt out ho
      refine ⟨c', _, h1, ?_, ?_, Or.inr ⟨_, _, _, h2⟩⟩
      · rw [List.length_append, Keccak.piece_length, List.length_drop]; omega
      · rw [List.drop_append, Keccak.piece_length, List.drop_of_length_le (by rw [Keccak.piece_length]; omega),
          Nat.sub_self, List.drop_zero, List.nil_append]
    · obtain ⟨c', out', g', s', h1, h2, h3, h4⟩ := squeeze_safe h (bits % 2 ^ 32) hlt out ho
      exact ⟨c', out', h1, h3, h4, Or.inr ⟨_, _, _, h2⟩⟩
  empty := by
    intro c bits hs hb
    rw [shakeDigest]
    rcases hs with ⟨o, f, t, h⟩ | ⟨o, g, s, h⟩
    · obtain ⟨c1, g, hq, e⟩ := squeeze_start h P.al0 P.al4 (bits % 2 ^ 32) []
      rw [e]
      exact squeezeLoop_empty _ hb c1 g _ hq
    · obtain ⟨hq, e⟩ := squeeze_restart h (bits % 2 ^ 32) []
      rw [e]
      exact squeezeLoop_empty _ hb _ g _ hq

/-- The same when all lengths are whole bytes: nothing depends on the contents of the arrays. -/
structure ShakeA (I : HashImpl) (digest : Nat → I.Ctx → List Byte → C (I.Ctx × List Byte)) (S : I.Ctx → Prop) : Prop where
  init : ∃ c, S c ∧ ∀ g, I.init g = .ok c
  upd : ∀ c (inp : List Byte) n, S c → n ≤ 2 ^ 29 - 192 → n ≤ inp.length →
    ∃ c', I.update c (some inp) n = .ok c' ∧ S c'
  dig : ∀ c bits, S c → bits < 2 ^ 32 → bits % 8 = 0 → ∃ c' d, d.length = bits / 8 ∧ S c' ∧
    ∀ out : List Byte, bits / 8 ≤ out.length → digest bits c out = .ok (c', d ++ out.drop (bits / 8))

theorem ShakeA.fam (P : Keccak.Fam) : ShakeA P.I shakeDigest (S3 P (fun _ => True)) where
  init := ⟨P.c0, Or.inl ⟨_, _, _, trivial, P.h0⟩, P.hinit⟩
  upd := fun c inp n hs hu hn => hs.upd inp n hu hn
  dig := by
    intro c bits hs hlt h8
    obtain ⟨c', d, hl, hs', hd⟩ := hs.dig bits hlt h8 trivial
    refine ⟨c', d, hl, hs', fun out ho => ?_⟩
    rw [shakeDigest, Nat.mod_eq_of_lt hlt]
    exact hd out ho

theorem shake_aligned (a : Alg) (ha : isShake a = true) : ∃ S, ShakeA (a.impl 0) a.digestWith S := by
  have hb : (0 : Nat) < 2 ^ 32 := by decide
  cases a
  case RawSHAKE128 => exact ⟨_, ShakeA.fam (kfam .RawSHAKE128 0 hb)⟩
  case SHAKE128 => exact ⟨_, ShakeA.fam (kfam .SHAKE128 0 hb)⟩
  case RawSHAKE256 => exact ⟨_, ShakeA.fam (kfam .RawSHAKE256 0 hb)⟩
  case SHAKE256 => exact ⟨_, ShakeA.fam (kfam .SHAKE256 0 hb)⟩
  all_goals exact absurd ha (by decide)

theorem shake_ok (a : Alg) (ha : isShake a = true) : ∃ S, ShakeS (a.impl 0) a.digestWith S := by
  have hb : (0 : Nat) < 2 ^ 32 := by decide
  cases a
  case RawSHAKE128 => exact ⟨_, ShakeS.fam (kfam .RawSHAKE128 0 hb)⟩
  case SHAKE128 => exact ⟨_, ShakeS.fam (kfam .SHAKE128 0 hb)⟩
  case RawSHAKE256 => exact ⟨_, ShakeS.fam (kfam .RawSHAKE256 0 hb)⟩
  case SHAKE256 => exact ⟨_, ShakeS.fam (kfam .SHAKE256 0 hb)⟩
  all_goals exact absurd ha (by decide)

end Pgfe.Proofs.Enc
