import Verif.Proofs.KeccakSqueeze
import Verif.Proofs.Hash
/-!
# SHA-3, SHAKE and RawSHAKE as correct hash implementations
-/
namespace Pgfe.Proofs.Keccak
open Pgfe.Model Pgfe.Spec.Keccak
open Pgfe.Spec.Sha (blocks)
open Pgfe.Proofs.Sha
open Pgfe.Proofs.Hash (HashOK)

/-- What distinguishes the members of the family. -/
structure Fam where
  init : KeccakCtx → C KeccakCtx
  digest : KeccakCtx → List Byte → C (KeccakCtx × List Byte)
  n : Nat
  ap : Byte
  al : Nat
  o : Nat
  bits : Nat
  c0 : KeccakCtx
  al0 : 0 < al
  al4 : al ≤ 4
  hbits : bits < 2 ^ 32
  hinit : ∀ g, init g = .ok c0
  h0 : Abs n ap al o c0 (fun _ => 0#64) []
  hd : ∀ c out, c.outLength = o ∨ c.outLength = bits →
    digest c out = keccakSqueeze { c with outLength := bits } out

namespace Fam
variable (P : Fam)

abbrev I : HashImpl := ⟨KeccakCtx, P.init, keccakUpdate, P.digest⟩

/-- Absorbed exactly `m`. -/
def Inv (m : List Byte) (c : KeccakCtx) : Prop :=
  Abs P.n P.ap P.al P.o c ((blocks (8 * P.n) m).foldl absF (fun _ => 0#64)) (tail (8 * P.n) m)

def Safe (c : KeccakCtx) : Prop :=
  (∃ f t, Abs P.n P.ap P.al P.o c f t) ∨ (∃ g s, Sq P.n P.bits c g s)

def H (m : List Byte) : List Byte := piece (8 * P.n) (fin (8 * P.n) (dsep P.ap P.al) m) 0 (P.bits / 8)

theorem n0 : 0 < 8 * P.n := by have := P.h0.n0; omega

theorem fin_eq (n : Nat) (hn : 0 < n) (d : Byte) (m : List Byte) :
    absF ((blocks (8 * n) m).foldl absF (fun _ => 0#64))
      (tail (8 * n) m ++ padTail (8 * n - (tail (8 * n) m).length) d) = fin (8 * n) d m := by
  have hl := tail_length (8 * n) m
  have hlt := Nat.mod_lt m.length (by omega : 0 < 8 * n)
  rw [fin, padB, blocks_tail _ (by omega), List.foldl_append, hl,
    blocks_one _ (by omega) (tail (8 * n) m ++ _) (by
      rw [List.length_append, padTail_length _ _ (by omega)]; omega), List.foldl_cons, List.foldl_nil]

theorem tail_tail (n : Nat) (hn : 0 < n) (m x : List Byte) : tail n (m ++ x) = tail n (tail n m ++ x) := by
  obtain ⟨p, hp, h0⟩ := split_tail n m
  conv => lhs; rw [hp, List.append_assoc]
  exact tail_append n hn _ _ h0

theorem absorb_step {n : Nat} {ap : Byte} {al o : Nat} {c : KeccakCtx} {f : Nat → W64} {t : List Byte}
    (h : Abs n ap al o c f t) (inp : List Byte) (k : Nat) (hk : k ≤ inp.length) (hs : k < 2 ^ 61)
    (hg : Good n t.length k) :
    ∃ c', keccakUpdate c (some inp) k = .ok c' ∧
      Abs n ap al o c' ((blocks (8 * n) (t ++ inp.take k)).foldl absF f) (tail (8 * n) (t ++ inp.take k)) := by
  rw [keccakUpdate]
  rw [keccakAbsorb, if_neg (by rw [h.inq, h.sq]; simp), show k * 8 % 2 ^ 64 = 8 * k by omega]
  exact loop_ok h inp k hk hg

theorem good_of_small {n u k : Nat} (hn : n ≤ 24) (hu : u < 8 * n) (hk : 8 * k + 1536 ≤ 2 ^ 32) : Good n u k := by
  by_cases h : u = 0
  · exact Or.inl h
  · exact Or.inr ⟨by omega, Or.inl (by omega)⟩

theorem update_sq {n o : Nat} {c : KeccakCtx} {g : Nat → W64} {s : Nat} (h : Sq n o c g s) (inp : List Byte) (k : Nat) :
    keccakUpdate c (some inp) k = .ok c := by
  rw [keccakUpdate]
  rw [keccakAbsorb, if_pos (Or.inr h.sq)]

theorem update_inv (m : List Byte) (c : KeccakCtx) (h : P.Inv m c) (inp : List Byte) (k : Nat)
    (hk : k ≤ inp.length) (hs : k < 2 ^ 61) (hg : Good P.n (m.length % (8 * P.n)) k) :
    ∃ c', keccakUpdate c (some inp) k = .ok c' ∧ P.Inv (m ++ inp.take k) c' := by
  obtain ⟨c', h1, h2⟩ := absorb_step h inp k hk hs (by rw [tail_length]; exact hg)
  refine ⟨c', h1, ?_⟩
  rw [Inv, blocks_tail _ P.n0, List.foldl_append, tail_tail _ P.n0]
  exact h2

theorem digest_inv (m : List Byte) (c : KeccakCtx) (h : P.Inv m c) (out : List Byte)
    (ho : P.bits / 8 ≤ out.length) :
    ∃ c', P.digest c out = .ok (c', P.H m ++ out.drop (P.bits / 8)) ∧
      (P.bits % 8 = 0 → At P.n P.bits (fin (8 * P.n) (dsep P.ap P.al) m) (P.bits / 8) c') ∧
      ∃ g s, Sq P.n P.bits c' g s := by
  rw [P.hd c out (Or.inl h.ol)]
  have := squeeze_abs h P.al0 P.al4 P.bits P.hbits out ho
  rw [fin_eq _ P.h0.n0] at this
  exact this

/-- The library's function implements `H`. -/
def hashOK : HashOK P.I P.H where
  WF := fun _ => True
  Inv := P.Inv
  Safe := fun _ c => P.Safe c
  ds := P.bits / 8
  okUpd := fun n => 8 * n + 1536 ≤ 2 ^ 32
  okTot := fun _ => True
  tot_mono := fun _ _ _ _ => trivial
  tot_zero := trivial
  wf := fun _ _ _ => trivial
  safe := fun _ _ h => Or.inl ⟨_, _, h⟩
  init_ok := by
    intro g _
    refine ⟨P.c0, P.hinit g, ?_⟩
    have := P.n0
    rw [Inv, blocks_small _ _ (by simpa using this), tail_small _ _ (by simpa using this)]
    exact P.h0
  update_ok := by
    intro m c inp k h hu hk _
    exact P.update_inv m c h inp k hk (by omega)
      (good_of_small P.h0.n24 (Nat.mod_lt _ P.n0) hu)
  digest_ok := by
    intro m c out h _ ho
    obtain ⟨c', h1, _, h2⟩ := P.digest_inv m c h out ho
    exact ⟨c', h1, Or.inr h2⟩
  safe_update := by
    intro k c inp n h hu hn _
    rcases h with ⟨f, t, h⟩ | ⟨g, s, h⟩
    · obtain ⟨c', h1, h2⟩ := absorb_step h inp n hn (by omega) (good_of_small h.n24 h.tl hu)
      exact ⟨c', h1, Or.inl ⟨_, _, h2⟩⟩
    · exact ⟨c, update_sq h inp n, Or.inr ⟨g, s, h⟩⟩
  safe_digest := by
    intro k c out h _ ho
    have key : ∃ c' out', P.digest c out = .ok (c', out') ∧ P.Safe c' ∧ out'.length = out.length ∧
        out'.drop (P.bits / 8) = out.drop (P.bits / 8) := by
      rcases h with ⟨f, t, h⟩ | ⟨g, s, h⟩
      · rw [P.hd c out (Or.inl h.ol)]
        obtain ⟨c', h1, _, h2⟩ := squeeze_abs h P.al0 P.al4 P.bits P.hbits out ho
        refine ⟨c', _, h1, Or.inr h2, ?_, ?_⟩
        · rw [List.length_append, piece_length, List.length_drop]; omega
        · rw [List.drop_append, piece_length, List.drop_of_length_le (by rw [piece_length]; omega),
            Nat.sub_self, List.drop_zero, List.nil_append]
      · rw [P.hd c out (Or.inr h.ol)]
        obtain ⟨c', out', g', s', h1, h2, h3, h4⟩ := squeeze_safe h P.bits P.hbits out ho
        exact ⟨c', out', h1, Or.inr ⟨g', s', h2⟩, h3, h4⟩
    obtain ⟨c', out', h1, h2, h3, h4⟩ := key
    refine ⟨c', out'.take (P.bits / 8), ?_, ?_, h2⟩
    · rw [← h4, List.take_append_drop]; exact h1
    · rw [List.length_take]; omega
  len := fun m => piece_length ..
  Rel := fun c₁ c₂ => c₁ = c₂
  rel_init := by
    intro g₁ g₂ c₁ c₂ _ _ e₁ e₂
    have e₁ : P.init g₁ = .ok c₁ := e₁
    have e₂ : P.init g₂ = .ok c₂ := e₂
    rw [P.hinit] at e₁ e₂
    cases e₁; cases e₂; rfl
  rel_update := by
    intro k c₁ c₂ inp n c₁' c₂' _ _ h _ _ _ e₁ e₂
    subst h
    rw [e₁] at e₂
    cases e₂; rfl
  rel_digest := by
    intro k c₁ c₂ out c₁' c₂' o₁ o₂ _ _ h _ _ e₁ e₂
    subst h
    rw [e₁] at e₂
    cases e₂; exact ⟨rfl, rfl⟩

end Fam

/-! ## The members -/

/-- The context after `keccak_init` and the assignments that follow it. -/
def ctx0 (cap o : Nat) (ap : Byte) (al : Nat) : KeccakCtx :=
  ⟨List.replicate 25 0#64, List.replicate 192 0#8, 1600 - cap, cap, 0, o, 24, false, 0, ap, al, false⟩

theorem abs0 (cap n o : Nat) (ap : Byte) (al : Nat) (hc : 1600 - cap = 64 * n) (h0 : 0 < n) (h24 : n ≤ 24) :
    Abs n ap al o (ctx0 cap o ap al) (fun _ => 0#64) [] :=
  ⟨h0, h24, rfl, rfl, hc, rfl, rfl, by simp only [List.length_nil]; omega, rfl, rfl, rfl, rfl, rfl, rfl⟩

theorem init_eq (cap n : Nat) (hc : 1600 - cap = 64 * n) (h0 : 0 < n) (h24 : n ≤ 24) (g : KeccakCtx) :
    keccakInit g cap = ctx0 cap 0 0#8 0 := by
  have e : (1600 + 2 ^ 32 - cap) % 2 ^ 32 = 1600 - cap := by omega
  rw [keccakInit]
  rw [e, if_neg (by omega)]
  rfl

def sha3Fam (cap n bits : Nat) (hc : 1600 - cap = 64 * n) (h0 : 0 < n) (h24 : n ≤ 24) (hb : bits < 2 ^ 32) : Fam where
  init := sha3Init cap bits
  digest := sha3Digest
  n := n
  ap := 0x02#8
  al := 2
  o := bits
  bits := bits
  c0 := ctx0 cap bits 0x02#8 2
  al0 := by decide
  al4 := by decide
  hbits := hb
  hinit := fun g => by rw [sha3Init, init_eq cap n hc h0 h24]; rfl
  h0 := abs0 cap n bits _ _ hc h0 h24
  hd := fun c out h => by
    have h : c.outLength = bits := by rcases h with h | h <;> exact h
    rw [sha3Digest, ← h]

def shakeFam (cap n bits : Nat) (hc : 1600 - cap = 64 * n) (h0 : 0 < n) (h24 : n ≤ 24) (hb : bits < 2 ^ 32) : Fam where
  init := shakeInit cap
  digest := shakeDigest bits
  n := n
  ap := 0x0f#8
  al := 4
  o := 0
  bits := bits
  c0 := ctx0 cap 0 0x0f#8 4
  al0 := by decide
  al4 := by decide
  hbits := hb
  hinit := fun g => by rw [shakeInit, init_eq cap n hc h0 h24]; rfl
  h0 := abs0 cap n 0 _ _ hc h0 h24
  hd := fun c out _ => by rw [shakeDigest, Nat.mod_eq_of_lt hb]

def rawFam (cap n bits : Nat) (hc : 1600 - cap = 64 * n) (h0 : 0 < n) (h24 : n ≤ 24) (hb : bits < 2 ^ 32) : Fam where
  init := rawshakeInit cap
  digest := shakeDigest bits
  n := n
  ap := 0x03#8
  al := 2
  o := 0
  bits := bits
  c0 := ctx0 cap 0 0x03#8 2
  al0 := by decide
  al4 := by decide
  hbits := hb
  hinit := fun g => by rw [rawshakeInit, init_eq cap n hc h0 h24]; rfl
  h0 := abs0 cap n 0 _ _ hc h0 h24
  hd := fun c out _ => by rw [shakeDigest, Nat.mod_eq_of_lt hb]

theorem H_eq (P : Fam) (cap : Nat) (hc : 1600 - cap = 64 * P.n) (sfx : List Bool)
    (h : DomSep sfx (dsep P.ap P.al)) (m : List Byte) :
    P.H m = bytesOf (keccak cap (bitsOf m ++ sfx) (8 * (P.bits / 8))) := by
  rw [keccak_bytes cap (8 * P.n) (P.bits / 8) (by omega) P.n0 (by have := P.h0.n24; omega) sfx _ h, Fam.H, piece]
  simp only [Nat.zero_add]

end Pgfe.Proofs.Keccak
