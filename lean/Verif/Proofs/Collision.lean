import Verif.Spec.Collision
import Verif.Spec.Md5
import Verif.Proofs.ShaStd
/-!
# Collision extraction for the paddings of the library
-/
namespace Pgfe.Proofs.Coll
open Pgfe.Spec Pgfe.Spec.Sha

variable {H : Type} (f : H → List Byte → H)

theorem iterates_append (a b : List (List Byte)) (h : H) :
    iterates f h (a ++ b) = iterates f h a ++ iterates f (a.foldl f h) b := by
  induction a generalizing h with
  | nil => rfl
  | cons x a ih => rw [List.cons_append, iterates, iterates, ih]; rfl

theorem mem_last (a : List (List Byte)) (x : List Byte) (h : H) :
    (a.foldl f h, x) ∈ iterates f h (a ++ [x]) := by
  rw [iterates_append]
  exact List.mem_append_right _ (List.mem_cons_self ..)

/-- Same number of blocks: equal, or a collision. -/
theorem same_count (h : H) (n : Nat) (a b : List (List Byte)) (ha : a.length = n) (hb : b.length = n)
    (e : a.foldl f h = b.foldl f h) : a = b ∨ Collide f (iterates f h a) (iterates f h b) := by
  induction n generalizing a b with
  | zero =>
    left
    rw [List.length_eq_zero_iff.mp ha, List.length_eq_zero_iff.mp hb]
  | succ n ih =>
    obtain ⟨a', x, rfl⟩ : ∃ a' x, a = a' ++ [x] :=
      ⟨a.dropLast, a.getLast (by rintro rfl; simp at ha), (List.dropLast_concat_getLast _).symm⟩
    obtain ⟨b', y, rfl⟩ : ∃ b' y, b = b' ++ [y] :=
      ⟨b.dropLast, b.getLast (by rintro rfl; simp at hb), (List.dropLast_concat_getLast _).symm⟩
    rw [List.length_append, List.length_singleton] at ha hb
    by_cases hxy : (a'.foldl f h, x) = (b'.foldl f h, y)
    · rw [Prod.mk.injEq] at hxy
      rcases ih a' b' (by omega) (by omega) hxy.1 with r | ⟨u, hu, v, hv, r⟩
      · left; rw [r, hxy.2]
      · right
        refine ⟨u, ?_, v, ?_, r⟩
        · rw [iterates_append]; exact List.mem_append_left _ hu
        · rw [iterates_append]; exact List.mem_append_left _ hv
    · right
      refine ⟨_, mem_last f a' x h, _, mem_last f b' y h, hxy, ?_⟩
      rw [List.foldl_append, List.foldl_append] at e
      exact e

theorem flatten_blocks (bs : Nat) (k : Nat) (p : List Byte) (h : p.length = k * bs) (hbs : 0 < bs) :
    (blocks bs p).flatten = p := by
  induction k generalizing p with
  | zero =>
    rw [Nat.zero_mul] at h
    rw [List.length_eq_zero_iff.mp h]
    simp [blocks]
  | succ k ih =>
    rw [Nat.succ_mul] at h
    have hs : p = p.take bs ++ p.drop bs := (List.take_append_drop bs p).symm
    have ht : (p.take bs).length = bs := by rw [List.length_take]; omega
    rw [hs, Pgfe.Proofs.Sha.blocks_append bs hbs _ _ (by rw [ht, Nat.mod_self]),
      Pgfe.Proofs.Sha.blocks_one bs hbs _ ht, List.flatten_append, ih (p.drop bs) (by rw [List.length_drop]; omega)]
    simp

/-- The last block of a padded message. -/
theorem blocks_last (bs : Nat) (hbs : 0 < bs) (k : Nat) (p : List Byte) (h : p.length = (k + 1) * bs) :
    blocks bs p = blocks bs (p.take (k * bs)) ++ [p.drop (k * bs)] := by
  have ht : (p.take (k * bs)).length = k * bs := by
    rw [List.length_take, h, Nat.succ_mul]; omega
  have hd : (p.drop (k * bs)).length = bs := by
    rw [List.length_drop, h, Nat.succ_mul]; omega
  conv => lhs; rw [← List.take_append_drop (k * bs) p]
  rw [Pgfe.Proofs.Sha.blocks_append bs hbs _ _ (by rw [ht, Nat.mul_mod_left]),
    Pgfe.Proofs.Sha.blocks_one bs hbs _ hd]

/-- The general argument, for messages padded to whole blocks of which the last one ends with a field
that determines the length of the message. -/
theorem extract (h : H) (bs lb k₁ k₂ : Nat) (hbs : 0 < bs) (hlb : lb ≤ bs) (m₁ m₂ p₁ p₂ : List Byte)
    (l₁ : p₁.length = (k₁ + 1) * bs) (l₂ : p₂.length = (k₂ + 1) * bs)
    (q₁ : p₁.take m₁.length = m₁) (q₂ : p₂.take m₂.length = m₂)
    (hk : m₁.length = m₂.length → k₁ = k₂)
    (hlen : p₁.drop (p₁.length - lb) = p₂.drop (p₂.length - lb) → m₁.length = m₂.length)
    (e : (blocks bs p₁).foldl f h = (blocks bs p₂).foldl f h) :
    m₁ = m₂ ∨ Collide f (iterates f h (blocks bs p₁)) (iterates f h (blocks bs p₂)) := by
  by_cases hl : m₁.length = m₂.length
  · have hk' := hk hl
    subst hk'
    have c₁ : (blocks bs p₁).length = k₁ + 1 := by
      rw [blocks, List.length_map, List.length_range, l₁, Nat.mul_div_cancel _ hbs]
    have c₂ : (blocks bs p₂).length = k₁ + 1 := by
      rw [blocks, List.length_map, List.length_range, l₂, Nat.mul_div_cancel _ hbs]
    rcases same_count f h (k₁ + 1) _ _ c₁ c₂ e with r | r
    · left
      have : p₁ = p₂ := by
        rw [← flatten_blocks bs (k₁ + 1) p₁ l₁ hbs, ← flatten_blocks bs (k₁ + 1) p₂ l₂ hbs, r]
      rw [← q₁, ← q₂, this, hl]
    · exact .inr r
  · right
    rw [blocks_last bs hbs k₁ p₁ l₁, blocks_last bs hbs k₂ p₂ l₂] at e ⊢
    refine ⟨_, mem_last f _ _ h, _, mem_last f _ _ h, ?_, ?_⟩
    · intro hc
      rw [Prod.mk.injEq] at hc
      apply hl
      apply hlen
      have t (k : Nat) (p : List Byte) (l : p.length = (k + 1) * bs) :
          p.drop (p.length - lb) = (p.drop (k * bs)).drop (bs - lb) := by
        rw [List.drop_drop, l, Nat.succ_mul]
        congr 1
        omega
      rw [t k₁ p₁ l₁, t k₂ p₂ l₂, hc.2]
    · rw [List.foldl_append, List.foldl_append] at e
      exact e

/-! ## The length fields -/

theorem bytesOfNat_inj (n x y : Nat) (hx : x < 256 ^ n) (hy : y < 256 ^ n)
    (h : bytesOfNat n x = bytesOfNat n y) : x = y := by
  induction n generalizing x y with
  | zero => simp at hx hy; omega
  | succ n ih =>
    have s (z : Nat) : bytesOfNat (n + 1) z = bytesOfNat n (z / 256) ++ [BitVec.ofNat 8 z] := by
      rw [bytesOfNat, bytesOfNat, List.range_succ, List.map_append]
      congr 1
      · apply List.map_congr_left
        intro i hi
        rw [List.mem_range] at hi
        rw [show n + 1 - 1 - i = (n - 1 - i) + 1 by omega, Nat.pow_succ', Nat.div_div_eq_div_mul]
      · simp
    rw [s, s] at h
    have h' := List.append_inj' h rfl
    have e1 := ih (x / 256) (y / 256) (by rw [Nat.pow_succ] at hx; omega) (by rw [Nat.pow_succ] at hy; omega) h'.1
    have e2 : BitVec.ofNat 8 x = BitVec.ofNat 8 y := by simpa using h'.2
    have e3 := congrArg BitVec.toNat e2
    rw [BitVec.toNat_ofNat, BitVec.toNat_ofNat] at e3
    omega

theorem bytesLE_inj (n x y : Nat) (hx : x < 256 ^ n) (hy : y < 256 ^ n)
    (h : Md5.bytesLE n x = Md5.bytesLE n y) : x = y := by
  apply bytesOfNat_inj n x y hx hy
  have r (z : Nat) : bytesOfNat n z = (Md5.bytesLE n z).reverse := by
    apply List.ext_getElem
    · simp [bytesOfNat, Md5.bytesLE]
    · intro i h1 h2
      simp [bytesOfNat, Md5.bytesLE]
  rw [r, r, h]

theorem bytesOfWord_inj {w : Nat} (n : Nat) (hw : w = 8 * n) (x y : BitVec w) (h : bytesOfWord x = bytesOfWord y) :
    x = y := by
  subst hw
  apply BitVec.eq_of_toNat_eq
  rw [bytesOfWord, bytesOfWord, Nat.mul_div_cancel_left n (by decide)] at h
  have : 256 ^ n = 2 ^ (8 * n) := by rw [show 256 = 2 ^ 8 from rfl, Nat.pow_mul]
  exact bytesOfNat_inj n _ _ (this ▸ x.isLt) (this ▸ y.isLt) h

/-! ## The paddings -/

theorem pad_facts (bs lb : Nat) (hlb : lb < bs) (m : List Byte) :
    (stalePad bs lb m).length = ((m.length + lb) / bs + 1) * bs ∧ (stalePad bs lb m).take m.length = m ∧
      (stalePad bs lb m).drop ((stalePad bs lb m).length - lb) = bytesOfNat lb (8 * m.length) := by
  have hm := Nat.div_add_mod m.length bs
  have hmlt := Nat.mod_lt m.length (show 0 < bs by omega)
  have bl : (bytesOfNat lb (8 * m.length)).length = lb := by simp [bytesOfNat]
  have last (x : List Byte) : (x ++ bytesOfNat lb (8 * m.length)).drop
      ((x ++ bytesOfNat lb (8 * m.length)).length - lb) = bytesOfNat lb (8 * m.length) := by
    rw [List.length_append, bl, Nat.add_sub_cancel, List.drop_left' rfl]
  unfold stalePad
  by_cases h : m.length % bs < bs - lb
  · rw [if_pos h]
    refine ⟨?_, ?_, ?_⟩
    · rw [pad, List.length_append, List.length_append, List.length_append, bl, List.length_replicate,
        List.length_singleton, padZeros]
      generalize hq : m.length / bs = q at hm
      generalize hr : m.length % bs = r at *
      have e1 : (m.length + lb) / bs = q := by
        rw [← hm, show bs * q + r + lb = (r + lb) + bs * q by omega, Nat.add_mul_div_left _ _ (by omega),
          Nat.div_eq_of_lt (by omega), Nat.zero_add]
      have e2 : (m.length + 1 + lb) % bs = (r + 1 + lb) % bs := by
        rw [← hm, show bs * q + r + 1 + lb = (r + 1 + lb) + bs * q by omega, Nat.add_mul_mod_self_left]
      rw [e1, e2, Nat.succ_mul, Nat.mul_comm q bs]
      by_cases hfull : r + 1 + lb = bs
      · rw [hfull, Nat.mod_self, Nat.sub_zero, Nat.mod_self]; omega
      · rw [Nat.mod_eq_of_lt (show r + 1 + lb < bs by omega), Nat.mod_eq_of_lt (by omega)]; omega
    · rw [pad, List.append_assoc, List.append_assoc, List.take_left' rfl]
    · rw [pad]; exact last _
  · rw [if_neg h]
    refine ⟨?_, ?_, last _⟩
    · simp only [List.length_append, bl, List.length_replicate, List.length_singleton, List.length_take,
        List.length_drop]
      have e0 : m.length - m.length / bs * bs = m.length % bs := by
        rw [Nat.mul_comm]; omega
      rw [e0]
      generalize hq : m.length / bs = q at hm
      generalize hr : m.length % bs = r at *
      have e1 : (m.length + lb) / bs = q + 1 := by
        rw [← hm, show bs * q + r + lb = (r + lb - bs) + bs * (q + 1) by rw [Nat.mul_succ]; omega,
          Nat.add_mul_div_left _ _ (by omega), Nat.div_eq_of_lt (by omega), Nat.zero_add]
      rw [e1, Nat.succ_mul, Nat.succ_mul, Nat.mul_comm q bs, Nat.min_eq_left (by omega)]
      omega
    · rw [List.append_assoc, List.append_assoc, List.append_assoc, List.take_left' rfl]

theorem md5pad_facts (m : List Byte) :
    (Md5.pad m).length = ((m.length + 8) / 64 + 1) * 64 ∧ (Md5.pad m).take m.length = m ∧
      (Md5.pad m).drop ((Md5.pad m).length - 8) = Md5.bytesLE 8 (8 * m.length % 2 ^ 64) := by
  have bl : (Md5.bytesLE 8 (8 * m.length % 2 ^ 64)).length = 8 := by simp [Md5.bytesLE]
  refine ⟨?_, ?_, ?_⟩
  · rw [Md5.pad, List.length_append, List.length_append, List.length_append, bl, List.length_replicate,
      List.length_singleton, padZeros]
    omega
  · rw [Md5.pad, List.append_assoc, List.append_assoc, List.take_left' rfl]
  · rw [Md5.pad, List.length_append, bl, Nat.add_sub_cancel, List.drop_left' rfl]

/-- Collisions under the library's padding. -/
theorem stale_collision (h : H) (bs lb : Nat) (hlb : lb < bs) (m₁ m₂ : List Byte)
    (b₁ : 8 * m₁.length < 256 ^ lb) (b₂ : 8 * m₂.length < 256 ^ lb)
    (e : (blocks bs (stalePad bs lb m₁)).foldl f h = (blocks bs (stalePad bs lb m₂)).foldl f h) :
    m₁ = m₂ ∨ Collide f (iterates f h (blocks bs (stalePad bs lb m₁)))
      (iterates f h (blocks bs (stalePad bs lb m₂))) := by
  obtain ⟨l₁, q₁, d₁⟩ := pad_facts bs lb hlb m₁
  obtain ⟨l₂, q₂, d₂⟩ := pad_facts bs lb hlb m₂
  refine extract f h bs lb _ _ (by omega) (by omega) m₁ m₂ _ _ l₁ l₂ q₁ q₂ (fun he => by rw [he]) (fun he => ?_) e
  rw [d₁, d₂] at he
  have := bytesOfNat_inj lb _ _ b₁ b₂ he
  omega

theorem md5_collision (h : H) (m₁ m₂ : List Byte) (b₁ : 8 * m₁.length < 2 ^ 64) (b₂ : 8 * m₂.length < 2 ^ 64)
    (e : (blocks 64 (Md5.pad m₁)).foldl f h = (blocks 64 (Md5.pad m₂)).foldl f h) :
    m₁ = m₂ ∨ Collide f (iterates f h (blocks 64 (Md5.pad m₁))) (iterates f h (blocks 64 (Md5.pad m₂))) := by
  obtain ⟨l₁, q₁, d₁⟩ := md5pad_facts m₁
  obtain ⟨l₂, q₂, d₂⟩ := md5pad_facts m₂
  refine extract f h 64 8 _ _ (by omega) (by omega) m₁ m₂ _ _ l₁ l₂ q₁ q₂ (fun he => by rw [he]) (fun he => ?_) e
  rw [d₁, d₂, Nat.mod_eq_of_lt b₁, Nat.mod_eq_of_lt b₂] at he
  have := bytesLE_inj 8 _ _ b₁ b₂ he
  omega

/-! ## The final values -/

theorem V5_inj (u v : V5) (h : u.bytes = v.bytes) : u = v := by
  have l (x : W32) : (bytesOfWord x).length = 4 := by simp [bytesOfWord, bytesOfNat]
  have i (x y : W32) := bytesOfWord_inj (w := 32) 4 rfl x y
  unfold V5.bytes at h
  have h1 := List.append_inj' h (by rw [l, l])
  have h2 := List.append_inj' h1.1 (by rw [l, l])
  have h3 := List.append_inj' h2.1 (by rw [l, l])
  have h4 := List.append_inj' h3.1 (by rw [l, l])
  cases u; cases v
  simp only [V5.mk.injEq]
  exact ⟨i _ _ h4.1, i _ _ h4.2, i _ _ h3.2, i _ _ h2.2, i _ _ h1.2⟩

theorem V4_inj (u v : Md5.V4) (h : u.bytes = v.bytes) : u = v := by
  have l (x : Nat) : (Md5.bytesLE 4 x).length = 4 := by simp [Md5.bytesLE]
  have i (x y : W32) (h : Md5.bytesLE 4 x.toNat = Md5.bytesLE 4 y.toNat) : x = y :=
    BitVec.eq_of_toNat_eq (bytesLE_inj 4 _ _ x.isLt y.isLt h)
  unfold Md5.V4.bytes at h
  have h1 := List.append_inj' h (by rw [l, l])
  have h2 := List.append_inj' h1.1 (by rw [l, l])
  have h3 := List.append_inj' h2.1 (by rw [l, l])
  cases u; cases v
  simp only [Md5.V4.mk.injEq]
  exact ⟨i _ _ h3.1, i _ _ h3.2, i _ _ h2.2, i _ _ h1.2⟩

theorem flatMap_bytes_inj {w : Nat} (n : Nat) (hw : w = 8 * n) (a b : List (BitVec w)) (hl : a.length = b.length)
    (h : a.flatMap bytesOfWord = b.flatMap bytesOfWord) : a = b := by
  induction a generalizing b with
  | nil => cases b with
    | nil => rfl
    | cons _ _ => simp at hl
  | cons x a ih => cases b with
    | nil => simp at hl
    | cons y b =>
      rw [List.flatMap_cons, List.flatMap_cons] at h
      have h1 := List.append_inj h (by simp [bytesOfWord, bytesOfNat])
      rw [bytesOfWord_inj n hw x y h1.1, ih b (by simpa using hl) h1.2]

theorem V8_inj {w : Nat} (n : Nat) (hw : w = 8 * n) (u v : V8 w) (h : u.bytes = v.bytes) : u = v := by
  have h1 := flatMap_bytes_inj n hw u.words v.words rfl h
  cases u; cases v
  simpa [V8.words] using h1

end Pgfe.Proofs.Coll
