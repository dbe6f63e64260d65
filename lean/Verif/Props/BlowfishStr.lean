import Verif.Props.BlowfishKey
/-!
# C61: exactly when a key string is used completely
-/
namespace Pgfe.Props
open Pgfe.Model Pgfe.Proofs Pgfe.Spec

theorem expand_eq_iff (k k' : List Byte) (hk : k ≠ []) (hk' : k' ≠ []) :
    Blowfish.expand Blowfish.piTable k = Blowfish.expand Blowfish.piTable k' ↔
      ∀ i, i < 72 → k[i % k.length]? = k'[i % k'.length]? := by
  constructor
  · intro h i hi
    have hl : Blowfish.piTable.length = 1042 := by rw [← Bf.tab_pi]; exact Bf.tab_length
    have := Blowfish.expand_inj Blowfish.piTable hl k k' h i hi
    have m (x : List Byte) (hx : x ≠ []) : i % x.length < x.length :=
      Nat.mod_lt _ (List.length_pos_of_ne_nil hx)
    rw [List.getElem?_eq_getElem (m k hk), List.getElem?_eq_getElem (m k' hk')]
    simp only [List.getD, List.getElem?_eq_getElem (m k hk), List.getElem?_eq_getElem (m k' hk'), Option.getD_some] at this
    rw [this]
  · intro h
    obtain ⟨c, e, e'⟩ := C45 bfMem bfMem bfMem_ok bfMem_ok k k' hk hk' h
    obtain ⟨d, h1, _, h3⟩ := C47_init bfMem bfMem_ok k hk
    obtain ⟨d', h1', _, h3'⟩ := C47_init bfMem bfMem_ok k' hk'
    rw [h1] at e
    rw [h1'] at e'
    cases e
    cases e'
    rw [← h3, ← h3']

/-- **C61, exactly when.**  An object made from a non-empty `std::string` works with the whole string as key (the tables
are those of the published key schedule for it) if and only if there is no zero byte among the first 72 bytes of the
string. -/
theorem C61_iff (mem : BfCtx) (hm : bfCtxOK mem) (s : List Byte) (hs : s ≠ []) :
    (∃ ctx, Bf.create mem (.str s) = .ok ctx ∧ bfWords ctx = Blowfish.expand Blowfish.piTable s) ↔ 0#8 ∉ s.take 72 := by
  by_cases hk : s.takeWhile (fun b => b ≠ 0#8) = []
  · obtain ⟨r, rfl⟩ : ∃ r, s = 0#8 :: r := by
      cases s with
      | nil => exact absurd rfl hs
      | cons b r =>
        rw [List.takeWhile_cons] at hk
        split at hk
        · cases hk
        · next h => exact ⟨r, by rw [show b = 0#8 by simpa using h]⟩
    have he := (C61_violation mem hm [1#8] r r (by decide) (by decide)).2
    refine ⟨?_, fun h => absurd (by simp) h⟩
    rintro ⟨c, h, _⟩
    rw [he] at h
    cases h
  · obtain ⟨c, h1, _, h3⟩ := C61_exact mem hm s hk
    have hw : (∃ ctx, Bf.create mem (.str s) = .ok ctx ∧ bfWords ctx = Blowfish.expand Blowfish.piTable s) ↔
        Blowfish.expand Blowfish.piTable (s.takeWhile (fun b => b ≠ 0#8)) = Blowfish.expand Blowfish.piTable s := by
      constructor
      · rintro ⟨c', e, e'⟩
        rw [h1, Except.ok.injEq] at e
        rw [← h3, e, e']
      · intro e
        exact ⟨c, h1, by rw [h3, e]⟩
    rw [hw, expand_eq_iff _ _ hk hs]
    have hz : 0#8 ∉ s.takeWhile (fun b => b ≠ 0#8) := by
      have := List.all_takeWhile (p := fun b => decide (b ≠ 0#8)) (l := s)
      rw [List.all_eq_true] at this
      intro hmem
      simpa using this _ hmem
    have hsplit := List.takeWhile_append_dropWhile (p := fun b => decide (b ≠ 0#8)) (l := s)
    have hhead : ∀ b r, s.dropWhile (fun b => b ≠ 0#8) = b :: r → b = 0#8 := by
      intro b r e
      have := List.head?_dropWhile_not (fun b => decide (b ≠ 0#8)) s
      rw [e] at this
      simpa using this
    generalize s.takeWhile (fun b => b ≠ 0#8) = k at *
    generalize s.dropWhile (fun b => b ≠ 0#8) = t at *
    subst hsplit
    have hkl : 0 < k.length := List.length_pos_of_ne_nil hk
    cases t with
    | nil =>
      rw [List.append_nil]
      exact ⟨fun _ hm' => hz (List.mem_of_mem_take hm'), fun _ _ _ => rfl⟩
    | cons b r =>
      have hb := hhead b r rfl
      subst hb
      constructor
      · intro h hm'
        by_cases hlt : k.length < 72
        · have := h k.length hlt
          rw [Nat.mod_self, Nat.mod_eq_of_lt (by simp), List.getElem?_append_right (Nat.le_refl _), Nat.sub_self] at this
          rw [List.getElem?_eq_getElem hkl, List.getElem?_cons_zero, Option.some.injEq] at this
          exact hz (this ▸ List.getElem_mem hkl)
        · rw [List.take_append_of_le_length (by omega)] at hm'
          exact hz (List.mem_of_mem_take hm')
      · intro h i hi
        by_cases hlt : k.length < 72
        · exfalso
          apply h
          rw [List.take_append, List.mem_append]
          right
          obtain ⟨j, hj⟩ : ∃ j, 72 - k.length = j + 1 := ⟨72 - k.length - 1, by omega⟩
          rw [hj, List.take_succ_cons]
          exact List.mem_cons_self
        · rw [Nat.mod_eq_of_lt (by omega), Nat.mod_eq_of_lt (by rw [List.length_append]; omega),
            List.getElem?_append_left (by omega)]

/-- A zero byte in the middle of a short string, and one after the first 72 bytes. -/
theorem C61_iff_example (mem : BfCtx) (hm : bfCtxOK mem) :
    (¬ ∃ ctx, Bf.create mem (.str [0x61#8, 0#8, 0x62#8]) = .ok ctx ∧
      bfWords ctx = Blowfish.expand Blowfish.piTable [0x61#8, 0#8, 0x62#8]) ∧
    ∃ ctx, Bf.create mem (.str (List.replicate 72 0x61#8 ++ [0#8, 0x62#8])) = .ok ctx ∧
      bfWords ctx = Blowfish.expand Blowfish.piTable (List.replicate 72 0x61#8 ++ [0#8, 0x62#8]) := by
  refine ⟨fun h => ?_, (C61_iff mem hm _ (by decide)).2 (by decide +kernel)⟩
  exact absurd ((C61_iff mem hm _ (by decide)).1 h) (by decide)

end Pgfe.Props
