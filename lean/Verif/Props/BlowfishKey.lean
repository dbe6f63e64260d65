import Verif.Props.Blowfish
import Verif.Proofs.BlowfishKey
/-!
# C45: which Blowfish keys give the same context
-/
namespace Pgfe.Props
open Pgfe.Model Pgfe.Proofs Pgfe.Spec

/-- **C45, exactly.** Two non-empty keys give the same context if and only if they agree in their first 72 bytes when
repeated cyclically. -/
theorem C45_iff (mem mem' : BfCtx) (hm : bfCtxOK mem) (hm' : bfCtxOK mem') (k k' : List Byte) (hk : k ≠ []) (hk' : k' ≠ []) :
    (∃ ctx, Bf.init mem k k.length = .ok ctx ∧ Bf.init mem' k' k'.length = .ok ctx) ↔
      ∀ i, i < 72 → k[i % k.length]? = k'[i % k'.length]? := by
  refine ⟨fun ⟨c, e, e'⟩ i hi => ?_, C45 mem mem' hm hm' k k' hk hk'⟩
  obtain ⟨d, h1, h2, h3⟩ := C47_init mem hm k hk
  obtain ⟨d', h1', h2', h3'⟩ := C47_init mem' hm' k' hk'
  rw [h1] at e
  rw [h1'] at e'
  cases e
  cases e'
  have hl : Blowfish.piTable.length = 1042 := by rw [← Bf.tab_pi]; exact Bf.tab_length
  have := Blowfish.expand_inj Blowfish.piTable hl k k' (by rw [← h3, ← h3']) i hi
  have m (x : List Byte) (hx : x ≠ []) : i % x.length < x.length :=
    Nat.mod_lt _ (List.length_pos_of_ne_nil hx)
  rw [List.getElem?_eq_getElem (m k hk), List.getElem?_eq_getElem (m k' hk')]
  simp only [List.getD, List.getElem?_eq_getElem (m k hk), List.getElem?_eq_getElem (m k' hk'), Option.getD_some] at this
  rw [this]

/-- **C45, no two keys of the same length.** Different keys of the same length, at most 72 bytes, give different
contexts. -/
theorem C45_same_length (mem mem' : BfCtx) (hm : bfCtxOK mem) (hm' : bfCtxOK mem') (k k' : List Byte) (hk : k ≠ [])
    (hl : k.length = k'.length) (h72 : k.length ≤ 72) (ctx : BfCtx)
    (h : Bf.init mem k k.length = .ok ctx) (h' : Bf.init mem' k' k'.length = .ok ctx) : k = k' := by
  have hk' : k' ≠ [] := by intro e; rw [e] at hl; exact hk (List.length_eq_zero_iff.1 hl)
  have := (C45_iff mem mem' hm hm' k k' hk hk').1 ⟨ctx, h, h'⟩
  refine List.ext_getElem? fun i => ?_
  by_cases hi : i < k.length
  · have := this i (by omega)
    rwa [Nat.mod_eq_of_lt hi, Nat.mod_eq_of_lt (by omega)] at this
  · rw [List.getElem?_eq_none (by omega), List.getElem?_eq_none (by omega)]

/-- "ab" and "abab" are equivalent, "ab" and "ba" are not. -/
theorem C45_iff_example :
    (∃ ctx, Bf.init bfMem (str "ab") 2 = .ok ctx ∧ Bf.init bfMem (str "abab") 4 = .ok ctx) ∧
    ¬ ∃ ctx, Bf.init bfMem (str "ab") 2 = .ok ctx ∧ Bf.init bfMem (str "ba") 2 = .ok ctx := by
  refine ⟨(C45_iff bfMem bfMem bfMem_ok bfMem_ok (str "ab") (str "abab") (by decide) (by decide)).2 (by decide), fun h => ?_⟩
  have := (C45_iff bfMem bfMem bfMem_ok bfMem_ok (str "ab") (str "ba") (by decide) (by decide)).1 h 0 (by decide)
  revert this
  decide

end Pgfe.Props
