import Verif.Model.TextTornObject
import Verif.Proofs.TextTornSafe
import Verif.Props.BaseObject
/-!
# Proofs for C101: the classes
-/
namespace Pgfe.Proofs.Torn
open Pgfe.Model Pgfe.Spec Pgfe.Spec.Torn Pgfe.Props

theorem objCalls_idle (K : BaseClass) (hK : GoodEstimates K) (cs : List BaseCall) (hc : ∀ c ∈ cs, ValidCall K c) :
    ∀ o rs o', EncIdle o → DecIdle o → objCalls K cs o = .ok (rs, o') → EncIdle o' ∧ DecIdle o' := by
  induction cs with
  | nil =>
    intro o rs o' h1 h2 h
    obtain ⟨-, rfl⟩ := Prod.mk.inj (Except.ok.inj h)
    exact ⟨h1, h2⟩
  | cons c cs ih =>
    intro o rs o' h1 h2 h
    obtain ⟨r, o1, e1, -, i1, d1⟩ := objCall_ok K hK c (hc c (by simp)) o h1 h2
    obtain ⟨rs2, o2, e2, -⟩ := objCalls_ok K hK cs (fun c h => hc c (by simp [h])) o1 i1 d1
    unfold objCalls at h
    rw [e1, bind_ok] at h
    dsimp only at h
    rw [e2, bind_ok] at h
    obtain ⟨-, rfl⟩ := Prod.mk.inj (Except.ok.inj h)
    exact ih (fun c h => hc c (by simp [h])) o1 rs2 _ i1 d1 e2

/-- The buffer after the size test. -/
theorem ready_dec (K : BaseClass) (len : Nat) (o : BaseObj) (h : DecIdle o) :
    DecIdle (if o.decsz ≤ K.decEst len then decSetSize (K.decEst len) (decAlloc (K.decEst len) o) else o) ∧
    K.decEst len ≤ (if o.decsz ≤ K.decEst len then decSetSize (K.decEst len) (decAlloc (K.decEst len) o) else o).decsz := by
  have := h.2
  split
  · exact ⟨⟨by simp [decSetSize, decAlloc], by simp [decSetSize]; omega⟩, by simp [decSetSize]⟩
  · exact ⟨h, by omega⟩

theorem objDecode_steady (K : BaseClass) (hK : GoodEstimates K) {n : Nat} (hn : 0 < n) {m : Nat → Nat → Byte} (hm : Steady n m)
    (o : BaseObj) (h : DecIdle o) :
    ∃ d o', Model.Torn.objDecode K n m o = .ok (d, o') ∧ DecIdle o' ∧
      d.length ≤ (specOf K.alg).unit * ceilDiv n (specOf K.alg).chars ∧
      o'.enCache = o.enCache ∧ o'.encsz = o.encsz := by
  obtain ⟨t, es⟩ := strlen_steady hm (n + 2) 0 0 (by omega) (by omega)
  unfold Model.Torn.objDecode
  rw [es, bind_ok]
  dsimp only
  obtain ⟨i1, i2⟩ := ready_dec K n o h
  have hen : (if o.decsz ≤ K.decEst n then decSetSize (K.decEst n) (decAlloc (K.decEst n) o) else o).enCache = o.enCache ∧
      (if o.decsz ≤ K.decEst n then decSetSize (K.decEst n) (decAlloc (K.decEst n) o) else o).encsz = o.encsz := by
    split <;> exact ⟨rfl, rfl⟩
  generalize (if o.decsz ≤ K.decEst n then decSetSize (K.decEst n) (decAlloc (K.decEst n) o) else o) = o1 at i1 i2 hen
  have hsz := dec_size K hK n o1.decsz i1.2 i2
  have hm' : Steady n (fun t' => m (t + t')) := ⟨fun t' => hm.1 _, fun t' i hi => hm.2 _ i hi⟩
  obtain ⟨p1, p2, _⟩ := params_eq K.alg
  have hd := decode_steady K.alg hm' hn o1.deCache
  rw [p1, p2] at hd
  obtain ⟨k, b, e, l, hk, -⟩ := hd (by have := i1.1; unfold ceilDiv at hsz; omega)
  rw [e, bind_ok]
  dsimp only
  have hk' : k < b.length := by have := i1.1; unfold ceilDiv at hsz; omega
  unfold decNul
  dsimp only
  rw [wr_ok _ hk', bind_ok, bind_ok]
  dsimp only
  rw [rds_ok (by rw [List.length_set]; omega), bind_ok]
  refine ⟨_, _, rfl, ⟨?_, i1.2⟩, ?_, hen⟩
  · show (b.set k 0#8).length = o1.decsz
    rw [List.length_set, l]; exact i1.1
  · show (((b.set k 0#8).drop 0).take k).length ≤ _
    rw [List.length_take]
    unfold ceilDiv
    omega

/-- A text of one character when it is measured, which then looks empty at two of three reads. -/
def wink : Nat → Nat → Byte := fun t i => if t < 2 then (if i = 0 then 0x41#8 else 0#8) else blink (t - 2) i

theorem wink_strlen : Model.Torn.strlen 1 wink (1 + 2) 0 0 = .ok (1, 2) := by decide

theorem objDecode_wink (K : BaseClass) (o : BaseObj) : Model.Torn.objDecode K 1 wink o = .error .oobWrite := by
  have hw : (fun t' => wink (2 + t')) = blink := by
    funext t' i
    unfold wink
    rw [if_neg (by omega), show 2 + t' - 2 = t' from by omega]
  unfold Model.Torn.objDecode
  rw [wink_strlen, bind_ok]
  dsimp only
  rw [hw, decode_blink]
  rfl

theorem objDecode_still (K : BaseClass) (s : List Byte) (hs : 0#8 ∉ s) (o : BaseObj) :
    Model.Torn.objDecode K s.length (still (s ++ [0#8])) o = objDecode K s o := by
  have hl : (s ++ [0#8]).length = s.length + 1 := by simp
  have hst := strlen_still (s ++ [0#8]) s.length hl (s.length + 2) 0 0 (by omega)
  rw [List.drop_zero, strlen_cstr s [] hs] at hst
  unfold Model.Torn.objDecode objDecode decRun
  cases e : Model.Torn.strlen s.length (still (s ++ [0#8])) (s.length + 2) 0 0 with
  | error x => rw [e] at hst; exact absurd hst (by simp [Except.map])
  | ok r =>
    rw [e] at hst
    obtain ⟨len, t⟩ := r
    have : len = s.length := by simpa [Except.map] using hst
    subst this
    rw [bind_ok]
    dsimp only
    rw [show (fun t' => still (s ++ [0#8]) (t + t')) = still (s ++ [0#8]) from rfl, decode_still K.alg _ _ _ hl]
    generalize (if o.decsz ≤ K.decEst s.length then decSetSize (K.decEst s.length) (decAlloc (K.decEst s.length) o) else o) = o1
    cases pgfeDecode K.alg (s ++ [0#8]) o1.deCache <;> rfl

end Pgfe.Proofs.Torn
