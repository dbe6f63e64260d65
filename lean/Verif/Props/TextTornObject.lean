import Verif.Proofs.TextTornObject
import Verif.Props.BaseClasses
import Verif.Props.TextTorn
/-!
# C101: the classes `Base16`, `Base32`, `Base64`

`decode(const char *)` measures the text with `strlen`, makes the cache large enough for it, and then decodes the text, read
again.
-/
namespace Pgfe.Props
open Pgfe.Model Pgfe.Spec Pgfe.Proofs
open Pgfe.Spec.Torn

/-- **C101, the model of the classes.**  For a text that does not change it is the model of C13. -/
theorem C101_object_model (al : BaseAlg) (s : List Byte) (hs : 0#8 ∉ s) (o : BaseObj) :
    Model.Torn.objDecode (libBase al) s.length (still (s ++ [0#8])) o = objDecode (libBase al) s o :=
  Torn.objDecode_still (libBase al) s hs o

/-- **C101 (classes), the part that holds.**  After every history of calls, if the characters change during a `decode` but
none of them becomes NUL, the call stays inside the cache, and so does every later call of any history. -/
theorem C101_object_partial (al : BaseAlg) (cs : List BaseCall) (hc : ∀ c ∈ cs, ValidCall (libBase al) c) (rs : List (List Byte))
    (o : BaseObj) (h : objCalls (libBase al) cs baseObjInit = .ok (rs, o)) (n : Nat) (hn : 0 < n) (m : Nat → Nat → Byte)
    (hm : Steady n m) :
    ∃ d o', Model.Torn.objDecode (libBase al) n m o = .ok (d, o') ∧
      d.length ≤ (specOf al).unit * ceilDiv n (specOf al).chars ∧
      ∀ cs', (∀ c ∈ cs', ValidCall (libBase al) c) → ∃ rs' o'', objCalls (libBase al) cs' o' = .ok (rs', o'') ∧
        rs'.length = cs'.length ∧ ∀ cr ∈ cs'.zip rs', IsResult (libBase al) cr.1 cr.2 := by
  have hK := libBase_good al
  obtain ⟨h1, h2⟩ := Torn.objCalls_idle _ hK cs hc _ rs o init_idle.1 init_idle.2 h
  obtain ⟨d, o', e, i, l, he, hz⟩ := Torn.objDecode_steady _ hK hn hm o h2
  exact ⟨d, o', e, l, fun cs' hc' => objCalls_ok _ hK cs' hc' o' ⟨by rw [he, hz]; exact h1.1, by rw [hz]; exact h1.2⟩ i⟩

/-- **C101 (classes), violation.**  In every state of every object, a text of one character that changes after it was
measured makes `decode` write behind the cache. -/
theorem C101_violation_object (al : BaseAlg) (o : BaseObj) :
    ∃ m, Ends 1 m ∧ m 0 0 ≠ 0#8 ∧ Model.Torn.objDecode (libBase al) 1 m o = .error .oobWrite :=
  ⟨Torn.wink, fun t => by unfold Torn.wink; split; · rfl
                          · exact if_neg (by omega), by decide, Torn.objDecode_wink _ o⟩

/-- A case of `C101_object_partial`: a fresh object, and the text of `C101_example`. -/
theorem C101_object_example : ∃ d o', Model.Torn.objDecode (libBase .base64) 4 flicker baseObjInit = .ok (d, o') ∧ d.length ≤ 3 :=
  let ⟨d, o', e, l, _⟩ := C101_object_partial .base64 [] (by simp) [] baseObjInit rfl 4 (by decide) flicker C101_example.1
  ⟨d, o', e, l⟩

end Pgfe.Props
