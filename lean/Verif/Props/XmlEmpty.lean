import Verif.Props.Xml
import Verif.Props.Python

/-! C43: values that count as false, written for a field with parts. -/

namespace Scheme

/-- The value that an empty element is read as. -/
inductive EmptyOf : Field → Val → Prop
  | sequence {c i mn mx u} : EmptyOf (.sequence c i mn mx u) (.list [])
  | tuple {c vs} : EmptyOf (.tuple c vs) (.tuple [])
  | map {c k v r} : EmptyOf (.map c k v r) (.dict [])
  | structure {c d s ko} : EmptyOf (.structure c d s ko) (.dict [])
  | poly {c d vs s ko} : EmptyOf (.poly c d vs s ko) (.dict [])

/-- C43. Whatever counts as false but None is written by a field with parts as an empty element, and read as an empty
value: also an empty value of another kind, zero and False. -/
theorem C43_falsy {env : Env} {f : Field} {v e : Val} (hv : Falsy v) (hn : v ≠ .none) (hf : EmptyOf f e)
    (hroot : XmlName (tagName c!"root" f)) (n : Nat) (preamble : Bool) :
    xmlSerialize env (n + 1) f v preamble =
      .ok ((if preamble then xmlPreamble else []) ++ ('<' :: tagName c!"root" f) ++ c!" />") ∧
    ∃ s, xmlSerialize env (n + 1) f v preamble = .ok s ∧ xmlUnserialize env (n + 1) f s = .ok e := by
  have ht : v.truthy = false := (C86_falsy_iff v).2 hv
  have hi : v.isNone = false := by cases v <;> simp_all [Val.isNone]
  have hs : xmlSerialize env (n + 1) f v preamble = .ok (xmlDoc preamble (.node (tagName c!"root" f) false none [])) := by
    have hc : xmlContent env (n + 1) f v = .ok (false, none, []) := by
      cases hf <;> simp only [xmlContent, xmlContentStep, hi, xmlSorted, ht] <;> rfl
    simp only [xmlSerialize, hc, tagName_eq]; rfl
  have hx : XmlOk (.node (tagName c!"root" f) false none []) := ⟨isXmlName_iff.2 hroot, fun s hs => (nomatch hs), trivial⟩
  refine ⟨?_, _, hs, ?_⟩
  · rw [hs]
    cases preamble <;> simp [xmlDoc, xmlWrite]
  · have hp := xmlParse_write hx preamble
    simp only [xmlUnserialize, hp]
    cases hf
    case tuple c vs => cases vs <;> rfl
    all_goals rfl

example : Falsy (.bool false) ∧ Val.bool false ≠ .none ∧ EmptyOf (.sequence {} Ex.int none none false) (.list []) ∧
    XmlName (tagName c!"root" (.sequence {} Ex.int none none false)) :=
  ⟨(C86_falsy_iff _).1 rfl, by simp, .sequence, isXmlName_iff.1 (by decide)⟩

end Scheme
