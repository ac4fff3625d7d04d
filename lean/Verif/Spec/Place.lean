import Verif.Spec.Print

/-! # Specification: the alias of a stage -/

namespace Verif.Spec

/-- what is written behind the image to give a stage a name, or none -/
def asText : Option Str → Str
  | none => []
  | some b => c!" AS " ++ b

/-- the name, where that text is at offset `q` -/
def asName (q : Nat) : Option Str → Option SpannedString
  | none => none
  | some b => some ⟨⟨q + 4, q + 4 + blen b⟩, b⟩

end Verif.Spec
