import Verif.Spec.Update

/-! # Specification: instructions taken out (C101) -/

namespace Verif.Spec

/-- every carriage return is the first half of a line break -/
def PairedCR (s : Str) : Prop := ∀ a b, s = a ++ '\r' :: b → ∃ c, b = '\n' :: c

/-- the edits that take the chosen instructions out -/
def removals (out : Instruction → Bool) (is : List Instruction) : List Edit :=
  (is.filter out).map fun i => (i.span, [])

end Verif.Spec
