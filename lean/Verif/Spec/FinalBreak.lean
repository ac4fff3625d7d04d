import Verif.Spec.Splice

/-!
# Specification: what a line feed at the end of a text can disturb (C68)
-/

namespace Verif
namespace Spec

/-- the text ends with a backslash, possibly with blanks after it -/
def OpenEnd (s : Str) : Prop := ∃ a w, s = a ++ '\\' :: w ∧ ∀ c ∈ w, c = ' ' ∨ c = '\t'

end Spec
end Verif
