import Verif.Spec.Split

/-!
# Specification: blank lines and comment lines between instructions

(C96)
-/

namespace Verif
namespace Spec

/-- no quotes, and none of the two characters that cannot be inside of quotes -/
def Unquoted (p : Str) : Prop := ∀ c ∈ p, c ≠ '"' ∧ c ≠ '\'' ∧ c ≠ '\x00' ∧ c ≠ '\x1F'

/-- the same for a text that does not end with a backslash -/
def Mild (p : Str) : Prop := Unquoted p ∧ p.getLast? ≠ some '\\'

end Spec
end Verif
