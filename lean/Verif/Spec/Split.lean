import Verif.Spec.Join

/-!
# Specification: cutting a document between its lines

(C71)
-/

namespace Verif
namespace Spec

/-- `a` is empty or ends with a line break that does not go on in `z` -/
def LineStart (a z : Str) : Prop := a = [] ∨ ∃ s n, a = s ++ n ∧ LineBreak n z

/-- no instruction lies across the end of the first `k` bytes, or ends there -/
def Apart (d : Dockerfile) (k : Nat) : Prop := ∀ i ∈ d.instructions, i.span.stop < k ∨ k ≤ i.span.start

end Spec
end Verif
