import Verif.Spec.Subst

/-! # Specification: what resolving an image depends on, and resolving it again (C74, C75) -/

namespace Verif.Spec

/-- every dollar sign of the text starts a reference -/
inductive AllRefs : Str → Prop
  | nil : AllRefs []
  | lit {c cs} : c ≠ '$' → AllRefs cs → AllRefs (c :: cs)
  | ref {s n rest} : RefAt s n rest → AllRefs rest → AllRefs s

end Verif.Spec
