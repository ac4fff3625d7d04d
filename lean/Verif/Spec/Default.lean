import Verif.Spec.Resolve
import Verif.Spec.Remap

/-! # Specification: the default of one variable (C100) -/

namespace Verif.Spec

/-- the arguments `bs` give the variable `n` the default `o`, and the others those of `as` -/
def Given (n : Str) (o : Option Str) (as bs : List ArgInstruction) : Prop :=
  ∀ k w, LastDefault bs k w ↔ (k = n ∧ o = some w) ∨ (k ≠ n ∧ LastDefault as k w)

/-- the text of the image of a `FROM` -/
def imageText : Instruction → Option Str
  | .from f => some f.image.content
  | _ => none

end Verif.Spec
