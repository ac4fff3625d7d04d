import Verif.Spec.Settled
import Verif.Spec.Parts

/-! # Specification: parts of instructions, in documents in which nothing is left open (C104) -/

namespace Verif.Spec

/-- The text is accepted, with these instructions, and leaves nothing open. -/
def Yields (unq : Unquote) (s : Str) (is : List Instruction) : Prop :=
  Dockerfile.parse unq s = .ok (documentOf s is) ∧ Settled s is

/-- where the variable behind those in `A`, or the space in front of it, starts, in an `ENV` at offset `p` -/
def varStart (p : Nat) (A : List EnvVar) : Nat := (A.getLast?.map (·.span.stop)).getD (p + 3)

/-- where the label behind those in `A`, or the space in front of it, starts, in a `LABEL` at offset `p` -/
def labelStart (p : Nat) (A : List Label) : Nat := (A.getLast?.map (·.span.stop)).getD (p + 5)

end Verif.Spec
