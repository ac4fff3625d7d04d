import Verif.Spec.Update
import Verif.Spec.Seam
import Verif.Spec.Document

/-! # Specification: instructions replaced (C102) -/

namespace Verif.Spec

/-- the line ends at position `p` of the text -/
def EndsLine (s : Str) (p : Nat) : Prop :=
  ∀ a b, s = a ++ b → blen a = p → b = [] ∨ ∃ c t, b = c :: t ∧ (c = '\n' ∨ c = '\r')

/-- The text `w` is accepted on its own, whatever line break is after it, and consists of the instructions `ws`. It has no
quotes and does not end with a backslash, and no keyword is taken for an unknown instruction. -/
structure Standalone (unq : Unquote) (w : Str) (ws : List Instruction) : Prop where
  mild : Mild w
  some : w ≠ []
  first : ∀ t, w ≠ '\n' :: t
  whole : ∀ n, n = [] ∨ LineBreak n [] → Dockerfile.parse unq (w ++ n) = .ok (documentOf (w ++ n) ws)
  inside : ∀ i ∈ ws, i.span.stop ≤ blen w
  known : ∀ m, .misc m ∈ ws → ¬ IsKeyword m.instruction.content

/-- the edits that put the new texts into the places of their instructions -/
def rewrites (new : Instruction → Option Str) (is : List Instruction) : List Edit :=
  is.filterMap fun i => (new i).map fun w => (i.span, w)

/-- the instructions afterwards: those of the new texts, at their places, and the others, moved -/
def rewritten (new : Instruction → Option Str) (ws : Str → List Instruction) (es : List Edit)
    (is : List Instruction) : List Instruction :=
  is.flatMap fun i =>
    match new i with
    | none => [i.remap (movedTo es)]
    | some w => (ws w).map (·.remap (· + movedTo es i.span.start))

end Verif.Spec
