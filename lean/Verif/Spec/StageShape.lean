import Verif.Spec.Stage

/-! # Specification: what the stages of a document depend on (C78)

In terms of the list of `FROM`s of a document only. -/

namespace Verif.Spec

/-- the `FROM`s of a document -/
def fromsOf (is : List Instruction) : List FromInstruction :=
  is.filterMap fun
    | .from f => some f
    | _ => none

/-- the image of the `i`-th `FROM` is the alias of the `j`-th, ignoring case -/
def Refers (fs : List FromInstruction) (i j : Nat) : Prop :=
  ∃ f g a, fs[i]? = some f ∧ fs[j]? = some g ∧ g.alias = some a ∧ SameName a.content f.image.content

/-- the image of the `i`-th `FROM` is `scratch` -/
def FromScratch (fs : List FromInstruction) (i : Nat) : Prop :=
  ∃ f, fs[i]? = some f ∧ SameName f.image.content c!"scratch"

/-- both nothing, the same stage, or both images -/
def SameShape : StageParent → StageParent → Prop
  | .scratch, .scratch => True
  | .stage j, .stage k => j = k
  | .image _, .image _ => True
  | _, _ => False

/-- the same but for the list of instructions -/
def SameHead (s t : Stage) : Prop :=
  s.index = t.index ∧ s.name = t.name ∧ s.parent = t.parent ∧ s.root = t.root

end Verif.Spec
