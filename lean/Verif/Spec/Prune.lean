import Verif.Spec.StageShape
import Verif.Spec.Print

/-!
# Taking out stages (C93)

Where a document can be cut between two stages, the instructions of each stage, and the numbers of
the stages behind a block that is taken out.
-/

namespace Verif.Spec

/-- the first instruction behind the first `k` bytes, if there is one, is a `FROM` -/
def StageCut (d : Dockerfile) (k : Nat) : Prop :=
  ∀ i, d.instructions.find? (fun i => k ≤ i.span.start) = some i → isFrom i = true

/-- the number of stages that begin in the first `k` bytes -/
def stagesBefore (d : Dockerfile) (k : Nat) : Nat :=
  d.instructions.countP fun i => isFrom i && decide (i.span.start < k)

/-- the parent, if the stages from `lo` up to `hi` are taken out -/
def outParent (lo hi : Nat) : StageParent → StageParent
  | .stage j => .stage (if j < lo then j else j - (hi - lo))
  | p => p

/-- the parent, if `n` stages are put in before number `lo` -/
def inParent (lo n : Nat) : StageParent → StageParent
  | .stage j => .stage (if j < lo then j else j + n)
  | p => p

/-- what the stages depend on -/
def fromKey (f : FromInstruction) : Str × ImageRef × Option Str :=
  (lower f.image.content, f.image_parsed, f.alias.map fun a => lower a.content)

/-- the instructions before the first `FROM`, and then those of each stage -/
def groups : List Instruction → List Instruction × List (List Instruction)
  | [] => ([], [])
  | i :: is => if isFrom i then ([], (i :: (groups is).1) :: (groups is).2) else (i :: (groups is).1, (groups is).2)

end Verif.Spec
