import Verif.Spec.Settled
import Verif.Spec.Prune

/-! # Specification: documents put together from the texts of their stages (C106) -/

namespace Verif.Spec

/-- The text consists of whole lines, is accepted with the document `d`, and leaves nothing open. -/
structure Lines (unq : Unquote) (t : Str) (d : Dockerfile) : Prop where
  parsed : Dockerfile.parse unq t = .ok d
  last : LineStart t []
  inside : ∀ i ∈ d.instructions, i.span.stop < blen t
  settled : Settled t d.instructions

/-- The text is that of one stage: a `FROM` comes first, and there is no other one.  It does not start with a newline. -/
structure StageText (unq : Unquote) (t : Str) (d : Dockerfile) : Prop extends Lines unq t d where
  first : ∀ r, t ≠ '\n' :: r
  one : ∃ f is, d.instructions = .from f :: is ∧ ∀ i ∈ is, isFrom i = false

/-- the text is that of what comes before the first stage -/
structure HeadText (unq : Unquote) (t : Str) (d : Dockerfile) : Prop extends Lines unq t d where
  none : ∀ i ∈ d.instructions, isFrom i = false

/-- where the text of the stage with number `k` starts -/
def stageAt (a : Str) (ts : List Str) (k : Nat) : Nat := blen (a ++ (ts.take k).flatten)

/-- `σ` gives the first `n` numbers another order, and `τ` takes them back -/
def Reorders (n : Nat) (σ τ : Nat → Nat) : Prop :=
  ∀ i, i < n → σ i < n ∧ τ (σ i) = i ∧ τ i < n ∧ σ (τ i) = i

/-- The order of two stages is kept if the image of one is the name of the other, or if both have the name that is the image of a
third one. -/
def KeepsOrder (fs : List FromInstruction) (σ : Nat → Nat) : Prop :=
  (∀ i j, i ≠ j → Refers fs i j → (j < i ↔ σ j < σ i)) ∧
  ∀ i j k, Refers fs i j → Refers fs i k → j < k → σ j < σ k

/-- the parent, under the new numbers -/
def newParent (σ : Nat → Nat) : StageParent → StageParent
  | .stage j => .stage (σ j)
  | p => p

end Verif.Spec
