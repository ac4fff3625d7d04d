import Verif.Spec.Edit
import Verif.Spec.Stage

/-!
# Another name for a stage (C92)

The edits that give another name to the stages called `a`, and the instructions that should come of
them.  A `FROM` whose image is `a` means a stage only behind a `FROM` with the alias `a`; before that
it means an image, and stays as it is.
-/

namespace Verif.Spec

/-- the `FROM` gives the name `a`, ignoring case -/
def Names (a : Str) (f : FromInstruction) : Bool :=
  match f.alias with
  | some x => lower x.content == lower a
  | none => false

/-- the image of the `FROM` is `a`, ignoring case -/
def IsFrom (a : Str) (f : FromInstruction) : Bool := lower f.image.content == lower a

/-- the edits for one `FROM`; `seen`: there is a stage called `a` before it -/
def fromEdits (a b : Str) (seen : Bool) (f : FromInstruction) : List Edit :=
  (if seen && IsFrom a f then [(f.image.span, b)] else []) ++
    match f.alias with
    | some x => if Names a f then [(x.span, b)] else []
    | none => []

/-- the edits for a list of instructions -/
def renameEdits (a b : Str) : Bool → List Instruction → List Edit
  | _, [] => []
  | seen, .from f :: is => fromEdits a b seen f ++ renameEdits a b (seen || Names a f) is
  | seen, _ :: is => renameEdits a b seen is

/-- one `FROM` with the new name -/
def renameFrom (a b : Str) (seen : Bool) (f : FromInstruction) : FromInstruction :=
  { f with
    image := if seen && IsFrom a f then ⟨f.image.span, b⟩ else f.image
    image_parsed := if seen && IsFrom a f then ImageRef.parse b else f.image_parsed
    alias := f.alias.map fun x => if Names a f then ⟨x.span, b⟩ else x }

/-- the instructions with the new name -/
def renamed (a b : Str) : Bool → List Instruction → List Instruction
  | _, [] => []
  | seen, .from f :: is => .from (renameFrom a b seen f) :: renamed a b (seen || Names a f) is
  | seen, i :: is => i :: renamed a b seen is

/-- nothing in the `FROM` is called `b`, unless it is called `a` -/
def FreshIn (a b : Str) (f : FromInstruction) : Prop :=
  (SameName f.image.content b → SameName f.image.content a) ∧
    ∀ x, f.alias = some x → SameName x.content b → SameName x.content a

/-- the names of the stages afterwards -/
def newName (a b : Str) (n : Option Str) : Option Str :=
  n.map fun x => if x = lower a then lower b else x

end Verif.Spec
