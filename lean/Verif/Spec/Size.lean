import Verif.Spec.Fields

/-!
# Specification: how much is stored in a document (C82)
-/

namespace Verif
namespace Spec

/-- the text of a component -/
def componentText : BreakableStringComponent → Str
  | .string s => s.content
  | .comment c => c.content

/-- all texts that are stored in an instruction, except for the parts of images -/
def storedTexts (i : Instruction) : List Str :=
  (plainStrings i).map (·.content) ++ (labelStrings i).map (·.content) ++
  (arrays i).flatMap (fun a => a.elements.map (·.content)) ++
  (shells i).flatMap (fun b => b.components.map componentText) ++
  (envValues i).flatMap (fun b => b.components.map componentText)

/-- the number of bytes of texts -/
def bytesOf (ts : List Str) : Nat := (ts.map blen).sum

/-- the parts of an image -/
def imageTexts (r : ImageRef) : List Str := r.registry.toList ++ [r.image] ++ r.tag.toList ++ r.hash.toList

/-- the parts of the image of a FROM -/
def storedImages : Instruction → List Str
  | .from f => imageTexts f.image_parsed
  | _ => []

/-- a function that never makes texts longer -/
def Shortens (unq : Unquote) : Prop := ∀ t v, unq t = .ok v → blen v ≤ blen t

end Spec
end Verif
