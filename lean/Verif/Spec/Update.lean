import Verif.Spec.Remap
import Verif.Spec.Splice

/-!
# New images in a document

What a document should look like after the images of some of its `FROM`s have been replaced in its
text (C43).
-/

namespace Verif
namespace Spec

/-- Where the position `q` of the text is found after the edits: everything behind an edit moves by
the difference of the lengths. -/
def movedTo (es : List Edit) (q : Nat) : Nat :=
  q + (es.map fun e => if e.1.stop ≤ q then blen e.2 else 0).sum -
    (es.map fun e => if e.1.stop ≤ q then e.1.stop - e.1.start else 0).sum

/-- The instruction with another image if there is an edit for its image. -/
def withImage (es : List Edit) : Instruction → Instruction
  | .from f => .from (match es.find? fun e => e.1 == f.image.span with
    | some e => { f with image := ⟨f.image.span, e.2⟩, image_parsed := ImageRef.parse e.2 }
    | none => f)
  | i => i

/-- The document after the edits, if all of them are at images. -/
def updated (es : List Edit) (s : Str) (d : Dockerfile) : Dockerfile :=
  { content := simul es 0 s
    global_args := d.global_args.map (·.remap (movedTo es))
    instructions := d.instructions.map fun i => (withImage es i).remap (movedTo es) }

end Spec
end Verif
