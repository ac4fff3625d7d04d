import Verif.Model.Dockerfile

/-! # Specification: keywords and the letters' case (C34) -/

namespace Verif
namespace Spec

/-- the keywords with an instruction type of their own, in lower case -/
def keywords : List Str :=
  [c!"from", c!"run", c!"arg", c!"label", c!"copy", c!"entrypoint", c!"cmd", c!"env"]

/-- `w` is a keyword in some casing -/
def IsKeyword (w : Str) : Prop := lower w ∈ keywords

/-- The same instruction, except that two instructions of unknown kind (`misc`) may differ in the
letters' case of their first word. -/
def SameButWordCase (i j : Instruction) : Prop :=
  i = j ∨ ∃ m w, lower w = lower m.instruction.content ∧ i = .misc m ∧
    j = .misc { m with instruction := { m.instruction with content := w } }

/-- The same result of parsing, except for the source text kept by the document and the letters'
case of the first word of an instruction of unknown kind in first position. -/
inductive SameButFirstWordCase : Result Dockerfile → Result Dockerfile → Prop
  | error {e} : SameButFirstWordCase (.error e) (.error e)
  | ok {d d' : Dockerfile} {i j is} : d.global_args = d'.global_args →
      d.instructions = i :: is → d'.instructions = j :: is → SameButWordCase i j →
      SameButFirstWordCase (.ok d) (.ok d')

end Spec
end Verif
