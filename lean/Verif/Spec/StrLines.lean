import Verif.Model.Ast

/-!
# Specification: the lines of a text (C26)
-/

namespace Verif
namespace Spec

/-- `str::lines`: the pieces between line feeds, each without one carriage return in front of its line
feed; there is no empty piece at the end -/
def strLines : Str → List Str
  | [] => []
  | c :: cs =>
    if c = '\n' then [] :: strLines cs
    else if c = '\r' ∧ cs.head? = some '\n' then strLines cs
    else
      match strLines cs with
      | [] => [[c]]
      | x :: xs => (c :: x) :: xs

example : strLines c!"a\n\r\nb\r\r\nc\rd" = [c!"a", c!"", c!"b\r", c!"c\rd"] := by decide +kernel
example : strLines c!"a\r" = [c!"a\r"] ∧ strLines c!"a\r\n" = [c!"a"] ∧ strLines c!"\n" = [c!""] := by decide +kernel

end Spec
end Verif
