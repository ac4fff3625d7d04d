import Verif.Spec.Source

/-!
# Plain text

Characters without a meaning of their own anywhere in a Dockerfile.
-/

namespace Verif
namespace Spec

/-- neither blank, line break, backslash, quote, `#`, `=`, `,`, bracket nor one of two control
characters -/
def Plain (c : Char) : Prop :=
  c ∉ [' ', '\t', '\n', '\r', '\\', '#', '=', '"', '\'', '`', ',', '[', ']', '\x00', '\x1F']

end Spec

namespace Src
open Spec

/-- `t'` is `t` with some pieces of plain text replaced by others. -/
inductive Like : Str → Str → Prop
  | nil : Like [] []
  | same (c : Char) {t t' : Str} : Like t t' → Like (c :: t) (c :: t')
  | piece {i i' t t' : Str} : Over Plain i → Over Plain i' → Like t t' → Like (i ++ t) (i' ++ t')

end Src
end Verif
