import Verif.Basic

/-! # Specification: two families of documents, and what drives the nesting (C53 to C55) -/

namespace Verif
namespace Spec

/-- A `CMD` over three physical lines that looks like the beginning of an array:

    CMD [","\
    #"\
    ,"
-/
def scanLine : Str := c!"CMD [\",\"\\\n#\"\\\n,\""

/-- `n` copies of `scanLine`, each with a newline after it. -/
def scanDoc : Nat → Str
  | 0 => []
  | n + 1 => scanLine ++ '\n' :: scanDoc n

/-- `x` over `n + 1` physical lines. -/
def xLines : Nat → Str
  | 0 => ['x']
  | n + 1 => 'x' :: '\\' :: '\n' :: xLines n

/-- A single `RUN` over `n + 1` physical lines. -/
def deepDoc (n : Nat) : Str := c!"RUN " ++ xLines n

/-- Number of backslashes and hashes. -/
def marks : Str → Nat
  | [] => 0
  | c :: s => (if c = '\\' ∨ c = '#' then 1 else 0) + marks s

end Spec
end Verif
