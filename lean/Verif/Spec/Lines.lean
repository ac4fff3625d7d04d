import Verif.Spec.Document
import Verif.Spec.Shift

/-!
# Line by line

What it means to parse a text line by line (C48).
-/

namespace Verif.Spec

/-- A line whose parse does not depend on what follows: blank, a comment, or without backslash,
`#` and quotes. -/
def PlainLine (x : Str) : Prop :=
  Blanks x ∨ (∃ w t, x = w ++ t ∧ Blanks w ∧ CommentText t) ∨
    ∀ c ∈ x, c ≠ '\\' ∧ c ≠ '#' ∧ c ≠ '"' ∧ c ≠ '\'' ∧ c ≠ '\n' ∧ c ≠ '\r'

/-- The number of `FROM`s. -/
def fromCount : List Instruction → Nat
  | [] => 0
  | .from _ :: is => fromCount is + 1
  | _ :: is => fromCount is

/-- The document consisting of document `a`, a newline, and document `b`. -/
def joinDocs (a b : Dockerfile) : Dockerfile :=
  { content := a.content ++ '\n' :: b.content
    global_args := a.global_args ++
      (if fromCount a.instructions = 0
        then b.global_args.map (·.shift (blen a.content + 1)) else [])
    instructions := a.instructions ++ b.instructions.map fun i =>
      (i.shift (blen a.content + 1)).renumber (fromCount a.instructions) }

/-- The outcome for both documents.  Syntax errors come before all others, otherwise the first
error counts. -/
def joinResults : Result Dockerfile → Result Dockerfile → Result Dockerfile
  | .ok a, .ok b => .ok (joinDocs a b)
  | .ok _, .error e => .error e
  | .error e, .ok _ => .error e
  | .error e, .error f => if f = .err .parseError then .error f else .error e

/-- Lines put together. -/
def unlines : Str → List Str → Str
  | x, [] => x
  | x, y :: ys => x ++ '\n' :: unlines y ys

/-- Parsing every line separately. -/
def parseLines (unq : Unquote) : Str → List Str → Result Dockerfile
  | x, [] => Dockerfile.parse unq x
  | x, y :: ys => joinResults (Dockerfile.parse unq x) (parseLines unq y ys)

/-- The lines of a text: the first one and the others. -/
def lines : Str → Str × List Str
  | [] => ([], [])
  | c :: s =>
    if c = '\n' then ([], (lines s).1 :: (lines s).2) else (c :: (lines s).1, (lines s).2)

/-- The instructions of documents that follow each other, the first one at offset `k` and
after `n` `FROM`s. -/
def instructionsFrom : Nat → Nat → List Dockerfile → List Instruction
  | _, _, [] => []
  | k, n, d :: ds => d.instructions.map (fun i => (i.shift k).renumber n) ++
      instructionsFrom (k + blen d.content + 1) (n + fromCount d.instructions) ds

end Verif.Spec
