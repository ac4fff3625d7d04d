import Verif.Spec.Print

/-!
# Specification: the plain way to write instructions

One space between arguments, upper case keywords, quoted texts only where they are needed.
(C35-C39)
-/

namespace Verif
namespace Spec

/-! ## quoting -/

/-- quotes `q` and backslashes are preceded by a backslash -/
def escaped (q : Char) (t : Str) : Str :=
  t.flatMap fun c => if c = q ∨ c = '\\' then ['\\', c] else [c]

def quoteWith (q : Char) (t : Str) : Str := q :: (escaped q t ++ [q])

/-- Unquoting undoes quoting. -/
def UndoesQuoting (unq : Unquote) : Prop :=
  ∀ q t, q = '"' ∨ q = '\'' → unq (quoteWith q t) = .ok t

/-- a word standing for itself -/
def PlainWord (w : Str) : Prop := WordText w ∧ ¬ StartsQuoted w

/-! ## lines -/

def plainFlags (fs : List (Str × Str)) : Str :=
  fs.flatMap fun f => c!" --" ++ f.1 ++ '=' :: f.2

def plainWords (ws : List Str) : Str := ws.flatMap fun w => ' ' :: w

def plainPairs (ps : List (Str × Str)) : Str := ps.flatMap fun f => ' ' :: f.1 ++ '=' :: f.2

def fromLine (flags : List (Str × Str)) (image : Str) (alias : Option Str) : Str :=
  c!"FROM" ++ plainFlags flags ++ ' ' :: image ++ (alias.map (c!" AS " ++ ·)).getD []

def argLine (name : Str) (value : Option Str) : Str :=
  c!"ARG " ++ name ++ (value.map ('=' :: ·)).getD []

def envLine (ps : List (Str × Str)) : Str := c!"ENV" ++ plainPairs ps

def labelLine (ps : List (Str × Str)) : Str := c!"LABEL" ++ plainPairs ps

def copyLine (flags : List (Str × Str)) (sources : List Str) (dest : Str) : Str :=
  c!"COPY" ++ plainFlags flags ++ plainWords sources ++ ' ' :: dest

def ExecKind.word : ExecKind → Str
  | .run => c!"RUN"
  | .cmd => c!"CMD"
  | .entrypoint => c!"ENTRYPOINT"

def shellLine (k : ExecKind) (text : Str) : Str := k.word ++ ' ' :: text

/-- `, ` between the elements -/
def arrayBody : List Str → Str
  | [] => []
  | t :: ts => quoteWith '"' t ++ ts.flatMap fun t => c!", " ++ quoteWith '"' t

def execLine (k : ExecKind) (ts : List Str) : Str := k.word ++ c!" [" ++ arrayBody ts ++ [']']

/-- the text of a single line: not empty, not starting with a blank, a comment or an array, not
ending in a backslash (and blanks) -/
def SingleLine (t : Str) : Prop :=
  StartsArgument t ∧ (∀ c ∈ t, c ≠ '\n' ∧ c ≠ '\r') ∧ (∀ a w, Blanks w → t ≠ a ++ '\\' :: w)

/-- the document with the single instruction `i` -/
def oneInstruction (s : Str) (i : Instruction) : Dockerfile :=
  { content := s, global_args := [], instructions := [i] }

end Spec
end Verif
