import Verif.Model.Records

/-!
# Specification: how the parts of a parsed document are laid out in its text

`tree unq i` lists every public span of the instruction `i` as a tree (the instruction, its
fields in the order in which they are written, their fields ...), together with a requirement on
the source text found at the span.  `Laid p x ns` says that the trees `ns` are laid out in the
text `x` that starts at byte offset `p`: one after the other, not overlapping, non-empty, each
with a text meeting its requirement, and children inside their parents.
-/

namespace Verif
namespace Spec

/-- A span with a requirement on the text at the span, and sub-spans. -/
inductive SpanTree where
  | node (span : Span) (text : Str → Prop) (children : List SpanTree)

/-- Trees laid out in the text `x` found at byte offset `p`. -/
inductive Laid : Nat → Str → List SpanTree → Prop
  | nil {p x} : Laid p x []
  | cons {p a b c P ch ns} : b ≠ [] → P b → Laid (p + blen a) b ch →
      Laid (p + blen a + blen b) c ns →
      Laid p (a ++ b ++ c) (.node ⟨p + blen a, p + blen a + blen b⟩ P ch :: ns)

/-- `n` is a node of the tree `m`. -/
inductive Inside : SpanTree → SpanTree → Prop
  | self {n} : Inside n n
  | child {n m sp P ch} : m ∈ ch → Inside n m → Inside n (.node sp P ch)

/-! ## what the text of a field says -/

/-- The characters `enquote` and `parse_string` treat as quotes. -/
def QuoteChar (c : Char) : Prop := c = '"' ∨ c = '\'' ∨ c = '`'

def StartsQuoted (t : Str) : Prop := ∃ c r, t = c :: r ∧ QuoteChar c

/-- `t` starts and ends with the same quote. -/
def Quoted (t : Str) : Prop := ∃ c m, t = c :: m ++ [c] ∧ (c = '"' ∨ c = '\'')

/-- A field with source text `t` has content `c`: the text itself, unless it starts with a quote;
then its unquoting. -/
def Reads (unq : Unquote) (t c : Str) : Prop :=
  (StartsQuoted t ∧ unq t = .ok c) ∨ (¬ StartsQuoted t ∧ c = t)

/-- `j` is `t` with every backslash-newline pair removed. -/
inductive Joined : Str → Str → Prop
  | nil : Joined [] []
  | brk {t j} : Joined t j → Joined ('\\' :: '\n' :: t) j
  | chr {c t j} : (∀ r, c :: t ≠ '\\' :: '\n' :: r) → Joined t j → Joined (c :: t) (c :: j)

/-- As `Reads`, for names and values of labels, which may be quoted over several lines. -/
def LabelReads (unq : Unquote) (t c : Str) : Prop :=
  (StartsQuoted t ∧ ∃ j, Joined t j ∧ unq j = .ok c) ∨ (¬ StartsQuoted t ∧ c = t)

/-! ## shell text -/

def isBlank (c : Char) : Bool := c == ' ' || c == '\t'
def isBreak (c : Char) : Bool := c == '\n' || c == '\r'

/-- the rest after a line break at the start -/
def afterBreak : Str → Option Str
  | '\n' :: r => some r
  | '\r' :: '\n' :: r => some r
  | '\r' :: r => some r
  | _ => none

/-- the rest after a line continuation (backslash, blanks, line break) at the start -/
def afterContinuation : Str → Option Str
  | '\\' :: r => afterBreak (r.dropWhile isBlank)
  | _ => none

/-- the rest after a comment line at the start -/
def afterComment (s : Str) : Option Str :=
  match s.dropWhile isBlank with
  | '#' :: r =>
    let r' := r.dropWhile fun c => !isBreak c
    some ((afterBreak r').getD r')
  | _ => none

/-- the text up to the first line continuation, and what follows that continuation -/
def lineText : Str → Str × Option Str
  | [] => ([], none)
  | c :: cs =>
    match afterContinuation (c :: cs) with
    | some r => ([], some r)
    | none => (c :: (lineText cs).1, (lineText cs).2)

/-- `n` lines of shell text with continuations and comment lines removed -/
def stripLines : Nat → Str → Str
  | 0, _ => []
  | n + 1, s =>
    match afterComment s with
    | some r => stripLines n r
    | none =>
      match (lineText s).2 with
      | some r => (lineText s).1 ++ stripLines n r
      | none => (lineText s).1

/-- shell text with continuations and comment lines removed -/
def stripShell (s : Str) : Str := stripLines (s.length + 1) s

/-- a piece of shell text -/
inductive Piece where
  | text (t : Str)
  | comment (t : Str)

/-- the comment at the start of a comment line -/
def commentText (s : Str) : Str := (s.dropWhile isBlank).takeWhile fun c => !isBreak c

/-- the pieces of `n` lines of shell text: comments, and texts between continuations -/
def pieceLines : Nat → Str → List Piece
  | 0, _ => []
  | n + 1, s =>
    if s = [] then [] else
    match afterComment s with
    | some r => .comment (commentText s) :: pieceLines n r
    | none =>
      match (lineText s).2 with
      | some r => .text (lineText s).1 :: pieceLines n r
      | none => [.text (lineText s).1]

/-- the pieces of shell text -/
def shellPieces (s : Str) : List Piece := pieceLines (s.length + 1) s

/-- a component without its span -/
def pieceOf : BreakableStringComponent → Piece
  | .string s => .text s.content
  | .comment c => .comment c.content

/-! ## keywords -/

/-- `t` starts with the keyword `w` (given in lower case) in some casing, followed by a blank or
a line continuation. -/
def StartsWithKeyword (w t : Str) : Prop :=
  ∃ a c r, t = a ++ c :: r ∧ lower a = w ∧ (c = ' ' ∨ c = '\t' ∨ c = '\\')

def IsAlpha (c : Char) : Prop := ('a' ≤ c ∧ c ≤ 'z') ∨ ('A' ≤ c ∧ c ≤ 'Z')

/-! ## the trees -/

def strTree (unq : Unquote) (s : SpannedString) : SpanTree :=
  .node s.span (fun t => Reads unq t s.content) []

def flagTree (unq : Unquote) (f : Flag) : SpanTree :=
  .node f.span (fun t => ∃ r, t = '-' :: '-' :: r) [strTree unq f.name, strTree unq f.value]

def labelStrTree (unq : Unquote) (s : SpannedString) : SpanTree :=
  .node s.span (fun t => LabelReads unq t s.content) []

def labelTree (unq : Unquote) (l : Label) : SpanTree :=
  .node l.span (fun _ => True) [labelStrTree unq l.name, labelStrTree unq l.value]

/-- Components of a breakable string; `rd` relates the text of a string component to its
content.  A comment's content is its text, which starts with `#` and has no line break. -/
def compTree (rd : Str → Str → Prop) : BreakableStringComponent → SpanTree
  | .string s => .node s.span (fun t => rd t s.content) []
  | .comment c => .node c.span
      (fun t => t = c.content ∧ (∃ r, t = '#' :: r) ∧ ∀ d ∈ t, isBreak d = false) []

/-- A shell-form string: components are verbatim, they are all the pieces of the source text, and
`to_string()` is the source text without continuations and comment lines. -/
def shellTree (b : BreakableString) : SpanTree :=
  .node b.span
    (fun t => b.display = stripShell t ∧ b.components.map pieceOf = shellPieces t)
    (b.components.map (compTree fun t c => c = t ∧ ∀ d ∈ t, isBreak d = false))

/-- An exec-form array: written in brackets, its elements are quoted strings. -/
def execTree (unq : Unquote) (a : StringArray) : SpanTree :=
  .node a.span (fun t => ∃ m, t = '[' :: m ++ [']'])
    (a.elements.map fun e => .node e.span (fun t => Quoted t ∧ unq t = .ok e.content) [])

def exprTree (unq : Unquote) : ShellOrExecExpr → SpanTree
  | .shell b => shellTree b
  | .exec a => execTree unq a

/-- The value of an environment variable: quoted, or verbatim, or shell text. -/
def valueTree (unq : Unquote) (b : BreakableString) : SpanTree :=
  .node b.span
    (fun t => (Quoted t ∧ unq t = .ok b.display) ∨ b.display = t ∨ b.display = stripShell t)
    (b.components.map (compTree fun t c => c = t ∨ (Quoted t ∧ unq t = .ok c)))

def envTree (unq : Unquote) (v : EnvVar) : SpanTree :=
  .node v.span (fun _ => True) [strTree unq v.key, valueTree unq v.value]

/-- All spans of an instruction. -/
def tree (unq : Unquote) : Instruction → SpanTree
  | .from i => .node i.span (StartsWithKeyword c!"from")
      (i.flags.map (flagTree unq) ++ strTree unq i.image :: (i.alias.map (strTree unq)).toList)
  | .arg i => .node i.span (StartsWithKeyword c!"arg")
      (strTree unq i.name :: (i.value.map (strTree unq)).toList)
  | .label i => .node i.span (StartsWithKeyword c!"label") (i.labels.map (labelTree unq))
  | .run i => .node i.span (StartsWithKeyword c!"run") [exprTree unq i.expr]
  | .entrypoint i => .node i.span (StartsWithKeyword c!"entrypoint") [exprTree unq i.expr]
  | .cmd i => .node i.span (StartsWithKeyword c!"cmd") [exprTree unq i.expr]
  | .copy i => .node i.span (StartsWithKeyword c!"copy")
      (i.flags.map (flagTree unq) ++ (i.sources.map (strTree unq) ++ [strTree unq i.destination]))
  | .env i => .node i.span (StartsWithKeyword c!"env") (i.vars.map (envTree unq))
  | .misc i => .node i.span
      (fun t => ∃ r, t = i.instruction.content ++ r ∧ i.instruction.content ≠ [] ∧
        (∀ c ∈ i.instruction.content, IsAlpha c) ∧ ∀ c r', r = c :: r' → ¬ IsAlpha c)
      [strTree unq i.instruction, shellTree i.arguments]

end Spec
end Verif
