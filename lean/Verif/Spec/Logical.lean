import Verif.Spec.Source

/-!
# Specification: a reader that works line by line

`util.rs` says that the text of a shell command is formatted as Docker reads it: "on a single line with line
continuations removed".  This is such a reader, after the reference of the Dockerfile format: a text is cut into
physical lines (`rows`); a line that ends with a backslash (and blanks) goes on in the next line; within such a
line blank lines and comment lines are left out (`groups`, `joined`).  It knows nothing about instructions.  (C88)
-/

namespace Verif
namespace Logical
open Spec

/-- a physical line and its line break, which is empty at the end of the text -/
structure Row where
  line : Str
  brk : Str
  deriving DecidableEq, Repr

/-- the rows of a text, the first one with `x` in front of it -/
def rowsFrom (x : Str) : Str → List Row
  | [] => [⟨x, []⟩]
  | '\n' :: s => ⟨x, ['\n']⟩ :: rowsFrom [] s
  | '\r' :: '\n' :: s => ⟨x, ['\r', '\n']⟩ :: rowsFrom [] s
  | '\r' :: s => ⟨x, ['\r']⟩ :: rowsFrom [] s
  | c :: s => rowsFrom (x ++ [c]) s

def rows (s : Str) : List Row := rowsFrom [] s

/-- blank lines and comment lines -/
def skipped (l : Str) : Bool :=
  match l.dropWhile isBlank with
  | [] => true
  | c :: _ => c == '#'

/-- a backslash (and blanks) at the end of the line -/
def continued (l : Str) : Bool :=
  match l.reverse.dropWhile isBlank with
  | [] => false
  | c :: _ => c == '\\'

/-- Does the logical line go on after the line `l`?  `inside` says that `l` is not its first line. -/
def goesOn (inside : Bool) (l : Str) : Bool := if inside then skipped l || continued l else !skipped l && continued l

/-- put rows in front of the first group -/
def attach (pre : List Row) : List (List Row) → List (List Row)
  | [] => [pre]
  | g :: gs => (pre ++ g) :: gs

/-- the logical lines -/
def groups (inside : Bool) : List Row → List (List Row)
  | [] => []
  | r :: rs => if goesOn inside r.line then attach [r] (groups true rs) else [r] :: groups false rs

/-- the text of a logical line as it stands, without the last line break -/
def body : List Row → Str
  | [] => []
  | [r] => r.line
  | r :: rs => r.line ++ r.brk ++ body rs

/-- the last line break -/
def lastBreak : List Row → Str
  | [] => []
  | [r] => r.brk
  | _ :: rs => lastBreak rs

/-- a line without backslash and blanks at its end -/
def stripped (l : Str) : Str := (l.reverse.dropWhile isBlank).tail.reverse

/-- what a line other than the last one contributes -/
def part (l : Str) : Str := if skipped l then [] else stripped l

/-- rows on a single line; `inside` says that the first one is not the first line of the logical line -/
def joinedFrom (inside : Bool) : List Row → Str
  | [] => []
  | [r] => if inside && skipped r.line then [] else r.line
  | r :: rs => part r.line ++ joinedFrom true rs

/-- a logical line on a single line -/
def joined (g : List Row) : Str := joinedFrom false g

/-- the logical lines of a text: all groups except for blank lines and comment lines -/
def isNoise : List Row → Bool
  | [] => true
  | r :: _ => skipped r.line

/-! ## documents that both read alike -/

/-- every line but the last goes on; the last is not left out -/
def carriedRest : List Row → Bool
  | [] => true
  | [r] => !skipped r.line
  | r :: rs => goesOn true r.line && carriedRest rs

/-- a word, e.g. a text in quotes, that is on one line, or whose line breaks are preceded by backslashes -/
def carried (t : Str) : Bool :=
  match rows t with
  | [] => true
  | [_] => true
  | r :: rs => continued r.line && carriedRest rs

/-- such a word on a single line -/
def onOne (t : Str) : Str :=
  match rows t with
  | [] => []
  | [r] => r.line
  | r :: rs => stripped r.line ++ joinedFrom true rs

/-- the last line of a text over several lines: not blank and not a comment -/
def shellEnd : Src.Shell → Prop
  | .last t => ¬ Blanks t
  | .lastComment _ _ _ => False
  | .more _ _ _ s => shellEnd s
  | .comment _ _ _ s => shellEnd s

/-- shell text that does not start with a comment, and does not end with a blank line or a comment after a
continuation -/
def shellTidy : Src.Shell → Prop
  | .last _ => True
  | .lastComment _ _ _ => False
  | .more _ _ _ s => shellEnd s
  | .comment _ _ _ _ => False

def arrayTidy : Src.Array → Prop
  | .empty _ => True
  | .full _ v es _ _ => carried v = true ∧ ∀ e ∈ es, carried e.value = true

/-- the items that are read alike -/
def itemTidy : Src.Item → Prop
  | .arg _ _ n v => carried (n ++ Src.valueText v) = true
  | .label _ ps _ => ∀ p ∈ ps, carried p.body = true
  | .label1 _ _ n _ v => carried n.text = true ∧ carried v.text = true
  | .shell _ _ _ s => shellTidy s
  | .exec _ _ _ a => arrayTidy a
  | .env _ ps _ => ∀ p ∈ ps, carried p.body = true
  | .env1 _ _ _ _ s => shellTidy s
  | .env1q _ _ _ _ v => carried v = true
  | .misc _ s => shellTidy s
  | _ => True

/-! ## the words of an item -/

/-- shell text without comments and continuations -/
def plain : Src.Shell → Str
  | .last t => t
  | .lastComment _ _ _ => []
  | .more t _ _ s => t ++ plain s
  | .comment _ _ _ s => plain s

def elemWords : List Src.Elem → List Str
  | [] => []
  | e :: es => [','] :: onOne e.value :: elemWords es

def arrayWords : Src.Array → List Str
  | .empty _ => [['['], [']']]
  | .full _ v es c _ => ['['] :: onOne v :: (elemWords es ++ ((if c then [[',']] else []) ++ [[']']]))

def aliasWords : Option AliasText → List Str
  | none => []
  | some a => [a.kw, a.name]

def words : Src.Item → List Str
  | .blank => []
  | .comment t => [t]
  | .from kw fs _ i a => kw :: (fs.map Src.Flag.body ++ i :: aliasWords a)
  | .arg kw _ n v => [kw, onOne (n ++ Src.valueText v)]
  | .label kw ps _ => kw :: ps.map fun p => onOne p.body
  | .label1 kw _ n _ v => [kw, onOne n.text, onOne v.text]
  | .shell _ kw _ s => [kw, plain s]
  | .exec _ kw _ a => kw :: arrayWords a
  | .copy kw fs ss d => kw :: (fs.map Src.Flag.body ++ (ss ++ [d]).map Src.Arg.value)
  | .env kw ps _ => kw :: ps.map fun p => onOne p.body
  | .env1 kw _ n _ s => [kw, n, plain s]
  | .env1q kw _ n _ v => [kw, n, onOne v]
  | .misc w a => [w ++ plain a]

/-- the words in this order, blanks (or nothing) in front of, between and after them, and nothing else -/
inductive Flat : List Str → Str → Prop
  | nil {b} : Blanks b → Flat [] b
  | cons {b w ws y} : Blanks b → Flat ws y → Flat (w :: ws) (b ++ (w ++ y))

/-! ## lines and logical lines -/

/-- nothing or a comment -/
def isNote : Src.Item → Bool
  | .blank => true
  | .comment _ => true
  | _ => false

/-- `g` is the line `l`, which ends with `n` -/
def IsLine (g : List Row) (l : Src.Line) (n : Str) : Prop :=
  body g = l.text ∧ lastBreak g = n ∧ isNoise g = isNote l.item ∧ Flat (words l.item) (joined g)

/-- the logical lines are the lines of the document -/
def AreLines : List (List Row) → Src.Line → List (Str × Src.Line) → Prop
  | [], _, _ => False
  | g :: gs, l, [] => IsLine g l [] ∧ gs = []
  | g :: gs, l, (n, m) :: ms => IsLine g l n ∧ AreLines gs m ms

/-! ## instructions and logical lines -/

/-- The text `y` on a single line is the keyword and what `Display` gives for the shell text; likewise for
instructions of unknown kind. -/
def Shows (y : Str) : Instruction → Prop
  | .run i => ∀ b, i.expr = .shell b → ∃ kw, lower kw = c!"run" ∧ Flat [kw, b.display] y
  | .cmd i => ∀ b, i.expr = .shell b → ∃ kw, lower kw = c!"cmd" ∧ Flat [kw, b.display] y
  | .entrypoint i => ∀ b, i.expr = .shell b → ∃ kw, lower kw = c!"entrypoint" ∧ Flat [kw, b.display] y
  | .misc m => Flat [m.instruction.content ++ m.arguments.display] y
  | _ => True

/-- The instruction starts after the blanks at the start of the logical line at offset `p`, and ends in front of
blanks at its end. -/
def At (p : Nat) (g : List Row) (i : Instruction) : Prop :=
  i.span.start = p + blen ((body g).takeWhile isBlank) ∧
    (∃ a b, body g = a ++ b ∧ Blanks b ∧ i.span.stop = p + blen a) ∧ Shows (joined g) i

/-- The logical lines from offset `p` on other than blank lines and comments are, one by one and in order, the
instructions. -/
def Placed : Nat → List (List Row) → List Instruction → Prop
  | _, [], is => is = []
  | p, g :: gs, is =>
    if isNoise g then Placed (p + blen (body g) + blen (lastBreak g)) gs is
    else ∃ i is', is = i :: is' ∧ At p g i ∧ Placed (p + blen (body g) + blen (lastBreak g)) gs is'

/-- neither backslash nor quote nor number sign -/
def Ordinary (s : Str) : Prop := ∀ c ∈ s, c ≠ '\\' ∧ c ≠ '"' ∧ c ≠ '\'' ∧ c ≠ '#'

/-- all lines of a document -/
def linesOf (l : Src.Line) (ms : List (Str × Src.Line)) : List Src.Line := l :: ms.map (·.2)

end Logical
end Verif
