import Verif.Model.PestState
import Verif.Model.Stage

/-!
# The error that pest reports, and its text

`pest/src/error.rs` and `pest/src/position.rs` (2.x), from the position and the attempts that
`Model/PestState` comes up with to the text that `Display` gives. pest's source is not part of `/repo`
(see DESIGN.md, trusted base).
-/

namespace Verif
namespace Pest

/-! ## positions -/

/-- The loop of `Position::line_col` over the characters before the position (`pos` bytes of them are
left). `none`: `unreachable!` or a negative number. -/
def lineColLoop : Str → Nat → Nat × Nat → Option (Nat × Nat)
  | _, 0, lc => some lc
  | [], _ + 1, _ => none
  | [c], n + 1, (l, k) =>
    if c = '\n' then lineColLoop [] n (l + 1, 1)
    else if c.utf8Size ≤ n + 1 then lineColLoop [] (n + 1 - c.utf8Size) (l, k + 1) else none
  | c :: c' :: cs, n + 1, (l, k) =>
    if c = '\r' ∧ c' = '\n' then lineColLoop cs (n + 1 - (if n + 1 = 1 then 1 else 2)) (l + 1, 1)
    else if c = '\n' then lineColLoop (c' :: cs) n (l + 1, 1)
    else if c.utf8Size ≤ n + 1 then lineColLoop (c' :: cs) (n + 1 - c.utf8Size) (l, k + 1) else none

/-- `Position::line_col`; later versions of pest count differently, with the same result -/
def lineCol (input : Str) (pos : Nat) : Option (Nat × Nat) :=
  (splitAtByte input pos).bind fun x => lineColLoop x.1 pos (1, 1)

/-- `str::char_indices` -/
def charIndices : Nat → Str → List (Nat × Char)
  | _, [] => []
  | i, c :: cs => (i, c) :: charIndices (i + c.utf8Size) cs

/-- `Position::find_line_start` -/
def findLineStart (input : Str) (pos : Nat) : Nat :=
  if input = [] then 0
  else
    match ((charIndices 0 input).reverse.dropWhile (fun x => pos ≤ x.1)).find? (fun x => x.2 = '\n') with
    | some x => x.1 + 1
    | none => 0

/-- `Position::find_line_end` -/
def findLineEnd (input : Str) (pos : Nat) : Nat :=
  if input = [] then 0
  else if pos = blen input - 1 then blen input
  else
    match ((charIndices 0 input).dropWhile (fun x => x.1 < pos)).find? (fun x => x.2 = '\n') with
    | some x => x.1 + 1
    | none => blen input

/-- `Position::line_of` -/
def lineOf (input : Str) (pos : Nat) : Option Str :=
  if blen input < pos then none else sliceBytes input (findLineStart input pos) (findLineEnd input pos)

/-! ## the error -/

/-- The place of a rule in the enumeration that is generated: `EOI`, then the rules of the grammar. -/
def ruleIndex (r : Rule) : Nat := if r = .EOI then 0 else ruleNames.findIdx (fun x => x.2 = r) + 1

/-- `Debug for Rule` -/
def ruleName (r : Rule) : Str :=
  match ruleNames.find? (fun x => x.2 = r) with
  | some x => x.1
  | none => c!"EOI"

def insertRule (r : Rule) : List Rule → List Rule
  | [] => [r]
  | x :: xs => if ruleIndex r ≤ ruleIndex x then r :: x :: xs else x :: insertRule r xs

/-- `sort` of a list of rules -/
def sortRules : List Rule → List Rule
  | [] => []
  | r :: rs => insertRule r (sortRules rs)

/-- `dedup` -/
def dedupRules : List Rule → List Rule
  | [] => []
  | [r] => [r]
  | r :: x :: xs => if r = x then dedupRules (x :: xs) else r :: dedupRules (x :: xs)

/-- `pest::error::Error` with `ErrorVariant::ParsingError` at a position -/
structure PestError where
  location : Nat
  lineCol : Nat × Nat
  line : Str
  positives : List Rule
  negatives : List Rule

/-- `visualize_whitespace` -/
def visualize (s : Str) : Str := s.map fun c => if c = '\r' then '␍' else if c = '\n' then '␊' else c

/-- `Error::new_from_pos`, with the attempts as `pest::state` hands them over -/
def newFromPos (input : Str) (pos : Nat) (positives negatives : List Rule) : Option PestError := do
  let (_, rest) ← splitAtByte input pos
  let text ← lineOf input pos
  let lc ← lineCol input pos
  let line := if rest.head? = some '\n' ∨ rest.head? = some '\r' then visualize text
    else text.filter fun c => c ≠ '\r' ∧ c ≠ '\n'
  return { location := pos, lineCol := lc, line, positives := dedupRules (sortRules positives),
           negatives := dedupRules (sortRules negatives) }

/-! ## its text -/

/-- `enumerate`; `none`: there is no last rule -/
def enumerateRules : List Rule → Option Str
  | [] => none
  | [r] => some (ruleName r)
  | [r, x] => some (ruleName r ++ c!" or " ++ ruleName x)
  | r :: x :: y :: rs =>
    ((r :: x :: y :: rs).getLast?).map fun z =>
      c!", ".intercalate ((r :: x :: y :: rs).dropLast.map ruleName) ++ c!", or " ++ ruleName z

/-- `parsing_error_message` -/
def parsingMessage (positives negatives : List Rule) : Option Str :=
  match negatives, positives with
  | _ :: _, _ :: _ => do
    let n ← enumerateRules negatives
    let p ← enumerateRules positives
    return c!"unexpected " ++ n ++ c!"; expected " ++ p
  | _ :: _, [] => (enumerateRules negatives).map (c!"unexpected " ++ ·)
  | [], _ :: _ => (enumerateRules positives).map (c!"expected " ++ ·)
  | [], [] => some c!"unknown parsing error"

/-- `Error::underline` at a position -/
def underline (line : Str) (col : Nat) : Str :=
  (line.take (col - 1)).map (fun c => if c = '\t' then '\t' else ' ') ++ c!"^---"

/-- `Display for Error` (`format`, without a path) -/
def PestError.display (e : PestError) : Option Str :=
  (parsingMessage e.positives e.negatives).map fun message =>
    let ls := decimal e.lineCol.1
    let s := List.replicate ls.length ' '
    s ++ c!"--> " ++ ls ++ c!":" ++ decimal e.lineCol.2 ++ c!"\n" ++
    s ++ c!" |\n" ++
    ls ++ c!" | " ++ e.line ++ c!"\n" ++
    s ++ c!" | " ++ underline e.line e.lineCol.2 ++ c!"\n" ++
    s ++ c!" |\n" ++
    s ++ c!" = " ++ message

/-- `Display for Error` of the crate, for `ParseError` (`/repo/src/error.rs:12-17`) -/
def parseErrorText (input : Str) (pos : Nat) (positives negatives : List Rule) : Option Str := do
  let e ← newFromPos input pos positives negatives
  let text ← e.display
  return c!"could not parse Dockerfile: " ++ text

end Pest
end Verif
