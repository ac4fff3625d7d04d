import Verif.Spec.Plain
import Verif.Spec.Remap

/-!
# Specification: writing down any document

`writeDoc is` is a text for the instructions `is`: all values are put in quotes, and characters that
have a meaning are written as escapes.  `Writable` are the conditions for instructions that can be
written like that.  (C73)
-/

namespace Verif
namespace Spec

/-! ## quoting -/

/-- blanks, line breaks, quotes, backslashes and two control characters are escaped -/
def escapeCh (c : Char) : Str :=
  if c = '"' then c!"\\\""
  else if c = '\\' then c!"\\\\"
  else if c = ' ' then c!"\\x20"
  else if c = '\t' then c!"\\t"
  else if c = '\n' then c!"\\n"
  else if c = '\r' then c!"\\r"
  else if c = '\x00' then c!"\\x00"
  else if c = '\x1F' then c!"\\x1f"
  else [c]

/-- `t` in quotes -/
def quoteAll (t : Str) : Str := '"' :: (t.flatMap escapeCh ++ ['"'])

/-- Unquoting undoes this. -/
def UndoesEscapes (unq : Unquote) : Prop := ∀ t, unq (quoteAll t) = .ok t

/-! ## instructions -/

def writtenFlag (f : Flag) : FlagText := ⟨[' '], f.name.content, quoteAll f.value.content, f.value.content⟩

def writtenField (s : SpannedString) : FieldText := ⟨[' '], quoteAll s.content, s.content⟩

def writtenLabel (l : Label) : PairText :=
  ⟨[' '], quoteAll l.name.content, l.name.content, quoteAll l.value.content, l.value.content⟩

/-- a value of one component -/
def oneValue : List BreakableStringComponent → Option Str
  | [.string s] => some s.content
  | _ => none

def writtenVar (v : EnvVar) : PairText :=
  let t := (oneValue v.value.components).getD []
  ⟨[' '], v.key.content, v.key.content, quoteAll t, t⟩

def writtenArray (a : StringArray) : ArrayText :=
  match a.elements with
  | [] => .empty []
  | e :: es => .full [] (quoteAll e.content) e.content
      (es.map fun e => ⟨[], [' '], quoteAll e.content, e.content⟩) false []

/-- every component on a line of its own -/
def writtenShell : List BreakableStringComponent → Shell
  | [] => .last []
  | [.string s] => .last s.content
  | .string s :: cs => .more s.content [] ['\n'] (writtenShell cs)
  | .comment s :: cs => .comment [] s.content ['\n'] (writtenShell cs)

def writtenExpr (k : ExecKind) : ShellOrExecExpr → Item
  | .shell b => .shell k k.word [' '] (writtenShell b.components)
  | .exec a => .exec k k.word [' '] (writtenArray a)

def itemOf : Instruction → Item
  | .from i => .from c!"FROM" (i.flags.map writtenFlag) [' '] i.image.content
      (i.alias.map fun a => ⟨[' '], c!"AS", [' '], a.content⟩)
  | .arg i => .arg c!"ARG" [' '] i.name.content (i.value.map fun v => (quoteAll v.content, v.content))
  | .label i => .label c!"LABEL" (i.labels.map writtenLabel) (if i.labels = [] then [' '] else [])
  | .run i => writtenExpr .run i.expr
  | .cmd i => writtenExpr .cmd i.expr
  | .entrypoint i => writtenExpr .entrypoint i.expr
  | .copy i => .copy c!"COPY" (i.flags.map writtenFlag) (i.sources.map writtenField) (writtenField i.destination)
  | .env i =>
    if ∀ v ∈ i.vars, (oneValue v.value.components).isSome then
      .env c!"ENV" (i.vars.map writtenVar) (if i.vars = [] then [' '] else [])
    else match i.vars with
      | [] => .blank
      | v :: _ => .env1 c!"ENV" [' '] v.key.content [' '] (writtenShell v.value.components)
  | .misc i => .misc i.instruction.content (writtenShell i.arguments.components)

/-- one line for each instruction; no line feed at the end -/
def writeDoc : List Instruction → Str
  | [] => []
  | [i] => (itemOf i).text
  | i :: is => (itemOf i).text ++ '\n' :: writeDoc is

/-! ## which instructions can be written like this -/

/-- texts and comments of a shell string: the last is a text that does not end with a backslash -/
def LinesOK : List BreakableStringComponent → Prop
  | [] => False
  | [.string s] => Shell.LineOK s.content ∧ ∀ a w, Blanks w → s.content ≠ a ++ '\\' :: w
  | .string s :: cs => Shell.LineOK s.content ∧ LinesOK cs
  | .comment s :: cs => CommentText s.content ∧ LinesOK cs

/-- the same after a gap: the first is a text that does not start with a blank -/
def ArgumentOK (cs : List BreakableStringComponent) : Prop :=
  LinesOK cs ∧ ∃ s r, cs = .string s :: r ∧ StartsArgument s.content

def WritableExpr : ShellOrExecExpr → Prop
  | .shell b => ArgumentOK b.components ∧ NotArray (writtenShell b.components).text
  | .exec _ => True

/-- Names are over their alphabets; images are as they should be; values can be any strings. -/
def Writable : Instruction → Prop
  | .from i => (∀ f ∈ i.flags, Over IsAlpha f.name.content) ∧ Over IsImageChar i.image.content ∧
      i.image_parsed = ImageRef.parse i.image.content ∧ DigestOK i.image_parsed ∧
      ∀ a, i.alias = some a → Over IsIdent a.content
  | .arg i => ∃ c r, i.name.content = c :: r ∧ IsAlpha c ∧ ∀ d ∈ r, IsWord d
  | .label _ => True
  | .run i | .cmd i | .entrypoint i => WritableExpr i.expr
  | .copy i => (∀ f ∈ i.flags, Over IsAlpha f.name.content) ∧ i.sources ≠ []
  | .env i => (∀ v ∈ i.vars, Over IsWord v.key.content) ∧
      ((∀ v ∈ i.vars, ∃ t, oneValue v.value.components = some t) ∨
       ∃ v, i.vars = [v] ∧ ArgumentOK v.value.components ∧
         ∀ r, (writtenShell v.value.components).text ≠ '"' :: r ∧ (writtenShell v.value.components).text ≠ '\'' :: r)
  | .misc i => Over IsAlpha i.instruction.content ∧ ¬ IsKeyword i.instruction.content ∧
      LinesOK i.arguments.components ∧
      ∀ c r, (writtenShell i.arguments.components).text = c :: r → ¬ IsAlpha c

/-! ## which instructions of a document cannot -/

/-- the last line of shell text is not a comment and does not end with a backslash -/
def EndsText : List BreakableStringComponent → Prop
  | [] => False
  | [.string s] => ∀ a w, Blanks w → s.content ≠ a ++ '\\' :: w
  | [.comment _] => False
  | _ :: c :: cs => EndsText (c :: cs)

def StartsText (cs : List BreakableStringComponent) : Prop := ∃ s r, cs = .string s :: r

/-- Shell text starts and ends with text and does not look like an array; values of several lines
do not start with a quote; keywords are not used as unknown words. -/
def Tame : Instruction → Prop
  | .run i | .cmd i | .entrypoint i => ∀ b, i.expr = .shell b →
      StartsText b.components ∧ EndsText b.components ∧ NotArray (writtenShell b.components).text
  | .env i => ∀ v ∈ i.vars, oneValue v.value.components = none →
      StartsText v.value.components ∧ EndsText v.value.components ∧
        ∀ r, (writtenShell v.value.components).text ≠ '"' :: r ∧
          (writtenShell v.value.components).text ≠ '\'' :: r
  | .misc i => EndsText i.arguments.components ∧ ¬ IsKeyword i.instruction.content
  | _ => True

end Spec
end Verif
