import Verif.Spec.Layout
import Verif.Model.Dockerfile

/-!
# Specification: the spans and strings of an instruction

Every public field of the AST that has a span.
-/

namespace Verif
namespace Spec

def flagStrings (f : Flag) : List SpannedString := [f.name, f.value]

/-- strings read by `parse_string`: flag names and values, images, aliases, names and values of
`ARG`, paths, names of `ENV`, words of misc instructions -/
def plainStrings : Instruction → List SpannedString
  | .from i => i.flags.flatMap flagStrings ++ i.image :: i.alias.toList
  | .arg i => i.name :: i.value.toList
  | .copy i => i.flags.flatMap flagStrings ++ (i.sources ++ [i.destination])
  | .env i => i.vars.map (·.key)
  | .misc i => [i.instruction]
  | _ => []

/-- names and values of labels -/
def labelStrings : Instruction → List SpannedString
  | .label i => i.labels.flatMap fun l => [l.name, l.value]
  | _ => []

def exprOf : Instruction → Option ShellOrExecExpr
  | .run i | .cmd i | .entrypoint i => some i.expr
  | _ => none

/-- arrays of exec-form expressions -/
def arrays (i : Instruction) : List StringArray :=
  match exprOf i with
  | some (.exec a) => [a]
  | _ => []

/-- shell-form texts: expressions, and arguments of misc instructions -/
def shells (i : Instruction) : List BreakableString :=
  match i with
  | .misc m => [m.arguments]
  | i => match exprOf i with
    | some (.shell b) => [b]
    | _ => []

/-- values of environment variables -/
def envValues : Instruction → List BreakableString
  | .env i => i.vars.map (·.value)
  | _ => []

def componentSpan : BreakableStringComponent → Span
  | .string s => s.span
  | .comment c => c.span

def breakableSpans (b : BreakableString) : List Span := b.span :: b.components.map componentSpan

def exprSpans : ShellOrExecExpr → List Span
  | .shell b => breakableSpans b
  | .exec a => a.span :: a.elements.map (·.span)

def flagSpans (f : Flag) : List Span := [f.span, f.name.span, f.value.span]

/-- All spans below an instruction, in the order of the source text. -/
def fieldSpans : Instruction → List Span
  | .from i => i.flags.flatMap flagSpans ++ i.image.span :: (i.alias.map (·.span)).toList
  | .arg i => i.name.span :: (i.value.map (·.span)).toList
  | .label i => i.labels.flatMap fun l => [l.span, l.name.span, l.value.span]
  | .run i | .cmd i | .entrypoint i => exprSpans i.expr
  | .copy i => i.flags.flatMap flagSpans ++ (i.sources.map (·.span) ++ [i.destination.span])
  | .env i => i.vars.flatMap fun v => v.span :: v.key.span :: breakableSpans v.value
  | .misc i => i.instruction.span :: breakableSpans i.arguments

/-- the spans of the direct fields of an instruction, in the order of the source text -/
def topSpans : Instruction → List Span
  | .from i => i.flags.map (·.span) ++ i.image.span :: (i.alias.map (·.span)).toList
  | .arg i => i.name.span :: (i.value.map (·.span)).toList
  | .label i => i.labels.map (·.span)
  | .run i | .cmd i | .entrypoint i =>
    match i.expr with
    | .shell b => [b.span]
    | .exec a => [a.span]
  | .copy i => i.flags.map (·.span) ++ (i.sources.map (·.span) ++ [i.destination.span])
  | .env i => i.vars.map (·.span)
  | .misc i => [i.instruction.span, i.arguments.span]

/-- the groups of sibling fields one level further down, with the field they belong to -/
def subSpans : Instruction → List (Span × List Span)
  | .from i => i.flags.map fun f => (f.span, [f.name.span, f.value.span])
  | .arg _ => []
  | .label i => i.labels.map fun l => (l.span, [l.name.span, l.value.span])
  | .run i | .cmd i | .entrypoint i =>
    match i.expr with
    | .shell b => [(b.span, b.components.map componentSpan)]
    | .exec a => [(a.span, a.elements.map (·.span))]
  | .copy i => i.flags.map fun f => (f.span, [f.name.span, f.value.span])
  | .env i => i.vars.map (fun v => (v.span, [v.key.span, v.value.span])) ++
      i.vars.map fun v => (v.value.span, v.value.components.map componentSpan)
  | .misc i => [(i.arguments.span, i.arguments.components.map componentSpan)]

/-- all spans of an instruction -/
def spansOf (i : Instruction) : List Span := i.span :: fieldSpans i

/-! ## lexical classes -/

def IsDigit (c : Char) : Prop := '0' ≤ c ∧ c ≤ '9'
def IsWord (c : Char) : Prop := IsAlpha c ∨ IsDigit c ∨ c = '_'
def IsIdent (c : Char) : Prop := IsAlpha c ∨ IsDigit c ∨ c = '_' ∨ c = '-'
def IsImageChar (c : Char) : Prop :=
  IsAlpha c ∨ IsDigit c ∨ c = '_' ∨ c = '-' ∨ c = '.' ∨ c = ':' ∨ c = '/' ∨ c = '$' ∨ c = '{' ∨
  c = '}' ∨ c = '@'

/-- a non-empty text over a class of characters -/
def Over (P : Char → Prop) (t : Str) : Prop := t ≠ [] ∧ ∀ c ∈ t, P c

/-- The names, images and aliases of an instruction are over the documented classes of
characters. -/
def Lexical : Instruction → Prop
  | .from i => (∀ f ∈ i.flags, Over IsAlpha f.name.content) ∧ Over IsImageChar i.image.content ∧
      ∀ a, i.alias = some a → Over IsIdent a.content
  | .arg i => ∃ c r, i.name.content = c :: r ∧ IsAlpha c ∧ ∀ d ∈ r, IsWord d
  | .copy i => ∀ f ∈ i.flags, Over IsAlpha f.name.content
  | .env i => ∀ v ∈ i.vars, Over IsWord v.key.content
  | .misc i => Over IsAlpha i.instruction.content
  | _ => True

end Spec
end Verif
