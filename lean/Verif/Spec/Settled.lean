import Verif.Spec.Join
import Verif.Spec.Rewrite
import Verif.Spec.Split

/-! # Specification: documents in which nothing is left open (C103) -/

namespace Verif.Spec

/-- the texts that may be in quotes -/
def quoteSpans : Instruction → List Span
  | .arg i => i.value.toList.map (·.span)
  | .label i => i.labels.flatMap fun l => [l.name.span, l.value.span]
  | .env i => i.vars.map (·.value.span)
  | _ => []

/-- the shell commands -/
def shellSpans : Instruction → List Span
  | .run i => match i.expr with | .shell s => [s.span] | .exec _ => []
  | .cmd i => match i.expr with | .shell s => [s.span] | .exec _ => []
  | .entrypoint i => match i.expr with | .shell s => [s.span] | .exec _ => []
  | _ => []

/-- Nothing is left open: a value that starts with a quote is in quotes, no shell command becomes an array, whatever is put behind it
(for commands that start with a bracket see `C103_bracket` and `C103_word`), and no keyword is taken for an unknown instruction. -/
def Settled (s : Str) (is : List Instruction) : Prop :=
  ∀ i ∈ is,
    (∀ sp ∈ quoteSpans i, ∀ t, SliceOf s sp t → QuotedText t ∨ ∀ r, t ≠ '"' :: r ∧ t ≠ '\'' :: r) ∧
    (∀ sp ∈ shellSpans i, ∀ t, SliceOf s sp t → ∀ v, ¬ BeginsArray (t ++ v)) ∧
    ∀ m, i = .misc m → ¬ IsKeyword m.instruction.content

/-- it is not all there is between a carriage return and a newline -/
def NotBetween (s : Str) (sp : Span) : Prop :=
  ∀ a t b, s = a ++ '\r' :: (t ++ '\n' :: b) → sp.start = blen a + 1 → sp.stop ≠ blen a + 1 + blen t

/-- The text `w` is accepted on its own, whatever line break is after it, and consists of the instructions `ws`, which leave nothing
open. -/
structure Complete (unq : Unquote) (w : Str) (ws : List Instruction) : Prop where
  first : ∀ t, w ≠ '\n' :: t
  whole : ∀ n, n = [] ∨ LineBreak n [] → Dockerfile.parse unq (w ++ n) = .ok (documentOf (w ++ n) ws)
  inside : ∀ i ∈ ws, i.span.stop ≤ blen w
  settled : Settled w ws

end Verif.Spec
