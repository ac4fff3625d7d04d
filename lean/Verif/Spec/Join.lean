import Verif.Spec.Source
import Verif.Spec.Remap

/-!
# Specification: joining documents

Some instructions look ahead: a quote is only a quote when there is a closing one, a shell command
is not an array when there is no closing bracket, a keyword without its arguments is an unknown
word.  The end of a document decides such questions.  `Undisturbed s z d` says that the decisions
made for the document `d` with the text `s` are the same when the text `z` comes after it.  (C60)
-/

namespace Verif
namespace Spec

/-- where the parser looks for a text in quotes -/
def quoteSpots : Instruction → List Nat
  | .arg i => i.value.toList.map (·.span.start)
  | .label i => i.labels.flatMap fun l => [l.name.span.start, l.value.span.start]
  | .env i => i.vars.map (·.value.span.start)
  | _ => []

/-- where the parser looked for an array, but found a shell command -/
def arraySpots : Instruction → List Nat
  | .run i => match i.expr with | .shell s => [s.span.start] | .exec _ => []
  | .cmd i => match i.expr with | .shell s => [s.span.start] | .exec _ => []
  | .entrypoint i => match i.expr with | .shell s => [s.span.start] | .exec _ => []
  | _ => []

/-- unknown words that may be keywords without proper arguments, and where their arguments start -/
def wordSpots : Instruction → List (Str × Nat)
  | .misc i => [(i.instruction.content, i.arguments.span.start)]
  | _ => []

/-- `P` is not made true for the text at `p` of `s` by adding `z` -/
def StaysFalse (P : Str → Prop) (s z : Str) (p : Nat) : Prop :=
  ∀ a b, s = a ++ b → blen a = p → ¬ P b → ¬ P (b ++ z)

/-- `u` starts with a text in quotes -/
def BeginsQuoted (u : Str) : Prop := ∃ t r, u = t ++ r ∧ QuotedText t

/-- `u` starts with an array -/
def BeginsArray (u : Str) : Prop := ∃ (a : Src.Array) (r : Str), u = a.text ++ r ∧ a.Fits r

/-- Nothing that was left open in `s` is closed in `z`: no quotes, no arrays, no arguments of a keyword. -/
def Undisturbed (s z : Str) (d : Dockerfile) : Prop :=
  ∀ i ∈ d.instructions,
    (∀ p ∈ quoteSpots i, StaysFalse BeginsQuoted s z p) ∧
    (∀ p ∈ arraySpots i, StaysFalse BeginsArray s z p) ∧
    ∀ k ∈ wordSpots i, IsKeyword k.1 → StaysFalse (Src.Begins (lower k.1)) s z k.2

end Spec
end Verif
