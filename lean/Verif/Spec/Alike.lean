import Verif.Spec.Fields
import Verif.Spec.Splice

/-!
# Specification: texts that look alike

Two texts look alike if they differ only in the case of letters, in digits, and in characters that
have no role in the syntax (e.g. `é`, `*` or a backquote).  (C34, C56)
-/

namespace Verif
namespace Src
open Spec

/-- the characters with a role of their own in the syntax of Dockerfiles -/
def special : List Char :=
  [' ', '\t', '\n', '\r', '\\', '#', '=', '-', '_', '.', ':', '/', '$', '{', '}', '@', '"', '\'',
   ',', '[', ']', '\x00', '\x1F']

/-- neither letter nor digit nor special -/
def Neutral (c : Char) : Prop := ¬ IsAlpha c ∧ ¬ IsDigit c ∧ c ∉ special

/-- The same letter in any case, two digits, or two neutral characters of the same size. -/
def Alike (c d : Char) : Prop :=
  c = d ∨ (IsAlpha c ∧ IsAlpha d ∧ lowerChar c = lowerChar d) ∨ (IsDigit c ∧ IsDigit d) ∨
    (Neutral c ∧ Neutral d ∧ c.utf8Size = d.utf8Size)

/-- Texts that look alike, character by character. -/
inductive AlikeText : Str → Str → Prop
  | nil : AlikeText [] []
  | cons {c d x y} : Alike c d → AlikeText x y → AlikeText (c :: x) (d :: y)

/-! ## values without their texts -/

def strSkel (s : SpannedString) : SpannedString := { s with content := [] }

def componentSkel : BreakableStringComponent → BreakableStringComponent
  | .string s => .string { s with content := [] }
  | .comment c => .comment { c with content := [] }

def breakableSkel (b : BreakableString) : BreakableString :=
  { b with components := b.components.map componentSkel }

def exprSkel : ShellOrExecExpr → ShellOrExecExpr
  | .shell s => .shell (breakableSkel s)
  | .exec a => .exec { a with elements := a.elements.map strSkel }

def flagSkel (f : Flag) : Flag :=
  { f with name := strSkel f.name, value := strSkel f.value }

def argSkel (i : ArgInstruction) : ArgInstruction :=
  { i with name := strSkel i.name, value := i.value.map strSkel }

/-- An instruction without its texts: the kind of it and of its parts, their number and order, and
all spans. -/
def skeleton : Instruction → Instruction
  | .from i => .from { i with flags := i.flags.map flagSkel, image := strSkel i.image,
                              image_parsed := ImageRef.parse [],
                              alias := i.alias.map strSkel }
  | .arg i => .arg (argSkel i)
  | .label i => .label { i with labels := i.labels.map fun l =>
      { l with name := strSkel l.name, value := strSkel l.value } }
  | .run i => .run { i with expr := exprSkel i.expr }
  | .cmd i => .cmd { i with expr := exprSkel i.expr }
  | .entrypoint i => .entrypoint { i with expr := exprSkel i.expr }
  | .copy i => .copy { i with flags := i.flags.map flagSkel,
                              sources := i.sources.map strSkel,
                              destination := strSkel i.destination }
  | .env i => .env { i with vars := i.vars.map fun v =>
      { v with key := strSkel v.key, value := breakableSkel v.value } }
  | .misc i => .misc { i with instruction := strSkel i.instruction,
                              arguments := breakableSkel i.arguments }

/-! ## where the texts are -/

def flagLeaves (f : Flag) : List Span := [f.name.span, f.value.span]

/-- the spans of the texts that an instruction shows -/
def leaves : Instruction → List Span
  | .from i => i.flags.flatMap flagLeaves ++ i.image.span :: (i.alias.map (·.span)).toList
  | .arg i => i.name.span :: (i.value.map (·.span)).toList
  | .label i => i.labels.flatMap fun l => [l.name.span, l.value.span]
  | .run i | .cmd i | .entrypoint i =>
    match i.expr with
    | .shell b => b.components.map componentSpan
    | .exec a => a.elements.map (·.span)
  | .copy i => i.flags.flatMap flagLeaves ++ (i.sources.map (·.span) ++ [i.destination.span])
  | .env i => i.vars.flatMap fun v => v.key.span :: v.value.components.map componentSpan
  | .misc i => i.instruction.span :: i.arguments.components.map componentSpan

/-- The two texts are the same at all these spans. -/
def Agree (s s' : Str) (L : List Span) : Prop :=
  ∀ sp ∈ L, ∀ t t', SliceOf s sp t → SliceOf s' sp t' → t = t'

/-- an error about what a text says: a digest is invalid, or a text cannot be unquoted -/
def TextFault (e : Fault) : Prop := e = .err (.generic .digestInvalid) ∨ ∃ u, e = .err (.unescape u)

end Src
end Verif
