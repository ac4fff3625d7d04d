import Verif.Model.Ast

/-!
# `/repo/src/splicer.rs`

`usize` values are natural numbers and `isize` values integers; the wrap-around of `as usize` on a
negative `isize` is modelled, for a 64-bit target.  `Model/Machine` has the same functions with machine
integers, and C80 says when there is no difference.
-/

namespace Verif

/-- `SpliceOffset` (`/repo/src/splicer.rs:11-14`) -/
structure SpliceOffset where
  position : Nat
  offset : Int
  deriving DecidableEq, Repr

/-- `x as usize` for an `isize` value on a 64-bit target. -/
def asUsize (x : Int) : Nat := if x < 0 then (x + 2 ^ 64).toNat else x.toNat

namespace Span

/-- The loop body of `adjust_offsets` (`/repo/src/splicer.rs:41-48`). -/
def adjustStep (b : Int × Int) (o : SpliceOffset) : Int × Int :=
  if o.position < asUsize b.1 then (b.1 + o.offset, b.2 + o.offset)
  else if o.position < asUsize b.2 then (b.1, b.2 + o.offset)
  else b

/-- `Span::adjust_offsets` (`/repo/src/splicer.rs:37-54`); `try_into().ok().unwrap_or(0)` maps a
negative value to 0. -/
def adjustOffsets (sp : Span) (offsets : List SpliceOffset) : Span :=
  let b := offsets.foldl adjustStep ((sp.start : Int), (sp.stop : Int))
  { start := if b.1 < 0 then 0 else b.1.toNat, stop := if b.2 < 0 then 0 else b.2.toNat }

end Span

/-- `Splicer` (`/repo/src/splicer.rs:132-137`) -/
structure Splicer where
  content : Str
  offsets : List SpliceOffset
  deriving DecidableEq, Repr

namespace Splicer

/-- `Splicer::from_str` (`/repo/src/splicer.rs:148-153`) -/
def fromStr (s : Str) : Splicer := { content := s, offsets := [] }

/-- `Splicer::from` (`/repo/src/splicer.rs:141-146`), `Dockerfile::splicer`
(`/repo/src/dockerfile_parser.rs:395-397`) -/
def ofDockerfile (d : Dockerfile) : Splicer := { content := d.content, offsets := [] }

/-- `Splicer::splice` (`/repo/src/splicer.rs:163-178`).  `none` is a panic: `span.end - span.start`
underflows (line 167, in a debug build; in a release build the wrapped value makes `split_at` on
line 176 panic), or one of the `split_at` calls is out of range or off a character boundary. -/
def splice (s : Splicer) (span : Span) (replacement : Str) : Option Splicer :=
  let sp := span.adjustOffsets s.offsets
  if sp.stop < sp.start then none
  else
    let prevLen := sp.stop - sp.start
    let newLen := blen replacement
    let offsets := s.offsets ++ [{ position := sp.start, offset := (newLen : Int) - (prevLen : Int) }]
    match splitAtByte s.content sp.start with
    | none => none
    | some (beginning, rest) =>
      match splitAtByte rest (sp.stop - sp.start) with
      | none => none
      | some (_, «end») => some { content := beginning ++ replacement ++ «end», offsets }

/-- A history of calls to `splice`. -/
def spliceAll : Splicer → List (Span × Str) → Option Splicer
  | s, [] => some s
  | s, (span, r) :: es =>
    match s.splice span r with
    | none => none
    | some s' => spliceAll s' es

end Splicer

/-- UTF-8 bytes of a string (`str::as_bytes`). -/
def bytes (s : Str) : List UInt8 := s.flatMap String.utf8EncodeChar

/-- The loop of `relative_span` (`/repo/src/splicer.rs:65-74`): `i` is the index of the head of
the remaining bytes; returns `(lines, line_start_offset)`. -/
def relLoop (start : Nat) : Nat → List UInt8 → Nat → Nat → Nat × Nat
  | _, [], lines, off => (lines, off)
  | i, c :: cs, lines, off =>
    if i = start then (lines, off)
    else if c = 10 then relLoop start (i + 1) cs (lines + 1) (i + 1)
    else relLoop start (i + 1) cs lines off

/-- `Span::relative_span` (`/repo/src/splicer.rs:62-80`); `none` = panic by subtraction underflow
(lines 76, 77). -/
def Span.relativeSpan (sp : Span) (d : Dockerfile) : Option (Nat × Span) :=
  let (lines, off) := relLoop sp.start 0 (bytes d.content) 0 0
  if sp.start < off then none
  else if sp.stop < sp.start then none
  else
    let start := sp.start - off
    some (lines, ⟨start, start + (sp.stop - sp.start)⟩)

end Verif
