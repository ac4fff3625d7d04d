import Verif.Model.Records
import Verif.Model.Splicer

/-!
# Building and comparing strings

The functions with which a caller makes spans, strings and variables, and the orders that are derived
for them (`/repo/src/splicer.rs`, `/repo/src/util.rs`, `/repo/src/instructions/{env,label}.rs`).
-/

namespace Verif

/-! ## building -/

/-- `Span::new` (`/repo/src/splicer.rs:24-26`) and `From<(usize, usize)>` (`83-87`) -/
def Span.new (start stop : Nat) : Span := ⟨start, stop⟩

/-- `AsRef<str>` and `Display for SpannedString` (`/repo/src/util.rs:132-142`) -/
def SpannedString.display (s : SpannedString) : Str := s.content

namespace BreakableStringComponent

/-- `From<((usize, usize), &str)>` (`/repo/src/util.rs:157-166`) -/
def ofTuple (start stop : Nat) (content : Str) : BreakableStringComponent :=
  .string { span := Span.new start stop, content }

end BreakableStringComponent

namespace BreakableString

/-- `/repo/src/util.rs:207-212` -/
def new (span : Span) : BreakableString := { span, components := [] }

/-- `/repo/src/util.rs:214-218` -/
def add (b : BreakableString) (c : BreakableStringComponent) : BreakableString :=
  { b with components := b.components ++ [c] }

/-- `/repo/src/util.rs:220-227` -/
def addString (b : BreakableString) (span : Span) (content : Str) : BreakableString :=
  { b with components := b.components ++ [.string { span, content }] }

/-- `/repo/src/util.rs:229-236` -/
def addComment (b : BreakableString) (span : Span) (content : Str) : BreakableString :=
  { b with components := b.components ++ [.comment { span, content }] }

/-- `/repo/src/util.rs:238-240` -/
def iterComponents (b : BreakableString) : List BreakableStringComponent := b.components

/-- `From<((usize, usize), &str)>` (`/repo/src/util.rs:243-250`) -/
def ofTuple (start stop : Nat) (content : Str) : BreakableString :=
  (new (Span.new start stop)).addString (Span.new start stop) content

end BreakableString

/-- `EnvVar::new` (`/repo/src/instructions/env.rs:23-29`) -/
def EnvVar.new (span : Span) (key : SpannedString) (value : BreakableString) : EnvVar := { span, key, value }

/-- `Label::new` (`/repo/src/instructions/label.rs:23-30`) -/
def Label.new (span : Span) (name value : SpannedString) : Label := { span, name, value }

/-! ## comparing -/

/-- `Ord for [T]` -/
def lexList {α : Type} (cmp : α → α → Ordering) : List α → List α → Ordering
  | [], [] => .eq
  | [], _ :: _ => .lt
  | _ :: _, [] => .gt
  | a :: as, b :: bs => (cmp a b).then (lexList cmp as bs)

/-- `Ord for u8` -/
def byteCmp (a b : UInt8) : Ordering := compare a.toNat b.toNat

/-- `Ord for str`: byte by byte -/
def strCmp (a b : Str) : Ordering := lexList byteCmp (bytes a) (bytes b)

/-- derived (`/repo/src/splicer.rs:17`) -/
def Span.cmp (a b : Span) : Ordering := (compare a.start b.start).then (compare a.stop b.stop)

/-- derived (`/repo/src/util.rs:126`) -/
def SpannedString.cmp (a b : SpannedString) : Ordering := (a.span.cmp b.span).then (strCmp a.content b.content)

/-- derived (`/repo/src/util.rs:119`) -/
def SpannedComment.cmp (a b : SpannedComment) : Ordering := (a.span.cmp b.span).then (strCmp a.content b.content)

/-- derived (`/repo/src/util.rs:145`): first by the variant, in the order of the declaration -/
def BreakableStringComponent.cmp : BreakableStringComponent → BreakableStringComponent → Ordering
  | .string a, .string b => a.cmp b
  | .string _, .comment _ => .lt
  | .comment _, .string _ => .gt
  | .comment a, .comment b => a.cmp b

/-- derived (`/repo/src/util.rs:186`) -/
def BreakableString.cmp (a b : BreakableString) : Ordering :=
  (a.span.cmp b.span).then (lexList BreakableStringComponent.cmp a.components b.components)

/-- derived (`/repo/src/util.rs:106`) -/
def StringArray.cmp (a b : StringArray) : Ordering :=
  (a.span.cmp b.span).then (lexList SpannedString.cmp a.elements b.elements)

end Verif
