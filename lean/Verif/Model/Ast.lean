import Verif.Model.Peg

/-!
# Public data types
-/

namespace Verif

/-- `/repo/src/splicer.rs:16-21` -/
structure Span where
  start : Nat
  stop : Nat
  deriving DecidableEq, Repr

/-- `/repo/src/util.rs:125-130` -/
structure SpannedString where
  span : Span
  content : Str
  deriving DecidableEq, Repr

/-- `/repo/src/util.rs:118-123` -/
structure SpannedComment where
  span : Span
  content : Str
  deriving DecidableEq, Repr

/-- `/repo/src/util.rs:144-149` -/
inductive BreakableStringComponent where
  | string (s : SpannedString)
  | comment (c : SpannedComment)
  deriving DecidableEq, Repr

/-- `/repo/src/util.rs:186-190` -/
structure BreakableString where
  span : Span
  components : List BreakableStringComponent
  deriving DecidableEq, Repr

/-- `/repo/src/util.rs:105-110` -/
structure StringArray where
  span : Span
  elements : List SpannedString
  deriving DecidableEq, Repr

/-- `/repo/src/util.rs:56-61` -/
inductive ShellOrExecExpr where
  | shell (s : BreakableString)
  | exec (a : StringArray)
  deriving DecidableEq, Repr

/-- `/repo/src/image.rs:25-39` -/
structure ImageRef where
  registry : Option Str
  image : Str
  tag : Option Str
  hash : Option Str
  deriving DecidableEq, Repr

/-- `FromFlag` (`/repo/src/instructions/from.rs:19-24`) and `CopyFlag`
(`/repo/src/instructions/copy.rs:16-21`), which have the same fields. -/
structure Flag where
  span : Span
  name : SpannedString
  value : SpannedString
  deriving DecidableEq, Repr

/-- `/repo/src/instructions/from.rs:61-70` -/
structure FromInstruction where
  span : Span
  flags : List Flag
  image : SpannedString
  image_parsed : ImageRef
  index : Nat
  alias : Option SpannedString
  deriving DecidableEq, Repr

/-- `/repo/src/instructions/arg.rs:15-29` -/
structure ArgInstruction where
  span : Span
  name : SpannedString
  value : Option SpannedString
  deriving DecidableEq, Repr

/-- `/repo/src/instructions/label.rs:15-20` -/
structure Label where
  span : Span
  name : SpannedString
  value : SpannedString
  deriving DecidableEq, Repr

/-- `/repo/src/instructions/label.rs:83-87` -/
structure LabelInstruction where
  span : Span
  labels : List Label
  deriving DecidableEq, Repr

/-- `/repo/src/instructions/run.rs:17-21`, `cmd.rs:17-21`, `entrypoint.rs:17-21` (three Rust types
with the same fields; which one it is is recorded by the `Instruction` constructor). -/
structure ExecInstruction where
  span : Span
  expr : ShellOrExecExpr
  deriving DecidableEq, Repr

/-- `/repo/src/instructions/copy.rs:54-60` -/
structure CopyInstruction where
  span : Span
  flags : List Flag
  sources : List SpannedString
  destination : SpannedString
  deriving DecidableEq, Repr

/-- `/repo/src/instructions/env.rs:15-20` -/
structure EnvVar where
  span : Span
  key : SpannedString
  value : BreakableString
  deriving DecidableEq, Repr

/-- `/repo/src/instructions/env.rs:35-39` -/
structure EnvInstruction where
  span : Span
  vars : List EnvVar
  deriving DecidableEq, Repr

/-- `/repo/src/instructions/misc.rs:18-23` -/
structure MiscInstruction where
  span : Span
  instruction : SpannedString
  arguments : BreakableString
  deriving DecidableEq, Repr

/-- `/repo/src/dockerfile_parser.rs:35-46` -/
inductive Instruction where
  | from (i : FromInstruction)
  | arg (i : ArgInstruction)
  | label (i : LabelInstruction)
  | run (i : ExecInstruction)
  | entrypoint (i : ExecInstruction)
  | cmd (i : ExecInstruction)
  | copy (i : CopyInstruction)
  | env (i : EnvInstruction)
  | misc (i : MiscInstruction)
  deriving DecidableEq, Repr

/-- `/repo/src/dockerfile_parser.rs:304-314` -/
structure Dockerfile where
  content : Str
  global_args : List ArgInstruction
  instructions : List Instruction
  deriving DecidableEq, Repr

/-- `enquote::Error` (external crate), the variants of `unquote`. -/
inductive UnquoteError where
  | notEnoughChars | unrecognizedQuotes | unmatchedQuotes | illegalChar | unexpectedEof
  | unrecognizedEscape | invalidUnicode
  deriving DecidableEq, Repr

/-- The messages of `Error::GenericParseError` (`/repo/src/error.rs:20-22`); the model keeps the
message symbolic.  Sources: `error.rs:56-61`, `from.rs:41,45,98,108,111`, `arg.rs:50`,
`label.rs:67,71`, `copy.rs:38,42,80`, `env.rs:67,71,131,135`, `misc.rs:40,44`. -/
inductive Msg where
  | unexpectedToken (r : Rule)
  | fromFlagKey | fromFlagValue | missingFromImage | digestInvalid
  | argName | labelName | labelValue | copyFlagKey | copyFlagValue | copyPaths
  | envPairKey | envPairValue | envKey | envValue | miscName | miscArguments
  deriving DecidableEq, Repr

/-- `/repo/src/error.rs:9-52`.  `ParseError`'s pest payload (line/column report) and `ReadError`'s
`io::Error` are not modelled. -/
inductive Error where
  | parseError
  | generic (m : Msg)
  | unescape (e : UnquoteError)
  | unknownParseError
  | readError
  | conversion
  deriving DecidableEq, Repr

/-- How a Rust call may fail to produce a value: it returned `Err(e)`, or it panicked. -/
inductive Fault where
  | err (e : Error)
  | panic
  deriving DecidableEq, Repr

/-- Result of a fallible Rust function: a value, an `Err`, or a panic. -/
abbrev Result (α : Type) := Except Fault α

deriving instance DecidableEq for Except

end Verif
