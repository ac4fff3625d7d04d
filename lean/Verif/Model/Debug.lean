import Verif.Model.Dockerfile
import Verif.Model.Stage
import Verif.Model.PestError

/-!
# `Debug` output and the texts of errors

`Debug` is derived for all public types except `Span` (`/repo/src/splicer.rs:95-102`).  The format
`{:?}` of derived implementations, of `Option`, `Vec`, `usize` and `String` is that of `std`.  Which
characters `String` shows as they are depends on Unicode tables of `std`, which are a parameter
(`plain`).
-/

namespace Verif

/-! ## `std` -/

/-- a hexadecimal digit, in lower case -/
def hexDigit (n : Nat) : Char := if n < 10 then Char.ofNat (48 + n) else Char.ofNat (87 + n)

def hexUpTo : Nat → Nat → Str
  | 0, n => [hexDigit (n % 16)]
  | k + 1, n => if n < 16 then [hexDigit n] else hexUpTo k (n / 16) ++ [hexDigit (n % 16)]

/-- `{:x}` -/
def hex (n : Nat) : Str := hexUpTo n n

/-- `char::escape_debug_ext`, without escaping single quotes -/
def escapeChar (plain : Char → Bool) (c : Char) : Str :=
  if c = '\x00' then ['\\', '0']
  else if c = '\t' then ['\\', 't']
  else if c = '\r' then ['\\', 'r']
  else if c = '\n' then ['\\', 'n']
  else if c = '"' ∨ c = '\\' then ['\\', c]
  else if plain c then [c]
  else ['\\', 'u', '{'] ++ hex c.toNat ++ ['}']

/-- `Debug for str` -/
def debugStr (plain : Char → Bool) (s : Str) : Str := '"' :: (s.flatMap (escapeChar plain) ++ ['"'])

/-- texts, separated by commas -/
def commas : List Str → Str
  | [] => []
  | [t] => t
  | t :: u :: ts => t ++ c!", " ++ commas (u :: ts)

/-- `f.debug_struct(name).field(…)….finish()` -/
def debugStruct (name : Str) (fields : List (Str × Str)) : Str :=
  name ++ c!" { " ++ commas (fields.map fun x => x.1 ++ c!": " ++ x.2) ++ c!" }"

/-- `f.debug_tuple(name).field(…)….finish()` with at least two fields, or one and a name -/
def debugTuple (name : Str) (fields : List Str) : Str := name ++ c!"(" ++ commas fields ++ c!")"

/-- `Debug for Vec` -/
def debugList (ts : List Str) : Str := c!"[" ++ commas ts ++ c!"]"

/-- `Debug for Option` -/
def debugOption : Option Str → Str
  | none => c!"None"
  | some t => debugTuple c!"Some" [t]

/-! ## the types of the crate -/

variable (plain : Char → Bool)

/-- `/repo/src/splicer.rs:95-102` -/
def Span.debug (s : Span) : Str := debugTuple [] [decimal s.start, decimal s.stop]

/-- `/repo/src/util.rs:126-130` -/
def SpannedString.debug (s : SpannedString) : Str :=
  debugStruct c!"SpannedString" [(c!"span", s.span.debug), (c!"content", debugStr plain s.content)]

/-- `/repo/src/util.rs:119-123` -/
def SpannedComment.debug (s : SpannedComment) : Str :=
  debugStruct c!"SpannedComment" [(c!"span", s.span.debug), (c!"content", debugStr plain s.content)]

/-- `/repo/src/util.rs:145-149` -/
def BreakableStringComponent.debug : BreakableStringComponent → Str
  | .string s => debugTuple c!"String" [s.debug plain]
  | .comment c => debugTuple c!"Comment" [c.debug plain]

/-- `/repo/src/util.rs:186-190` -/
def BreakableString.debug (b : BreakableString) : Str :=
  debugStruct c!"BreakableString" [(c!"span", b.span.debug),
    (c!"components", debugList (b.components.map (·.debug plain)))]

/-- `/repo/src/util.rs:106-110` -/
def StringArray.debug (a : StringArray) : Str :=
  debugStruct c!"StringArray" [(c!"span", a.span.debug),
    (c!"elements", debugList (a.elements.map (·.debug plain)))]

/-- `/repo/src/util.rs:57-61` -/
def ShellOrExecExpr.debug : ShellOrExecExpr → Str
  | .shell s => debugTuple c!"Shell" [s.debug plain]
  | .exec a => debugTuple c!"Exec" [a.debug plain]

/-- `/repo/src/image.rs:25-39` -/
def ImageRef.debug (i : ImageRef) : Str :=
  debugStruct c!"ImageRef" [(c!"registry", debugOption (i.registry.map (debugStr plain))),
    (c!"image", debugStr plain i.image), (c!"tag", debugOption (i.tag.map (debugStr plain))),
    (c!"hash", debugOption (i.hash.map (debugStr plain)))]

/-- `FromFlag` and `CopyFlag` (`/repo/src/instructions/from.rs:19-24`, `copy.rs:16-21`) -/
def Flag.debug (name : Str) (f : Flag) : Str :=
  debugStruct name [(c!"span", f.span.debug), (c!"name", f.name.debug plain),
    (c!"value", f.value.debug plain)]

/-- `/repo/src/instructions/from.rs:61-70` -/
def FromInstruction.debug (i : FromInstruction) : Str :=
  debugStruct c!"FromInstruction" [(c!"span", i.span.debug),
    (c!"flags", debugList (i.flags.map (·.debug plain c!"FromFlag"))),
    (c!"image", i.image.debug plain), (c!"image_parsed", i.image_parsed.debug plain),
    (c!"index", decimal i.index), (c!"alias", debugOption (i.alias.map (·.debug plain)))]

/-- `/repo/src/instructions/arg.rs:15-29` -/
def ArgInstruction.debug (i : ArgInstruction) : Str :=
  debugStruct c!"ArgInstruction" [(c!"span", i.span.debug), (c!"name", i.name.debug plain),
    (c!"value", debugOption (i.value.map (·.debug plain)))]

/-- `/repo/src/instructions/label.rs:15-20` -/
def Label.debug (l : Label) : Str :=
  debugStruct c!"Label" [(c!"span", l.span.debug), (c!"name", l.name.debug plain),
    (c!"value", l.value.debug plain)]

/-- `/repo/src/instructions/label.rs:83-87` -/
def LabelInstruction.debug (i : LabelInstruction) : Str :=
  debugStruct c!"LabelInstruction" [(c!"span", i.span.debug),
    (c!"labels", debugList (i.labels.map (·.debug plain)))]

/-- `RunInstruction`, `CmdInstruction` and `EntrypointInstruction`
(`/repo/src/instructions/run.rs:17-21`, `cmd.rs:17-21`, `entrypoint.rs:17-21`) -/
def ExecInstruction.debug (name : Str) (i : ExecInstruction) : Str :=
  debugStruct name [(c!"span", i.span.debug), (c!"expr", i.expr.debug plain)]

/-- `/repo/src/instructions/copy.rs:54-60` -/
def CopyInstruction.debug (i : CopyInstruction) : Str :=
  debugStruct c!"CopyInstruction" [(c!"span", i.span.debug),
    (c!"flags", debugList (i.flags.map (·.debug plain c!"CopyFlag"))),
    (c!"sources", debugList (i.sources.map (·.debug plain))),
    (c!"destination", i.destination.debug plain)]

/-- `/repo/src/instructions/env.rs:15-20` -/
def EnvVar.debug (v : EnvVar) : Str :=
  debugStruct c!"EnvVar" [(c!"span", v.span.debug), (c!"key", v.key.debug plain),
    (c!"value", v.value.debug plain)]

/-- `/repo/src/instructions/env.rs:35-39` -/
def EnvInstruction.debug (i : EnvInstruction) : Str :=
  debugStruct c!"EnvInstruction" [(c!"span", i.span.debug),
    (c!"vars", debugList (i.vars.map (·.debug plain)))]

/-- `/repo/src/instructions/misc.rs:18-23` -/
def MiscInstruction.debug (i : MiscInstruction) : Str :=
  debugStruct c!"MiscInstruction" [(c!"span", i.span.debug),
    (c!"instruction", i.instruction.debug plain), (c!"arguments", i.arguments.debug plain)]

/-- `/repo/src/dockerfile_parser.rs:35-46` -/
def Instruction.debug : Instruction → Str
  | .from i => debugTuple c!"From" [i.debug plain]
  | .arg i => debugTuple c!"Arg" [i.debug plain]
  | .label i => debugTuple c!"Label" [i.debug plain]
  | .run i => debugTuple c!"Run" [i.debug plain c!"RunInstruction"]
  | .entrypoint i => debugTuple c!"Entrypoint" [i.debug plain c!"EntrypointInstruction"]
  | .cmd i => debugTuple c!"Cmd" [i.debug plain c!"CmdInstruction"]
  | .copy i => debugTuple c!"Copy" [i.debug plain]
  | .env i => debugTuple c!"Env" [i.debug plain]
  | .misc i => debugTuple c!"Misc" [i.debug plain]

/-- `/repo/src/dockerfile_parser.rs:304-314` -/
def Dockerfile.debug (d : Dockerfile) : Str :=
  debugStruct c!"Dockerfile" [(c!"content", debugStr plain d.content),
    (c!"global_args", debugList (d.global_args.map (·.debug plain))),
    (c!"instructions", debugList (d.instructions.map (·.debug plain)))]

/-! ## errors -/

/-- the messages of `GenericParseError`: `/repo/src/error.rs:60`, `from.rs:41,45,98,108,111`,
`arg.rs:50`, `label.rs:67,71`, `copy.rs:38,42,80`, `env.rs:67,71,131,135`, `misc.rs:40,44` -/
def Msg.text : Msg → Str
  | .unexpectedToken r => c!"unexpected token " ++ Pest.ruleName r
  | .fromFlagKey => c!"from flags require a key"
  | .fromFlagValue => c!"from flags require a value"
  | .missingFromImage => c!"missing from image"
  | .digestInvalid => c!"image reference digest is invalid"
  | .argName => c!"arg name is required"
  | .labelName => c!"label name is required"
  | .labelValue => c!"label value is required"
  | .copyFlagKey => c!"copy flags require a key"
  | .copyFlagValue => c!"copy flags require a value"
  | .copyPaths => c!"copy requires at least one source and a destination"
  | .envPairKey => c!"env pair requires a key"
  | .envPairValue => c!"env pair requires a value"
  | .envKey => c!"env requires a key"
  | .envValue => c!"env requires a value"
  | .miscName => c!"generic instructions require a name"
  | .miscArguments => c!"generic instructions require arguments"

/-- `Debug for enquote::Error` (external crate) -/
def UnquoteError.debug : UnquoteError → Str
  | .notEnoughChars => c!"NotEnoughChars"
  | .unrecognizedQuotes => c!"UnrecognizedQuotes"
  | .unmatchedQuotes => c!"UnmatchedQuotes"
  | .illegalChar => c!"IllegalChar"
  | .unexpectedEof => c!"UnexpectedEOF"
  | .unrecognizedEscape => c!"UnrecognizedEscape"
  | .invalidUnicode => c!"InvalidUnicode"

/-- `Error` with its payloads (`/repo/src/error.rs:9-52`); the `io::Error` is the text it shows. -/
inductive FullError where
  | parse (source : Pest.PestError)
  | generic (message : Str)
  | unescape (source : UnquoteError)
  | unknown
  | read (source : Str)
  | conversion («from» to : Str)

/-- `Display for Error` (`/repo/src/error.rs:12-49`); `none`: pest's text cannot be made -/
def FullError.display : FullError → Option Str
  | .parse e => e.display.map (c!"could not parse Dockerfile: " ++ ·)
  | .generic m => some (c!"unable to parse Dockerfile: " ++ m)
  | .unescape e => some (c!"error unescaping string: " ++ e.debug)
  | .unknown => some c!"unable to parse Dockerfile"
  | .read t => some (c!"could not read Dockerfile: " ++ t)
  | .conversion f t => some (c!"could not convert instruction '" ++ debugStr plain f ++
      c!"' to desired type '" ++ t ++ c!"'")

/-- The `TryFrom` implementations, by the name of the type: `/repo/src/instructions/from.rs:134-147`,
`arg.rs:62-75`, `label.rs:110-123`, `run.rs:66-79`, `entrypoint.rs:66-79`, `cmd.rs:66-79`,
`copy.rs:96-109`, `env.rs:149-162`, `misc.rs:54-67` -/
def Instruction.tryFrom {α : Type} (acc : Instruction → Option α) (to : Str) (i : Instruction) :
    Except FullError α :=
  match acc i with
  | some a => .ok a
  | none => .error (.conversion (i.debug plain) to)

/-- `TryFrom<&Instruction> for &FromInstruction` (`from.rs:134-147`) -/
def Instruction.tryFromFrom := Instruction.tryFrom plain asFrom c!"FromInstruction"
/-- `arg.rs:62-75` -/
def Instruction.tryFromArg := Instruction.tryFrom plain asArg c!"ArgInstruction"
/-- `label.rs:110-123` -/
def Instruction.tryFromLabel := Instruction.tryFrom plain asLabel c!"LabelInstruction"
/-- `run.rs:66-79` -/
def Instruction.tryFromRun := Instruction.tryFrom plain asRun c!"RunInstruction"
/-- `TryFrom<Instruction> for EntrypointInstruction` (`entrypoint.rs:66-79`) -/
def Instruction.tryFromEntrypoint :=
  Instruction.tryFrom plain asEntrypoint c!"EntrypointInstruction"
/-- `cmd.rs:66-79` -/
def Instruction.tryFromCmd := Instruction.tryFrom plain asCmd c!"CmdInstruction"
/-- `copy.rs:96-109` -/
def Instruction.tryFromCopy := Instruction.tryFrom plain asCopy c!"CopyInstruction"
/-- `env.rs:149-162` -/
def Instruction.tryFromEnv := Instruction.tryFrom plain asEnv c!"EnvInstruction"
/-- `misc.rs:54-67` -/
def Instruction.tryFromMisc := Instruction.tryFrom plain asMisc c!"MiscInstruction"

end Verif
