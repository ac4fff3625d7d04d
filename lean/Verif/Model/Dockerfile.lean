import Verif.Model.Grammar
import Verif.Model.Records

/-!
# `/repo/src/dockerfile_parser.rs`
-/

namespace Verif

/-- State of the loop of `parse_dockerfile` (`/repo/src/dockerfile_parser.rs:322-325`). -/
structure LoopState where
  instructions : List Instruction
  globalArgs : List ArgInstruction
  fromFound : Bool
  fromIndex : Nat

/-- Loop body of `parse_dockerfile` after a successful `try_from`
(`/repo/src/dockerfile_parser.rs:338-355`). -/
def loopStep (st : LoopState) (ins : Instruction) : LoopState :=
  match ins with
  | .from f =>
    { instructions := st.instructions ++ [.from { f with index := st.fromIndex }]
      globalArgs := st.globalArgs
      fromFound := true
      fromIndex := st.fromIndex + 1 }
  | .arg a =>
    { st with
      instructions := st.instructions ++ [.arg a]
      globalArgs := if st.fromFound then st.globalArgs else st.globalArgs ++ [a] }
  | other => { st with instructions := st.instructions ++ [other] }

/-- The loop of `parse_dockerfile` (`/repo/src/dockerfile_parser.rs:327-356`). -/
def recordLoop (unq : Unquote) : List Tok → LoopState → Result LoopState
  | [], st => .ok st
  | record :: rs, st =>
    match record.rule with
    | .EOI => recordLoop unq rs st
    | .comment => recordLoop unq rs st
    | _ => do
      let ins ← instructionOf unq record
      recordLoop unq rs (loopStep st ins)

/-- `parse_dockerfile` / `Dockerfile::parse` (`/repo/src/dockerfile_parser.rs:316-362,366-368`). -/
def Dockerfile.parse (unq : Unquote) (input : Str) : Result Dockerfile :=
  match Verif.parse G.dockerfile false 0 input with
  | none => .error (.err .parseError)
  | some (_, _, []) => .error (.err .unknownParseError)
  | some (_, _, dockerfile :: _) => do
    let st ← recordLoop unq dockerfile.children
      { instructions := [], globalArgs := [], fromFound := false, fromIndex := 0 }
    return { content := input, global_args := st.globalArgs, instructions := st.instructions }

/-- `Dockerfile::get_global_arg` (`/repo/src/dockerfile_parser.rs:401-416`) -/
def getGlobalArgLoop (name : Str) : List Instruction → Option ArgInstruction
  | [] => none
  | .arg a :: rest => if a.name.content = name then some a else getGlobalArgLoop name rest
  | _ :: _ => none

/-- `Dockerfile::get_global_arg` (`/repo/src/dockerfile_parser.rs:401-416`) -/
def Dockerfile.getGlobalArg (d : Dockerfile) (name : Str) : Option ArgInstruction :=
  getGlobalArgLoop name d.instructions

/-- `FromStr for Dockerfile` (`/repo/src/dockerfile_parser.rs:419-425`) -/
def Dockerfile.fromStr (unq : Unquote) (s : Str) : Result Dockerfile := Dockerfile.parse unq s

/-! ## `from_reader` -/

/-- What one call of `Read::read` may do: deliver some bytes (an empty delivery is end of file),
fail with `ErrorKind::Interrupted`, or fail with another I/O error. -/
inductive ReadEvent where
  | data (bs : List UInt8)
  | interrupted
  | failed
  deriving DecidableEq, Repr

/-- `Read::read_to_end` as used by `read_to_string`: accumulate until end of file, retrying
interrupted reads.  The reader is the list of the outcomes of its successive `read` calls, end of
file after the list is exhausted.  `BufReader`'s internal buffer is not modelled. -/
def readToEnd : List ReadEvent → List UInt8 → Option (List UInt8)
  | [], acc => some acc
  | .data [] :: _, acc => some acc
  | .data (b :: bs) :: es, acc => readToEnd es (acc ++ b :: bs)
  | .interrupted :: es, acc => readToEnd es acc
  | .failed :: _, _ => none

/-- `String::from_utf8` as the decoding of the collected bytes. -/
def decodeUtf8 (bs : List UInt8) : Option Str :=
  (String.fromUTF8? ⟨bs.toArray⟩).map String.toList

/-- `Dockerfile::from_reader` (`/repo/src/dockerfile_parser.rs:371-380`) -/
def Dockerfile.fromReader (unq : Unquote) (reader : List ReadEvent) : Result Dockerfile :=
  match readToEnd reader [] with
  | none => .error (.err .readError)
  | some bs =>
    match decodeUtf8 bs with
    | none => .error (.err .readError)
    | some s => Dockerfile.parse unq s

/-! ## accessors of `Instruction` (`/repo/src/dockerfile_parser.rs:48-225`)

`into_x` differ only in ownership and are in `Model/Accessors`; the `TryFrom` impls
in `/repo/src/instructions/*.rs` return the same payload with a `ConversionError` instead of
`None`. -/

namespace Instruction

/-- `as_from` (and `into_from`, see `Model/Accessors`) (:51-65) -/
def asFrom : Instruction → Option FromInstruction | .from f => some f | _ => none
/-- `as_arg` (and `into_arg`, see `Model/Accessors`) (:69-83) -/
def asArg : Instruction → Option ArgInstruction | .arg a => some a | _ => none
/-- `as_label` (and `into_label`, see `Model/Accessors`) (:87-101) -/
def asLabel : Instruction → Option LabelInstruction | .label l => some l | _ => none
/-- `as_run` (and `into_run`, see `Model/Accessors`) (:105-119) -/
def asRun : Instruction → Option ExecInstruction | .run r => some r | _ => none
/-- `as_entrypoint` (and `into_entrypoint`, see `Model/Accessors`) (:123-137) -/
def asEntrypoint : Instruction → Option ExecInstruction | .entrypoint e => some e | _ => none
/-- `as_cmd` (and `into_cmd`, see `Model/Accessors`) (:141-155) -/
def asCmd : Instruction → Option ExecInstruction | .cmd c => some c | _ => none
/-- `as_copy` (and `into_copy`, see `Model/Accessors`) (:159-173) -/
def asCopy : Instruction → Option CopyInstruction | .copy c => some c | _ => none
/-- `as_env` (and `into_env`, see `Model/Accessors`) (:177-191) -/
def asEnv : Instruction → Option EnvInstruction | .env e => some e | _ => none
/-- `as_misc` (and `into_misc`, see `Model/Accessors`) (:195-209) -/
def asMisc : Instruction → Option MiscInstruction | .misc m => some m | _ => none

/-- `TryFrom<&Instruction> for &FromInstruction` (`from.rs:134-147`) and its seven siblings: the
accessor's payload or a `ConversionError`. -/
def tryInto {α : Type} (acc : Instruction → Option α) (i : Instruction) : Result α :=
  match acc i with
  | some a => .ok a
  | none => .error (.err .conversion)

/-- `Instruction::span` (:212-224) -/
def span : Instruction → Span
  | .from i => i.span
  | .arg i => i.span
  | .label i => i.span
  | .run i => i.span
  | .entrypoint i => i.span
  | .cmd i => i.span
  | .copy i => i.span
  | .env i => i.span
  | .misc i => i.span

end Instruction

/-! ## accessors of `ShellOrExecExpr` and `StringArray` (`/repo/src/util.rs:63-116`) -/

/-- `as_shell` (and `into_shell`, see `Model/Accessors`) (`/repo/src/util.rs:66-82`) -/
def ShellOrExecExpr.asShell : ShellOrExecExpr → Option BreakableString
  | .shell s => some s
  | .exec _ => none
/-- `as_exec` (and `into_exec`, see `Model/Accessors`) (`/repo/src/util.rs:86-102`) -/
def ShellOrExecExpr.asExec : ShellOrExecExpr → Option StringArray
  | .shell _ => none
  | .exec a => some a
/-- `StringArray::as_str_vec` (`/repo/src/util.rs:113-115`) -/
def StringArray.asStrVec (a : StringArray) : List Str := a.elements.map (·.content)

end Verif
