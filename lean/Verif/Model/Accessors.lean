import Verif.Model.Examples

/-!
# The remaining public functions

The accessors that take ownership, the conversions `From`, the accessors of `RunInstruction`,
`CmdInstruction` and `EntrypointInstruction` (one record type in this model), iterating over stages,
and `Debug` of stages.
-/

namespace Verif

namespace Instruction

/-- `into_from` (`/repo/src/dockerfile_parser.rs:51-57`) -/
def intoFrom : Instruction → Option FromInstruction | .from f => some f | _ => none
/-- `into_arg` (`/repo/src/dockerfile_parser.rs:69-75`) -/
def intoArg : Instruction → Option ArgInstruction | .arg a => some a | _ => none
/-- `into_label` (`/repo/src/dockerfile_parser.rs:87-93`) -/
def intoLabel : Instruction → Option LabelInstruction | .label l => some l | _ => none
/-- `into_run` (`/repo/src/dockerfile_parser.rs:105-111`) -/
def intoRun : Instruction → Option ExecInstruction | .run r => some r | _ => none
/-- `into_entrypoint` (`/repo/src/dockerfile_parser.rs:123-129`) -/
def intoEntrypoint : Instruction → Option ExecInstruction | .entrypoint e => some e | _ => none
/-- `into_cmd` (`/repo/src/dockerfile_parser.rs:141-147`) -/
def intoCmd : Instruction → Option ExecInstruction | .cmd c => some c | _ => none
/-- `into_copy` (`/repo/src/dockerfile_parser.rs:159-165`) -/
def intoCopy : Instruction → Option CopyInstruction | .copy c => some c | _ => none
/-- `into_env` (`/repo/src/dockerfile_parser.rs:177-183`) -/
def intoEnv : Instruction → Option EnvInstruction | .env e => some e | _ => none
/-- `into_misc` (`/repo/src/dockerfile_parser.rs:195-201`) -/
def intoMisc : Instruction → Option MiscInstruction | .misc m => some m | _ => none

/-- `From<FromInstruction>` (`/repo/src/dockerfile_parser.rs:229-237,239`) -/
def ofFrom (i : FromInstruction) : Instruction := .from i
/-- `From<ArgInstruction>` (`/repo/src/dockerfile_parser.rs:229-237,240`) -/
def ofArg (i : ArgInstruction) : Instruction := .arg i
/-- `From<LabelInstruction>` (`/repo/src/dockerfile_parser.rs:229-237,241`) -/
def ofLabel (i : LabelInstruction) : Instruction := .label i
/-- `From<RunInstruction>` (`/repo/src/dockerfile_parser.rs:229-237,242`) -/
def ofRun (i : ExecInstruction) : Instruction := .run i
/-- `From<EntrypointInstruction>` (`/repo/src/dockerfile_parser.rs:229-237,243`) -/
def ofEntrypoint (i : ExecInstruction) : Instruction := .entrypoint i
/-- `From<CmdInstruction>` (`/repo/src/dockerfile_parser.rs:229-237,244`) -/
def ofCmd (i : ExecInstruction) : Instruction := .cmd i
/-- `From<CopyInstruction>` (`/repo/src/dockerfile_parser.rs:229-237,245`) -/
def ofCopy (i : CopyInstruction) : Instruction := .copy i
/-- `From<EnvInstruction>` (`/repo/src/dockerfile_parser.rs:229-237,246`) -/
def ofEnv (i : EnvInstruction) : Instruction := .env i
/-- `From<MiscInstruction>` (`/repo/src/dockerfile_parser.rs:229-237,247`) -/
def ofMisc (i : MiscInstruction) : Instruction := .misc i

end Instruction

/-- `From<SpannedString>` (`/repo/src/util.rs:151-155`) -/
def BreakableStringComponent.ofString (s : SpannedString) : BreakableStringComponent := .string s

/-- `From<SpannedComment>` (`/repo/src/util.rs:168-172`) -/
def BreakableStringComponent.ofComment (c : SpannedComment) : BreakableStringComponent := .comment c

/-- `into_shell` (`/repo/src/util.rs:66-72`) -/
def ShellOrExecExpr.intoShell : ShellOrExecExpr → Option BreakableString
  | .shell s => some s
  | .exec _ => none

/-- `into_exec` (`/repo/src/util.rs:86-92`) -/
def ShellOrExecExpr.intoExec : ShellOrExecExpr → Option StringArray
  | .shell _ => none
  | .exec a => some a

/-- `RunInstruction::into_shell` (`/repo/src/instructions/run.rs:43-45`) -/
def RunInstruction.intoShell (i : ExecInstruction) : Option BreakableString := i.expr.intoShell
/-- `RunInstruction::as_shell` (`/repo/src/instructions/run.rs:49-51`) -/
def RunInstruction.asShell (i : ExecInstruction) : Option BreakableString := i.expr.asShell
/-- `RunInstruction::into_exec` (`/repo/src/instructions/run.rs:55-57`) -/
def RunInstruction.intoExec (i : ExecInstruction) : Option StringArray := i.expr.intoExec
/-- `RunInstruction::as_exec` (`/repo/src/instructions/run.rs:61-63`) -/
def RunInstruction.asExec (i : ExecInstruction) : Option StringArray := i.expr.asExec
/-- `CmdInstruction::into_shell` (`/repo/src/instructions/cmd.rs:43-45`) -/
def CmdInstruction.intoShell (i : ExecInstruction) : Option BreakableString := i.expr.intoShell
/-- `CmdInstruction::as_shell` (`/repo/src/instructions/cmd.rs:49-51`) -/
def CmdInstruction.asShell (i : ExecInstruction) : Option BreakableString := i.expr.asShell
/-- `CmdInstruction::into_exec` (`/repo/src/instructions/cmd.rs:55-57`) -/
def CmdInstruction.intoExec (i : ExecInstruction) : Option StringArray := i.expr.intoExec
/-- `CmdInstruction::as_exec` (`/repo/src/instructions/cmd.rs:61-63`) -/
def CmdInstruction.asExec (i : ExecInstruction) : Option StringArray := i.expr.asExec
/-- `EntrypointInstruction::into_shell` (`/repo/src/instructions/entrypoint.rs:43-45`) -/
def EntrypointInstruction.intoShell (i : ExecInstruction) : Option BreakableString := i.expr.intoShell
/-- `EntrypointInstruction::as_shell` (`/repo/src/instructions/entrypoint.rs:49-51`) -/
def EntrypointInstruction.asShell (i : ExecInstruction) : Option BreakableString := i.expr.asShell
/-- `EntrypointInstruction::into_exec` (`/repo/src/instructions/entrypoint.rs:55-57`) -/
def EntrypointInstruction.intoExec (i : ExecInstruction) : Option StringArray := i.expr.intoExec
/-- `EntrypointInstruction::as_exec` (`/repo/src/instructions/entrypoint.rs:61-63`) -/
def EntrypointInstruction.asExec (i : ExecInstruction) : Option StringArray := i.expr.asExec

/-- `Stages::iter` (`/repo/src/stage.rs:185-187`) -/
def stagesIter (stages : List Stage) : List Stage := stages

/-- `IntoIterator for Stages` (`/repo/src/stage.rs:198-205`) -/
def stagesIntoIter (stages : List Stage) : List Stage := stages

/-- `Dockerfile::iter_stages` (`/repo/src/dockerfile_parser.rs:387-389`); `none`: a panic -/
def Dockerfile.iterStages (d : Dockerfile) : Option (List Stage) := d.stages.map stagesIntoIter

/-- `Debug for Stage`, derived (`/repo/src/stage.rs:45-64`) -/
def Stage.debug (plain : Char → Bool) (s : Stage) : Str :=
  debugStruct c!"Stage" [(c!"index", decimal s.index), (c!"name", debugOption (s.name.map (debugStr plain))),
    (c!"instructions", debugList (s.instructions.map (·.debug plain))),
    (c!"parent", s.parent.debug plain), (c!"root", s.root.debug plain)]

/-- `Debug for Stages`, derived (`/repo/src/stage.rs:118-121`) -/
def stagesDebug (plain : Char → Bool) (stages : List Stage) : Str :=
  debugStruct c!"Stages" [(c!"stages", debugList (stages.map (·.debug plain)))]

end Verif
