import Verif.Model.Debug
import Verif.Model.Splicer

/-!
# The programs `/repo/examples/splice.rs` and `/repo/examples/stages.rs`

A run is described by what it shows.  The text on standard error is not part of it: for an error `e`
it is `An error occurred: `, the text of `e` (C67) and a line feed; no error of the crate has a
backtrace (`/repo/src/error.rs`), so `ErrorCompat::backtrace` gives `None`.  Writing to standard
output does not fail.
-/

namespace Verif

/-- How a program ends. -/
inductive ExampleRun where
  /-- exit code 0, and the text on standard output -/
  | done (out : Str)
  /-- exit code 1, the error on standard error, and nothing on standard output -/
  | failed (e : Error)
  | panic
  deriving DecidableEq, Repr

/-- The first argument and the file behind it. -/
inductive ExampleArg where
  | missing
  /-- `File::open` fails -/
  | unreadable
  /-- what the calls of `read` do -/
  | file (reader : List ReadEvent)
  deriving DecidableEq, Repr

/-- `main`, and the beginning of `wrap`, which the programs share (`/repo/examples/splice.rs:9-14,28-40`,
`/repo/examples/stages.rs:9-14,29-41`); `rest`: the text that is printed, `none` for a panic -/
def runExample (unq : Unquote) (rest : Dockerfile → Option Str) : ExampleArg → ExampleRun
  | .missing => .panic
  | .unreadable => .panic
  | .file reader =>
    match Dockerfile.fromReader unq reader with
    | .error .panic => .panic
    | .error (.err e) => .failed e
    | .ok d =>
      match rest d with
      | none => .panic
      | some out => .done out

/-- the loop of `/repo/examples/splice.rs:17-21` -/
def spliceLoop : List Instruction → Splicer → Option Splicer
  | [], sp => some sp
  | .from f :: rest, sp =>
    match sp.splice f.image.span c!"splice:test" with
    | none => none
    | some sp' => spliceLoop rest sp'
  | _ :: rest, sp => spliceLoop rest sp

/-- `/repo/examples/splice.rs:15-23` -/
def spliceRest (d : Dockerfile) : Option Str :=
  (spliceLoop d.instructions (Splicer.ofDockerfile d)).map (·.content ++ c!"\n")

/-- the program `splice` -/
def runSplice (unq : Unquote) (arg : ExampleArg) : ExampleRun := runExample unq spliceRest arg

/-- `Debug for StageParent`, derived (`/repo/src/stage.rs:10-20`) -/
def StageParent.debug (plain : Char → Bool) : StageParent → Str
  | .image i => debugTuple c!"Image" [i.debug plain]
  | .stage n => debugTuple c!"Stage" [decimal n]
  | .scratch => c!"Scratch"

/-- `/repo/examples/stages.rs:16-23` -/
def stageLines (plain : Char → Bool) (s : Stage) : Str :=
  c!"stage #" ++ decimal s.index ++ c!" (parent: " ++ s.parent.debug plain ++ c!", root: " ++
    s.root.debug plain ++ c!")\n" ++ s.instructions.flatMap fun i => c!"  " ++ i.debug plain ++ c!"\n"

/-- `/repo/examples/stages.rs:15-24` -/
def stagesRest (plain : Char → Bool) (d : Dockerfile) : Option Str :=
  d.stages.map fun ss => ss.flatMap (stageLines plain)

/-- the program `stages` -/
def runStages (plain : Char → Bool) (unq : Unquote) (arg : ExampleArg) : ExampleRun :=
  runExample unq (stagesRest plain) arg

end Verif
