import Verif.Model.Stage
import Verif.Model.Enquote

/-!
# Conformance tests of the model

The unit and integration tests of `/repo` (`src/**`, `tests/parsing.rs`), transcribed: expected
values are the ones in the Rust tests.  Each is checked by evaluating the model in the kernel.
These are tests of the model, not proofs of properties.  (`run_multiline_exec_comment` is textually
the same test as `run_multline_exec`; the doc tests of `dockerfile_parser.rs` are subsumed.)
-/

namespace Verif.Conformance

/-- `parse_single` (`/repo/src/test_util.rs:17-24`) -/
def parseSingle (e : PExpr) (s : Str) : Result Instruction :=
  match Verif.parse e false 0 s with
  | none => .error (.err .parseError)
  | some (_, _, []) => .error (.err .unknownParseError)
  | some (_, _, t :: _) => instructionOf Enquote.unquote t

def isErr {α : Type} : Result α → Bool
  | .error (.err _) => true
  | _ => false

def shellOf : Result Instruction → Option BreakableString
  | .ok (.run e) => e.expr.asShell
  | .ok (.cmd e) => e.expr.asShell
  | .ok (.entrypoint e) => e.expr.asShell
  | _ => none

def docOf (s : Str) : Option Dockerfile :=
  match Dockerfile.parse Enquote.unquote s with
  | .ok d => some d
  | .error _ => none

def shells (s : Str) : Option (List (Option Str)) :=
  (docOf s).map fun d => d.instructions.map fun i => (shellOf (.ok i)).map BreakableString.display

def resolveAt (s : Str) (i : Nat) : Option (Option ImageRef) :=
  (docOf s).bind fun d => (d.instructions[i]?).bind fun i => i.asFrom.bind fun f =>
    f.image_parsed.resolveVars d

/-! ## `/repo/src/instructions/from.rs:149-316` -/

/-- `from_bad_digest` -/
example : (parseSingle G.from c!"from alpine@sha256:ca5a2eb9b7917e542663152b04c0") = .error (.err (.generic .digestInvalid)) := by decide +kernel

/-- `from_bad_digest` -/
example : (parseSingle G.from c!"from alpine@sha257:ca5a2eb9b7917e542663152b04c0ad0572e0522fcf80ff080156377fc08ea8f8") = .error (.err (.generic .digestInvalid)) := by decide +kernel

/-- `from_bad_digest` -/
example : (parseSingle G.from c!"from alpine@ca5a2eb9b7917e542663152b04c0ad0572e0522fcf80ff080156377fc08ea8f8") = .error (.err (.generic .digestInvalid)) := by decide +kernel

/-- `from_no_alias` -/
example : (parseSingle G.from c!"from alpine:3.10") = .ok (.from ⟨⟨0, 16⟩, [], ⟨⟨5, 16⟩, c!"alpine:3.10"⟩, ⟨none, c!"alpine", some c!"3.10", none⟩, 0, none⟩) := by decide +kernel

/-- `from_no_newline` -/
example : (isErr (parseSingle G.dockerfile c!"from alpine:3.10 from example")) = true := by decide +kernel

/-- `from_missing_alias` -/
example : (isErr (parseSingle G.dockerfile c!"from alpine:3.10 as")) = true := by decide +kernel

/-- `from_flags` -/
example : (parseSingle G.from c!"FROM --platform=linux/amd64 alpine:3.10") = .ok (.from ⟨⟨0, 39⟩, [⟨⟨5, 27⟩, ⟨⟨7, 15⟩, c!"platform"⟩, ⟨⟨16, 27⟩, c!"linux/amd64"⟩⟩], ⟨⟨28, 39⟩, c!"alpine:3.10"⟩, ⟨none, c!"alpine", some c!"3.10", none⟩, 0, none⟩) := by decide +kernel

/-- `from_multiline` -/
example : (parseSingle G.from c!"from \\\n  # foo\n  alpine:3.10 \\\n\n  # test\n  # comment\n\n  as \\\n\n  test\n") = .ok (.from ⟨⟨0, 68⟩, [], ⟨⟨17, 28⟩, c!"alpine:3.10"⟩, ⟨none, c!"alpine", some c!"3.10", none⟩, 0, some ⟨⟨64, 68⟩, c!"test"⟩⟩) := by decide +kernel

/-! ## `/repo/src/instructions/arg.rs:77-137` -/

/-- `arg_strings` -/
example : (parseSingle G.arg c!"arg foo=bar") = .ok (.arg ⟨⟨0, 11⟩, ⟨⟨4, 7⟩, c!"foo"⟩, some ⟨⟨8, 11⟩, c!"bar"⟩⟩) := by decide +kernel

example : (parseSingle G.arg c!"arg foo=\"bar\"") = .ok (.arg ⟨⟨0, 13⟩, ⟨⟨4, 7⟩, c!"foo"⟩, some ⟨⟨8, 13⟩, c!"bar"⟩⟩) := by decide +kernel

example : (parseSingle G.arg c!"arg foo='bar'") = .ok (.arg ⟨⟨0, 13⟩, ⟨⟨4, 7⟩, c!"foo"⟩, some ⟨⟨8, 13⟩, c!"bar"⟩⟩) := by decide +kernel

example : (isErr (Dockerfile.parse Enquote.unquote c!"arg foo=\"bar\"bar")) = true := by decide +kernel

example : (isErr (Dockerfile.parse Enquote.unquote c!"arg foo='bar'bar")) = true := by decide +kernel

example : (isErr (Dockerfile.parse Enquote.unquote c!"env foo=\"bar\"bar")) = true := by decide +kernel

example : (isErr (Dockerfile.parse Enquote.unquote c!"env foo='bar'bar")) = true := by decide +kernel

/-! ## `/repo/src/instructions/label.rs:125-482` -/

/-- `label_basic` -/
example : (parseSingle G.label c!"label foo=bar") = .ok (.label ⟨⟨0, 13⟩, [⟨⟨6, 13⟩, ⟨⟨6, 9⟩, c!"foo"⟩, ⟨⟨10, 13⟩, c!"bar"⟩⟩]⟩) := by decide +kernel

example : (parseSingle G.label c!"label foo.bar=baz") = .ok (.label ⟨⟨0, 17⟩, [⟨⟨6, 17⟩, ⟨⟨6, 13⟩, c!"foo.bar"⟩, ⟨⟨14, 17⟩, c!"baz"⟩⟩]⟩) := by decide +kernel

example : (parseSingle G.label c!"label \"foo.bar\"=\"baz qux\"") = .ok (.label ⟨⟨0, 25⟩, [⟨⟨6, 25⟩, ⟨⟨6, 15⟩, c!"foo.bar"⟩, ⟨⟨16, 25⟩, c!"baz qux"⟩⟩]⟩) := by decide +kernel

example : (parseSingle G.label c!"label foo.bar baz") = .ok (.label ⟨⟨0, 17⟩, [⟨⟨5, 17⟩, ⟨⟨6, 13⟩, c!"foo.bar"⟩, ⟨⟨14, 17⟩, c!"baz"⟩⟩]⟩) := by decide +kernel

example : (parseSingle G.label c!"label \"foo.bar\" \"baz qux\"") = .ok (.label ⟨⟨0, 25⟩, [⟨⟨5, 25⟩, ⟨⟨6, 15⟩, c!"foo.bar"⟩, ⟨⟨16, 25⟩, c!"baz qux"⟩⟩]⟩) := by decide +kernel

/-- `label_multi` -/
example : (parseSingle G.label c!"label foo=bar baz=\"qux\" \"quux quuz\"=\"corge grault\"") = .ok (.label ⟨⟨0, 50⟩, [⟨⟨6, 13⟩, ⟨⟨6, 9⟩, c!"foo"⟩, ⟨⟨10, 13⟩, c!"bar"⟩⟩, ⟨⟨14, 23⟩, ⟨⟨14, 17⟩, c!"baz"⟩, ⟨⟨18, 23⟩, c!"qux"⟩⟩, ⟨⟨24, 50⟩, ⟨⟨24, 35⟩, c!"quux quuz"⟩, ⟨⟨36, 50⟩, c!"corge grault"⟩⟩]⟩) := by decide +kernel

example : (parseSingle G.label c!"label foo=bar \\\n          baz=\"qux\" \\\n          \"quux quuz\"=\"corge grault\"") = .ok (.label ⟨⟨0, 74⟩, [⟨⟨6, 13⟩, ⟨⟨6, 9⟩, c!"foo"⟩, ⟨⟨10, 13⟩, c!"bar"⟩⟩, ⟨⟨26, 35⟩, ⟨⟨26, 29⟩, c!"baz"⟩, ⟨⟨30, 35⟩, c!"qux"⟩⟩, ⟨⟨48, 74⟩, ⟨⟨48, 59⟩, c!"quux quuz"⟩, ⟨⟨60, 74⟩, c!"corge grault"⟩⟩]⟩) := by decide +kernel

/-- `label_multiline` -/
example : (parseSingle G.label c!"label \"foo.bar\"=\"baz\\n qux\"") = .ok (.label ⟨⟨0, 27⟩, [⟨⟨6, 27⟩, ⟨⟨6, 15⟩, c!"foo.bar"⟩, ⟨⟨16, 27⟩, c!"baz\n qux"⟩⟩]⟩) := by decide +kernel

example : (parseSingle G.label c!"label \"foo\\nbar\"=\"baz\\n qux\"") = .ok (.label ⟨⟨0, 28⟩, [⟨⟨6, 28⟩, ⟨⟨6, 16⟩, c!"foo\nbar"⟩, ⟨⟨17, 28⟩, c!"baz\n qux"⟩⟩]⟩) := by decide +kernel

/-- `label_multi_multiline` -/
example : (parseSingle G.label c!"label foo=bar \\\n          \"lorem ipsum\n          dolor\n          \"=\"sit\n          amet\" \\\n          baz=qux") = .ok (.label ⟨⟨0, 107⟩, [⟨⟨6, 13⟩, ⟨⟨6, 9⟩, c!"foo"⟩, ⟨⟨10, 13⟩, c!"bar"⟩⟩, ⟨⟨26, 87⟩, ⟨⟨26, 66⟩, c!"lorem ipsum\n          dolor\n          "⟩, ⟨⟨67, 87⟩, c!"sit\n          amet"⟩⟩, ⟨⟨100, 107⟩, ⟨⟨100, 103⟩, c!"baz"⟩, ⟨⟨104, 107⟩, c!"qux"⟩⟩]⟩) := by decide +kernel

/-- `label_multiline_improper_continuation` -/
example : ((match parseSingle G.label c!"label foo=a \\\n  bar=b \\\n  baz=c \\\n\n" with | .ok (.label l) => some l.labels | _ => none)) = some [⟨⟨6, 11⟩, ⟨⟨6, 9⟩, c!"foo"⟩, ⟨⟨10, 11⟩, c!"a"⟩⟩, ⟨⟨16, 21⟩, ⟨⟨16, 19⟩, c!"bar"⟩, ⟨⟨20, 21⟩, c!"b"⟩⟩, ⟨⟨26, 31⟩, ⟨⟨26, 29⟩, c!"baz"⟩, ⟨⟨30, 31⟩, c!"c"⟩⟩] := by decide +kernel

/-! ## `/repo/src/instructions/run.rs` tests -/

/-- `run_basic` -/
example : (shellOf (parseSingle G.run c!"run echo \"hello world\"")) = some ⟨⟨4, 22⟩, [.string ⟨⟨4, 22⟩, c!"echo \"hello world\""⟩]⟩ := by decide +kernel

example : (parseSingle G.run c!"run [\"echo\", \"hello world\"]") = .ok (.run ⟨⟨0, 27⟩, .exec ⟨⟨4, 27⟩, [⟨⟨5, 11⟩, c!"echo"⟩, ⟨⟨13, 26⟩, c!"hello world"⟩]⟩⟩) := by decide +kernel

/-- `run_multiline_shell` -/
example : (shellOf (parseSingle G.run c!"run echo \\\n  \"hello world\"\n")) = some ⟨⟨4, 26⟩, [.string ⟨⟨4, 9⟩, c!"echo "⟩, .string ⟨⟨11, 26⟩, c!"  \"hello world\""⟩]⟩ := by decide +kernel

example : ((shellOf (parseSingle G.run c!"run echo \\\n  \"hello world\"\n")).map BreakableString.display) = some c!"echo   \"hello world\"" := by decide +kernel

example : ((shellOf (parseSingle G.run c!"run echo \\    \t  \t\t\n  \"hello world\"")).map BreakableString.display) = some c!"echo   \"hello world\"" := by decide +kernel

/-- `run_multiline_shell_comment` -/
example : (shellOf (parseSingle G.run c!"run foo && \\\n    # implicitly escaped\n    bar && \\\n    # explicitly escaped \\\n    baz\n")) = some ⟨⟨4, 85⟩, [.string ⟨⟨4, 11⟩, c!"foo && "⟩, .comment ⟨⟨17, 37⟩, c!"# implicitly escaped"⟩, .string ⟨⟨38, 49⟩, c!"    bar && "⟩, .comment ⟨⟨55, 77⟩, c!"# explicitly escaped \\"⟩, .string ⟨⟨78, 85⟩, c!"    baz"⟩]⟩ := by decide +kernel

/-- `run_multiline_shell_large` -/
example : (shellOf (parseSingle G.run c!"run set -x && \\\n    # lorem ipsum\n    echo \"hello world\" && \\\n    # dolor sit amet,\n    # consectetur \\\n    # adipiscing elit, \\\n    # sed do eiusmod\n    # tempor incididunt ut labore\n    echo foo && \\\n    echo 'bar' \\\n    && echo baz \\\n    # et dolore magna aliqua.")) = some ⟨⟨4, 266⟩, [.string ⟨⟨4, 14⟩, c!"set -x && "⟩, .comment ⟨⟨20, 33⟩, c!"# lorem ipsum"⟩, .string ⟨⟨34, 60⟩, c!"    echo \"hello world\" && "⟩, .comment ⟨⟨66, 83⟩, c!"# dolor sit amet,"⟩, .comment ⟨⟨88, 103⟩, c!"# consectetur \\"⟩, .comment ⟨⟨108, 128⟩, c!"# adipiscing elit, \\"⟩, .comment ⟨⟨133, 149⟩, c!"# sed do eiusmod"⟩, .comment ⟨⟨154, 183⟩, c!"# tempor incididunt ut labore"⟩, .string ⟨⟨184, 200⟩, c!"    echo foo && "⟩, .string ⟨⟨202, 217⟩, c!"    echo 'bar' "⟩, .string ⟨⟨219, 235⟩, c!"    && echo baz "⟩, .comment ⟨⟨241, 266⟩, c!"# et dolore magna aliqua."⟩]⟩ := by decide +kernel

example : ((shellOf (parseSingle G.run c!"run set -x && \\\n    # lorem ipsum\n    echo \"hello world\" && \\\n    # dolor sit amet,\n    # consectetur \\\n    # adipiscing elit, \\\n    # sed do eiusmod\n    # tempor incididunt ut labore\n    echo foo && \\\n    echo 'bar' \\\n    && echo baz \\\n    # et dolore magna aliqua.")).map BreakableString.display) = some c!"set -x &&     echo \"hello world\" &&     echo foo &&     echo 'bar'     && echo baz " := by decide +kernel

/-- `run_multiline_exec` -/
example : (parseSingle G.run c!"run\\\n        [\\\n        \"echo\", \\\n        \"hello world\"\\\n        ]") = .ok (.run ⟨⟨0, 66⟩, .exec ⟨⟨13, 66⟩, [⟨⟨24, 30⟩, c!"echo"⟩, ⟨⟨42, 55⟩, c!"hello world"⟩]⟩⟩) := by decide +kernel

/-! ## `/repo/src/instructions/cmd.rs` tests -/

/-- `cmd_basic` -/
example : (shellOf (parseSingle G.cmd c!"CMD echo \"hello world\"")) = some ⟨⟨4, 22⟩, [.string ⟨⟨4, 22⟩, c!"echo \"hello world\""⟩]⟩ := by decide +kernel

example : (parseSingle G.cmd c!"cmd [\"echo\", \"hello world\"]") = .ok (.cmd ⟨⟨0, 27⟩, .exec ⟨⟨4, 27⟩, [⟨⟨5, 11⟩, c!"echo"⟩, ⟨⟨13, 26⟩, c!"hello world"⟩]⟩⟩) := by decide +kernel

/-- `cmd_multiline_shell` -/
example : (shellOf (parseSingle G.cmd c!"cmd echo \\\n  \"hello world\"\n")) = some ⟨⟨4, 26⟩, [.string ⟨⟨4, 9⟩, c!"echo "⟩, .string ⟨⟨11, 26⟩, c!"  \"hello world\""⟩]⟩ := by decide +kernel

example : ((shellOf (parseSingle G.cmd c!"cmd echo \\\n  \"hello world\"\n")).map BreakableString.display) = some c!"echo   \"hello world\"" := by decide +kernel

/-- `cmd_multiline_shell_large` -/
example : (shellOf (parseSingle G.cmd c!"cmd set -x && \\\n    # lorem ipsum\n    echo \"hello world\" && \\\n    # dolor sit amet,\n    # consectetur \\\n    # adipiscing elit, \\\n    # sed do eiusmod\n    # tempor incididunt ut labore\n    echo foo && \\\n    echo 'bar' \\\n    && echo baz \\\n    # et dolore magna aliqua.")) = some ⟨⟨4, 266⟩, [.string ⟨⟨4, 14⟩, c!"set -x && "⟩, .comment ⟨⟨20, 33⟩, c!"# lorem ipsum"⟩, .string ⟨⟨34, 60⟩, c!"    echo \"hello world\" && "⟩, .comment ⟨⟨66, 83⟩, c!"# dolor sit amet,"⟩, .comment ⟨⟨88, 103⟩, c!"# consectetur \\"⟩, .comment ⟨⟨108, 128⟩, c!"# adipiscing elit, \\"⟩, .comment ⟨⟨133, 149⟩, c!"# sed do eiusmod"⟩, .comment ⟨⟨154, 183⟩, c!"# tempor incididunt ut labore"⟩, .string ⟨⟨184, 200⟩, c!"    echo foo && "⟩, .string ⟨⟨202, 217⟩, c!"    echo 'bar' "⟩, .string ⟨⟨219, 235⟩, c!"    && echo baz "⟩, .comment ⟨⟨241, 266⟩, c!"# et dolore magna aliqua."⟩]⟩ := by decide +kernel

example : ((shellOf (parseSingle G.cmd c!"cmd set -x && \\\n    # lorem ipsum\n    echo \"hello world\" && \\\n    # dolor sit amet,\n    # consectetur \\\n    # adipiscing elit, \\\n    # sed do eiusmod\n    # tempor incididunt ut labore\n    echo foo && \\\n    echo 'bar' \\\n    && echo baz \\\n    # et dolore magna aliqua.")).map BreakableString.display) = some c!"set -x &&     echo \"hello world\" &&     echo foo &&     echo 'bar'     && echo baz " := by decide +kernel

/-- `cmd_multiline_exec` -/
example : (parseSingle G.cmd c!"cmd\\\n        [\\\n        \"echo\", \\\n        \"hello world\"\\\n        ]") = .ok (.cmd ⟨⟨0, 66⟩, .exec ⟨⟨13, 66⟩, [⟨⟨24, 30⟩, c!"echo"⟩, ⟨⟨42, 55⟩, c!"hello world"⟩]⟩⟩) := by decide +kernel

/-! ## `/repo/src/instructions/entrypoint.rs` tests -/

/-- `entrypoint_basic` -/
example : (shellOf (parseSingle G.entrypoint c!"entrypoint echo \"hello world\"")) = some ⟨⟨11, 29⟩, [.string ⟨⟨11, 29⟩, c!"echo \"hello world\""⟩]⟩ := by decide +kernel

example : (parseSingle G.entrypoint c!"entrypoint [\"echo\", \"hello world\"]") = .ok (.entrypoint ⟨⟨0, 34⟩, .exec ⟨⟨11, 34⟩, [⟨⟨12, 18⟩, c!"echo"⟩, ⟨⟨20, 33⟩, c!"hello world"⟩]⟩⟩) := by decide +kernel

/-- `entrypoint_multiline_shell` -/
example : (shellOf (parseSingle G.entrypoint c!"entrypoint echo \\\n  \"hello world\"\n")) = some ⟨⟨11, 33⟩, [.string ⟨⟨11, 16⟩, c!"echo "⟩, .string ⟨⟨18, 33⟩, c!"  \"hello world\""⟩]⟩ := by decide +kernel

example : ((shellOf (parseSingle G.entrypoint c!"entrypoint echo \\\n  \"hello world\"\n")).map BreakableString.display) = some c!"echo   \"hello world\"" := by decide +kernel

/-- `entrypoint_multiline_shell_large` -/
example : (shellOf (parseSingle G.entrypoint c!"entrypoint set -x && \\\n    # lorem ipsum\n    echo \"hello world\" && \\\n    # dolor sit amet,\n    # consectetur \\\n    # adipiscing elit, \\\n    # sed do eiusmod\n    # tempor incididunt ut labore\n    echo foo && \\\n    echo 'bar' \\\n    && echo baz \\\n    # et dolore magna aliqua.")) = some ⟨⟨11, 273⟩, [.string ⟨⟨11, 21⟩, c!"set -x && "⟩, .comment ⟨⟨27, 40⟩, c!"# lorem ipsum"⟩, .string ⟨⟨41, 67⟩, c!"    echo \"hello world\" && "⟩, .comment ⟨⟨73, 90⟩, c!"# dolor sit amet,"⟩, .comment ⟨⟨95, 110⟩, c!"# consectetur \\"⟩, .comment ⟨⟨115, 135⟩, c!"# adipiscing elit, \\"⟩, .comment ⟨⟨140, 156⟩, c!"# sed do eiusmod"⟩, .comment ⟨⟨161, 190⟩, c!"# tempor incididunt ut labore"⟩, .string ⟨⟨191, 207⟩, c!"    echo foo && "⟩, .string ⟨⟨209, 224⟩, c!"    echo 'bar' "⟩, .string ⟨⟨226, 242⟩, c!"    && echo baz "⟩, .comment ⟨⟨248, 273⟩, c!"# et dolore magna aliqua."⟩]⟩ := by decide +kernel

example : ((shellOf (parseSingle G.entrypoint c!"entrypoint set -x && \\\n    # lorem ipsum\n    echo \"hello world\" && \\\n    # dolor sit amet,\n    # consectetur \\\n    # adipiscing elit, \\\n    # sed do eiusmod\n    # tempor incididunt ut labore\n    echo foo && \\\n    echo 'bar' \\\n    && echo baz \\\n    # et dolore magna aliqua.")).map BreakableString.display) = some c!"set -x &&     echo \"hello world\" &&     echo foo &&     echo 'bar'     && echo baz " := by decide +kernel

/-- `entrypoint_multiline_exec` -/
example : (parseSingle G.entrypoint c!"entrypoint\\\n        [\\\n        \"echo\", \\\n        \"hello world\"\\\n        ]") = .ok (.entrypoint ⟨⟨0, 73⟩, .exec ⟨⟨20, 73⟩, [⟨⟨31, 37⟩, c!"echo"⟩, ⟨⟨49, 62⟩, c!"hello world"⟩]⟩⟩) := by decide +kernel

/-! ## `/repo/src/instructions/copy.rs:111-275` -/

/-- `copy_basic` -/
example : (parseSingle G.copy c!"copy foo bar") = .ok (.copy ⟨⟨0, 12⟩, [], [⟨⟨5, 8⟩, c!"foo"⟩], ⟨⟨9, 12⟩, c!"bar"⟩⟩) := by decide +kernel

/-- `copy_multiple_sources` -/
example : (parseSingle G.copy c!"copy foo bar baz qux") = .ok (.copy ⟨⟨0, 20⟩, [], [⟨⟨5, 8⟩, c!"foo"⟩, ⟨⟨9, 12⟩, c!"bar"⟩, ⟨⟨13, 16⟩, c!"baz"⟩], ⟨⟨17, 20⟩, c!"qux"⟩⟩) := by decide +kernel

/-- `copy_multiline` -/
example : (parseSingle G.copy c!"copy foo \\\nbar") = .ok (.copy ⟨⟨0, 14⟩, [], [⟨⟨5, 8⟩, c!"foo"⟩], ⟨⟨11, 14⟩, c!"bar"⟩⟩) := by decide +kernel

example : (isErr (parseSingle G.copy c!"copy foo\nbar")) = true := by decide +kernel

/-- `copy_flags` -/
example : (parseSingle G.copy c!"copy --from=alpine:3.10 /usr/lib/libssl.so.1.1 /tmp/") = .ok (.copy ⟨⟨0, 52⟩, [⟨⟨5, 23⟩, ⟨⟨7, 11⟩, c!"from"⟩, ⟨⟨12, 23⟩, c!"alpine:3.10"⟩⟩], [⟨⟨24, 46⟩, c!"/usr/lib/libssl.so.1.1"⟩], ⟨⟨47, 52⟩, c!"/tmp/"⟩⟩) := by decide +kernel

/-- `copy_comments` -/
example : (parseSingle G.copy c!"copy \\\n  --from=alpine:3.10 \\\n\n  # hello\n\n  /usr/lib/libssl.so.1.1 \\\n  # world\n  /tmp/\n") = .ok (.copy ⟨⟨0, 86⟩, [⟨⟨9, 27⟩, ⟨⟨11, 15⟩, c!"from"⟩, ⟨⟨16, 27⟩, c!"alpine:3.10"⟩⟩], [⟨⟨44, 66⟩, c!"/usr/lib/libssl.so.1.1"⟩], ⟨⟨81, 86⟩, c!"/tmp/"⟩⟩) := by decide +kernel

/-! ## `/repo/src/instructions/env.rs:164-431` -/

/-- `env` -/
example : (parseSingle G.env c!"env foo=bar") = .ok (.env ⟨⟨0, 11⟩, [⟨⟨4, 11⟩, ⟨⟨4, 7⟩, c!"foo"⟩, ⟨⟨8, 11⟩, [.string ⟨⟨8, 11⟩, c!"bar"⟩]⟩⟩]⟩) := by decide +kernel

example : (parseSingle G.env c!"env FOO_BAR=\"baz\"") = .ok (.env ⟨⟨0, 17⟩, [⟨⟨4, 17⟩, ⟨⟨4, 11⟩, c!"FOO_BAR"⟩, ⟨⟨12, 17⟩, [.string ⟨⟨12, 17⟩, c!"baz"⟩]⟩⟩]⟩) := by decide +kernel

example : (parseSingle G.env c!"env FOO_BAR \"baz\"") = .ok (.env ⟨⟨0, 17⟩, [⟨⟨4, 17⟩, ⟨⟨4, 11⟩, c!"FOO_BAR"⟩, ⟨⟨12, 17⟩, [.string ⟨⟨12, 17⟩, c!"baz"⟩]⟩⟩]⟩) := by decide +kernel

example : (parseSingle G.env c!"env foo=\"bar\\\"baz\"") = .ok (.env ⟨⟨0, 18⟩, [⟨⟨4, 18⟩, ⟨⟨4, 7⟩, c!"foo"⟩, ⟨⟨8, 18⟩, [.string ⟨⟨8, 18⟩, c!"bar\"baz"⟩]⟩⟩]⟩) := by decide +kernel

example : (parseSingle G.env c!"env foo='bar'") = .ok (.env ⟨⟨0, 13⟩, [⟨⟨4, 13⟩, ⟨⟨4, 7⟩, c!"foo"⟩, ⟨⟨8, 13⟩, [.string ⟨⟨8, 13⟩, c!"bar"⟩]⟩⟩]⟩) := by decide +kernel

example : (parseSingle G.env c!"env foo='bar\\'baz'") = .ok (.env ⟨⟨0, 18⟩, [⟨⟨4, 18⟩, ⟨⟨4, 7⟩, c!"foo"⟩, ⟨⟨8, 18⟩, [.string ⟨⟨8, 18⟩, c!"bar'baz"⟩]⟩⟩]⟩) := by decide +kernel

example : (parseSingle G.env c!"env foo=\"123\" bar='456' baz=789") = .ok (.env ⟨⟨0, 31⟩, [⟨⟨4, 13⟩, ⟨⟨4, 7⟩, c!"foo"⟩, ⟨⟨8, 13⟩, [.string ⟨⟨8, 13⟩, c!"123"⟩]⟩⟩, ⟨⟨14, 23⟩, ⟨⟨14, 17⟩, c!"bar"⟩, ⟨⟨18, 23⟩, [.string ⟨⟨18, 23⟩, c!"456"⟩]⟩⟩, ⟨⟨24, 31⟩, ⟨⟨24, 27⟩, c!"baz"⟩, ⟨⟨28, 31⟩, [.string ⟨⟨28, 31⟩, c!"789"⟩]⟩⟩]⟩) := by decide +kernel

/-- `test_multiline_pairs` -/
example : ((match parseSingle G.env c!"env foo=a \\\n  bar=b \\\n  baz=c \\\n\n" with | .ok (.env e) => some e.vars | _ => none)) = some [⟨⟨4, 9⟩, ⟨⟨4, 7⟩, c!"foo"⟩, ⟨⟨8, 9⟩, [.string ⟨⟨8, 9⟩, c!"a"⟩]⟩⟩, ⟨⟨14, 19⟩, ⟨⟨14, 17⟩, c!"bar"⟩, ⟨⟨18, 19⟩, [.string ⟨⟨18, 19⟩, c!"b"⟩]⟩⟩, ⟨⟨24, 29⟩, ⟨⟨24, 27⟩, c!"baz"⟩, ⟨⟨28, 29⟩, [.string ⟨⟨28, 29⟩, c!"c"⟩]⟩⟩] := by decide +kernel

/-- `test_multiline_single_env` -/
example : ((match parseSingle G.env c!"env foo Lorem ipsum dolor sit amet, \\\n  consectetur adipiscing elit, \\\n  sed do eiusmod tempor incididunt ut \\\n  labore et dolore magna aliqua.\n" with | .ok (.env e) => some e.vars | _ => none)) = some [⟨⟨4, 143⟩, ⟨⟨4, 7⟩, c!"foo"⟩, ⟨⟨8, 143⟩, [.string ⟨⟨8, 36⟩, c!"Lorem ipsum dolor sit amet, "⟩, .string ⟨⟨38, 69⟩, c!"  consectetur adipiscing elit, "⟩, .string ⟨⟨71, 109⟩, c!"  sed do eiusmod tempor incididunt ut "⟩, .string ⟨⟨111, 143⟩, c!"  labore et dolore magna aliqua."⟩]⟩⟩] := by decide +kernel

example : ((match parseSingle G.env c!"env \\\n  foo \\\n  Lorem ipsum dolor sit amet, \\\n  consectetur adipiscing elit\n" with | .ok (.env e) => some e.vars | _ => none)) = some [⟨⟨8, 75⟩, ⟨⟨8, 11⟩, c!"foo"⟩, ⟨⟨16, 75⟩, [.string ⟨⟨16, 44⟩, c!"Lorem ipsum dolor sit amet, "⟩, .string ⟨⟨46, 75⟩, c!"  consectetur adipiscing elit"⟩]⟩⟩] := by decide +kernel

example : ((match parseSingle G.env c!"env \\\n  foo \\\n  # bar\n  Lorem ipsum dolor sit amet, \\\n  # baz\n  consectetur adipiscing elit\n" with | .ok (.env e) => some e.vars | _ => none)) = some [⟨⟨8, 91⟩, ⟨⟨8, 11⟩, c!"foo"⟩, ⟨⟨24, 91⟩, [.string ⟨⟨24, 52⟩, c!"Lorem ipsum dolor sit amet, "⟩, .comment ⟨⟨56, 61⟩, c!"# baz"⟩, .string ⟨⟨62, 91⟩, c!"  consectetur adipiscing elit"⟩]⟩⟩] := by decide +kernel

/-! ## `/repo/src/image.rs:204-640` -/

example : (ImageRef.parse c!"alpine:3.10") = ⟨none, c!"alpine", some c!"3.10", none⟩ := by decide +kernel

example : (ImageRef.parse c!"foo/bar") = ⟨none, c!"foo/bar", none, none⟩ := by decide +kernel

example : (ImageRef.parse c!"clux/muslrust:1.41.0-stable") = ⟨none, c!"clux/muslrust", some c!"1.41.0-stable", none⟩ := by decide +kernel

example : (ImageRef.parse c!"fake_project/fake_image@fake_hash") = ⟨none, c!"fake_project/fake_image", none, some c!"fake_hash"⟩ := by decide +kernel

example : (ImageRef.parse c!"fake_project/fake_image@") = ⟨none, c!"fake_project/fake_image", none, some c!""⟩ := by decide +kernel

example : (ImageRef.parse c!"fake_project/fake_image@sha256:") = ⟨none, c!"fake_project/fake_image", none, some c!"sha256:"⟩ := by decide +kernel

example : (ImageRef.parse c!"quay.io/prometheus/node-exporter:v0.18.1") = ⟨some c!"quay.io", c!"prometheus/node-exporter", some c!"v0.18.1", none⟩ := by decide +kernel

example : (ImageRef.parse c!"gcr.io/fake_project/fake_image:fake_tag") = ⟨some c!"gcr.io", c!"fake_project/fake_image", some c!"fake_tag", none⟩ := by decide +kernel

example : (ImageRef.parse c!"gcr.io/fake_project/fake_image") = ⟨some c!"gcr.io", c!"fake_project/fake_image", none, none⟩ := by decide +kernel

example : (ImageRef.parse c!"gcr.io/fake_image") = ⟨some c!"gcr.io", c!"fake_image", none, none⟩ := by decide +kernel

example : (ImageRef.parse c!"gcr.io/fake_image:fake_tag") = ⟨some c!"gcr.io", c!"fake_image", some c!"fake_tag", none⟩ := by decide +kernel

example : (ImageRef.parse c!"quay.io/fake_project/fake_image@fake_hash") = ⟨some c!"quay.io", c!"fake_project/fake_image", none, some c!"fake_hash"⟩ := by decide +kernel

example : (ImageRef.parse c!"localhost/foo") = ⟨some c!"localhost", c!"foo", none, none⟩ := by decide +kernel

example : (ImageRef.parse c!"localhost/foo:bar") = ⟨some c!"localhost", c!"foo", some c!"bar", none⟩ := by decide +kernel

example : (ImageRef.parse c!"localhost/foo/bar") = ⟨some c!"localhost", c!"foo/bar", none, none⟩ := by decide +kernel

example : (ImageRef.parse c!"localhost/foo/bar:baz") = ⟨some c!"localhost", c!"foo/bar", some c!"baz", none⟩ := by decide +kernel

example : (ImageRef.parse c!"example.com:1234/foo") = ⟨some c!"example.com:1234", c!"foo", none, none⟩ := by decide +kernel

example : (ImageRef.parse c!"example.com:1234/foo:bar") = ⟨some c!"example.com:1234", c!"foo", some c!"bar", none⟩ := by decide +kernel

example : (ImageRef.parse c!"example.com:1234/foo/bar") = ⟨some c!"example.com:1234", c!"foo/bar", none, none⟩ := by decide +kernel

example : (ImageRef.parse c!"example.com:1234/foo/bar:baz") = ⟨some c!"example.com:1234", c!"foo/bar", some c!"baz", none⟩ := by decide +kernel

example : (ImageRef.parse c!"example.com:1234/foo/bar/baz:qux") = ⟨some c!"example.com:1234", c!"foo/bar/baz", some c!"qux", none⟩ := by decide +kernel

/-- the variables of `test_substitute` -/
def testVars : VarMap := fun k =>
  if k = c!"foo" then some c!"bar"
  else if k = c!"baz" then some c!"qux"
  else if k = c!"lorem" then some c!"$foo"
  else if k = c!"ipsum" then some c!"${lorem}"
  else if k = c!"recursion1" then some c!"$recursion2"
  else if k = c!"recursion2" then some c!"$recursion1"
  else none

example : (substitute testVars 16 c!"hello world" []) = some (some c!"hello world", []) := by decide +kernel

example : (substitute testVars 16 c!"hello $foo" []) = some (some c!"hello bar", [c!"foo"]) := by decide +kernel

example : (substitute testVars 0 c!"hello $foo" []) = some (none, []) := by decide +kernel

example : (substitute testVars 16 c!"hello ${foo}" []) = some (some c!"hello bar", [c!"foo"]) := by decide +kernel

example : (substitute testVars 16 c!"$baz $foo" []) = some (some c!"qux bar", [c!"baz", c!"foo"]) := by decide +kernel

example : (substitute testVars 16 c!"hello $lorem" []) = some (some c!"hello bar", [c!"foo", c!"lorem"]) := by decide +kernel

example : (substitute testVars 1 c!"hello $lorem" []) = some (none, []) := by decide +kernel

example : (substitute testVars 16 c!"hello $ipsum" []) = some (some c!"hello bar", [c!"foo", c!"lorem", c!"ipsum"]) := by decide +kernel

example : (substitute testVars 2 c!"hello $ipsum" []) = some (none, []) := by decide +kernel

example : (substitute testVars 16 c!"hello $recursion1" []) = some (none, []) := by decide +kernel

example : (resolveAt c!"ARG image=alpine:3.12\nFROM $image\n" 1) = some (some (ImageRef.parse c!"alpine:3.12")) := by decide +kernel

example : (resolveAt c!"ARG image=alpine\nARG unnecessarily_nested=${image}\nARG tag=3.12\nFROM ${unnecessarily_nested}:${tag}\n" 3) = some (some (ImageRef.parse c!"alpine:3.12")) := by decide +kernel

example : (resolveAt c!"ARG image\nFROM $image\n" 1) = some none := by decide +kernel

example : (resolveAt c!"ARG image=\"alpine:3.12\"\nFROM $foo\n" 1) = some none := by decide +kernel

example : (resolveAt c!"FROM $image\nARG image=\"alpine:3.12\"\n" 0) = some none := by decide +kernel

/-! ## `/repo/src/splicer.rs:181-236` -/

def relDoc : Str := c!"FROM alpine:3.10 as build\nFROM alpine:3.10\n\nRUN echo \"hello world\"\n\nCOPY --from=build /foo /bar\n"

/-- `test_relative_span` -/
example : ((docOf relDoc).bind fun d => (d.instructions[0]?).bind fun i => i.asFrom.bind fun f => f.alias.bind fun a => a.span.relativeSpan d) = some (0, ⟨20, 25⟩) := by decide +kernel

example : ((docOf relDoc).bind fun d => (d.instructions[3]?).bind fun i => i.span.relativeSpan d) = some (5, ⟨0, 27⟩) := by decide +kernel

example : ((docOf relDoc).bind fun d => (d.instructions[3]?).bind fun i => i.asCopy.bind fun c => c.flags[0]?.bind fun f => f.span.relativeSpan d) = some (5, ⟨5, 17⟩) := by decide +kernel

example : ((docOf relDoc).bind fun d => (d.instructions[3]?).bind fun i => i.asCopy.bind fun c => c.flags[0]?.bind fun f => f.value.span.relativeSpan d) = some (5, ⟨12, 17⟩) := by decide +kernel

/-- the doc example of `Splicer` (`/repo/src/splicer.rs:111-131`) -/
example : ((docOf c!"\n  FROM alpine:3.10\n").bind fun d => (d.instructions[0]?).bind fun i => i.asFrom.bind fun f => ((Splicer.ofDockerfile d).splice f.image.span c!"alpine:3.11").map (·.content)) = some c!"\n  FROM alpine:3.11\n" := by decide +kernel

/-! ## `/repo/src/stage.rs:207-269` -/

def stageDoc : Str := c!"FROM alpine:3.12\n\nFROM ubuntu:18.04 as build\nRUN echo \"hello world\"\n\nFROM build as build2\nCOPY /foo /bar\nCOPY /bar /baz\n\nFROM build as build3\n"

/-- `test_stages`.  The Rust test compares stages with `PartialEq`, which looks at the index only; its expectation `parent: StageParent::Stage(2)` for stage 3 is not what the code computes (`Stage(1)`). -/
example : ((docOf stageDoc).bind fun d => d.stages.map (·.length)) = some 4 := by decide +kernel

example : ((docOf stageDoc).bind fun d => d.stages.bind fun s => s[1]?.map fun x => (x.index, x.name, decide (x.instructions = (d.instructions.drop 1).take 2), x.parent, x.root)) = some (1, some c!"build", true, StageParent.image (ImageRef.parse c!"ubuntu:18.04"), StageParent.image (ImageRef.parse c!"ubuntu:18.04")) := by decide +kernel

example : ((docOf stageDoc).bind fun d => d.stages.bind fun s => s[2]?.map fun x => (x.index, x.name, decide (x.instructions = (d.instructions.drop 3).take 3), x.parent, x.root)) = some (2, some c!"build2", true, .stage 1, StageParent.image (ImageRef.parse c!"ubuntu:18.04")) := by decide +kernel

example : ((docOf stageDoc).bind fun d => d.stages.bind fun s => s[3]?.map fun x => (x.index, x.name, decide (x.instructions = d.instructions.drop 6), x.parent, x.root)) = some (3, some c!"build3", true, .stage 1, StageParent.image (ImageRef.parse c!"ubuntu:18.04")) := by decide +kernel

/-- `test_stages_get` -/
example : ((docOf c!"FROM alpine:3.12\n\nFROM ubuntu:18.04 as build\n\nFROM build as build2\n").bind fun d => d.stages.map fun s => [c!"0", c!"1", c!"build", c!"2", c!"build2"].map fun n => (stagesGet s n).map (·.index)) = some [some 0, some 1, some 1, some 2, some 2] := by decide +kernel

/-! ## `/repo/tests/parsing.rs` -/

/-- `parse_basic` -/
example : ((docOf c!"\n    FROM alpine:3.10\n\n    RUN apk add --no-cache curl\n  ").map (·.instructions)) = some [.from ⟨⟨5, 21⟩, [], ⟨⟨10, 21⟩, c!"alpine:3.10"⟩, ⟨none, c!"alpine", some c!"3.10", none⟩, 0, none⟩, .run ⟨⟨27, 54⟩, .shell ⟨⟨31, 54⟩, [.string ⟨⟨31, 54⟩, c!"apk add --no-cache curl"⟩]⟩⟩] := by decide +kernel

/-- `parse_multiline_shell` -/
example : (shells c!"RUN apk add --no-cache \\\n    curl\n\nRUN foo\n") = some [some c!"apk add --no-cache     curl", some c!"foo"] := by decide +kernel

/-- `parse_multiline_exec` -/
example : (shells c!"\n    RUN [\"apk\", \\\n         \"add\", \\\n         \"--no-cache\", \\\n         \"curl\"]\n\n    RUN foo\n  ") = some [none, some c!"foo"] := by decide +kernel

example : ((docOf c!"\n    RUN [\"apk\", \\\n         \"add\", \\\n         \"--no-cache\", \\\n         \"curl\"]\n\n    RUN foo\n  ").bind fun d => (d.instructions[0]?).bind fun i => i.asRun.bind fun r => r.expr.asExec.map (·.asStrVec)) = some [c!"apk", c!"add", c!"--no-cache", c!"curl"] := by decide +kernel

/-- `parse_label` -/
example : ((docOf c!"\n    LABEL foo=bar\n\n    LABEL \"foo\"=\"bar\"\n\n    LABEL \"foo=bar\"=bar\n\n    LABEL foo=\"bar\\\n          baz\"\n\n    RUN foo\n  ").map fun d => d.instructions.map Instruction.asLabel) = some [some ⟨⟨5, 18⟩, [⟨⟨11, 18⟩, ⟨⟨11, 14⟩, c!"foo"⟩, ⟨⟨15, 18⟩, c!"bar"⟩⟩]⟩, some ⟨⟨24, 41⟩, [⟨⟨30, 41⟩, ⟨⟨30, 35⟩, c!"foo"⟩, ⟨⟨36, 41⟩, c!"bar"⟩⟩]⟩, some ⟨⟨47, 66⟩, [⟨⟨53, 66⟩, ⟨⟨53, 62⟩, c!"foo=bar"⟩, ⟨⟨63, 66⟩, c!"bar"⟩⟩]⟩, some ⟨⟨72, 102⟩, [⟨⟨78, 102⟩, ⟨⟨78, 81⟩, c!"foo"⟩, ⟨⟨82, 102⟩, c!"bar          baz"⟩⟩]⟩, none] := by decide +kernel

example : (isErr (Dockerfile.parse Enquote.unquote c!"\n    LABEL foo=\"bar\\\n          baz\"\\\n\n    RUN foo\n  ")) = true := by decide +kernel

def commentDoc : Str := c!"\n    # lorem ipsum\n    LABEL foo=bar\n    #dolor sit amet\n    # consectetur adipiscing elit\n\n    # sed do eiusmod\n    # Duis aute irure dolor\n    # tempor incididunt ut labore\n    LABEL \"foo\"=\"bar\"\n    # et dolore magna aliqua\n    LABEL \"foo=bar\"=bar\n    #Ut enim ad minim veniam\n    LABEL foo=\"bar\\\n          baz\"\n    # quis nostrud exercitation\n\n    # ullamco laboris nisi\n\n    RUN foo\n\n    ENV foo=a \\\n      # test comment\n\n\n      bar=b\n\n    run [ \\\n      \"echo\", \\\n      # hello world\n      \"hello\", \\\n      \"world\" \\\n    ]\n\n    run echo 'hello # world'\n  "

/-- `parse_comment` -/
example : ((docOf commentDoc).map (·.instructions.length)) = some 8 := by decide +kernel

example : (shells commentDoc) = some [none, none, none, none, some c!"foo", none, none, some c!"echo 'hello # world'"] := by decide +kernel

example : ((docOf commentDoc).bind fun d => (d.instructions[5]?).bind fun i => i.asEnv.map (·.vars)) = some [⟨⟨396, 401⟩, ⟨⟨396, 399⟩, c!"foo"⟩, ⟨⟨400, 401⟩, [.string ⟨⟨400, 401⟩, c!"a"⟩]⟩⟩, ⟨⟨433, 438⟩, ⟨⟨433, 436⟩, c!"bar"⟩, ⟨⟨437, 438⟩, [.string ⟨⟨437, 438⟩, c!"b"⟩]⟩⟩] := by decide +kernel

example : ((docOf commentDoc).bind fun d => (d.instructions[6]?).bind fun i => i.asRun.bind fun r => r.expr.asExec.map (·.asStrVec)) = some [c!"echo", c!"hello", c!"world"] := by decide +kernel

/-- `parse_from_sha256_digest` -/
example : ((docOf c!"\n    FROM alpine@sha256:074d3636ebda6dd446d0d00304c4454f468237fdacf08fb0eeac90bdbfa1bac7 as foo\n  ").map (·.instructions)) = some [.from ⟨⟨5, 95⟩, [], ⟨⟨10, 88⟩, c!"alpine@sha256:074d3636ebda6dd446d0d00304c4454f468237fdacf08fb0eeac90bdbfa1bac7"⟩, ⟨none, c!"alpine", none, some c!"sha256:074d3636ebda6dd446d0d00304c4454f468237fdacf08fb0eeac90bdbfa1bac7"⟩, 0, some ⟨⟨92, 95⟩, c!"foo"⟩⟩] := by decide +kernel

end Verif.Conformance
