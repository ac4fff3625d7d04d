import Verif.Model.Stage
import Verif.Model.Enquote
import Verif.Conformance

/-!
# Conformance tests of the model: the documentation

`/repo/Dockerfile.test`, with the contents that `/repo/README.md:24-76` shows for it, and the programs in
the comments of `lib.rs` and `stage.rs`.  The README is older than the code in one place: arguments of
unknown instructions have their leading space in the code (`src/instructions/misc.rs:18-24`).
-/

namespace Verif.Conformance

/-- `/repo/Dockerfile.test` -/
def testFile : Str :=
  c!"# foo\n\narg foo\n\nfrom foo:443/bar\nfrom localhost/foo\nfrom example.com/foo:bar\n" ++
  c!"from alpine:3.10\nfrom foo/bar\nfrom foo/bar:baz\n\nfrom hello-world:test as foo\n" ++
  c!"from fooasdf as bar-baz\nrun [ \"foo\", \"bar\", \"echo \\\"hello $world\\\"\" ]\n" ++
  c!"run foo bar baz\n\nARG image=alpine:3.10\nFROM $image\n\nfrom \\\n  alpine:3.10 as foo\n" ++
  c!"run [\"foo\",\\\n \"bar\"\\\n]\n\nrun foo bar baz \\\n    qux \\\n    qup\n\ncopy \\\n" ++
  c!"  --from=foo \\\n  /foo/bar \\\n  /foo/baz \\\n  /qux/\n\nentrypoint foo bar baz\n" ++
  c!"entrypoint [\"foo\", \"bar\", \"baz\"]\n\ncmd foo bar\ncmd [\"foo\", \"bar\"]\n\ncopy foo bar\n" ++
  c!"copy --from=0 /foo /bar\n\nother foo bar\nother foo\\\n bar\n\nenv foo bar baz \\\n  qux\n" ++
  c!"env foo=bar baz=qux\nenv zxcv asdf\n\nenv foo=\"bar zxcv\" baz=qux zxcv=\"asdf\\\"qwerty\" \\\n" ++
  c!" zxcv=zxcvzxvb\n\nlabel foo=bar\nlabel foo=\"bar\"\nlabel \"foo bar\"=\"baz qux\"\n" ++
  c!"label \"foo\\\n  bar\"=\"baz\\\"\\\n  qux\"\n\n\nfoo bar\n"

/-- what `README.md` shows of an instruction -/
inductive Shown where
  | «from» (image : Str) (index : Nat) (alias : Option Str)
  | arg (name : Str) (value : Option Str)
  | exec (word : Str) (args : List Str)
  | shell (word : Str) (text : Str)
  | copy (flags : List (Str × Str)) (sources : List Str) (destination : Str)
  | pairs (word : Str) (kvs : List (Str × Str))
  | misc (word : Str) (arguments : Str)
  deriving DecidableEq

def shownExpr (w : Str) (e : ShellOrExecExpr) : Shown :=
  match e with
  | .shell s => .shell w s.display
  | .exec a => .exec w (a.elements.map (·.content))

def shown : Instruction → Shown
  | .from f => .from f.image.content f.index (f.alias.map (·.content))
  | .arg a => .arg a.name.content (a.value.map (·.content))
  | .run e => shownExpr c!"run" e.expr
  | .cmd e => shownExpr c!"cmd" e.expr
  | .entrypoint e => shownExpr c!"entrypoint" e.expr
  | .copy c => .copy (c.flags.map fun f => (f.name.content, f.value.content)) (c.sources.map (·.content)) c.destination.content
  | .env e => .pairs c!"env" (e.vars.map fun v => (v.key.content, v.value.display))
  | .label l => .pairs c!"label" (l.labels.map fun x => (x.name.content, x.value.content))
  | .misc m => .misc m.instruction.content m.arguments.display

/-- the global arguments and the stages of `Dockerfile.test`, as in `README.md` -/
example : (docOf testFile).map (fun d => (d.global_args.map fun a => shown (.arg a), d.stages.map fun ss => ss.map fun s => s.instructions.map shown)) =
    some ([.arg c!"foo" none], some [
      [.from c!"foo:443/bar" 0 none], [.from c!"localhost/foo" 1 none], [.from c!"example.com/foo:bar" 2 none],
      [.from c!"alpine:3.10" 3 none], [.from c!"foo/bar" 4 none], [.from c!"foo/bar:baz" 5 none],
      [.from c!"hello-world:test" 6 (some c!"foo")],
      [.from c!"fooasdf" 7 (some c!"bar-baz"), .exec c!"run" [c!"foo", c!"bar", c!"echo \"hello $world\""],
        .shell c!"run" c!"foo bar baz", .arg c!"image" (some c!"alpine:3.10")],
      [.from c!"$image" 8 none],
      [.from c!"alpine:3.10" 9 (some c!"foo"), .exec c!"run" [c!"foo", c!"bar"], .shell c!"run" c!"foo bar baz     qux     qup",
        .copy [(c!"from", c!"foo")] [c!"/foo/bar", c!"/foo/baz"] c!"/qux/", .shell c!"entrypoint" c!"foo bar baz",
        .exec c!"entrypoint" [c!"foo", c!"bar", c!"baz"], .shell c!"cmd" c!"foo bar", .exec c!"cmd" [c!"foo", c!"bar"],
        .copy [] [c!"foo"] c!"bar", .copy [(c!"from", c!"0")] [c!"/foo"] c!"/bar",
        .misc c!"other" c!" foo bar", .misc c!"other" c!" foo bar", .pairs c!"env" [(c!"foo", c!"bar baz   qux")],
        .pairs c!"env" [(c!"foo", c!"bar"), (c!"baz", c!"qux")], .pairs c!"env" [(c!"zxcv", c!"asdf")],
        .pairs c!"env" [(c!"foo", c!"bar zxcv"), (c!"baz", c!"qux"), (c!"zxcv", c!"asdf\"qwerty"), (c!"zxcv", c!"zxcvzxvb")],
        .pairs c!"label" [(c!"foo", c!"bar")], .pairs c!"label" [(c!"foo", c!"bar")],
        .pairs c!"label" [(c!"foo bar", c!"baz qux")], .pairs c!"label" [(c!"foo  bar", c!"baz\"  qux")],
        .misc c!"foo" c!" bar"]]) := by decide +kernel

/-- what the programs show of a stage -/
structure ShownStage where
  index : Nat
  name : Option Str
  instructions : List Shown
  deriving DecidableEq

def shownStage (s : Stage) : ShownStage := ⟨s.index, s.name, s.instructions.map shown⟩

/-- the program of `/repo/src/lib.rs:14-31` -/
example : (docOf (c!"\n  FROM alpine:3.11 as builder\n  RUN echo \"hello world\" > /hello-world\n\n" ++
      c!"  FROM scratch\n  COPY --from=builder /hello-world /hello-world\n")).map
      (fun d => d.stages.map fun ss => ss.map shownStage) =
    some (some [⟨0, some c!"builder", [.from c!"alpine:3.11" 0 (some c!"builder"), .shell c!"run" c!"echo \"hello world\" > /hello-world"]⟩,
      ⟨1, none, [.from c!"scratch" 1 none, .copy [(c!"from", c!"builder")] [c!"/hello-world"] c!"/hello-world"]⟩]) := by
  decide +kernel

/-- the program of `/repo/src/stage.rs:103-117` -/
example : (docOf (c!"\n  FROM alpine:3.12 as build\n  RUN echo \"hello world\" > /foo\n\n" ++
      c!"  FROM ubuntu:18.04\n  COPY --from=0 /foo /foo\n")).map (fun d => d.stages.map fun ss => ss.map fun s => (s.index, s.name)) =
    some (some [(0, some c!"build"), (1, none)]) := by decide +kernel

end Verif.Conformance
