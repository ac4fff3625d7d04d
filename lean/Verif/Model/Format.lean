import Verif.Model.Accessors
import Verif.Model.Builder

/-!
# Formatting with options

`{:>8}`, `{:.3}`, `{:#?}` and the like: what the `fmt` functions of the crate do with the options of
the `Formatter`.  The functions of `std` they call are modelled as documented.
-/

namespace Verif

/-! ## `std` -/

/-- `fmt::Alignment` -/
inductive FmtAlign where
  | left
  | right
  | center
  deriving DecidableEq, Repr

/-- the options of a `fmt::Formatter` -/
structure FmtOpts where
  fill : Char := ' '
  align : Option FmtAlign := none
  width : Option Nat := none
  precision : Option Nat := none
  plus : Bool := false
  zero : Bool := false
  alternate : Bool := false
  deriving DecidableEq, Repr

namespace FmtOpts

/-- `Formatter::padding`, around `t`; `d` is the alignment if none is given -/
def padding (o : FmtOpts) (n : Nat) (d : FmtAlign) (t : Str) : Str :=
  let pre := match o.align.getD d with
    | .left => 0
    | .right => n
    | .center => n / 2
  List.replicate pre o.fill ++ t ++ List.replicate (n - pre) o.fill

/-- `Formatter::pad` -/
def pad (o : FmtOpts) (s : Str) : Str :=
  let t := match o.precision with
    | some p => s.take p
    | none => s
  match o.width with
  | none => t
  | some w => if w ≤ t.length then t else o.padding (w - t.length) .left t

/-- `Formatter::pad_integral` for a number that is not negative and has no prefix -/
def padIntegral (o : FmtOpts) (digits : Str) : Str :=
  let sign := if o.plus then ['+'] else []
  let n := sign.length + digits.length
  match o.width with
  | none => sign ++ digits
  | some w =>
    if w ≤ n then sign ++ digits
    else if o.zero then
      sign ++ padding { o with fill := '0', align := some .right } (w - n) .right digits
    else o.padding (w - n) .right (sign ++ digits)

end FmtOpts

/-- `Display` and `Debug for usize` -/
def fmtNum (o : FmtOpts) (n : Nat) : Str := o.padIntegral (decimal n)

/-- `fmt::builders::PadAdapter`: four blanks in front of each line; `on` says that a line starts -/
def padAdapter : Bool → Str → Str
  | _, [] => []
  | on, c :: s => (if on then c!"    " else []) ++ c :: padAdapter (c == '\n') s

/-- the brackets of `debug_struct`, `debug_tuple` and `debug_list` -/
inductive DebugKind where
  | brace
  | paren
  | bracket
  deriving DecidableEq, Repr

namespace DebugKind

def opening : DebugKind → Str
  | .brace => c!" {"
  | .paren => c!"("
  | .bracket => c!"["

def closing : DebugKind → Char
  | .brace => '}'
  | .paren => ')'
  | .bracket => ']'

/-- what `{:?}` writes between the brackets and the fields -/
def gap : DebugKind → Str
  | .brace => c!" "
  | _ => []

end DebugKind

mutual

/-- The calls an implementation of `Debug` makes: `num` formats a number, `text` writes a text whatever
the options are, `node` is one of the builders with its fields. -/
inductive DebugTree where
  | num (n : Nat)
  | text (t : Str)
  | node (name : Str) (kind : DebugKind) (fields : DebugTrees)

/-- the fields of a builder, with what stands in front of them -/
inductive DebugTrees where
  | nil
  | cons (label : Str) (t : DebugTree) (rest : DebugTrees)

end

mutual

/-- `{:?}`, with options for the numbers -/
def DebugTree.plainFmt (o : FmtOpts) : DebugTree → Str
  | .num n => fmtNum o n
  | .text t => t
  | .node name k .nil => name ++ k.opening ++ [k.closing]
  | .node name k (.cons l t r) => name ++ k.opening ++ k.gap ++ l ++ t.plainFmt o ++
      r.plainFmt o ++ k.gap ++ [k.closing]

/-- the fields after the first -/
def DebugTrees.plainFmt (o : FmtOpts) : DebugTrees → Str
  | .nil => []
  | .cons l t r => c!", " ++ l ++ t.plainFmt o ++ r.plainFmt o

end

mutual

/-- `{:#?}` -/
def DebugTree.prettyFmt (o : FmtOpts) : DebugTree → Str
  | .num n => fmtNum o n
  | .text t => t
  | .node name k .nil => name ++ k.opening ++ [k.closing]
  | .node name k (.cons l t r) => name ++ k.opening ++ c!"\n" ++
      padAdapter true (l ++ t.prettyFmt o ++ c!",\n") ++ r.prettyFmt o ++ [k.closing]

/-- the fields after the first -/
def DebugTrees.prettyFmt (o : FmtOpts) : DebugTrees → Str
  | .nil => []
  | .cons l t r => padAdapter true (l ++ t.prettyFmt o ++ c!",\n") ++ r.prettyFmt o

end

/-- `Debug::fmt` -/
def DebugTree.fmt (o : FmtOpts) (t : DebugTree) : Str :=
  if o.alternate then t.prettyFmt o else t.plainFmt o

namespace DebugTrees

def ofFields : List (Str × DebugTree) → DebugTrees
  | [] => .nil
  | (l, t) :: r => .cons (l ++ c!": ") t (ofFields r)

def ofList : List DebugTree → DebugTrees
  | [] => .nil
  | t :: r => .cons [] t (ofList r)

end DebugTrees

namespace DebugTree

/-- `f.debug_struct(name).field(…)….finish()` with at least one field -/
def struct (name : Str) (fields : List (Str × DebugTree)) : DebugTree :=
  .node name .brace (.ofFields fields)

/-- `f.debug_tuple(name).field(…)….finish()` with at least two fields, or one and a name -/
def tuple (name : Str) (fields : List DebugTree) : DebugTree := .node name .paren (.ofList fields)

/-- `Debug for Vec` -/
def list (ts : List DebugTree) : DebugTree := .node [] .bracket (.ofList ts)

/-- `Debug for Option` -/
def option : Option DebugTree → DebugTree
  | none => .text c!"None"
  | some t => tuple c!"Some" [t]

end DebugTree

/-! ## `Display` in the crate -/

/-- `/repo/src/util.rs:138-142` -/
def SpannedString.fmt (o : FmtOpts) (s : SpannedString) : Str := o.pad s.content

/-- `/repo/src/util.rs:194-204`: each `write!` has its own options -/
def BreakableString.fmt (_ : FmtOpts) (b : BreakableString) : Str :=
  b.components.flatMap fun
    | .string s => ({} : FmtOpts).pad s.content
    | .comment _ => []

/-- `/repo/src/image.rs:186-202`: each `write!` has its own options -/
def ImageRef.fmt (_ : FmtOpts) (r : ImageRef) : Str :=
  (match r.registry with
    | some reg => ({} : FmtOpts).pad reg ++ ['/']
    | none => []) ++
  ({} : FmtOpts).pad r.image ++
  (match r.tag with
    | some tag => ':' :: ({} : FmtOpts).pad tag
    | none =>
      match r.hash with
      | some hash => '@' :: ({} : FmtOpts).pad hash
      | none => [])

/-- `/repo/src/stage.rs:22-30` -/
def StageParent.fmt (o : FmtOpts) : StageParent → Str
  | .image i => i.fmt o
  | .stage n => fmtNum o n
  | .scratch => c!"scratch"

/-! ## `Debug` in the crate

The same calls as in `Model/Debug`, `Model/Examples` and `Model/Accessors`. -/

variable (plain : Char → Bool)

/-- `Debug for String`: the options are not used -/
def debugText (s : Str) : DebugTree := .text (debugStr plain s)

/-- `/repo/src/splicer.rs:95-102` -/
def Span.tree (s : Span) : DebugTree := .tuple [] [.num s.start, .num s.stop]

/-- `/repo/src/util.rs:126-130` -/
def SpannedString.tree (s : SpannedString) : DebugTree :=
  .struct c!"SpannedString" [(c!"span", s.span.tree), (c!"content", debugText plain s.content)]

/-- `/repo/src/util.rs:119-123` -/
def SpannedComment.tree (s : SpannedComment) : DebugTree :=
  .struct c!"SpannedComment" [(c!"span", s.span.tree), (c!"content", debugText plain s.content)]

/-- `/repo/src/util.rs:145-149` -/
def BreakableStringComponent.tree : BreakableStringComponent → DebugTree
  | .string s => .tuple c!"String" [s.tree plain]
  | .comment c => .tuple c!"Comment" [c.tree plain]

/-- `/repo/src/util.rs:186-190` -/
def BreakableString.tree (b : BreakableString) : DebugTree :=
  .struct c!"BreakableString" [(c!"span", b.span.tree),
    (c!"components", .list (b.components.map (·.tree plain)))]

/-- `/repo/src/util.rs:106-110` -/
def StringArray.tree (a : StringArray) : DebugTree :=
  .struct c!"StringArray" [(c!"span", a.span.tree),
    (c!"elements", .list (a.elements.map (·.tree plain)))]

/-- `/repo/src/util.rs:57-61` -/
def ShellOrExecExpr.tree : ShellOrExecExpr → DebugTree
  | .shell s => .tuple c!"Shell" [s.tree plain]
  | .exec a => .tuple c!"Exec" [a.tree plain]

/-- `/repo/src/image.rs:25-39` -/
def ImageRef.tree (i : ImageRef) : DebugTree :=
  .struct c!"ImageRef" [(c!"registry", .option (i.registry.map (debugText plain))),
    (c!"image", debugText plain i.image), (c!"tag", .option (i.tag.map (debugText plain))),
    (c!"hash", .option (i.hash.map (debugText plain)))]

/-- `FromFlag` and `CopyFlag` (`/repo/src/instructions/from.rs:19-24`, `copy.rs:16-21`) -/
def Flag.tree (name : Str) (f : Flag) : DebugTree :=
  .struct name [(c!"span", f.span.tree), (c!"name", f.name.tree plain),
    (c!"value", f.value.tree plain)]

/-- `/repo/src/instructions/from.rs:61-70` -/
def FromInstruction.tree (i : FromInstruction) : DebugTree :=
  .struct c!"FromInstruction" [(c!"span", i.span.tree),
    (c!"flags", .list (i.flags.map (·.tree plain c!"FromFlag"))),
    (c!"image", i.image.tree plain), (c!"image_parsed", i.image_parsed.tree plain),
    (c!"index", .num i.index), (c!"alias", .option (i.alias.map (·.tree plain)))]

/-- `/repo/src/instructions/arg.rs:15-29` -/
def ArgInstruction.tree (i : ArgInstruction) : DebugTree :=
  .struct c!"ArgInstruction" [(c!"span", i.span.tree), (c!"name", i.name.tree plain),
    (c!"value", .option (i.value.map (·.tree plain)))]

/-- `/repo/src/instructions/label.rs:15-20` -/
def Label.tree (l : Label) : DebugTree :=
  .struct c!"Label" [(c!"span", l.span.tree), (c!"name", l.name.tree plain),
    (c!"value", l.value.tree plain)]

/-- `/repo/src/instructions/label.rs:83-87` -/
def LabelInstruction.tree (i : LabelInstruction) : DebugTree :=
  .struct c!"LabelInstruction" [(c!"span", i.span.tree),
    (c!"labels", .list (i.labels.map (·.tree plain)))]

/-- `RunInstruction`, `CmdInstruction` and `EntrypointInstruction`
(`/repo/src/instructions/run.rs:17-21`, `cmd.rs:17-21`, `entrypoint.rs:17-21`) -/
def ExecInstruction.tree (name : Str) (i : ExecInstruction) : DebugTree :=
  .struct name [(c!"span", i.span.tree), (c!"expr", i.expr.tree plain)]

/-- `/repo/src/instructions/copy.rs:54-60` -/
def CopyInstruction.tree (i : CopyInstruction) : DebugTree :=
  .struct c!"CopyInstruction" [(c!"span", i.span.tree),
    (c!"flags", .list (i.flags.map (·.tree plain c!"CopyFlag"))),
    (c!"sources", .list (i.sources.map (·.tree plain))),
    (c!"destination", i.destination.tree plain)]

/-- `/repo/src/instructions/env.rs:15-20` -/
def EnvVar.tree (v : EnvVar) : DebugTree :=
  .struct c!"EnvVar" [(c!"span", v.span.tree), (c!"key", v.key.tree plain),
    (c!"value", v.value.tree plain)]

/-- `/repo/src/instructions/env.rs:35-39` -/
def EnvInstruction.tree (i : EnvInstruction) : DebugTree :=
  .struct c!"EnvInstruction" [(c!"span", i.span.tree),
    (c!"vars", .list (i.vars.map (·.tree plain)))]

/-- `/repo/src/instructions/misc.rs:18-23` -/
def MiscInstruction.tree (i : MiscInstruction) : DebugTree :=
  .struct c!"MiscInstruction" [(c!"span", i.span.tree),
    (c!"instruction", i.instruction.tree plain), (c!"arguments", i.arguments.tree plain)]

/-- `/repo/src/dockerfile_parser.rs:35-46` -/
def Instruction.tree : Instruction → DebugTree
  | .from i => .tuple c!"From" [i.tree plain]
  | .arg i => .tuple c!"Arg" [i.tree plain]
  | .label i => .tuple c!"Label" [i.tree plain]
  | .run i => .tuple c!"Run" [i.tree plain c!"RunInstruction"]
  | .entrypoint i => .tuple c!"Entrypoint" [i.tree plain c!"EntrypointInstruction"]
  | .cmd i => .tuple c!"Cmd" [i.tree plain c!"CmdInstruction"]
  | .copy i => .tuple c!"Copy" [i.tree plain]
  | .env i => .tuple c!"Env" [i.tree plain]
  | .misc i => .tuple c!"Misc" [i.tree plain]

/-- `/repo/src/dockerfile_parser.rs:304-314` -/
def Dockerfile.tree (d : Dockerfile) : DebugTree :=
  .struct c!"Dockerfile" [(c!"content", debugText plain d.content),
    (c!"global_args", .list (d.global_args.map (·.tree plain))),
    (c!"instructions", .list (d.instructions.map (·.tree plain)))]

/-- `/repo/src/stage.rs:10-20` -/
def StageParent.tree : StageParent → DebugTree
  | .image i => .tuple c!"Image" [i.tree plain]
  | .stage n => .tuple c!"Stage" [.num n]
  | .scratch => .text c!"Scratch"

/-- `/repo/src/stage.rs:45-64` -/
def Stage.tree (s : Stage) : DebugTree :=
  .struct c!"Stage" [(c!"index", .num s.index), (c!"name", .option (s.name.map (debugText plain))),
    (c!"instructions", .list (s.instructions.map (·.tree plain))),
    (c!"parent", s.parent.tree plain), (c!"root", s.root.tree plain)]

/-- `Stages` (`/repo/src/stage.rs:118-121`) -/
def stagesTree (stages : List Stage) : DebugTree :=
  .struct c!"Stages" [(c!"stages", .list (stages.map (·.tree plain)))]

end Verif
