import Verif.Model.Dockerfile

/-!
# Moving the positions in parsed values

`x.remap f` is `x` with every position `q` in a span replaced by `f q`.  Used to say that two values
differ in their spans only (`f` constant, C42, C52), or how spans move when the text is edited (C43).
-/

namespace Verif

def Span.remap (f : Nat → Nat) (s : Span) : Span := ⟨f s.start, f s.stop⟩

def SpannedString.remap (f : Nat → Nat) (s : SpannedString) : SpannedString :=
  { s with span := s.span.remap f }

def SpannedComment.remap (f : Nat → Nat) (s : SpannedComment) : SpannedComment :=
  { s with span := s.span.remap f }

def BreakableStringComponent.remap (f : Nat → Nat) :
    BreakableStringComponent → BreakableStringComponent
  | .string s => .string (s.remap f)
  | .comment c => .comment (c.remap f)

def BreakableString.remap (f : Nat → Nat) (b : BreakableString) : BreakableString :=
  { span := b.span.remap f, components := b.components.map (·.remap f) }

def StringArray.remap (f : Nat → Nat) (a : StringArray) : StringArray :=
  { span := a.span.remap f, elements := a.elements.map (·.remap f) }

def ShellOrExecExpr.remap (f : Nat → Nat) : ShellOrExecExpr → ShellOrExecExpr
  | .shell s => .shell (s.remap f)
  | .exec a => .exec (a.remap f)

def Flag.remap (f : Nat → Nat) (x : Flag) : Flag :=
  { span := x.span.remap f, name := x.name.remap f, value := x.value.remap f }

def FromInstruction.remap (f : Nat → Nat) (i : FromInstruction) : FromInstruction :=
  { i with span := i.span.remap f, flags := i.flags.map (·.remap f), image := i.image.remap f,
           alias := i.alias.map (·.remap f) }

def ArgInstruction.remap (f : Nat → Nat) (i : ArgInstruction) : ArgInstruction :=
  { span := i.span.remap f, name := i.name.remap f, value := i.value.map (·.remap f) }

def Label.remap (f : Nat → Nat) (l : Label) : Label :=
  { span := l.span.remap f, name := l.name.remap f, value := l.value.remap f }

def LabelInstruction.remap (f : Nat → Nat) (i : LabelInstruction) : LabelInstruction :=
  { span := i.span.remap f, labels := i.labels.map (·.remap f) }

def ExecInstruction.remap (f : Nat → Nat) (i : ExecInstruction) : ExecInstruction :=
  { span := i.span.remap f, expr := i.expr.remap f }

def CopyInstruction.remap (f : Nat → Nat) (i : CopyInstruction) : CopyInstruction :=
  { span := i.span.remap f, flags := i.flags.map (·.remap f),
    sources := i.sources.map (·.remap f), destination := i.destination.remap f }

def EnvVar.remap (f : Nat → Nat) (v : EnvVar) : EnvVar :=
  { span := v.span.remap f, key := v.key.remap f, value := v.value.remap f }

def EnvInstruction.remap (f : Nat → Nat) (i : EnvInstruction) : EnvInstruction :=
  { span := i.span.remap f, vars := i.vars.map (·.remap f) }

def MiscInstruction.remap (f : Nat → Nat) (i : MiscInstruction) : MiscInstruction :=
  { span := i.span.remap f, instruction := i.instruction.remap f,
    arguments := i.arguments.remap f }

def Instruction.remap (f : Nat → Nat) : Instruction → Instruction
  | .from i => .from (i.remap f)
  | .arg i => .arg (i.remap f)
  | .label i => .label (i.remap f)
  | .run i => .run (i.remap f)
  | .entrypoint i => .entrypoint (i.remap f)
  | .cmd i => .cmd (i.remap f)
  | .copy i => .copy (i.remap f)
  | .env i => .env (i.remap f)
  | .misc i => .misc (i.remap f)

/-- the values of a document, without text and positions -/
def Dockerfile.bare (d : Dockerfile) : Dockerfile :=
  { content := [], global_args := d.global_args.map (·.remap fun _ => 0)
    instructions := d.instructions.map (·.remap fun _ => 0) }

end Verif
