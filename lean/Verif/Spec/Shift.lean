import Verif.Model.Dockerfile

/-!
# Moving parsed values

`x.shift k` is `x` with every span moved `k` bytes to the right; `i.renumber n` adds `n` to the
stage index of a `FROM`.  Used to say what a piece of text parses to when it is not at the
beginning of the document (C33, C40, C43, C48).
-/

namespace Verif

def Span.shift (k : Nat) (s : Span) : Span := ⟨s.start + k, s.stop + k⟩

def SpannedString.shift (k : Nat) (s : SpannedString) : SpannedString :=
  { s with span := s.span.shift k }

def SpannedComment.shift (k : Nat) (s : SpannedComment) : SpannedComment :=
  { s with span := s.span.shift k }

def BreakableStringComponent.shift (k : Nat) :
    BreakableStringComponent → BreakableStringComponent
  | .string s => .string (s.shift k)
  | .comment c => .comment (c.shift k)

def BreakableString.shift (k : Nat) (b : BreakableString) : BreakableString :=
  { span := b.span.shift k, components := b.components.map (·.shift k) }

def StringArray.shift (k : Nat) (a : StringArray) : StringArray :=
  { span := a.span.shift k, elements := a.elements.map (·.shift k) }

def ShellOrExecExpr.shift (k : Nat) : ShellOrExecExpr → ShellOrExecExpr
  | .shell s => .shell (s.shift k)
  | .exec a => .exec (a.shift k)

def Flag.shift (k : Nat) (f : Flag) : Flag :=
  { span := f.span.shift k, name := f.name.shift k, value := f.value.shift k }

def FromInstruction.shift (k : Nat) (i : FromInstruction) : FromInstruction :=
  { i with span := i.span.shift k, flags := i.flags.map (·.shift k), image := i.image.shift k,
           alias := i.alias.map (·.shift k) }

def ArgInstruction.shift (k : Nat) (i : ArgInstruction) : ArgInstruction :=
  { span := i.span.shift k, name := i.name.shift k, value := i.value.map (·.shift k) }

def Label.shift (k : Nat) (l : Label) : Label :=
  { span := l.span.shift k, name := l.name.shift k, value := l.value.shift k }

def LabelInstruction.shift (k : Nat) (i : LabelInstruction) : LabelInstruction :=
  { span := i.span.shift k, labels := i.labels.map (·.shift k) }

def ExecInstruction.shift (k : Nat) (i : ExecInstruction) : ExecInstruction :=
  { span := i.span.shift k, expr := i.expr.shift k }

def CopyInstruction.shift (k : Nat) (i : CopyInstruction) : CopyInstruction :=
  { span := i.span.shift k, flags := i.flags.map (·.shift k),
    sources := i.sources.map (·.shift k), destination := i.destination.shift k }

def EnvVar.shift (k : Nat) (v : EnvVar) : EnvVar :=
  { span := v.span.shift k, key := v.key.shift k, value := v.value.shift k }

def EnvInstruction.shift (k : Nat) (i : EnvInstruction) : EnvInstruction :=
  { span := i.span.shift k, vars := i.vars.map (·.shift k) }

def MiscInstruction.shift (k : Nat) (i : MiscInstruction) : MiscInstruction :=
  { span := i.span.shift k, instruction := i.instruction.shift k,
    arguments := i.arguments.shift k }

def Instruction.shift (k : Nat) : Instruction → Instruction
  | .from i => .from (i.shift k)
  | .arg i => .arg (i.shift k)
  | .label i => .label (i.shift k)
  | .run i => .run (i.shift k)
  | .entrypoint i => .entrypoint (i.shift k)
  | .cmd i => .cmd (i.shift k)
  | .copy i => .copy (i.shift k)
  | .env i => .env (i.shift k)
  | .misc i => .misc (i.shift k)

/-- The instruction with `n` more stages in front of it. -/
def Instruction.renumber (n : Nat) : Instruction → Instruction
  | .from i => .from { i with index := i.index + n }
  | i => i

namespace Spec

/-- What `d` becomes when the text `pre`, which holds no instruction, is put in front of it. -/
def prefixed (pre : Str) (d : Dockerfile) : Dockerfile :=
  { content := pre ++ d.content
    global_args := d.global_args.map (·.shift (blen pre))
    instructions := d.instructions.map (·.shift (blen pre)) }

end Spec

end Verif
