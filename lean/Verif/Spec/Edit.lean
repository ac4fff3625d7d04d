import Verif.Spec.Update
import Verif.Spec.Like
import Verif.Spec.Fields
import Verif.Spec.Quoted

/-!
# New texts in a document

Which texts of a document may be replaced by which others so that the structure of the document does
not change, and what the document should look like afterwards (C57).
-/

namespace Verif
namespace Spec

/-- what `t` stands for: a text in quotes is unquoted -/
def contentOf (unq : Unquote) (t : Str) : Str :=
  match Src.read unq t with
  | .ok c => c
  | .error _ => []

/-- `t` can be read: it is in no quotes, or it can be unquoted. -/
def Readable (unq : Unquote) (t : Str) : Prop := ∃ c, Src.read unq t = .ok c

/-- the value of a variable: only a text in quotes is unquoted -/
def envContent (unq : Unquote) (t : Str) : Str := if QuotedText t then contentOf unq t else t

/-- the first physical line starts with a blank and is not blank -/
def BlankWord : List BreakableStringComponent → Prop
  | .string s :: _ => ∃ b c u, s.content = b ++ c :: u ∧ b ≠ [] ∧ Blanks b ∧ c ≠ ' ' ∧ c ≠ '\t'
  | _ => False

/-! ## the texts of an instruction that may be replaced, and the condition for the new text -/

abbrev Field := Span × (Str → Prop)

def flagFields (unq : Unquote) (f : Flag) : List Field :=
  [(f.name.span, Over IsAlpha), (f.value.span, Readable unq)]

/-- the physical lines, and the comments between them -/
def componentFields (P Q : Str → Prop) : List BreakableStringComponent → List Field
  | [] => []
  | .string s :: cs => (s.span, P) :: componentFields P Q cs
  | .comment s :: cs => (s.span, Q) :: componentFields P Q cs

def exprFields (unq : Unquote) : ShellOrExecExpr → List Field
  | .shell b => componentFields (fun _ => True) (fun _ => True) b.components
  | .exec a => a.elements.map fun s => (s.span, Readable unq)

/-- Quotes have a meaning only in a value of one component, and only if they are closed at its end. -/
def envFields (unq : Unquote) (v : EnvVar) : List Field :=
  (v.key.span, Over IsWord) ::
    componentFields (if v.value.components.length = 1
      then fun t => QuotedText t → Readable unq t else fun _ => True)
      (fun _ => True) v.value.components

/-- Labels: a text in quotes may go over several lines.

`COPY`: the first path must not look like a flag (this is asked here of all of them).

Unknown instructions: a keyword whose arguments are not as they should be is taken for an unknown
instruction, and with other arguments it need not be one, so these are left out. -/
def fieldsOf (unq : Unquote) : Instruction → List Field
  | .from i => i.flags.flatMap (flagFields unq) ++
      (i.image.span, fun t => Over IsImageChar t ∧ DigestOK (ImageRef.parse t)) ::
      (i.alias.map fun a => (a.span, Over IsIdent)).toList
  | .arg i => (i.name.span, fun t => ∃ c b, t = c :: b ∧ IsAlpha c ∧ ∀ d ∈ b, IsWord d) ::
      (i.value.map fun v => (v.span, Readable unq)).toList
  | .label i => i.labels.flatMap fun l =>
      [(l.name.span, fun t => Readable unq (Src.joinLines t)),
       (l.value.span, fun t => Readable unq (Src.joinLines t))]
  | .run i | .cmd i | .entrypoint i => exprFields unq i.expr
  | .copy i => i.flags.flatMap (flagFields unq) ++
      (i.sources ++ [i.destination]).map fun s => (s.span, fun t => Readable unq t ∧ ¬ LooksLikeFlag t)
  | .env i => i.vars.flatMap (envFields unq)
  | .misc i => componentFields
      (fun _ => ¬ IsKeyword i.instruction.content ∧ BlankWord i.arguments.components)
      (fun _ => ¬ IsKeyword i.instruction.content ∧ BlankWord i.arguments.components)
      i.arguments.components

/-! ## the new document -/

section
variable (es : List Edit)

/-- the string with another content if there is an edit for it; `f` says what a text stands for -/
def newStr (f : Str → Str) (s : SpannedString) : SpannedString :=
  match es.find? fun e => e.1 == s.span with
  | some e => ⟨s.span, f e.2⟩
  | none => s

def newComponent (f : Str → Str) : BreakableStringComponent → BreakableStringComponent
  | .string s => .string (newStr es f s)
  | .comment c =>
    let s := newStr es id ⟨c.span, c.content⟩
    .comment ⟨s.span, s.content⟩

def newBreakable (f : Str → Str) (b : BreakableString) : BreakableString :=
  { b with components := b.components.map (newComponent es f) }

variable (unq : Unquote)

def newFlag (f : Flag) : Flag :=
  { f with name := newStr es id f.name, value := newStr es (contentOf unq) f.value }

def newExpr : ShellOrExecExpr → ShellOrExecExpr
  | .shell b => .shell (newBreakable es id b)
  | .exec a => .exec { a with elements := a.elements.map (newStr es (contentOf unq)) }

def newExec (i : ExecInstruction) : ExecInstruction := { i with expr := newExpr es unq i.expr }

def newArg (i : ArgInstruction) : ArgInstruction :=
  { i with name := newStr es id i.name, value := i.value.map (newStr es (contentOf unq)) }

def newVar (v : EnvVar) : EnvVar :=
  { v with key := newStr es id v.key
           value := newBreakable es (if v.value.components.length = 1 then envContent unq else id) v.value }

def newInstr : Instruction → Instruction
  | .from i => .from { i with
      flags := i.flags.map (newFlag es unq)
      image := newStr es id i.image
      image_parsed := ImageRef.parse (newStr es id i.image).content
      alias := i.alias.map (newStr es id) }
  | .arg i => .arg (newArg es unq i)
  | .label i => .label { i with labels := i.labels.map fun l =>
      { l with name := newStr es (fun t => contentOf unq (Src.joinLines t)) l.name
               value := newStr es (fun t => contentOf unq (Src.joinLines t)) l.value } }
  | .run i => .run (newExec es unq i)
  | .cmd i => .cmd (newExec es unq i)
  | .entrypoint i => .entrypoint (newExec es unq i)
  | .copy i => .copy { i with
      flags := i.flags.map (newFlag es unq)
      sources := i.sources.map (newStr es (contentOf unq))
      destination := newStr es (contentOf unq) i.destination }
  | .env i => .env { i with vars := i.vars.map (newVar es unq) }
  | .misc i => .misc { i with arguments := newBreakable es id i.arguments }

/-- The document after the edits, with its positions moved. -/
def edited (s : Str) (d : Dockerfile) : Dockerfile :=
  { content := simul es 0 s
    global_args := d.global_args.map fun a => (newArg es unq a).remap (movedTo es)
    instructions := d.instructions.map fun i => (newInstr es unq i).remap (movedTo es) }

end

end Spec
end Verif
