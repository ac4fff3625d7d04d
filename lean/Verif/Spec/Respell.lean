import Verif.Spec.Subst
import Verif.Spec.Edit

/-!
# Other names for variables (C94)

`Respelled ρ s s'`: the texts have the same characters outside of references, and where `s` refers to
`n`, `s'` refers to `ρ n`.  A reference may be written with braces in one and without in the other.
-/

namespace Verif.Spec

inductive Respelled (ρ : Str → Str) : Str → Str → Prop
  | nil : Respelled ρ [] []
  | lit {c : Char} {cs cs' : Str} (h : ∀ n r, ¬ RefAt (c :: cs) n r) (h' : ∀ n r, ¬ RefAt (c :: cs') n r)
      (ht : Respelled ρ cs cs') : Respelled ρ (c :: cs) (c :: cs')
  | ref {s n rest s' rest' : Str} (h : RefAt s n rest) (h' : RefAt s' (ρ n) rest')
      (ht : Respelled ρ rest rest') : Respelled ρ s s'

/-- both are nothing, or the second text is the first with the new names -/
def RespelledOpt (ρ : Str → Str) : Option Str → Option Str → Prop
  | none, none => True
  | some v, some v' => Respelled ρ v v'
  | _, _ => False

/-- the `ARG` has the new name, and the new names in its value -/
def RespelledArg (ρ : Str → Str) (a a' : ArgInstruction) : Prop :=
  a'.name.content = ρ a.name.content ∧ RespelledOpt ρ (a.value.map (·.content)) (a'.value.map (·.content))

/-- the same for lists -/
def RespelledArgs (ρ : Str → Str) : List ArgInstruction → List ArgInstruction → Prop
  | [], [] => True
  | a :: as, b :: bs => RespelledArg ρ a b ∧ RespelledArgs ρ as bs
  | _, _ => False

/-- two names exchanged -/
def exchanged (a b n : Str) : Str := if n = a then b else if n = b then a else n

end Verif.Spec
