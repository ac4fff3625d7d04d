import Verif.Spec.Subst
import Verif.Spec.Image

/-!
# The pieces of a text with references (C95)
-/

namespace Verif.Spec

/-- No reference can lie across the place between `s` and `t`: one of them is empty, or `s` ends with a character
that is never inside of a reference, or `t` starts with one. -/
def Separate (s t : Str) : Prop :=
  s = [] ∨ t = [] ∨ (∃ u c, s = u ++ [c] ∧ ¬ WordChar c ∧ c ≠ '$' ∧ c ≠ '{') ∨
  ∃ c v, t = c :: v ∧ ¬ WordChar c ∧ c ≠ '{' ∧ c ≠ '}'

/-- both are nothing, or the second is the expansion of the first -/
def ExpandsOpt (vars : VarMap) (d : Nat) : Option Str → Option Str → Prop
  | none, none => True
  | some v, some w => Expands vars d v w
  | _, _ => False

/-- each part of `p` is the expansion of the same part of `r` -/
def ExpandsParts (vars : VarMap) (d : Nat) (r p : ImageRef) : Prop :=
  ExpandsOpt vars d r.registry p.registry ∧ Expands vars d r.image p.image ∧
  ExpandsOpt vars d r.tag p.tag ∧ ExpandsOpt vars d r.hash p.hash

end Verif.Spec
