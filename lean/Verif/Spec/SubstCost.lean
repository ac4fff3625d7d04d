import Verif.Spec.Subst

/-! Specification vocabulary for the work of a substitution (C66). -/

namespace Verif.Spec

/-- `Work vars d s n ok`: going through `s` from left to right with `d` levels left, `n` values are
visited (those inside of visited ones included); `ok` tells whether the end of `s` is reached. It is
not if a reference is met with no level left, is undefined, or has a value of which the end is not
reached. -/
inductive Work (vars : VarMap) : Nat → Str → Nat → Bool → Prop
  | nil (d : Nat) : Work vars d [] 0 true
  | lit (d : Nat) (c : Char) (cs : Str) (n : Nat) (ok : Bool) (h : ∀ m r, ¬ RefAt (c :: cs) m r)
      (hw : Work vars d cs n ok) : Work vars d (c :: cs) n ok
  | deep (s name rest : Str) (h : RefAt s name rest) : Work vars 0 s 0 false
  | undefined (d : Nat) (s name rest : Str) (h : RefAt s name rest) (hv : vars name = none) :
      Work vars (d + 1) s 0 false
  | stop (d : Nat) (s name rest v : Str) (n : Nat) (h : RefAt s name rest)
      (hv : vars name = some v) (hw : Work vars d v n false) : Work vars (d + 1) s (n + 1) false
  | step (d : Nat) (s name rest v : Str) (n m : Nat) (ok : Bool) (h : RefAt s name rest)
      (hv : vars name = some v) (hw : Work vars d v n true) (hr : Work vars (d + 1) rest m ok) :
      Work vars (d + 1) s (n + 1 + m) ok

end Verif.Spec
