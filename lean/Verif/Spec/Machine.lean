import Verif.Spec.Subst

/-!
# Specification: the texts that are built when variables are replaced (C80)
-/

namespace Verif
namespace Spec

/-- `Built vars d u r t`: when the references of `r` are replaced from left to right, with at most `d` levels of
nesting, and `u` is what has become of the text in front of `r`, then the text `t` is built on the way: the
text after every single replacement, and the same for the values of the variables. -/
inductive Built (vars : VarMap) : Nat → Str → Str → Str → Prop
  | here {d u r} : Built vars d u r (u ++ r)
  | lit {d u c r t} (h : ∀ n r', ¬ RefAt (c :: r) n r') (ht : Built vars d (u ++ [c]) r t) : Built vars d u (c :: r) t
  | inner {d u r n r' v t} (h : RefAt r n r') (hv : vars n = some v) (ht : Built vars d [] v t) : Built vars (d + 1) u r t
  | next {d u r n r' v e t} (h : RefAt r n r') (hv : vars n = some v) (he : Expands vars d v e)
      (ht : Built vars (d + 1) (u ++ e) r' t) : Built vars (d + 1) u r t

end Spec
end Verif
