import Verif.Model.Image

/-!
# The work of `substitute`

`substitute` (`/repo/src/image.rs:55-94`) once more, with the number of its calls (this one and the
recursive ones).
-/

namespace Verif

/-- `substLoop` with the calls that are made -/
def substLoopM (vars : VarMap) (recSub : Str → List Str → Option (Option Str × List Str) × Nat) :
    List Capture → Splicer → List Str → Option (Option Str × List Str) × Nat
  | [], sp, used => (some (some sp.content, used), 0)
  | cap :: caps, sp, used =>
    match vars cap.name with
    | none => (some (none, used), 0)
    | some content =>
      match recSub content used with
      | (none, n) => (none, n)
      | (some (none, used'), n) => (some (none, used'), n)
      | (some (some sub, used'), n) =>
        match sp.splice cap.range sub with
        | none => (none, n)
        | some sp' =>
          ((substLoopM vars recSub caps sp' (setInsert cap.name used')).1,
            n + (substLoopM vars recSub caps sp' (setInsert cap.name used')).2)

/-- `substitute` with the number of calls -/
def substituteM (vars : VarMap) : Nat → Str → List Str → Option (Option Str × List Str) × Nat
  | 0, s, used =>
    match captures s with
    | [] => (some (some s, used), 1)
    | _ :: _ => (some (none, used), 1)
  | d + 1, s, used =>
    ((substLoopM vars (substituteM vars d) (captures s) (Splicer.fromStr s) used).1,
      1 + (substLoopM vars (substituteM vars d) (captures s) (Splicer.fromStr s) used).2)

/-- the number of calls of `substitute` in `resolve_vars` (`/repo/src/image.rs:153-172`) -/
def ImageRef.resolveCalls (r : ImageRef) (d : Dockerfile) : Nat :=
  (substituteM (argVars d.global_args) 16 r.display []).2

end Verif
