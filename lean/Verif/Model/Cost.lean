import Verif.Model.Grammar

/-!
# Counting the work of the engine

`/repo/src/dockerfile_parser.rs:316-318` (`parse_dockerfile`) hands the text to pest
(`/repo/src/parser.rs:3-6`), a backtracking recursive-descent engine without memoisation.  This
file is the interpreter of `Model/Peg.lean` once more, with a meter that counts

* `evals`: how many expressions are evaluated (one per call of a combinator: literals, sequences,
  choices, each round of a repetition, options, lookaheads, rules, recursive references);
* `nest`: how many of those evaluations are in progress at the same time, at most.  The rounds of
  a repetition follow one another (pest's `repeat` is a loop) and do not nest; everything else
  is a call inside a call.

Comparing the input with a literal counts as one evaluation whatever the literal's length (the
longest literal of the grammar has ten characters).  pest's optimiser merges some expressions (for
example the common beginning of two alternatives), so that the numbers for the compiled grammar
differ from these by constant factors.  Nothing here changes what is parsed:
`Verif.stepM_fst` and `Verif.runM_fst` in `Proof/Cost.lean`.
-/

namespace Verif

/-- Evaluations made, and the largest number of them in progress at once. -/
structure Meter where
  evals : Nat
  nest : Nat
  deriving DecidableEq, Repr

namespace Meter
/-- An evaluation without inner evaluations. -/
def leaf : Meter := ⟨1, 1⟩
/-- An evaluation around what was metered. -/
def around (m : Meter) : Meter := ⟨m.evals + 1, m.nest + 1⟩
/-- One after the other. -/
def andThen (a b : Meter) : Meter := ⟨a.evals + b.evals, max a.nest b.nest⟩
end Meter

/-- `Verif.step` with the meter running. -/
def stepM (body : RecRule → PExpr) (again : PExpr → Bool → Nat → Str → Res × Meter) :
    PExpr → Bool → Nat → Str → Res × Meter
  | .str w, _, p, s =>
    match stripPrefix w s with
    | some s' => (.ok (p + blen w) s' [], .leaf)
    | none => (.fail, .leaf)
  | .istr w, _, p, s =>
    match stripPrefixI w s with
    | some s' => (.ok (p + blen w) s' [], .leaf)
    | none => (.fail, .leaf)
  | .range lo hi, _, p, s =>
    match s with
    | [] => (.fail, .leaf)
    | c :: cs => if lo ≤ c ∧ c ≤ hi then (.ok (p + c.utf8Size) cs [], .leaf) else (.fail, .leaf)
  | .any, _, p, s =>
    match s with
    | [] => (.fail, .leaf)
    | c :: cs => (.ok (p + c.utf8Size) cs [], .leaf)
  | .soi, _, p, s => if p = 0 then (.ok p s [], .leaf) else (.fail, .leaf)
  | .eoi, _, p, s =>
    match s with
    | [] => (.ok p [] [], .leaf)
    | _ :: _ => (.fail, .leaf)
  | .seq a b, q, p, s =>
    match stepM body again a q p s with
    | (.ok p1 s1 t1, m1) =>
      match stepM body again b q p1 s1 with
      | (.ok p2 s2 t2, m2) => (.ok p2 s2 (t1 ++ t2), (m1.andThen m2).around)
      | (.fail, m2) => (.fail, (m1.andThen m2).around)
      | (.oof, m2) => (.oof, (m1.andThen m2).around)
    | (.fail, m1) => (.fail, m1.around)
    | (.oof, m1) => (.oof, m1.around)
  | .alt a b, q, p, s =>
    match stepM body again a q p s with
    | (.ok p1 s1 t1, m1) => (.ok p1 s1 t1, m1.around)
    | (.fail, m1) =>
      ((stepM body again b q p s).1, (m1.andThen (stepM body again b q p s).2).around)
    | (.oof, m1) => (.oof, m1.around)
  | .star e, q, p, s =>
    match stepM body again e q p s with
    | (.ok p1 s1 t1, m1) =>
      match again (.star e) q p1 s1 with
      | (.ok p2 s2 t2, m2) => (.ok p2 s2 (t1 ++ t2), m1.around.andThen m2)
      | (.fail, m2) => (.fail, m1.around.andThen m2)
      | (.oof, m2) => (.oof, m1.around.andThen m2)
    | (.fail, m1) => (.ok p s [], m1.around)
    | (.oof, m1) => (.oof, m1.around)
  | .opt e, q, p, s =>
    match stepM body again e q p s with
    | (.ok p1 s1 t1, m1) => (.ok p1 s1 t1, m1.around)
    | (.fail, m1) => (.ok p s [], m1.around)
    | (.oof, m1) => (.oof, m1.around)
  | .neg e, q, p, s =>
    match stepM body again e q p s with
    | (.ok _ _ _, m1) => (.fail, m1.around)
    | (.fail, m1) => (.ok p s [], m1.around)
    | (.oof, m1) => (.oof, m1.around)
  | .rule k r e, q, p, s =>
    match stepM body again e (innerQuiet k q) p s with
    | (.ok p1 s1 t1, m1) =>
      (.ok p1 s1 (emitToks k r q p p1 (s.take (s.length - s1.length)) t1), m1.around)
    | (.fail, m1) => (.fail, m1.around)
    | (.oof, m1) => (.oof, m1.around)
  | .recur r, q, p, s => ((again (body r) q p s).1, (again (body r) q p s).2.around)

/-- `Verif.runFuel` with the meter running. -/
def runM (body : RecRule → PExpr) : Nat → PExpr → Bool → Nat → Str → Res × Meter
  | 0 => fun _ _ _ _ => (.oof, .leaf)
  | n + 1 => stepM body (runM body n)

/-- The meter reading after the engine has run the rule `dockerfile` on a text, as
`parse_dockerfile` makes it do (`/repo/src/dockerfile_parser.rs:316-318`). -/
def engineMeter (s : Str) : Meter := (runM G.body (s.length + 2) G.dockerfile false 0 s).2

end Verif
