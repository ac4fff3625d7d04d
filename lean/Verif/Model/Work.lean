import Verif.Model.Stage

/-!
# The work of the parts after the parser

Functions of the other modules once more, with the number of steps of their loops (C83).
-/

namespace Verif

/-! ## shell text -/

mutual
/-- `parse_any_breakable_inner` (`/repo/src/util.rs:252-271`) on a pair, with the number of components that
are moved into a vector: one for every `push`, as many as there are for every `extend` -/
def breakableM : Tok → Result (List BreakableStringComponent) × Nat
  | .node _ _ _ _ children => breakableListM children
/-- its loop -/
def breakableListM : List Tok → Result (List BreakableStringComponent) × Nat
  | [] => (.ok [], 0)
  | field :: fs =>
    match field.rule with
    | .any_breakable =>
      match breakableM field with
      | (.error e, n) => (.error e, n)
      | (.ok cs, n) => ((breakableListM fs).1.map (cs ++ ·), n + cs.length + (breakableListM fs).2)
    | .comment => ((breakableListM fs).1.map (.comment { span := field.span, content := field.text } :: ·), 1 + (breakableListM fs).2)
    | .any_content => ((breakableListM fs).1.map (.string { span := field.span, content := field.text } :: ·), 1 + (breakableListM fs).2)
    | _ => (.error (unexpectedToken field), 0)
end

/-! ## stages -/

/-- `Stages::get_by_name` (`/repo/src/stage.rs:169-171`) with the number of stages that are looked at -/
def getByNameM : List Stage → Str → Option Stage × Nat
  | [], _ => (none, 0)
  | s :: ss, name =>
    if s.name == some (lower name) then (some s, 1)
    else ((getByNameM ss name).1, 1 + (getByNameM ss name).2)

/-- the parent of a stage (`/repo/src/stage.rs:133-140`) -/
def parentOfM (stages : List Stage) (f : FromInstruction) : StageParent × Nat :=
  let imageName := lower f.image.content
  if imageName = ['s', 'c', 'r', 'a', 't', 'c', 'h'] then (.scratch, 0)
  else
    match getByNameM stages imageName with
    | (some stage, n) => (.stage stage.index, n)
    | (none, n) => (.image f.image_parsed, n)

/-- the loop of `Stages::new` (`/repo/src/stage.rs:131-163`) -/
def stagesLoopM : List Instruction → List Stage → Nat → Option (List Stage) × Nat
  | [], stages, _ => (some stages, 0)
  | .from f :: rest, stages, next =>
    let parent := parentOfM stages f
    match rootOf stages parent.1 with
    | none => (none, parent.2)
    | some root =>
      let r := stagesLoopM rest
        (stages ++ [{ index := next
                      name := f.alias.map (fun a => lower a.content)
                      instructions := [.from f]
                      parent := parent.1, root }])
        (next + 1)
      (r.1, parent.2 + r.2)
  | ins :: rest, stages, next => stagesLoopM rest (pushLast ins stages) next

/-- `Stages::new` (`/repo/src/stage.rs:124-166`) with the number of names that are compared -/
def Dockerfile.stagesM (d : Dockerfile) : Option (List Stage) × Nat := stagesLoopM d.instructions [] 0

/-! ## splicing -/

namespace Splicer

/-- calls of `splice` (`/repo/src/splicer.rs:163-178`), with the number of earlier splices that `adjust_offsets` looks
at, and the number of bytes of the texts that are built -/
def spliceAllM : Splicer → List (Span × Str) → Option Splicer × Nat × Nat
  | s, [] => (some s, 0, 0)
  | s, (span, r) :: es =>
    match s.splice span r with
    | none => (none, s.offsets.length, 0)
    | some s' => ((spliceAllM s' es).1, s.offsets.length + (spliceAllM s' es).2.1, blen s'.content + (spliceAllM s' es).2.2)

end Splicer

/-- the loop of `relative_span` (`/repo/src/splicer.rs:65-74`) with the number of bytes that are looked at -/
def relLoopM (start : Nat) : Nat → List UInt8 → Nat → Nat → (Nat × Nat) × Nat
  | _, [], lines, off => ((lines, off), 0)
  | i, c :: cs, lines, off =>
    if i = start then ((lines, off), 1)
    else if c = 10 then ((relLoopM start (i + 1) cs (lines + 1) (i + 1)).1, 1 + (relLoopM start (i + 1) cs (lines + 1) (i + 1)).2)
    else ((relLoopM start (i + 1) cs lines off).1, 1 + (relLoopM start (i + 1) cs lines off).2)

end Verif
