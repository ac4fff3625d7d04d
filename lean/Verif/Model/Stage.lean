import Verif.Model.Dockerfile
import Verif.Model.Image

/-!
# `/repo/src/stage.rs`
-/

namespace Verif

/-- `StageParent` (`/repo/src/stage.rs:10-20`) -/
inductive StageParent where
  | image (i : ImageRef)
  | stage (index : Nat)
  | scratch
  deriving DecidableEq, Repr

/-- `Stage` (`/repo/src/stage.rs:45-64`).  The derived `DecidableEq` is structural; the crate's own
`PartialEq`/`Ord` are `Stage.eq` and `Stage.cmp` below. -/
structure Stage where
  index : Nat
  name : Option Str
  instructions : List Instruction
  parent : StageParent
  root : StageParent
  deriving DecidableEq, Repr

/-- `Stages::get_by_name` (`/repo/src/stage.rs:169-171`) on the list of stages -/
def getByName (stages : List Stage) (name : Str) : Option Stage :=
  stages.find? (fun s => s.name == some (lower name))

/-- the parent computed in `Stages::new` (`/repo/src/stage.rs:133-140`) -/
def parentOf (stages : List Stage) (f : FromInstruction) : StageParent :=
  let imageName := lower f.image.content
  if imageName = ['s', 'c', 'r', 'a', 't', 'c', 'h'] then .scratch
  else
    match getByName stages imageName with
    | some stage => .stage stage.index
    | none => .image f.image_parsed

/-- the root computed in `Stages::new` (`/repo/src/stage.rs:142-146`); `none` = panic (index out of
bounds in `stages.stages[parent_stage]`) -/
def rootOf (stages : List Stage) (parent : StageParent) : Option StageParent :=
  match parent with
  | .stage j => (stages[j]?).map (·.root)
  | p => some p

/-- `stages.get_mut(len - 1)` + `instructions.push(ins)` (`/repo/src/stage.rs:157-162`) -/
def pushLast (ins : Instruction) : List Stage → List Stage
  | [] => []
  | [s] => [{ s with instructions := s.instructions ++ [ins] }]
  | s :: t :: ts => s :: pushLast ins (t :: ts)

/-- The loop of `Stages::new` (`/repo/src/stage.rs:131-163`). `none` = panic. -/
def stagesLoop : List Instruction → List Stage → Nat → Option (List Stage)
  | [], stages, _ => some stages
  | .from f :: rest, stages, next =>
    let parent := parentOf stages f
    match rootOf stages parent with
    | none => none
    | some root =>
      stagesLoop rest
        (stages ++ [{ index := next
                      name := f.alias.map (fun a => lower a.content)
                      instructions := [.from f]
                      parent, root }])
        (next + 1)
  | ins :: rest, stages, next => stagesLoop rest (pushLast ins stages) next

/-- `Stages::new` / `Dockerfile::stages` / `iter_stages`
(`/repo/src/stage.rs:124-166`, `/repo/src/dockerfile_parser.rs:383-389`). -/
def Dockerfile.stages (d : Dockerfile) : Option (List Stage) := stagesLoop d.instructions [] 0

/-- decimal digits, most significant first -/
def decDigits : Nat → Str → Option Nat
  | acc, [] => some acc
  | acc, c :: cs => if '0' ≤ c ∧ c ≤ '9' then decDigits (acc * 10 + (c.toNat - 48)) cs else none

/-- `usize::from_str` drops one leading `+`. -/
def stripPlus : Str → Str
  | [] => []
  | c :: cs => if c = '+' then cs else c :: cs

/-- `s.parse::<usize>()` on a 64-bit target: an optional `+`, then at least one decimal digit,
value below 2^64. -/
def parseUsize (s : Str) : Option Nat :=
  if stripPlus s = [] then none
  else
    match decDigits 0 (stripPlus s) with
    | some n => if n < 2 ^ 64 then some n else none
    | none => none

/-- `Stages::get` (`/repo/src/stage.rs:177-182`) -/
def stagesGet (stages : List Stage) (s : Str) : Option Stage :=
  match parseUsize s with
  | some index => stages[index]?
  | none => getByName stages s

/-- `Stage::arg_index` (`/repo/src/stage.rs:89-97`): `enumerate().find_map(...)` -/
def argIndexFrom (name : Str) : Nat → List Instruction → Option Nat
  | _, [] => none
  | i, .arg a :: rest => if a.name.content = name then some i else argIndexFrom name (i + 1) rest
  | i, _ :: rest => argIndexFrom name (i + 1) rest

/-- `Stage::arg_index` (`/repo/src/stage.rs:89-97`) -/
def Stage.argIndex (s : Stage) (name : Str) : Option Nat := argIndexFrom name 0 s.instructions

/-! ## comparing and printing -/

/-- `PartialEq for Stage` (`/repo/src/stage.rs:78-82`): the index only -/
def Stage.eq (s t : Stage) : Bool := s.index == t.index

/-- `Ord for Stage` (`/repo/src/stage.rs:66-70`): the index only -/
def Stage.cmp (s t : Stage) : Ordering := compare s.index t.index

/-- `PartialOrd for Stage` (`/repo/src/stage.rs:72-76`) -/
def Stage.partialCmp (s t : Stage) : Option Ordering := some (s.cmp t)

/-- `Index for Stages` (`/repo/src/stage.rs:190-196`); `none` = panic -/
def stagesIndex (stages : List Stage) (index : Nat) : Option Stage := stages[index]?

/-- the last `k` decimal digits of `n`, without leading zeros (except for the last digit) -/
def decimalUpTo : Nat → Nat → Str
  | 0, n => [Char.ofNat (48 + n % 10)]
  | k + 1, n =>
    if n < 10 then [Char.ofNat (48 + n)] else decimalUpTo k (n / 10) ++ [Char.ofNat (48 + n % 10)]

/-- `Display for usize` -/
def decimal (n : Nat) : Str := decimalUpTo n n

/-- `Display for StageParent` (`/repo/src/stage.rs:22-30`) -/
def StageParent.display : StageParent → Str
  | .image i => i.display
  | .stage n => decimal n
  | .scratch => ['s', 'c', 'r', 'a', 't', 'c', 'h']

end Verif
