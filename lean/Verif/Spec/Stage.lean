import Verif.Model.Stage

/-! Specification vocabulary for stages (C12-C17). -/

namespace Verif.Spec

/-- The instruction is a `FROM`. -/
def isFrom : Instruction → Bool
  | .from _ => true
  | _ => false

/-- Equality ignoring ASCII case (`str::eq_ignore_ascii_case`). -/
def SameName (a b : Str) : Prop := lower a = lower b

/-- The stage is opened by the instruction `FROM f`. -/
def OpenedBy (s : Stage) (f : FromInstruction) : Prop := s.instructions.head? = some (.from f)

/-- The stage was given the alias `n` (up to case) by its `FROM`. -/
def Aliased (s : Stage) (n : Str) : Prop :=
  ∃ f a, OpenedBy s f ∧ f.alias = some a ∧ SameName a.content n

/-- Following parent links from stage `i` ends at the non-stage parent `r`. -/
inductive RootsTo (ss : List Stage) : Nat → StageParent → Prop
  | base (i : Nat) (s : Stage) (h : ss[i]? = some s) (hp : ∀ j, s.parent ≠ .stage j) :
      RootsTo ss i s.parent
  | link (i j : Nat) (s : Stage) (r : StageParent) (h : ss[i]? = some s)
      (hp : s.parent = .stage j) (hr : RootsTo ss j r) : RootsTo ss i r

/-- The value of a decimal numeral: `Numeral s n` when `s` is an optional `+` and a non-empty
string of ASCII digits with value `n`. -/
def Numeral (s : Str) (n : Nat) : Prop :=
  ∃ ds : List (Fin 10), ds ≠ [] ∧
    (s = ds.map (fun k => Char.ofNat (48 + k.val)) ∨ s = '+' :: ds.map (fun k => Char.ofNat (48 + k.val))) ∧
    n = ds.foldl (fun acc k => acc * 10 + k.val) 0

end Verif.Spec
