import Verif.Model.Image

/-! Specification vocabulary for variable substitution (C27-C30). -/

namespace Verif.Spec

/-- `[A-Za-z0-9_]` -/
def WordChar (c : Char) : Prop :=
  ('A' ≤ c ∧ c ≤ 'Z') ∨ ('a' ≤ c ∧ c ≤ 'z') ∨ ('0' ≤ c ∧ c ≤ '9') ∨ c = '_'

/-- A variable reference to `name` stands at the front of `s`, followed by `rest`: either `$name`
with the longest possible name, or `${name}`. -/
def RefAt (s name rest : Str) : Prop :=
  name ≠ [] ∧ (∀ c ∈ name, WordChar c) ∧
  ((s = '$' :: (name ++ rest) ∧ ∀ c cs, rest = c :: cs → ¬ WordChar c) ∨
   s = '$' :: '{' :: (name ++ '}' :: rest))

/-- `Expands vars d s t`: expanding the references of `s` from left to right, their values
recursively, with at most `d` levels of nesting, gives `t`. -/
inductive Expands (vars : VarMap) : Nat → Str → Str → Prop
  | nil (d : Nat) : Expands vars d [] []
  | lit (d : Nat) (c : Char) (cs t : Str) (h : ∀ n r, ¬ RefAt (c :: cs) n r)
      (ht : Expands vars d cs t) : Expands vars d (c :: cs) (c :: t)
  | ref (d : Nat) (s n rest v e t : Str) (h : RefAt s n rest) (hv : vars n = some v)
      (he : Expands vars d v e) (ht : Expands vars (d + 1) rest t) :
      Expands vars (d + 1) s (e ++ t)

/-- `n` is referenced in `s` (scanning from left to right). -/
inductive References : Str → Str → Prop
  | here (s n rest : Str) (h : RefAt s n rest) : References s n
  | afterRef (s m rest n : Str) (h : RefAt s m rest) (hr : References rest n) : References s n
  | afterLit (c : Char) (cs n : Str) (h : ∀ m r, ¬ RefAt (c :: cs) m r) (hr : References cs n) :
      References (c :: cs) n

/-- `n` is referenced from `s`, directly or through the values of other referenced variables. -/
inductive Reaches (vars : VarMap) : Str → Str → Prop
  | direct (s n : Str) (h : References s n) : Reaches vars s n
  | through (s m v n : Str) (h : References s m) (hv : vars m = some v) (hr : Reaches vars v n) :
      Reaches vars s n

/-- The default value in force for the name `k` after the given `ARG`s: the last one with that name
and a value. -/
def LastDefault (args : List ArgInstruction) (k v : Str) : Prop :=
  ∃ pre a post w, args = pre ++ a :: post ∧ a.name.content = k ∧ a.value = some w ∧ w.content = v ∧
    ∀ b ∈ post, b.name.content = k → b.value = none

end Verif.Spec
