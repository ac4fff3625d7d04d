import Verif.Spec.Join

/-!
# Specification: the forms of an instruction

Several instructions can be written in more than one form.  What follows the keyword decides which one
it is.  (C91)
-/

namespace Verif
namespace Spec

/-- `u` is the text of `s` from the byte offset `q` on. -/
def Onwards (s : Str) (q : Nat) (u : Str) : Prop := ∃ y, s = y ++ u ∧ blen y = q

/-- After space, `u` goes on with the name `n` of a variable, and with space again. -/
def SpacedKey (n u : Str) : Prop :=
  ∃ g r, u = g ++ (n ++ r) ∧ Src.Gap g (n ++ r) ∧ n ≠ [] ∧ (∀ c ∈ n, IsWord c) ∧ Src.StartsSpace r

/-- After space, `u` goes on with the name of a label, in quotes or not, and with space again. -/
def SpacedName (u : Str) : Prop :=
  ∃ g v r, u = g ++ (v.text ++ r) ∧ Src.Gap g (v.text ++ r) ∧ Src.Value.FitsName r v ∧ Src.StartsSpace r

/-- The parts that end at `q` and start at `q'` have all the space between them, and nothing else. -/
def SpaceBetween (s : Str) (q q' : Nat) : Prop :=
  ∃ g u, Onwards s q (g ++ u) ∧ Src.Gap g u ∧ q' = q + blen g

/-- The parts that end at `q` and start at `q'` have an equals sign between them, and nothing else. -/
def EqualsBetween (s : Str) (q q' : Nat) : Prop := ∃ u, Onwards s q ('=' :: u) ∧ q' = q + 1

/-- Nothing but blanks come in the line any more. -/
def LineDone (u : Str) : Prop := ∃ w r, u = w ++ r ∧ Blanks w ∧ Src.Eol r

end Spec
end Verif
