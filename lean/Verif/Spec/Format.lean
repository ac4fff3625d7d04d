import Verif.Model.Format
import Verif.Spec.Lines

/-!
# Padded texts and texts in several lines

What C86 says about `{:>8}`, `{:.3}` and `{:#?}`, without `fmt`.
-/

namespace Verif.Spec

/-- `u` is `t` with `fill` around it, up to `width` characters; `d` is the usual side. -/
def Around (o : FmtOpts) (d : FmtAlign) (t u : Str) : Prop :=
  ∃ a b, u = List.replicate a o.fill ++ t ++ List.replicate b o.fill ∧
    a + b = o.width.getD 0 - t.length ∧
    match o.align.getD d with
    | .left => a = 0
    | .right => b = 0
    | .center => b = a ∨ b = a + 1

/-- a line that closes a bracket -/
def Closes (x : Str) : Prop := ∃ c r, x = c :: r ∧ c ∈ ['}', ')', ']']

/-- a line that opens a bracket -/
def Opens (x : Str) : Prop := ∃ r c, x = r ++ [c] ∧ c ∈ ['{', '(', '[']

/-- the first line of a text and the other ones -/
def allLines (s : Str) : List Str := (lines s).1 :: (lines s).2

open Classical in
/-- Lines with four blanks for each bracket that is open, `d` of them at the start and none at the
end. -/
def Indented : Nat → List Str → Prop
  | d, [] => d = 0
  | d, line :: rest => ∃ x, (∀ r, x ≠ ' ' :: r) ∧ (Closes x → 0 < d) ∧
      line = List.replicate (4 * (if Closes x then d - 1 else d)) ' ' ++ x ∧
      Indented ((if Closes x then d - 1 else d) + if Opens x then 1 else 0) rest

/-- The next line, without its blanks, put behind what came before: no comma in front of a bracket that
closes; a blank before and after what stands in braces, and after a comma. -/
def joinLine (before line : Str) : Str :=
  match line.head? with
  | some '}' => before.dropLast ++ ' ' :: line
  | some ')' | some ']' => before.dropLast ++ line
  | _ =>
    match before.getLast? with
    | none | some '(' | some '[' => before ++ line
    | _ => before ++ ' ' :: line

/-- A text of several lines, in one line. -/
def oneLine (s : Str) : Str :=
  ((allLines s).map (·.dropWhile (· == ' '))).foldl joinLine []

end Verif.Spec
