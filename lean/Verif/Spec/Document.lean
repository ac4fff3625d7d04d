import Verif.Spec.Layout

/-!
# Specification: the text of a document, line by line

`DocText unq p s is` says that the text `s`, found at byte offset `p`, consists of items separated
by line breaks, each item surrounded by blanks and being nothing, a comment, or the text of an
instruction; and that `is` are, in order, these instructions, laid out in their texts.  No other
text can occur.
-/

namespace Verif
namespace Spec

def Blanks (w : Str) : Prop := ∀ c ∈ w, c = ' ' ∨ c = '\t'

/-- `n` is the line break in front of `r` -/
def LineBreak (n r : Str) : Prop :=
  n = ['\n'] ∨ n = ['\r', '\n'] ∨ (n = ['\r'] ∧ ∀ r', r ≠ '\n' :: r')

/-- `#` up to the end of the line -/
def CommentText (t : Str) : Prop := ∃ b, t = '#' :: b ∧ ∀ c ∈ b, c ≠ '\n' ∧ c ≠ '\r'

/-- the tree `n` covers exactly the text `t` found at offset `p` -/
def Covers (p : Nat) (t : Str) (n : SpanTree) : Prop :=
  ∃ P ch, n = .node ⟨p, p + blen t⟩ P ch ∧ t ≠ [] ∧ P t ∧ Laid p t ch

/-- nothing, a comment or an instruction -/
inductive ItemText (unq : Unquote) : Nat → Str → List Instruction → Prop
  | none {p} : ItemText unq p [] []
  | comment {p t} : CommentText t → ItemText unq p t []
  | instruction {p t i} : Covers p t (tree unq i) → ItemText unq p t [i]

inductive DocText (unq : Unquote) : Nat → Str → List Instruction → Prop
  | last {p w t w' is} : Blanks w → Blanks w' → ItemText unq (p + blen w) t is →
      DocText unq p (w ++ t ++ w') is
  | line {p w t w' n r is js} : Blanks w → Blanks w' → ItemText unq (p + blen w) t is →
      LineBreak n r → DocText unq (p + blen w + blen t + blen w' + blen n) r js →
      DocText unq p (w ++ t ++ w' ++ n ++ r) (is ++ js)

end Spec
end Verif
