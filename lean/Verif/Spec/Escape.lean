import Verif.Model.Ast

/-!
# Specification: texts in quotes and what they stand for

The escapes that can be read, and the first thing that is wrong with a text that cannot be read.
Nothing here refers to the functions of `Model/Enquote`.  (C85)
-/

namespace Verif
namespace Spec

/-- the digit `c` has the value `d` -/
def DigitIs (radix : Nat) (c : Char) (d : Nat) : Prop :=
  d < radix ∧ (c!"0123456789abcdef"[d]? = some c ∨ c!"0123456789ABCDEF"[d]? = some c)

/-- the digits `w` stand for the number `n` -/
inductive NumberIs (radix : Nat) : Str → Nat → Prop
  | one {c d} : DigitIs radix c d → NumberIs radix [c] d
  | more {w n c d} : NumberIs radix w n → DigitIs radix c d → NumberIs radix (w ++ [c]) (n * radix + d)

/-- the same with a plus sign in front, or without -/
def SignedIs (radix : Nat) (w : Str) (n : Nat) : Prop :=
  NumberIs radix w n ∨ ∃ u, w = '+' :: u ∧ NumberIs radix u n

/-- the escapes of one character -/
def escapeTable : List (Char × Char) :=
  [('\\', '\\'), ('"', '"'), ('\'', '\''), ('`', '`'), ('a', '\x07'), ('b', '\x08'), ('f', '\x0c'), ('n', '\n'),
    ('r', '\r'), ('t', '\t'), ('v', '\x0b')]

/-- `e` after a backslash is an escape for `v` -/
inductive Escape : Str → Char → Prop
  | known {c v} : (c, v) ∈ escapeTable → Escape [c] v
  | octal {w n} : NumberIs 8 w n → w.length = 3 → n < 256 → Escape w (Char.ofNat n)
  | hex {w n} : SignedIs 16 w n → w.length = 2 → Escape ('x' :: w) (Char.ofNat n)
  | short {w n} : SignedIs 16 w n → w.length = 4 → n.isValidChar → Escape ('u' :: w) (Char.ofNat n)
  | long {w n} : SignedIs 16 w n → w.length = 8 → n.isValidChar → Escape ('U' :: w) (Char.ofNat n)

/-- `e` after a backslash is the number of something that is not a character -/
inductive BadCode : Str → Prop
  | short {w n} : SignedIs 16 w n → w.length = 4 → ¬ n.isValidChar → BadCode ('u' :: w)
  | long {w n} : SignedIs 16 w n → w.length = 8 → ¬ n.isValidChar → BadCode ('U' :: w)

/-- the text `b` between quotes `q` stands for `v` -/
inductive Means (q : Char) : Str → Str → Prop
  | nil : Means q [] []
  | chr {c b v} : c ≠ q → c ≠ '\\' → Means q b v → Means q (c :: b) (c :: v)
  | esc {e x b v} : Escape e x → Means q b v → Means q ('\\' :: (e ++ b)) (x :: v)

/-- the text `b` between quotes `q` cannot be read, and `e` is the first thing that is wrong -/
inductive Wrong (q : Char) : Str → UnquoteError → Prop
  | quote {b} : Wrong q (q :: b) .illegalChar
  | backslash : Wrong q ['\\'] .unexpectedEof
  | unknown {b} : b ≠ [] → (∀ e x r, b = e ++ r → ¬ Escape e x) → (∀ e r, b = e ++ r → ¬ BadCode e) →
      Wrong q ('\\' :: b) .unrecognizedEscape
  | code {e b} : BadCode e → Wrong q ('\\' :: (e ++ b)) .invalidUnicode
  | chr {c b e} : c ≠ q → c ≠ '\\' → Wrong q b e → Wrong q (c :: b) e
  | esc {e x b f} : Escape e x → Wrong q b f → Wrong q ('\\' :: (e ++ b)) f

def IsQuote (q : Char) : Prop := q = '"' ∨ q = '\'' ∨ q = '`'

end Spec
end Verif
