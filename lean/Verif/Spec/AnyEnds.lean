import Verif.Spec.LineEnds

/-!
# Specification: mixed line ends

A text may have line feeds, Windows line ends and single carriage returns side by side.  `unixEnds` is
the text with a line feed for each of them; `toUnix` and `fromUnix` say where a byte offset goes to,
and comes from.
-/

namespace Verif
namespace Spec

/-- `t` with a line feed in place of every line end -/
def unixEnds : Str → Str
  | [] => []
  | '\r' :: '\n' :: s => '\n' :: unixEnds s
  | '\r' :: s => '\n' :: unixEnds s
  | c :: s => c :: unixEnds s

/-- the byte offset `p` of `t`, in `unixEnds t` -/
def toUnix : Str → Nat → Nat
  | [], p => p
  | '\r' :: '\n' :: s, p => if p = 0 then 0 else 1 + toUnix s (p - 2)
  | c :: s, p => if p = 0 then 0 else c.utf8Size + toUnix s (p - c.utf8Size)

/-- the byte offset `p` of `unixEnds t`, in `t` -/
def fromUnix : Str → Nat → Nat
  | [], p => p
  | '\r' :: '\n' :: s, p => if p = 0 then 0 else 2 + fromUnix s (p - 1)
  | c :: s, p => if p = 0 then 0 else c.utf8Size + fromUnix s (p - c.utf8Size)

/-- `a` and `b` do not share a Windows line end: `a` does not end with the carriage return of the line
feed that `b` starts with. -/
def CutBetween (a b : Str) : Prop := ¬ ((∃ x, a = x ++ ['\r']) ∧ ∃ y, b = '\n' :: y)

end Spec
end Verif
