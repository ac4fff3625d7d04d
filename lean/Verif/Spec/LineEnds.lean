import Verif.Spec.Fields
import Verif.Spec.Remap
import Verif.Spec.Splice

/-!
# Specification: other line ends

`reline w s` is the text `s` with the line end `w` in place of every line feed; `toEnds` and
`fromEnds` say where a byte offset goes to, and comes from.
-/

namespace Verif
namespace Spec

/-- `w` is the line end of Windows, or of the old Macintosh. -/
def OtherEnd (w : Str) : Prop := w = ['\r', '\n'] ∨ w = ['\r']

/-- `s` with `w` in place of every line feed -/
def reline (w s : Str) : Str := s.flatMap fun c => if c = '\n' then w else [c]

/-- how often `c` occurs in `s` before the byte offset `p` -/
def timesBefore (c : Char) : Str → Nat → Nat
  | [], _ => 0
  | d :: ds, p => if p = 0 then 0 else (if d = c then 1 else 0) + timesBefore c ds (p - d.utf8Size)

/-- the byte offset `p` of `s`, in `reline w s` -/
def toEnds (w s : Str) (p : Nat) : Nat := p + (blen w - 1) * timesBefore '\n' s p

/-- the byte offset `p` of `t = reline w s`, in `s` -/
def fromEnds (w t : Str) (p : Nat) : Nat := p - (blen w - 1) * timesBefore '\r' t p

/-- the strings of an instruction that may be written in quotes -/
def writtenStrings (i : Instruction) : List Span :=
  (plainStrings i).map (·.span) ++ (labelStrings i).map (·.span) ++
  (arrays i).flatMap (fun a => a.elements.map (·.span)) ++
  (envValues i).flatMap fun b => b.components.map componentSpan

/-- No string of the document is written in quotes across two lines. -/
def OnOneLine (s : Str) (d : Dockerfile) : Prop :=
  ∀ i ∈ d.instructions, ∀ sp ∈ writtenStrings i, ∀ t, SliceOf s sp t → StartsQuoted t →
    ∀ c ∈ t, c ≠ '\n' ∧ c ≠ '\r'

/-- the document with every position moved by `f`, and the text `t` -/
def relocated (f : Nat → Nat) (t : Str) (d : Dockerfile) : Dockerfile :=
  { content := t, global_args := d.global_args.map (·.remap f),
    instructions := d.instructions.map (·.remap f) }

end Spec
end Verif
