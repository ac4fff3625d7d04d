import Verif.Model.Ast

/-! Specification vocabulary for spans and splicing (C04-C07, C21-C26). -/

namespace Verif.Spec

/-- `t` is the text of `s` at the byte range `sp`: Rust's `&s[sp.start..sp.end] == t`, without a
panic. -/
def SliceOf (s : Str) (sp : Span) (t : Str) : Prop :=
  ∃ a c, s = a ++ t ++ c ∧ sp.start = blen a ∧ sp.stop = blen a + blen t

/-- The byte range is inside `s`, ordered, and on character boundaries (slicing cannot panic). -/
def ValidSpan (s : Str) (sp : Span) : Prop := ∃ t, SliceOf s sp t

/-- The ranges share no byte. -/
def Disjoint (a b : Span) : Prop := a.stop ≤ b.start ∨ b.stop ≤ a.start

/-- `a` lies inside `b`. -/
def Within (a b : Span) : Prop := b.start ≤ a.start ∧ a.stop ≤ b.stop

instance (a b : Span) : Decidable (Disjoint a b) := inferInstanceAs (Decidable (_ ∨ _))
instance (a b : Span) : Decidable (Within a b) := inferInstanceAs (Decidable (_ ∧ _))

/-- An edit: replace the text at a span of the original document. -/
abbrev Edit := Span × Str

/-- Byte offset `q` lies in some edited span. -/
def covered (es : List Edit) (q : Nat) : Bool := es.any fun e => e.1.start ≤ q && q < e.1.stop

/-- The replacement text of the edit starting at byte offset `q`, if any. -/
def inserted (es : List Edit) (q : Nat) : Str :=
  match es.find? fun e => e.1.start == q with
  | some e => e.2
  | none => []

/-- Simultaneous replacement, character by character (`p`: byte offset of the first character):
a character inside an edited span is dropped, every other character is kept, and the replacement
of an edit appears where the edited span begins. -/
def simul (es : List Edit) : Nat → Str → Str
  | _, [] => []
  | p, c :: cs =>
    inserted es p ++ (if covered es p then [] else [c]) ++ simul es (p + c.utf8Size) cs

/-- The edits of a history that are still visible: a later edit of an enclosing (or equal) span
makes the earlier ones irrelevant. -/
def effective (es : List Edit) : List Edit :=
  es.foldl (fun acc f => acc.filter (fun e => !decide (Within e.1 f.1)) ++ [f]) []

end Verif.Spec
