import Verif.Props.Idle
import Verif.Props.Unsupported

/-! # C112: comments at the end of a document -/

namespace Verif
open Spec

theorem no_quotes_no_close {z : Str} (h : ∀ c ∈ z, c ≠ '"' ∧ c ≠ '\'') : ¬ ClosesQuotes z := by
  rintro ⟨q, v, r, rfl, hq, -⟩
  have := h q (by simp)
  exact hq.elim this.1 this.2

/-- C112: Blank lines and comments that do not close quotes can be added behind a document; nothing changes but the text. -/
theorem C112_footer {unq : Unquote} {a z : Str} {d : Dockerfile} (h : Dockerfile.parse unq a = .ok d) (ha : LineStart a z)
    (hl : ∀ i ∈ d.instructions, i.span.stop < blen a) (hz : Idle z) (hq : ¬ ClosesQuotes z) :
    Dockerfile.parse unq (a ++ z) = .ok { d with content := a ++ z } := by
  have h1 := (C110_all (C111_empty (unq := unq) hz)).2 ⟨hq, hz⟩ a d h ha hl
  have h2 := documentOf_same h
  refine h1.trans (congrArg Except.ok ?_)
  have h3 : documentOf (a ++ z) d.instructions = { documentOf a d.instructions with content := a ++ z } := rfl
  simp only [List.map_nil, List.append_nil]
  rw [h3, h2]

/-- C112: This is so if there are no quotes in them. -/
theorem C112_plain {unq : Unquote} {a z : Str} {d : Dockerfile} (h : Dockerfile.parse unq a = .ok d) (ha : LineStart a z)
    (hl : ∀ i ∈ d.instructions, i.span.stop < blen a) (hz : Idle z) (hq : ∀ c ∈ z, c ≠ '"' ∧ c ≠ '\'') :
    Dockerfile.parse unq (a ++ z) = .ok { d with content := a ++ z } :=
  C112_footer h ha hl hz (no_quotes_no_close hq)

/-- C112: The condition is needed for each of these texts: if it closes quotes, there is a document that it changes. -/
theorem C112_changes {unq : Unquote} {z : Str} (hz : Idle z) (hq : ClosesQuotes z) :
    ∃ a d, Dockerfile.parse unq a = .ok d ∧ LineStart a z ∧ (∀ i ∈ d.instructions, i.span.stop < blen a) ∧
      Dockerfile.parse unq (a ++ z) ≠ .ok { d with content := a ++ z } := by
  refine Classical.byContradiction fun hn => ?_
  refine ((C110_all (C111_empty (unq := unq) hz)).1 fun a d h ha hl => ?_).1 hq
  have h1 : Dockerfile.parse unq (a ++ z) = .ok { d with content := a ++ z } :=
    Classical.byContradiction fun g => hn ⟨a, d, h, ha, hl, g⟩
  have h2 := documentOf_same h
  refine h1.trans (congrArg Except.ok ?_)
  have h3 : documentOf (a ++ z) d.instructions = { documentOf a d.instructions with content := a ++ z } := rfl
  simp only [List.map_nil, List.append_nil]
  rw [h3, h2]

/-- C112: With blank lines and comments in front as well, whatever is in those, everything is moved by their length. -/
theorem C112_frame {unq : Unquote} {u a z : Str} {d : Dockerfile} (h : Dockerfile.parse unq a = .ok d) (hu : IdleLines u (a ++ z))
    (ha : LineStart a z) (hl : ∀ i ∈ d.instructions, i.span.stop < blen a) (hz : Idle z) (hq : ¬ ClosesQuotes z) :
    Dockerfile.parse unq (u ++ (a ++ z)) = .ok { prefixed u d with content := u ++ (a ++ z) } := by
  rw [C89_directives hu, C112_footer h ha hl hz hq]
  rfl

/-- an apostrophe in front, none behind -/
example : Dockerfile.parse Enquote.unquote (c!"# isn't" ++ ['\n'] ++ [] ++ (c!"ENV a='b\n" ++ c!"# end\n")) =
    .ok { prefixed (c!"# isn't" ++ ['\n'] ++ []) (documentOf c!"ENV a='b\n" (openerIs '\'')) with
      content := c!"# isn't" ++ ['\n'] ++ [] ++ (c!"ENV a='b\n" ++ c!"# end\n") } :=
  C112_frame rfl (.comment (w := []) (fun c h => by cases h) ⟨c!" isn't", rfl, by decide⟩ (.inl rfl) .nil)
    (.inr ⟨c!"ENV a='b", ['\n'], rfl, .inl rfl⟩) (by decide) (by rw [C111_scan]; decide +kernel)
    (no_quotes_no_close (by decide))

/-- a comment behind a `COPY` left open -/
example : Dockerfile.parse Enquote.unquote (copyA ++ c!"# end\n\t\n") = .ok { copyDoc with content := copyA ++ c!"# end\n\t\n" } :=
  C112_plain C110_needed.1 (.inr ⟨c!"COPY a \\\n#\n", ['\n'], rfl, .inl rfl⟩) C110_needed.2.2.2.1
    (by rw [C111_scan]; decide +kernel) (by decide)

/-- a comment with an apostrophe, behind a value that starts with one -/
example : Idle c!"# isn't\n" ∧ ClosesQuotes c!"# isn't\n" ∧
    Dockerfile.parse Enquote.unquote c!"ENV a='b\n" = .ok (documentOf c!"ENV a='b\n" (openerIs '\'')) ∧
    Dockerfile.parse Enquote.unquote c!"ENV a='b\n# isn't\n" ≠ .ok (documentOf c!"ENV a='b\n# isn't\n" (openerIs '\'')) :=
  ⟨by rw [C111_scan]; decide +kernel, by rw [C110_finds]; decide +kernel, rfl, by decide +kernel⟩

end Verif
