import Verif.Proof.Relayout
import Verif.Model.Enquote

/-! # Layout does not matter (C42, C52) -/

namespace Verif
open Spec

/-! ## C52 -/

/-- C52: two documents with the same instructions apart from layout (space between the parts of an
instruction, continuations, comments within continuations, the case of keywords, indentation,
trailing blanks, kinds of line breaks, blank lines, comment lines) have the same result, apart from
text and positions; also when the result is an error.  `CommentFirst` is the exception (C42). -/
theorem C52_layout {unq : Unquote} {l l' : Src.Line} {ms ms' : List (Str × Src.Line)}
    (hf : Src.DocFits l ms) (hf' : Src.DocFits l' ms')
    (h : ∀ i ∈ Src.docItems l ms, ¬ i.CommentFirst)
    (h' : ∀ i ∈ Src.docItems l' ms', ¬ i.CommentFirst)
    (hs : Src.SameItems (Src.docItems l ms) (Src.docItems l' ms')) :
    (Dockerfile.parse unq (Src.docText l ms)).map Dockerfile.bare =
      (Dockerfile.parse unq (Src.docText l' ms')).map Dockerfile.bare :=
  Src.parse_same hf hf' h h' hs

/-! ## C42 -/

/-- C42 (full statement, false of the code): comments in continuations are ignored, wherever they
are. -/
def C42_statement : Prop :=
  ∀ (unq : Unquote) (l l' : Src.Line) (ms ms' : List (Str × Src.Line)),
    Src.DocFits l ms → Src.DocFits l' ms' →
    Src.SameItems (Src.docItems l ms) (Src.docItems l' ms') →
    (Dockerfile.parse unq (Src.docText l ms)).map Dockerfile.bare =
      (Dockerfile.parse unq (Src.docText l' ms')).map Dockerfile.bare

/-- `RUN x` -/
def runPlain : Src.Line := ⟨[], .shell .run c!"RUN" c!" " (.last c!"x"), []⟩
/-- `RUN \`, `#c`, `x` -/
def runComment : Src.Line := ⟨[], .shell .run c!"RUN" c!" \\\n#c\n" (.last c!"x"), []⟩

theorem runLast_fits : (Src.Shell.last c!"x").Fits [] := by
  refine ⟨⟨by decide, by decide, ?_, ?_⟩, by intro c b e; cases e⟩
  · intro a b e hb
    cases a with
    | nil =>
      cases e
      rintro ⟨w, n, t, h, -⟩
      cases h
    | cons c a =>
      have := congrArg List.length e
      cases b
      · exact absurd rfl hb
      · simp at this
  · intro w u hw e
    cases w with
    | nil => cases e
    | cons c w =>
      obtain ⟨rfl, -⟩ := List.cons.inj e
      exact absurd (hw 'x' (by simp)) (by decide)

theorem run_noArray : Src.NoArray (c!"x" ++ []) := by
  rintro (g | ⟨g, v, es, c, g'⟩) r e <;> cases e

theorem runPlain_fits : Src.DocFits runPlain [] := by
  refine ⟨.nil, ⟨rfl, ⟨by decide, .blank (.inl rfl) (.nil (Src.not_starts_plain (by decide)))⟩,
    runLast_fits, run_noArray⟩, .nil⟩

theorem runComment_fits : Src.DocFits runComment [] := by
  refine ⟨.nil, ⟨rfl, ⟨by decide, .blank (.inl rfl) (.continuation (w := []) (n := ['\n'])
    (l := c!"#c\n") (g := []) .nil (.inl rfl) ?_ (.nil (Src.not_starts_plain (by decide))))⟩,
    runLast_fits, run_noArray⟩, .nil⟩
  refine .comment (w := []) (t := c!"#c") (n := ['\n']) (l := []) .nil ⟨c!"c", rfl, by decide⟩
    (.inl rfl) (.nil ?_)
  rintro ⟨w, v, e, hw, h⟩
  cases w with
  | nil =>
    rcases h with ⟨t, rfl⟩ | ⟨n, t, rfl, hn⟩
    · cases e
    · rcases hn with rfl | rfl | ⟨rfl, -⟩ <;> cases e
  | cons c w =>
    obtain ⟨rfl, -⟩ := List.cons.inj e
    exact absurd (hw 'x' (by simp)) (by decide)

/-- C42 fails: `RUN x` is accepted, and with a comment between `RUN \` and `x` it is not. -/
theorem C42_negation : ¬ C42_statement := by
  intro h
  have := h (fun _ => .error .notEnoughChars) runPlain runComment [] [] runPlain_fits
    runComment_fits rfl
  revert this
  decide +kernel

/-- C42 fails always: a document with a comment in front of the arguments of a `RUN`, `CMD` or
`ENTRYPOINT` is never accepted. -/
theorem C42_rejected {unq : Unquote} {l : Src.Line} {ms : List (Str × Src.Line)}
    (hf : Src.DocFits l ms) (h : ∃ i ∈ Src.docItems l ms, i.CommentFirst) (d : Dockerfile) :
    Dockerfile.parse unq (Src.docText l ms) ≠ .ok d := by
  rw [Src.parse_fits hf]
  have := fun is => Src.doc_commentFirst (unq := unq) (p := 0) (is := is) h
  cases he : Src.evalDoc unq 0 l ms with
  | error e => nofun
  | ok is => exact absurd he (this is)

/- `RUN` with a comment in front of its argument -/
example (d : Dockerfile) : Dockerfile.parse Enquote.unquote (Src.docText runComment []) ≠ .ok d :=
  C42_rejected runComment_fits ⟨_, List.mem_cons_self .., by show '#' ∈ c!" \\\n#c\n"; decide⟩ d

/-- C42, the error: it is the one for an unexpected token, if nothing is wrong with the items
before. -/
theorem C42_error {unq : Unquote} {l : Src.Line} {ms : List (Str × Src.Line)}
    (hf : Src.DocFits l ms) {is js : List Src.Item} {i : Src.Item}
    (he : Src.docItems l ms = is ++ i :: js) (hc : i.CommentFirst)
    (hb : ∀ j ∈ is, ∀ p, ∃ o, j.eval unq p = .ok o) :
    Dockerfile.parse unq (Src.docText l ms) =
      .error (.err (.generic (.unexpectedToken .comment))) := by
  rw [Src.parse_fits hf, Src.doc_error he hc hb]
  rfl

example : Dockerfile.parse Enquote.unquote (Src.docText runComment []) =
    .error (.err (.generic (.unexpectedToken .comment))) :=
  C42_error runComment_fits (is := []) (js := []) rfl (by show '#' ∈ c!" \\\n#c\n"; decide) (by simp)

/-- C42 for the other instructions, and for comments further on in `RUN`, `CMD`, `ENTRYPOINT`: they
are ignored.  Missing: comments in front of the arguments of these three. -/
theorem C42_partial {unq : Unquote} {l l' : Src.Line} {ms ms' : List (Str × Src.Line)}
    (hf : Src.DocFits l ms) (hf' : Src.DocFits l' ms')
    (h : ∀ i ∈ Src.docItems l ms, ¬ i.CommentFirst)
    (h' : ∀ i ∈ Src.docItems l' ms', ¬ i.CommentFirst)
    (hs : Src.SameItems (Src.docItems l ms) (Src.docItems l' ms')) :
    (Dockerfile.parse unq (Src.docText l ms)).map Dockerfile.bare =
      (Dockerfile.parse unq (Src.docText l' ms')).map Dockerfile.bare :=
  C52_layout hf hf' h h' hs

example : ∃ i ∈ Src.docItems runComment [], i.CommentFirst :=
  ⟨_, List.mem_cons_self .., by show '#' ∈ c!" \\\n#c\n"; decide⟩

/-- the same instruction in another layout, after an empty line -/
example : Src.DocFits ⟨[], .blank, []⟩
      [(c!"\r\n", ⟨[], .shell .run c!"rUn" c!"\t " (.last c!"x"), []⟩)] ∧
    Src.SameItems (Src.docItems runPlain [])
      (Src.docItems ⟨[], .blank, []⟩
        [(c!"\r\n", ⟨[], .shell .run c!"rUn" c!"\t " (.last c!"x"), []⟩)]) :=
  ⟨⟨⟨.nil, trivial, .nil⟩, .inr (.inl rfl), .nil, ⟨rfl, ⟨by decide, .blank (.inr rfl) (.blank (.inl rfl)
    (.nil (Src.not_starts_plain (by decide))))⟩, runLast_fits, run_noArray⟩, .nil⟩, rfl⟩

end Verif
