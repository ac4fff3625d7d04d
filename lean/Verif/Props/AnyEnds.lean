import Verif.Proof.AnyEndsDoc
import Verif.Props.LineEnds

/-! # Mixed line ends (C90) -/

namespace Verif
open Spec

/-- C90: Every text is rejected by the grammar if and only if it is with a line feed in place of every
line end. -/
theorem C90_syntax {unq : Unquote} (t : Str) :
    Dockerfile.parse unq t = .error (.err .parseError) ↔
      Dockerfile.parse unq (unixEnds t) = .error (.err .parseError) := by
  obtain ⟨V, hV, rfl⟩ := pieces_of t
  rw [grammar_none_iff, grammar_none_iff, unixEnds_hi hV]
  rcases mixed_parse hV with ⟨h1, h2⟩ | ⟨_, _, _, _, _, _, h1, h2, _⟩
  · simp [h1, h2]
  · simp [h1, h2]

/-- C90: A document is the same with line feeds for all line ends, but for the positions, if none of its
strings is written in quotes across two lines. -/
theorem C90_there {unq : Unquote} {t : Str} {d : Dockerfile}
    (h : Dockerfile.parse unq t = .ok d) (ho : OnOneLine t d) :
    Dockerfile.parse unq (unixEnds t) = .ok (relocated (toUnix t) (unixEnds t) d) := by
  obtain ⟨V, hV, rfl⟩ := pieces_of t
  rw [unixEnds_hi hV]
  rcases mixed_parse hV with ⟨_, h1⟩ | ⟨p, s1, ts, p', s1', ts', h1, h2, ht⟩
  · rw [(grammar_none_iff (unq := unq)).2 h1] at h; cases h
  · rw [alikes_parse h2 h1 (mixed_back hV ht (oneLine_of h ho h2 (mixed_slices ht).2)), h]
    rfl

/-- C90: The same in the other direction: from line feeds to line ends of any kind. -/
theorem C90_back {unq : Unquote} {t : Str} {d : Dockerfile}
    (h : Dockerfile.parse unq (unixEnds t) = .ok d) (ho : OnOneLine (unixEnds t) d) :
    Dockerfile.parse unq t = .ok (relocated (fromUnix t) t d) := by
  obtain ⟨V, hV, rfl⟩ := pieces_of t
  rw [unixEnds_hi hV] at h ho
  rcases mixed_parse hV with ⟨h1, _⟩ | ⟨p, s1, ts, p', s1', ts', h1, h2, ht⟩
  · rw [(grammar_none_iff (unq := unq)).2 h1] at h; cases h
  · rw [alikes_parse h1 h2 (mixed_there hV ht (oneLine_of h ho h1 (mixed_slices ht).1)), h]
    rfl

/-- C90: For a text without quotes, the result is the same as with line feeds for all line ends, but
for the positions, whether it is a document or an error. -/
theorem C90_plain {unq : Unquote} {t : Str} (hq : '"' ∉ t ∧ '\'' ∉ t) :
    Dockerfile.parse unq (unixEnds t) =
      (Dockerfile.parse unq t).map (relocated (toUnix t) (unixEnds t)) := by
  obtain ⟨V, hV, rfl⟩ := pieces_of t
  rw [unixEnds_hi hV]
  rcases mixed_parse hV with ⟨h1, h2⟩ | ⟨p, s1, ts, p', s1', ts', h1, h2, ht⟩
  · rw [(grammar_none_iff (unq := unq)).2 h1, (grammar_none_iff (unq := unq)).2 h2]; rfl
  · exact alikes_parse h2 h1 (mixed_back hV ht (oneLine_plain hq h2 (mixed_slices ht).2))

/-- C90: Two texts that differ in their line ends only give the same document, but for the positions,
if none of its strings is written in quotes across two lines. -/
theorem C90_same {unq : Unquote} {t t' : Str} {d : Dockerfile} (e : unixEnds t = unixEnds t')
    (h : Dockerfile.parse unq t = .ok d) (ho : OnOneLine t d) :
    Dockerfile.parse unq t' =
      .ok (relocated (fromUnix t') t' (relocated (toUnix t) (unixEnds t) d)) := by
  have hu := C90_there h ho
  obtain ⟨V, hV, rfl⟩ := pieces_of t
  obtain ⟨W, hW, rfl⟩ := pieces_of t'
  have el : lo V = lo W := by rw [← unixEnds_hi hV, ← unixEnds_hi hW, e]
  rcases mixed_parse hV with ⟨_, h1⟩ | ⟨p, s1, ts, p', s1', ts', h1, h2, ht⟩
  · rw [(grammar_none_iff (unq := unq)).2 h1] at h; cases h
  · have hl := mixed_oneLine hV ht (oneLine_of h ho h2 (mixed_slices ht).2)
    rw [el] at h1
    rcases mixed_parse hW with ⟨h3, _⟩ | ⟨p3, s3, ts3, p4, s4, ts4, h3, h4, ht'⟩
    · rw [h3] at h1; cases h1
    · rw [h3] at h1
      cases h1
      rw [alikes_parse h3 h4 (mixed_there hW ht' hl), ← el, ← unixEnds_hi hV, hu]
      rfl

/-! ## what the functions are -/

/-- C90: `unixEnds` has no carriage return; it leaves a text without carriage returns as it is; and it
undoes the change to other line ends of C70. -/
theorem C90_ends (t : Str) : '\r' ∉ unixEnds t ∧ ('\r' ∉ t → unixEnds t = t) ∧
    ('\r' ∉ t → ∀ w, OtherEnd w → unixEnds (reline w t) = t) := by
  refine ⟨?_, ?_, ?_⟩
  · obtain ⟨V, hV, rfl⟩ := pieces_of t
    rw [unixEnds_hi hV]
    exact lo_no_cr hV
  · intro h
    induction t with
    | nil => rfl
    | cons c t ih =>
      simp only [List.mem_cons, not_or] at h
      rw [unixEnds_chr (Ne.symm h.1), ih h.2]
  · intro h w hw
    induction t with
    | nil => rfl
    | cons c t ih =>
      simp only [List.mem_cons, not_or] at h
      by_cases hc : c = '\n'
      · subst hc
        rw [reline_lf]
        rcases hw with rfl | rfl
        · exact congrArg _ (ih h.2)
        · exact (unixEnds_cr (reline_starts (.inr rfl))).trans (congrArg _ (ih h.2))
      · rw [reline_cons hc, unixEnds_chr (Ne.symm h.1), ih h.2]

/-- C90: A text in two parts, cut at any place but the middle of a Windows line end: `unixEnds` is that
of the parts, `toUnix` takes the end of the first part to the end of the first part with line feeds,
and `fromUnix` takes it back. -/
theorem C90_positions {a b : Str} (h : CutBetween a b) :
    unixEnds (a ++ b) = unixEnds a ++ unixEnds b ∧
    toUnix (a ++ b) (blen a) = blen (unixEnds a) ∧
    fromUnix (a ++ b) (blen (unixEnds a)) = blen a := by
  obtain ⟨A, hA, rfl⟩ := pieces_of a
  obtain ⟨B, hB, rfl⟩ := pieces_of b
  have hf := fit_append hA hB h
  obtain ⟨p1, p2⟩ := unix_positions hf
  rw [unixEnds_hi hA, unixEnds_hi hB, ← hi_append, unixEnds_hi hf]
  exact ⟨lo_append A B, p1, p2⟩

/-! ## without the condition -/

/-- C90 does not hold for quotes across lines: the two texts differ in one line end, and give different
documents. -/
theorem C90_quoted_rejected : ∃ (t t' : Str) (d d' : Dockerfile), unixEnds t = unixEnds t' ∧
    Dockerfile.parse Enquote.unquote t = .ok d ∧ Dockerfile.parse Enquote.unquote t' = .ok d' ∧
    d'.instructions.map (·.remap fun _ => 0) ≠ d.instructions.map (·.remap fun _ => 0) :=
  ⟨c!"FROM a\r\nENV a=\"b\nc\"", c!"FROM a\r\nENV a=\"b\rc\"", _, _, by decide +kernel, rfl, rfl,
    by decide +kernel⟩

/-! ## examples -/

/-- a text with all three line ends, with continuations, comments and quotes -/
def mixedText : Str :=
  c!"# a\r\nFROM b\rLABEL c=\"d e\" \\\r\n  f=g\nRUN h \\\n  # i\r  j\r\n\r\rCMD [ \\\r  \"k\"]\nENV l=\"m\"\r"

/-- C90 on this text: the hypotheses are met, the positions move by the number of Windows line ends
before them. -/
example : unixEnds mixedText =
    c!"# a\nFROM b\nLABEL c=\"d e\" \\\n  f=g\nRUN h \\\n  # i\n  j\n\n\nCMD [ \\\n  \"k\"]\nENV l=\"m\"\n" ∧
    (Dockerfile.parse Enquote.unquote mixedText).toOption.map
      (fun d => (onOneLine mixedText d, d.instructions.map (·.span))) =
        some (true, [⟨5, 11⟩, ⟨12, 34⟩, ⟨35, 52⟩, ⟨56, 70⟩, ⟨71, 80⟩]) ∧
    (Dockerfile.parse Enquote.unquote (unixEnds mixedText)).toOption.map
      (fun d => (onOneLine (unixEnds mixedText) d, d.instructions.map (·.span))) =
        some (true, [⟨4, 10⟩, ⟨11, 32⟩, ⟨33, 50⟩, ⟨53, 67⟩, ⟨68, 77⟩]) ∧
    [5, 11, 12, 34, 35, 52, 56, 70, 71, 80].map (toUnix mixedText) =
      [4, 10, 11, 32, 33, 50, 53, 67, 68, 77] ∧
    [4, 10, 11, 32, 33, 50, 53, 67, 68, 77].map (fromUnix mixedText) =
      [5, 11, 12, 34, 35, 52, 56, 70, 71, 80] :=
  ⟨by decide +kernel, by decide +kernel, by decide +kernel, by decide +kernel, by decide +kernel⟩

/- C90_plain on a text with an invalid digest: the same error -/
example : ('"' ∉ c!"FROM a@\rRUN b\r\n" ∧ '\'' ∉ c!"FROM a@\rRUN b\r\n") ∧
    (∃ e, Dockerfile.parse Enquote.unquote c!"FROM a@\rRUN b\r\n" = .error e ∧ e ≠ .err .parseError ∧
      Dockerfile.parse Enquote.unquote (unixEnds c!"FROM a@\rRUN b\r\n") = .error e) :=
  ⟨by decide, _, rfl, by decide, rfl⟩

/- C90_same: from a text with Windows line ends and carriage returns to one with line feeds and Windows
line ends -/
example : unixEnds c!"FROM a\r\nRUN b\r" = unixEnds c!"FROM a\nRUN b\r\n" ∧
    (Dockerfile.parse Enquote.unquote c!"FROM a\r\nRUN b\r").toOption.map
      (fun d => (onOneLine c!"FROM a\r\nRUN b\r" d, d.instructions.map (·.span))) = some (true, [⟨0, 6⟩, ⟨8, 13⟩]) ∧
    (Dockerfile.parse Enquote.unquote c!"FROM a\nRUN b\r\n").toOption.map
      (·.instructions.map (·.span)) = some [⟨0, 6⟩, ⟨7, 12⟩] :=
  ⟨by decide +kernel, by decide +kernel, by decide +kernel⟩

/- a cut between two line ends, and one that is none -/
example : CutBetween c!"a\r\n" c!"\nb" ∧ ¬ CutBetween c!"a\r" c!"\nb" := by
  refine ⟨?_, fun h => h ⟨⟨c!"a", rfl⟩, c!"b", rfl⟩⟩
  rintro ⟨⟨x, hx⟩, _⟩
  have := congrArg List.getLast? hx
  simp at this
example : toUnix (c!"a\r\n" ++ c!"\r\nb") 3 = 2 :=
  (C90_positions (a := c!"a\r\n") (b := c!"\r\nb") (by rintro ⟨_, y, hy⟩; simp at hy)).2.1
example : Dockerfile.parse Enquote.unquote mixedText = .error (.err .parseError) ↔
    Dockerfile.parse Enquote.unquote (unixEnds mixedText) = .error (.err .parseError) :=
  C90_syntax mixedText

end Verif
