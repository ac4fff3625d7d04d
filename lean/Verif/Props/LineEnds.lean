import Verif.Proof.LineEndsDoc
import Verif.Model.Enquote

/-! # Other line ends (C70) -/

namespace Verif
open Spec

/-- C70: A text without carriage returns is rejected by the grammar if and only if it is with Windows
line ends, or with single carriage returns, in place of its line feeds. -/
theorem C70_syntax {unq : Unquote} {w s : Str} (hw : OtherEnd w) (hr : '\r' ∉ s) :
    Dockerfile.parse unq (reline w s) = .error (.err .parseError) ↔
      Dockerfile.parse unq s = .error (.err .parseError) := by
  rw [grammar_none_iff, grammar_none_iff]
  rcases relined_parse hw hr with ⟨h1, h2⟩ | ⟨_, _, _, _, _, _, h1, h2, _⟩
  · simp [h1, h2]
  · simp [h1, h2]

/-- C70: A document is the same with other line ends, but for the positions, if none of its strings is
written in quotes across two lines. -/
theorem C70_there {unq : Unquote} {w s : Str} {d : Dockerfile} (hw : OtherEnd w) (hr : '\r' ∉ s)
    (h : Dockerfile.parse unq s = .ok d) (ho : OnOneLine s d) :
    Dockerfile.parse unq (reline w s) = .ok (relocated (toEnds w s) (reline w s) d) := by
  rcases relined_parse hw hr with ⟨h1, _⟩ | ⟨p, s1, ts, p', s1', ts', h1, h2, ht⟩
  · rw [(grammar_none_iff (unq := unq)).2 h1] at h; cases h
  · rw [alikes_parse h1 h2 (alikes_there hw ht (oneLine_of h ho h1 (twins_slices ht).1)), h]
    rfl

/-- C70: The same in the other direction: from other line ends to line feeds. -/
theorem C70_back {unq : Unquote} {w s : Str} {d : Dockerfile} (hw : OtherEnd w) (hr : '\r' ∉ s)
    (h : Dockerfile.parse unq (reline w s) = .ok d) (ho : OnOneLine (reline w s) d) :
    Dockerfile.parse unq s = .ok (relocated (fromEnds w (reline w s)) s d) := by
  rcases relined_parse hw hr with ⟨_, h1⟩ | ⟨p, s1, ts, p', s1', ts', h1, h2, ht⟩
  · rw [(grammar_none_iff (unq := unq)).2 h1] at h; cases h
  · rw [alikes_parse h2 h1 (alikes_back hw hr ht (oneLine_of h ho h2 (twins_slices ht).2)), h]
    rfl

/-- C70: For a text without quotes, the result is the same with other line ends, but for the positions,
whether it is a document or an error. -/
theorem C70_plain {unq : Unquote} {w s : Str} (hw : OtherEnd w) (hr : '\r' ∉ s)
    (hq : '"' ∉ s ∧ '\'' ∉ s) :
    Dockerfile.parse unq (reline w s) =
      (Dockerfile.parse unq s).map (relocated (toEnds w s) (reline w s)) := by
  rcases relined_parse hw hr with ⟨h1, h2⟩ | ⟨p, s1, ts, p', s1', ts', h1, h2, ht⟩
  · rw [(grammar_none_iff (unq := unq)).2 h1, (grammar_none_iff (unq := unq)).2 h2]; rfl
  · exact alikes_parse h1 h2 (alikes_there hw ht (oneLine_plain hq h1 (twins_slices ht).1))

/-- C70: `toEnds` takes the end of every part of the text from its start to the end of that part with
the other line ends, and `fromEnds` takes it back. -/
theorem C70_positions {w : Str} (hw : OtherEnd w) {a b : Str} (hr : '\r' ∉ a) :
    toEnds w (a ++ b) (blen a) = blen (reline w a) ∧
    fromEnds w (reline w (a ++ b)) (blen (reline w a)) = blen a :=
  ⟨toEnds_prefix hw a b, by rw [reline_append]; exact fromEnds_prefix hw hr _⟩

/-! ## without the condition -/

/-- C70 does not hold for quotes across lines: a label that is continued after a backslash has
another value with Windows line ends, … -/
theorem C70_label_rejected : ∃ (s : Str) (d : Dockerfile), '\r' ∉ s ∧
    Dockerfile.parse Enquote.unquote s = .ok d ∧
    ∃ e, Dockerfile.parse Enquote.unquote (reline ['\r', '\n'] s) = .error e :=
  ⟨c!"LABEL a=\"b\\\nc\"", _, by decide, rfl, _, rfl⟩

/-- … and so has a value of `ENV` that has a line feed in it. -/
theorem C70_env_different : ∃ (s : Str) (d d' : Dockerfile), '\r' ∉ s ∧
    Dockerfile.parse Enquote.unquote s = .ok d ∧
    Dockerfile.parse Enquote.unquote (reline ['\r', '\n'] s) = .ok d' ∧
    d'.instructions.map (·.remap fun _ => 0) ≠ d.instructions.map (·.remap fun _ => 0) :=
  ⟨c!"ENV a=\"b\nc\"", _, _, by decide, rfl, rfl, by decide +kernel⟩

/-! ## examples -/

/-- a check of `OnOneLine`, for the examples -/
def onOneLine (s : Str) (d : Dockerfile) : Bool :=
  d.instructions.all fun i => (writtenStrings i).all fun sp =>
    match (splitAtByte s sp.start).bind fun x => splitAtByte x.2 (sp.stop - sp.start) with
    | some (t, _) => t.all fun c => c != '\n' && c != '\r'
    | none => true

theorem onOneLine_sound {s : Str} {d : Dockerfile} (h : onOneLine s d = true) : OnOneLine s d := by
  rintro i hi sp hsp t ⟨a, c, rfl, h1, h2⟩ _ x hx
  have := List.all_eq_true.1 (List.all_eq_true.1 h i hi) sp hsp
  rw [h1, h2, List.append_assoc, splitAtByte_append, Option.bind_some, Nat.add_sub_cancel_left,
    splitAtByte_append] at this
  simpa using List.all_eq_true.1 this x hx

/-- a text with continuations, comments and quotes, none of them across lines -/
def lineEndsText : Str :=
  c!"# a\nFROM b\nLABEL c=\"d e\" \\\n  f=g\nRUN h \\\n  # i\n  j\nCMD [ \\\n  \"k\"]\nENV l=\"m\"\n"

/-- C70 on this text, with Windows line ends and with single carriage returns: the hypotheses are met,
the positions move by the number of line feeds before them, or not at all. -/
example : OtherEnd ['\r', '\n'] ∧ OtherEnd ['\r'] ∧ '\r' ∉ lineEndsText ∧
    (Dockerfile.parse Enquote.unquote lineEndsText).toOption.map
      (fun d => (onOneLine lineEndsText d, d.instructions.map (·.span))) =
        some (true, [⟨4, 10⟩, ⟨11, 32⟩, ⟨33, 50⟩, ⟨51, 65⟩, ⟨66, 75⟩]) ∧
    (Dockerfile.parse Enquote.unquote (reline ['\r', '\n'] lineEndsText)).toOption.map
      (fun d => (onOneLine (reline ['\r', '\n'] lineEndsText) d, d.instructions.map (·.span))) =
        some (true, [⟨5, 11⟩, ⟨13, 35⟩, ⟨37, 56⟩, ⟨58, 73⟩, ⟨75, 84⟩]) ∧
    (Dockerfile.parse Enquote.unquote (reline ['\r'] lineEndsText)).toOption.map
      (·.instructions.map (·.span)) = some [⟨4, 10⟩, ⟨11, 32⟩, ⟨33, 50⟩, ⟨51, 65⟩, ⟨66, 75⟩] :=
  ⟨.inl rfl, .inr rfl, by decide, by decide +kernel, by decide +kernel, by decide +kernel⟩

/-- C70_plain on a text with an invalid digest: the same error -/
example : '\r' ∉ c!"FROM a@\nRUN b\n" ∧ '"' ∉ c!"FROM a@\nRUN b\n" ∧ '\'' ∉ c!"FROM a@\nRUN b\n" ∧
    (∃ e, Dockerfile.parse Enquote.unquote c!"FROM a@\nRUN b\n" = .error e ∧ e ≠ .err .parseError ∧
      Dockerfile.parse Enquote.unquote (reline ['\r'] c!"FROM a@\nRUN b\n") = .error e) :=
  ⟨by decide, by decide, by decide, _, rfl, by decide, rfl⟩

/- C70 on the text above -/
example : Dockerfile.parse Enquote.unquote (reline ['\r', '\n'] lineEndsText) = .error (.err .parseError) ↔
    Dockerfile.parse Enquote.unquote lineEndsText = .error (.err .parseError) :=
  C70_syntax (.inl rfl) (by decide)
example : Dockerfile.parse Enquote.unquote (reline ['\r'] c!"FROM a@\nRUN b\n") =
    (Dockerfile.parse Enquote.unquote c!"FROM a@\nRUN b\n").map
      (relocated (toEnds ['\r'] c!"FROM a@\nRUN b\n") (reline ['\r'] c!"FROM a@\nRUN b\n")) :=
  C70_plain (.inr rfl) (by decide) (by decide)
example : toEnds ['\r', '\n'] (c!"FROM a\nRUN\n" ++ c!"b") 11 = 13 :=
  (C70_positions (.inl rfl) (a := c!"FROM a\nRUN\n") (b := c!"b") (by decide)).1

end Verif
