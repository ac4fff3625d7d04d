import Verif.Proof.FinalDoc
import Verif.Spec.FinalBreak
import Verif.Props.Join

/-! # A line feed at the end of the text (C68) -/

namespace Verif
open Spec

theorem openEnd_iff {s : Str} : Src.Open s ['\n'] ↔ OpenEnd s :=
  ⟨fun h => h.1, fun h => ⟨h, [], ['\n'], [], rfl, fun _ h => (by cases h), .inl rfl⟩⟩

theorem numberStages_other (is : List Instruction) {x : Instruction} (hx : Src.Other x) : ∀ n,
    numberStages n (is ++ [x]) = numberStages n is ++ [x] := by
  induction is with
  | nil =>
    intro n
    cases x
    case «from» f => exact absurd rfl (hx.1 f)
    all_goals rfl
  | cons i is ih => intro n; cases i <;> simp [numberStages, ih]

theorem globalArgs_other (is : List Instruction) {x : Instruction} (hx : Src.Other x) :
    globalArgs (is ++ [x]) = globalArgs is := by
  induction is with
  | nil =>
    cases x
    case arg f => exact absurd rfl (hx.2 f)
    all_goals rfl
  | cons i is ih => cases i <;> simp [globalArgs, ih]

/-- C68: An accepted text that does not end with a backslash (and blanks) is accepted with a line feed
after it.  The global arguments are the same.  The instructions are the same, or only the last differs,
in its spans: it is neither a `FROM` nor an `ARG`, it used to end at the end of the text, and so it does with the line feed. -/
theorem C68_final_break {unq : Unquote} {s : Str} {d : Dockerfile} (ho : ¬ OpenEnd s)
    (h : Dockerfile.parse unq s = .ok d) :
    ∃ d', Dockerfile.parse unq (s ++ c!"\n") = .ok d' ∧ d'.content = s ++ c!"\n" ∧
      d'.global_args = d.global_args ∧
      (d'.instructions = d.instructions ∨
        ∃ pre x y, d.instructions = pre ++ [x] ∧ d'.instructions = pre ++ [y] ∧
          (∀ f, x ≠ .from f) ∧ (∀ a, x ≠ .arg a) ∧ y.remap (fun _ => 0) = x.remap (fun _ => 0) ∧
          x.span.stop = blen s ∧ y.span = ⟨x.span.start, blen s + 1⟩) := by
  obtain ⟨l, ms, is, hf, rfl, he, rfl⟩ := C51_accepted.1 h
  obtain ⟨l', ms', hf', e, hs⟩ := Src.doc_final ms l hf (fun h => ho (openEnd_iff.1 h))
  rcases hs unq 0 with ⟨f, h1, -⟩ | ⟨is1, is2, h1, h2, h3⟩
  · rw [he] at h1; cases h1
  · rw [he] at h1
    cases h1
    refine ⟨documentOf (Src.docText l ms ++ c!"\n") is2, C51_accepted.2 ⟨l', ms', is2, hf', e, h2, rfl⟩, rfl, ?_⟩
    rcases h3 with rfl | ⟨pre, x, y, rfl, rfl, ⟨h4, h5, h6⟩, h7, h8⟩
    · exact ⟨rfl, .inl rfl⟩
    · simp only [documentOf, globalArgs_other pre h5, globalArgs_other pre h6, numberStages_other pre h5,
        numberStages_other pre h6]
      rw [Nat.zero_add] at h7 h8
      exact ⟨trivial, .inr ⟨_, x, y, rfl, rfl, h5.1, h5.2, h4, h7, h8⟩⟩

/-- C68: A text that does not end with a backslash (and blanks) is rejected if and only if it is
rejected with a line feed after it, and with the same error. -/
theorem C68_final_error {unq : Unquote} {s : Str} (ho : ¬ OpenEnd s) (f : Fault) :
    Dockerfile.parse unq (s ++ c!"\n") = .error f ↔ Dockerfile.parse unq s = .error f := by
  by_cases hx : ∃ l ms, Src.DocFits l ms ∧ Src.docText l ms = s
  · obtain ⟨l, ms, hf, rfl⟩ := hx
    obtain ⟨l', ms', hf', e, hs⟩ := Src.doc_final ms l hf (fun h => ho (openEnd_iff.1 h))
    have e1 := C51_fits (unq := unq) hf
    have e2 := C51_fits (unq := unq) hf'
    rw [e] at e2
    rw [show (c!"\n" : Str) = ['\n'] from rfl, e1, e2]
    rcases hs unq 0 with ⟨g, h1, h2⟩ | ⟨is1, is2, h1, h2, h3⟩
    · rw [h1, h2]; exact Iff.rfl
    · rw [h1, h2]
      constructor <;> intro h <;> cases h
  · have hx' : ¬ ∃ l ms, Src.DocFits l ms ∧ Src.docText l ms = s ++ c!"\n" := by
      rintro ⟨l, ms, hf, e⟩
      exact hx (Src.doc_unfinal ms l s hf e fun h => ho (openEnd_iff.1 h))
    rw [C51_unfit hx, C51_unfit hx']

theorem openEnd_lf (s : Str) : ¬ OpenEnd (s ++ c!"\n") := by
  rintro ⟨a, w, e, hw⟩
  obtain ⟨w', -, e2⟩ := Src.ends_lf (a := a) e (by simp)
  cases w' with
  | nil => exact absurd (List.cons.inj e2).1 (by decide)
  | cons c w' =>
    obtain ⟨-, rfl⟩ := List.cons.inj e2
    have := hw '\n' (by simp)
    simp at this

/-- C68: Whether a text is accepted, and all values but the spans, do not depend on line feeds at the
end of the text, unless it ends with a backslash (and blanks) without them. -/
theorem C68_final_breaks {unq : Unquote} {s : Str} (ho : ¬ OpenEnd s) (k : Nat) :
    (Dockerfile.parse unq (s ++ List.replicate k '\n')).map (·.bare) = (Dockerfile.parse unq s).map (·.bare) := by
  have one : ∀ {s : Str}, ¬ OpenEnd s →
      (Dockerfile.parse unq (s ++ c!"\n")).map (·.bare) = (Dockerfile.parse unq s).map (·.bare) := by
    intro s ho
    cases h : Dockerfile.parse unq s with
    | error f => rw [(C68_final_error ho f).2 h]
    | ok d =>
      obtain ⟨d', h1, -, h2, h3⟩ := C68_final_break ho h
      rw [h1]
      refine congrArg Except.ok ?_
      simp only [Dockerfile.bare, h2]
      rcases h3 with h3 | ⟨pre, x, y, e1, e2, -, -, h3, -⟩
      · rw [h3]
      · rw [e1, e2]; simp [h3]
  induction k with
  | zero => simp
  | succ k ih =>
    rw [← ih, List.replicate_succ', ← List.append_assoc]
    refine one ?_
    cases k with
    | zero => simpa using ho
    | succ k => rw [List.replicate_succ', ← List.append_assoc]; exact openEnd_lf _

/-! ## without the condition -/

/-- C68 does not hold for texts that end with a backslash: an accepted text can be rejected with a
line feed after it, … -/
theorem C68_open_rejected : ∃ (s : Str) (d : Dockerfile), Dockerfile.parse Enquote.unquote s = .ok d ∧
    Dockerfile.parse Enquote.unquote (s ++ c!"\n") = .error (.err .parseError) :=
  ⟨c!"FROM a\nRUN b \\", _, rfl, by decide +kernel⟩

/-- … a rejected text can be accepted with a line feed after it, … -/
theorem C68_open_accepted : ∃ (s : Str) (d : Dockerfile),
    Dockerfile.parse Enquote.unquote s = .error (.err .parseError) ∧
    Dockerfile.parse Enquote.unquote (s ++ c!"\n") = .ok d :=
  ⟨c!"FROM a\nENV b=c \\", _, by decide +kernel, rfl⟩

/-- … and both can be accepted, with different values. -/
theorem C68_open_different : ∃ (s : Str) (d d' : Dockerfile), Dockerfile.parse Enquote.unquote s = .ok d ∧
    Dockerfile.parse Enquote.unquote (s ++ c!"\n") = .ok d' ∧ d'.bare ≠ d.bare :=
  ⟨c!"FROM a\nENV b=c\\", _, _, rfl, rfl, by decide +kernel⟩

/-! ## examples -/

/-- the last instruction ends with the text, and stays as it is -/
example : ¬ OpenEnd c!"FROM a\nRUN b # c" ∧
    (Dockerfile.parse Enquote.unquote c!"FROM a\nRUN b # c").toOption.map (·.instructions.map (·.span)) =
      some [⟨0, 6⟩, ⟨7, 16⟩] ∧
    (Dockerfile.parse Enquote.unquote c!"FROM a\nRUN b # c\n").toOption.map (·.instructions.map (·.span)) =
      some [⟨0, 6⟩, ⟨7, 16⟩] := by
  refine ⟨?_, by decide +kernel, by decide +kernel⟩
  rintro ⟨a, w, e, hw⟩
  have : '\\' ∈ c!"FROM a\nRUN b # c" := by rw [e]; simp
  revert this; decide

/-- the line feed becomes a part of the last instruction -/
example :
    (Dockerfile.parse Enquote.unquote c!"FROM a\nRUN b \\\n# c").toOption.map (·.instructions.map (·.span)) =
      some [⟨0, 6⟩, ⟨7, 18⟩] ∧
    (Dockerfile.parse Enquote.unquote c!"FROM a\nRUN b \\\n# c\n").toOption.map (·.instructions.map (·.span)) =
      some [⟨0, 6⟩, ⟨7, 19⟩] := by
  decide +kernel

end Verif
