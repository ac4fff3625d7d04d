import Verif.Props.StrLines
import Verif.Props.Source
import Verif.Proof.Breaks

/-! # Spans and line breaks -/

namespace Verif
open Spec

theorem numberStages_spans {is : List Instruction} : ∀ {n i}, i ∈ numberStages n is → ∃ j ∈ is, spansOf j = spansOf i := by
  induction is with
  | nil => intro n i h; cases h
  | cons x is ih =>
    intro n i h
    have hx : ∀ {m}, i ∈ numberStages m is → ∃ j ∈ x :: is, spansOf j = spansOf i := fun h => by
      obtain ⟨j, h1, h2⟩ := ih h
      exact ⟨j, .tail _ h1, h2⟩
    cases x <;> rcases List.mem_cons.1 h with rfl | h <;> first | exact ⟨_, .head _, rfl⟩ | exact hx h

/-- C04 (line breaks): the text `t` at a span of a parsed document is not empty, does not start with a line break,
and neither starts nor ends between the two characters of `\r\n`. -/
theorem C04_line_breaks (unq : Unquote) (s : Str) (d : Dockerfile) (h : Dockerfile.parse unq s = .ok d) (i : Instruction)
    (hi : i ∈ d.instructions) (sp : Span) (hsp : sp ∈ spansOf i) :
    ∃ a t c, s = a ++ t ++ c ∧ sp.start = blen a ∧ sp.stop = blen a + blen t ∧
      (∃ x y, t = x :: y ∧ x ≠ '\n' ∧ x ≠ '\r') ∧ (∀ x y, t = x ++ ['\r'] → c ≠ '\n' :: y) := by
  obtain ⟨l, ms, is, hf, rfl, he, rfl⟩ := C51_accepted.1 h
  obtain ⟨j, hj, e⟩ := numberStages_spans hi
  obtain ⟨a, t, c, h1, h2, h3, h4, h5⟩ := Src.doc_sits hf he j hj sp (e ▸ hsp)
  exact ⟨a, t, c, by rw [h1, List.append_assoc], by omega, by omega, h4, h5⟩

/-- C26 (documents): every span of a parsed document, by line: a text without a line feed is found at the relative
span in its line, and with a line feed the relative span reaches past the line.  (`SliceOf x sp t`: the text at the
span `sp` of `x` is `t`.) -/
theorem C26_document (unq : Unquote) (s : Str) (d : Dockerfile) (h : Dockerfile.parse unq s = .ok d) (i : Instruction)
    (hi : i ∈ d.instructions) (sp : Span) (hsp : sp ∈ spansOf i) :
    ∃ n r x t, sp.relativeSpan d = some (n, r) ∧ (strLines s)[n]? = some x ∧ SliceOf s sp t ∧
      ('\n' ∈ t → blen x < r.stop) ∧ ('\n' ∉ t → SliceOf x r t) := by
  obtain ⟨pre, t, rest, h1, h2, h3, ⟨_, _, ht, -⟩, hr⟩ := C04_line_breaks unq s d h i hi sp hsp
  have ht : t ≠ [] := by rw [ht]; simp
  obtain ⟨l, m, rfl, hl, hm⟩ := C26_lines_exist pre
  have hc : d.content = s := ((ens_parse unq s).ok_of h).1
  obtain ⟨x, hx, hx1, hx2, -⟩ := C26_line l m t rest hl hm ht
  have hb : blen (l ++ m) = blen l + blen m := blen_append l m
  have hrel := C26_relative_span d sp l m (t ++ rest) (by rw [hc, h1]; simp) hl hm (by omega) (by omega)
  have e : sp.stop - sp.start = blen t := by omega
  rw [e] at hrel
  refine ⟨_, _, x, t, hrel, by rw [h1]; exact hx, ⟨l ++ m, rest, h1, h2, h3⟩, hx1, fun ha => ?_⟩
  obtain ⟨y, hy⟩ := hx2 ha hr
  exact ⟨m, y, by rw [hy], rfl, rfl⟩

example : Dockerfile.parse Enquote.unquote sample2 = .ok sampleDoc ∧
    ∃ i ∈ sampleDoc.instructions, (⟨52, 57⟩ : Span) ∈ spansOf i :=
  ⟨sampleDoc_parse, by decide +kernel⟩

/-- a carriage return in a text in quotes and at the end of a comment, but never cut from its line feed -/
example : (Dockerfile.parse Enquote.unquote c!"LABEL a=\"b\r\nc\"\r\nRUN x \\\r\n# y\r\n").toOption.map (fun d =>
      d.instructions.map spansOf) =
    some [[⟨0, 14⟩, ⟨6, 14⟩, ⟨6, 7⟩, ⟨8, 14⟩], [⟨16, 30⟩, ⟨20, 30⟩, ⟨20, 22⟩, ⟨25, 28⟩]] := by
  decide +kernel

end Verif
