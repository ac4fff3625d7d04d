import Verif.Proof.Malformed
import Verif.Props.PestState
import Verif.Props.Source
import Verif.Model.Enquote

/-!
# The ways in which a line can be wrong (C81)

`Src.Malformed` (Spec/Malformed.lean) is a list of the ways in which a line is not well-formed; it is complete, and
all that is on it is rejected.
-/

namespace Verif
open Src Spec Pest

theorem noLine_iff {z : Str} : MalformedLine z ↔ NoLine z := malformed_iff

theorem noLine_none {z : Str} (h : NoLine z) (p : Nat) : docToks p z = none := by
  refine Classical.byContradiction fun hn => ?_
  obtain ⟨l, ms, rfl, hf⟩ := doc_inv hn
  cases ms with
  | nil => exact h l [] (by simp [Src.docText]) AtEnd.nil hf
  | cons m ms => exact h l _ (by simp [Src.docText]) (AtEnd.break hf.2.1) hf.1

/-- **C81.** A line is malformed, in one of the ways listed, if and only if no line fits there. -/
theorem C81_lines (z : Str) :
    MalformedLine z ↔ ∀ (l : Src.Line) r, z = l.text ++ r → Eol r → ¬ l.Fits r := malformed_iff

/-- **C81.** A document is rejected if and only if there are well-formed lines, none or more, and then a malformed
one. -/
theorem C81_document (unq : Unquote) (s : Str) : Dockerfile.parse unq s = .error (.err .parseError) ↔
    ∃ ps z, s = preText ps ++ z ∧ PreFits ps z ∧ MalformedLine z := by
  rw [parse_error_iff]
  constructor
  · intro h
    obtain ⟨p1, s1, t1, p2, s2, t2, h1, h2⟩ := runs_lines s
    have hne : s2 ≠ [] := by
      rintro rfl
      have h3 : Sem G.lines false 0 s (some (_, _, _)) := .seq_ok h1 (.seq_ok h2 (.rule_ok .eoi_ok))
      unfold docToks at h
      rw [(parse_eq_iff safe_lines).2 h3] at h
      cases h
    obtain ⟨x1, rfl, rfl, h1'⟩ := h1.x
    obtain ⟨x2, rfl, rfl, h2'⟩ := h2.x
    obtain ⟨ps, y, f1, f2, f3⟩ := lines_stop hne h2' h1'
    exact ⟨ps, y ++ s2, by rw [← List.append_assoc, f1, List.append_assoc], f2, noLine_iff.2 f3⟩
  · rintro ⟨ps, z, rfl, h1, h2⟩
    exact pre_none (fun p => noLine_none (noLine_iff.1 h2) p) ps 0 h1

/-- **C81.** There is only one such place. -/
theorem C81_place {ps ps' : List (Src.Line × Str)} {z z' : Str} (e : preText ps ++ z = preText ps' ++ z')
    (h1 : PreFits ps z) (h2 : MalformedLine z) (h1' : PreFits ps' z') (h2' : MalformedLine z') :
    preText ps = preText ps' ∧ z = z' := by
  obtain rfl := pre_same ps ps' z z' h1 h1' (noLine_iff.1 h2) (noLine_iff.1 h2') e
  exact ⟨List.append_cancel_right e, rfl⟩

/-! ## shell text -/

theorem unfinished_sem {v : Str} (h : Unfinished v) {a : Src.Shell} {s : Str} (e : v = a.text ++ s) (ha : a.Fits s) : False := by
  obtain ⟨ch, h1, -⟩ := Src.shell_x ha .run_shell 0
  by_cases hc : Continuation v
  · have := shell_none_iff (k := .atomic) (rl := .run_shell) (p := 0) (v := v)
    exact sem_some_not (this.2 ⟨hc.noComment, .inr hc⟩) e h1
  · obtain ⟨x, s', ts, rfl, h2, h3⟩ := shell_leaves (rl := .run_shell) h hc 0
    obtain ⟨-, rfl⟩ := SemX.same h2 h1 rfl e
    exact h3 (Eol.rest ha.eol)

theorem unfinished_not_eol {v : Str} (h : Unfinished v) : ¬ Eol v := by
  intro he
  rcases h.read with hc | hr
  · exact he.not_continuation hc
  · obtain ⟨x, s, ts, rfl, h1, h2⟩ := hr 0
    exact sem_not_none h1 (breakBody_none.2 ⟨he.noComment, .inl he⟩)

/-- **C81.** In front of us is either the end of the line, or shell text, or unfinished shell text. -/
theorem C81_shell (v : Str) : (Eol v ∨ (∃ (a : Src.Shell) (s : Str), v = a.text ++ s ∧ a.Fits s) ∨ Unfinished v) ∧
    ¬ (Eol v ∧ ∃ (a : Src.Shell) (s : Str), v = a.text ++ s ∧ a.Fits s) ∧ ¬ (Eol v ∧ Unfinished v) ∧
    ¬ ((∃ (a : Src.Shell) (s : Str), v = a.text ++ s ∧ a.Fits s) ∧ Unfinished v) := by
  refine ⟨?_, ?_, fun h => unfinished_not_eol h.2 h.1, fun ⟨⟨a, s, e, ha⟩, h⟩ => unfinished_sem h e ha⟩
  · rcases sem_or (e := G.run_shell) (by decide +kernel) false 0 v with h | ⟨x, s, us, rfl, h⟩
    · rcases (shell_none_iff.1 h).2 with h | h
      · exact .inl h
      · exact .inr (.inr (.nothing h))
    · by_cases hc : Clean s
      · obtain ⟨a, rfl, ha⟩ := shell_inv (Rest.not_continuation hc) h
        exact .inr (.inl ⟨a, s, rfl, ha⟩)
      · exact .inr (.inr (shell_left h hc))
  · rintro ⟨he, a, s, rfl, ha⟩
    obtain ⟨ch, h1, -⟩ := Src.shell_x ha .run_shell 0
    exact sem_not_none h1 (shell_none_iff.2 ⟨he.noComment, .inl he⟩)

/-- **C81.** Without a backslash no shell text is unfinished. -/
theorem C81_backslash {v : Str} (h : Unfinished v) : '\\' ∈ v := by
  induction h with
  | nothing h => obtain ⟨w, n, t, rfl, -⟩ := h; simp
  | empty => simp
  | more => simp
  | comment _ _ _ _ ih => simp [ih]

/-- **C81.** Letters, and then something in the same line without a backslash, are well-formed, unless the letters are
a keyword and its arguments start as they should. -/
theorem C81_other {w v : Str} (h0 : w ≠ []) (h1 : ∀ c ∈ w, IsAlpha c) (h2 : IsKeyword w → ¬ Begins (lower w) v)
    (h3 : ∀ c b, v = c :: b → ¬ IsAlpha c) (h4 : ¬ Eol v) (h5 : '\\' ∉ v) : ¬ Malformed (w ++ v) := by
  intro h
  rcases (C81_shell v).1 with h6 | ⟨a, s, rfl, ha⟩ | h6
  · exact h4 h6
  · refine (C81_lines _).1 ⟨[], _, rfl, .nil, h⟩ ⟨[], .misc w a, []⟩ s (by simp [Src.Line.text, Src.Item.text]) ha.eol
      ⟨.nil, ⟨h0, h1, ha, fun c b e => h3 c (b ++ s) (by rw [e]; rfl), h2⟩, .nil⟩
  · exact h5 (C81_backslash h6)

/-! ## examples -/

/-- The examples below: a text that is rejected, by running the model. -/
private abbrev Rejected (s : Str) : Prop :=
  (match Dockerfile.parse Enquote.unquote s with | .error (.err .parseError) => true | _ => false) = true

/-- a line that does not start with a letter, and a word alone -/
example : Malformed c!"?x" := .start (by decide) (by decide) (by decide) (by decide) (by decide)
  (fun h => absurd (isAlpha_iff.2 h) (by decide))
example : Malformed c!"FROM" := .word (w := c!"FROM") (v := []) (by decide)
  (fun c h => isAlpha_iff.1 ((by decide : ∀ c ∈ c!"FROM", isAlpha c = true) c h)) (fun c b e => by cases e)

/-- a continuation with nothing in front of it -/
example : Malformed (c!"FOO" ++ c!"\\\nx") := .misc (by decide)
  (fun c h => isAlpha_iff.1 ((by decide : ∀ c ∈ c!"FOO", isAlpha c = true) c h))
  (fun c b e h => by
    cases e
    exact absurd (isAlpha_iff.2 h) (by decide))
  (fun h => absurd h (by unfold IsKeyword; decide)) (.nothing ⟨[], c!"\n", c!"x", rfl, .nil, .inl rfl⟩)

/-- one line for each way -/
example : ∀ s ∈ [c!"?x", c!"FROM", c!"FOO\\\nx", c!"RUN a \\\n\nb", c!"CMD [\"a\"] b", c!"FROM a b", c!"FROM a \\\n b",
    c!"ARG a b", c!"ARG a=b c", c!"COPY a b \\\n", c!"LABEL a b c", c!"LABEL a", c!"ENV a b \\\n\\\n", c!"ENV a \"b\" c",
    c!"ENV a"], Rejected s := by
  decide +kernel

/-- and lines that look similar and are accepted -/
example : ∀ s ∈ [c!"x ?", c!"FROM ?", c!"FOO \\\nx", c!"RUN a \\\nb", c!"CMD [\"a\" b", c!"FROM a as b", c!"FROM a \\\n as b",
    c!"ARG a ", c!"ARG a=\"b c\"", c!"COPY a b ", c!"LABEL a b", c!"LABEL a=b \\\n", c!"ENV a b \\\nc", c!"ENV a \"b\" ",
    c!"ENV a=b \\\n"], ¬ Rejected s := by
  decide +kernel

end Verif
