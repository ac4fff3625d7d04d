import Verif.Proof.Print3

/-! # Written lines and documents -/

namespace Verif
open Spec

theorem item_x {unq : Unquote} {i : Item} (h : i.OK unq) {s : Str} (hs : Rest s)
    (hg : i.Greedy → AtEnd s) (hb : i ≠ .blank) (hc : ∀ t, i ≠ .comment t) (p : Nat) :
    ∃ tok ins, SemX G.step false p i.text s [tok] ∧ i.instr p = some ins ∧
      (tok.rule ≠ .EOI ∧ tok.rule ≠ .comment) ∧ instructionOf unq tok = .ok ins := by
  have he : ∀ k : ExecKind, (execRule k).1 ≠ .EOI ∧ (execRule k).1 ≠ .comment := by
    intro k; cases k <;> decide
  cases i with
  | blank => exact absurd rfl hb
  | comment t => exact absurd rfl (hc t)
  | «from» =>
    obtain ⟨t, ins, h1, h2, h3, h4⟩ := item_from h hs p
    exact ⟨t, ins, h1, h2, by rw [h3]; decide, h4⟩
  | arg =>
    obtain ⟨t, ins, h1, h2, h3, h4⟩ := item_arg h hs p
    exact ⟨t, ins, h1, h2, by rw [h3]; decide, h4⟩
  | label =>
    obtain ⟨t, ins, h1, h2, h3, h4⟩ := item_label h (hg trivial) p
    exact ⟨t, ins, h1, h2, by rw [h3]; decide, h4⟩
  | label1 =>
    obtain ⟨t, ins, h1, h2, h3, h4⟩ := item_label1 h hs p
    exact ⟨t, ins, h1, h2, by rw [h3]; decide, h4⟩
  | shell k =>
    obtain ⟨t, ins, h1, h2, h3, h4⟩ := item_shell h (hg trivial) p
    exact ⟨t, ins, h1, h2, by rw [h3]; exact he k, h4⟩
  | exec k =>
    obtain ⟨t, ins, h1, h2, h3, h4⟩ := item_exec h hs p
    exact ⟨t, ins, h1, h2, by rw [h3]; exact he k, h4⟩
  | copy =>
    obtain ⟨t, ins, h1, h2, h3, h4⟩ := item_copy h hs p
    exact ⟨t, ins, h1, h2, by rw [h3]; decide, h4⟩
  | env =>
    obtain ⟨t, ins, h1, h2, h3, h4⟩ := item_env h (hg trivial) p
    exact ⟨t, ins, h1, h2, by rw [h3]; decide, h4⟩
  | env1 =>
    obtain ⟨t, ins, h1, h2, h3, h4⟩ := item_env1 h (hg trivial) p
    exact ⟨t, ins, h1, h2, by rw [h3]; decide, h4⟩
  | env1q =>
    obtain ⟨t, ins, h1, h2, h3, h4⟩ := item_env1q h hs p
    exact ⟨t, ins, h1, h2, by rw [h3]; decide, h4⟩
  | misc =>
    obtain ⟨t, ins, h1, h2, h3, h4⟩ := item_misc h (hg trivial) p
    exact ⟨t, ins, h1, h2, by rw [h3]; decide, h4⟩

/-- A step starts with a letter. -/
theorem step_letter {p : Nat} {x s : Str} {ts : List Tok} (h : SemX G.step false p x s ts) :
    ∀ c b, x ++ s = c :: b → isAlpha c = true := by
  intro c b e
  cases hc : isAlpha c with
  | true => rfl
  | false =>
    exfalso
    have : Sem G.step false p (x ++ s) none := step_none fun d b' e' => by
      rw [e] at e'; cases e'; exact hc
    exact absurd (this.det h) (by simp)

/-- A written line yields its instruction. -/
theorem line_x {unq : Unquote} {l : LineText} (h : l.OK unq) (p : Nat) {r : Str} (hr : AtEnd r) :
    ∃ ts, SemX G.meta_step false p l.text r ts ∧
      ∀ st, recordLoop unq ts st = .ok ((l.instrs p).foldl loopStep st) := by
  obtain ⟨h1, h2, h3, h4⟩ := h
  by_cases hb : l.item = .blank
  · refine ⟨[], ?_, fun st => by simp [LineText.instrs, hb, Item.instr, recordLoop]⟩
    have : Blanks l.text := by
      intro c hc
      simp only [LineText.text, hb, Item.text, List.nil_append, List.mem_append] at hc
      exact hc.elim (h1 c) (h3 c)
    exact line_blank this r hr
  by_cases hc : ∃ t, l.item = .comment t
  · obtain ⟨t, hc⟩ := hc
    have ht : CommentText t := by rw [hc] at h2; exact h2
    have h4' := h4 (by rw [hc]; trivial)
    refine ⟨[.node .comment (p + blen l.indent) (p + blen l.indent + blen t) t []], ?_, fun st => ?_⟩
    · have e : l.text = l.indent ++ t := by simp [LineText.text, hc, Item.text, h4']
      rw [e]
      exact line_comment h1 ht r hr
    · simp [LineText.instrs, hc, Item.instr, recordLoop, Tok.rule]
  · obtain ⟨tok, ins, k1, k2, k3, k4⟩ := item_x h2 (s := l.trail ++ r) ⟨l.trail, r, rfl, h3, hr⟩
      (fun hg => by rw [h4 hg]; exact hr) hb (fun t e => hc ⟨t, e⟩) (p + blen l.indent)
    refine ⟨[] ++ ([tok] ++ []), ?_, fun st => ?_⟩
    · refine SemX.seq (ws_x h1 fun c b e => ?_) (SemX.seq (semX_opt.2 (.inl (semX_alt.2 (.inl k1))))
        (ws_x h3 fun c b e => isBlank_break (hr c b e)))
      have := step_letter k1 c b (by simpa using e)
      have := plain_alpha c this
      simp only [plainChar, Bool.not_eq_true', Bool.or_eq_false_iff] at this
      exact this.1.1
    · simp only [List.nil_append, List.append_nil]
      rw [recordLoop_cons_rule k3.1 k3.2, k4]
      simp [LineText.instrs, k2, recordLoop]

theorem doc_x {unq : Unquote} {l : LineText} {ms : List (Str × LineText)} (h : DocOK unq l ms)
    (p : Nat) : ∃ ts, docToks p (docText l ms) = some ts ∧
      ∀ st, recordLoop unq ts st = .ok ((docInstrs p l ms).foldl loopStep st) := by
  induction ms generalizing l p with
  | nil =>
    obtain ⟨ts, h1, h2⟩ := line_x (show l.OK unq from h) p (r := []) AtEnd.nil
    refine ⟨_, docToks_last h1, fun st => ?_⟩
    rw [recordLoop_append, h2]
    rfl
  | cons m ms ih =>
    obtain ⟨n, m⟩ := m
    obtain ⟨h1, h2, h3⟩ := h
    obtain ⟨ts, k1, k2⟩ := line_x h1 p (AtEnd.break h2)
    obtain ⟨us, k3, k4⟩ := ih h3 (p + blen l.text + blen n)
    refine ⟨ts ++ us, ?_, fun st => ?_⟩
    · have := docToks_cons k1 h2
      rw [k3, List.append_assoc] at this
      exact this
    · rw [recordLoop_append, k2, ok_bind, k4]
      simp [docInstrs, List.foldl_append]

theorem loop_documentOf (is : List Instruction) : ∀ st : LoopState,
    is.foldl loopStep st =
      { instructions := st.instructions ++ numberStages st.fromIndex is
        globalArgs := st.globalArgs ++ (if st.fromFound then [] else globalArgs is)
        fromFound := (is.foldl loopStep st).fromFound
        fromIndex := (is.foldl loopStep st).fromIndex } := by
  induction is with
  | nil => intro st; cases st; simp [numberStages, globalArgs]
  | cons i is ih =>
    intro st
    rw [List.foldl_cons, ih]
    cases i <;> by_cases hf : st.fromFound = true <;> simp [loopStep, numberStages, globalArgs, hf]

/-- **A written document is parsed to what was written.** -/
theorem parse_docText {unq : Unquote} {l : LineText} {ms : List (Str × LineText)}
    (h : DocOK unq l ms) :
    Dockerfile.parse unq (docText l ms) = .ok (documentOf (docText l ms) (docInstrs 0 l ms)) := by
  obtain ⟨ts, h1, h2⟩ := doc_x h 0
  rw [parse_docToks, h1]
  simp only [h2, mapped_ok]
  rw [loop_documentOf]
  rfl

end Verif
