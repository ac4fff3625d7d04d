import Verif.Proof.Local
import Verif.Model.Enquote

/-! # Line by line (C48) -/

namespace Verif
open Spec

/-! ## moving twice -/

theorem Instruction.shift_shift (j k : Nat) (i : Instruction) :
    (i.shift j).shift k = i.shift (k + j) := by
  have h0 : ∀ s : Span, (s.shift j).shift k = s.shift (k + j) := by
    intro s; simp [Span.shift]; omega
  have h1 : ∀ s : SpannedString, (s.shift j).shift k = s.shift (k + j) := by
    intro s; simp [SpannedString.shift, h0]
  have h2 : ∀ s : BreakableStringComponent, (s.shift j).shift k = s.shift (k + j) := by
    intro s; cases s <;> simp [BreakableStringComponent.shift, SpannedComment.shift, h0, h1]
  have h3 : ∀ s : BreakableString, (s.shift j).shift k = s.shift (k + j) := by
    intro s; simp [BreakableString.shift, h0, h2]
  have h4 : ∀ s : Flag, (s.shift j).shift k = s.shift (k + j) := by
    intro s; simp [Flag.shift, h0, h1]
  have h5 : ∀ s : Label, (s.shift j).shift k = s.shift (k + j) := by
    intro s; simp [Label.shift, h0, h1]
  have h6 : ∀ s : EnvVar, (s.shift j).shift k = s.shift (k + j) := by
    intro s; simp [EnvVar.shift, h0, h1, h3]
  have h7 : ∀ s : ShellOrExecExpr, (s.shift j).shift k = s.shift (k + j) := by
    intro s; cases s <;> simp [ShellOrExecExpr.shift, StringArray.shift, h0, h1, h3]
  cases i <;> simp [Instruction.shift, FromInstruction.shift, ArgInstruction.shift,
    LabelInstruction.shift, ExecInstruction.shift, CopyInstruction.shift, EnvInstruction.shift,
    MiscInstruction.shift, Option.map_map, Function.comp_def, h0, h1, h3, h4, h5, h6, h7]

theorem Instruction.shift_renumber (k n : Nat) (i : Instruction) :
    (i.renumber n).shift k = (i.shift k).renumber n := by
  cases i <;> rfl

theorem Instruction.renumber_renumber (m n : Nat) (i : Instruction) :
    (i.renumber m).renumber n = i.renumber (n + m) := by
  cases i <;> simp [Instruction.renumber]; omega

theorem Instruction.shift_zero (i : Instruction) : i.shift 0 = i := by
  have h0 : ∀ s : Span, s.shift 0 = s := fun s => rfl
  have h1 : ∀ s : SpannedString, s.shift 0 = s := fun s => rfl
  have h2 : ∀ s : BreakableStringComponent, s.shift 0 = s := by intro s; cases s <;> rfl
  have h3 : ∀ s : BreakableString, s.shift 0 = s := by
    intro s; simp [BreakableString.shift, h0, h2]
  have h4 : ∀ s : Flag, s.shift 0 = s := fun s => rfl
  have h5 : ∀ s : Label, s.shift 0 = s := fun s => rfl
  have h6 : ∀ s : EnvVar, s.shift 0 = s := by
    intro s; simp [EnvVar.shift, h0, h1, h3]
  have h7 : ∀ s : ShellOrExecExpr, s.shift 0 = s := by
    intro s; cases s <;> simp [ShellOrExecExpr.shift, StringArray.shift, h0, h1, h3]
  cases i <;> simp [Instruction.shift, FromInstruction.shift, ArgInstruction.shift,
    LabelInstruction.shift, ExecInstruction.shift, CopyInstruction.shift, EnvInstruction.shift,
    MiscInstruction.shift, h0, h1, h3, h4, h5, h6, h7]

theorem Instruction.renumber_zero (i : Instruction) : i.renumber 0 = i := by
  cases i <;> rfl

/-! ## C48 -/

/-- C48: a document whose lines (the last one excepted) are plain is parsed line by line. -/
theorem C48_line_by_line (unq : Unquote) (x : Str) (ys : List Str)
    (h : ∀ y ∈ (x :: ys).dropLast, PlainLine y) :
    Dockerfile.parse unq (unlines x ys) = parseLines unq x ys :=
  parse_plain_lines h

/-- C48: such a document parses iff every line does. -/
theorem C48_succeeds (unq : Unquote) (x : Str) (ys : List Str)
    (h : ∀ y ∈ (x :: ys).dropLast, PlainLine y) :
    (∃ d, Dockerfile.parse unq (unlines x ys) = .ok d) ↔
      ∀ y ∈ x :: ys, ∃ d, Dockerfile.parse unq y = .ok d := by
  rw [C48_line_by_line unq x ys h]
  clear h
  induction ys generalizing x with
  | nil => simp [parseLines]
  | cons y ys ih =>
    simp only [parseLines, joinResults_ok]
    rw [List.forall_mem_cons, ← ih y]
    constructor
    · rintro ⟨_, a, b, h1, h2, -⟩; exact ⟨⟨a, h1⟩, ⟨b, h2⟩⟩
    · rintro ⟨⟨a, h1⟩, ⟨b, h2⟩⟩; exact ⟨_, a, b, h1, h2, rfl⟩

theorem instructionsFrom_map (j m k n : Nat) (ds : List Dockerfile) :
    (instructionsFrom k n ds).map (fun i => (i.shift j).renumber m) =
      instructionsFrom (j + k) (m + n) ds := by
  induction ds generalizing k n with
  | nil => rfl
  | cons d ds ih =>
    simp only [instructionsFrom, List.map_append, ih, List.map_map, Function.comp_def,
      Instruction.shift_renumber, Instruction.shift_shift, Instruction.renumber_renumber]
    congr 2 <;> omega

/-- C48: its instructions are those of the lines, in order, each with its spans moved by the
offset of its line, and stages numbered throughout. -/
theorem C48_instructions (unq : Unquote) (x : Str) (ys : List Str)
    (h : ∀ y ∈ (x :: ys).dropLast, PlainLine y) (ds : List Dockerfile)
    (hd : (x :: ys).map (Dockerfile.parse unq) = ds.map .ok) :
    ∃ d, Dockerfile.parse unq (unlines x ys) = .ok d ∧
      d.instructions = instructionsFrom 0 0 ds := by
  rw [C48_line_by_line unq x ys h]
  clear h
  induction ys generalizing x ds with
  | nil =>
    obtain _ | ⟨d, _ | ⟨_, _⟩⟩ := ds <;> simp at hd
    exact ⟨d, hd, by simp [instructionsFrom, Instruction.shift_zero, Instruction.renumber_zero]⟩
  | cons y ys ih =>
    obtain _ | ⟨d, ds⟩ := ds
    · simp at hd
    · replace hd : Dockerfile.parse unq x = .ok d ∧
          (y :: ys).map (Dockerfile.parse unq) = ds.map .ok := by simpa using hd
      obtain ⟨e, he, hi⟩ := ih y ds hd.2
      refine ⟨joinDocs d e, ?_, ?_⟩
      · simp only [parseLines, he, hd.1, joinResults]
      · simp only [joinDocs, hi, instructionsFrom_map, instructionsFrom, Nat.zero_add,
          Instruction.shift_zero, Instruction.renumber_zero, List.map_id']
        rfl

theorem unlines_cons (c : Char) (x : Str) (ys : List Str) :
    unlines (c :: x) ys = c :: unlines x ys := by
  cases ys <;> rfl

/-- The lines of a text make up the text. -/
theorem unlines_lines (s : Str) : unlines (lines s).1 (lines s).2 = s := by
  induction s with
  | nil => rfl
  | cons c s ih =>
    unfold lines
    split
    · rename_i h; subst h; simp [unlines, ih]
    · rw [unlines_cons, ih]

theorem mem_lines {s y : Str} (h : y ∈ (lines s).1 :: (lines s).2) : ∀ c ∈ y, c ∈ s ∧ c ≠ '\n' := by
  induction s generalizing y with
  | nil => simp [lines] at h; simp [h]
  | cons d s ih =>
    intro c hc
    unfold lines at h
    split at h
    · rw [List.mem_cons] at h
      rcases h with rfl | h
      · cases hc
      · exact ⟨List.mem_cons_of_mem _ (ih h c hc).1, (ih h c hc).2⟩
    · rename_i hd
      rw [List.mem_cons] at h
      rcases h with rfl | h
      · rcases List.mem_cons.1 hc with rfl | hc
        · exact ⟨by simp, hd⟩
        · have := ih List.mem_cons_self c hc
          exact ⟨List.mem_cons_of_mem _ this.1, this.2⟩
      · have := ih (List.mem_cons_of_mem _ h) c hc
        exact ⟨List.mem_cons_of_mem _ this.1, this.2⟩

/-- C48: a document without backslashes, quotes, carriage returns and `#` is parsed line by
line. -/
theorem C48_document (unq : Unquote) (s : Str)
    (h : ∀ c ∈ s, c ≠ '\\' ∧ c ≠ '#' ∧ c ≠ '"' ∧ c ≠ '\'' ∧ c ≠ '\r') :
    Dockerfile.parse unq s = parseLines unq (lines s).1 (lines s).2 := by
  conv => lhs; rw [← unlines_lines s]
  refine C48_line_by_line unq _ _ fun y hy => .inr (.inr fun c hc => ?_)
  have h1 := mem_lines ((List.dropLast_sublist _).mem hy) c hc
  have h2 := h c h1.1
  exact ⟨h2.1, h2.2.1, h2.2.2.1, h2.2.2.2.1, h1.2, h2.2.2.2.2⟩

/-- C48, without the proviso on `#`, is false: what looks like a comment directly after `RUN`
swallows the line break. -/
theorem C48_false : ¬ ∀ s : Str, (∀ c ∈ s, c ≠ '\\' ∧ c ≠ '"' ∧ c ≠ '\'' ∧ c ≠ '\r') →
    Dockerfile.parse Enquote.unquote s = parseLines Enquote.unquote (lines s).1 (lines s).2 := by
  intro h
  have := h c!"WORD #c\nFROM a" (by decide +kernel)
  revert this
  decide +kernel

example : lines c!"FROM a\n\nRUN x" = (c!"FROM a", [c!"", c!"RUN x"]) := by decide +kernel

example : ∀ y ∈ [c!"FROM a", c!"  # it's \\ \"", c!"", c!"RUN x -y"], PlainLine y := by
  intro y hy
  simp only [List.mem_cons, List.not_mem_nil, or_false] at hy
  rcases hy with rfl | rfl | rfl | rfl
  · exact .inr (.inr (by decide +kernel))
  · exact .inr (.inl ⟨c!"  ", c!"# it's \\ \"", rfl, by simp [Blanks], _, rfl, by decide +kernel⟩)
  · exact .inl (by simp [Blanks])
  · exact .inr (.inr (by decide +kernel))

example : (Dockerfile.parse Enquote.unquote c!"FROM a\n\nRUN x\nFROM b").mapped (·.instructions) =
    .ok [.from { span := ⟨0, 6⟩, flags := [], image := ⟨⟨5, 6⟩, c!"a"⟩,
                 image_parsed := ⟨none, c!"a", none, none⟩, index := 0, alias := none },
         .run { span := ⟨8, 13⟩, expr := .shell ⟨⟨12, 13⟩, [.string ⟨⟨12, 13⟩, c!"x"⟩]⟩ },
         .from { span := ⟨14, 20⟩, flags := [], image := ⟨⟨19, 20⟩, c!"b"⟩,
                 image_parsed := ⟨none, c!"b", none, none⟩, index := 1, alias := none }] := by
  decide +kernel

/- a document of four lines; the last one may be anything -/
example : Dockerfile.parse Enquote.unquote (unlines c!"FROM a" [c!"", c!"RUN x -y", c!"CMD [\"b\"]"]) =
    parseLines Enquote.unquote c!"FROM a" [c!"", c!"RUN x -y", c!"CMD [\"b\"]"] := by
  refine C48_line_by_line _ _ _ ?_
  intro y hy
  simp only [List.dropLast, List.mem_cons, List.not_mem_nil, or_false] at hy
  rcases hy with rfl | rfl | rfl
  · exact .inr (.inr (by decide +kernel))
  · exact .inl (by simp [Blanks])
  · exact .inr (.inr (by decide +kernel))
example : Dockerfile.parse Enquote.unquote c!"FROM a\n\nRUN x -y\nFROM b" =
    parseLines Enquote.unquote c!"FROM a" [c!"", c!"RUN x -y", c!"FROM b"] :=
  C48_document _ _ (by decide +kernel)

end Verif
