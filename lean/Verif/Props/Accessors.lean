import Verif.Model.Accessors
import Verif.Proof.StagesProgram
import Verif.Props.Debug
import Verif.Props.Stage
import Verif.Props.Parse
import Verif.Props.Print

/-! # The remaining accessors and conversions, iterating, and `Debug` of stages (C76) -/

namespace Verif
open Dbg

/-- `get` takes a value apart that was made by `mk`, and no other. -/
def TakesApart {α β : Type} (get : β → Option α) (mk : α → β) : Prop :=
  (∀ a, get (mk a) = some a) ∧ ∀ b, (∃ a, b = mk a) ∨ get b = none

/-- C76: each accessor that takes ownership takes apart exactly what the conversion from its structure
has made. -/
theorem C76_into :
    TakesApart Instruction.intoFrom Instruction.ofFrom ∧ TakesApart Instruction.intoArg Instruction.ofArg ∧
    TakesApart Instruction.intoLabel Instruction.ofLabel ∧ TakesApart Instruction.intoRun Instruction.ofRun ∧
    TakesApart Instruction.intoEntrypoint Instruction.ofEntrypoint ∧
    TakesApart Instruction.intoCmd Instruction.ofCmd ∧ TakesApart Instruction.intoCopy Instruction.ofCopy ∧
    TakesApart Instruction.intoEnv Instruction.ofEnv ∧ TakesApart Instruction.intoMisc Instruction.ofMisc := by
  refine ⟨⟨fun _ => rfl, ?_⟩, ⟨fun _ => rfl, ?_⟩, ⟨fun _ => rfl, ?_⟩, ⟨fun _ => rfl, ?_⟩, ⟨fun _ => rfl, ?_⟩,
    ⟨fun _ => rfl, ?_⟩, ⟨fun _ => rfl, ?_⟩, ⟨fun _ => rfl, ?_⟩, ⟨fun _ => rfl, ?_⟩⟩ <;> intro b <;> cases b <;>
    first | exact .inr rfl | exact .inl ⟨_, rfl⟩

/-- C76: and so does each accessor that borrows; the two agree. -/
theorem C76_borrow (i : Instruction) :
    i.asFrom = i.intoFrom ∧ i.asArg = i.intoArg ∧ i.asLabel = i.intoLabel ∧ i.asRun = i.intoRun ∧
    i.asEntrypoint = i.intoEntrypoint ∧ i.asCmd = i.intoCmd ∧ i.asCopy = i.intoCopy ∧ i.asEnv = i.intoEnv ∧
    i.asMisc = i.intoMisc := by
  cases i <;> exact ⟨rfl, rfl, rfl, rfl, rfl, rfl, rfl, rfl, rfl⟩

/-- C76: the conversion `TryFrom` undoes `From`. -/
theorem C76_try_from (plain : Char → Bool) :
    (∀ x, (Instruction.ofFrom x).tryFromFrom plain = .ok x) ∧ (∀ x, (Instruction.ofArg x).tryFromArg plain = .ok x) ∧
    (∀ x, (Instruction.ofLabel x).tryFromLabel plain = .ok x) ∧
    (∀ x, (Instruction.ofRun x).tryFromRun plain = .ok x) ∧
    (∀ x, (Instruction.ofEntrypoint x).tryFromEntrypoint plain = .ok x) ∧
    (∀ x, (Instruction.ofCmd x).tryFromCmd plain = .ok x) ∧ (∀ x, (Instruction.ofCopy x).tryFromCopy plain = .ok x) ∧
    (∀ x, (Instruction.ofEnv x).tryFromEnv plain = .ok x) ∧ (∀ x, (Instruction.ofMisc x).tryFromMisc plain = .ok x) :=
  ⟨fun _ => rfl, fun _ => rfl, fun _ => rfl, fun _ => rfl, fun _ => rfl, fun _ => rfl, fun _ => rfl, fun _ => rfl,
    fun _ => rfl⟩

/-- C76: an instruction RUN, CMD or ENTRYPOINT has either shell text or an array, which is what all the
accessors give. -/
theorem C76_shell_exec (i : ExecInstruction) :
    (∃ s, i.expr = .shell s ∧
      [i.expr.intoShell, i.expr.asShell, RunInstruction.intoShell i, RunInstruction.asShell i,
        CmdInstruction.intoShell i, CmdInstruction.asShell i, EntrypointInstruction.intoShell i,
        EntrypointInstruction.asShell i] = List.replicate 8 (some s) ∧
      [i.expr.intoExec, i.expr.asExec, RunInstruction.intoExec i, RunInstruction.asExec i,
        CmdInstruction.intoExec i, CmdInstruction.asExec i, EntrypointInstruction.intoExec i,
        EntrypointInstruction.asExec i] = List.replicate 8 none) ∨
    ∃ a, i.expr = .exec a ∧
      [i.expr.intoShell, i.expr.asShell, RunInstruction.intoShell i, RunInstruction.asShell i,
        CmdInstruction.intoShell i, CmdInstruction.asShell i, EntrypointInstruction.intoShell i,
        EntrypointInstruction.asShell i] = List.replicate 8 none ∧
      [i.expr.intoExec, i.expr.asExec, RunInstruction.intoExec i, RunInstruction.asExec i,
        CmdInstruction.intoExec i, CmdInstruction.asExec i, EntrypointInstruction.intoExec i,
        EntrypointInstruction.asExec i] = List.replicate 8 (some a) := by
  obtain ⟨sp, e⟩ := i
  cases e with
  | shell s => exact .inl ⟨s, rfl, rfl, rfl⟩
  | exec a => exact .inr ⟨a, rfl, rfl, rfl⟩

/-- C76: the components made of a string and of a comment are told apart. -/
theorem C76_components (s s' : SpannedString) (c c' : SpannedComment) :
    BreakableStringComponent.ofString s ≠ .ofComment c ∧
    (BreakableStringComponent.ofString s = .ofString s' ↔ s = s') ∧
    (BreakableStringComponent.ofComment c = .ofComment c' ↔ c = c') ∧
    (BreakableString.display ⟨⟨0, 0⟩, [.ofString s, .ofComment c]⟩ = s.content) := by
  refine ⟨nofun, ⟨fun h => by cases h; rfl, fun h => h ▸ rfl⟩, ⟨fun h => by cases h; rfl, fun h => h ▸ rfl⟩, ?_⟩
  simp [BreakableString.display, BreakableStringComponent.ofString, BreakableStringComponent.ofComment]

/-- C76: iterating over the stages in each of the three ways gives the stages in their order, with their
indices 0, 1, 2, …. -/
theorem C76_iterate (d : Dockerfile) : ∃ ss, d.stages = some ss ∧ d.iterStages = some ss ∧
    stagesIter ss = ss ∧ stagesIntoIter ss = ss ∧ ∀ i, (stagesIter ss)[i]? = stagesIndex ss i := by
  obtain ⟨ss, h, -⟩ := C12_partition d
  exact ⟨ss, h, by simp [Dockerfile.iterStages, h, stagesIntoIter], rfl, rfl, fun _ => rfl⟩

/-! ## the strings of an array -/

/-- C76: `as_str_vec` gives the contents of the elements in order: in a parsed document what the quoted texts at their
spans stand for. -/
theorem C76_as_str_vec (unq : Unquote) (s : Str) (d : Dockerfile) (h : Dockerfile.parse unq s = .ok d) (i : Instruction)
    (hi : i ∈ d.instructions) (a : StringArray) (ha : a ∈ Spec.arrays i) : a.asStrVec.length = a.elements.length ∧
    ∀ (k : Nat) (e : SpannedString), a.elements[k]? = some e → ∃ t v, Spec.SliceOf s e.span t ∧ unq t = .ok v ∧ a.asStrVec[k]? = some v := by
  refine ⟨by simp [StringArray.asStrVec], fun k e he => ?_⟩
  obtain ⟨t, h1, -, h2⟩ := (C45_exec_form unq s d h i hi a ha).2 e (List.mem_of_getElem? he)
  exact ⟨t, _, h1, h2, by simp [StringArray.asStrVec, he]⟩

/-- C76: strings written as an array are read back by `as_str_vec`. -/
theorem C76_as_str_vec_back {unq : Unquote} (hu : Spec.UndoesQuoting unq) {k : Spec.ExecKind} {ts : List Str}
    (h : ∀ t ∈ ts, ∀ c ∈ t, c ≠ '\x00' ∧ c ≠ '\x1F') : ∃ d x a, Dockerfile.parse unq (Spec.execLine k ts) = .ok d ∧
      d.instructions = [k.instr x] ∧ x.expr.asExec = some a ∧ a.asStrVec = ts := by
  obtain ⟨a, h1, -, h2⟩ := C39_exec hu (k := k) h
  exact ⟨_, _, a, h1, rfl, rfl, h2⟩

example : (Dockerfile.parse Enquote.unquote c!"RUN [ \"a b\",\\\n 'c' ]").toOption.map (fun d => d.instructions.flatMap fun i =>
    (Spec.arrays i).map (·.asStrVec)) = some [[c!"a b", c!"c"]] := by decide +kernel

/-! ## `Debug` of stages -/

theorem reads_stage (plain : Char → Bool) : Reads (Stage.debug plain) := by
  have hi := reads_list (reads_instruction plain) fun i => by
    cases i
    · exact ⟨'F', _, rfl, by decide⟩
    · exact ⟨'A', _, rfl, by decide⟩
    · exact ⟨'L', _, rfl, by decide⟩
    · exact ⟨'R', _, rfl, by decide⟩
    · exact ⟨'E', _, rfl, by decide⟩
    · exact ⟨'C', _, rfl, by decide⟩
    · exact ⟨'C', _, rfl, by decide⟩
    · exact ⟨'E', _, rfl, by decide⟩
    · exact ⟨'M', _, rfl, by decide⟩
  refine reads_struct _ _ (fun _ => rfl) (fun a b => .cons _ (reads_decimal.clear _ _)
    (.cons _ ((reads_optStr plain).clear _ _) (.cons _ (hi.clear _ _)
    (.cons _ ((reads_parent plain).clear _ _) (.cons _ ((reads_parent plain).clear _ _) .nil)))))
    (fun a b e => ?_)
  simp only [List.cons.injEq, Prod.mk.injEq, true_and, and_true] at e
  cases a
  cases b
  rw [Stage.mk.injEq]
  exact ⟨reads_decimal.inj _ _ e.1, (reads_optStr plain).inj _ _ e.2.1, hi.inj _ _ e.2.2.1,
    (reads_parent plain).inj _ _ e.2.2.2.1, (reads_parent plain).inj _ _ e.2.2.2.2⟩

theorem reads_stages (plain : Char → Bool) : Reads (stagesDebug plain) := by
  have hs := reads_list (reads_stage plain) fun _ => struct_head (by decide) _ _
  refine reads_struct _ _ (fun _ => rfl) (fun a b => .cons _ (hs.clear _ _) .nil) (fun a b e => ?_)
  simp only [List.cons.injEq, Prod.mk.injEq, true_and, and_true] at e
  exact hs.inj _ _ e

/-- C76: the `Debug` text of a stage determines all of it, although `==` compares only the index; and the
text of all stages determines them. -/
theorem C76_debug (plain : Char → Bool) :
    (∀ s t : Stage, s.debug plain = t.debug plain → s = t) ∧
    ∀ ss ts : List Stage, stagesDebug plain ss = stagesDebug plain ts → ss = ts :=
  ⟨fun s t h => (reads_stage plain).inj s t h, fun ss ts h => (reads_stages plain).inj ss ts h⟩

/- two stages that are equal for `==` and have different texts -/
example : (Stage.eq ⟨0, none, [], .scratch, .scratch⟩ ⟨0, some c!"a", [], .scratch, .scratch⟩) = true ∧
    Stage.debug (fun _ => true) ⟨0, some c!"a", [], .stage 3, .scratch⟩ =
      c!"Stage { index: 0, name: Some(\"a\"), instructions: [], parent: Stage(3), root: Scratch }" ∧
    stagesDebug (fun _ => true) [] = c!"Stages { stages: [] }" := by decide +kernel

end Verif
