import Verif.Spec.Remap

/-! # Moving positions twice -/

namespace Verif

variable (f g : Nat → Nat)

theorem SpannedString.remap_remap (x : SpannedString) : (x.remap f).remap g = x.remap (g ∘ f) := rfl
theorem SpannedComment.remap_remap (x : SpannedComment) : (x.remap f).remap g = x.remap (g ∘ f) := rfl
theorem BreakableStringComponent.remap_remap (x : BreakableStringComponent) :
    (x.remap f).remap g = x.remap (g ∘ f) := by cases x <;> rfl

theorem map_remap {α : Type} {r : (Nat → Nat) → α → α} (h : ∀ x, r g (r f x) = r (g ∘ f) x) (l : List α) :
    (l.map (r f)).map (r g) = l.map (r (g ∘ f)) := by
  rw [List.map_map]
  exact List.map_congr_left fun x _ => h x

theorem omap_remap {α : Type} {r : (Nat → Nat) → α → α} (h : ∀ x, r g (r f x) = r (g ∘ f) x) (l : Option α) :
    (l.map (r f)).map (r g) = l.map (r (g ∘ f)) := by
  cases l
  · rfl
  · exact congrArg some (h _)

theorem BreakableString.remap_remap (x : BreakableString) : (x.remap f).remap g = x.remap (g ∘ f) :=
  congrArg (BreakableString.mk _) (map_remap f g (BreakableStringComponent.remap_remap f g) _)

theorem StringArray.remap_remap (x : StringArray) : (x.remap f).remap g = x.remap (g ∘ f) :=
  congrArg (StringArray.mk _) (map_remap f g (SpannedString.remap_remap f g) _)

theorem ShellOrExecExpr.remap_remap (x : ShellOrExecExpr) : (x.remap f).remap g = x.remap (g ∘ f) := by
  cases x
  · exact congrArg ShellOrExecExpr.shell (BreakableString.remap_remap f g _)
  · exact congrArg ShellOrExecExpr.exec (StringArray.remap_remap f g _)

theorem Flag.remap_remap (x : Flag) : (x.remap f).remap g = x.remap (g ∘ f) := rfl
theorem Label.remap_remap (x : Label) : (x.remap f).remap g = x.remap (g ∘ f) := rfl
theorem EnvVar.remap_remap (x : EnvVar) : (x.remap f).remap g = x.remap (g ∘ f) :=
  congrArg (EnvVar.mk _ _) (BreakableString.remap_remap f g _)

theorem ArgInstruction.remap_remap (x : ArgInstruction) : (x.remap f).remap g = x.remap (g ∘ f) :=
  congrArg (ArgInstruction.mk _ _) (omap_remap f g (SpannedString.remap_remap f g) _)

theorem Instruction.remap_remap (x : Instruction) : (x.remap f).remap g = x.remap (g ∘ f) := by
  cases x with
  | «from» i =>
    refine congrArg Instruction.from ?_
    show FromInstruction.mk _ _ _ _ _ _ = FromInstruction.mk _ _ _ _ _ _
    congr 1
    · exact map_remap f g (Flag.remap_remap f g) _
    · exact omap_remap f g (SpannedString.remap_remap f g) _
  | arg i => exact congrArg Instruction.arg (ArgInstruction.remap_remap f g i)
  | label i =>
    exact congrArg (fun l => Instruction.label ⟨_, l⟩) (map_remap f g (Label.remap_remap f g) _)
  | run i => exact congrArg (fun l => Instruction.run ⟨_, l⟩) (ShellOrExecExpr.remap_remap f g _)
  | entrypoint i => exact congrArg (fun l => Instruction.entrypoint ⟨_, l⟩) (ShellOrExecExpr.remap_remap f g _)
  | cmd i => exact congrArg (fun l => Instruction.cmd ⟨_, l⟩) (ShellOrExecExpr.remap_remap f g _)
  | copy i =>
    refine congrArg Instruction.copy ?_
    show CopyInstruction.mk _ _ _ _ = CopyInstruction.mk _ _ _ _
    congr 1
    · exact map_remap f g (Flag.remap_remap f g) _
    · exact map_remap f g (SpannedString.remap_remap f g) _
  | env i =>
    exact congrArg (fun l => Instruction.env ⟨_, l⟩) (map_remap f g (EnvVar.remap_remap f g) _)
  | misc i => exact congrArg (fun l => Instruction.misc ⟨_, _, l⟩) (BreakableString.remap_remap f g _)

/-- Positions do not matter for the bare value. -/
theorem Instruction.bare_remap (x : Instruction) : (x.remap f).remap (fun _ => 0) = x.remap fun _ => 0 :=
  Instruction.remap_remap f _ x

end Verif
