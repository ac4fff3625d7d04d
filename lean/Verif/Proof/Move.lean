import Verif.Proof.SrcDoc
import Verif.Spec.Remap

/-!
# The value of an item at another place

The positions in the value of an item move with it.
-/

namespace Verif
namespace Src
open Spec

theorem bind_mapped {α β γ δ : Type} {f : α → γ} {g : β → δ} {x : Result α} {x' : Result γ}
    {k : α → Result β} {k' : γ → Result δ} (h : x' = x.map f) (hk : ∀ a, k' (f a) = (k a).map g) :
    (x' >>= k') = (x >>= k).map g := by
  subst h
  cases x with
  | error e => rfl
  | ok a => exact hk a

theorem bind_same {α β δ : Type} {g : β → δ} {x : Result α} {k : α → Result β} {k' : α → Result δ}
    (hk : ∀ a, k' a = (k a).map g) : (x >>= k') = (x >>= k).map g := by
  cases x with
  | error e => rfl
  | ok a => exact hk a

/-- `m` moves the `n` positions from `p` to `p'` -/
def Tr (m : Nat → Nat) (p p' n : Nat) : Prop := ∀ k, k ≤ n → m (p + k) = p' + k

theorem Tr.sub {m : Nat → Nat} {p p' n q q' k : Nat} (h : Tr m p p' n) (h1 : q + p' = q' + p) (h2 : p ≤ q)
    (h3 : q + k ≤ p + n) : Tr m q q' k := by
  intro j hj
  have := h (q - p + j) (by omega)
  rw [show p + (q - p + j) = q + j by omega] at this
  rw [this]; omega

theorem Tr.at {m : Nat → Nat} {p p' n q q' : Nat} (h : Tr m p p' n) (h1 : q + p' = q' + p) (h2 : p ≤ q)
    (h3 : q ≤ p + n) : m q = q' := by
  have := h (q - p) (by omega)
  rw [show p + (q - p) = q by omega] at this
  rw [this]; omega

theorem Tr.span {m : Nat → Nat} {p p' n a b a' b' : Nat} (h : Tr m p p' n) (h1 : a + p' = a' + p)
    (h2 : p ≤ a) (h3 : a ≤ p + n) (h4 : b + p' = b' + p) (h5 : p ≤ b) (h6 : b ≤ p + n) :
    Span.remap m ⟨a, b⟩ = ⟨a', b'⟩ := by
  rw [Span.remap]
  simp only
  rw [h.at h1 h2 h3, h.at h4 h5 h6]

/-- the span at another place -/
macro "moved " h:term : tactic =>
  `(tactic| exact Tr.span $h (by omega) (by omega) (by omega) (by omega) (by omega) (by omega))

/-- part of the moved range -/
macro "part " h:term : tactic =>
  `(tactic| exact Tr.sub $h (by omega) (by omega) (by omega))

variable {m : Nat → Nat}

theorem flag_blen (f : Flag) : blen f.text = blen f.gap + blen f.body := blen_append _ _

theorem flag_body_blen (f : Flag) : blen f.body = 2 + blen f.name + 1 + blen f.value := by
  simp only [Flag.body, blen_cons, blen_append, show '-'.utf8Size = 1 from rfl,
    show '='.utf8Size = 1 from rfl]
  omega

theorem flag_move (unq : Unquote) (f : Flag) {p p' : Nat} (h : Tr m p p' (blen f.text)) :
    f.eval unq p' = (f.eval unq p).map (·.remap m) := by
  rw [flag_blen] at h
  have hb := flag_body_blen f
  refine bind_same fun c => congrArg Except.ok ?_
  simp only [Flag.remap, SpannedString.remap]
  congr 1
  · symm; moved h
  · congr 1; symm; moved h
  · congr 1; symm; moved h

theorem flags_move (unq : Unquote) (fs : List Flag) {p p' : Nat} (h : Tr m p p' (blen (flagsText fs))) :
    evalFlags unq p' fs = (evalFlags unq p fs).map (List.map (·.remap m)) := by
  induction fs generalizing p p' with
  | nil => rfl
  | cons f fs ih =>
    rw [flagsText_cons, blen_append] at h
    refine bind_mapped (flag_move unq f (by part h)) fun a => ?_
    exact bind_mapped (ih (by part h)) fun b => rfl

theorem arg_move (unq : Unquote) (f : Arg) {p p' : Nat} (h : Tr m p p' (blen f.text)) :
    f.eval unq p' = (f.eval unq p).map (·.remap m) := by
  rw [Arg.text, blen_append] at h
  refine bind_same fun c => congrArg Except.ok ?_
  simp only [SpannedString.remap]
  congr 1
  symm; moved h

theorem args_move (unq : Unquote) (fs : List Arg) {p p' : Nat} (h : Tr m p p' (blen (argsText fs))) :
    evalArgs unq p' fs = (evalArgs unq p fs).map (List.map (·.remap m)) := by
  induction fs generalizing p p' with
  | nil => rfl
  | cons f fs ih =>
    rw [argsText_cons, blen_append] at h
    refine bind_mapped (arg_move unq f (by part h)) fun a => ?_
    exact bind_mapped (ih (by part h)) fun b => rfl

theorem pairs_move {α : Type} {ev : Nat → Pair → Result α} {g : α → α}
    (hev : ∀ p p' f, Tr m p p' (blen f.text) → ev p' f = (ev p f).map g) (fs : List Pair) {p p' : Nat}
    (h : Tr m p p' (blen (pairsText fs))) :
    evalPairs ev p' fs = (evalPairs ev p fs).map (List.map g) := by
  induction fs generalizing p p' with
  | nil => rfl
  | cons f fs ih =>
    rw [pairsText_cons, blen_append] at h
    refine bind_mapped (hev _ _ f (by part h)) fun a => ?_
    exact bind_mapped (ih (by part h)) fun b => rfl

theorem pair_body_blen (f : Pair) : blen f.body = blen f.name.text + 1 + blen f.value.text := by
  simp only [Pair.body, blen_cons, blen_append, show '='.utf8Size = 1 from rfl]
  omega

theorem label_move (unq : Unquote) (p p' : Nat) (f : Pair) (h : Tr m p p' (blen f.text)) :
    f.evalLabel unq p' = (f.evalLabel unq p).map (·.remap m) := by
  rw [Pair.text, blen_append] at h
  have hb := pair_body_blen f
  refine bind_same fun c => bind_same fun d => congrArg Except.ok ?_
  simp only [Label.remap, SpannedString.remap, Pair.nameSpan, Pair.valueSpan]
  congr 1
  · symm; moved h
  · congr 1; symm; moved h
  · congr 1; symm; moved h

theorem env_move (unq : Unquote) (p p' : Nat) (f : Pair) (h : Tr m p p' (blen f.text)) :
    f.evalEnv unq p' = (f.evalEnv unq p).map (·.remap m) := by
  rw [Pair.text, blen_append] at h
  have hb := pair_body_blen f
  refine bind_same fun c => congrArg Except.ok ?_
  simp only [EnvVar.remap, SpannedString.remap, BreakableString.remap, Pair.nameSpan, Pair.valueSpan,
    List.map_cons, List.map_nil, BreakableStringComponent.remap]
  have h1 : Span.remap m ⟨p + blen f.gap + blen f.name.text + 1, p + blen f.gap + blen f.body⟩ =
    ⟨p' + blen f.gap + blen f.name.text + 1, p' + blen f.gap + blen f.body⟩ := by moved h
  rw [h1]
  congr 1
  · symm; moved h
  · congr 1; symm; moved h

theorem components_move (s : Shell) {p p' : Nat} (h : Tr m p p' (blen s.text)) :
    s.components p' = (s.components p).map (·.remap m) := by
  induction s generalizing p p' with
  | last t =>
    rw [Shell.text] at h
    have h1 : Span.remap m ⟨p, p + blen t⟩ = ⟨p', p' + blen t⟩ := by moved h
    simp only [Shell.components, List.map_cons, List.map_nil, BreakableStringComponent.remap,
      SpannedString.remap, h1]
  | lastComment w t n =>
    simp only [Shell.text, blen_append] at h
    have h1 : Span.remap m ⟨p + blen w, p + blen w + blen t⟩ = ⟨p' + blen w, p' + blen w + blen t⟩ := by
      moved h
    simp only [Shell.components, List.map_cons, List.map_nil, BreakableStringComponent.remap,
      SpannedComment.remap, h1]
  | more t w n s ih =>
    simp only [Shell.text, blen_append, blen_cons, show '\\'.utf8Size = 1 from rfl] at h
    have h1 : Span.remap m ⟨p, p + blen t⟩ = ⟨p', p' + blen t⟩ := by moved h
    rw [Shell.components, Shell.components, ih (p := p + blen t + 1 + blen w + blen n) (by part h),
      ← h1]
    rfl
  | comment w t n s ih =>
    simp only [Shell.text, blen_append] at h
    have h1 : Span.remap m ⟨p + blen w, p + blen w + blen t⟩ = ⟨p' + blen w, p' + blen w + blen t⟩ := by
      moved h
    rw [Shell.components, Shell.components, ih (p := p + blen w + blen t + blen n) (by part h), ← h1]
    rfl

theorem string_move (s : Shell) {p p' : Nat} (h : Tr m p p' (blen s.text)) :
    s.string p' = (s.string p).remap m := by
  have h1 : Span.remap m ⟨p, p + blen s.text⟩ = ⟨p', p' + blen s.text⟩ := by moved h
  simp only [Shell.string, BreakableString.remap, h1, components_move s h]

theorem elem_move (unq : Unquote) (f : Elem) {p p' : Nat} (h : Tr m p p' (blen f.text)) :
    f.eval unq p' = (f.eval unq p).map (·.remap m) := by
  simp only [Elem.text, blen_append, blen_cons, show ','.utf8Size = 1 from rfl] at h
  refine bind_same fun c => congrArg Except.ok ?_
  simp only [SpannedString.remap]
  congr 1
  symm; moved h

theorem elems_move (unq : Unquote) (fs : List Elem) {p p' : Nat} (h : Tr m p p' (blen (elemsText fs))) :
    evalElems unq p' fs = (evalElems unq p fs).map (List.map (·.remap m)) := by
  induction fs generalizing p p' with
  | nil => rfl
  | cons f fs ih =>
    rw [elemsText_cons, blen_append] at h
    refine bind_mapped (elem_move unq f (by part h)) fun a => ?_
    exact bind_mapped (ih (by part h)) fun b => rfl

theorem array_move (unq : Unquote) (a : Array) {p p' : Nat} (h : Tr m p p' (blen a.text)) :
    a.eval unq p' = (a.eval unq p).map (List.map (·.remap m)) := by
  cases a with
  | empty g => rfl
  | full g v es c g' =>
    simp only [Array.text, blen_append, blen_cons, show '['.utf8Size = 1 from rfl] at h
    refine bind_same fun c => bind_mapped (elems_move unq es (by part h)) fun b => ?_
    refine congrArg Except.ok ?_
    simp only [List.map_cons, SpannedString.remap]
    congr 2
    symm; moved h

theorem alias_move (a : Option AliasText) {p p' : Nat} (h : Tr m p p' (blen (aliasText a))) :
    a.map (·.name_at p') = (a.map (·.name_at p)).map (·.remap m) := by
  cases a with
  | none => rfl
  | some a =>
    simp only [aliasText, AliasText.text, blen_append] at h
    simp only [Option.map_some, AliasText.name_at, SpannedString.remap]
    congr 2
    symm; moved h

/-- The value of an item moves with it. -/
theorem item_move (unq : Unquote) (i : Item) {p p' : Nat} (h : Tr m p p' (blen i.text)) :
    i.eval unq p' = (i.eval unq p).map (Option.map (·.remap m)) := by
  have hs : Span.remap m ⟨p, p + blen i.text⟩ = ⟨p', p' + blen i.text⟩ := by moved h
  cases i with
  | blank => rfl
  | comment t => rfl
  | «from» kw fs g i a =>
    simp only [Item.text, blen_append] at h
    refine bind_mapped (flags_move unq fs (by part h)) fun f => bind_same fun _ =>
      congrArg (fun x => Except.ok (some (Instruction.from x))) ?_
    simp only [FromInstruction.remap, SpannedString.remap]
    rw [hs, alias_move a (p := p + blen kw + blen (flagsText fs) + blen g + blen i) (by part h)]
    congr 2
    symm; moved h
  | arg kw g n v =>
    cases v with
    | none =>
      simp only [Item.text, blen_append] at h
      refine congrArg (fun x => Except.ok (some (Instruction.arg x))) ?_
      simp only [ArgInstruction.remap, SpannedString.remap]
      rw [hs]
      congr 2
      symm; moved h
    | some v =>
      simp only [Item.text, blen_append, valueText, blen_cons, show '='.utf8Size = 1 from rfl] at h
      refine bind_same fun c => congrArg (fun x => Except.ok (some (Instruction.arg x))) ?_
      simp only [ArgInstruction.remap, SpannedString.remap, Option.map_some]
      rw [hs]
      congr 2
      · symm; moved h
      · congr 1; symm; moved h
  | label kw ps t =>
    simp only [Item.text, blen_append] at h
    refine bind_mapped (pairs_move (label_move unq) ps (by part h)) fun b =>
      congrArg (fun x => Except.ok (some (Instruction.label x))) ?_
    simp only [LabelInstruction.remap]
    rw [hs]
  | label1 kw g n g' v =>
    simp only [Item.text, blen_append] at h
    refine bind_same fun c => bind_same fun d =>
      congrArg (fun x => Except.ok (some (Instruction.label x))) ?_
    simp only [LabelInstruction.remap, List.map_cons, List.map_nil, Label.remap, SpannedString.remap]
    rw [hs]
    congr 2
    congr 1
    · symm; moved h
    · congr 1; symm; moved h
    · congr 1; symm; moved h
  | shell k kw g s =>
    simp only [Item.text, blen_append] at h
    simp only [Item.eval]
    split
    · rfl
    · rw [string_move s (p := p + blen kw + blen g) (by part h)]
      rw [← hs]
      cases k <;> rfl
  | exec k kw g a =>
    simp only [Item.text, blen_append] at h
    simp only [Item.eval]
    split
    · rfl
    · refine bind_mapped (array_move unq a (by part h)) fun b => ?_
      have h1 : Span.remap m ⟨p + blen kw + blen g, p + blen kw + blen g + blen a.text⟩ =
        ⟨p' + blen kw + blen g, p' + blen kw + blen g + blen a.text⟩ := by moved h
      rw [← hs, ← h1]
      cases k <;> rfl
  | copy kw fs ss d =>
    simp only [Item.text, blen_append] at h
    refine bind_mapped (flags_move unq fs (by part h)) fun f =>
      bind_mapped (args_move unq ss (by part h)) fun b =>
      bind_mapped (arg_move unq d (by part h)) fun c =>
      congrArg (fun x => Except.ok (some (Instruction.copy x))) ?_
    simp only [CopyInstruction.remap]
    rw [hs]
  | env kw ps t =>
    simp only [Item.text, blen_append] at h
    refine bind_mapped (pairs_move (env_move unq) ps (by part h)) fun b =>
      congrArg (fun x => Except.ok (some (Instruction.env x))) ?_
    simp only [EnvInstruction.remap]
    rw [hs]
  | env1 kw g n g' s =>
    simp only [Item.text, blen_append] at h
    refine congrArg (fun x => Except.ok (some (Instruction.env x))) ?_
    simp only [EnvInstruction.remap, List.map_cons, List.map_nil, EnvVar.remap, SpannedString.remap]
    rw [hs, string_move s (p := p + blen kw + blen g + blen n + blen g') (by part h)]
    congr 2
    congr 1
    · symm; moved h
    · congr 1; symm; moved h
  | env1q kw g n g' v =>
    simp only [Item.text, blen_append] at h
    refine bind_same fun c => congrArg (fun x => Except.ok (some (Instruction.env x))) ?_
    have h1 : Span.remap m ⟨p + blen kw + blen g + blen n + blen g',
        p + blen kw + blen g + blen n + blen g' + blen v⟩ =
      ⟨p' + blen kw + blen g + blen n + blen g',
        p' + blen kw + blen g + blen n + blen g' + blen v⟩ := by moved h
    simp only [EnvInstruction.remap, List.map_cons, List.map_nil, EnvVar.remap, SpannedString.remap,
      BreakableString.remap, BreakableStringComponent.remap]
    rw [hs, h1]
    congr 2
    congr 1
    · symm; moved h
    · congr 1; symm; moved h
  | misc w a =>
    simp only [Item.text, blen_append] at h
    refine congrArg (fun x => Except.ok (some (Instruction.misc x))) ?_
    simp only [MiscInstruction.remap, SpannedString.remap]
    rw [hs, string_move a (p := p + blen w) (by part h)]
    congr 2
    symm; moved h

end Src
end Verif
