import Verif.Proof.Format
import Verif.Props.Accessors

/-! # Formatting with options: `{:>8}`, `{:.3}`, `{:#?}` (C86) -/

namespace Verif
namespace Fmt

open Spec Dbg

/-! ## the trees of the crate -/

/-- `t` is the tree of a `Debug` implementation that writes `text` in one line -/
def Prints (t : DebugTree) (text : Str) : Prop := Good t ∧ ∀ o, Bare o → t.plainFmt o = text

/-- a name that can start a line -/
def nameOk (n : Str) : Bool := n ≠ [] && n.all fun c => c.isAlphanum || c == '_'

theorem nameOk_spec {n : Str} (h : nameOk n = true) : OneLine n ∧ Starts n ∧ n ≠ [] := by
  simp only [nameOk, Bool.and_eq_true, decide_eq_true_eq, List.all_eq_true] at h
  have key : ∀ c ∈ n, c ∉ ['\n', ' ', '}', ')', ']'] := by
    intro c hc hm
    have := h.2 c hc
    simp only [List.mem_cons, List.not_mem_nil, or_false] at hm
    rcases hm with rfl | rfl | rfl | rfl | rfl <;> exact absurd this (by decide)
  refine ⟨fun c hc e => key c hc (by simp [e]), fun c hc hm => ?_, h.1⟩
  exact key c (List.mem_of_mem_head? hc) (List.mem_cons_of_mem _ hm)

inductive PrintFields : List (Str × DebugTree) → List (Str × Str) → Prop
  | nil : PrintFields [] []
  | cons {n : Str} {t : DebugTree} {u : Str} {l : List (Str × DebugTree)} {l' : List (Str × Str)} :
      nameOk n = true → Prints t u → PrintFields l l' → PrintFields ((n, t) :: l) ((n, u) :: l')

theorem printFields_good {l : List (Str × DebugTree)} {l' : List (Str × Str)} (h : PrintFields l l') :
    Goods (.ofFields l) := by
  induction h with
  | nil => trivial
  | cons hn ht _ ih =>
    obtain ⟨h1, h2, h3⟩ := nameOk_spec hn
    exact ⟨ol_append.2 ⟨h1, by simp [OneLine]⟩, starts_append_left h2 h3, ht.1, ih⟩

theorem printFields_text {o : FmtOpts} (ho : Bare o) {l : List (Str × DebugTree)}
    {l' : List (Str × Str)} (h : PrintFields l l') :
    (l.map fun x => (x.1, x.2.plainFmt o)) = l' := by
  induction h with
  | nil => rfl
  | cons _ ht _ ih => rw [List.map_cons, ih, ht.2 o ho]

theorem prints_struct {name : Str} {l : List (Str × DebugTree)} {l' : List (Str × Str)}
    (hn : nameOk name = true) (h : PrintFields l l') (hl : l ≠ []) :
    Prints (.struct name l) (debugStruct name l') := by
  obtain ⟨h1, h2, h3⟩ := nameOk_spec hn
  refine ⟨⟨h1, h2, fun _ => h3, printFields_good h⟩, fun o ho => ?_⟩
  rw [flat_struct o name l hl, printFields_text ho h]

theorem goods_list : ∀ {l : List DebugTree}, (∀ t ∈ l, Good t) → Goods (.ofList l)
  | [], _ => trivial
  | t :: l, h => ⟨ol_nil, starts_nil, h t List.mem_cons_self,
      goods_list fun u hu => h u (List.mem_cons_of_mem _ hu)⟩

theorem prints_tuple {name : Str} {t : DebugTree} {u : Str} (hn : nameOk name = true)
    (h : Prints t u) : Prints (.tuple name [t]) (debugTuple name [u]) := by
  obtain ⟨h1, h2, h3⟩ := nameOk_spec hn
  refine ⟨⟨h1, h2, fun _ => h3, goods_list (by simpa using h.1)⟩, fun o ho => ?_⟩
  rw [flat_tuple, List.map_cons, List.map_nil, h.2 o ho]

theorem prints_list {α : Type} {f : α → DebugTree} {g : α → Str} (l : List α)
    (h : ∀ a, Prints (f a) (g a)) : Prints (.list (l.map f)) (debugList (l.map g)) := by
  refine ⟨⟨ol_nil, starts_nil, (fun e => nomatch e), goods_list fun t ht => ?_⟩, fun o ho => ?_⟩
  · obtain ⟨a, -, rfl⟩ := List.mem_map.1 ht
    exact (h a).1
  · rw [flat_list, List.map_map]
    exact congrArg _ (List.map_congr_left fun a _ => (h a).2 o ho)

theorem prints_word {t : Str} (h : nameOk t = true) : Prints (.text t) t := by
  obtain ⟨h1, h2, h3⟩ := nameOk_spec h
  refine ⟨⟨h1, h2, t.dropLast, t.getLast h3, (List.dropLast_concat_getLast h3).symm, ?_⟩, fun _ _ => rfl⟩
  simp only [nameOk, Bool.and_eq_true, List.all_eq_true] at h
  have := h.2 _ (List.getLast_mem h3)
  intro hm
  simp only [List.mem_cons, List.not_mem_nil, or_false] at hm
  rcases hm with e | e | e <;> rw [e] at this <;> exact absurd this (by decide)

theorem prints_option {α : Type} {f : α → DebugTree} {g : α → Str} (x : Option α)
    (h : ∀ a, Prints (f a) (g a)) : Prints (.option (x.map f)) (debugOption (x.map g)) := by
  cases x with
  | none => exact prints_word (by decide)
  | some a => exact prints_tuple (by decide) (h a)

theorem prints_num (n : Nat) : Prints (.num n) (decimal n) := ⟨trivial, fun _ ho => fmtNum_bare ho n⟩

variable (plain : Char → Bool)

theorem prints_str (s : Str) : Prints (debugText plain s) (debugStr plain s) := by
  refine ⟨⟨ol_str plain s, ?_, '"' :: s.flatMap (escapeChar plain), '"', rfl, by decide⟩, fun _ _ => rfl⟩
  intro c hc
  simp only [debugStr, List.head?_cons, Option.mem_some_iff] at hc
  subst hc
  decide

theorem prints_span (s : Span) : Prints s.tree s.debug := by
  refine ⟨⟨ol_nil, starts_nil, (fun e => nomatch e), goods_list fun t ht => ?_⟩, fun o ho => ?_⟩
  · simp only [List.mem_cons, List.not_mem_nil, or_false] at ht
    rcases ht with rfl | rfl <;> trivial
  · rw [Span.tree, flat_tuple]
    simp only [List.map_cons, List.map_nil, DebugTree.plainFmt, fmtNum_bare ho]
    rfl

theorem prints_string (s : SpannedString) : Prints (s.tree plain) (s.debug plain) :=
  prints_struct (by decide) (.cons (by decide) (prints_span _) (.cons (by decide) (prints_str plain _) .nil))
    (by simp)

theorem prints_comment (s : SpannedComment) : Prints (s.tree plain) (s.debug plain) :=
  prints_struct (by decide) (.cons (by decide) (prints_span _) (.cons (by decide) (prints_str plain _) .nil))
    (by simp)

theorem prints_component (s : BreakableStringComponent) : Prints (s.tree plain) (s.debug plain) := by
  cases s with
  | string s => exact prints_tuple (by decide) (prints_string plain s)
  | comment s => exact prints_tuple (by decide) (prints_comment plain s)

theorem prints_breakable (s : BreakableString) : Prints (s.tree plain) (s.debug plain) :=
  prints_struct (by decide) (.cons (by decide) (prints_span _)
    (.cons (by decide) (prints_list _ (prints_component plain)) .nil)) (by simp)

theorem prints_array (s : StringArray) : Prints (s.tree plain) (s.debug plain) :=
  prints_struct (by decide) (.cons (by decide) (prints_span _)
    (.cons (by decide) (prints_list _ (prints_string plain)) .nil)) (by simp)

theorem prints_expr (s : ShellOrExecExpr) : Prints (s.tree plain) (s.debug plain) := by
  cases s with
  | shell s => exact prints_tuple (by decide) (prints_breakable plain s)
  | exec s => exact prints_tuple (by decide) (prints_array plain s)

theorem prints_image (i : ImageRef) : Prints (i.tree plain) (i.debug plain) :=
  prints_struct (by decide) (.cons (by decide) (prints_option _ (prints_str plain))
    (.cons (by decide) (prints_str plain _) (.cons (by decide) (prints_option _ (prints_str plain))
    (.cons (by decide) (prints_option _ (prints_str plain)) .nil)))) (by simp)

theorem prints_flag {name : Str} (h : nameOk name = true) (f : Flag) :
    Prints (f.tree plain name) (f.debug plain name) :=
  prints_struct h (.cons (by decide) (prints_span _) (.cons (by decide) (prints_string plain _)
    (.cons (by decide) (prints_string plain _) .nil))) (by simp)

theorem prints_from (i : FromInstruction) : Prints (i.tree plain) (i.debug plain) :=
  prints_struct (by decide) (.cons (by decide) (prints_span _)
    (.cons (by decide) (prints_list _ (prints_flag plain (by decide)))
    (.cons (by decide) (prints_string plain _) (.cons (by decide) (prints_image plain _)
    (.cons (by decide) (prints_num _) (.cons (by decide) (prints_option _ (prints_string plain))
    .nil)))))) (by simp)

theorem prints_arg (i : ArgInstruction) : Prints (i.tree plain) (i.debug plain) :=
  prints_struct (by decide) (.cons (by decide) (prints_span _) (.cons (by decide) (prints_string plain _)
    (.cons (by decide) (prints_option _ (prints_string plain)) .nil))) (by simp)

theorem prints_label1 (l : Label) : Prints (l.tree plain) (l.debug plain) :=
  prints_struct (by decide) (.cons (by decide) (prints_span _) (.cons (by decide) (prints_string plain _)
    (.cons (by decide) (prints_string plain _) .nil))) (by simp)

theorem prints_label (i : LabelInstruction) : Prints (i.tree plain) (i.debug plain) :=
  prints_struct (by decide) (.cons (by decide) (prints_span _)
    (.cons (by decide) (prints_list _ (prints_label1 plain)) .nil)) (by simp)

theorem prints_exec {name : Str} (h : nameOk name = true) (i : ExecInstruction) :
    Prints (i.tree plain name) (i.debug plain name) :=
  prints_struct h (.cons (by decide) (prints_span _) (.cons (by decide) (prints_expr plain _) .nil))
    (by simp)

theorem prints_copy (i : CopyInstruction) : Prints (i.tree plain) (i.debug plain) :=
  prints_struct (by decide) (.cons (by decide) (prints_span _)
    (.cons (by decide) (prints_list _ (prints_flag plain (by decide)))
    (.cons (by decide) (prints_list _ (prints_string plain))
    (.cons (by decide) (prints_string plain _) .nil)))) (by simp)

theorem prints_envVar (v : EnvVar) : Prints (v.tree plain) (v.debug plain) :=
  prints_struct (by decide) (.cons (by decide) (prints_span _) (.cons (by decide) (prints_string plain _)
    (.cons (by decide) (prints_breakable plain _) .nil))) (by simp)

theorem prints_env (i : EnvInstruction) : Prints (i.tree plain) (i.debug plain) :=
  prints_struct (by decide) (.cons (by decide) (prints_span _)
    (.cons (by decide) (prints_list _ (prints_envVar plain)) .nil)) (by simp)

theorem prints_misc (i : MiscInstruction) : Prints (i.tree plain) (i.debug plain) :=
  prints_struct (by decide) (.cons (by decide) (prints_span _) (.cons (by decide) (prints_string plain _)
    (.cons (by decide) (prints_breakable plain _) .nil))) (by simp)

theorem prints_instruction (i : Instruction) : Prints (i.tree plain) (i.debug plain) := by
  cases i with
  | «from» i => exact prints_tuple (by decide) (prints_from plain i)
  | arg i => exact prints_tuple (by decide) (prints_arg plain i)
  | label i => exact prints_tuple (by decide) (prints_label plain i)
  | run i => exact prints_tuple (by decide) (prints_exec plain (by decide) i)
  | entrypoint i => exact prints_tuple (by decide) (prints_exec plain (by decide) i)
  | cmd i => exact prints_tuple (by decide) (prints_exec plain (by decide) i)
  | copy i => exact prints_tuple (by decide) (prints_copy plain i)
  | env i => exact prints_tuple (by decide) (prints_env plain i)
  | misc i => exact prints_tuple (by decide) (prints_misc plain i)

theorem prints_dockerfile (d : Dockerfile) : Prints (d.tree plain) (d.debug plain) :=
  prints_struct (by decide) (.cons (by decide) (prints_str plain _)
    (.cons (by decide) (prints_list _ (prints_arg plain))
    (.cons (by decide) (prints_list _ (prints_instruction plain)) .nil))) (by simp)

theorem prints_parent (p : StageParent) : Prints (p.tree plain) (p.debug plain) := by
  cases p with
  | image i => exact prints_tuple (by decide) (prints_image plain i)
  | stage n => exact prints_tuple (by decide) (prints_num n)
  | scratch => exact prints_word (by decide)

theorem prints_stage (s : Stage) : Prints (s.tree plain) (s.debug plain) :=
  prints_struct (by decide) (.cons (by decide) (prints_num _)
    (.cons (by decide) (prints_option _ (prints_str plain))
    (.cons (by decide) (prints_list _ (prints_instruction plain))
    (.cons (by decide) (prints_parent plain _) (.cons (by decide) (prints_parent plain _) .nil)))))
    (by simp)

theorem prints_stages (ss : List Stage) : Prints (stagesTree plain ss) (stagesDebug plain ss) :=
  prints_struct (by decide) (.cons (by decide) (prints_list _ (prints_stage plain)) .nil) (by simp)

/-- what C86 says about a value with this tree and this `Debug` text -/
theorem Prints.shows {t : DebugTree} {u : Str} (h : Prints t u) (o : FmtOpts) (hw : o.width = none)
    (hp : o.plus = false) :
    (o.alternate = false → t.fmt o = u) ∧
    (o.alternate = true → oneLine (t.fmt o) = u ∧ Indented 0 (allLines (t.fmt o))) := by
  have ho : Bare o := ⟨hw, hp⟩
  constructor
  · intro ha
    rw [DebugTree.fmt, ha]
    exact h.2 o ho
  · intro ha
    rw [DebugTree.fmt, ha]
    exact ⟨(oneLine_pretty ho t h.1).trans (h.2 o ho), indented_pretty ho t h.1⟩

end Fmt

open Spec Fmt

/-! ## `Display` -/

/-- C86 (no options): `{}` is what `Display` is elsewhere in this model. -/
theorem C86_default :
    (∀ s : SpannedString, s.fmt {} = s.display) ∧ (∀ b : BreakableString, b.fmt {} = b.display) ∧
    (∀ i : ImageRef, i.fmt {} = i.display) ∧ ∀ p : StageParent, p.fmt {} = p.display := by
  have hi : ∀ i : ImageRef, i.fmt {} = i.display := fun i => rfl
  refine ⟨fun s => rfl, fun b => rfl, hi, fun p => ?_⟩
  cases p with
  | image i => exact hi i
  | stage n => rfl
  | scratch => rfl

/-- C86 (options without effect): a `BreakableString`, an `ImageRef`, and a parent that is an image or
`scratch` are written in the same way whatever the options are. -/
theorem C86_ignored (o : FmtOpts) :
    (∀ b : BreakableString, b.fmt o = b.display) ∧ (∀ i : ImageRef, i.fmt o = i.display) ∧
    (∀ i : ImageRef, (StageParent.image i).fmt o = i.display) ∧
    StageParent.scratch.fmt o = c!"scratch" := ⟨fun _ => rfl, fun _ => rfl, fun _ => rfl, rfl⟩

/-- C86 (strings): a `SpannedString` is cut after `precision` characters, then filled up to `width`
characters, on the right unless the options say otherwise; this determines the text, and it has as
many characters as said. -/
theorem C86_string (o : FmtOpts) (s : SpannedString) (u : Str) :
    (s.fmt o = u ↔ Around o .left (s.content.take (o.precision.getD s.content.length)) u) ∧
    (s.fmt o).length =
      max (o.width.getD 0) (min (o.precision.getD s.content.length) s.content.length) := by
  have hpad : ∀ t : Str, Around o .left t (match o.width with
      | none => t
      | some w => if w ≤ t.length then t else o.padding (w - t.length) .left t) := by
    intro t
    cases hw : o.width with
    | none => exact around_self o .left t (by rw [hw]; exact Nat.zero_le _)
    | some w =>
      dsimp only
      split
      · rename_i hle
        exact around_self o .left t (by rw [hw]; exact hle)
      · rename_i hle
        exact around_padding o .left t w hw hle
  have h : Around o .left (s.content.take (o.precision.getD s.content.length)) (s.fmt o) := by
    unfold SpannedString.fmt FmtOpts.pad
    cases o.precision with
    | none =>
      rw [Option.getD_none, List.take_length]
      exact hpad s.content
    | some p => exact hpad (s.content.take p)
  refine ⟨⟨?_, fun h' => around_unique h h'⟩, ?_⟩
  · rintro rfl; exact h
  · obtain ⟨a, b, e, h1, -⟩ := h
    rw [e]
    simp only [List.length_append, List.length_replicate, List.length_take] at h1 ⊢
    omega

/-- C86 (numbers of stages): a parent that is a stage has its number filled up to `width` characters,
on the left unless the options say otherwise, and with zeros if they ask for it; with a sign if they
ask for it; `precision` has no effect. -/
theorem C86_stage (o : FmtOpts) (n : Nat) (u : Str) :
    (StageParent.stage n).fmt o = u ↔
      if o.zero then ∃ k, u = (if o.plus then c!"+" else []) ++ List.replicate k '0' ++ decimal n ∧
          k = o.width.getD 0 - ((if o.plus then 1 else 0) + (decimal n).length)
      else Around o .right ((if o.plus then c!"+" else []) ++ decimal n) u := by
  have key : ∀ sign : Str, sign.length = (if o.plus then 1 else 0) →
      ((match o.width with
        | none => sign ++ decimal n
        | some w =>
          if w ≤ sign.length + (decimal n).length then sign ++ decimal n
          else if o.zero then
            sign ++ FmtOpts.padding { o with fill := '0', align := some .right }
              (w - (sign.length + (decimal n).length)) .right (decimal n)
          else o.padding (w - (sign.length + (decimal n).length)) .right (sign ++ decimal n)) = u ↔
      if o.zero then ∃ k, u = sign ++ List.replicate k '0' ++ decimal n ∧
          k = o.width.getD 0 - ((if o.plus then 1 else 0) + (decimal n).length)
      else Around o .right (sign ++ decimal n) u) := by
    intro sign hs
    rw [← hs]
    cases hz : o.zero with
    | true =>
      simp only [if_true]
      cases hw : o.width with
      | none => simp [eq_comm]
      | some w =>
        simp only [Option.getD_some, exists_eq_right]
        split
        · rename_i hle
          rw [Nat.sub_eq_zero_of_le hle]
          simp [eq_comm]
        · simp [FmtOpts.padding, eq_comm]
    | false =>
      simp only [Bool.false_eq_true, if_false]
      have h : Around o .right (sign ++ decimal n) (match o.width with
        | none => sign ++ decimal n
        | some w =>
          if w ≤ sign.length + (decimal n).length then sign ++ decimal n
          else o.padding (w - (sign.length + (decimal n).length)) .right (sign ++ decimal n)) := by
        rw [← List.length_append]
        cases hw : o.width with
        | none => exact around_self o .right _ (by rw [hw]; exact Nat.zero_le _)
        | some w =>
          dsimp only
          split
          · rename_i hle
            exact around_self o .right _ (by rw [hw]; exact hle)
          · rename_i hle
            exact around_padding o .right _ w hw hle
      exact ⟨fun e => e ▸ h, fun h' => around_unique h h'⟩
  exact key (if o.plus then ['+'] else []) (by cases o.plus <;> rfl)

/-- C86 (columns): so a width lines up stage numbers and strings, but not the parents of stages. -/
theorem C86_columns :
    (∀ (o : FmtOpts) (w n : Nat), o.width = some w → w ≤ ((StageParent.stage n).fmt o).length) ∧
    ¬ ∀ (o : FmtOpts) (w : Nat) (p : StageParent), o.width = some w → w ≤ (p.fmt o).length := by
  constructor
  · intro o w n hw
    have h := (C86_stage o n _).1 rfl
    generalize (StageParent.stage n).fmt o = u at h ⊢
    split at h
    · obtain ⟨k, rfl, hk⟩ := h
      rw [hw] at hk
      cases hp : o.plus <;> rw [hp] at hk <;>
        simp only [Option.getD_some, Bool.false_eq_true, if_false, if_true] at hk <;>
        simp only [Bool.false_eq_true, if_false, if_true, List.length_append, List.length_replicate,
          List.length_cons, List.length_nil] <;> omega
    · obtain ⟨a, b, rfl, hk, -⟩ := h
      rw [hw] at hk
      simp only [Option.getD_some] at hk
      simp only [List.length_append, List.length_replicate] at hk ⊢
      omega
  · intro h
    exact absurd (h { width := some 9 } 9 .scratch rfl) (by decide)

/- `format!("{:>6}|{:*^5.2}|{:06}|{:>9}", …)` -/
example : (StageParent.stage 12).fmt { width := some 6 } = c!"    12" ∧
    SpannedString.fmt { width := some 5, precision := some 2, fill := '*', align := some .center }
      ⟨⟨0, 3⟩, c!"abc"⟩ = c!"*ab**" ∧
    (StageParent.stage 12).fmt { width := some 6, zero := true, plus := true } = c!"+00012" ∧
    StageParent.scratch.fmt { width := some 9, align := some .right } = c!"scratch" ∧
    ImageRef.fmt { width := some 9, precision := some 1 } ⟨some c!"r", c!"i", some c!"t", none⟩ =
      c!"r/i:t" := by decide +kernel

/-! ## `Debug` -/

/-- C86 (`Debug`): without a width and a sign, `{:?}` is the text of C67, and `{:#?}` is that text in
several lines: joined, they are the text again, and they are indented by four blanks for each open
bracket.  For every public type of the crate. -/
theorem C86_debug (plain : Char → Bool) (o : FmtOpts) (hw : o.width = none) (hp : o.plus = false) :
    let Shows := fun (t : DebugTree) (u : Str) => (o.alternate = false → t.fmt o = u) ∧
      (o.alternate = true → oneLine (t.fmt o) = u ∧ Indented 0 (allLines (t.fmt o)))
    (∀ s : Span, Shows s.tree s.debug) ∧
    (∀ s : SpannedString, Shows (s.tree plain) (s.debug plain)) ∧
    (∀ s : SpannedComment, Shows (s.tree plain) (s.debug plain)) ∧
    (∀ s : BreakableStringComponent, Shows (s.tree plain) (s.debug plain)) ∧
    (∀ s : BreakableString, Shows (s.tree plain) (s.debug plain)) ∧
    (∀ s : StringArray, Shows (s.tree plain) (s.debug plain)) ∧
    (∀ s : ShellOrExecExpr, Shows (s.tree plain) (s.debug plain)) ∧
    (∀ s : ImageRef, Shows (s.tree plain) (s.debug plain)) ∧
    (∀ s : FromInstruction, Shows (s.tree plain) (s.debug plain)) ∧
    (∀ s : ArgInstruction, Shows (s.tree plain) (s.debug plain)) ∧
    (∀ s : Label, Shows (s.tree plain) (s.debug plain)) ∧
    (∀ s : LabelInstruction, Shows (s.tree plain) (s.debug plain)) ∧
    (∀ s : CopyInstruction, Shows (s.tree plain) (s.debug plain)) ∧
    (∀ s : EnvVar, Shows (s.tree plain) (s.debug plain)) ∧
    (∀ s : EnvInstruction, Shows (s.tree plain) (s.debug plain)) ∧
    (∀ s : MiscInstruction, Shows (s.tree plain) (s.debug plain)) ∧
    (∀ s : Flag, ∀ n ∈ [c!"FromFlag", c!"CopyFlag"], Shows (s.tree plain n) (s.debug plain n)) ∧
    (∀ s : ExecInstruction, ∀ n ∈ [c!"RunInstruction", c!"CmdInstruction", c!"EntrypointInstruction"],
      Shows (s.tree plain n) (s.debug plain n)) ∧
    (∀ i : Instruction, Shows (i.tree plain) (i.debug plain)) ∧
    (∀ d : Dockerfile, Shows (d.tree plain) (d.debug plain)) ∧
    (∀ p : StageParent, Shows (p.tree plain) (p.debug plain)) ∧
    (∀ s : Stage, Shows (s.tree plain) (s.debug plain)) ∧
    ∀ ss : List Stage, Shows (stagesTree plain ss) (stagesDebug plain ss) := by
  have k : ∀ {t : DebugTree} {u : Str}, Prints t u → _ := fun h => Prints.shows h o hw hp
  refine ⟨fun s => k (prints_span s), fun s => k (prints_string plain s), fun s => k (prints_comment plain s),
    fun s => k (prints_component plain s), fun s => k (prints_breakable plain s),
    fun s => k (prints_array plain s), fun s => k (prints_expr plain s), fun s => k (prints_image plain s),
    fun s => k (prints_from plain s), fun s => k (prints_arg plain s), fun s => k (prints_label1 plain s),
    fun s => k (prints_label plain s), fun s => k (prints_copy plain s), fun s => k (prints_envVar plain s),
    fun s => k (prints_env plain s), fun s => k (prints_misc plain s), fun s n hn => k (prints_flag plain ?_ s),
    fun s n hn => k (prints_exec plain ?_ s), fun i => k (prints_instruction plain i),
    fun d => k (prints_dockerfile plain d), fun p => k (prints_parent plain p),
    fun s => k (prints_stage plain s), fun ss => k (prints_stages plain ss)⟩
  · simp only [List.mem_cons, List.not_mem_nil, or_false] at hn
    rcases hn with rfl | rfl <;> decide
  · simp only [List.mem_cons, List.not_mem_nil, or_false] at hn
    rcases hn with rfl | rfl | rfl <;> decide

/-- C86 (`{:#?}` determines the value): documents, instructions and lists of stages with the same text
in several lines are equal. -/
theorem C86_pretty (plain : Char → Bool) :
    (∀ i j : Instruction, (i.tree plain).fmt { alternate := true } =
      (j.tree plain).fmt { alternate := true } → i = j) ∧
    (∀ d e : Dockerfile, (d.tree plain).fmt { alternate := true } =
      (e.tree plain).fmt { alternate := true } → d = e) ∧
    ∀ ss ts : List Stage, (stagesTree plain ss).fmt { alternate := true } =
      (stagesTree plain ts).fmt { alternate := true } → ss = ts := by
  have key : ∀ {t t' : DebugTree} {u u' : Str}, Prints t u → Prints t' u' →
      t.fmt { alternate := true } = t'.fmt { alternate := true } → u = u' := by
    intro t t' u u' h h' e
    rw [← ((h.shows { alternate := true } rfl rfl).2 rfl).1, e,
      ((h'.shows { alternate := true } rfl rfl).2 rfl).1]
  obtain ⟨-, -, -, -, -, -, -, hi, hd⟩ := C67_debug plain
  exact ⟨fun i j e => hi i j (key (prints_instruction plain i) (prints_instruction plain j) e),
    fun d d' e => hd d d' (key (prints_dockerfile plain d) (prints_dockerfile plain d') e),
    fun ss ts e => (C76_debug plain).2 ss ts (key (prints_stages plain ss) (prints_stages plain ts) e)⟩

/- a width applies to the numbers in a `Debug` text, and to nothing else -/
example : ((ArgInstruction.mk ⟨0, 5⟩ ⟨⟨4, 5⟩, c!"a"⟩ none).tree fun _ => true).fmt { width := some 3 } =
    c!"ArgInstruction { span: (  0,   5), name: SpannedString { span: (  4,   5), content: \"a\" }, value: None }" := by
  decide +kernel

/- several lines; a bracket, a comma and a line feed in a string do not disturb -/
example : ((ArgInstruction.mk ⟨0, 5⟩ ⟨⟨4, 5⟩, c!"a"⟩ (some ⟨⟨1, 2⟩, c!"(,\n  )"⟩)).tree fun _ => true).fmt
      { alternate := true } =
    c!"ArgInstruction {\n    span: (\n        0,\n        5,\n    ),\n    name: SpannedString {\n        span: (\n            4,\n            5,\n        ),\n        content: \"a\",\n    },\n    value: Some(\n        SpannedString {\n            span: (\n                1,\n                2,\n            ),\n            content: \"(,\\n  )\",\n        },\n    ),\n}" := by
  decide +kernel

/- a document without instructions -/
example : (Dockerfile.tree (fun _ => true) ⟨c!"", [], []⟩).fmt { alternate := true } =
    c!"Dockerfile {\n    content: \"\",\n    global_args: [],\n    instructions: [],\n}" := by
  decide +kernel

end Verif
