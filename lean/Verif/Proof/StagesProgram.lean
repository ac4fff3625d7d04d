import Verif.Model.Examples
import Verif.Proof.Debug
import Verif.Props.Stage

/-! # The program `stages` (C69) -/

namespace Verif
namespace Dbg

variable (plain : Char → Bool)

/-! ## `Debug` texts have no line feeds -/

/-- no line feed in the text -/
def OneLine (t : Str) : Prop := ∀ c ∈ t, c ≠ '\n'

theorem ol_nil : OneLine [] := fun _ h => by cases h

theorem ol_cons {c : Char} {t : Str} : OneLine (c :: t) ↔ c ≠ '\n' ∧ OneLine t := by
  simp [OneLine]

theorem ol_append {a b : Str} : OneLine (a ++ b) ↔ OneLine a ∧ OneLine b := by
  constructor
  · exact fun h => ⟨fun c hc => h c (List.mem_append_left _ hc), fun c hc => h c (List.mem_append_right _ hc)⟩
  · rintro ⟨h1, h2⟩ c hc
    rcases List.mem_append.1 hc with h | h
    · exact h1 c h
    · exact h2 c h

theorem ol_decimal (n : Nat) : OneLine (decimal n) := by
  rintro c hc rfl
  exact absurd ((C63_decimal n).2.1 _ hc) (by decide)

theorem ol_hex (n : Nat) : OneLine (hex n) := by
  have hd : ∀ m, m < 16 → hexDigit m ≠ '\n' := by decide
  have key : ∀ k n, OneLine (hexUpTo k n) := by
    intro k
    induction k with
    | zero => intro n; exact ol_cons.2 ⟨hd _ (Nat.mod_lt _ (by decide)), ol_nil⟩
    | succ k ih =>
      intro n
      unfold hexUpTo
      split
      · exact ol_cons.2 ⟨hd _ (by assumption), ol_nil⟩
      · exact ol_append.2 ⟨ih _, ol_cons.2 ⟨hd _ (Nat.mod_lt _ (by decide)), ol_nil⟩⟩
  exact key n n

theorem ol_escape (c : Char) : OneLine (escapeChar plain c) := by
  unfold escapeChar
  split
  · simp [OneLine]
  split
  · simp [OneLine]
  split
  · simp [OneLine]
  split
  · simp [OneLine]
  rename_i hn
  split
  · simpa [OneLine] using hn
  split
  · simpa [OneLine] using hn
  · exact ol_append.2 ⟨ol_append.2 ⟨by simp [OneLine], ol_hex _⟩, by simp [OneLine]⟩

theorem ol_str (s : Str) : OneLine (debugStr plain s) := by
  refine ol_cons.2 ⟨by decide, ol_append.2 ⟨fun c hc => ?_, by simp [OneLine]⟩⟩
  obtain ⟨x, -, hx⟩ := List.mem_flatMap.1 hc
  exact ol_escape plain x c hx

theorem ol_commas : ∀ ts : List Str, (∀ t ∈ ts, OneLine t) → OneLine (commas ts)
  | [], _ => ol_nil
  | [t], h => h t (by simp)
  | t :: u :: ts, h => ol_append.2 ⟨ol_append.2 ⟨h t (by simp), by simp [OneLine]⟩,
      ol_commas (u :: ts) fun x hx => h x (List.mem_cons_of_mem _ hx)⟩

theorem ol_struct {name : Str} {l : List (Str × Str)} (hn : OneLine name)
    (hl : ∀ x ∈ l, OneLine x.1 ∧ OneLine x.2) : OneLine (debugStruct name l) := by
  refine ol_append.2 ⟨ol_append.2 ⟨ol_append.2 ⟨hn, by simp [OneLine]⟩, ol_commas _ fun t ht => ?_⟩,
    by simp [OneLine]⟩
  obtain ⟨x, hx, rfl⟩ := List.mem_map.1 ht
  exact ol_append.2 ⟨ol_append.2 ⟨(hl x hx).1, by simp [OneLine]⟩, (hl x hx).2⟩

theorem ol_tuple {name : Str} {l : List Str} (hn : OneLine name) (hl : ∀ x ∈ l, OneLine x) :
    OneLine (debugTuple name l) :=
  ol_append.2 ⟨ol_append.2 ⟨ol_append.2 ⟨hn, by simp [OneLine]⟩, ol_commas _ hl⟩, by simp [OneLine]⟩

theorem ol_tuple1 {name t : Str} (hn : OneLine name) (h : OneLine t) : OneLine (debugTuple name [t]) :=
  ol_tuple hn fun x hx => by rw [List.mem_singleton.1 hx]; exact h

theorem ol_list {α : Type} {f : α → Str} (l : List α) (h : ∀ a, OneLine (f a)) :
    OneLine (debugList (l.map f)) := by
  refine ol_append.2 ⟨ol_append.2 ⟨by simp [OneLine], ol_commas _ fun t ht => ?_⟩, by simp [OneLine]⟩
  obtain ⟨x, -, rfl⟩ := List.mem_map.1 ht
  exact h x

theorem ol_option {α : Type} {f : α → Str} (o : Option α) (h : ∀ a, OneLine (f a)) :
    OneLine (debugOption (o.map f)) := by
  cases o with
  | none => simp [OneLine, debugOption]
  | some a => exact ol_tuple1 (by simp [OneLine]) (h a)

theorem ol_span (s : Span) : OneLine s.debug := by
  refine ol_tuple ol_nil fun x hx => ?_
  simp only [List.mem_cons, List.not_mem_nil, or_false] at hx
  rcases hx with rfl | rfl <;> exact ol_decimal _

theorem ol_fields_nil : ∀ x ∈ ([] : List (Str × Str)), OneLine x.1 ∧ OneLine x.2 := fun _ h => by cases h

theorem ol_fields_cons {n t : Str} {l : List (Str × Str)} (hn : OneLine n) (ht : OneLine t)
    (h : ∀ x ∈ l, OneLine x.1 ∧ OneLine x.2) : ∀ x ∈ (n, t) :: l, OneLine x.1 ∧ OneLine x.2 := by
  intro x hx
  rcases List.mem_cons.1 hx with rfl | hx
  · exact ⟨hn, ht⟩
  · exact h x hx

/-- one field, and the next -/
macro "field" t:term : tactic =>
  `(tactic| refine ol_fields_cons (by simp [OneLine]) $t ?_)

theorem ol_spannedString (s : SpannedString) : OneLine (s.debug plain) := by
  refine ol_struct (by simp [OneLine]) ?_
  field (ol_span _)
  field (ol_str plain _)
  exact ol_fields_nil

theorem ol_spannedComment (s : SpannedComment) : OneLine (s.debug plain) := by
  refine ol_struct (by simp [OneLine]) ?_
  field (ol_span _)
  field (ol_str plain _)
  exact ol_fields_nil

theorem ol_component (c : BreakableStringComponent) : OneLine (c.debug plain) := by
  cases c
  · exact ol_tuple1 (by simp [OneLine]) (ol_spannedString plain _)
  · exact ol_tuple1 (by simp [OneLine]) (ol_spannedComment plain _)

theorem ol_breakable (b : BreakableString) : OneLine (b.debug plain) := by
  refine ol_struct (by simp [OneLine]) ?_
  field (ol_span _)
  field (ol_list _ (ol_component plain))
  exact ol_fields_nil

theorem ol_array (b : StringArray) : OneLine (b.debug plain) := by
  refine ol_struct (by simp [OneLine]) ?_
  field (ol_span _)
  field (ol_list _ (ol_spannedString plain))
  exact ol_fields_nil

theorem ol_expr (e : ShellOrExecExpr) : OneLine (e.debug plain) := by
  cases e
  · exact ol_tuple1 (by simp [OneLine]) (ol_breakable plain _)
  · exact ol_tuple1 (by simp [OneLine]) (ol_array plain _)

theorem ol_image (i : ImageRef) : OneLine (i.debug plain) := by
  refine ol_struct (by simp [OneLine]) ?_
  field (ol_option _ (ol_str plain))
  field (ol_str plain _)
  field (ol_option _ (ol_str plain))
  field (ol_option _ (ol_str plain))
  exact ol_fields_nil

theorem ol_flag {name : Str} (hn : OneLine name) (f : Flag) : OneLine (f.debug plain name) := by
  refine ol_struct hn ?_
  field (ol_span _)
  field (ol_spannedString plain _)
  field (ol_spannedString plain _)
  exact ol_fields_nil

theorem ol_exec {name : Str} (hn : OneLine name) (i : ExecInstruction) : OneLine (i.debug plain name) := by
  refine ol_struct hn ?_
  field (ol_span _)
  field (ol_expr plain _)
  exact ol_fields_nil

theorem ol_label (l : Label) : OneLine (l.debug plain) := by
  refine ol_struct (by simp [OneLine]) ?_
  field (ol_span _)
  field (ol_spannedString plain _)
  field (ol_spannedString plain _)
  exact ol_fields_nil

theorem ol_envVar (v : EnvVar) : OneLine (v.debug plain) := by
  refine ol_struct (by simp [OneLine]) ?_
  field (ol_span _)
  field (ol_spannedString plain _)
  field (ol_breakable plain _)
  exact ol_fields_nil

theorem ol_instruction (i : Instruction) : OneLine (i.debug plain) := by
  cases i with
  | «from» i =>
    refine ol_tuple1 (by simp [OneLine]) (ol_struct (by simp [OneLine]) ?_)
    field (ol_span _)
    field (ol_list _ (ol_flag plain (by simp [OneLine])))
    field (ol_spannedString plain _)
    field (ol_image plain _)
    field (ol_decimal _)
    field (ol_option _ (ol_spannedString plain))
    exact ol_fields_nil
  | arg i =>
    refine ol_tuple1 (by simp [OneLine]) (ol_struct (by simp [OneLine]) ?_)
    field (ol_span _)
    field (ol_spannedString plain _)
    field (ol_option _ (ol_spannedString plain))
    exact ol_fields_nil
  | label i =>
    refine ol_tuple1 (by simp [OneLine]) (ol_struct (by simp [OneLine]) ?_)
    field (ol_span _)
    field (ol_list _ (ol_label plain))
    exact ol_fields_nil
  | run i => exact ol_tuple1 (by simp [OneLine]) (ol_exec plain (by simp [OneLine]) i)
  | entrypoint i => exact ol_tuple1 (by simp [OneLine]) (ol_exec plain (by simp [OneLine]) i)
  | cmd i => exact ol_tuple1 (by simp [OneLine]) (ol_exec plain (by simp [OneLine]) i)
  | copy i =>
    refine ol_tuple1 (by simp [OneLine]) (ol_struct (by simp [OneLine]) ?_)
    field (ol_span _)
    field (ol_list _ (ol_flag plain (by simp [OneLine])))
    field (ol_list _ (ol_spannedString plain))
    field (ol_spannedString plain _)
    exact ol_fields_nil
  | env i =>
    refine ol_tuple1 (by simp [OneLine]) (ol_struct (by simp [OneLine]) ?_)
    field (ol_span _)
    field (ol_list _ (ol_envVar plain))
    exact ol_fields_nil
  | misc i =>
    refine ol_tuple1 (by simp [OneLine]) (ol_struct (by simp [OneLine]) ?_)
    field (ol_span _)
    field (ol_spannedString plain _)
    field (ol_breakable plain _)
    exact ol_fields_nil

theorem ol_parent (p : StageParent) : OneLine (p.debug plain) := by
  cases p with
  | image i => exact ol_tuple1 (by simp [OneLine]) (ol_image plain i)
  | stage n => exact ol_tuple1 (by simp [OneLine]) (ol_decimal n)
  | scratch => simp [OneLine, StageParent.debug]

/-! ## reading the output -/

theorem reads_parent : Reads (StageParent.debug plain) where
  clear a b := by
    cases a <;> cases b
    · exact clear_tuple ((reads_image plain).clear _ _)
    · exact clear_of_ne fun r r' h => by simp [StageParent.debug, debugTuple] at h
    · exact clear_of_ne fun r r' h => by simp [StageParent.debug, debugTuple] at h
    · exact clear_of_ne fun r r' h => by simp [StageParent.debug, debugTuple] at h
    · exact clear_tuple (reads_decimal.clear _ _)
    · exact clear_of_ne fun r r' h => by simp [StageParent.debug, debugTuple] at h
    · exact clear_of_ne fun r r' h => by simp [StageParent.debug, debugTuple] at h
    · exact clear_of_ne fun r r' h => by simp [StageParent.debug, debugTuple] at h
    · exact clear_same _
  inj a b h := by
    cases a <;> cases b
    · exact congrArg _ ((reads_image plain).inj _ _ (tuple_text ((reads_image plain).clear _ _) h))
    · simp [StageParent.debug, debugTuple] at h
    · simp [StageParent.debug, debugTuple] at h
    · simp [StageParent.debug, debugTuple] at h
    · exact congrArg _ (reads_decimal.inj _ _ (tuple_text (reads_decimal.clear _ _) h))
    · simp [StageParent.debug, debugTuple] at h
    · simp [StageParent.debug, debugTuple] at h
    · simp [StageParent.debug, debugTuple] at h
    · rfl

/-- nothing, or the beginning of a stage -/
def AtStage (r : Str) : Prop := r = [] ∨ ∃ u, r = 's' :: u

theorem instructions_inj (is : List Instruction) : ∀ (js : List Instruction) (r r' : Str), AtStage r →
    AtStage r' → (is.flatMap fun i => c!"  " ++ i.debug plain ++ c!"\n") ++ r =
      (js.flatMap fun i => c!"  " ++ i.debug plain ++ c!"\n") ++ r' → is = js ∧ r = r' := by
  have no : ∀ (j : Instruction) (js : List Instruction) (r r' : Str), AtStage r →
      r ≠ ((j :: js).flatMap fun i => c!"  " ++ i.debug plain ++ c!"\n") ++ r' := by
    rintro j js r r' (rfl | ⟨u, rfl⟩) h <;> simp at h
  induction is with
  | nil =>
    intro js r r' hr hr' h
    cases js with
    | nil => exact ⟨rfl, h⟩
    | cons j js => exact absurd h (no j js r r' hr)
  | cons i is ih =>
    intro js r r' hr hr' h
    cases js with
    | nil => exact absurd h.symm (no i is r' r hr')
    | cons j js =>
      simp only [List.flatMap_cons, List.append_assoc] at h
      obtain ⟨rfl, h1⟩ := instruction_inj plain i j _ _ (List.append_cancel_left h)
      obtain ⟨rfl, rfl⟩ := ih js r r' hr hr' (by simpa using h1)
      exact ⟨rfl, rfl⟩

theorem atStage_stages (ss : List Stage) : AtStage (ss.flatMap (stageLines plain)) := by
  cases ss with
  | nil => exact .inl rfl
  | cons s ss => exact .inr ⟨_, by simp [stageLines]; rfl⟩

theorem stop_open (r : Str) : Stop (c!" (parent: " ++ r) := stop_cons (by decide) _
theorem stop_root (r : Str) : Stop (c!", root: " ++ r) := stop_cons (by decide) _
theorem stop_line (r : Str) : Stop (c!")\n" ++ r) := stop_cons (by decide) _

/-- what is printed of a stage -/
def shown (s : Stage) : Nat × StageParent × StageParent × List Instruction :=
  (s.index, s.parent, s.root, s.instructions)

theorem stages_inj (ss : List Stage) : ∀ ss' : List Stage,
    ss.flatMap (stageLines plain) = ss'.flatMap (stageLines plain) → ss.map shown = ss'.map shown := by
  induction ss with
  | nil =>
    intro ss' h
    cases ss' with
    | nil => rfl
    | cons s ss' => simp [stageLines] at h
  | cons s ss ih =>
    intro ss' h
    cases ss' with
    | nil => simp [stageLines] at h
    | cons s' ss' =>
      simp only [List.flatMap_cons, stageLines, List.append_assoc] at h
      have h1 := List.append_cancel_left h
      obtain ⟨e1, h2⟩ := reads_decimal.clear _ _ _ _ (stop_open _) (stop_open _) h1
      obtain ⟨e2, h3⟩ := (reads_parent plain).clear _ _ _ _ (stop_root _)
        (stop_root _) (List.append_cancel_left h2)
      obtain ⟨e3, h4⟩ := (reads_parent plain).clear _ _ _ _ (stop_line _)
        (stop_line _) (List.append_cancel_left h3)
      obtain ⟨e4, h5⟩ := instructions_inj plain _ _ _ _ (atStage_stages plain ss)
        (atStage_stages plain ss') (by simpa using List.append_cancel_left h4)
      rw [List.map_cons, List.map_cons, ih ss' h5, shown, shown, reads_decimal.inj _ _ e1,
        (reads_parent plain).inj _ _ e2, (reads_parent plain).inj _ _ e3, e4]

/-! ## counting lines -/

theorem count_oneLine {t : Str} (h : OneLine t) : t.count '\n' = 0 :=
  List.count_eq_zero.2 fun hc => h _ hc rfl

theorem count_stage (s : Stage) : (stageLines plain s).count '\n' = 1 + s.instructions.length := by
  have hi : ∀ is : List Instruction,
      (is.flatMap fun i => c!"  " ++ i.debug plain ++ c!"\n").count '\n' = is.length := by
    intro is
    induction is with
    | nil => rfl
    | cons i is ih =>
      rw [List.flatMap_cons, List.count_append, ih, List.count_append, List.count_append,
        count_oneLine (ol_instruction plain i), List.length_cons]
      simp
      omega
  rw [stageLines]
  simp only [List.count_append, hi, count_oneLine (ol_parent plain _), count_oneLine (ol_decimal _)]
  simp

end Dbg
end Verif
