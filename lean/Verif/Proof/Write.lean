import Verif.Spec.Write
import Verif.Proof.Plain
import Verif.Proof.Relayout

/-! # Writing down any document (C73) -/

namespace Verif
open Spec

/-! ## quoting -/

theorem escape_cases (P : Char → Str → Prop) (h1 : P '"' c!"\\\"") (h2 : P '\\' c!"\\\\") (h3 : P ' ' c!"\\x20")
    (h4 : P '\t' c!"\\t") (h5 : P '\n' c!"\\n") (h6 : P '\r' c!"\\r") (h7 : P '\x00' c!"\\x00")
    (h8 : P '\x1F' c!"\\x1f") (h : ∀ c, c ≠ '"' → c ≠ '\\' → c ≠ ' ' → c ≠ '\t' → c ≠ '\n' → c ≠ '\r' →
      c ≠ '\x00' → c ≠ '\x1F' → P c [c]) (c : Char) : P c (escapeCh c) := by
  unfold escapeCh
  by_cases e1 : c = '"'
  · subst e1; exact h1
  rw [if_neg e1]
  by_cases e2 : c = '\\'
  · subst e2; exact h2
  rw [if_neg e2]
  by_cases e3 : c = ' '
  · subst e3; exact h3
  rw [if_neg e3]
  by_cases e4 : c = '\t'
  · subst e4; exact h4
  rw [if_neg e4]
  by_cases e5 : c = '\n'
  · subst e5; exact h5
  rw [if_neg e5]
  by_cases e6 : c = '\r'
  · subst e6; exact h6
  rw [if_neg e6]
  by_cases e7 : c = '\x00'
  · subst e7; exact h7
  rw [if_neg e7]
  by_cases e8 : c = '\x1F'
  · subst e8; exact h8
  rw [if_neg e8]
  exact h c e1 e2 e3 e4 e5 e6 e7 e8

theorem quotedBody_all (t : Str) : QuotedBody '"' (t.flatMap escapeCh) := by
  induction t with
  | nil => exact .nil
  | cons c t ih =>
    rw [List.flatMap_cons]
    have hx : ∀ {c u}, c ≠ '"' → c ≠ '\\' → c ≠ '\x00' → c ≠ '\x1F' → QuotedBody '"' u → QuotedBody '"' (c :: u) :=
      .chr
    have bs : ∀ {c u}, c ≠ '"' → c ≠ '\'' → c ≠ '\\' → QuotedBody '"' (c :: u) → QuotedBody '"' ('\\' :: c :: u) :=
      .backslash
    refine escape_cases (fun c s => QuotedBody '"' (s ++ t.flatMap escapeCh)) ?_ ?_ ?_ ?_ ?_ ?_ ?_ ?_ ?_ c
    · exact .escaped (.inl rfl) ih
    · exact .escaped (.inr (.inr rfl)) ih
    · exact bs (by decide) (by decide) (by decide) (hx (by decide) (by decide) (by decide) (by decide)
        (hx (by decide) (by decide) (by decide) (by decide) (hx (by decide) (by decide) (by decide) (by decide) ih)))
    · exact bs (by decide) (by decide) (by decide) (hx (by decide) (by decide) (by decide) (by decide) ih)
    · exact bs (by decide) (by decide) (by decide) (hx (by decide) (by decide) (by decide) (by decide) ih)
    · exact bs (by decide) (by decide) (by decide) (hx (by decide) (by decide) (by decide) (by decide) ih)
    · exact bs (by decide) (by decide) (by decide) (hx (by decide) (by decide) (by decide) (by decide)
        (hx (by decide) (by decide) (by decide) (by decide) (hx (by decide) (by decide) (by decide) (by decide) ih)))
    · exact bs (by decide) (by decide) (by decide) (hx (by decide) (by decide) (by decide) (by decide)
        (hx (by decide) (by decide) (by decide) (by decide) (hx (by decide) (by decide) (by decide) (by decide) ih)))
    · intro c h1 h2 _ _ _ _ h7 h8
      exact hx h1 h2 h7 h8 ih

theorem quoteAll_quoted (t : Str) : QuotedText (quoteAll t) := ⟨'"', _, rfl, .inl rfl, quotedBody_all t⟩

theorem escape_noSpace (c : Char) : NoSpace (escapeCh c) := by
  refine escape_cases (fun _ s => NoSpace s) ?_ ?_ ?_ ?_ ?_ ?_ ?_ ?_ ?_ c
  any_goals (intro d hd; revert d; decide)
  intro c _ _ h3 h4 h5 h6 _ _ d hd
  cases List.mem_singleton.1 hd
  exact ⟨h3, h4, h5, h6⟩

theorem quoteAll_noSpace (t : Str) : NoSpace (quoteAll t) := by
  intro c hc
  rcases List.mem_cons.1 hc with rfl | hc
  · decide
  rcases List.mem_append.1 hc with hc | hc
  · obtain ⟨d, -, hc⟩ := List.mem_flatMap.1 hc
    exact escape_noSpace d c hc
  · cases List.mem_singleton.1 hc
    decide

theorem quoteAll_word (t : Str) : WordText (quoteAll t) := by
  refine ⟨by simp [quoteAll], quoteAll_noSpace t, ?_⟩
  have : quoteAll t = ('"' :: t.flatMap escapeCh) ++ ['"'] := rfl
  rw [this, List.getLast?_concat]
  decide

theorem quoteAll_starts (t : Str) : StartsQuoted (quoteAll t) := ⟨'"', _, rfl, .inl rfl⟩

theorem joined_noSpace {t : Str} (h : NoSpace t) : Joined t t := by
  induction t with
  | nil => exact .nil
  | cons c t ih =>
    refine .chr ?_ (ih fun d hd => h d (by simp [hd]))
    intro r e
    obtain ⟨-, rfl⟩ := List.cons.inj e
    exact (h '\n' (by simp)).2.2.1 rfl

theorem unescape_all (t : Str) : ∀ n, (t.flatMap escapeCh).length ≤ n →
    Enquote.unescape '"' n (t.flatMap escapeCh) = .ok t := by
  induction t with
  | nil => intro n _; cases n <;> rfl
  | cons c t ih =>
    intro n
    rw [List.flatMap_cons]
    have two : ∀ (e v : Char), Enquote.simpleEscape e = some v → ∀ n,
        (['\\', e] ++ t.flatMap escapeCh).length ≤ n →
        Enquote.unescape '"' n (['\\', e] ++ t.flatMap escapeCh) = .ok (v :: t) := by
      intro e v hv n hn
      cases n with
      | zero => simp at hn
      | succ n =>
        simp only [List.cons_append, List.nil_append, List.length_cons] at hn ⊢
        rw [Enquote.unescape, if_neg (by decide), if_pos rfl]
        simp only [hv]
        rw [ih n (by omega)]
        rfl
    have hex : ∀ (a b v : Char), Enquote.fromStrRadix 16 255 [a, b] = some v.toNat → ∀ n,
        (['\\', 'x', a, b] ++ t.flatMap escapeCh).length ≤ n →
        Enquote.unescape '"' n (['\\', 'x', a, b] ++ t.flatMap escapeCh) = .ok (v :: t) := by
      intro a b v hv n hn
      cases n with
      | zero => simp at hn
      | succ n =>
        simp only [List.cons_append, List.nil_append, List.length_cons] at hn ⊢
        rw [Enquote.unescape, if_neg (by decide), if_pos rfl]
        simp only [show Enquote.simpleEscape 'x' = none from rfl]
        rw [if_neg (by decide), if_pos (by decide)]
        simp only [Enquote.takePad, hv]
        rw [ih n (by omega), Char.ofNat_toNat]
        rfl
    refine escape_cases (fun c s => (s ++ t.flatMap escapeCh).length ≤ n →
      Enquote.unescape '"' n (s ++ t.flatMap escapeCh) = .ok (c :: t)) ?_ ?_ ?_ ?_ ?_ ?_ ?_ ?_ ?_ c
    · exact two _ _ rfl n
    · exact two _ _ rfl n
    · exact hex _ _ _ (by decide) n
    · exact two _ _ rfl n
    · exact two _ _ rfl n
    · exact two _ _ rfl n
    · exact hex _ _ _ (by decide) n
    · exact hex _ _ _ (by decide) n
    · intro c h1 h2 _ _ _ _ _ _ hn
      cases n with
      | zero => simp at hn
      | succ n =>
        simp only [List.cons_append, List.nil_append, List.length_cons] at hn ⊢
        rw [Enquote.unescape.eq_def]
        simp only [if_neg h1, if_neg h2]
        rw [ih n (by omega)]
        rfl

/-- `enquote::unquote` undoes this. -/
theorem unquote_undoesEscapes : UndoesEscapes Enquote.unquote := by
  intro t
  unfold quoteAll
  cases h : t.flatMap escapeCh ++ ['"'] with
  | nil => simp at h
  | cons c cs =>
    have h1 : (c :: cs).getLast? = some '"' := by rw [← h]; simp
    have h2 : (c :: cs).dropLast = t.flatMap escapeCh := by rw [← h]; simp
    simp only [Enquote.unquote, h1, h2]
    rw [if_neg (by simp), if_pos (by simp)]
    exact unescape_all t _ (Nat.le_refl _)

/-! ## fields -/

theorem reads_all {unq : Unquote} (h : UndoesEscapes unq) (t : Str) : Reads unq (quoteAll t) t :=
  .inl ⟨quoteAll_starts t, h t⟩

theorem labelReads_all {unq : Unquote} (h : UndoesEscapes unq) (t : Str) : LabelReads unq (quoteAll t) t :=
  .inl ⟨quoteAll_starts t, _, joined_noSpace (quoteAll_noSpace t), h t⟩

theorem flag_written {unq : Unquote} (h : UndoesEscapes unq) {f : Flag} (hf : Over IsAlpha f.name.content) :
    (writtenFlag f).OK unq :=
  ⟨gap_space _, hf.1, hf.2, quoteAll_word _, reads_all h _⟩

theorem field_written {unq : Unquote} (h : UndoesEscapes unq) (s : SpannedString) :
    (writtenField s).OK unq :=
  ⟨gap_space _, quoteAll_word _, reads_all h _⟩

theorem label_written {unq : Unquote} (h : UndoesEscapes unq) (l : Label) : (writtenLabel l).LabelOK unq :=
  ⟨gap_space _, .inl ⟨quoteAll_quoted _, labelReads_all h _⟩, .inl ⟨quoteAll_quoted _, labelReads_all h _⟩⟩

theorem var_written {unq : Unquote} (h : UndoesEscapes unq) {v : EnvVar} (hv : Over IsWord v.key.content) :
    (writtenVar v).EnvOK unq :=
  ⟨gap_space _, hv.1, hv.2, rfl, .inl ⟨quoteAll_quoted _, h _⟩⟩

theorem array_written {unq : Unquote} (h : UndoesEscapes unq) (a : StringArray) : (writtenArray a).OK unq := by
  unfold writtenArray
  cases a.elements with
  | nil => exact .nil
  | cons e es =>
    refine ⟨.nil, quoteAll_quoted _, h _, ?_, .nil⟩
    intro x hx
    obtain ⟨y, -, rfl⟩ := List.mem_map.1 hx
    exact ⟨.nil, .blank (.inl rfl) .nil, quoteAll_quoted _, h _⟩

theorem lines_written : ∀ {cs}, LinesOK cs → (writtenShell cs).OK
  | [], h => h.elim
  | [.string s], h => h
  | .string s :: c :: cs, h => ⟨h.1, .nil, .inl rfl, lines_written h.2⟩
  | .comment s :: cs, h => ⟨.nil, h.1, .inl rfl, lines_written h.2⟩

theorem argument_starts {cs} (h : ArgumentOK cs) :
    (writtenShell cs).StartsWithText ∧ StartsArgument (writtenShell cs).text := by
  obtain ⟨-, s, r, rfl, c, t, h1, h2⟩ := h
  cases r with
  | nil => exact ⟨trivial, c, t, h1, h2⟩
  | cons d r => exact ⟨trivial, c, _, by simp only [writtenShell, Shell.text, h1]; rfl, h2⟩

/-! ## values without positions -/

abbrev zero : Nat → Nat := fun _ => 0

theorem flags_bare (fs : List Flag) : ∀ p,
    (flagsAt p (fs.map writtenFlag)).map (·.remap zero) = fs.map (·.remap zero) := by
  induction fs with
  | nil => intro p; rfl
  | cons f fs ih => intro p; simp only [List.map_cons, flagsAt, ih]; rfl

theorem fields_bare (fs : List SpannedString) : ∀ p,
    (fieldsAt p (fs.map writtenField)).map (·.remap zero) = fs.map (·.remap zero) := by
  induction fs with
  | nil => intro p; rfl
  | cons f fs ih => intro p; simp only [List.map_cons, fieldsAt, ih]; rfl

theorem labels_bare (fs : List Label) : ∀ p,
    (labelsAt p (fs.map writtenLabel)).map (·.remap zero) = fs.map (·.remap zero) := by
  induction fs with
  | nil => intro p; rfl
  | cons f fs ih => intro p; simp only [List.map_cons, labelsAt, ih]; rfl

theorem oneValue_some {cs t} (h : oneValue cs = some t) : ∃ sp, cs = [.string ⟨sp, t⟩] := by
  unfold oneValue at h
  split at h
  · cases h; exact ⟨_, rfl⟩
  · cases h

theorem vars_bare (fs : List EnvVar) (h : ∀ v ∈ fs, ∃ t, oneValue v.value.components = some t) : ∀ p,
    (envVarsAt p (fs.map writtenVar)).map (·.remap zero) = fs.map (·.remap zero) := by
  induction fs with
  | nil => intro p; rfl
  | cons f fs ih =>
    intro p
    simp only [List.map_cons, envVarsAt, ih fun v hv => h v (by simp [hv])]
    congr 1
    obtain ⟨t, ht⟩ := h f (by simp)
    obtain ⟨sp, hc⟩ := oneValue_some ht
    simp only [EnvVar.remap, BreakableString.remap, hc, writtenVar, ht, PairText.envVar]
    rfl

theorem elems_bare (es : List SpannedString) : ∀ p,
    (elemsAt p (es.map fun e => ⟨[], [' '], quoteAll e.content, e.content⟩)).map (·.remap zero) =
      es.map (·.remap zero) := by
  induction es with
  | nil => intro p; rfl
  | cons f fs ih => intro p; simp only [List.map_cons, elemsAt, ih]; rfl

theorem array_bare (a : StringArray) (p : Nat) :
    ((writtenArray a).elements p).map (·.remap zero) = a.elements.map (·.remap zero) := by
  unfold writtenArray
  cases a.elements with
  | nil => rfl
  | cons e es => simp only [ArrayText.elements, List.map_cons, elems_bare]; rfl

theorem shell_bare : ∀ {cs}, LinesOK cs → ∀ p,
    ((writtenShell cs).components p).map (·.remap zero) = cs.map (·.remap zero)
  | [], h, _ => h.elim
  | [.string s], _, _ => rfl
  | .string s :: c :: cs, h, p => by
    simp only [writtenShell, Shell.components, List.map_cons (a := BreakableStringComponent.string _)]
    rw [shell_bare h.2]
    rfl
  | .comment s :: cs, h, p => by
    simp only [writtenShell, Shell.components, List.map_cons]
    rw [shell_bare h.2]
    rfl

/-! ## instructions -/

theorem expr_written {unq : Unquote} (h : UndoesEscapes unq) {k : ExecKind} {e : ShellOrExecExpr}
    (he : WritableExpr e) : (writtenExpr k e).OK unq := by
  have hk : lower k.word = k.keyword := by cases k <;> decide
  cases e with
  | shell b =>
    have h1 := argument_starts he.1
    exact ⟨hk, gap_space _, by decide, lines_written he.1.1, h1.1, h1.2, he.2⟩
  | exec a => exact ⟨hk, gap_space _, by decide, array_written h a⟩

theorem expr_bare {k : ExecKind} {i : ExecInstruction} (he : WritableExpr i.expr) (p : Nat) :
    ((writtenExpr k i.expr).instr p).map (·.remap zero) = some (k.instr (i.remap zero)) := by
  obtain ⟨sp, e⟩ := i
  cases e with
  | shell b =>
    have := shell_bare he.1.1 (p + blen k.word + blen [' '])
    cases k <;>
    simp only [writtenExpr, Item.instr, Option.map_some, ExecKind.instr, Instruction.remap,
      ExecInstruction.remap, ShellOrExecExpr.remap, BreakableString.remap, Shell.string, this] <;> rfl
  | exec a =>
    have := array_bare a (p + blen k.word + blen [' '])
    cases k <;>
    simp only [writtenExpr, Item.instr, Option.map_some, ExecKind.instr, Instruction.remap,
      ExecInstruction.remap, ShellOrExecExpr.remap, StringArray.remap, this] <;> rfl

theorem notFlag_written (t : Str) : ¬ LooksLikeFlag (quoteAll t) := by
  rintro ⟨n, v, h, -⟩
  have := (List.cons.inj h).1
  revert this; decide

theorem trail_written {α : Type} {l : List α} [Decidable (l = [])] :
    Blanks (if l = [] then [' '] else []) ∧ (l ≠ [] ∨ (if l = [] then [' '] else []) ≠ []) := by
  by_cases h : l = []
  · rw [if_pos h]; exact ⟨blanks_space, .inr (by simp)⟩
  · rw [if_neg h]; exact ⟨.nil, .inl h⟩

theorem item_written {unq : Unquote} (h : UndoesEscapes unq) {i : Instruction} (hi : Writable i) :
    (itemOf i).OK unq := by
  cases i with
  | «from» i =>
    obtain ⟨h1, h2, h3, h4, h5⟩ := hi
    refine ⟨by decide, ?_, gap_space _, h2.1, h2.2, h3 ▸ h4, ?_⟩
    · intro f hf
      obtain ⟨x, hx, rfl⟩ := List.mem_map.1 hf
      exact flag_written h (h1 x hx)
    · intro a ha
      cases hal : i.alias with
      | none => rw [hal] at ha; cases ha
      | some b =>
        rw [hal] at ha
        cases ha
        exact ⟨gap_space _, rfl, gap_space _, (h5 b hal).1, (h5 b hal).2⟩
  | arg i =>
    refine ⟨by decide, gap_space _, hi, ?_⟩
    intro x hx
    cases hv : i.value with
    | none => rw [hv] at hx; cases hx
    | some v =>
      rw [hv] at hx
      cases hx
      exact ⟨.inl (quoteAll_quoted _), reads_all h _⟩
  | label i =>
    have ht := trail_written (l := i.labels)
    refine ⟨by decide, ?_, ht.1, ?_⟩
    · intro f hf
      obtain ⟨x, hx, rfl⟩ := List.mem_map.1 hf
      exact label_written h x
    · exact ht.2.imp (fun h => by simpa using h) id
  | run i => exact expr_written h hi
  | cmd i => exact expr_written h hi
  | entrypoint i => exact expr_written h hi
  | copy i =>
    refine ⟨by decide, ?_, by simpa using hi.2, ?_, field_written h _, ?_⟩
    · intro f hf
      obtain ⟨x, hx, rfl⟩ := List.mem_map.1 hf
      exact flag_written h (hi.1 x hx)
    · intro f hf
      obtain ⟨x, hx, rfl⟩ := List.mem_map.1 hf
      exact field_written h x
    · intro f r e
      have : f ∈ i.sources.map writtenField := by rw [e]; simp
      obtain ⟨x, -, rfl⟩ := List.mem_map.1 this
      exact notFlag_written _
  | env i =>
    obtain ⟨h1, h2⟩ := hi
    have pairs : ∀ (t : Str), Blanks t → (i.vars ≠ [] ∨ t ≠ []) →
        (Item.env c!"ENV" (i.vars.map writtenVar) t).OK unq := by
      intro t ht ht'
      refine ⟨by decide, ?_, ht, ht'.imp (fun h => by simpa using h) id⟩
      intro f hf
      obtain ⟨x, hx, rfl⟩ := List.mem_map.1 hf
      exact var_written h (h1 x hx)
    simp only [itemOf]
    by_cases hp : ∀ v ∈ i.vars, (oneValue v.value.components).isSome
    · rw [if_pos hp]
      exact pairs _ trail_written.1 trail_written.2
    · rw [if_neg hp]
      rcases h2 with h2 | ⟨v, hv, h2, h3⟩
      · exact absurd (fun v hv => by obtain ⟨t, ht⟩ := h2 v hv; rw [ht]; rfl) hp
      · rw [hv] at h1 ⊢
        have hk := h1 v (by simp)
        have h4 := argument_starts h2
        exact ⟨by decide, gap_space _, hk.1, hk.2, gap_space _, lines_written h2.1, h4.1, h4.2, h3⟩
  | misc i => exact ⟨hi.1.1, hi.1.2, hi.2.1, lines_written hi.2.2.1, hi.2.2.2⟩

/-- without the number of the stage -/
def unnumbered : Instruction → Instruction
  | .from i => .from { i with index := 0 }
  | i => i

theorem item_bare {i : Instruction} (hi : Writable i) (p : Nat) :
    ((itemOf i).instr p).map (·.remap zero) = some ((unnumbered i).remap zero) := by
  cases i with
  | «from» i =>
    obtain ⟨h1, h2, h3, h4, h5⟩ := hi
    simp only [itemOf, Item.instr, Option.map_some, unnumbered, Instruction.remap, FromInstruction.remap,
      flags_bare, h3]
    cases i.alias <;> rfl
  | arg i =>
    simp only [itemOf, Item.instr, Option.map_some, unnumbered, Instruction.remap, ArgInstruction.remap]
    cases i.value <;> rfl
  | label i =>
    simp only [itemOf, Item.instr, Option.map_some, unnumbered, Instruction.remap, LabelInstruction.remap,
      labels_bare]
    rfl
  | run i => exact expr_bare (k := .run) hi p
  | cmd i => exact expr_bare (k := .cmd) hi p
  | entrypoint i => exact expr_bare (k := .entrypoint) hi p
  | copy i =>
    simp only [itemOf, Item.instr, Option.map_some, unnumbered, Instruction.remap, CopyInstruction.remap,
      flags_bare, fields_bare]
    rfl
  | env i =>
    obtain ⟨h1, h2⟩ := hi
    simp only [itemOf]
    by_cases hp : ∀ v ∈ i.vars, (oneValue v.value.components).isSome
    · rw [if_pos hp]
      have := vars_bare i.vars fun v hv => Option.isSome_iff_exists.1 (hp v hv)
      simp only [Item.instr, Option.map_some, unnumbered, Instruction.remap, EnvInstruction.remap, this]
      rfl
    · rw [if_neg hp]
      rcases h2 with h2 | ⟨v, hv, h2, h3⟩
      · exact absurd (fun v hv => by obtain ⟨t, ht⟩ := h2 v hv; rw [ht]; rfl) hp
      · simp only [hv, Item.instr, Option.map_some, unnumbered, Instruction.remap, EnvInstruction.remap,
          List.map_cons, List.map_nil, EnvVar.remap, Shell.string, BreakableString.remap, shell_bare h2.1]
        rfl
  | misc i =>
    simp only [itemOf, Item.instr, Option.map_some, unnumbered, Instruction.remap, MiscInstruction.remap,
      Shell.string, BreakableString.remap, shell_bare hi.2.2.1]
    rfl

/-! ## documents -/

theorem numberStages_unnumbered (is : List Instruction) : ∀ n,
    numberStages n (is.map unnumbered) = numberStages n is := by
  induction is with
  | nil => intro n; rfl
  | cons i is ih => intro n; cases i <;> simp [unnumbered, numberStages, ih]

theorem globalArgs_unnumbered (is : List Instruction) : globalArgs (is.map unnumbered) = globalArgs is := by
  induction is with
  | nil => rfl
  | cons i is ih => cases i <;> simp [unnumbered, globalArgs, ih]

theorem bare_of {s t : Str} {is js : List Instruction}
    (h : js.map (·.remap zero) = is.map fun i => (unnumbered i).remap zero) :
    (documentOf s js).bare = (documentOf t is).bare := by
  have e : js.map (·.remap zero) = (is.map unnumbered).map (·.remap zero) := by
    rw [h, List.map_map]; rfl
  have h1 := Src.globalArgs_remap zero js
  have h2 := Src.numberStages_remap zero js 0
  rw [e, Src.globalArgs_remap, globalArgs_unnumbered] at h1
  rw [e, Src.numberStages_remap, numberStages_unnumbered] at h2
  show Dockerfile.mk _ _ _ = Dockerfile.mk _ _ _
  exact congr (congrArg (Dockerfile.mk []) h1.symm) h2.symm

def lineOf (i : Instruction) : LineText := ⟨[], itemOf i, []⟩

def linesOf (is : List Instruction) : List (Str × LineText) := is.map fun i => (['\n'], lineOf i)

theorem writeDoc_text (is : List Instruction) : ∀ i, writeDoc (i :: is) = docText (lineOf i) (linesOf is) := by
  induction is with
  | nil => intro i; simp [writeDoc, linesOf, docText, lineOf, LineText.text]
  | cons j is ih =>
    intro i
    have := ih j
    simp only [writeDoc, linesOf, List.map_cons, docText, lineOf, LineText.text, List.append_nil,
      List.nil_append, List.cons_append] at this ⊢
    rw [this]

theorem lineOf_ok {unq : Unquote} (h : UndoesEscapes unq) {i : Instruction} (hi : Writable i) :
    (lineOf i).OK unq := ⟨.nil, item_written h hi, .nil, fun _ => rfl⟩

theorem writeDoc_ok {unq : Unquote} (h : UndoesEscapes unq) (is : List Instruction) : ∀ i, Writable i →
    (∀ j ∈ is, Writable j) → DocOK unq (lineOf i) (linesOf is) := by
  induction is with
  | nil => intro i hi _; exact lineOf_ok h hi
  | cons j is ih =>
    intro i hi hs
    exact ⟨lineOf_ok h hi, .inl rfl, ih j (hs j (by simp)) fun x hx => hs x (by simp [hx])⟩

theorem line_bare {i : Instruction} (hi : Writable i) (p : Nat) :
    ((lineOf i).instrs p).map (·.remap zero) = [(unnumbered i).remap zero] := by
  have := item_bare hi (p + blen [])
  simp only [lineOf, LineText.instrs]
  cases h : (itemOf i).instr (p + blen []) with
  | none => rw [h] at this; cases this
  | some j => rw [h] at this; simp only [Option.map_some, Option.some.injEq] at this; simp [this]

theorem writeDoc_bare (is : List Instruction) : ∀ i, Writable i → (∀ j ∈ is, Writable j) → ∀ p,
    (docInstrs p (lineOf i) (linesOf is)).map (·.remap zero) =
      (i :: is).map fun i => (unnumbered i).remap zero := by
  induction is with
  | nil => intro i hi _ p; simp only [linesOf, List.map_nil, docInstrs, line_bare hi]; rfl
  | cons j is ih =>
    intro i hi hs p
    have := ih j (hs j (by simp)) (fun x hx => hs x (by simp [hx]))
    simp only [linesOf, List.map_cons, docInstrs, List.map_append, line_bare hi] at this ⊢
    rw [this]
    rfl

/-- What is written is read. -/
theorem parse_writeDoc {unq : Unquote} (h : UndoesEscapes unq) {is : List Instruction}
    (hs : ∀ i ∈ is, Writable i) :
    ∃ d, Dockerfile.parse unq (writeDoc is) = .ok d ∧ d.content = writeDoc is ∧
      d.bare = (documentOf [] is).bare := by
  cases is with
  | nil =>
    have := parse_docText (unq := unq) (l := ⟨[], .blank, []⟩) (ms := []) ⟨.nil, trivial, .nil, fun _ => rfl⟩
    exact ⟨_, this, rfl, rfl⟩
  | cons i is =>
    have h1 := hs i (by simp)
    have h2 : ∀ j ∈ is, Writable j := fun j hj => hs j (by simp [hj])
    refine ⟨_, ?_, rfl, bare_of (writeDoc_bare is i h1 h2 0)⟩
    rw [writeDoc_text]
    exact parse_docText (writeDoc_ok h is i h1 h2)

end Verif
