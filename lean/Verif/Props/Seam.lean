import Verif.Proof.SeamDoc
import Verif.Props.Split

/-! # Blank lines and comment lines between instructions (C96) -/

namespace Verif
open Spec

theorem Instruction.shift_remap (k : Nat) (i : Instruction) : i.shift k = i.remap (· + k) := by
  have hc : BreakableStringComponent.shift k = BreakableStringComponent.remap (· + k) := by
    funext c; cases c <;> rfl
  have hb : ∀ b : BreakableString, b.shift k = b.remap (· + k) := fun b => by
    simp only [BreakableString.shift, BreakableString.remap, hc]; rfl
  have hx : ∀ x : ShellOrExecExpr, x.shift k = x.remap (· + k) := fun x => by
    cases x with
    | shell s => exact congrArg ShellOrExecExpr.shell (hb s)
    | exec a => rfl
  have he : EnvVar.shift k = EnvVar.remap (· + k) := by
    funext v; simp only [EnvVar.shift, EnvVar.remap, hb]; rfl
  cases i with
  | run i => simp only [Instruction.shift, Instruction.remap, ExecInstruction.shift, ExecInstruction.remap, hx]; rfl
  | cmd i => simp only [Instruction.shift, Instruction.remap, ExecInstruction.shift, ExecInstruction.remap, hx]; rfl
  | entrypoint i => simp only [Instruction.shift, Instruction.remap, ExecInstruction.shift, ExecInstruction.remap, hx]; rfl
  | env i => simp only [Instruction.shift, Instruction.remap, EnvInstruction.shift, EnvInstruction.remap, he]; rfl
  | misc i => simp only [Instruction.shift, Instruction.remap, MiscInstruction.shift, MiscInstruction.remap, hb]; rfl
  | _ => rfl

section
variable {f g : Nat → Nat}

theorem omap_congr {α β : Type} {r r' : α → β} {o : Option α} (h : ∀ x ∈ o.toList, r x = r' x) : o.map r = o.map r' := by
  cases o with
  | none => rfl
  | some x => exact congrArg some (h x (by simp))

/-- moving depends on the positions in the spans only -/
theorem Instruction.remap_congr (i : Instruction) (h : ∀ s ∈ spansOf i, s.remap f = s.remap g) : i.remap f = i.remap g := by
  have str : ∀ {x : SpannedString}, x.span.remap f = x.span.remap g → x.remap f = x.remap g := fun {x} h => by
    simp only [SpannedString.remap, h]
  have flag : ∀ {x : Flag}, (∀ s ∈ flagSpans x, s.remap f = s.remap g) → x.remap f = x.remap g := fun {x} h => by
    simp only [Flag.remap, h x.span (by simp [flagSpans]), str (h x.name.span (by simp [flagSpans])),
      str (h x.value.span (by simp [flagSpans]))]
  have brk : ∀ {x : BreakableString}, (∀ s ∈ breakableSpans x, s.remap f = s.remap g) → x.remap f = x.remap g := fun {x} h => by
    simp only [BreakableString.remap, h x.span (by simp [breakableSpans])]
    congr 1
    refine List.map_congr_left fun c hc => ?_
    have := h (componentSpan c) (by simp only [breakableSpans, List.mem_cons, List.mem_map]; exact .inr ⟨c, hc, rfl⟩)
    cases c with
    | string s => exact congrArg _ (str this)
    | comment s => simp only [BreakableStringComponent.remap, SpannedComment.remap]; simp only [componentSpan] at this; rw [this]
  have expr : ∀ {x : ShellOrExecExpr}, (∀ s ∈ exprSpans x, s.remap f = s.remap g) → x.remap f = x.remap g := fun {x} h => by
    cases x with
    | shell b => exact congrArg _ (brk h)
    | exec a =>
      simp only [ShellOrExecExpr.remap, StringArray.remap, h a.span (by simp [exprSpans])]
      congr 2
      exact List.map_congr_left fun c hc => str (h _ (by simp only [exprSpans, List.mem_cons, List.mem_map]; exact .inr ⟨c, hc, rfl⟩))
  have h0 := h i.span (by simp [spansOf])
  have h : ∀ s ∈ fieldSpans i, s.remap f = s.remap g := fun s hs => h s (by simp [spansOf, hs])
  cases i with
  | «from» i =>
    simp only [Instruction.remap, FromInstruction.remap]
    rw [show i.span.remap f = i.span.remap g from h0, List.map_congr_left (g := Flag.remap g), str (x := i.image), omap_congr (r' := SpannedString.remap g)]
    · intro x hx; exact str (h _ (by simp only [fieldSpans, List.mem_append, List.mem_cons]; right; right; simpa using ⟨x, by simpa using hx, rfl⟩))
    · exact h _ (by simp [fieldSpans])
    · intro x hx; exact flag fun s hs => h s (by simp only [fieldSpans, List.mem_append, List.mem_flatMap]; exact .inl ⟨x, hx, hs⟩)
  | arg i =>
    simp only [Instruction.remap, ArgInstruction.remap]
    rw [show i.span.remap f = i.span.remap g from h0, str (x := i.name), omap_congr (r' := SpannedString.remap g)]
    · intro x hx; exact str (h _ (by simp only [fieldSpans, List.mem_cons]; right; simpa using ⟨x, by simpa using hx, rfl⟩))
    · exact h _ (by simp [fieldSpans])
  | label i =>
    simp only [Instruction.remap, LabelInstruction.remap]
    rw [show i.span.remap f = i.span.remap g from h0, List.map_congr_left (g := Label.remap g)]
    intro x hx
    have hx : ∀ s ∈ [x.span, x.name.span, x.value.span], s.remap f = s.remap g := fun s hs =>
      h s (by simp only [fieldSpans, List.mem_flatMap]; exact ⟨x, hx, hs⟩)
    simp only [Label.remap, hx x.span (by simp), str (hx x.name.span (by simp)), str (hx x.value.span (by simp))]
  | run i => simp only [Instruction.remap, ExecInstruction.remap]; rw [show i.span.remap f = i.span.remap g from h0, expr h]
  | cmd i => simp only [Instruction.remap, ExecInstruction.remap]; rw [show i.span.remap f = i.span.remap g from h0, expr h]
  | entrypoint i => simp only [Instruction.remap, ExecInstruction.remap]; rw [show i.span.remap f = i.span.remap g from h0, expr h]
  | copy i =>
    simp only [Instruction.remap, CopyInstruction.remap]
    rw [show i.span.remap f = i.span.remap g from h0, List.map_congr_left (g := Flag.remap g), List.map_congr_left (g := SpannedString.remap g),
      str (x := i.destination)]
    · exact h _ (by simp [fieldSpans])
    · intro x hx; exact str (h _ (by simp only [fieldSpans, List.mem_append, List.mem_map]; exact .inr (.inl ⟨x, hx, rfl⟩)))
    · intro x hx; exact flag fun s hs => h s (by simp only [fieldSpans, List.mem_append, List.mem_flatMap]; exact .inl ⟨x, hx, hs⟩)
  | env i =>
    simp only [Instruction.remap, EnvInstruction.remap]
    rw [show i.span.remap f = i.span.remap g from h0, List.map_congr_left (g := EnvVar.remap g)]
    intro x hx
    have hx : ∀ s ∈ x.span :: x.key.span :: breakableSpans x.value, s.remap f = s.remap g := fun s hs =>
      h s (by simp only [fieldSpans, List.mem_flatMap]; exact ⟨x, hx, hs⟩)
    simp only [EnvVar.remap, hx x.span (by simp), str (hx x.key.span (by simp)), brk (x := x.value) fun s hs => hx s (by simp [hs])]
  | misc i =>
    simp only [Instruction.remap, MiscInstruction.remap]
    rw [show i.span.remap f = i.span.remap g from h0, str (x := i.instruction), brk (x := i.arguments)]
    · exact fun s hs => h s (by simp [fieldSpans, hs])
    · exact h _ (by simp [fieldSpans])

end

/-- what lies behind a position is moved alike -/
theorem remap_from {unq : Unquote} {s : Str} {d : Dockerfile} (h : Dockerfile.parse unq s = .ok d) {i : Instruction}
    (hi : i ∈ d.instructions) {f g : Nat → Nat} (hfg : ∀ q, i.span.start ≤ q → f q = g q) : i.remap f = i.remap g := by
  refine i.remap_congr fun sp hs => ?_
  have h1 := C06_fields_within unq s d h i hi sp hs
  have h2 := C04_span_bounds unq s d h i hi sp hs
  have h3 := h1.1
  simp only [Span.remap, hfg _ h3, hfg sp.stop (by omega)]

/-- lines in front of a text that they fit to -/
theorem join_pre {unq : Unquote} {ps : List (Src.Line × Str)} {z : Str} {js : List Instruction} (hp : Src.PreFits ps z)
    (he : Src.evalPre unq 0 ps = .ok js) :
    Dockerfile.parse unq (Src.preText ps ++ z) = (Dockerfile.parse unq z).map fun d =>
      documentOf (Src.preText ps ++ z) (js ++ d.instructions.map (·.remap (· + blen (Src.preText ps)))) := by
  by_cases hz : ∃ p, docToks p z ≠ none
  · obtain ⟨p, hz⟩ := hz
    obtain ⟨l2, ms2, rfl, hf2⟩ := Src.doc_inv hz
    obtain ⟨l', ms', g1, g2, g3⟩ := Src.pre_glue (unq := unq) hf2 ps 0 hp
    have := Src.parse_fits (unq := unq) g2
    rw [g1] at this
    rw [this, g3, he, Src.parse_fits hf2, Nat.zero_add,
      Src.doc_move (m := (· + blen (Src.preText ps))) ms2 l2 0 _ (by intro k _; simp only []; omega)]
    simp only [ok_bind]
    cases Src.evalDoc unq 0 l2 ms2 with
    | error e => rfl
    | ok js =>
      refine congrArg Except.ok ?_
      simp only [documentOf, ← Src.numberStages_remap, numberStages_app_right, globalArgs_app_right]
  · have hz : ∀ p, docToks p z = none := fun p => Classical.byContradiction fun h => hz ⟨p, h⟩
    have := Src.pre_none hz ps 0 hp
    rw [parse_docToks, this, parse_docToks, hz]
    rfl

/-- C96: Blank lines and comment lines between instructions can be exchanged for others.  The document is
`a ++ (p ++ z)`; `a` is empty or ends with a line break that is not part of an instruction.  Neither `p` nor
`p'` has quotes.  Then the instructions of the new text are those of the old one; those behind the exchanged
lines have moved. -/
theorem C96_exchange {unq : Unquote} {a p p' z : Str} {d : Dockerfile}
    (h : Dockerfile.parse unq (a ++ (p ++ z)) = .ok d) (hs : Apart d (blen a))
    (ha : LineStart a (p ++ z)) (ha' : LineStart a (p' ++ z)) (hp : IdleLines p z) (hp' : IdleLines p' z)
    (hq : Unquoted p) (hq' : Unquoted p') :
    ∃ pre post, d.instructions = pre ++ post ∧ (∀ i ∈ pre, i.span.stop < blen a) ∧
      (∀ i ∈ post, blen (a ++ p) ≤ i.span.start) ∧
      Dockerfile.parse unq (a ++ (p' ++ z)) = .ok (documentOf (a ++ (p' ++ z))
        (pre ++ post.map (·.remap fun q => q - blen (a ++ p) + blen (a ++ p')))) := by
  obtain ⟨d1, d2, p1, p2, b1, -⟩ := C71_split h ha hs
  -- the lines of `a`
  obtain ⟨ps, js, rfl, hf, he⟩ : ∃ ps js, Src.preText ps = a ∧ Src.PreFits ps (p ++ z) ∧ Src.evalPre unq 0 ps = .ok js := by
    by_cases hne : a = []
    · subst hne; exact ⟨[], [], rfl, trivial, rfl⟩
    obtain ⟨l, ms, is, hf, e, he, rfl⟩ := C51_accepted.1 h
    have hb : Src.BreakEnd a := by
      rcases ha with ha | ⟨s, n, rfl, hn⟩
      · exact absurd ha hne
      · exact (Src.break_end hn).pre _
    obtain ⟨ps, l', ms', js, ks, g1, -, g3, -, -, g6, -⟩ := Src.doc_split ms l 0 is a (p ++ z) hf he e hb
      (lineStart_noCR ha) (by rw [Nat.zero_add]; exact numbered_apart hs)
    exact ⟨ps, js, g1, g3, g6⟩
  have hseam : Src.preText ps = [] ∨ Src.Seam (Src.preText ps) (p ++ z) (p' ++ z) :=
    (Src.preText_end hf).imp id fun hb => ⟨hb, lineStart_noCR ha, lineStart_noCR ha'⟩
  have hf' := Src.pre_seam (Src.idle_swap hp hp') (Src.mild_end hq (Src.idle_end hp)) (Src.mild_end hq' (Src.idle_end hp')) ps
    (fun e => by cases e) hf hseam
  have j := join_pre hf he
  have j' := join_pre hf' he
  rw [h, C89_directives hp] at j
  rw [C89_directives hp'] at j'
  cases hz : Dockerfile.parse unq z with
  | error e => rw [hz] at j; cases j
  | ok dz =>
    rw [hz] at j j'
    cases j
    -- the instructions of `a`
    have hd1 : d1.instructions = numberStages 0 js := by
      obtain ⟨m, ms1, k1, k2, k3⟩ := Src.pre_doc (unq := unq) ps (Src.pre_less ps hf) 0
      have := Src.parse_fits (unq := unq) k2
      rw [k1, k3, he] at this
      cases p1.symm.trans this
      rfl
    have hK : ∀ q : Str, ((prefixed q dz).instructions.map (·.remap (· + blen (Src.preText ps)))) =
        dz.instructions.map (·.remap (· + blen (Src.preText ps ++ q))) := by
      intro q
      simp only [prefixed, List.map_map]
      refine List.map_congr_left fun x _ => ?_
      simp only [Function.comp_def, Instruction.shift_remap, Instruction.remap_remap]
      congr 1
      funext k
      simp only [blen_append]
      omega
    obtain ⟨m, em⟩ := numbered_before (js := js) (ks := dz.instructions.map (·.remap (· + blen (Src.preText ps ++ p)))) 0
    refine ⟨numberStages 0 js, numberStages m (dz.instructions.map (·.remap (· + blen (Src.preText ps ++ p)))), ?_, ?_, ?_, ?_⟩
    · rw [← em, ← hK]; rfl
    · rw [← hd1]; exact b1
    · intro i hi
      obtain ⟨x, hx, e⟩ := of_numbered hi
      obtain ⟨y, -, rfl⟩ := List.mem_map.1 hx
      rw [← e, Instruction.remap_span]
      exact Nat.le_add_left _ _
    · have hn : (numberStages m (dz.instructions.map (·.remap (· + blen (Src.preText ps ++ p))))).map
          (·.remap fun q => q - blen (Src.preText ps ++ p) + blen (Src.preText ps ++ p')) =
          numberStages m (dz.instructions.map (·.remap (· + blen (Src.preText ps ++ p')))) := by
        rw [← Src.numberStages_remap, List.map_map]
        congr 1
        refine List.map_congr_left fun x _ => ?_
        simp only [Function.comp_def, Instruction.remap_remap]
        congr 1
        funext q
        omega
      rw [j', hn]
      refine congrArg Except.ok ?_
      show documentOf _ (js ++ (prefixed p' dz).instructions.map (·.remap (· + blen (Src.preText ps)))) = _
      rw [hK]
      simp only [documentOf, numberStages_app_left, numberStages_app_right, globalArgs_app_left, globalArgs_app_right]

/-- stages that are numbered keep their numbers -/
theorem numbered_moved {pre post : List Instruction} {f : Nat → Nat} (h : numberStages 0 (pre ++ post) = pre ++ post) :
    numberStages 0 (pre ++ post.map (·.remap f)) = pre ++ post.map (·.remap f) := by
  have main : ∀ (pre : List Instruction) (n : Nat), numberStages n (pre ++ post) = pre ++ post →
      numberStages n (pre ++ post.map (·.remap f)) = pre ++ post.map (·.remap f) := by
    intro pre
    induction pre with
    | nil =>
      intro n h
      have h : numberStages n post = post := h
      show numberStages n (post.map (·.remap f)) = post.map (·.remap f)
      rw [Src.numberStages_remap, h]
    | cons i pre ih =>
      intro n h
      cases i <;>
        (obtain ⟨h1, h2⟩ := List.cons.inj h
         have := congr (congrArg List.cons h1) (ih _ h2); exact this)
  exact main pre 0 h

/-- C96: the same for the instructions of the new document: stages keep their numbers. -/
theorem C96_instructions {unq : Unquote} {a p p' z : Str} {d : Dockerfile}
    (h : Dockerfile.parse unq (a ++ (p ++ z)) = .ok d) (hs : Apart d (blen a))
    (ha : LineStart a (p ++ z)) (ha' : LineStart a (p' ++ z)) (hp : IdleLines p z) (hp' : IdleLines p' z)
    (hq : Unquoted p) (hq' : Unquoted p') :
    ∃ pre post d', d.instructions = pre ++ post ∧ (∀ i ∈ pre, i.span.stop < blen a) ∧
      (∀ i ∈ post, blen (a ++ p) ≤ i.span.start) ∧ Dockerfile.parse unq (a ++ (p' ++ z)) = .ok d' ∧
      d'.instructions = pre ++ post.map (·.remap fun q => q - blen (a ++ p) + blen (a ++ p')) := by
  obtain ⟨pre, post, e, h1, h2, h3⟩ := C96_exchange h hs ha ha' hp hp' hq hq'
  refine ⟨pre, post, _, e, h1, h2, h3, ?_⟩
  have hn : numberStages 0 d.instructions = d.instructions := congrArg Dockerfile.instructions (documentOf_same h)
  rw [e] at hn
  exact numbered_moved hn

/-- C96: Blank lines and comment lines without quotes are put in between two instructions: nothing changes but
the positions of the instructions behind them. -/
theorem C96_insert {unq : Unquote} {a p z : Str} {d : Dockerfile} (h : Dockerfile.parse unq (a ++ z) = .ok d)
    (hs : Apart d (blen a)) (ha : LineStart a z) (ha' : LineStart a (p ++ z)) (hp : IdleLines p z) (hq : Unquoted p) :
    ∃ pre post d', d.instructions = pre ++ post ∧ (∀ i ∈ pre, i.span.stop < blen a) ∧
      (∀ i ∈ post, blen a ≤ i.span.start) ∧ Dockerfile.parse unq (a ++ (p ++ z)) = .ok d' ∧
      d'.instructions = pre ++ post.map (·.remap (· + blen p)) := by
  obtain ⟨pre, post, d', e, h1, h2, h3, h4⟩ := C96_instructions (p := []) (p' := p) h hs ha ha' .nil hp
    (fun _ h => by cases h) hq
  rw [List.append_nil] at h2 h4
  refine ⟨pre, post, d', e, h1, h2, h3, h4.trans (congrArg (pre ++ ·) (List.map_congr_left fun i hi => ?_))⟩
  have hle : i ∈ d.instructions := by rw [e]; simp [hi]
  have := h2 i hi
  exact remap_from h hle (by intro q hq; simp only [blen_append]; omega)

/-- C96: Blank lines and comment lines without quotes are taken out. -/
theorem C96_delete {unq : Unquote} {a p z : Str} {d : Dockerfile} (h : Dockerfile.parse unq (a ++ (p ++ z)) = .ok d)
    (hs : Apart d (blen a)) (ha : LineStart a (p ++ z)) (ha' : LineStart a z) (hp : IdleLines p z) (hq : Unquoted p) :
    ∃ pre post d', d.instructions = pre ++ post ∧ (∀ i ∈ pre, i.span.stop < blen a) ∧
      (∀ i ∈ post, blen (a ++ p) ≤ i.span.start) ∧ Dockerfile.parse unq (a ++ z) = .ok d' ∧
      d'.instructions = pre ++ post.map (·.remap (· - blen p)) := by
  obtain ⟨pre, post, d', e, h1, h2, h3, h4⟩ := C96_instructions (p := p) (p' := []) h hs ha ha' hp .nil hq
    (fun _ h => by cases h)
  rw [List.append_nil] at h4
  refine ⟨pre, post, d', e, h1, h2, h3, h4.trans (congrArg (pre ++ ·) (List.map_congr_left fun i hi => ?_))⟩
  have hle : i ∈ d.instructions := by rw [e]; simp [hi]
  have := h2 i hi
  exact remap_from h hle (by intro q hq; simp only [blen_append] at *; omega)

/-- C96: Comments are edited without changing their size: nothing changes. -/
theorem C96_edit {unq : Unquote} {a p p' z : Str} {d : Dockerfile}
    (h : Dockerfile.parse unq (a ++ (p ++ z)) = .ok d) (hs : Apart d (blen a))
    (ha : LineStart a (p ++ z)) (ha' : LineStart a (p' ++ z)) (hp : IdleLines p z) (hp' : IdleLines p' z)
    (hq : Unquoted p) (hq' : Unquoted p') (hl : blen p = blen p') :
    Dockerfile.parse unq (a ++ (p' ++ z)) = .ok { d with content := a ++ (p' ++ z) } := by
  obtain ⟨pre, post, e, h1, h2, h3⟩ := C96_exchange h hs ha ha' hp hp' hq hq'
  have hm : post.map (·.remap fun q => q - blen (a ++ p) + blen (a ++ p')) = post := by
    refine (List.map_congr_left fun i hi => ?_).trans (List.map_id post)
    have hle : i ∈ d.instructions := by rw [e]; simp [hi]
    have := h2 i hi
    exact (remap_from h hle (f := fun q => q - blen (a ++ p) + blen (a ++ p')) (g := (· + 0))
      (by intro q hq; simp only [blen_append] at *; omega)).trans (Instruction.remap_same i)
  rw [h3, hm, ← e]
  have := documentOf_same h
  refine congrArg Except.ok ?_
  rw [← this]
  simp only [documentOf, Src.numberStages_twice, Src.globalArgs_numbered]

/-- a document with open quotes and an open bracket -/
def seamDoc : Str := c!"ENV a=\"b\nRUN [c\nCOPY x y\n" ++ c!"FROM d AS e\n"

theorem seamDoc_parses : ∃ d, Dockerfile.parse Enquote.unquote seamDoc = .ok d ∧ Apart d 25 ∧ d.instructions.length = 4 := by
  have h : (match Dockerfile.parse Enquote.unquote seamDoc with
    | .ok d => d.instructions.all (fun i => decide (i.span.stop < 25 ∨ 25 ≤ i.span.start)) && d.instructions.length == 4
    | .error _ => false) = true := by decide +kernel
  split at h
  · rename_i d hd
    have h := Bool.and_eq_true_iff.1 h
    exact ⟨d, hd, fun i hi => by simpa using List.all_eq_true.1 h.1 i hi, by simpa using h.2⟩
  · cases h

/-- a comment with a backslash at the end, a blank line, and a comment with brackets -/
theorem idle_sample (z : Str) : IdleLines c!"# a \\\n\t\n  # [b], c\r\n" z := by
  have h3 : IdleLines c!"  # [b], c\r\n" z :=
    .comment (w := c!"  ") (t := c!"# [b], c") (n := c!"\r\n") (u := []) (by simp [Blanks])
      ⟨c!" [b], c", rfl, by decide +kernel⟩ (.inr (.inl rfl)) .nil
  have h2 : IdleLines c!"\t\n  # [b], c\r\n" z := .blank (w := c!"\t") (n := c!"\n") (by simp [Blanks]) (.inl rfl) h3
  exact .comment (w := []) (t := c!"# a \\") (n := c!"\n") (by simp [Blanks]) ⟨c!" a \\", rfl, by decide +kernel⟩ (.inl rfl) h2

example : ∃ d', Dockerfile.parse Enquote.unquote
    (c!"ENV a=\"b\nRUN [c\nCOPY x y\n" ++ (c!"# a \\\n\t\n  # [b], c\r\n" ++ c!"FROM d AS e\n")) = .ok d' := by
  obtain ⟨d, h, hs, -⟩ := seamDoc_parses
  obtain ⟨-, -, d', -, -, -, h', -⟩ := C96_insert (p := c!"# a \\\n\t\n  # [b], c\r\n") h hs
    (.inr ⟨c!"ENV a=\"b\nRUN [c\nCOPY x y", c!"\n", rfl, .inl rfl⟩)
    (.inr ⟨c!"ENV a=\"b\nRUN [c\nCOPY x y", c!"\n", rfl, .inl rfl⟩) (idle_sample _) (by unfold Unquoted; decide +kernel)
  exact ⟨d', h'⟩

/-- C96: a quote in a comment may close one that is left open before: here the comment becomes a part of the value. -/
theorem C96_quote :
    (Dockerfile.parse Enquote.unquote c!"ENV a=\"b\nFROM c\n").toOption.map (·.instructions.map (·.span)) =
      some [⟨0, 8⟩, ⟨9, 15⟩] ∧
    (Dockerfile.parse Enquote.unquote c!"ENV a=\"b\n# \"\nFROM c\n").toOption.map (·.instructions.map (·.span)) =
      some [⟨0, 12⟩, ⟨13, 19⟩] := by
  decide +kernel

/-- C96: without a comment that has a quote, a shell command may become an array. -/
theorem C96_removed :
    (Dockerfile.parse Enquote.unquote c!"RUN [\"a\n# \"\nb\"]\n").toOption.map (·.instructions.map (·.span)) =
      some [⟨0, 7⟩, ⟨12, 15⟩] ∧
    (Dockerfile.parse Enquote.unquote c!"RUN [\"a\nb\"]\n").toOption.map (·.instructions) =
      some [.run ⟨⟨0, 11⟩, .exec ⟨⟨4, 11⟩, [⟨⟨5, 10⟩, c!"a\nb"⟩]⟩⟩] := by
  decide +kernel

/-- C96: a control character in a comment keeps quotes around it from being a text in quotes. -/
theorem C96_control :
    (Dockerfile.parse Enquote.unquote c!"ENV a \"x\n# \x1F\nB \"\n").toOption.map (·.instructions.map (·.span)) =
      some [⟨0, 8⟩, ⟨13, 16⟩] ∧
    (Dockerfile.parse Enquote.unquote c!"ENV a \"x\nB \"\n").toOption.map (·.instructions.map (·.span)) =
      some [⟨0, 12⟩] := by
  decide +kernel

end Verif
