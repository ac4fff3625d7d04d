import Verif.Props.Seam
import Verif.Proof.EditDoc

/-! # Exchanging the beginning of lines, and commenting out (C97) -/

namespace Verif
open Spec

namespace Src

theorem item_letter {i : Item} {r : Str} (h : i.Fits r) :
    i = .blank ∨ (∃ t, i = .comment t) ∨ ∃ c t, i.text = c :: t ∧ IsAlpha c := by
  have kw : ∀ {kw k : Str}, lower kw = k → k ∈ keywords → ∀ s, ∃ c t, kw ++ s = c :: t ∧ IsAlpha c := by
    intro kw k h hk s
    obtain ⟨h1, h2⟩ := kw_alpha h hk
    cases kw with
    | nil => exact absurd rfl h1
    | cons c t => exact ⟨c, t ++ s, rfl, h2 c (by simp)⟩
  cases i with
  | blank => exact .inl rfl
  | comment t => exact .inr (.inl ⟨t, rfl⟩)
  | misc w a =>
    obtain ⟨h1, h2, -⟩ := h
    cases w with
    | nil => exact absurd rfl h1
    | cons c t => exact .inr (.inr ⟨c, t ++ a.text, rfl, h2 c (by simp)⟩)
  | shell k w g s => exact .inr (.inr (kw h.1 (by cases k <;> decide) _))
  | exec k w g s => exact .inr (.inr (kw h.1 (by cases k <;> decide) _))
  | _ => exact .inr (.inr (kw h.1 (by decide) _))

/-- After skipped lines at the start of an accepted text comes a letter, or nothing. -/
theorem skip_bare {unq : Unquote} {k r : Str} (h : SkipLines k r) : ∀ {d : Dockerfile},
    Dockerfile.parse unq (k ++ r) = .ok d → Bare r := by
  have step : ∀ {l n s : Str} {d : Dockerfile}, (Blanks l ∨ ∃ w t, l = w ++ t ∧ Blanks w ∧ CommentText t) →
      LineBreak n s → Dockerfile.parse unq (l ++ n ++ s) = .ok d → ∃ d', Dockerfile.parse unq s = .ok d' := by
    intro l n s d hl hn hp
    rw [C33_blank_or_comment_line unq l n s hl hn] at hp
    cases hs : Dockerfile.parse unq s with
    | ok d' => exact ⟨d', rfl⟩
    | error e => rw [hs] at hp; cases hp
  induction h with
  | @nil r h =>
    intro d hp
    obtain ⟨l, ms, is, hf, e, -, -⟩ := C51_accepted.1 hp
    have e : docText l ms = r := e
    subst e
    have key : ∀ s : Str, l.Fits s → (s = [] ∨ ∃ n t, s = n ++ t ∧ LineBreak n t) → ¬ Skippable (l.text ++ s) →
        Bare (l.text ++ s) := by
      intro s h1 hs hk
      rcases item_letter h1.2.1 with h2 | ⟨t, h2⟩ | ⟨c, t, h2, hc⟩
      · have ht : l.text = l.indent ++ l.trail := by simp [Line.text, h2, Item.text]
        have hb : Blanks (l.indent ++ l.trail) := fun c hc => (List.mem_append.1 hc).elim (h1.1 c) (h1.2.2 c)
        rw [ht] at hk ⊢
        rcases hs with rfl | ⟨n, t, rfl, hn⟩
        · right; simpa using hb
        · exact absurd ⟨_, _, rfl, hb, .inr ⟨n, t, rfl, hn⟩⟩ hk
      · exfalso
        have h3 := h1.2.1
        rw [h2] at h3
        obtain ⟨⟨b, rfl, -⟩, -⟩ := h3
        exact hk ⟨l.indent, '#' :: (b ++ (l.trail ++ s)), by simp [Line.text, h2, Item.text], h1.1, .inl ⟨_, rfl⟩⟩
      · exact .inl ⟨l.indent, c, t ++ l.trail ++ s, by simp [Line.text, h2], h1.1, hc⟩
    cases ms with
    | nil => simpa [docText] using key [] hf (.inl rfl) (by simpa [docText] using h)
    | cons m ms => exact key _ hf.1 (.inr ⟨_, _, rfl, hf.2.1⟩) h
  | @blank w n l r hw hn _ ih =>
    intro d hp
    obtain ⟨d', h'⟩ := step (s := l ++ r) (.inl hw) hn (by simpa using hp)
    exact ih h'
  | @comment w t n l r hw ht hn _ ih =>
    intro d hp
    obtain ⟨d', h'⟩ := step (s := l ++ r) (.inr ⟨w, t, rfl, hw, ht⟩) hn (by simpa using hp)
    exact ih h'
  | lastComment _ _ => intro d _; exact .inr fun c hc => by cases hc

theorem lines_swap {unq : Unquote} {p p' z : Str} {d d' : Dockerfile} (h : Dockerfile.parse unq (p ++ z) = .ok d)
    (h' : Dockerfile.parse unq (p' ++ z) = .ok d') : Swap true p p' z :=
  ⟨fun hk hr e => absurd ⟨rfl, skip_bare hk (e ▸ h)⟩ hr, fun hk hr e => absurd ⟨rfl, skip_bare hk (e ▸ h')⟩ hr⟩

theorem pre_misc {unq : Unquote} {w : Str} {a : Shell} : ∀ (ps : List (Line × Str)) (p : Nat) (js : List Instruction),
    evalPre unq p ps = .ok js → ∀ x ∈ ps, x.1.item = .misc w a →
    ∃ m, .misc m ∈ js ∧ m.instruction.content = w := by
  intro ps
  induction ps with
  | nil => intro _ _ _ x hx; cases hx
  | cons y ps ih =>
    obtain ⟨l, n⟩ := y
    intro p js he x hx hi
    obtain ⟨o, h1, h2⟩ := bind_some he
    obtain ⟨is, h3, h4⟩ := bind_some h2
    cases h4
    rcases List.mem_cons.1 hx with rfl | hx
    · rw [hi] at h1
      cases h1
      exact ⟨_, List.mem_append_left _ (List.mem_singleton.2 rfl), rfl⟩
    · obtain ⟨m, h5, h6⟩ := ih _ _ h3 x hx hi
      exact ⟨m, by simp [h5], h6⟩

end Src

theorem misc_numbered {m : MiscInstruction} {is : List Instruction} (h : .misc m ∈ is) (n : Nat) : .misc m ∈ numberStages n is := by
  rcases mem_numbered n h with ⟨f, e, -⟩ | h
  · cases e
  · exact h

/-- what comes before is read as before -/
theorem alter_pre {unq : Unquote} {a p p' z : Str} {d d1 d2 : Dockerfile}
    (h : Dockerfile.parse unq (a ++ (p ++ z)) = .ok d) (hs : Apart d (blen a))
    (ha : LineStart a (p ++ z)) (ha' : LineStart a (p' ++ z)) (h' : Dockerfile.parse unq (p' ++ z) = .ok d2)
    (hq : Mild p) (hq' : Mild p')
    (hk : ∀ m, .misc m ∈ d.instructions → m.span.stop < blen a → ¬ IsKeyword m.instruction.content)
    (p1 : Dockerfile.parse unq a = .ok d1) :
    Dockerfile.parse unq (a ++ (p' ++ z)) = .ok (documentOf (a ++ (p' ++ z))
        (d1.instructions ++ d2.instructions.map (·.remap (· + blen a)))) := by
  obtain ⟨d1', d0, p1', p2, b1, e0⟩ := C71_split h ha hs
  cases p1.symm.trans p1'
  obtain ⟨m, em⟩ := numbered_before (js := d1.instructions) (ks := d0.instructions.map (·.remap (· + blen a))) 0
  have n1 : numberStages 0 d1.instructions = d1.instructions := congrArg Dockerfile.instructions (documentOf_same p1)
  rw [n1] at em
  have ed : d.instructions = d1.instructions ++ numberStages m (d0.instructions.map (·.remap (· + blen a))) := by
    rw [e0]; exact em
  -- the lines of `a`
  obtain ⟨ps, js, rfl, hf, he⟩ : ∃ ps js, Src.preText ps = a ∧ Src.PreFits ps (p ++ z) ∧ Src.evalPre unq 0 ps = .ok js := by
    by_cases hne : a = []
    · subst hne; exact ⟨[], [], rfl, trivial, rfl⟩
    obtain ⟨l, ms, is, hf, e, he, rfl⟩ := C51_accepted.1 h
    have hb : Src.BreakEnd a := by
      rcases ha with ha | ⟨s, n, rfl, hn⟩
      · exact absurd ha hne
      · exact (Src.break_end hn).pre _
    obtain ⟨ps, l', ms', js, ks, g1, -, g3, -, -, g6, -⟩ := Src.doc_split ms l 0 is a (p ++ z) hf he e hb
      (lineStart_noCR ha) (by rw [Nat.zero_add]; exact numbered_apart hs)
    exact ⟨ps, js, g1, g3, g6⟩
  have hd1 : d1.instructions = numberStages 0 js := by
    obtain ⟨m, ms1, k1, k2, k3⟩ := Src.pre_doc (unq := unq) ps (Src.pre_less ps hf) 0
    have := Src.parse_fits (unq := unq) k2
    rw [k1, k3, he] at this
    cases p1.symm.trans this
    rfl
  have hseam : Src.preText ps = [] ∨ Src.Seam (Src.preText ps) (p ++ z) (p' ++ z) :=
    (Src.preText_end hf).imp id fun hb => ⟨hb, lineStart_noCR ha, lineStart_noCR ha'⟩
  have hf' := Src.pre_seam (Src.lines_swap p2 h') hq hq' ps (fun _ x hx w a hi => by
    obtain ⟨m, h1, h2⟩ := Src.pre_misc ps 0 js he x hx hi
    have h3 : .misc m ∈ d1.instructions := by rw [hd1]; exact misc_numbered h1 0
    rw [← h2]
    exact hk m (by rw [ed]; simp [h3]) (b1 _ h3)) hf hseam
  rw [join_pre hf' he, h']
  refine congrArg Except.ok ?_
  simp only [hd1, documentOf, numberStages_app_left, globalArgs_app_left]

/-- C97: `a` ends with a line break that is not part of an instruction, and the text `p` after it is exchanged for
`p'`; neither has quotes or ends with a backslash, but they may be anything else: several lines, or a part of a line.
No keyword in `a` is taken for an unknown instruction.  If what is then after `a` is accepted, the whole text
is, and the instructions of `a` are as before. -/
theorem C97_exchange {unq : Unquote} {a p p' z : Str} {d d2 : Dockerfile}
    (h : Dockerfile.parse unq (a ++ (p ++ z)) = .ok d) (hs : Apart d (blen a))
    (ha : LineStart a (p ++ z)) (ha' : LineStart a (p' ++ z)) (h' : Dockerfile.parse unq (p' ++ z) = .ok d2)
    (hq : Mild p) (hq' : Mild p')
    (hk : ∀ m, .misc m ∈ d.instructions → m.span.stop < blen a → ¬ IsKeyword m.instruction.content) :
    ∃ pre post, d.instructions = pre ++ post ∧ (∀ i ∈ pre, i.span.stop < blen a) ∧
      (∀ i ∈ post, blen a ≤ i.span.start) ∧
      Dockerfile.parse unq (a ++ (p' ++ z)) = .ok (documentOf (a ++ (p' ++ z))
        (pre ++ d2.instructions.map (·.remap (· + blen a)))) := by
  obtain ⟨d1, d0, p1, p2, b1, e0⟩ := C71_split h ha hs
  obtain ⟨m, em⟩ := numbered_before (js := d1.instructions) (ks := d0.instructions.map (·.remap (· + blen a))) 0
  have n1 : numberStages 0 d1.instructions = d1.instructions := congrArg Dockerfile.instructions (documentOf_same p1)
  rw [n1] at em
  have ed : d.instructions = d1.instructions ++ numberStages m (d0.instructions.map (·.remap (· + blen a))) := by
    rw [e0]; exact em
  refine ⟨d1.instructions, _, ed, b1, ?_, alter_pre h hs ha ha' h' hq hq' hk p1⟩
  intro i hi
  obtain ⟨x, hx, e⟩ := of_numbered hi
  obtain ⟨y, -, rfl⟩ := List.mem_map.1 hx
  rw [← e, Instruction.remap_span]
  exact Nat.le_add_left _ _

/-- the same for whole lines -/
theorem alter_lines {unq : Unquote} {a t t' b p p' z : Str} {d : Dockerfile} {xs : List Instruction}
    (e1 : t ++ b = p ++ z) (e1' : t' ++ b = p' ++ z)
    (h : Dockerfile.parse unq (a ++ (t ++ b)) = .ok d)
    (ha : LineStart a (t ++ b)) (hs : Apart d (blen a)) (hb : LineStart (a ++ t) b) (hs' : Apart d (blen (a ++ t)))
    (ha' : LineStart a (t' ++ b)) (hq : Mild p) (hq' : Mild p')
    (hk : ∀ m, .misc m ∈ d.instructions → m.span.stop < blen a → ¬ IsKeyword m.instruction.content)
    (h' : ∀ d3, Dockerfile.parse unq b = .ok d3 → Dockerfile.parse unq (t' ++ b) = .ok (documentOf (t' ++ b)
      (xs ++ d3.instructions.map (·.remap (· + blen t'))))) :
    ∃ pre mid post, d.instructions = pre ++ (mid ++ post) ∧ (∀ i ∈ pre, i.span.stop < blen a) ∧
      (∀ i ∈ mid, blen a ≤ i.span.start ∧ i.span.stop < blen (a ++ t)) ∧
      (∀ i ∈ post, blen (a ++ t) ≤ i.span.start) ∧
      Dockerfile.parse unq (a ++ (t' ++ b)) = .ok (documentOf (a ++ (t' ++ b))
        (pre ++ (xs.map (·.remap (· + blen a)) ++
          post.map (·.remap fun q => q - blen (a ++ t) + blen (a ++ t'))))) := by
  have h0 := h
  rw [← List.append_assoc] at h
  obtain ⟨d12, d3, p12, p3, b12, rfl⟩ := C71_split h hb hs'
  obtain ⟨m2, e2⟩ := numbered_before (js := d12.instructions)
    (ks := d3.instructions.map (·.remap (· + blen (a ++ t)))) 0
  have n12 : numberStages 0 d12.instructions = d12.instructions :=
    congrArg Dockerfile.instructions (documentOf_same p12)
  rw [n12] at e2
  have e2 : (documentOf (a ++ t ++ b) (d12.instructions ++ d3.instructions.map (·.remap (· + blen (a ++ t))))).instructions =
    _ := e2
  have ha1 : LineStart a t := ha.imp id fun ⟨s, n, h1, h2⟩ => ⟨s, n, h1, h2.cut⟩
  obtain ⟨d1, d2, p1, p2, b1, e12⟩ := C71_split p12 ha1 (fun i hi => hs i (by rw [e2]; simp [hi]))
  obtain ⟨m1, e3⟩ := numbered_before (js := d1.instructions) (ks := d2.instructions.map (·.remap (· + blen a))) 0
  have n1 : numberStages 0 d1.instructions = d1.instructions := congrArg Dockerfile.instructions (documentOf_same p1)
  rw [n1] at e3
  have e12 : d12.instructions = _ := (congrArg Dockerfile.instructions e12).trans e3
  refine ⟨d1.instructions, numberStages m1 (d2.instructions.map (·.remap (· + blen a))),
    numberStages m2 (d3.instructions.map (·.remap (· + blen (a ++ t)))),
    by rw [e2, e12, List.append_assoc], b1, ?_, ?_, ?_⟩
  · intro i hi
    refine ⟨?_, b12 i (by rw [e12]; simp [hi])⟩
    obtain ⟨x, hx, e⟩ := of_numbered hi
    obtain ⟨y, -, rfl⟩ := List.mem_map.1 hx
    rw [← e, Instruction.remap_span]
    exact Nat.le_add_left _ _
  · intro i hi
    obtain ⟨x, hx, e⟩ := of_numbered hi
    obtain ⟨y, -, rfl⟩ := List.mem_map.1 hx
    rw [← e, Instruction.remap_span]
    exact Nat.le_add_left _ _
  · have j := alter_pre (by rw [← e1]; exact h0) hs (by rw [← e1]; exact ha) (by rw [← e1']; exact ha')
      (by rw [← e1']; exact h' d3 p3) hq hq' hk p1
    rw [← e1'] at j
    rw [j]
    refine congrArg Except.ok ?_
    have hr : (d3.instructions.map (·.remap (· + blen (a ++ t)))).map
        (·.remap fun q => q - blen (a ++ t) + blen (a ++ t')) =
        (d3.instructions.map (·.remap (· + blen t'))).map (·.remap (· + blen a)) := by
      rw [List.map_map, List.map_map]
      refine List.map_congr_left fun x _ => ?_
      simp only [Function.comp_def, Instruction.remap_remap]
      congr 1
      funext q
      simp only [blen_append]
      omega
    have hn : (numberStages m2 (d3.instructions.map (·.remap (· + blen (a ++ t))))).map
        (·.remap fun q => q - blen (a ++ t) + blen (a ++ t')) =
        numberStages m2 ((d3.instructions.map (·.remap (· + blen t'))).map (·.remap (· + blen a))) := by
      rw [← Src.numberStages_remap, hr]
    rw [hn, ← List.append_assoc]
    simp only [documentOf, ← Src.numberStages_remap, numberStages_app_right, globalArgs_app_right, List.map_append,
      List.append_assoc]
    rw [← List.append_assoc d1.instructions, ← List.append_assoc d1.instructions, numberStages_app_right,
      globalArgs_app_right]

theorem lineStart_char {a z z' : Str} (h : LineStart a z) (hz : ∀ t, z' ≠ '\n' :: t) : LineStart a z' := by
  refine h.imp id fun ⟨s, n, h1, h2⟩ => ⟨s, n, h1, ?_⟩
  rcases h2 with rfl | rfl | ⟨rfl, -⟩
  · exact .inl rfl
  · exact .inr (.inl rfl)
  · exact .inr (.inr ⟨rfl, hz⟩)

/-- C97: A line is commented out by a `#` in front of it (whatever stands in the line: quotes, brackets, a keyword).
Its instruction is gone, those before are as they were, those behind have moved by one byte. -/
theorem C97_comment {unq : Unquote} {a t n b : Str} {d : Dockerfile}
    (h : Dockerfile.parse unq (a ++ (t ++ n ++ b)) = .ok d) (ht : ∀ c ∈ t, c ≠ '\n' ∧ c ≠ '\r') (hn : LineBreak n b)
    (ha : LineStart a (t ++ n ++ b)) (hs : Apart d (blen a)) (hs' : Apart d (blen (a ++ (t ++ n))))
    (hk : ∀ m, .misc m ∈ d.instructions → m.span.stop < blen a → ¬ IsKeyword m.instruction.content) :
    ∃ pre mid post, d.instructions = pre ++ (mid ++ post) ∧ (∀ i ∈ pre, i.span.stop < blen a) ∧
      (∀ i ∈ mid, blen a ≤ i.span.start ∧ i.span.stop < blen (a ++ (t ++ n))) ∧
      (∀ i ∈ post, blen (a ++ (t ++ n)) ≤ i.span.start) ∧
      Dockerfile.parse unq (a ++ '#' :: (t ++ n ++ b)) = .ok (documentOf (a ++ '#' :: (t ++ n ++ b))
        (pre ++ post.map (·.remap (· + 1)))) := by
  obtain ⟨pre, mid, post, e, h1, h2, h3, h4⟩ := alter_lines (t := t ++ n) (t' := '#' :: (t ++ n)) (p := []) (p' := ['#'])
    (z := t ++ n ++ b) (xs := []) rfl rfl h ha hs (.inr ⟨a ++ t, n, by simp, hn⟩) hs'
    (lineStart_char ha (by intro t e; cases e)) ⟨fun c hc => (by cases hc), (by decide)⟩
    ⟨by unfold Unquoted; decide, by decide⟩ hk (fun d3 h3 => by
      have := C33_blank_or_comment_line unq ('#' :: t) n b (.inr ⟨[], '#' :: t, rfl, fun c hc => (by cases hc),
        t, rfl, ht⟩) hn
      rw [h3] at this
      have e : '#' :: (t ++ n) ++ b = '#' :: t ++ n ++ b := by simp
      rw [e, this]
      refine congrArg Except.ok ?_
      have hi : (prefixed ('#' :: t ++ n) d3).instructions = d3.instructions.map (·.remap (· + blen ('#' :: (t ++ n)))) := by
        simp only [prefixed]
        exact List.map_congr_left fun x _ => Instruction.shift_remap _ x
      exact (documentOf_same this).symm.trans (congrArg (documentOf _) hi))
  refine ⟨pre, mid, post, e, h1, h2, h3, ?_⟩
  rw [show a ++ '#' :: (t ++ n ++ b) = a ++ ('#' :: (t ++ n) ++ b) by simp, h4]
  refine congrArg (fun x => Except.ok (documentOf _ (pre ++ x))) ?_
  rw [List.map_nil, List.nil_append]
  refine List.map_congr_left fun i hi => ?_
  have hle : i ∈ d.instructions := by rw [e]; simp [hi]
  have := h3 i hi
  refine remap_from h hle (by intro q hq; simp only [blen_append, blen] at *; have : '#'.utf8Size = 1 := rfl; omega)

/-- C97: A `#` in front of a line is taken away; what is then after `a` has to be accepted. -/
theorem C97_uncomment {unq : Unquote} {a z : Str} {d d2 : Dockerfile}
    (h : Dockerfile.parse unq (a ++ '#' :: z) = .ok d) (hs : Apart d (blen a)) (ha : LineStart a ('#' :: z))
    (ha' : LineStart a z) (h' : Dockerfile.parse unq z = .ok d2)
    (hk : ∀ m, .misc m ∈ d.instructions → m.span.stop < blen a → ¬ IsKeyword m.instruction.content) :
    ∃ pre post, d.instructions = pre ++ post ∧ (∀ i ∈ pre, i.span.stop < blen a) ∧
      (∀ i ∈ post, blen a ≤ i.span.start) ∧
      Dockerfile.parse unq (a ++ z) = .ok (documentOf (a ++ z) (pre ++ d2.instructions.map (·.remap (· + blen a)))) :=
  C97_exchange (p := ['#']) (p' := []) h hs ha ha' h' ⟨by unfold Unquoted; decide, by decide⟩
    ⟨fun c hc => (by cases hc), (by decide)⟩ hk

theorem quoteSpots_span {i : Instruction} {p : Nat} (h : p ∈ quoteSpots i) : ∃ sp ∈ spansOf i, sp.start = p := by
  cases i with
  | arg i =>
    simp only [quoteSpots, List.mem_map] at h
    obtain ⟨x, hx, rfl⟩ := h
    exact ⟨x.span, by simp only [spansOf, fieldSpans, List.mem_cons]; right; right; simpa using ⟨x, by simpa using hx, rfl⟩, rfl⟩
  | label i =>
    simp only [quoteSpots, List.mem_flatMap] at h
    obtain ⟨x, hx, h⟩ := h
    simp only [List.mem_cons, List.not_mem_nil, or_false] at h
    rcases h with rfl | rfl
    · exact ⟨x.name.span, by simp only [spansOf, fieldSpans, List.mem_cons, List.mem_flatMap]; exact .inr ⟨x, hx, by simp⟩, rfl⟩
    · exact ⟨x.value.span, by simp only [spansOf, fieldSpans, List.mem_cons, List.mem_flatMap]; exact .inr ⟨x, hx, by simp⟩, rfl⟩
  | env i =>
    simp only [quoteSpots, List.mem_map] at h
    obtain ⟨x, hx, rfl⟩ := h
    exact ⟨x.value.span, by
      simp only [spansOf, fieldSpans, List.mem_cons, List.mem_flatMap]
      exact .inr ⟨x, hx, by simp [breakableSpans]⟩, rfl⟩
  | _ => cases h

theorem arraySpots_span {i : Instruction} {p : Nat} (h : p ∈ arraySpots i) : ∃ sp ∈ spansOf i, sp.start = p := by
  have key : ∀ {x : ShellOrExecExpr}, p ∈ (match x with | .shell s => [s.span.start] | .exec _ => []) →
      ∃ sp ∈ exprSpans x, sp.start = p := by
    intro x h
    cases x with
    | shell s => exact ⟨s.span, by simp [exprSpans, breakableSpans], (List.mem_singleton.1 h).symm⟩
    | exec a => cases h
  cases i with
  | run i => obtain ⟨sp, h1, h2⟩ := key h; exact ⟨sp, List.mem_cons_of_mem _ h1, h2⟩
  | cmd i => obtain ⟨sp, h1, h2⟩ := key h; exact ⟨sp, List.mem_cons_of_mem _ h1, h2⟩
  | entrypoint i => obtain ⟨sp, h1, h2⟩ := key h; exact ⟨sp, List.mem_cons_of_mem _ h1, h2⟩
  | _ => cases h

/-- an array that starts in a text without quotes and goes on behind it -/
theorem array_calm {unq : Unquote} {x b : Str} {d : Dockerfile} (hq : Unquoted x) (hb : Src.BreakEnd x)
    (hcr : ∀ a, x = a ++ ['\r'] → ∀ t, b ≠ '\n' :: t) (h : Dockerfile.parse unq b = .ok d)
    (hx : ¬ BeginsArray x) : ¬ BeginsArray (x ++ b) := by
  rintro ⟨a, r, e, ha⟩
  have sw : Src.Swap true b [] [] := Src.lines_swap (unq := unq) (by rw [List.append_nil]; exact h) (parse_nothing unq)
  have seam : Src.Seam x (b ++ []) ([] ++ []) := ⟨hb, by rw [List.append_nil]; exact hcr, fun _ _ _ e => by cases e⟩
  have noq : ∀ {v : Str}, QuotedText v → ∀ y z, y ++ (v ++ z) = x → False := by
    rintro v ⟨q, u, rfl, hqq, -⟩ y z rfl
    have := hq q (by simp)
    rcases hqq with rfl | rfl
    · exact this.1 rfl
    · exact this.2.1 rfl
  cases a with
  | empty g =>
    obtain ⟨y, rfl, e1, hy⟩ := seam.char (c := '[') (b := g ++ ']' :: r) (by simpa [Src.Array.text] using e.symm) (by decide)
    rcases Src.space_seam sw ha Src.close y e1 hy with ⟨y', rfl, e2, hy', s⟩ | ⟨g', e2, -, s⟩
    · obtain ⟨y'', rfl, -, -⟩ := hy'.char e2 (by decide)
      exact hx ⟨.empty g, y'', by simp [Src.Array.text], by simpa [Src.Array.Fits] using s⟩
    · exact hx ⟨.empty g', r, by simpa [Src.Array.text] using e2.symm, s⟩
  | full g v es c g' =>
    obtain ⟨h1, h2, -, -⟩ := ha
    obtain ⟨y, rfl, e1, hy⟩ := seam.char (c := '[') (b := g ++ (v ++ (Src.elemsText es ++ (Src.Array.tail c g' ++ r))))
      (by simpa [Src.Array.text] using e.symm) (by decide)
    rcases Src.space_seam sw h1 (Src.not_bare_quoted h2) y e1 hy with ⟨y', rfl, e2, hy', -⟩ | ⟨g1, e2, -, -⟩
    · cases y' with
      | nil => exact hy'.brk.ne rfl
      | cons c y' =>
        obtain ⟨q, u, rfl, hqq, -⟩ := h2
        obtain ⟨rfl, -⟩ := List.cons.inj e2
        have := hq q (by simp)
        rcases hqq with rfl | rfl
        · exact this.1 rfl
        · exact this.2.1 rfl
    · exact noq h2 ('[' :: g1) _ (by simpa using e2)

/-- nothing is left open in lines without quotes -/
theorem undisturbed_calm {unq : Unquote} {t b : Str} {d d3 : Dockerfile} (h : Dockerfile.parse unq t = .ok d)
    (ht : LineStart t b) (hd : ∀ i ∈ d.instructions, i.span.stop < blen t) (hq : Unquoted t)
    (hk : ∀ m, .misc m ∈ d.instructions → ¬ IsKeyword m.instruction.content) (h3 : Dockerfile.parse unq b = .ok d3) :
    Undisturbed t b d := by
  have spot : ∀ {i : Instruction} {p : Nat}, i ∈ d.instructions → (∃ sp ∈ spansOf i, sp.start = p) → p < blen t := by
    rintro i p hi ⟨sp, hsp, rfl⟩
    have h1 := C04_span_bounds unq t d h i hi sp hsp
    have h2 := (C06_fields_within unq t d h i hi sp hsp).2
    have := hd i hi
    omega
  have rest : ∀ {p : Nat} {a x : Str}, p < blen t → t = a ++ x → blen a = p → x ≠ [] := by
    rintro p a x hp rfl rfl rfl
    rw [List.append_nil] at hp
    exact Nat.lt_irrefl _ hp
  have hb : t ≠ [] → Src.BreakEnd t := by
    intro hne
    rcases ht with ht | ⟨s, n, rfl, hn⟩
    · exact absurd ht hne
    · exact (Src.break_end hn).pre _
  intro i hi
  refine ⟨?_, ?_, ?_⟩
  · intro p hp a x e ea _ ⟨v, r, e1, q, u, ev, hqq, _⟩
    have hx := rest (spot hi (quoteSpots_span hp)) e ea
    cases x with
    | nil => exact hx rfl
    | cons c x =>
      rw [ev] at e1
      obtain ⟨rfl, -⟩ := List.cons.inj e1
      have := hq c (by rw [e]; simp)
      rcases hqq with rfl | rfl
      · exact this.1 rfl
      · exact this.2.1 rfl
  · intro p hp a x e ea
    have hx := rest (spot hi (arraySpots_span hp)) e ea
    have ht' : t ≠ [] := by rintro rfl; exact hx (List.append_eq_nil_iff.1 e.symm).2
    have hbt := hb ht'
    rw [e] at hbt
    refine array_calm (fun c hc => hq c (by rw [e]; simp [hc])) (hbt.right hx) ?_ h3
    intro y ey
    exact lineStart_noCR ht (a ++ y) (by rw [e, ey]; simp)
  · intro k hk' hkw
    cases i with
    | misc m => rw [List.mem_singleton.1 hk'] at hkw; exact absurd hkw (hk m hi)
    | _ => cases hk'

/-- C97: Lines without quotes can be exchanged for other lines without quotes.  Nothing else has to be known about
the text around them (it may have quotes, closed or not), but that no keyword is taken for an unknown instruction. -/
theorem C97_lines {unq : Unquote} {a t b t' : Str} {d d' : Dockerfile}
    (h : Dockerfile.parse unq (a ++ (t ++ b)) = .ok d)
    (ha : LineStart a (t ++ b)) (hs : Apart d (blen a)) (hb : LineStart (a ++ t) b) (hs' : Apart d (blen (a ++ t)))
    (h' : Dockerfile.parse unq t' = .ok d') (ht : LineStart t' b) (hd : ∀ i ∈ d'.instructions, i.span.stop < blen t')
    (ha' : LineStart a (t' ++ b)) (hq : Unquoted t) (hq' : Unquoted t')
    (hk : ∀ m, .misc m ∈ d.instructions → m.span.stop < blen a → ¬ IsKeyword m.instruction.content)
    (hk' : ∀ m, .misc m ∈ d'.instructions → ¬ IsKeyword m.instruction.content) :
    ∃ pre mid post, d.instructions = pre ++ (mid ++ post) ∧ (∀ i ∈ pre, i.span.stop < blen a) ∧
      (∀ i ∈ mid, blen a ≤ i.span.start ∧ i.span.stop < blen (a ++ t)) ∧
      (∀ i ∈ post, blen (a ++ t) ≤ i.span.start) ∧
      Dockerfile.parse unq (a ++ (t' ++ b)) = .ok (documentOf (a ++ (t' ++ b))
        (pre ++ (d'.instructions.map (·.remap (· + blen a)) ++
          post.map (·.remap fun q => q - blen (a ++ t) + blen (a ++ t'))))) := by
  have end1 : ∀ {a t b : Str}, LineStart (a ++ t) b → t = [] ∨ Src.BreakEnd t := by
    intro a t b h
    by_cases hne : t = []
    · exact .inl hne
    rcases h with h | ⟨s, n, e, hn⟩
    · exact absurd (List.append_eq_nil_iff.1 h).2 hne
    · exact .inr (Src.BreakEnd.right (a := a) (by rw [e]; exact (Src.break_end hn).pre _) hne)
  refine alter_lines (p := t) (p' := t') (z := b) rfl rfl h ha hs hb hs' ha' (Src.mild_end hq (end1 hb))
    (Src.mild_end hq' (end1 (a := []) ht)) hk fun d3 h3 => ?_
  rw [join_lines h' ht hd (undisturbed_calm h' ht hd hq' hk' h3), h3]
  rfl

/-- C97: Lines without quotes are taken out. -/
theorem C97_remove {unq : Unquote} {a t b : Str} {d : Dockerfile} (h : Dockerfile.parse unq (a ++ (t ++ b)) = .ok d)
    (ha : LineStart a (t ++ b)) (hs : Apart d (blen a)) (hb : LineStart (a ++ t) b) (hs' : Apart d (blen (a ++ t)))
    (ha' : LineStart a b) (hq : Unquoted t)
    (hk : ∀ m, .misc m ∈ d.instructions → m.span.stop < blen a → ¬ IsKeyword m.instruction.content) :
    ∃ pre mid post, d.instructions = pre ++ (mid ++ post) ∧ (∀ i ∈ pre, i.span.stop < blen a) ∧
      (∀ i ∈ mid, blen a ≤ i.span.start ∧ i.span.stop < blen (a ++ t)) ∧
      (∀ i ∈ post, blen (a ++ t) ≤ i.span.start) ∧
      Dockerfile.parse unq (a ++ b) = .ok (documentOf (a ++ b) (pre ++ post.map (·.remap (· - blen t)))) := by
  obtain ⟨pre, mid, post, e, h1, h2, h3, h4⟩ := C97_lines (t' := []) h ha hs hb hs' (parse_nothing unq) (.inl rfl)
    (fun i hi => by cases hi) ha' hq (fun c hc => by cases hc) hk (fun m hm => by cases hm)
  refine ⟨pre, mid, post, e, h1, h2, h3, h4.trans (congrArg (fun x => Except.ok (documentOf _ (pre ++ x))) ?_)⟩
  refine List.map_congr_left fun i hi => ?_
  have hle : i ∈ d.instructions := by rw [e]; simp [hi]
  have := h3 i hi
  exact remap_from h hle (by intro q hq; simp only [blen_append, blen] at *; omega)

/-- C97: Lines without quotes are put in. -/
theorem C97_add {unq : Unquote} {a b t' : Str} {d d' : Dockerfile} (h : Dockerfile.parse unq (a ++ b) = .ok d)
    (ha : LineStart a b) (hs : Apart d (blen a))
    (h' : Dockerfile.parse unq t' = .ok d') (ht : LineStart t' b) (hd : ∀ i ∈ d'.instructions, i.span.stop < blen t')
    (ha' : LineStart a (t' ++ b)) (hq' : Unquoted t')
    (hk : ∀ m, .misc m ∈ d.instructions → m.span.stop < blen a → ¬ IsKeyword m.instruction.content)
    (hk' : ∀ m, .misc m ∈ d'.instructions → ¬ IsKeyword m.instruction.content) :
    ∃ pre post, d.instructions = pre ++ post ∧ (∀ i ∈ pre, i.span.stop < blen a) ∧
      (∀ i ∈ post, blen a ≤ i.span.start) ∧
      Dockerfile.parse unq (a ++ (t' ++ b)) = .ok (documentOf (a ++ (t' ++ b))
        (pre ++ (d'.instructions.map (·.remap (· + blen a)) ++ post.map (·.remap (· + blen t'))))) := by
  have e0 : a ++ [] = a := List.append_nil a
  obtain ⟨pre, mid, post, e, h1, h2, h3, h4⟩ := C97_lines (t := []) h ha hs (by rw [e0]; exact ha) (by rw [e0]; exact hs)
    h' ht hd ha' (fun c hc => by cases hc) hq' hk hk'
  rw [e0] at h2 h3 h4
  have : mid = [] := by
    cases mid with
    | nil => rfl
    | cons i mid =>
      have g1 := h2 i (by simp)
      have g2 := C04_span_bounds unq _ _ h i (by rw [e]; simp) i.span (by cases i <;> exact List.mem_cons_self)
      omega
  subst this
  refine ⟨pre, post, e, h1, h3, h4.trans (congrArg (fun x => Except.ok (documentOf (a ++ (t' ++ b))
    (pre ++ (d'.instructions.map (·.remap (· + blen a)) ++ x)))) ?_)⟩
  refine List.map_congr_left fun i hi => ?_
  have hle : i ∈ d.instructions := by rw [e]; simp [hi]
  have := h3 i hi
  exact remap_from h hle (by intro q hq; simp only [blen_append] at *; omega)

/-- what the theorems ask for, computed -/
def alterOK (s : Str) (k l : Nat) : Bool :=
  match Dockerfile.parse Enquote.unquote s with
  | .ok d => d.instructions.all fun i =>
      decide (i.span.stop < k ∨ k ≤ i.span.start) && decide (i.span.stop < l ∨ l ≤ i.span.start) &&
      (match i with | .misc m => decide (lower m.instruction.content ∉ keywords) | _ => true)
  | .error _ => false

theorem alterOK_iff {s : Str} {k l : Nat} (h : alterOK s k l = true) :
    ∃ d, Dockerfile.parse Enquote.unquote s = .ok d ∧ Apart d k ∧ Apart d l ∧
      ∀ m, .misc m ∈ d.instructions → ¬ IsKeyword m.instruction.content := by
  unfold alterOK at h
  split at h
  · rename_i d hd
    have h := fun i hi => List.all_eq_true.1 h i hi
    simp only [Bool.and_eq_true, decide_eq_true_eq] at h
    refine ⟨d, hd, fun i hi => (h i hi).1.1, fun i hi => (h i hi).1.2, fun m hm => ?_⟩
    have := (h _ hm).2
    unfold IsKeyword
    simpa using this
  · cases h

/-- the beginning of the samples: a quote and a bracket are left open -/
def alterHead : Str := c!"ENV a=\"b\nRUN [ 'c\n"

theorem alterHead_start {z : Str} : LineStart alterHead z := .inr ⟨c!"ENV a=\"b\nRUN [ 'c", c!"\n", rfl, .inl rfl⟩

/-- A line is exchanged for other lines. -/
example : ∃ d', Dockerfile.parse Enquote.unquote
    (alterHead ++ (c!"CMD d\nUSER e\n" ++ c!"FROM f\nLABEL g='h'\n")) = .ok d' := by
  obtain ⟨d, h, h1, h2, h3⟩ := alterOK_iff (s := alterHead ++ (c!"EXPOSE [1] \\\n 2\n" ++ c!"FROM f\nLABEL g='h'\n"))
    (k := 18) (l := 34) (by decide +kernel)
  obtain ⟨d', h', g1, -, g3⟩ := alterOK_iff (s := c!"CMD d\nUSER e\n") (k := 13) (l := 13) (by decide +kernel)
  obtain ⟨pre, mid, post, -, -, -, -, h4⟩ := C97_lines (a := alterHead) h alterHead_start h1
    (.inr ⟨alterHead ++ c!"EXPOSE [1] \\\n 2", c!"\n", rfl, .inl rfl⟩) h2 h'
    (.inr ⟨c!"CMD d\nUSER e", c!"\n", rfl, .inl rfl⟩)
    (fun i hi => (g1 i hi).resolve_right fun hle => by
      have g2 := C04_span_bounds _ _ _ h' i hi i.span (by cases i <;> exact List.mem_cons_self)
      rw [((ens_parse _ _).ok_of h').1] at g2
      exact absurd (Nat.lt_of_lt_of_le g2.1 g2.2) (Nat.not_lt.2 hle))
    alterHead_start (by unfold Unquoted; decide +kernel) (by unfold Unquoted; decide +kernel)
    (fun m hm _ => h3 m hm) g3
  exact ⟨_, h4⟩

/-- The line `EXPOSE …` is taken out. -/
example : ∃ d', Dockerfile.parse Enquote.unquote (alterHead ++ c!"FROM f\nLABEL g='h'\n") = .ok d' := by
  obtain ⟨d, h, h1, h2, h3⟩ := alterOK_iff (s := alterHead ++ (c!"EXPOSE [1] \\\n 2\n" ++ c!"FROM f\nLABEL g='h'\n"))
    (k := 18) (l := 34) (by decide +kernel)
  obtain ⟨pre, mid, post, -, -, -, -, h4⟩ := C97_remove (a := alterHead) h alterHead_start h1
    (.inr ⟨alterHead ++ c!"EXPOSE [1] \\\n 2", c!"\n", rfl, .inl rfl⟩) h2
    alterHead_start (by unfold Unquoted; decide +kernel) (fun m hm _ => h3 m hm)
  exact ⟨_, h4⟩

/-- A line is put in. -/
example : ∃ d', Dockerfile.parse Enquote.unquote (alterHead ++ (c!"CMD [ d\n" ++ c!"FROM f\nLABEL g='h'\n")) = .ok d' := by
  obtain ⟨d, h, h1, -, h3⟩ := alterOK_iff (s := alterHead ++ c!"FROM f\nLABEL g='h'\n") (k := 18) (l := 18) (by decide +kernel)
  obtain ⟨d', h', g1, -, g3⟩ := alterOK_iff (s := c!"CMD [ d\n") (k := 8) (l := 8) (by decide +kernel)
  obtain ⟨pre, post, -, -, -, h4⟩ := C97_add (a := alterHead) h alterHead_start h1 h'
    (.inr ⟨c!"CMD [ d", c!"\n", rfl, .inl rfl⟩)
    (fun i hi => (g1 i hi).resolve_right fun hle => by
      have g2 := C04_span_bounds _ _ _ h' i hi i.span (by cases i <;> exact List.mem_cons_self)
      rw [((ens_parse _ _).ok_of h').1] at g2
      exact absurd (Nat.lt_of_lt_of_le g2.1 g2.2) (Nat.not_lt.2 hle))
    alterHead_start (by unfold Unquoted; decide +kernel) (fun m hm _ => h3 m hm) g3
  exact ⟨_, h4⟩

/-- The line `LABEL …` is commented out. -/
example : ∃ d', Dockerfile.parse Enquote.unquote
    (alterHead ++ '#' :: (c!"LABEL d='e f'" ++ c!"\n" ++ c!"FROM \\\n g\n")) = .ok d' := by
  obtain ⟨d, h, h1, h2, h3⟩ := alterOK_iff (s := alterHead ++ (c!"LABEL d='e f'" ++ c!"\n" ++ c!"FROM \\\n g\n"))
    (k := 18) (l := 32) (by decide +kernel)
  obtain ⟨pre, mid, post, -, -, -, -, h4⟩ := C97_comment (a := alterHead) h (by decide +kernel) (.inl rfl) alterHead_start
    h1 h2 (fun m hm _ => h3 m hm)
  exact ⟨_, h4⟩

/-- It is commented in again. -/
example : ∃ d', Dockerfile.parse Enquote.unquote (alterHead ++ c!"LABEL d='e f'\nFROM \\\n g\n") = .ok d' := by
  obtain ⟨d, h, h1, -, h3⟩ := alterOK_iff (s := alterHead ++ '#' :: c!"LABEL d='e f'\nFROM \\\n g\n")
    (k := 18) (l := 18) (by decide +kernel)
  obtain ⟨d2, h2, -, -, -⟩ := alterOK_iff (s := c!"LABEL d='e f'\nFROM \\\n g\n") (k := 0) (l := 0) (by decide +kernel)
  obtain ⟨pre, post, -, -, -, h4⟩ := C97_uncomment (a := alterHead) h h1 alterHead_start alterHead_start h2
    (fun m hm _ => h3 m hm)
  exact ⟨_, h4⟩

/-- The word `RUN` of the line behind `a` becomes `ENV k`, the rest of the line stays as it is. -/
example : ∃ d', Dockerfile.parse Enquote.unquote (alterHead ++ (c!"ENV k" ++ c!" \\\n 'e f'\n")) = .ok d' := by
  obtain ⟨d, h, h1, -, h3⟩ := alterOK_iff (s := alterHead ++ (c!"RUN" ++ c!" \\\n 'e f'\n")) (k := 18) (l := 18) (by decide +kernel)
  obtain ⟨d2, h2, -, -, -⟩ := alterOK_iff (s := c!"ENV k" ++ c!" \\\n 'e f'\n") (k := 0) (l := 0) (by decide +kernel)
  obtain ⟨pre, post, -, -, -, h4⟩ := C97_exchange (a := alterHead) h h1 alterHead_start alterHead_start h2
    ⟨by unfold Unquoted; decide, by decide⟩ ⟨by unfold Unquoted; decide, by decide⟩ (fun m hm _ => h3 m hm)
  exact ⟨_, h4⟩

/-- C97: Why no keyword may be taken for an unknown instruction: `COPY` has no arguments here, because `FOO-x` behind it
is not the first of them; once that line is commented out, `a b` are the arguments of `COPY`. -/
theorem C97_keyword :
    (Dockerfile.parse Enquote.unquote c!"COPY \\\n#f\n\nFOO-x\na b\n").toOption.map (·.instructions.map (·.span)) =
      some [⟨0, 10⟩, ⟨11, 16⟩, ⟨17, 20⟩] ∧
    (Dockerfile.parse Enquote.unquote c!"COPY \\\n#f\n\n#FOO-x\na b\n").toOption.map (·.instructions.map (·.span)) =
      some [⟨0, 21⟩] := by
  decide +kernel

/-- C97: Why the exchanged text may not end with a backslash: a quote behind it closes the one that is left open before. -/
theorem C97_backslash :
    (Dockerfile.parse Enquote.unquote c!"ENV a=\"b\nRUN c\\\"\n").toOption.map (·.instructions.map (·.span)) =
      some [⟨0, 8⟩, ⟨9, 16⟩] ∧
    (Dockerfile.parse Enquote.unquote c!"ENV a=\"b\nRUN c\"\n").toOption.map (·.instructions.map (·.span)) =
      some [⟨0, 15⟩] := by
  decide +kernel

end Verif
