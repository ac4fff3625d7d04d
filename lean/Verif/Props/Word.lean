import Verif.Props.Source
import Verif.Proof.EditDoc
import Verif.Model.Enquote
import Verif.Model.Stage

/-!
# Which word makes which instruction (C84)

The alternatives of `step` (`/repo/src/dockerfile_parser.pest:8-30`) are tried in order, and `misc`
is the last.  So the README's unknown instructions include lines that start with a known keyword but
go on in a way that is not the start of its arguments.
-/

namespace Verif
open Spec

/-- the word that an instruction was made by; none for the instructions that are not known -/
def Spec.wordOf : Instruction → Option Str
  | .from _ => some c!"from"
  | .arg _ => some c!"arg"
  | .label _ => some c!"label"
  | .run _ => some c!"run"
  | .entrypoint _ => some c!"entrypoint"
  | .cmd _ => some c!"cmd"
  | .copy _ => some c!"copy"
  | .env _ => some c!"env"
  | .misc _ => none

/-- the text `t` starts with the letters `w`, and `u` is what comes after them -/
def Spec.Leads (w u t : Str) : Prop :=
  t = w ++ u ∧ w ≠ [] ∧ (∀ c ∈ w, IsAlpha c) ∧ ∀ c b, u = c :: b → ¬ IsAlpha c

/-- The word `w` in front of `u` makes the instruction `x`: a keyword with the start of its arguments
makes an instruction of its own kind, everything else an unknown instruction. -/
def Spec.Makes (w u : Str) (x : Instruction) : Prop :=
  (IsKeyword w ∧ Src.Begins (lower w) u → wordOf x = some (lower w)) ∧
    (¬ (IsKeyword w ∧ Src.Begins (lower w) u) → ∃ m, x = .misc m ∧ m.instruction.content = w)

namespace Src

theorem StartsSpace.not_alpha {u : Str} (h : StartsSpace u) : ∀ c b, u = c :: b → ¬ IsAlpha c := by
  rintro c b rfl
  rw [← isAlpha_iff]
  rcases h with ⟨_, _, e, hc⟩ | ⟨_, _, _, e, -⟩
  · cases e; rcases hc with rfl | rfl <;> decide
  · cases e; decide

theorem FlagsFit.starts {fs : List Flag} {r : Str} (h : FlagsFit fs r) (hr : StartsSpace r) :
    StartsSpace (flagsText fs ++ r) := by
  cases fs with
  | nil => exact hr
  | cons f fs =>
    have := h.1.1.starts
    simpa [flagsText, Flag.text] using this

theorem PairsFit.starts {F : Pair → Str → Prop} (hF : ∀ f r, F f r → Gap f.gap (f.body ++ r))
    {ps : List Pair} {t r : Str} (h : PairsFit F ps (t ++ r)) (ht : Space t r) (hne : ps ≠ [] ∨ t ≠ []) :
    StartsSpace (pairsText ps ++ (t ++ r)) := by
  cases ps with
  | nil => exact Gap.starts (g := t) ⟨by simpa using hne, ht⟩
  | cons f fs =>
    have := (hF _ _ h.1).starts
    simpa [pairsText, Pair.text] using this

theorem Shell.Fits.not_eol {a : Shell} {r : Str} (h : a.Fits r) : ¬ Eol (a.text ++ r) := by
  have piece : ∀ {t r u : Str}, Shell.Piece t r → ¬ Eol (t ++ u) := by
    intro t r u h e
    cases t with
    | nil => exact h.1 rfl
    | cons c t => have := h.2.1 c (by simp); rcases e c _ rfl with h | h <;> simp [h] at this
  have comment : ∀ {w t u : Str}, Blanks w → CommentText t → ¬ Eol (w ++ (t ++ u)) := by
    intro w t u hw ht e
    cases w with
    | nil => obtain ⟨_, rfl, -⟩ := ht; rcases e _ _ rfl with h | h <;> cases h
    | cons c w => rcases hw c (by simp) with rfl | rfl <;> rcases e _ _ rfl with h | h <;> cases h
  cases a with
  | last t => exact piece h.1
  | lastComment w t n => simpa [Shell.text] using comment (u := n ++ r) h.1 h.2.1
  | more t w n a => simpa [Shell.text] using piece h.1
  | comment w t n a => simpa [Shell.text] using comment (u := n ++ (a.text ++ r)) h.1 h.2.1

theorem Array.not_eol {a : Array} {r : Str} : ¬ Eol (a.text ++ r) := by
  intro e
  cases a with
  | empty => rcases e _ _ rfl with h | h <;> cases h
  | full => rcases e _ _ rfl with h | h <;> cases h

theorem leads_kw {kw k u : Str} (h : lower kw = k) (hk : k ∈ keywords) (hu : StartsSpace u) :
    Leads kw u (kw ++ u) :=
  ⟨rfl, (kw_alpha h hk).1, (kw_alpha h hk).2, hu.not_alpha⟩

theorem makes_kw {kw k u : Str} (h : lower kw = k) (hk : k ∈ keywords) (hb : Begins k u) {x : Instruction}
    (hx : wordOf x = some k) : Makes kw u x := by
  subst h
  exact ⟨fun _ => hx, fun hn => absurd ⟨hk, hb⟩ hn⟩

theorem begins_exec (k : ExecKind) {g r : Str} (hg : Gap g r) (hr : ¬ Eol r) : Begins k.keyword (g ++ r) := by
  cases k <;> exact ⟨g, r, rfl, hg, hr⟩

theorem keyword_mem (k : ExecKind) : k.keyword ∈ keywords := by cases k <;> decide

theorem Item.makes {unq : Unquote} {p : Nat} {i : Item} {r : Str} {x : Instruction} (hf : i.Fits r)
    (hr : Rest r) (h : i.eval unq p = .ok (some x)) :
    x.span.start = p ∧ ∃ w u, Leads w u (i.text ++ r) ∧ Makes w u x := by
  cases i with
  | blank => cases h
  | comment => cases h
  | «from» kw fs g i a =>
    obtain ⟨h1, h2, h3, h4, h5, h6⟩ := hf
    have hs := h2.starts h3.starts
    have e : (Item.from kw fs g i a).text ++ r = kw ++ (flagsText fs ++ (g ++ (i ++ (aliasText a ++ r)))) := by
      simp [Item.text]
    rw [e]
    have hb : Begins c!"from" (flagsText fs ++ (g ++ (i ++ (aliasText a ++ r)))) := by
      have hn := image_no_flag (fun c hc => isImageChar_iff.2 (h5 c hc)) (alias_sep h6 hr)
      cases i with
      | nil => exact absurd rfl h4
      | cons c i => exact ⟨fs, g, c, _, rfl, h2, h3, h5 c (by simp), hn⟩
    simp only [Item.eval] at h
    cases h7 : evalFlags unq (p + blen kw) fs with
    | error => rw [h7] at h; cases h
    | ok xs =>
      rw [h7] at h
      cases h8 : checkDigest i with
      | error => simp only [h8] at h; cases h
      | ok =>
        simp only [h8] at h; cases h
        exact ⟨rfl, _, _, leads_kw h1 (by decide) hs, makes_kw h1 (by decide) hb rfl⟩
  | arg kw g n v =>
    obtain ⟨h1, h2, ⟨c, b, rfl, h3, -⟩, -⟩ := hf
    have e : (Item.arg kw g (c :: b) v).text ++ r = kw ++ (g ++ (c :: b ++ (valueText v ++ r))) := by
      simp [Item.text]
    rw [e]
    have hb : Begins c!"arg" (g ++ (c :: b ++ (valueText v ++ r))) := ⟨g, c, _, rfl, h2, h3⟩
    have key : x.span.start = p ∧ wordOf x = some c!"arg" := by
      cases v with
      | none => cases h; exact ⟨rfl, rfl⟩
      | some v =>
        simp only [Item.eval] at h
        cases h7 : read unq v.text with
        | error => rw [h7] at h; cases h
        | ok => rw [h7] at h; cases h; exact ⟨rfl, rfl⟩
    exact ⟨key.1, _, _, leads_kw h1 (by decide) h2.starts, makes_kw h1 (by decide) hb key.2⟩
  | label kw ps t =>
    obtain ⟨h1, h2, h3, h4, -⟩ := hf
    have hs := PairsFit.starts (fun f r h => h.1) h2 h3 h4
    have e : (Item.label kw ps t).text ++ r = kw ++ (pairsText ps ++ (t ++ r)) := by simp [Item.text]
    rw [e]
    simp only [Item.eval] at h
    cases h7 : evalPairs (Pair.evalLabel unq) (p + blen kw) ps with
    | error => rw [h7] at h; cases h
    | ok =>
      rw [h7] at h; cases h
      exact ⟨rfl, _, _, leads_kw h1 (by decide) hs, makes_kw h1 (by decide) hs rfl⟩
  | label1 kw g n g' v =>
    obtain ⟨h1, h2, -⟩ := hf
    have e : (Item.label1 kw g n g' v).text ++ r = kw ++ (g ++ (n.text ++ (g' ++ (v.text ++ r)))) := by
      simp [Item.text]
    rw [e]
    simp only [Item.eval] at h
    cases h7 : n.readLabel unq with
    | error => rw [h7] at h; cases h
    | ok =>
      rw [h7] at h
      cases h8 : v.readLabel unq with
      | error => simp only [h8] at h; cases h
      | ok =>
        simp only [h8] at h; cases h
        exact ⟨rfl, _, _, leads_kw h1 (by decide) h2.starts, makes_kw h1 (by decide) h2.starts rfl⟩
  | shell k kw g s =>
    obtain ⟨h1, h2, h3, -⟩ := hf
    have e : (Item.shell k kw g s).text ++ r = kw ++ (g ++ (s.text ++ r)) := by simp [Item.text]
    rw [e]
    simp only [Item.eval] at h
    split at h
    · cases h
    · cases h
      refine ⟨by cases k <;> rfl, _, _, leads_kw h1 (keyword_mem k) h2.starts,
        makes_kw h1 (keyword_mem k) (begins_exec k h2 h3.not_eol) (by cases k <;> rfl)⟩
  | exec k kw g a =>
    obtain ⟨h1, h2, h3⟩ := hf
    have e : (Item.exec k kw g a).text ++ r = kw ++ (g ++ (a.text ++ r)) := by simp [Item.text]
    rw [e]
    simp only [Item.eval] at h
    split at h
    · cases h
    · cases h7 : a.eval unq (p + blen kw + blen g) with
      | error => rw [h7] at h; cases h
      | ok =>
        rw [h7] at h; cases h
        refine ⟨by cases k <;> rfl, _, _, leads_kw h1 (keyword_mem k) h2.starts,
          makes_kw h1 (keyword_mem k) (begins_exec k h2 Array.not_eol) (by cases k <;> rfl)⟩
  | copy kw fs ss d =>
    obtain ⟨h1, h2, h3, h4, h6⟩ := hf
    obtain ⟨f1, f2, fr, hsplit, hf1⟩ : ∃ f1 f2 fr, ss ++ [d] = f1 :: f2 :: fr ∧
        ¬ StartsFlag (f1.value ++ (argsText (f2 :: fr) ++ r)) := by
      match ss, h3 with
      | [f], _ => exact ⟨f, d, [], rfl, h6 _ _ rfl⟩
      | f :: f' :: r, _ => exact ⟨f, f', r ++ [d], rfl, h6 _ _ rfl⟩
    have e : (Item.copy kw fs ss d).text ++ r = kw ++ (flagsText fs ++ (argsText (ss ++ [d]) ++ r)) := by
      rw [argsText_append]; simp [Item.text, argsText]
    rw [e]
    rw [hsplit] at h2 h4 ⊢
    have ht : argsText (f1 :: f2 :: fr) ++ r = f1.text ++ (f2.text ++ (argsText fr ++ r)) := by
      simp [argsText]
    have ht' : argsText (f2 :: fr) ++ r = f2.text ++ (argsText fr ++ r) := by simp [argsText]
    rw [ht] at h2 ⊢
    rw [ht'] at hf1
    have g1 : Arg.Fits f1 (f2.text ++ (argsText fr ++ r)) := by rw [← ht']; exact h4.1
    have hs : StartsSpace (f1.text ++ (f2.text ++ (argsText fr ++ r))) := by
      simpa [Arg.text] using g1.1.starts
    have hb : Begins c!"copy" (flagsText fs ++ (f1.text ++ (f2.text ++ (argsText fr ++ r)))) :=
      ⟨fs, f1, f2, _, rfl, h2, g1, h4.2.1, hf1⟩
    simp only [Item.eval] at h
    cases h7 : evalFlags unq (p + blen kw) fs with
    | error => rw [h7] at h; cases h
    | ok =>
      rw [h7] at h
      cases h8 : evalArgs unq (p + blen kw + blen (flagsText fs)) ss with
      | error => simp only [h8] at h; cases h
      | ok =>
        simp only [h8] at h
        cases h9 : d.eval unq (p + blen kw + blen (flagsText fs) + blen (argsText ss)) with
        | error => simp only [h9] at h; cases h
        | ok =>
          simp only [h9] at h; cases h
          exact ⟨rfl, _, _, leads_kw h1 (by decide) (h2.starts hs), makes_kw h1 (by decide) hb rfl⟩
  | env kw ps t =>
    obtain ⟨h1, h2, h3, h4, -⟩ := hf
    have hs := PairsFit.starts (fun f r h => h.1) h2 h3 h4
    have e : (Item.env kw ps t).text ++ r = kw ++ (pairsText ps ++ (t ++ r)) := by simp [Item.text]
    rw [e]
    simp only [Item.eval] at h
    cases h7 : evalPairs (Pair.evalEnv unq) (p + blen kw) ps with
    | error => rw [h7] at h; cases h
    | ok =>
      rw [h7] at h; cases h
      exact ⟨rfl, _, _, leads_kw h1 (by decide) hs, makes_kw h1 (by decide) hs rfl⟩
  | env1 kw g n g' s =>
    obtain ⟨h1, h2, -⟩ := hf
    have e : (Item.env1 kw g n g' s).text ++ r = kw ++ (g ++ (n ++ (g' ++ (s.text ++ r)))) := by
      simp [Item.text]
    rw [e]
    cases h
    exact ⟨rfl, _, _, leads_kw h1 (by decide) h2.starts, makes_kw h1 (by decide) h2.starts rfl⟩
  | env1q kw g n g' v =>
    obtain ⟨h1, h2, -⟩ := hf
    have e : (Item.env1q kw g n g' v).text ++ r = kw ++ (g ++ (n ++ (g' ++ (v ++ r)))) := by
      simp [Item.text]
    rw [e]
    simp only [Item.eval] at h
    cases h7 : unquoted unq v with
    | error => rw [h7] at h; cases h
    | ok =>
      rw [h7] at h; cases h
      exact ⟨rfl, _, _, leads_kw h1 (by decide) h2.starts, makes_kw h1 (by decide) h2.starts rfl⟩
  | misc w a =>
    obtain ⟨h1, h2, h3, h4, h5⟩ := hf
    cases h
    refine ⟨rfl, w, a.text ++ r, ⟨by simp [Item.text], h1, h2, fun c b e => ?_⟩,
      fun hk => absurd hk.2 (h5 hk.1), fun _ => ⟨_, rfl, rfl⟩⟩
    cases ht : a.text with
    | nil => exact absurd (by rw [ht]; exact h3.eol) h3.not_eol
    | cons d t => rw [ht] at e; cases e; exact h4 _ _ ht

theorem doc_makes {unq : Unquote} {l : Line} {ms : List (Str × Line)} (hf : DocFits l ms) :
    ∀ {p is}, evalDoc unq p l ms = .ok is → ∀ x ∈ is, ∃ a w u t, docText l ms = a ++ t ∧
      p + blen a = x.span.start ∧ Leads w u t ∧ Makes w u x := by
  induction ms generalizing l with
  | nil =>
    intro p is h x hx
    simp only [evalDoc] at h
    cases h7 : l.item.eval unq (p + blen l.indent) with
    | error => rw [h7] at h; cases h
    | ok o =>
      rw [h7] at h; cases h
      cases o with
      | none => cases hx
      | some y =>
        obtain rfl := List.mem_singleton.1 hx
        obtain ⟨k1, w, u, k2, k3⟩ := Item.makes hf.2.1 ⟨_, _, rfl, hf.2.2, AtEnd.nil⟩ h7
        exact ⟨l.indent, w, u, _, by simp [docText, Line.text], k1.symm, k2, k3⟩
  | cons m ms ih =>
    obtain ⟨n, m⟩ := m
    obtain ⟨h1, h2, h3⟩ := hf
    intro p is h x hx
    simp only [evalDoc] at h
    cases h7 : l.item.eval unq (p + blen l.indent) with
    | error => rw [h7] at h; cases h
    | ok o =>
      rw [h7] at h
      cases h8 : evalDoc unq (p + blen l.text + blen n) m ms with
      | error => simp only [h8] at h; cases h
      | ok js =>
        simp only [h8] at h; cases h
        rcases List.mem_append.1 hx with hx | hx
        · cases o with
          | none => cases hx
          | some y =>
            obtain rfl := List.mem_singleton.1 hx
            obtain ⟨k1, w, u, k2, k3⟩ := Item.makes h1.2.1 ⟨_, _, rfl, h1.2.2, AtEnd.break h2⟩ h7
            exact ⟨l.indent, w, u, _, by simp [docText, Line.text], k1.symm, k2, k3⟩
        · obtain ⟨a, w, u, t, k1, k2, k3, k4⟩ := ih h3 h8 x hx
          exact ⟨l.text ++ (n ++ a), w, u, t, by simp [docText, k1], by simp [blen_append]; omega, k3, k4⟩

theorem numbered_makes {is : List Instruction} : ∀ {n x}, x ∈ numberStages n is →
    ∃ y ∈ is, y.span = x.span ∧ ∀ w u, Makes w u y → Makes w u x := by
  induction is with
  | nil => intro n x h; cases h
  | cons y is ih =>
    intro n x h
    cases y with
    | «from» f =>
      rcases List.mem_cons.1 h with rfl | h
      · refine ⟨.from f, by simp, rfl, fun w u hm => ⟨hm.1, fun hn => ?_⟩⟩
        obtain ⟨_, e, -⟩ := hm.2 hn
        cases e
      · obtain ⟨y, hy, k⟩ := ih h; exact ⟨y, by simp [hy], k⟩
    | _ =>
      rcases List.mem_cons.1 h with rfl | h
      · exact ⟨_, by simp, rfl, fun _ _ h => h⟩
      · obtain ⟨y, hy, k⟩ := ih h; exact ⟨y, by simp [hy], k⟩

end Src

/-- C84: every instruction starts with a word; if that is a keyword with the start of its arguments
then the instruction is of its kind, and otherwise it is an unknown instruction of that name. -/
theorem C84_words {unq : Unquote} {s : Str} {d : Dockerfile} (h : Dockerfile.parse unq s = .ok d)
    (x : Instruction) (hx : x ∈ d.instructions) :
    ∃ a w u t, s = a ++ t ∧ blen a = x.span.start ∧ Leads w u t ∧ Makes w u x := by
  obtain ⟨l, ms, is, h1, rfl, h3, rfl⟩ := C51_accepted.1 h
  obtain ⟨y, hy, e, hm⟩ := Src.numbered_makes hx
  obtain ⟨a, w, u, t, k1, k2, k3, k4⟩ := Src.doc_makes h1 h3 y hy
  exact ⟨a, w, u, t, k1, by rw [← e, ← k2]; omega, k3, hm _ _ k4⟩

/-- C84: the word and the rest are determined by where the instruction starts. -/
theorem C84_unique {s a b t t' w u w' u' : Str} (h : s = a ++ t) (h' : s = b ++ t')
    (e : blen a = blen b) (hw : Leads w u t) (hw' : Leads w' u' t') : w = w' ∧ u = u' := by
  obtain ⟨rfl, rfl⟩ := append_inj_blen (h.symm.trans h') e
  obtain ⟨e1, -, h1, h2⟩ := hw
  obtain ⟨e2, -, h3, h4⟩ := hw'
  rw [e1] at e2
  clear e1
  induction w generalizing w' with
  | nil =>
    cases w' with
    | nil => exact ⟨rfl, e2⟩
    | cons c w' => exact absurd (h3 c (by simp)) (h2 _ _ e2)
  | cons c w ih =>
    cases w' with
    | nil => exact absurd (h1 c (by simp)) (h4 _ _ e2.symm)
    | cons c' w' =>
      obtain ⟨rfl, e3⟩ := List.cons.inj e2
      obtain ⟨rfl, rfl⟩ := ih (fun c hc => h1 c (by simp [hc])) e3 (fun c hc => h3 c (by simp [hc]))
      exact ⟨rfl, rfl⟩

/-- C84: a keyword is only read as one if a blank or a line continuation comes after it. -/
theorem C84_space {k u : Str} (h : Src.Begins k u) : Src.StartsSpace u := by
  unfold Src.Begins at h
  split at h
  · obtain ⟨fs, g, c, r, rfl, h1, h2, -⟩ := h
    exact h1.starts h2.starts
  · split at h
    · obtain ⟨g, c, r, rfl, h1, -⟩ := h
      exact h1.starts
    · split at h
      · obtain ⟨fs, a, b, r, rfl, h1, h2, -⟩ := h
        refine h1.starts ?_
        simpa [Src.Arg.text] using h2.1.starts
      · split at h
        · exact h
        · obtain ⟨g, r, rfl, h1, -⟩ := h
          exact h1.starts

/-- the names of the unknown instructions of a document -/
def Spec.unknownWords (d : Dockerfile) : List Str :=
  d.instructions.filterMap fun x => match x with
    | .misc m => some m.instruction.content
    | _ => none

/-- C84: it is not so that only unknown words make unknown instructions: each keyword but `LABEL` and
`ENV` does with a blank after it, and all do with something else.  No document here has a stage, and
none is rejected. -/
theorem C84_keywords :
    ∀ s ∈ [(c!"FROM (x)", c!"FROM"), (c!"FROM:latest", c!"FROM"), (c!"RUN:x", c!"RUN"), (c!"RUN ", c!"RUN"),
        (c!"ARG 1=2", c!"ARG"), (c!"COPY a", c!"COPY"), (c!"COPY --from=a b", c!"COPY"), (c!"CMD ", c!"CMD"),
        (c!"ENTRYPOINT ", c!"ENTRYPOINT"), (c!"ENTRYPOINT[\"x\"]", c!"ENTRYPOINT"), (c!"LABEL=x", c!"LABEL"), (c!"ENV=x", c!"ENV")],
      (Dockerfile.parse Enquote.unquote s.1).toOption.map (fun d => (unknownWords d, d.stages.map (·.length))) =
        some ([s.2], some 0) ∧ lower s.2 ∈ keywords := by
  decide +kernel

/-! ## examples -/

/-- a document with instructions of both sorts -/
example : (Dockerfile.parse Enquote.unquote c!"FROM a\nCOPY b\nCopy b c\nWORKDIR d\nrun:e").toOption.map
    (fun d => (unknownWords d, d.instructions.map wordOf)) =
    some ([c!"COPY", c!"WORKDIR", c!"run"], [some c!"from", none, some c!"copy", none, none]) := by
  decide +kernel

/-- what comes after the word decides -/
example : Src.Begins c!"run" c!" x" ∧ ¬ Src.Begins c!"run" c!":x" := by
  have hs : ∀ t, ¬ Src.StartsSpace ('x' :: t) := by
    rintro t (⟨_, _, e, h⟩ | ⟨_, _, _, e, -⟩)
    · cases e; revert h; decide
    · cases e
  refine ⟨⟨[' '], ['x'], rfl, ⟨by decide, .blank (.inl rfl) (.nil (hs _))⟩, fun h => ?_⟩, fun h => ?_⟩
  · exact absurd (h _ _ rfl) (by decide)
  · rcases C84_space h with ⟨_, _, e, h⟩ | ⟨_, _, _, e, -⟩
    · cases e; revert h; decide
    · cases e

end Verif
