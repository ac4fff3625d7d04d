import Verif.Proof.Join

/-!
# A line feed after the end of a document: items
-/

namespace Verif
namespace Src
open Spec

theorem zend_lf : ZEnd ['\n'] := fun _ _ e => .inr (.inr (.inl (List.cons.inj e).1.symm))

theorem eol_nil : Eol [] := fun c b e => by cases e

theorem eol_lf : Eol ['\n'] := fun _ _ e => .inl (List.cons.inj e).1.symm

theorem break_lf (r : Str) : LineBreak ['\n'] r := .inl rfl

theorem notStartsSpace_nil : ¬ StartsSpace [] := by
  rintro (⟨c, t, e, -⟩ | ⟨w, n, t, e, -⟩) <;> cases e

theorem notStartsSpace_lf : ¬ StartsSpace ['\n'] := by
  rintro (⟨c, t, e, h⟩ | ⟨w, n, t, e, -⟩)
  · obtain rfl := (List.cons.inj e).1
    simp at h
  · exact absurd (List.cons.inj e).1 (by decide)

theorem notSkippable_blanks {w : Str} (hw : Blanks w) : ¬ Skippable w := by
  rintro ⟨a, v, rfl, -, ⟨t, rfl⟩ | ⟨n, t, rfl, hn⟩⟩
  · have := hw '#' (by simp)
    simp at this
  · rcases hn with rfl | rfl | ⟨rfl, -⟩
    · have := hw '\n' (by simp)
      simp at this
    · have := hw '\r' (by simp)
      simp at this
    · have := hw '\r' (by simp)
      simp at this

theorem blanks_nil' : Blanks [] := fun _ h => by cases h

/-- a line break at the end of the text becomes longer if it is a carriage return -/
theorem break_final {n r : Str} (h : LineBreak n r) :
    LineBreak n (r ++ ['\n']) ∨ (r = [] ∧ LineBreak (n ++ ['\n']) []) := by
  by_cases hr : r = []
  · subst hr
    rcases h with rfl | rfl | ⟨rfl, -⟩
    · exact .inl (.inl rfl)
    · exact .inl (.inr (.inl rfl))
    · exact .inr ⟨rfl, .inr (.inl rfl)⟩
  · exact .inl (h.extNil hr)

theorem skip_final {l r : Str} (h : SkipLines l r) : Blanks r → SkipLines (l ++ (r ++ ['\n'])) [] := by
  induction h with
  | @nil r _ =>
    intro hr
    have := SkipLines.blank (l := []) (r := []) hr (break_lf _) (.nil (notSkippable_blanks blanks_nil'))
    simpa using this
  | @blank w n l r hw hn _ ih =>
    intro hr
    rcases break_final hn with h | ⟨e, h⟩
    · have := SkipLines.blank hw (n := n) (by simpa using h) (ih hr)
      simpa using this
    · obtain ⟨rfl, rfl⟩ := List.append_eq_nil_iff.1 e
      have := SkipLines.blank (l := []) (r := []) hw h (.nil (notSkippable_blanks blanks_nil'))
      simpa using this
  | @comment w t n l r hw ht hn _ ih =>
    intro hr
    rcases break_final hn with h | ⟨e, h⟩
    · have := SkipLines.comment hw ht (n := n) (by simpa using h) (ih hr)
      simpa using this
    · obtain ⟨rfl, rfl⟩ := List.append_eq_nil_iff.1 e
      have := SkipLines.comment (l := []) (r := []) hw ht h (.nil (notSkippable_blanks blanks_nil'))
      simpa using this
  | @lastComment w t hw ht =>
    intro _
    have := SkipLines.comment (l := []) (r := []) hw ht (break_lf _) (.nil (notSkippable_blanks blanks_nil'))
    simpa using this

/-- space at the end of the text: the line feed comes after it, or is a part of it -/
theorem space_final {g r : Str} (h : Space g r) : ¬ Open r ['\n'] →
    Space g (r ++ ['\n']) ∨ (r = [] ∧ Space (g ++ ['\n']) []) := by
  induction h with
  | @nil r h =>
    intro ho
    by_cases hr : r = []
    · subst hr; exact .inl (.nil notStartsSpace_lf)
    · exact .inl (.nil fun h' => h (h'.cut hr ho))
  | blank hc _ ih =>
    intro ho
    rcases ih ho with h | ⟨e, h⟩
    · exact .inl (.blank hc h)
    · exact .inr ⟨e, .blank hc h⟩
  | @continuation w n l g r hw hn hl hg ih =>
    intro ho
    by_cases hr : r = []
    · subst hr
      rw [List.append_nil] at hn hl
      by_cases hb : Blanks g
      · refine .inr ⟨rfl, ?_⟩
        have hs := skip_final hl hb
        rcases break_final hn with h | ⟨e, h⟩
        · have := Space.continuation hw (n := n) (by simpa using h) (by simpa using hs) (.nil notStartsSpace_nil)
          simpa using this
        · obtain ⟨rfl, rfl⟩ := List.append_eq_nil_iff.1 e
          have := Space.continuation (l := []) (g := []) (r := []) hw h
            (.nil (notSkippable_blanks blanks_nil')) (.nil notStartsSpace_nil)
          simpa using this
      · have hg' : g ≠ [] := by rintro rfl; exact hb blanks_nil'
        have h1 : LineBreak n ((l ++ g) ++ ['\n']) := hn.extNil (by simp [hg'])
        have h2 : SkipLines l (g ++ ['\n']) := hl.ext hb
        rcases ih ho with h | ⟨-, h⟩
        · exact .inl (.continuation hw (by simpa using h1) (by simpa using h2) h)
        · refine .inr ⟨rfl, ?_⟩
          have := Space.continuation hw (n := n) (by simpa using h1) (by simpa using h2) h
          simpa using this
    · exact .inl (Space.ext (.continuation hw hn hl hg) hr ho)

/-! ## words and values -/

theorem noQuoted_final {u : Str} (h : NoQuoted u) : NoQuoted (u ++ ['\n']) := by
  intro t r e hq
  obtain ⟨q, b, rfl, hc, hb⟩ := hq
  rcases List.append_eq_append_iff.1 e with ⟨x, e1, e2⟩ | ⟨x, e1, e2⟩
  · cases x with
    | nil => exact h _ [] (by simpa using e1.symm) ⟨q, b, rfl, hc, hb⟩
    | cons d x =>
      obtain ⟨rfl, e3⟩ := List.cons.inj e2
      obtain ⟨rfl, rfl⟩ := List.append_eq_nil_iff.1 e3.symm
      have e4 : (q :: b) ++ [q] = u ++ ['\n'] := by simpa using e1
      obtain ⟨-, e5⟩ := List.append_inj' e4 rfl
      obtain rfl := (List.cons.inj e5).1
      rcases hc with hc | hc <;> exact absurd hc (by decide)
  · exact h _ x e1 ⟨q, b, rfl, hc, hb⟩

theorem value_final {v : Value} {r : Str} (h : v.Fits r) (ho : ¬ Open (v.text ++ r) ['\n']) : v.Fits (r ++ ['\n']) := by
  cases v with
  | quoted t => exact h
  | bare t => exact ⟨by simpa using noQuoted_final h.1, h.2.ext zend_lf ho⟩

theorem name_final {v : Value} {r : Str} (h : v.FitsName r) (hr : r ≠ []) : v.FitsName (r ++ ['\n']) := by
  cases v with
  | quoted t => exact h
  | bare t => exact ⟨by simpa using noQuoted_final h.1, nameWord_add h.2 hr⟩

theorem pairs_final {F : Pair → Str → Prop} {fs : List Pair} {r : Str}
    (hF : ∀ f r, F f r → ¬ Open (f.text ++ r) ['\n'] → F f (r ++ ['\n'])) (h : PairsFit F fs r)
    (ho : ¬ Open (pairsText fs ++ r) ['\n']) : PairsFit F fs (r ++ ['\n']) := by
  induction fs with
  | nil => trivial
  | cons f fs ih =>
    have ho' : ¬ Open (pairsText fs ++ r) ['\n'] := notOpen_suffix (u := f.text) (by simpa [pairsText] using ho)
    exact ⟨by simpa using hF _ _ h.1 (by simpa [pairsText] using ho), ih h.2 ho'⟩

theorem label_final {f : Pair} {r : Str} (h : f.FitsLabel r) (ho : ¬ Open (f.text ++ r) ['\n']) :
    f.FitsLabel (r ++ ['\n']) := by
  have ho1 : ¬ Open (f.body ++ r) ['\n'] := notOpen_suffix (u := f.gap) (by simpa [Pair.text] using ho)
  refine ⟨by simpa using h.1.ext (by simp [Pair.body]) ho1, by simpa using name_final h.2.1 (by simp),
    value_final h.2.2 ?_⟩
  exact notOpen_suffix (u := f.name.text ++ ['=']) (by simpa [Pair.body] using ho1)

theorem env_final {f : Pair} {r : Str} (h : f.FitsEnv r) (ho : ¬ Open (f.text ++ r) ['\n']) :
    f.FitsEnv (r ++ ['\n']) := by
  have ho1 : ¬ Open (f.body ++ r) ['\n'] := notOpen_suffix (u := f.gap) (by simpa [Pair.text] using ho)
  refine ⟨by simpa using h.1.ext (by simp [Pair.body]) ho1, h.2.1, value_final h.2.2 ?_⟩
  exact notOpen_suffix (u := f.name.text ++ ['=']) (by simpa [Pair.body] using ho1)

theorem args_final {fs : List Arg} {r : Str} (h : ArgsFit fs r) (ho : ¬ Open (argsText fs ++ r) ['\n']) :
    ArgsFit fs (r ++ ['\n']) := by
  induction fs with
  | nil => trivial
  | cons f fs ih =>
    have ho' : ¬ Open (argsText fs ++ r) ['\n'] := notOpen_suffix (u := f.text) (by simpa [argsText] using ho)
    exact ⟨by simpa using Arg.ext zend_lf h.1 (by simpa [argsText] using ho), ih h.2 ho'⟩

/-! ## shell text -/

/-- a text without line feeds in front lies in front of the line feed -/
theorem before_lf {u a b : Str} (e : u ++ ['\n'] = a ++ b) (ha : ∀ c ∈ a, c ≠ '\n') :
    ∃ u', u = a ++ u' ∧ b = u' ++ ['\n'] := by
  rcases List.append_eq_append_iff.1 e with ⟨x, rfl, e2⟩ | ⟨x, rfl, e2⟩
  · cases x with
    | nil => exact ⟨[], by simp, e2.symm⟩
    | cons c x => exact absurd (List.cons.inj e2).1.symm (ha c (by simp))
  · exact ⟨x, rfl, e2⟩

theorem eol_final {r : Str} (h : Eol r) : Eol (r ++ ['\n']) := by
  by_cases hr : r = []
  · subst hr; exact eol_lf
  · exact h.ext hr

theorem piece_final {t r : Str} (h : Shell.Piece t r) (ho : ¬ Open (t ++ r) ['\n']) : Shell.Piece t (r ++ ['\n']) := by
  refine ⟨h.1, h.2.1, fun a b e hb hc => ?_, fun w u hw e => ?_⟩
  · subst e
    rw [← List.append_assoc] at hc
    exact h.2.2.1 a b rfl hb (hc.cut (by simp [hb]) (notOpen_suffix (u := a) (by simpa using ho)))
  · obtain ⟨u', e', -⟩ := before_lf (u := t ++ r) (a := w ++ ['#']) (b := u) (by simpa using e) (by
      intro c hc
      rcases List.mem_append.1 hc with hc | hc
      · rcases hw c hc with rfl | rfl <;> decide
      · rw [List.mem_singleton.1 hc]; decide)
    exact h.2.2.2 w u' hw (by simpa using e')

theorem shell_final {s : Shell} {r : Str} (h : s.Fits r) (ho : ¬ Open (s.text ++ r) ['\n']) :
    s.Fits (r ++ ['\n']) ∨
      (r = [] ∧ ∃ s' : Shell, s'.text = s.text ++ ['\n'] ∧ s'.Fits [] ∧ ∀ p, s'.components p = s.components p) := by
  induction s with
  | last t => exact .inl ⟨piece_final h.1 ho, eol_final h.2⟩
  | lastComment w t n =>
    rcases h.2.2 with ⟨rfl, rfl⟩ | h'
    · exact .inr ⟨rfl, .lastComment w t ['\n'], by simp [Shell.text], ⟨h.1, h.2.1, .inr ⟨break_lf _, eol_nil⟩⟩,
        fun p => rfl⟩
    · rcases break_final h'.1 with h1 | ⟨rfl, h1⟩
      · exact .inl ⟨h.1, h.2.1, .inr ⟨h1, eol_final h'.2⟩⟩
      · exact .inr ⟨rfl, .lastComment w t (n ++ ['\n']), by simp [Shell.text], ⟨h.1, h.2.1, .inr ⟨h1, eol_nil⟩⟩,
          fun p => rfl⟩
  | more t w n s ih =>
    have hp := piece_final h.1 (by simpa [Shell.text] using ho)
    have hn := h.2.2.1.extNil (z := ['\n']) (by simp [shell_ne h.2.2.2])
    rcases ih h.2.2.2 (notOpen_suffix (u := t ++ '\\' :: (w ++ n)) (by simpa [Shell.text] using ho)) with
      h1 | ⟨rfl, s', e, h1, h2⟩
    · exact .inl ⟨by simpa using hp, h.2.1, by simpa using hn, h1⟩
    · refine .inr ⟨rfl, .more t w n s', by simp [Shell.text, e], ⟨?_, h.2.1, ?_, h1⟩, fun p => by simp [Shell.components, h2]⟩
      · simpa [e] using hp
      · simpa [e] using hn
  | comment w t n s ih =>
    have hn := h.2.2.1.extNil (z := ['\n']) (by simp [shell_ne h.2.2.2])
    rcases ih h.2.2.2 (notOpen_suffix (u := w ++ (t ++ n)) (by simpa [Shell.text] using ho)) with
      h1 | ⟨rfl, s', e, h1, h2⟩
    · exact .inl ⟨h.1, h.2.1, by simpa using hn, h1⟩
    · refine .inr ⟨rfl, .comment w t n s', by simp [Shell.text, e], ⟨h.1, h.2.1, ?_, h1⟩, fun p => by simp [Shell.components, h2]⟩
      simpa [e] using hn

/-! ## arrays and keywords -/

theorem noArray_final {u : Str} (h : NoArray u) : NoArray (u ++ ['\n']) := by
  intro a r e hf
  rcases List.append_eq_append_iff.1 e with ⟨x, e1, e2⟩ | ⟨x, e1, e2⟩
  · cases x with
    | nil =>
      refine h a [] (by simpa using e1.symm) (array_upto (z := ['\n']) ?_)
      rw [List.nil_append] at e2
      simpa [e2] using hf
    | cons d x =>
      obtain ⟨rfl, e3⟩ := List.cons.inj e2
      obtain ⟨rfl, rfl⟩ := List.append_eq_nil_iff.1 e3.symm
      have : ∃ b, a.text = b ++ [']'] := by
        cases a with
        | empty g => exact ⟨'[' :: g, by simp [Array.text]⟩
        | full g v es c g' =>
          exact ⟨'[' :: (g ++ (v ++ (elemsText es ++ ((if c then [','] else []) ++ g')))),
            by simp [Array.text, Array.tail]⟩
      obtain ⟨b, eb⟩ := this
      rw [eb] at e1
      obtain ⟨-, e5⟩ := List.append_inj' e1 rfl
      exact absurd (List.cons.inj e5).1 (by decide)
  · subst e2
    exact h a x e1 (array_upto (z := ['\n']) hf)

theorem word_chars {w r : Str} (h : Word w r) : ∀ c ∈ w, c ≠ '\n' := by
  rintro c hc rfl
  obtain ⟨a, b, rfl⟩ := List.append_of_mem hc
  exact h.2.1 a ('\n' :: b) rfl (by simp) (.inl fun d t e => .inl (List.cons.inj e).1.symm)

/-- the rest of a text that ends with a line feed -/
theorem ends_lf {u a b : Str} (e : u ++ ['\n'] = a ++ b) (hb : b ≠ []) : ∃ b', u = a ++ b' ∧ b = b' ++ ['\n'] := by
  rcases List.append_eq_append_iff.1 e with ⟨x, rfl, e2⟩ | ⟨x, rfl, e2⟩
  · cases x with
    | nil => exact ⟨[], by simp, e2.symm⟩
    | cons c x => exact absurd (List.append_eq_nil_iff.1 (List.cons.inj e2).2.symm).2 hb
  · exact ⟨x, rfl, e2⟩

theorem ends_cons {u a b : Str} {c : Char} (e : u ++ ['\n'] = a ++ c :: b) (hc : c ≠ '\n') :
    ∃ b', u = a ++ c :: b' ∧ b = b' ++ ['\n'] := by
  obtain ⟨b', h1, h2⟩ := ends_lf e (by simp)
  cases b' with
  | nil => exact absurd (List.cons.inj h2).1 hc
  | cons d b' =>
    obtain ⟨rfl, rfl⟩ := List.cons.inj h2
    exact ⟨b', h1, rfl⟩

theorem begins_final {k u : Str} (h : Begins k (u ++ ['\n'])) (hu : u ≠ []) (ho : ¬ Open u ['\n']) : Begins k u := by
  unfold Begins at h ⊢
  split
  · rename_i hk
    rw [if_pos hk] at h
    obtain ⟨fs, g, c, r, e, h1, h2, h3, h4⟩ := h
    obtain ⟨r', rfl, rfl⟩ := ends_cons (a := flagsText fs ++ g) (by simpa using e) (by
      rintro rfl; revert h3; unfold IsImageChar IsAlpha IsDigit; decide)
    have ho1 : ¬ Open (flagsText fs ++ (g ++ c :: r')) ['\n'] := by simpa using ho
    refine ⟨fs, g, c, r', by simp, flags_cut (z := ['\n']) zend_lf (by simpa using h1) ho1,
      Gap.cut (z := ['\n']) (by simpa using h2), h3, fun h => h4 ?_⟩
    have := StartsFlag.ext (z := ['\n']) zend_lf h (notOpen_suffix (notOpen_suffix ho1))
    simpa using this
  rename_i hk1
  rw [if_neg hk1] at h
  split
  · rename_i hk
    rw [if_pos hk] at h
    obtain ⟨g, c, r, e, h1, h2⟩ := h
    obtain ⟨r', rfl, rfl⟩ := ends_cons e (by
      rintro rfl; revert h2; unfold IsAlpha; decide)
    exact ⟨g, c, r', rfl, Gap.cut (z := ['\n']) (by simpa using h1), h2⟩
  rename_i hk2
  rw [if_neg hk2] at h
  split
  · rename_i hk
    rw [if_pos hk] at h
    obtain ⟨fs, a, b, r, e, h1, h2, h3, h4⟩ := h
    have : ∃ r', u = flagsText fs ++ (a.text ++ (b.text ++ r')) ∧ r = r' ++ ['\n'] := by
      obtain ⟨v, h5, h6⟩ := ends_lf (a := flagsText fs ++ (a.text ++ b.gap)) (b := b.value ++ r)
        (by simpa [Arg.text] using e) (by simp [h3.2.1])
      obtain ⟨r', rfl, rfl⟩ := before_lf h6.symm (word_chars h3.2)
      exact ⟨r', by simp [h5, Arg.text], rfl⟩
    obtain ⟨r', rfl, rfl⟩ := this
    have ho1 : ¬ Open (a.text ++ (b.text ++ r')) ['\n'] := notOpen_suffix ho
    have ho2 : ¬ Open (b.text ++ r') ['\n'] := notOpen_suffix ho1
    refine ⟨fs, a, b, r', rfl, flags_cut (z := ['\n']) zend_lf (by simpa using h1) ho,
      Arg.cut (z := ['\n']) zend_lf (by simpa using h2) ho2, Arg.cut zend_lf h3 (notOpen_suffix ho2), fun h => h4 ?_⟩
    have := StartsFlag.ext (z := ['\n']) zend_lf h
      (notOpen_suffix (u := a.gap) (by simpa [Arg.text] using ho1))
    simpa using this
  rename_i hk3
  rw [if_neg hk3] at h
  split
  · rename_i hk
    rw [if_pos hk] at h
    exact h.cut hu ho
  rename_i hk4
  rw [if_neg hk4] at h
  obtain ⟨g, r, e, h1, h2⟩ := h
  cases r with
  | nil => exact absurd eol_nil h2
  | cons c r =>
    obtain ⟨r', rfl, rfl⟩ := ends_cons e (by
      rintro rfl; exact h2 fun d t e => .inl (List.cons.inj e).1.symm)
    exact ⟨g, c :: r', rfl, Gap.cut (z := ['\n']) (by simpa using h1), fun h => h2 (by simpa using h.ext (z := ['\n']) (by simp))⟩

/-! ## items -/

/-- neither `FROM` nor `ARG` -/
def Other (x : Instruction) : Prop := (∀ f, x ≠ .from f) ∧ ∀ a, x ≠ .arg a

/-- the same instruction up to spans, or the same error -/
def SameItem (i i' : Item) : Prop := ∀ (unq : Unquote) (p : Nat),
  (∃ e, i.eval unq p = .error e ∧ i'.eval unq p = .error e) ∨
  ∃ x y, i.eval unq p = .ok (some x) ∧ i'.eval unq p = .ok (some y) ∧ y.remap (fun _ => 0) = x.remap (fun _ => 0) ∧
    Other x ∧ Other y

theorem string_kept {s s' : Shell} (h : ∀ p, s'.components p = s.components p) (p : Nat) :
    (s'.string p).remap (fun _ => 0) = (s.string p).remap fun _ => 0 := by
  simp [Shell.string, BreakableString.remap, Span.remap, h]

/-- An item with a line feed after it: nothing changes, or the line feed becomes its end. -/
theorem item_final {i : Item} {r : Str} (h : i.Fits r) (ho : ¬ Open (i.text ++ r) ['\n']) :
    i.Fits (r ++ ['\n']) ∨
      (r = [] ∧ ∃ i' : Item, i'.text = i.text ++ ['\n'] ∧ i'.Fits [] ∧ SameItem i i') := by
  have hr : ¬ Open r ['\n'] := notOpen_suffix ho
  cases i with
  | blank => exact .inl trivial
  | comment t => exact .inl ⟨h.1, eol_final h.2⟩
  | «from» kw fs g i a =>
    obtain ⟨h1, h2, h3, h4, h5, h6⟩ := h
    have ho1 : ¬ Open (flagsText fs ++ (g ++ (i ++ (aliasText a ++ r)))) ['\n'] :=
      notOpen_suffix (u := kw) (by simpa [Item.text] using ho)
    have ho2 := notOpen_suffix (notOpen_suffix ho1)
    have ho3 := notOpen_suffix ho2
    refine .inl ⟨h1, by simpa using flags_ext zend_lf h2 ho1, by simpa using h3.ext (by simp [h4]) ho2, h4, h5, ?_⟩
    rintro x rfl
    obtain ⟨h7, h8, h9, h10, h11⟩ := h6 x rfl
    have ho4 : ¬ Open (x.kw ++ (x.gap' ++ (x.name ++ r))) ['\n'] :=
      notOpen_suffix (u := x.gap) (by simpa [aliasText, AliasText.text] using ho3)
    refine ⟨by simpa using h7.ext (by simp [h10]) ho4, h8,
      by simpa using h9.ext (by simp [h10]) (notOpen_suffix (notOpen_suffix ho4)), h10, h11⟩
  | arg kw g n v =>
    obtain ⟨h1, h2, h3, h4⟩ := h
    have ho1 : ¬ Open (n ++ (valueText v ++ r)) ['\n'] :=
      notOpen_suffix (u := kw ++ g) (by simpa [Item.text] using ho)
    refine .inl ⟨h1, ?_, h3, ?_⟩
    · obtain ⟨c, b, rfl, -⟩ := h3
      simpa using h2.ext (by simp) ho1
    rintro x rfl
    refine value_final (h4 x rfl) ?_
    exact notOpen_suffix (u := n ++ ['=']) (by simpa [valueText] using ho1)
  | label kw ps t =>
    obtain ⟨h1, h2, h3, h4, h5⟩ := h
    have ho1 : ¬ Open (pairsText ps ++ (t ++ r)) ['\n'] := notOpen_suffix (u := kw) (by simpa [Item.text] using ho)
    have hp := pairs_final (fun f r h ho => label_final h ho) h2 ho1
    rcases space_final h3 hr with h | ⟨rfl, h⟩
    · exact .inl ⟨h1, by simpa using hp, h, h4, eol_final h5⟩
    · refine .inr ⟨rfl, .label kw ps (t ++ ['\n']), by simp [Item.text],
        ⟨h1, by simpa using hp, h, .inr (by simp), eol_nil⟩, fun unq p => ?_⟩
      simp only [Item.eval]
      cases evalPairs (Pair.evalLabel unq) (p + blen kw) ps with
      | error e => exact .inl ⟨e, rfl, rfl⟩
      | ok xs => exact .inr ⟨_, _, rfl, rfl, by simp [Instruction.remap, LabelInstruction.remap, Span.remap], by simp [Other], by simp [Other]⟩
  | label1 kw g n g' v =>
    obtain ⟨h1, h2, h3, h4, h5⟩ := h
    have ho1 : ¬ Open (n.text ++ (g' ++ (v.text ++ r))) ['\n'] :=
      notOpen_suffix (u := kw ++ g) (by simpa [Item.text] using ho)
    have ho2 := notOpen_suffix (notOpen_suffix ho1)
    have hg := h4.1
    have hv : v.text ++ r ≠ [] := by
      cases v with
      | quoted t => simp [Value.text, quoted_ne h5]
      | bare t => simp [Value.text, h5.2.1]
    exact .inl ⟨h1, by simpa using h2.ext (by simp [hg]) ho1, by simpa using name_final h3 (by simp [hg]),
      by simpa using h4.ext hv ho2, value_final h5 ho2⟩
  | shell k kw g s =>
    obtain ⟨h1, h2, h3, h4⟩ := h
    have ho1 : ¬ Open (s.text ++ r) ['\n'] := notOpen_suffix (u := kw ++ g) (by simpa [Item.text] using ho)
    have hg := h2.ext (by simp [shell_ne h3]) ho1
    have ha := noArray_final h4
    rcases shell_final h3 ho1 with h | ⟨rfl, s', e, h, hc⟩
    · exact .inl ⟨h1, by simpa using hg, h, by simpa using ha⟩
    · refine .inr ⟨rfl, .shell k kw g s', by simp [Item.text, e],
        ⟨h1, by simpa [e] using hg, h, by simpa [e] using ha⟩, fun unq p => ?_⟩
      simp only [Item.eval]
      split
      · exact .inl ⟨_, rfl, rfl⟩
      · refine .inr ⟨_, _, rfl, rfl, ?_, by cases k <;> simp [Other, ExecKind.instr], by cases k <;> simp [Other, ExecKind.instr]⟩
        have := string_kept hc (p + blen kw + blen g)
        cases k <;> simp [ExecKind.instr, Instruction.remap, ExecInstruction.remap, ShellOrExecExpr.remap, this, Span.remap]
  | exec k kw g a =>
    obtain ⟨h1, h2, h3⟩ := h
    have ho1 : ¬ Open (a.text ++ r) ['\n'] := notOpen_suffix (u := kw ++ g) (by simpa [Item.text] using ho)
    have hne : a.text ++ r ≠ [] := by cases a <;> simp [Array.text]
    exact .inl ⟨h1, by simpa using h2.ext hne ho1, array_ext h3 ho1⟩
  | copy kw fs ss d =>
    obtain ⟨h1, h2, h3, h4, h5⟩ := h
    have e : argsText (ss ++ [d]) = argsText ss ++ d.text := by simp [argsText]
    have ho1 : ¬ Open (flagsText fs ++ (argsText (ss ++ [d]) ++ r)) ['\n'] :=
      notOpen_suffix (u := kw) (by simpa [Item.text, e] using ho)
    refine .inl ⟨h1, by simpa using flags_ext zend_lf h2 ho1, h3, args_final h4 (notOpen_suffix ho1), ?_⟩
    rintro f b rfl hf
    refine h5 f b rfl (StartsFlag.cut (z := ['\n']) zend_lf (by simpa using hf) ?_)
    exact notOpen_suffix (u := flagsText fs ++ f.gap) (by simpa [argsText, Arg.text] using ho1)
  | env kw ps t =>
    obtain ⟨h1, h2, h3, h4, h5⟩ := h
    have ho1 : ¬ Open (pairsText ps ++ (t ++ r)) ['\n'] := notOpen_suffix (u := kw) (by simpa [Item.text] using ho)
    have hp := pairs_final (fun f r h ho => env_final h ho) h2 ho1
    rcases space_final h3 hr with h | ⟨rfl, h⟩
    · exact .inl ⟨h1, by simpa using hp, h, h4, eol_final h5⟩
    · refine .inr ⟨rfl, .env kw ps (t ++ ['\n']), by simp [Item.text],
        ⟨h1, by simpa using hp, h, .inr (by simp), eol_nil⟩, fun unq p => ?_⟩
      simp only [Item.eval]
      cases evalPairs (Pair.evalEnv unq) (p + blen kw) ps with
      | error e => exact .inl ⟨e, rfl, rfl⟩
      | ok xs => exact .inr ⟨_, _, rfl, rfl, by simp [Instruction.remap, EnvInstruction.remap, Span.remap], by simp [Other], by simp [Other]⟩
  | env1 kw g n g' s =>
    obtain ⟨h1, h2, h3, h4, h5, h6, h7⟩ := h
    have ho1 : ¬ Open (n ++ (g' ++ (s.text ++ r))) ['\n'] :=
      notOpen_suffix (u := kw ++ g) (by simpa [Item.text] using ho)
    have ho2 := notOpen_suffix (notOpen_suffix ho1)
    have hg := h2.ext (by simp [h3]) ho1
    have hg' := h5.ext (by simp [shell_ne h6]) ho2
    have hq := noQuoted_final h7
    rcases shell_final h6 ho2 with h | ⟨rfl, s', e, h, hc⟩
    · exact .inl ⟨h1, by simpa using hg, h3, h4, by simpa using hg', h, by simpa using hq⟩
    · refine .inr ⟨rfl, .env1 kw g n g' s', by simp [Item.text, e],
        ⟨h1, by simpa [e] using hg, h3, h4, by simpa [e] using hg', h, by simpa [e] using hq⟩, fun unq p => ?_⟩
      refine .inr ⟨_, _, rfl, rfl, ?_, by simp [Other], by simp [Other]⟩
      have := string_kept hc (p + blen kw + blen g + blen n + blen g')
      simp [Instruction.remap, EnvInstruction.remap, EnvVar.remap, SpannedString.remap, Span.remap, this]
  | env1q kw g n g' v =>
    obtain ⟨h1, h2, h3, h4, h5, h6⟩ := h
    have ho1 : ¬ Open (n ++ (g' ++ (v ++ r))) ['\n'] :=
      notOpen_suffix (u := kw ++ g) (by simpa [Item.text] using ho)
    exact .inl ⟨h1, by simpa using h2.ext (by simp [h3]) ho1, h3, h4,
      by simpa using h5.ext (by simp [quoted_ne h6]) (notOpen_suffix (notOpen_suffix ho1)), h6⟩
  | misc w a =>
    obtain ⟨h1, h2, h3, h4, h5⟩ := h
    have ho1 : ¬ Open (a.text ++ r) ['\n'] := notOpen_suffix (u := w) (by simpa [Item.text] using ho)
    have hb : IsKeyword w → ¬ Begins (lower w) (a.text ++ r ++ ['\n']) := fun hk hb =>
      h5 hk (begins_final hb (by simp [shell_ne h3]) ho1)
    rcases shell_final h3 ho1 with h | ⟨rfl, s', e, h, hc⟩
    · exact .inl ⟨h1, h2, h, h4, fun hk => by simpa using hb hk⟩
    · refine .inr ⟨rfl, .misc w s', by simp [Item.text, e], ⟨h1, h2, h, fun c b e' => ?_, fun hk => by simpa [e] using hb hk⟩,
        fun unq p => .inr ⟨_, _, rfl, rfl, ?_, by simp [Other], by simp [Other]⟩⟩
      · have hne := shell_ne h3
        cases ht : a.text with
        | nil => exact absurd ht hne
        | cons d b' =>
          rw [e, ht] at e'
          obtain ⟨rfl, -⟩ := List.cons.inj e'
          exact h4 d b' ht
      · have := string_kept hc (p + blen w)
        simp [Instruction.remap, MiscInstruction.remap, SpannedString.remap, Span.remap, this]

end Src
end Verif
