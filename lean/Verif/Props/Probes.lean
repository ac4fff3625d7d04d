import Verif.Props.Probe
import Verif.Props.Alter

/-! # C109: two texts decide whether lines can be put in front of every text, whatever is left open -/

namespace Verif
open Spec

namespace Src

theorem quotedText_cross {v r x b : Str} (h : QuotedText v) (e : v ++ r = x ++ b) (hx : BreakEnd x) :
    (∃ y, x = v ++ y ∧ r = y ++ b ∧ BreakEnd y) ∨
    ∃ q, (q = '"' ∨ q = '\'') ∧ QuotedText (x ++ ['X', ' ', q]) := by
  obtain ⟨q, u, rfl, hq, hu⟩ := h
  have hlast : x.getLast? ≠ some '\\' := by
    obtain ⟨a, c, rfl, rfl | rfl⟩ := hx <;> simp
  cases x with
  | nil => exact absurd rfl hx.ne
  | cons c x =>
    have e0 : q :: (u ++ (q :: r)) = c :: (x ++ b) := by simpa using e
    obtain ⟨rfl, e'⟩ := List.cons.inj e0
    have hx' : x.getLast? ≠ some '\\' := by
      cases x with
      | nil => simp
      | cons d x => rwa [List.getLast?_cons_cons] at hlast
    have done : ∀ v, u = x ++ v → ∃ q', (q' = '"' ∨ q' = '\'') ∧ QuotedText (q :: x ++ ['X', ' ', q']) := by
      intro v ev
      have hw : QuotedBody q ['X', ' '] := by
        rcases hq with rfl | rfl <;>
          exact .chr (by decide) (by decide) (by decide) (by decide) (.chr (by decide) (by decide) (by decide) (by decide) .nil)
      exact ⟨q, hq, q, x ++ ['X', ' '], by simp, hq, body_swap hw hu ev hx'⟩
    rcases List.append_eq_append_iff.1 e' with ⟨w, e1, e2⟩ | ⟨w, e1, e2⟩
    · cases w with
      | nil => exact .inr (done [] (by simpa using e1.symm))
      | cons d w =>
        obtain ⟨rfl, e2'⟩ := List.cons.inj e2
        refine .inl ⟨w, by simp [e1], e2', ?_⟩
        have hw : w ≠ [] := by
          rintro rfl
          obtain ⟨a, c, e3, hc⟩ := hx
          have : (q :: x).getLast? = some c := by rw [e3]; simp
          rw [e1, ← List.cons_append, List.getLast?_concat] at this
          cases this
          rcases hq with rfl | rfl <;> exact absurd hc (by decide)
        exact BreakEnd.right (a := q :: (u ++ [q])) (by simpa [e1] using hx) hw
    · exact .inr (done w e1)

section
variable {b : Str} (sw : Swap true b [] [])
include sw

/-- space that does not end in front of `b` lies in front of `b` completely -/
theorem space_cross {g r x : Str} (h : Space g r) (hr : ¬ (true = true ∧ Bare r)) (e : g ++ r = x ++ b) (hx : Seam x b []) :
    (∃ y, x = g ++ y ∧ r = y ++ b ∧ Seam y b [] ∧ Space g y) ∨ ∃ g', g' ++ r = x ∧ Space g' r := by
  have eb : b ++ [] = b := List.append_nil b
  rcases space_seam sw h hr x (by rw [eb]; exact e) (by rw [eb]; exact hx) with ⟨y, e1, e2, h1, h2⟩ | ⟨g', e1, -, h2⟩
  · rw [eb] at e2 h1
    exact .inl ⟨y, e1, e2, h1, by simpa using h2⟩
  · exact .inr ⟨g', by simpa using e1, h2⟩

theorem elems_cross {T : Str} (es : List Elem) : ∀ {x : Str}, ElemsFit es T → elemsText es ++ T = x ++ b → Seam x b [] →
    (∃ y, x = elemsText es ++ y ∧ T = y ++ b ∧ Seam y b [] ∧ ElemsFit es y) ∨
    (∃ es', elemsText es' ++ T = x ∧ ElemsFit es' T) ∨
    ∃ q es', (q = '"' ∨ q = '\'') ∧ elemsText es' = x ++ ['X', ' ', q] ∧ ∀ R, ElemsFit es' R := by
  induction es with
  | nil => intro x _ e hx; exact .inl ⟨x, rfl, e, hx, trivial⟩
  | cons el es ih =>
    obtain ⟨g1, g2, v⟩ := el
    intro x h e hx
    obtain ⟨⟨h1, h2, h3⟩, h4⟩ := h
    simp only at h1 h2 h3
    have comma : ∀ {t : Str}, ¬ (true = true ∧ Bare (',' :: t)) := not_bare_char (by unfold IsAlpha; decide) (by decide)
    have e : g1 ++ ',' :: (g2 ++ (v ++ (elemsText es ++ T))) = x ++ b := by
      simpa [elemsText, Elem.text] using e
    rcases space_cross sw h1 comma e hx with ⟨y, rfl, e1, hy, s1⟩ | ⟨g', e1, s1⟩
    · obtain ⟨y1, rfl, e2, hy1⟩ := hy.char e1 (by decide)
      rcases space_cross sw h2 (not_bare_quoted h3) e2 hy1 with ⟨y2, rfl, e3, hy2, s2⟩ | ⟨g', e3, s2⟩
      · rcases quotedText_cross h3 e3 hy2.brk with ⟨y3, rfl, e4, hy3⟩ | ⟨q, hq, h5⟩
        · rcases ih h4 e4 (hy2.right hy3.ne) with ⟨y4, rfl, e5, h5, h6⟩ | ⟨es', e5, h5⟩ | ⟨q, es', hq, e5, h5⟩
          · refine .inl ⟨y4, by simp [elemsText, Elem.text], e5, h5, ⟨?_, ?_, h3⟩, h6⟩
            · simpa using s1
            · simpa using s2
          · refine .inr (.inl ⟨⟨g1, g2, v⟩ :: es', by rw [← e5]; simp [elemsText, Elem.text], ⟨?_, ?_, h3⟩, h5⟩)
            · simpa [← e5] using s1
            · simpa [← e5] using s2
          · refine .inr (.inr ⟨q, ⟨g1, g2, v⟩ :: es', hq, ?_, fun R => ⟨⟨?_, ?_, h3⟩, h5 R⟩⟩)
            · have : elemsText (⟨g1, g2, v⟩ :: es') = (g1 ++ ',' :: (g2 ++ v)) ++ elemsText es' := rfl
              rw [this, e5]
              simp
            · have := space_add (z := ['X', ' ', q] ++ R) s1 hy.brk
              simpa [e5] using this
            · have := space_add (z := ['X', ' ', q] ++ R) s2 hy2.brk
              simpa [e5] using this
        · refine .inr (.inr ⟨q, [⟨g1, g2, y2 ++ ['X', ' ', q]⟩], hq, by simp [elemsText, Elem.text], fun R => ⟨⟨?_, ?_, h5⟩, trivial⟩⟩)
          · have := space_add (z := ['X', ' ', q] ++ R) s1 hy.brk
            simpa [elemsText] using this
          · have := space_add (z := ['X', ' ', q] ++ R) s2 hy2.brk
            simpa [elemsText] using this
      · subst e3
        exact .inr (.inl ⟨⟨g1, g', v⟩ :: es, by simp [elemsText, Elem.text], ⟨by simpa using s1, s2, h3⟩, h4⟩)
    · subst e1
      exact .inr (.inl ⟨⟨g', g2, v⟩ :: es, by simp [elemsText, Elem.text], ⟨s1, h2, h3⟩, h4⟩)

/-- An array that ends behind `x` has a string that does so; and one of the lines `X "]` and `X ']` closes both. -/
theorem array_cross {x : Str} (hx : Seam x b []) (hn : ¬ BeginsArray x) (h : BeginsArray (x ++ b)) :
    ∃ q, (q = '"' ∨ q = '\'') ∧ BeginsArray (x ++ ['X', ' ', q, ']', '\n']) := by
  obtain ⟨a, r, e, ha⟩ := h
  have close : ∀ {t : Str}, ¬ (true = true ∧ Bare (']' :: t)) := not_bare_char (by unfold IsAlpha; decide) (by decide)
  have spc : Space [] [']', '\n'] := .nil fun h => by
    rcases h with ⟨c, t, e, hc⟩ | ⟨w, n, t, e, -⟩
    · obtain ⟨rfl, -⟩ := List.cons.inj e
      revert hc; decide
    · exact absurd (List.cons.inj e).1 (by decide)
  cases a with
  | empty g =>
    exfalso
    obtain ⟨y, rfl, e1, hy⟩ := hx.char (c := '[') (b := g ++ ']' :: r) (by simpa [Array.text] using e.symm) (by decide)
    rcases space_cross sw ha close e1 hy with ⟨y', rfl, e2, hy', s⟩ | ⟨g', e2, s⟩
    · obtain ⟨y'', rfl, -, -⟩ := hy'.char e2 (by decide)
      exact hn ⟨.empty g, y'', by simp [Array.text], s⟩
    · exact hn ⟨.empty g', r, by simpa [Array.text] using e2.symm, s⟩
  | full g v es c g' =>
    obtain ⟨h1, h2, h3, h4⟩ := ha
    obtain ⟨y, rfl, e1, hy⟩ := hx.char (c := '[') (b := g ++ (v ++ (elemsText es ++ (Array.tail c g' ++ r))))
      (by simpa [Array.text] using e.symm) (by decide)
    rcases space_cross sw h1 (not_bare_quoted h2) e1 hy with ⟨y1, rfl, e2, hy1, s1⟩ | ⟨g1, e2, s1⟩
    · rcases quotedText_cross h2 e2 hy1.brk with ⟨y2, rfl, e3, hy2⟩ | ⟨q, hq, h5⟩
      · have s1' : ∀ z, Space g (v ++ (y2 ++ z)) := fun z => by simpa using space_add (z := z) s1 hy1.brk
        rcases elems_cross sw es h3 e3 (hy1.right hy2.ne) with ⟨y3, rfl, e4, hy3, h5⟩ | ⟨es', e4, h5⟩ | ⟨q, es', hq, e4, h5⟩
        · exfalso
          -- the end of the array
          obtain ⟨y4, rfl, e5, hy4⟩ : ∃ y4, y3 = (if c then [','] else []) ++ y4 ∧ g' ++ ']' :: r = y4 ++ b ∧ Seam y4 b [] := by
            cases c with
            | false => exact ⟨y3, rfl, by simpa [Array.tail] using e4, hy3⟩
            | true =>
              obtain ⟨y4, rfl, e5, h6⟩ := hy3.char (c := ',') (b := g' ++ ']' :: r) (by simpa [Array.tail] using e4) (by decide)
              exact ⟨y4, by simp, e5, h6⟩
          rcases space_cross sw h4 close e5 hy4 with ⟨y5, rfl, e6, hy5, s2⟩ | ⟨g2, e6, s2⟩
          · obtain ⟨y6, rfl, -, -⟩ := hy5.char e6 (by decide)
            exact hn ⟨.full g v es c g', y6, by simp [Array.text, Array.tail],
              by simpa [Array.tail] using s1, h2, by simpa [Array.tail] using h5, s2⟩
          · subst e6
            exact hn ⟨.full g v es c g2, r, by simp [Array.text, Array.tail],
              by simpa [Array.tail] using s1, h2, by simpa [Array.tail] using h5, s2⟩
        · exact absurd ⟨.full g v es' c g', r, by simp [Array.text, ← e4], by simpa [← e4] using s1, h2, h5, h4⟩ hn
        · refine ⟨q, hq, .full g v es' false [], ['\n'], ?_, ?_, h2, h5 _, spc⟩
          · simp [Array.text, Array.tail, e4]
          · simpa [Array.tail, e4] using s1' ['X', ' ', q, ']', '\n']
      · refine ⟨q, hq, .full g (y1 ++ ['X', ' ', q]) [] false [], ['\n'], ?_, ?_, h5, trivial, spc⟩
        · simp [Array.text, Array.tail, elemsText]
        · simpa [Array.tail, elemsText] using space_add (z := ['X', ' ', q, ']', '\n']) s1 hy1.brk
    · exact absurd ⟨.full g1 v es c g', r, by simpa [Array.text] using e2.symm, s1, h2, h3, h4⟩ hn

end

/-! ## arguments of a keyword -/

theorem not_startsSpace_X {t : Str} : ¬ StartsSpace ('X' :: t) := by
  rintro (⟨c, u, e, hc⟩ | ⟨w, n, u, e, -⟩)
  · obtain ⟨rfl, -⟩ := List.cons.inj e
    revert hc; decide
  · exact absurd (List.cons.inj e).1 (by decide)

theorem not_skippable_X {t : Str} : ¬ Skippable ('X' :: t) := by
  rintro ⟨w, v, e, hw, h⟩
  cases w with
  | cons c w =>
    obtain ⟨rfl, -⟩ := List.cons.inj e
    have := hw 'X' (by simp)
    revert this; decide
  | nil =>
    have e : 'X' :: t = v := e
    subst e
    rcases h with ⟨u, e⟩ | ⟨n, u, e, rfl | rfl | ⟨rfl, -⟩⟩ <;> exact absurd (List.cons.inj e).1 (by decide)

section
variable {b t : Str}

theorem skip_into {k r : Str} (h : SkipLines k r) :
    ∀ x, k ++ r = x ++ b → (x = [] ∨ Seam x b ('X' :: t)) →
    (∃ y, x = k ++ y ∧ r = y ++ b ∧ Seam y b ('X' :: t)) ∨ SkipLines x ('X' :: t) := by
  induction h with
  | nil h =>
    rintro x e (rfl | hx)
    · exact .inr (.nil not_skippable_X)
    · exact .inl ⟨x, rfl, e, hx⟩
  | @blank w n l r hw hn hl ih =>
    rintro x e (rfl | hx)
    · exact .inr (.nil not_skippable_X)
    obtain ⟨x1, rfl, e1, hx1⟩ := hx.before (a := w) (b := n ++ (l ++ r)) (by simpa using e)
      (by intro c hc; rcases hw c hc with rfl | rfl <;> decide)
    obtain ⟨x2, rfl, e2, hx2, hn2⟩ := hx1.line e1 hn
    rcases ih x2 e2 hx2 with ⟨y, rfl, h1, h2⟩ | h2
    · exact .inl ⟨y, by simp, h1, h2⟩
    · exact .inr (.blank hw hn2 h2)
  | @comment w c n l r hw ht hn hl ih =>
    rintro x e (rfl | hx)
    · exact .inr (.nil not_skippable_X)
    obtain ⟨x1, rfl, e1, hx1⟩ := hx.before (a := w ++ c) (b := n ++ (l ++ r)) (by simpa using e) (by
      intro c hc
      rcases List.mem_append.1 hc with hc | hc
      · rcases hw c hc with rfl | rfl <;> decide
      · obtain ⟨b, rfl, hb⟩ := ht
        rcases List.mem_cons.1 hc with rfl | hc
        · decide
        · exact fun h => h.elim (hb c hc).1 (hb c hc).2)
    obtain ⟨x2, rfl, e2, hx2, hn2⟩ := hx1.line e1 hn
    rcases ih x2 e2 hx2 with ⟨y, rfl, h1, h2⟩ | h2
    · exact .inl ⟨y, by simp, h1, h2⟩
    · exact .inr (by simpa using SkipLines.comment hw ht hn2 h2)
  | @lastComment w c hw ht =>
    rintro x e (rfl | hx)
    · exact .inr (.nil not_skippable_X)
    obtain ⟨x1, -, e1, hx1⟩ := hx.before (a := w ++ c) (b := []) (by simpa using e) (by
      intro c hc
      rcases List.mem_append.1 hc with hc | hc
      · rcases hw c hc with rfl | rfl <;> decide
      · obtain ⟨b, rfl, hb⟩ := ht
        rcases List.mem_cons.1 hc with rfl | hc
        · decide
        · exact fun h => h.elim (hb c hc).1 (hb c hc).2)
    exact absurd (List.append_eq_nil_iff.1 e1.symm).1 hx1.brk.ne

/-- space that does not end in `x` is space in front of a letter -/
theorem space_into {g r : Str} (h : Space g r) : ∀ x, g ++ r = x ++ b → Seam x b ('X' :: t) →
    (∃ y, x = g ++ y ∧ r = y ++ b ∧ Seam y b ('X' :: t)) ∨ Space x ('X' :: t) := by
  induction h with
  | nil h => intro x e hx; exact .inl ⟨x, rfl, e, hx⟩
  | @blank c g r hc hg ih =>
    intro x e hx
    obtain ⟨x1, rfl, e1, hx1⟩ := hx.char e (by rcases hc with rfl | rfl <;> decide)
    rcases ih x1 e1 hx1 with ⟨y, rfl, h1, h2⟩ | h3
    · exact .inl ⟨y, rfl, h1, h2⟩
    · exact .inr (.blank hc h3)
  | @continuation w n l g r hw hn hl hg ih =>
    intro x e hx
    obtain ⟨x1, rfl, e1, hx1⟩ := hx.before (a := '\\' :: w) (b := n ++ (l ++ (g ++ r))) (by simpa using e) (by
      intro c hc
      rcases List.mem_cons.1 hc with rfl | hc
      · decide
      · rcases hw c hc with rfl | rfl <;> decide)
    obtain ⟨x2, rfl, e2, hx2, hn2⟩ := hx1.line e1 hn
    rcases skip_into hl x2 e2 hx2 with ⟨y, rfl, h1, h2⟩ | h2
    · rcases ih y h1 h2 with ⟨y', rfl, h3, h4⟩ | h5
      · exact .inl ⟨y', by simp, h3, h4⟩
      · refine .inr (.continuation hw (by simpa using hn2) ?_ h5)
        exact ((h1 ▸ hl).cut y rfl).ext fun hb => blanks_noBreak hb h2.brk
    · refine .inr ?_
      have := Space.continuation (g := []) (r := 'X' :: t) hw (by simpa using hn2) (by simpa using h2) (.nil not_startsSpace_X)
      simpa using this

theorem gap_into {g r x : Str} (h : Gap g r) (e : g ++ r = x ++ b) (hx : Seam x b ('X' :: t)) :
    (∃ y, x = g ++ y ∧ r = y ++ b ∧ Seam y b ('X' :: t) ∧ Gap g y) ∨ Gap x ('X' :: t) := by
  rcases space_into h.2 x e hx with ⟨y, e1, e2, hy⟩ | h'
  · exact .inl ⟨y, e1, e2, hy, Gap.cut (e2 ▸ h)⟩
  · exact .inr ⟨hx.brk.ne, h'⟩

theorem flags_into {R : Str} (fs : List Flag) : ∀ {x : Str}, FlagsFit fs R → flagsText fs ++ R = x ++ b → Seam x b ('X' :: t) →
    (∃ y, x = flagsText fs ++ y ∧ R = y ++ b ∧ Seam y b ('X' :: t) ∧ FlagsFit fs y) ∨
    ∃ fs' g, x = flagsText fs' ++ g ∧ FlagsFit fs' (g ++ 'X' :: t) ∧ Gap g ('X' :: t) := by
  induction fs with
  | nil => intro x _ e hx; exact .inl ⟨x, rfl, e, hx, trivial⟩
  | cons f fs ih =>
    intro x h e hx
    obtain ⟨⟨h1, h2, h3, h4⟩, h5⟩ := h
    have e : f.gap ++ (f.body ++ (flagsText fs ++ R)) = x ++ b := by simpa [flagsText, Flag.text] using e
    rcases gap_into h1 e hx with ⟨y, rfl, e1, hy, s1⟩ | h6
    · obtain ⟨y1, rfl, e2, hy1⟩ := hy.before e1 (flagBody_chars h3 h4)
      have hf : f.Fits y1 := ⟨s1, h2, h3, word_less (e2 ▸ h4) hy1.brk⟩
      rcases ih h5 e2 hy1 with ⟨y2, rfl, e3, hy2, h7⟩ | ⟨fs', g, rfl, h7, h8⟩
      · exact .inl ⟨y2, by simp [flagsText, Flag.text], e3, hy2, hf, h7⟩
      · refine .inr ⟨f :: fs', g, by simp [flagsText, Flag.text], ⟨?_, h7⟩, h8⟩
        simpa using flag_add (z := 'X' :: t) hf hy1.brk
    · exact .inr ⟨[], x, rfl, trivial, h6⟩

theorem arg_into {R x : Str} {a : Arg} (h : a.Fits R) (e : a.text ++ R = x ++ b) (hx : Seam x b ('X' :: t)) :
    (∃ y, x = a.text ++ y ∧ R = y ++ b ∧ Seam y b ('X' :: t) ∧ a.Fits y) ∨ Gap x ('X' :: t) := by
  have e : a.gap ++ (a.value ++ R) = x ++ b := by simpa [Arg.text] using e
  rcases gap_into h.1 e hx with ⟨y, rfl, e1, hy, s1⟩ | h6
  · obtain ⟨y1, rfl, e2, hy1⟩ := hy.before e1 (fun c hc => (h.2.chars hc).1)
    exact .inl ⟨y1, by simp [Arg.text], e2, hy1, s1, word_less (e2 ▸ h.2) hy1.brk⟩
  · exact .inr h6

end

theorem not_flag_X {t : Str} : ¬ StartsFlag ('X' :: t) := by
  rintro ⟨n, v, r, e, -⟩
  exact absurd (List.cons.inj e).1 (by decide)

theorem arg_add {a : Arg} {r z : Str} (h : a.Fits r) (hr : BreakEnd r) : a.Fits (r ++ z) :=
  ⟨by simpa using gap_add (z := z) h.1 (hr.pre _), word_add h.2 hr⟩

/-- what is behind a gap in the lines `X "]` and `X ']`: two words -/
theorem words_X {g : Str} {q : Char} (hq : q = '"' ∨ q = '\'') (h : Gap g ['X', ' ', q, ']', '\n']) :
    Arg.Fits ⟨g, ['X']⟩ [' ', q, ']', '\n'] ∧ Arg.Fits ⟨[' '], [q, ']']⟩ ['\n'] := by
  have plain : ∀ {c : Char} {t : Str}, c ∉ [' ', '\t', '\n', '\r', '\\'] → ¬ WordEnd (c :: t) := by
    intro c t hc h
    rcases h with h | ⟨d, u, e, hd⟩ | ⟨w, n, u, e, -⟩
    · rcases h c t rfl with rfl | rfl <;> simp at hc
    · obtain ⟨rfl, -⟩ := List.cons.inj e
      rcases hd with rfl | rfl <;> simp at hc
    · obtain ⟨rfl, -⟩ := List.cons.inj e
      simp at hc
  have hq' : q ∉ [' ', '\t', '\n', '\r', '\\'] := by rcases hq with rfl | rfl <;> decide
  refine ⟨⟨h, by simp, ?_, .inr (.inl ⟨' ', _, rfl, .inl rfl⟩)⟩, ⟨⟨by simp, .blank (.inl rfl) (.nil fun h => ?_)⟩, by simp, ?_, .inl ?_⟩⟩
  · intro a b e hb
    cases a with
    | nil => obtain rfl : b = ['X'] := e.symm; exact plain (by decide)
    | cons c a =>
      have := (List.cons.inj e).2
      exact absurd (List.append_eq_nil_iff.1 this.symm).2 hb
  · exact plain hq' (.inr h)
  · intro a b e hb
    match a, e with
    | [], e => obtain rfl : b = [q, ']'] := e.symm; exact plain hq'
    | [c], e =>
      have := (List.cons.inj e).2
      obtain rfl : b = [']'] := this.symm
      exact plain (by decide)
    | c :: d :: a, e =>
      have := (List.cons.inj (List.cons.inj e).2).2
      exact absurd (List.append_eq_nil_iff.1 this.symm).2 hb
  · intro c u e
    obtain ⟨rfl, -⟩ := List.cons.inj e
    exact .inl rfl

/-- what starts the arguments of a keyword behind `x` is started by each of the two lines -/
theorem begins_cross {b k x : Str} {q : Char} (hq : q = '"' ∨ q = '\'') (hx : Seam x b ['X', ' ', q, ']', '\n'])
    (h : Begins k (x ++ b)) : Begins k (x ++ ['X', ' ', q, ']', '\n']) := by
  unfold Begins at h ⊢
  split
  · rename_i hk
    rw [if_pos hk] at h
    obtain ⟨fs, g, c, r, e, h1, h2, h3, h4⟩ := h
    have hX : IsImageChar 'X' := .inl (.inr (by decide))
    rcases flags_into fs h1 e.symm hx with ⟨y, rfl, e1, hy, h5⟩ | ⟨fs', g', rfl, h5, h6⟩
    · rcases gap_into h2 e1 hy with ⟨y1, rfl, e2, hy1, s1⟩ | h6
      · cases y1 with
        | nil => exact absurd rfl hy1.brk.ne
        | cons c' y1 =>
          obtain ⟨rfl, rfl⟩ := List.cons.inj e2
          refine ⟨fs, g, c, y1 ++ ['X', ' ', q, ']', '\n'], by simp, ?_, ?_, h3, ?_⟩
          · simpa using flags_add (z := ['X', ' ', q, ']', '\n']) h5 hy.brk
          · simpa using gap_add (z := ['X', ' ', q, ']', '\n']) s1 hy1.brk
          · intro h
            exact h4 (startsFlag_more (startsFlag_less (z := ['X', ' ', q, ']', '\n']) (by simpa using h) hy1.brk) hy1.brk)
      · exact ⟨fs, y, 'X', _, by simp, flags_add h5 hy.brk, h6, hX, not_flag_X⟩
    · exact ⟨fs', g', 'X', _, by simp, h5, h6, hX, not_flag_X⟩
  rename_i hk1
  rw [if_neg hk1] at h
  split
  · rename_i hk
    rw [if_pos hk] at h
    obtain ⟨g, c, r, e, h1, h2⟩ := h
    rcases gap_into h1 e.symm hx with ⟨y, rfl, e1, hy, s1⟩ | h6
    · cases y with
      | nil => exact absurd rfl hy.brk.ne
      | cons c' y =>
        obtain ⟨rfl, rfl⟩ := List.cons.inj e1
        exact ⟨g, c, y ++ ['X', ' ', q, ']', '\n'], by simp, gap_add s1 hy.brk, h2⟩
    · exact ⟨x, 'X', _, rfl, h6, .inr (by decide)⟩
  rename_i hk2
  rw [if_neg hk2] at h
  split
  · rename_i hk
    rw [if_pos hk] at h
    obtain ⟨fs, a, c, r, e, h1, h2, h3, h4⟩ := h
    rcases flags_into fs h1 e.symm hx with ⟨y, rfl, e1, hy, h5⟩ | ⟨fs', g', rfl, h5, h6⟩
    · rcases arg_into h2 e1 hy with ⟨y1, rfl, e2, hy1, h6⟩ | h6
      · have nf : ∀ z, ¬ StartsFlag (a.value ++ (y1 ++ z)) := fun z h => h4 (by
          rw [e2]
          have := startsFlag_more (z := b) (startsFlag_less (u := a.value ++ y1) (z := z) (by simpa using h) (hy1.brk.pre _)) (hy1.brk.pre _)
          simpa using this)
        rcases arg_into h3 e2 hy1 with ⟨y2, rfl, e3, hy2, h7⟩ | h7
        · refine ⟨fs, a, c, y2 ++ ['X', ' ', q, ']', '\n'], by simp, ?_, ?_, arg_add h7 hy2.brk, ?_⟩
          · simpa using flags_add (z := ['X', ' ', q, ']', '\n']) h5 hy.brk
          · simpa using arg_add (z := ['X', ' ', q, ']', '\n']) h6 hy1.brk
          · simpa using nf ['X', ' ', q, ']', '\n']
        · refine ⟨fs, a, ⟨y1, ['X']⟩, [' ', q, ']', '\n'], by simp [Arg.text], ?_, ?_, (words_X hq h7).1, ?_⟩
          · simpa [Arg.text] using flags_add (z := ['X', ' ', q, ']', '\n']) h5 hy.brk
          · simpa [Arg.text] using arg_add (z := ['X', ' ', q, ']', '\n']) h6 hy1.brk
          · simpa [Arg.text] using nf ['X', ' ', q, ']', '\n']
      · refine ⟨fs, ⟨y, ['X']⟩, ⟨[' '], [q, ']']⟩, ['\n'], by simp [Arg.text], ?_, (words_X hq h6).1, (words_X hq h6).2, not_flag_X⟩
        simpa [Arg.text] using flags_add (z := ['X', ' ', q, ']', '\n']) h5 hy.brk
    · exact ⟨fs', ⟨g', ['X']⟩, ⟨[' '], [q, ']']⟩, ['\n'], by simp [Arg.text], by simpa [Arg.text] using h5,
        (words_X hq h6).1, (words_X hq h6).2, not_flag_X⟩
  rename_i hk3
  rw [if_neg hk3] at h
  split
  · rename_i hk
    rw [if_pos hk] at h
    exact (h.cut hx.brk.ne (hx.brk.no b)).ext
  rename_i hk4
  rw [if_neg hk4] at h
  obtain ⟨g, r, e, h1, h2⟩ := h
  rcases gap_into h1 e.symm hx with ⟨y, rfl, e1, hy, s1⟩ | h6
  · exact ⟨g, y ++ ['X', ' ', q, ']', '\n'], by simp, gap_add s1 hy.brk, fun h => h2 (by rw [e1]; exact h.cut.ext hy.brk.ne)⟩
  · exact ⟨x, _, rfl, h6, fun h => by rcases h 'X' _ rfl with h | h <;> revert h <;> decide⟩

end Src

theorem quoted_cross {x b : Str} (hx : Src.BreakEnd x) (hn : ¬ BeginsQuoted x) (h : BeginsQuoted (x ++ b)) :
    ∃ q, (q = '"' ∨ q = '\'') ∧ BeginsQuoted (x ++ closer q) := by
  obtain ⟨v, r, e, hv⟩ := h
  rcases Src.quotedText_cross hv e.symm hx with ⟨y, rfl, -, -⟩ | ⟨q, hq, h⟩
  · exact absurd ⟨v, y, rfl, hv⟩ hn
  · exact ⟨q, hq, x ++ ['X', ' ', q], [']', '\n'], by simp [closer], h⟩

theorem closer_parse (unq : Unquote) {q : Char} (hq : q = '"' ∨ q = '\'') :
    Dockerfile.parse unq (closer q) = .ok (documentOf (closer q) (closerIs q)) := by
  rcases hq with rfl | rfl <;> rfl

theorem wordSpots_span {i : Instruction} {k : Str × Nat} (h : k ∈ wordSpots i) : ∃ sp ∈ spansOf i, sp.start = k.2 := by
  cases i with
  | misc m =>
    rw [List.mem_singleton.1 h]
    exact ⟨m.arguments.span, List.mem_cons_of_mem _ (by simp [fieldSpans, breakableSpans]), rfl⟩
  | _ => cases h

/-- what some accepted text closes is closed by one of the two lines -/
theorem undisturbed_closers {unq : Unquote} {a z : Str} {d d' : Dockerfile} (h : Dockerfile.parse unq a = .ok d) (ha : LineStart a z)
    (hl : ∀ i ∈ d.instructions, i.span.stop < blen a) (hz : Dockerfile.parse unq z = .ok d')
    (hc : ∀ q, q = '"' ∨ q = '\'' → Undisturbed a (closer q) d) : Undisturbed a z d := by
  have seam : ∀ {i : Instruction} {p : Nat}, i ∈ d.instructions → (∃ sp ∈ spansOf i, sp.start = p) →
      ∀ {x y : Str}, a = x ++ y → blen x = p → ∀ m, (∀ t, m ≠ '\n' :: t) → Src.Seam y z m := by
    rintro i p hi ⟨sp, hsp, rfl⟩ x y e ex m hm
    have h1 := C04_span_bounds unq a d h i hi sp hsp
    have h2 := (C06_fields_within unq a d h i hi sp hsp).2
    have h3 := hl i hi
    have hy : y ≠ [] := by
      rintro rfl
      rw [e, List.append_nil] at h3
      omega
    have hb : Src.BreakEnd a := by
      rcases ha with ha | ⟨s, n, rfl, hn⟩
      · exact absurd (List.append_eq_nil_iff.1 (e.symm.trans ha)).2 hy
      · exact (Src.break_end hn).pre _
    rw [e] at hb
    exact ⟨hb.right hy, fun u eu => lineStart_noCR ha (x ++ u) (by rw [e, eu]; simp), fun _ _ => hm⟩
  intro i hi
  refine ⟨?_, ?_, ?_⟩
  · intro p hp x y e ex hn hb
    have hs := seam hi (quoteSpots_span hp) e ex [] (by simp)
    obtain ⟨q, hq, h1⟩ := quoted_cross hs.brk hn hb
    exact (hc q hq i hi).1 p hp x y e ex hn h1
  · intro p hp x y e ex hn hb
    have hs := seam hi (arraySpots_span hp) e ex [] (by simp)
    have sw : Src.Swap true z [] [] := Src.lines_swap (unq := unq) (by rw [List.append_nil]; exact hz) (parse_nothing unq)
    obtain ⟨q, hq, h1⟩ := Src.array_cross sw hs hn hb
    exact (hc q hq i hi).2.1 p hp x y e ex hn h1
  · intro k hk hw x y e ex hn hb
    have hs := seam hi (wordSpots_span hk) e ex (closer '"') (by simp [closer])
    exact (hc '"' (.inl rfl) i hi).2.2 k hk hw x y e ex hn (Src.begins_cross (.inl rfl) hs hb)

/-- C109: Whole lines that are accepted can be put in front of every accepted text exactly if they can be put in front of the two
lines `X "]` and `X ']`.  Quotes, arrays and arguments of keywords may be left open in them. -/
theorem C109_closers {unq : Unquote} {a : Str} {d : Dockerfile} (h : Dockerfile.parse unq a = .ok d) (ha : LineStart a ['X'])
    (hl : ∀ i ∈ d.instructions, i.span.stop < blen a) :
    GoesInFront unq a d.instructions ↔
      ReadTogether unq a c!"X \"]\n" d.instructions (closerIs '"') ∧ ReadTogether unq a c!"X ']\n" d.instructions (closerIs '\'') := by
  have hs : ∀ q, LineStart a (closer q) := fun q => ha.imp id fun ⟨s, n, e, hn⟩ =>
    ⟨s, n, e, hn.imp id (Or.imp id fun g => ⟨g.1, fun r' e' => absurd (List.cons.inj e').1 (by decide)⟩)⟩
  constructor
  · exact fun hj => ⟨hj _ _ (closer_parse unq (q := '"') (.inl rfl)) (hs '"'), hj _ _ (closer_parse unq (q := '\'') (.inr rfl)) (hs '\'')⟩
  · rintro ⟨h1, h2⟩ z d' hz hz'
    refine (C107_join h hz hz' hl).2 (undisturbed_closers h hz' hl hz fun q hq => ?_)
    rcases hq with rfl | rfl
    · exact (C107_join h (closer_parse unq (.inl rfl)) (hs '"') hl).1 h1
    · exact (C107_join h (closer_parse unq (.inr rfl)) (hs '\'') hl).1 h2

theorem number_moved {f : Nat → Nat} (L : List Instruction) : ∀ n m,
    numberStages n ((numberStages m L).map (·.remap f)) = numberStages n (L.map (·.remap f)) ∧
    globalArgs ((numberStages m L).map (·.remap f)) = globalArgs (L.map (·.remap f)) := by
  induction L with
  | nil => intro n m; exact ⟨rfl, rfl⟩
  | cons i L ih =>
    intro n m
    cases i with
    | «from» g => exact ⟨congrArg (List.cons _) (ih (n + 1) (m + 1)).1, rfl⟩
    | arg g => exact ⟨congrArg (List.cons _) (ih n m).1, congrArg (List.cons _) (ih n m).2⟩
    | _ => exact ⟨congrArg (List.cons _) (ih n m).1, (ih n m).2⟩

theorem number_behind {f : Nat → Nat} (L A : List Instruction) : ∀ n,
    numberStages n (A ++ (numberStages 0 L).map (·.remap f)) = numberStages n (A ++ L.map (·.remap f)) ∧
    globalArgs (A ++ (numberStages 0 L).map (·.remap f)) = globalArgs (A ++ L.map (·.remap f)) := by
  induction A with
  | nil => intro n; exact number_moved L n 0
  | cons i A ih =>
    intro n
    cases i with
    | «from» g => exact ⟨congrArg (List.cons _) (ih (n + 1)).1, rfl⟩
    | arg g => exact ⟨congrArg (List.cons _) (ih n).1, congrArg (List.cons _) (ih n).2⟩
    | _ => exact ⟨congrArg (List.cons _) (ih n).1, (ih n).2⟩

/-- C109: Such texts can be put behind each other, as many as one likes: each is read as it is read on its own. -/
theorem C109_stack {unq : Unquote} (ps : List (Str × List Instruction)) {z : Str} {d : Dockerfile}
    (hp : ∀ p ∈ ps, GoesInFront unq p.1 p.2 ∧ p.1.getLast? = some '\n') (hz : Dockerfile.parse unq z = .ok d) :
    Dockerfile.parse unq (stackText ps z) = .ok (documentOf (stackText ps z) (stackIs ps d.instructions)) := by
  induction ps with
  | nil => exact hz.trans (congrArg Except.ok (documentOf_same hz).symm)
  | cons p ps ih =>
    have h1 := ih fun q hq => hp q (List.mem_cons_of_mem _ hq)
    obtain ⟨h3, h4⟩ := hp p List.mem_cons_self
    have hs : LineStart p.1 (stackText ps z) := by
      obtain ⟨s, e⟩ := List.getLast?_eq_some_iff.1 h4
      exact .inr ⟨s, ['\n'], e, .inl rfl⟩
    refine (h3 _ _ h1 hs).trans (congrArg Except.ok ?_)
    have := number_behind (f := (· + blen p.1)) (stackIs ps d.instructions) p.2 0
    simp only [documentOf, stackIs, stackText, this]

/-- lines with quotes, an array and a keyword without its arguments: they can be put in front of every text -/
def calmA : Str := c!"ENV a=\"b\nc\"\nRUN [\"x\"]\nCOPY a\n"
def calmDoc : Dockerfile := documentOf calmA
  [.env ⟨⟨0, 11⟩, [⟨⟨4, 11⟩, ⟨⟨4, 5⟩, c!"a"⟩, ⟨⟨6, 11⟩, [.string ⟨⟨6, 11⟩, c!"b\nc"⟩]⟩⟩]⟩,
    .run ⟨⟨12, 21⟩, .exec ⟨⟨16, 21⟩, [⟨⟨17, 20⟩, c!"x"⟩]⟩⟩,
    .misc ⟨⟨22, 28⟩, ⟨⟨22, 26⟩, c!"COPY"⟩, ⟨⟨26, 28⟩, [.string ⟨⟨26, 28⟩, c!" a"⟩]⟩⟩]

theorem calm_front : GoesInFront Enquote.unquote calmA calmDoc.instructions :=
  (C109_closers (d := calmDoc) (by decide +kernel) (.inr ⟨c!"ENV a=\"b\nc\"\nRUN [\"x\"]\nCOPY a", ['\n'], rfl, .inl rfl⟩)
    (by decide +kernel)).2 (by unfold ReadTogether; decide +kernel)

/-- three times, and a line behind -/
example : ∃ d', Dockerfile.parse Enquote.unquote (calmA ++ (calmA ++ (calmA ++ c!"STOP a\n"))) = .ok d' ∧ d'.instructions.length = 10 := by
  have h := C109_stack (unq := Enquote.unquote) (z := c!"STOP a\n")
    (d := documentOf c!"STOP a\n" [.misc ⟨⟨0, 6⟩, ⟨⟨0, 4⟩, c!"STOP"⟩, ⟨⟨4, 6⟩, [.string ⟨⟨4, 6⟩, c!" a"⟩]⟩⟩])
    [(calmA, calmDoc.instructions), (calmA, calmDoc.instructions), (calmA, calmDoc.instructions)]
    (by simp only [List.mem_cons, List.not_mem_nil, or_false]; rintro p (rfl | rfl | rfl) <;> exact ⟨calm_front, by decide +kernel⟩) (by decide +kernel)
  exact ⟨_, h, by decide +kernel⟩

/-- the line with an open array cannot -/
example : ¬ GoesInFront Enquote.unquote openA openDoc.instructions := fun h =>
  absurd ((C109_closers (d := openDoc) (by decide +kernel) (.inr ⟨c!"RUN [\"a", ['\n'], rfl, .inl rfl⟩) (by decide +kernel)).1 h)
    (by unfold ReadTogether; decide +kernel)

/-- nor can a `COPY` with one path and a comment behind a continued line: the lines become its second path -/
example : ¬ GoesInFront Enquote.unquote c!"COPY a \\\n#\n\n"
    [.misc ⟨⟨0, 11⟩, ⟨⟨0, 4⟩, c!"COPY"⟩, ⟨⟨4, 11⟩, [.string ⟨⟨4, 7⟩, c!" a "⟩, .comment ⟨⟨9, 10⟩, c!"#"⟩]⟩⟩] := fun h =>
  absurd ((C109_closers (a := c!"COPY a \\\n#\n\n") (d := documentOf c!"COPY a \\\n#\n\n"
      [.misc ⟨⟨0, 11⟩, ⟨⟨0, 4⟩, c!"COPY"⟩, ⟨⟨4, 11⟩, [.string ⟨⟨4, 7⟩, c!" a "⟩, .comment ⟨⟨9, 10⟩, c!"#"⟩]⟩⟩]) (by decide +kernel)
    (.inr ⟨c!"COPY a \\\n#\n", ['\n'], rfl, .inl rfl⟩) (by decide +kernel)).1 h)
    (by unfold ReadTogether; decide +kernel)

/-- nor can a line with an open single quote; the other line does not close it -/
example : ReadTogether Enquote.unquote c!"ENV a='b\n" c!"X \"]\n"
      [.env ⟨⟨0, 8⟩, [⟨⟨4, 8⟩, ⟨⟨4, 5⟩, c!"a"⟩, ⟨⟨6, 8⟩, [.string ⟨⟨6, 8⟩, c!"'b"⟩]⟩⟩]⟩] (closerIs '"') ∧
    ¬ ReadTogether Enquote.unquote c!"ENV a='b\n" c!"X ']\n"
      [.env ⟨⟨0, 8⟩, [⟨⟨4, 8⟩, ⟨⟨4, 5⟩, c!"a"⟩, ⟨⟨6, 8⟩, [.string ⟨⟨6, 8⟩, c!"'b"⟩]⟩⟩]⟩] (closerIs '\'') := by
  unfold ReadTogether
  decide +kernel

end Verif
