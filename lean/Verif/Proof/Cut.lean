import Verif.Proof.Update

/-!
# Cutting a text at the end of a line

`x ++ z` is cut in front of `z`, which starts with a blank or a line break or is empty. As long as
this does not cut a line continuation in two (`¬ Open x z`), what is in front of the cut can be read
as before.
-/

namespace Verif
namespace Src
open Spec

/-- `z` starts with a blank or a line break, or is empty -/
def ZEnd (z : Str) : Prop := ∀ c t, z = c :: t → c = ' ' ∨ c = '\t' ∨ c = '\n' ∨ c = '\r'

/-- a line continuation starts in `x` and its line break is in `z` -/
def Open (x z : Str) : Prop :=
  (∃ a w, x = a ++ '\\' :: w ∧ Blanks w) ∧ ∃ w n t, z = w ++ (n ++ t) ∧ Blanks w ∧ LineBreak n t

theorem Open.pre {x z : Str} (u : Str) (h : Open x z) : Open (u ++ x) z := by
  obtain ⟨⟨a, w, rfl, hw⟩, h⟩ := h
  exact ⟨⟨u ++ a, w, by simp, hw⟩, h⟩

theorem notOpen_suffix {u x z : Str} (h : ¬ Open (u ++ x) z) : ¬ Open x z := fun h' => h (h'.pre u)

theorem notOpen_cons {c : Char} {x z : Str} (h : ¬ Open (c :: x) z) : ¬ Open x z :=
  notOpen_suffix (u := [c]) h

section
variable {z : Str}

theorem _root_.Verif.Spec.LineBreak.cut {n r : Str} (h : LineBreak n (r ++ z)) : LineBreak n r := by
  rcases h with rfl | rfl | ⟨rfl, h⟩
  · exact .inl rfl
  · exact .inr (.inl rfl)
  · exact .inr (.inr ⟨rfl, fun r' e => h (r' ++ z) (by rw [e]; rfl)⟩)

/-- a line break remains one, but may become longer -/
theorem _root_.Verif.Spec.LineBreak.ext {n r : Str} (h : LineBreak n r) :
    ∃ n' r', n ++ (r ++ z) = n' ++ r' ∧ LineBreak n' r' := by
  rcases h with rfl | rfl | ⟨rfl, h⟩
  · exact ⟨_, _, rfl, .inl rfl⟩
  · exact ⟨_, _, rfl, .inr (.inl rfl)⟩
  · by_cases hn : ∃ r', r ++ z = '\n' :: r'
    · obtain ⟨r', e⟩ := hn
      exact ⟨['\r', '\n'], r', by rw [e]; rfl, .inr (.inl rfl)⟩
    · exact ⟨['\r'], r ++ z, rfl, .inr (.inr ⟨rfl, fun r' e => hn ⟨r', e⟩⟩)⟩

theorem _root_.Verif.Spec.LineBreak.extNil {n r : Str} (h : LineBreak n r) (hr : r ≠ []) : LineBreak n (r ++ z) := by
  rcases h with rfl | rfl | ⟨rfl, h⟩
  · exact .inl rfl
  · exact .inr (.inl rfl)
  · refine .inr (.inr ⟨rfl, fun r' e => ?_⟩)
    cases r with
    | nil => exact hr rfl
    | cons c r => exact h r (by rw [(List.cons.inj e).1])

theorem Continuation.ext {x : Str} (h : Continuation x) : Continuation (x ++ z) := by
  obtain ⟨w, n, t, rfl, hw, hn⟩ := h
  obtain ⟨n', t', e, hn'⟩ := LineBreak.ext (z := z) hn
  exact ⟨w, n', t', by simp [e], hw, hn'⟩

theorem StartsSpace.ext {x : Str} (h : StartsSpace x) : StartsSpace (x ++ z) := by
  rcases h with ⟨c, t, rfl, hc⟩ | h
  · exact .inl ⟨c, t ++ z, rfl, hc⟩
  · exact .inr (Continuation.ext h)

/-- a line break that starts in front of the cut -/
theorem _root_.Verif.Spec.LineBreak.cutAt {b n t : Str} (e : b ++ z = n ++ t) (h : LineBreak n t) (hb : b ≠ []) :
    ∃ n' t', b = n' ++ t' ∧ LineBreak n' t' := by
  cases b with
  | nil => exact absurd rfl hb
  | cons c b =>
    rcases h with rfl | rfl | ⟨rfl, h⟩
    · obtain ⟨rfl, -⟩ := List.cons.inj e
      exact ⟨['\n'], b, rfl, .inl rfl⟩
    · have e2 := (List.cons.inj e).2
      obtain rfl := (List.cons.inj e).1
      cases b with
      | nil => exact ⟨['\r'], [], rfl, .inr (.inr ⟨rfl, fun _ h => by cases h⟩)⟩
      | cons d b =>
        obtain rfl := (List.cons.inj e2).1
        exact ⟨['\r', '\n'], b, rfl, .inr (.inl rfl)⟩
    · have e2 : b ++ z = t := (List.cons.inj e).2
      obtain rfl := (List.cons.inj e).1
      exact ⟨['\r'], b, rfl, .inr (.inr ⟨rfl, fun r' e' => h (r' ++ z) (by rw [← e2, e']; rfl)⟩)⟩

theorem _root_.Verif.Spec.Blanks.left {a b : Str} (h : Blanks (a ++ b)) : Blanks a := fun c hc => h c (by simp [hc])
theorem _root_.Verif.Spec.Blanks.right {a b : Str} (h : Blanks (a ++ b)) : Blanks b := fun c hc => h c (by simp [hc])
theorem _root_.Verif.Spec.Blanks.app {a b : Str} (h : Blanks a) (h' : Blanks b) : Blanks (a ++ b) := fun c hc =>
  (List.mem_append.1 hc).elim (h c) (h' c)

/-- the places where a line continuation can be cut -/
theorem Continuation.cut {x : Str} (h : Continuation (x ++ z)) (hx : x ≠ []) (ho : ¬ Open x z) :
    Continuation x := by
  obtain ⟨w, n, t, e, hw, hn⟩ := h
  cases x with
  | nil => exact absurd rfl hx
  | cons c x =>
    have e1 : x ++ z = w ++ (n ++ t) := (List.cons.inj e).2
    obtain rfl := (List.cons.inj e).1
    clear e
    rcases List.append_eq_append_iff.1 e1 with ⟨a, rfl, e2⟩ | ⟨b, rfl, e2⟩
    · exact absurd ⟨⟨[], x, rfl, hw.left⟩, a, n, t, e2, hw.right, hn⟩ ho
    · by_cases hb : b = []
      · subst hb
        exact absurd ⟨⟨[], w, by simp, hw⟩, [], n, t, e2.symm, fun _ h => (by cases h), hn⟩ ho
      · obtain ⟨n', t', rfl, hn'⟩ := hn.cutAt e2.symm hb
        exact ⟨w, n', t', rfl, hw, hn'⟩

theorem StartsSpace.cut {x : Str} (h : StartsSpace (x ++ z)) (hx : x ≠ []) (ho : ¬ Open x z) :
    StartsSpace x := by
  rcases h with ⟨c, t, e, hc⟩ | h
  · cases x with
    | nil => exact absurd rfl hx
    | cons d x => exact .inl ⟨d, x, rfl, (List.cons.inj e).1 ▸ hc⟩
  · exact .inr (h.cut hx ho)

theorem Skippable.ext {x : Str} (h : Skippable x) : Skippable (x ++ z) := by
  obtain ⟨w, v, rfl, hw, ⟨t, rfl⟩ | ⟨n, t, rfl, hn⟩⟩ := h
  · exact ⟨w, '#' :: (t ++ z), by simp, hw, .inl ⟨_, rfl⟩⟩
  · obtain ⟨n', t', e, hn'⟩ := LineBreak.ext (z := z) hn
    exact ⟨w, n' ++ t', by simp [e], hw, .inr ⟨n', t', rfl, hn'⟩⟩

theorem Skippable.cut {x : Str} (h : Skippable (x ++ z)) (hx : ¬ Blanks x) : Skippable x := by
  obtain ⟨w, v, e, hw, h⟩ := h
  rcases List.append_eq_append_iff.1 e with ⟨a, rfl, -⟩ | ⟨b, rfl, e2⟩
  · exact absurd hw.left hx
  · have hb : b ≠ [] := by
      rintro rfl
      exact hx (by simpa using hw)
    refine ⟨w, b, rfl, hw, ?_⟩
    rcases h with ⟨t, rfl⟩ | ⟨n, t, rfl, hn⟩
    · cases b with
      | nil => exact absurd rfl hb
      | cons c b => exact .inl ⟨b, by rw [(List.cons.inj e2).1]⟩
    · exact .inr (hn.cutAt e2.symm hb)

theorem Eol.cut {x : Str} (h : Eol (x ++ z)) : Eol x := fun c b e => h c (b ++ z) (by rw [e]; rfl)

theorem Eol.ext {x : Str} (h : Eol x) (hx : x ≠ []) : Eol (x ++ z) := by
  intro c b e
  cases x with
  | nil => exact absurd rfl hx
  | cons d x => exact h c x (by rw [(List.cons.inj e).1])

theorem ZEnd.wordEnd (hz : ZEnd z) : WordEnd z := by
  cases z with
  | nil => exact .inl fun c b e => by cases e
  | cons c t =>
    rcases hz c t rfl with h | h | h | h
    · exact .inr (.inl ⟨c, t, rfl, .inl h⟩)
    · exact .inr (.inl ⟨c, t, rfl, .inr h⟩)
    · exact .inl fun d b e => .inl ((List.cons.inj e).1 ▸ h)
    · exact .inl fun d b e => .inr ((List.cons.inj e).1 ▸ h)

theorem WordEnd.ext {x : Str} (hz : ZEnd z) (h : WordEnd x) : WordEnd (x ++ z) := by
  by_cases hx : x = []
  · subst hx; exact hz.wordEnd
  · rcases h with h | h
    · exact .inl (h.ext hx)
    · exact .inr h.ext

theorem WordEnd.cut {x : Str} (h : WordEnd (x ++ z)) (ho : ¬ Open x z) : WordEnd x := by
  by_cases hx : x = []
  · subst hx; exact .inl fun c b e => by cases e
  · rcases h with h | h
    · exact .inl h.cut
    · exact .inr (h.cut hx ho)

/-! ## space -/

theorem SkipLines.cut {l y : Str} (h : SkipLines l y) : ∀ r, y = r ++ z → SkipLines l r := by
  induction h with
  | nil h => rintro r rfl; exact .nil fun h' => h h'.ext
  | blank hw hn _ ih =>
    rintro r rfl
    exact .blank hw (LineBreak.cut (z := z) (by simpa using hn)) (ih r rfl)
  | comment hw ht hn _ ih =>
    rintro r rfl
    exact .comment hw ht (LineBreak.cut (z := z) (by simpa using hn)) (ih r rfl)
  | lastComment hw ht =>
    intro r e
    obtain ⟨rfl, -⟩ := List.append_eq_nil_iff.1 e.symm
    exact .lastComment hw ht

theorem Space.cut {g y : Str} (h : Space g y) : ∀ r, y = r ++ z → Space g r := by
  induction h with
  | nil h => rintro r rfl; exact .nil fun h' => h h'.ext
  | blank hc _ ih => intro r e; exact .blank hc (ih r e)
  | continuation hw hn hl _ ih =>
    rintro r rfl
    exact .continuation hw (LineBreak.cut (z := z) (by simpa using hn)) (hl.cut (z := z) _ (by simp)) (ih r rfl)

theorem Gap.cut {g r : Str} (h : Gap g (r ++ z)) : Gap g r := ⟨h.1, h.2.cut r rfl⟩

theorem SkipLines.ext {l r : Str} (h : SkipLines l r) : ¬ Blanks r → SkipLines l (r ++ z) := by
  induction h with
  | nil h => intro hr; exact .nil fun h' => h (h'.cut hr)
  | @blank w n l r hw hn _ ih =>
    intro hr
    have hne : l ++ r ≠ [] := fun e => hr (by rw [(List.append_eq_nil_iff.1 e).2]; intro _ h; cases h)
    exact .blank hw (by simpa using hn.extNil (z := z) hne) (ih hr)
  | @comment w t n l r hw ht hn _ ih =>
    intro hr
    have hne : l ++ r ≠ [] := fun e => hr (by rw [(List.append_eq_nil_iff.1 e).2]; intro _ h; cases h)
    exact .comment hw ht (by simpa using hn.extNil (z := z) hne) (ih hr)
  | lastComment => intro hr; exact absurd (fun _ h => by cases h) hr

theorem Space.nospace {g r : Str} (h : Space g r) : ¬ StartsSpace r := by
  induction h with
  | nil h => exact h
  | blank _ _ ih => exact ih
  | continuation _ _ _ _ ih => exact ih

theorem Space.notBlanks {g r : Str} (h : Space g r) (hr : r ≠ []) : ¬ Blanks r := by
  intro hb
  cases r with
  | nil => exact hr rfl
  | cons c r => exact h.nospace (.inl ⟨c, r, rfl, hb c List.mem_cons_self⟩)

theorem Space.ext {g r : Str} (h : Space g r) : r ≠ [] → ¬ Open r z → Space g (r ++ z) := by
  induction h with
  | nil h => intro hr ho; exact .nil fun h' => h (h'.cut hr ho)
  | blank hc _ ih => intro hr ho; exact .blank hc (ih hr ho)
  | @continuation w n l g r hw hn hl hg ih =>
    intro hr ho
    have hb : ¬ Blanks (g ++ r) := fun hb => hg.notBlanks hr hb.right
    have hne : l ++ (g ++ r) ≠ [] := by simp [hr]
    refine .continuation hw ?_ ?_ (ih hr ho)
    · simpa using hn.extNil (z := z) hne
    · simpa using hl.ext (z := z) hb

theorem Gap.ext {g r : Str} (h : Gap g r) (hr : r ≠ []) (ho : ¬ Open r z) : Gap g (r ++ z) :=
  ⟨h.1, h.2.ext hr ho⟩

/-! ## words -/

theorem Word.cut {w r : Str} (hz : ZEnd z) (h : Word w (r ++ z)) (ho : ¬ Open r z) : Word w r :=
  ⟨h.1, fun a b e hb hw => h.2.1 a b e hb (by rw [← List.append_assoc]; exact hw.ext hz), h.2.2.cut ho⟩

theorem Word.ext {w r : Str} (hz : ZEnd z) (h : Word w r) (ho : ¬ Open (w ++ r) z) :
    Word w (r ++ z) := by
  refine ⟨h.1, fun a b e hb hw => h.2.1 a b e hb ?_, h.2.2.ext hz⟩
  subst e
  rw [← List.append_assoc] at hw
  exact hw.cut (notOpen_suffix (u := a) (by simpa using ho))

theorem NoQuoted.cut {u : Str} (h : NoQuoted (u ++ z)) : NoQuoted u := fun t r e =>
  h t (r ++ z) (by rw [e, List.append_assoc])

theorem NameWord.cut {t r : Str} (h : NameWord t (r ++ z)) : NameWord t r :=
  ⟨h.1, h.2.1, fun c b e => h.2.2 c (b ++ z) (by rw [e]; rfl)⟩

theorem Value.cut {v : Value} {r : Str} (hz : ZEnd z) (h : v.Fits (r ++ z)) (ho : ¬ Open r z) :
    v.Fits r := by
  cases v with
  | quoted t => exact h
  | bare t => exact ⟨NoQuoted.cut (z := z) (by simpa using h.1), h.2.cut hz ho⟩

theorem Value.cutName {v : Value} {r : Str} (h : v.FitsName (r ++ z)) : v.FitsName r := by
  cases v with
  | quoted t => exact h
  | bare t => exact ⟨NoQuoted.cut (z := z) (by simpa using h.1), h.2.cut⟩

theorem Flag.cut {f : Flag} {r : Str} (hz : ZEnd z) (h : f.Fits (r ++ z)) (ho : ¬ Open r z) : f.Fits r :=
  ⟨Gap.cut (z := z) (by simpa using h.1), h.2.1, h.2.2.1, h.2.2.2.cut hz ho⟩

theorem Flag.ext {f : Flag} {r : Str} (hz : ZEnd z) (h : f.Fits r) (ho : ¬ Open (f.text ++ r) z) :
    f.Fits (r ++ z) := by
  obtain ⟨h1, h2, h3, h4⟩ := h
  have ho1 : ¬ Open (f.body ++ r) z := notOpen_suffix (u := f.gap) (by simpa [Flag.text] using ho)
  refine ⟨by simpa using h1.ext (by simp [Flag.body]) ho1, h2, h3, h4.ext hz ?_⟩
  exact notOpen_suffix (u := '-' :: '-' :: (f.name ++ ['='])) (by simpa [Flag.body] using ho1)

theorem flags_cut {fs : List Flag} {r : Str} (hz : ZEnd z) (h : FlagsFit fs (r ++ z))
    (ho : ¬ Open (flagsText fs ++ r) z) : FlagsFit fs r := by
  induction fs with
  | nil => trivial
  | cons f fs ih =>
    have ho' : ¬ Open (flagsText fs ++ r) z := notOpen_suffix (u := f.text) (by simpa [flagsText] using ho)
    exact ⟨Flag.cut hz (by simpa using h.1) ho', ih h.2 ho'⟩

theorem flags_ext {fs : List Flag} {r : Str} (hz : ZEnd z) (h : FlagsFit fs r)
    (ho : ¬ Open (flagsText fs ++ r) z) : FlagsFit fs (r ++ z) := by
  induction fs with
  | nil => trivial
  | cons f fs ih =>
    have ho' : ¬ Open (flagsText fs ++ r) z := notOpen_suffix (u := f.text) (by simpa [flagsText] using ho)
    exact ⟨by simpa using Flag.ext hz h.1 (by simpa [flagsText] using ho), ih h.2 ho'⟩

theorem Arg.cut {f : Arg} {r : Str} (hz : ZEnd z) (h : f.Fits (r ++ z)) (ho : ¬ Open r z) : f.Fits r :=
  ⟨Gap.cut (z := z) (by simpa using h.1), h.2.cut hz ho⟩

theorem Arg.ext {f : Arg} {r : Str} (hz : ZEnd z) (h : f.Fits r) (ho : ¬ Open (f.text ++ r) z) :
    f.Fits (r ++ z) := by
  have ho1 : ¬ Open (f.value ++ r) z := notOpen_suffix (u := f.gap) (by simpa [Arg.text] using ho)
  exact ⟨by simpa using h.1.ext (by simp [h.2.1]) ho1, h.2.ext hz ho1⟩

theorem args_cut {fs : List Arg} {r : Str} (hz : ZEnd z) (h : ArgsFit fs (r ++ z))
    (ho : ¬ Open (argsText fs ++ r) z) : ArgsFit fs r := by
  induction fs with
  | nil => trivial
  | cons f fs ih =>
    have ho' : ¬ Open (argsText fs ++ r) z := notOpen_suffix (u := f.text) (by simpa [argsText] using ho)
    exact ⟨Arg.cut hz (by simpa using h.1) ho', ih h.2 ho'⟩

theorem StartsFlag.ext {u : Str} (hz : ZEnd z) (h : StartsFlag u) (ho : ¬ Open u z) :
    StartsFlag (u ++ z) := by
  obtain ⟨n, v, r, rfl, h1, h2, h3⟩ := h
  refine ⟨n, v, r ++ z, by simp, h1, h2, h3.ext hz ?_⟩
  exact notOpen_suffix (u := '-' :: '-' :: (n ++ ['='])) (by simpa using ho)

/-- a text without blanks and line breaks in front of a cut text is in front of the cut -/
theorem before_cut {u a b : Str} (hz : ZEnd z) (e : u ++ z = a ++ b)
    (ha : ∀ c ∈ a, ¬ (c = ' ' ∨ c = '\t' ∨ c = '\n' ∨ c = '\r')) : ∃ u', u = a ++ u' ∧ b = u' ++ z := by
  rcases List.append_eq_append_iff.1 e with ⟨x, rfl, e2⟩ | ⟨x, rfl, e2⟩
  · cases x with
    | nil => exact ⟨[], by simp, e2.symm⟩
    | cons c x => exact absurd (hz c (x ++ b) e2) (ha c (by simp))
  · exact ⟨x, rfl, e2⟩

theorem alpha_plain {c : Char} (h : IsAlpha c) : ¬ (c = ' ' ∨ c = '\t' ∨ c = '\n' ∨ c = '\r') := by
  rintro (rfl | rfl | rfl | rfl) <;> revert h <;> unfold IsAlpha <;> decide

theorem StartsFlag.cut {u : Str} (hz : ZEnd z) (h : StartsFlag (u ++ z)) (ho : ¬ Open u z) :
    StartsFlag u := by
  obtain ⟨n, v, r, e, h1, h2, h3⟩ := h
  obtain ⟨u', rfl, e'⟩ := before_cut (a := '-' :: '-' :: (n ++ ['='])) (b := v ++ r) hz (by simpa using e) (by
    intro c hc
    simp only [List.mem_cons, List.mem_append, List.not_mem_nil, or_false] at hc
    rcases hc with rfl | rfl | hc | rfl
    · decide
    · decide
    · exact alpha_plain (h2 c hc)
    · decide)
  have ho' : ¬ Open u' z := notOpen_suffix ho
  rcases List.append_eq_append_iff.1 e' with ⟨x, rfl, e2⟩ | ⟨x, rfl, e2⟩
  · exact ⟨n, v, x, by simp, h1, h2, Word.cut hz (e2 ▸ h3) (notOpen_suffix ho')⟩
  · cases x with
    | nil =>
      refine ⟨n, u', [], by simp, h1, h2, ?_⟩
      rw [List.append_nil] at h3
      exact Word.cut (z := z) hz (by simpa [e2] using h3) (by rintro ⟨⟨a, w, e, -⟩, -⟩; cases a <;> cases e)
    | cons c x => exact absurd (e2 ▸ hz.wordEnd) (h3.2.1 u' (c :: x) rfl (by simp))

end
end Src
end Verif
