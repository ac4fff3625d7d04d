import Verif.Proof.Cut

/-!
# Cutting a text at the end of a line: items
-/

namespace Verif
namespace Src
open Spec

section
variable {z : Str}

theorem pairs_cut {F : Pair → Str → Prop} {fs : List Pair} {r : Str}
    (hF : ∀ f r, F f (r ++ z) → ¬ Open r z → F f r) (h : PairsFit F fs (r ++ z))
    (ho : ¬ Open (pairsText fs ++ r) z) : PairsFit F fs r := by
  induction fs with
  | nil => trivial
  | cons f fs ih =>
    have ho' : ¬ Open (pairsText fs ++ r) z := notOpen_suffix (u := f.text) (by simpa [pairsText] using ho)
    exact ⟨hF _ _ (by simpa using h.1) ho', ih h.2 ho'⟩

theorem label_cut {f : Pair} {r : Str} (hz : ZEnd z) (h : f.FitsLabel (r ++ z)) (ho : ¬ Open r z) :
    f.FitsLabel r :=
  ⟨Gap.cut (z := z) (by simpa using h.1), Value.cutName (z := z) (by simpa using h.2.1), Value.cut hz h.2.2 ho⟩

theorem env_cut {f : Pair} {r : Str} (hz : ZEnd z) (h : f.FitsEnv (r ++ z)) (ho : ¬ Open r z) :
    f.FitsEnv r :=
  ⟨Gap.cut (z := z) (by simpa using h.1), h.2.1, Value.cut hz h.2.2 ho⟩

theorem piece_cut {t r : Str} (h : Shell.Piece t (r ++ z)) : Shell.Piece t r :=
  ⟨h.1, h.2.1, fun a b e hb hc => h.2.2.1 a b e hb (by rw [← List.append_assoc]; exact hc.ext),
    fun w u hw e => h.2.2.2 w (u ++ z) hw (by rw [← List.append_assoc, e]; simp)⟩

theorem shell_upto {s : Shell} {r : Str} (h : s.Fits (r ++ z)) : s.Fits r := by
  induction s with
  | last t => exact ⟨piece_cut h.1, h.2.cut⟩
  | lastComment w t n =>
    refine ⟨h.1, h.2.1, h.2.2.imp (fun h => ⟨h.1, (List.append_eq_nil_iff.1 h.2).1⟩) fun h => ⟨h.1.cut, h.2.cut⟩⟩
  | more t w n s ih =>
    exact ⟨piece_cut (z := z) (by simpa using h.1), h.2.1, LineBreak.cut (z := z) (by simpa using h.2.2.1), ih h.2.2.2⟩
  | comment w t n s ih =>
    exact ⟨h.1, h.2.1, LineBreak.cut (z := z) (by simpa using h.2.2.1), ih h.2.2.2⟩

theorem elems_cut {es : List Elem} {r : Str} (h : ElemsFit es (r ++ z)) : ElemsFit es r := by
  induction es with
  | nil => trivial
  | cons e es ih =>
    obtain ⟨⟨h1, h2, h3⟩, h4⟩ := h
    exact ⟨⟨Space.cut (z := z) h1 _ (by simp), Space.cut (z := z) h2 _ (by simp), h3⟩, ih h4⟩

theorem array_upto {a : Array} {r : Str} (h : a.Fits (r ++ z)) : a.Fits r := by
  cases a with
  | empty g => exact Space.cut (z := z) h _ rfl
  | full g v es c g' =>
    obtain ⟨h1, h2, h3, h4⟩ := h
    exact ⟨Space.cut (z := z) h1 _ (by simp), h2, elems_cut (z := z) (by simpa using h3), Space.cut (z := z) h4 _ rfl⟩

theorem elems_ext {es : List Elem} {r : Str} (h : ElemsFit es r) (ho : ¬ Open (elemsText es ++ r) z) :
    ElemsFit es (r ++ z) := by
  induction es with
  | nil => trivial
  | cons e es ih =>
    obtain ⟨⟨h1, h2, h3⟩, h4⟩ := h
    have ho1 : ¬ Open (',' :: (e.after ++ (e.value ++ (elemsText es ++ r)))) z :=
      notOpen_suffix (u := e.before) (by simpa [elemsText, Elem.text] using ho)
    have ho2 : ¬ Open (e.value ++ (elemsText es ++ r)) z :=
      notOpen_suffix (u := ',' :: e.after) (by simpa using ho1)
    have ho3 : ¬ Open (elemsText es ++ r) z := notOpen_suffix ho2
    refine ⟨⟨?_, ?_, h3⟩, ih h4 ho3⟩
    · simpa using h1.ext (by simp) ho1
    · simpa using h2.ext (by simp [quoted_ne h3]) ho2

theorem array_ext {a : Array} {r : Str} (h : a.Fits r) (ho : ¬ Open (a.text ++ r) z) : a.Fits (r ++ z) := by
  cases a with
  | empty g =>
    exact Space.ext (z := z) h (by simp) (notOpen_suffix (u := '[' :: g) (by simpa [Array.text] using ho))
  | full g v es c g' =>
    obtain ⟨h1, h2, h3, h4⟩ := h
    have ho1 : ¬ Open (v ++ (elemsText es ++ (Array.tail c g' ++ r))) z :=
      notOpen_suffix (u := '[' :: g) (by simpa [Array.text] using ho)
    have ho2 : ¬ Open (elemsText es ++ (Array.tail c g' ++ r)) z := notOpen_suffix ho1
    have ho3 : ¬ Open (Array.tail c g' ++ r) z := notOpen_suffix ho2
    have ho4 : ¬ Open (']' :: r) z :=
      notOpen_suffix (u := (if c then [','] else []) ++ g') (by simpa [Array.tail] using ho3)
    refine ⟨?_, h2, ?_, ?_⟩
    · simpa using h1.ext (by simp [quoted_ne h2]) ho1
    · simpa using elems_ext h3 ho2
    · simpa using h4.ext (by simp) ho4

theorem noArray_cut {u : Str} (h : NoArray (u ++ z)) (ho : ¬ Open u z) : NoArray u := by
  rintro a r rfl hf
  exact h a (r ++ z) (by simp) (array_ext hf ho)

theorem begins_ext {k u : Str} (hz : ZEnd z) (h : Begins k u) (ho : ¬ Open u z) : Begins k (u ++ z) := by
  unfold Begins at h ⊢
  split
  · rename_i hk
    rw [if_pos hk] at h
    obtain ⟨fs, g, c, r, rfl, h1, h2, h3, h4⟩ := h
    have ho1 : ¬ Open (g ++ c :: r) z := notOpen_suffix ho
    have ho2 : ¬ Open (c :: r) z := notOpen_suffix ho1
    refine ⟨fs, g, c, r ++ z, by simp, ?_, ?_, h3, ?_⟩
    · simpa using flags_ext hz h1 ho
    · simpa using h2.ext (by simp) ho2
    · intro h; exact h4 (StartsFlag.cut hz (by simpa using h) ho2)
  rename_i hk1
  rw [if_neg hk1] at h
  split
  · rename_i hk
    rw [if_pos hk] at h
    obtain ⟨g, c, r, rfl, h1, h2⟩ := h
    refine ⟨g, c, r ++ z, by simp, ?_, h2⟩
    simpa using h1.ext (by simp) (notOpen_suffix ho)
  rename_i hk2
  rw [if_neg hk2] at h
  split
  · rename_i hk
    rw [if_pos hk] at h
    obtain ⟨fs, a, b, r, rfl, h1, h2, h3, h4⟩ := h
    have ho1 : ¬ Open (a.text ++ (b.text ++ r)) z := notOpen_suffix ho
    have ho2 : ¬ Open (b.text ++ r) z := notOpen_suffix ho1
    have ho3 : ¬ Open (a.value ++ (b.text ++ r)) z := notOpen_suffix (u := a.gap) (by simpa [Arg.text] using ho1)
    refine ⟨fs, a, b, r ++ z, by simp, ?_, ?_, ?_, ?_⟩
    · simpa using flags_ext hz h1 ho
    · simpa using Arg.ext hz h2 ho1
    · exact Arg.ext hz h3 ho2
    · intro h; exact h4 (StartsFlag.cut hz (by simpa using h) ho3)
  rename_i hk3
  rw [if_neg hk3] at h
  split
  · rename_i hk
    rw [if_pos hk] at h
    exact h.ext
  rename_i hk4
  rw [if_neg hk4] at h
  obtain ⟨g, r, rfl, h1, h2⟩ := h
  have hr : r ≠ [] := by
    rintro rfl
    exact h2 fun c b e => by cases e
  refine ⟨g, r ++ z, by simp, h1.ext hr (notOpen_suffix ho), fun h => h2 h.cut⟩

/-- An item in front of the cut. -/
theorem item_upto {i : Item} {r : Str} (hz : ZEnd z) (h : i.Fits (r ++ z)) (ho : ¬ Open (i.text ++ r) z) :
    i.Fits r := by
  have hr : ¬ Open r z := notOpen_suffix ho
  cases i with
  | blank => trivial
  | comment t => exact ⟨h.1, h.2.cut⟩
  | «from» kw fs g i a =>
    obtain ⟨h1, h2, h3, h4, h5, h6⟩ := h
    refine ⟨h1, flags_cut (z := z) hz (by simpa using h2) (notOpen_suffix (u := kw) (by simpa [Item.text] using ho)),
      Gap.cut (z := z) (by simpa using h3), h4, h5, fun x hx => ?_⟩
    obtain ⟨h7, h8, h9, h10, h11⟩ := h6 x hx
    exact ⟨Gap.cut (z := z) (by simpa using h7), h8, Gap.cut (z := z) (by simpa using h9), h10, h11⟩
  | arg kw g n v =>
    obtain ⟨h1, h2, h3, h4⟩ := h
    exact ⟨h1, Gap.cut (z := z) (by simpa using h2), h3, fun x hx => Value.cut hz (h4 x hx) hr⟩
  | label kw ps t =>
    obtain ⟨h1, h2, h3, h4, h5⟩ := h
    exact ⟨h1, pairs_cut (fun f r h ho => label_cut hz h ho) (by simpa using h2)
      (notOpen_suffix (u := kw) (by simpa [Item.text] using ho)), h3.cut _ rfl, h4, h5.cut⟩
  | label1 kw g n g' v =>
    obtain ⟨h1, h2, h3, h4, h5⟩ := h
    exact ⟨h1, Gap.cut (z := z) (by simpa using h2), Value.cutName (z := z) (by simpa using h3),
      Gap.cut (z := z) (by simpa using h4), Value.cut hz h5 hr⟩
  | shell k kw g s =>
    obtain ⟨h1, h2, h3, h4⟩ := h
    exact ⟨h1, Gap.cut (z := z) (by simpa using h2), shell_upto h3, noArray_cut (z := z) (by simpa using h4)
      (notOpen_suffix (u := kw ++ g) (by simpa [Item.text] using ho))⟩
  | exec k kw g a =>
    obtain ⟨h1, h2, h3⟩ := h
    exact ⟨h1, Gap.cut (z := z) (by simpa using h2), array_upto h3⟩
  | copy kw fs ss d =>
    obtain ⟨h1, h2, h3, h4, h5⟩ := h
    have e : argsText (ss ++ [d]) = argsText ss ++ d.text := by simp [argsText]
    have ho1 : ¬ Open (flagsText fs ++ (argsText (ss ++ [d]) ++ r)) z :=
      notOpen_suffix (u := kw) (by simpa [Item.text, e] using ho)
    refine ⟨h1, flags_cut (z := z) hz (by simpa using h2) ho1, h3, args_cut hz h4 (notOpen_suffix ho1), ?_⟩
    rintro f b rfl hf
    refine h5 f b rfl ?_
    have := StartsFlag.ext (z := z) hz hf
      (notOpen_suffix (u := flagsText fs ++ f.gap) (by simpa [argsText, Arg.text] using ho1))
    simpa using this
  | env kw ps t =>
    obtain ⟨h1, h2, h3, h4, h5⟩ := h
    exact ⟨h1, pairs_cut (fun f r h ho => env_cut hz h ho) (by simpa using h2)
      (notOpen_suffix (u := kw) (by simpa [Item.text] using ho)), h3.cut _ rfl, h4, h5.cut⟩
  | env1 kw g n g' s =>
    obtain ⟨h1, h2, h3, h4, h5, h6, h7⟩ := h
    exact ⟨h1, Gap.cut (z := z) (by simpa using h2), h3, h4, Gap.cut (z := z) (by simpa using h5), shell_upto h6,
      NoQuoted.cut (z := z) (by simpa using h7)⟩
  | env1q kw g n g' v =>
    obtain ⟨h1, h2, h3, h4, h5, h6⟩ := h
    exact ⟨h1, Gap.cut (z := z) (by simpa using h2), h3, h4, Gap.cut (z := z) (by simpa using h5), h6⟩
  | misc w a =>
    obtain ⟨h1, h2, h3, h4, h5⟩ := h
    refine ⟨h1, h2, shell_upto h3, h4, fun hk hb => h5 hk ?_⟩
    have := begins_ext (z := z) hz hb (notOpen_suffix (u := w) (by simpa [Item.text] using ho))
    simpa using this

end
end Src
end Verif
