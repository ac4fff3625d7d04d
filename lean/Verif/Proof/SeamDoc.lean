import Verif.Proof.Seam

/-!
# Exchanging blank lines and comment lines between the lines of a document: lines
-/

namespace Verif
namespace Src
open Spec

theorem Seam.pre {x m m' : Str} (a : Str) (h : Seam x m m') : Seam (a ++ x) m m' := by
  have cr : ∀ {m : Str}, (∀ a, x = a ++ ['\r'] → ∀ t, m ≠ '\n' :: t) →
      ∀ b, a ++ x = b ++ ['\r'] → ∀ t, m ≠ '\n' :: t := by
    intro m h' b e
    obtain ⟨u, c, rfl, -⟩ := h.brk
    rw [← List.append_assoc] at e
    obtain rfl : c = '\r' := by simpa using List.append_inj_right' e rfl
    exact h' u rfl
  exact ⟨h.brk.pre a, cr h.cr, cr h.cr'⟩

section
variable {f : Bool} {p p' z : Str}

theorem value_seam (hq : Mild p) (hq' : Mild p') {v : Value} {r : Str}
    (h : v.Fits (r ++ (p ++ z))) (hr : Seam r (p ++ z) (p' ++ z)) : v.Fits (r ++ (p' ++ z)) := by
  cases v with
  | quoted t => exact h
  | bare t =>
    refine ⟨?_, word_add (word_less h.2 hr.brk) hr.brk⟩
    have := noQuoted_seam hq hq' (hr.pre t) (by simpa using h.1)
    simpa using this

theorem name_seam (hq : Mild p) (hq' : Mild p') {v : Value} {r : Str}
    (h : v.FitsName (r ++ (p ++ z))) (hr : Seam r (p ++ z) (p' ++ z)) : v.FitsName (r ++ (p' ++ z)) := by
  cases v with
  | quoted t => exact h
  | bare t =>
    refine ⟨?_, nameWord_add h.2.cut hr.brk.ne⟩
    have := noQuoted_seam hq hq' (hr.pre t) (by simpa using h.1)
    simpa using this

theorem pairs_seam {F : Pair → Str → Prop}
    (hF : ∀ f r, F f (r ++ (p ++ z)) → Seam r (p ++ z) (p' ++ z) → F f (r ++ (p' ++ z))) {ps : List Pair} {r : Str}
    (h : PairsFit F ps (r ++ (p ++ z))) (hr : Seam r (p ++ z) (p' ++ z)) : PairsFit F ps (r ++ (p' ++ z)) := by
  induction ps with
  | nil => trivial
  | cons f fs ih =>
    exact ⟨by simpa using hF f (pairsText fs ++ r) (by simpa using h.1) (hr.pre _), ih h.2⟩

theorem Gap.seam {m m' g r : Str} (h : Gap g (r ++ m)) (hr : Seam r m m') : Gap g (r ++ m') := gap_add h.cut hr.brk

theorem label_seam (hq : Mild p) (hq' : Mild p') (f : Pair) (r : Str)
    (h : f.FitsLabel (r ++ (p ++ z))) (hr : Seam r (p ++ z) (p' ++ z)) : f.FitsLabel (r ++ (p' ++ z)) := by
  refine ⟨?_, ?_, value_seam hq hq' h.2.2 hr⟩
  · have := Gap.seam (r := f.body ++ r) (by simpa using h.1) (hr.pre _)
    simpa using this
  · have := name_seam hq hq' (r := '=' :: (f.value.text ++ r)) (by simpa using h.2.1) (hr.pre ('=' :: f.value.text))
    simpa using this

theorem env_seam (hq : Mild p) (hq' : Mild p') (f : Pair) (r : Str)
    (h : f.FitsEnv (r ++ (p ++ z))) (hr : Seam r (p ++ z) (p' ++ z)) : f.FitsEnv (r ++ (p' ++ z)) := by
  refine ⟨?_, h.2.1, value_seam hq hq' h.2.2 hr⟩
  have := Gap.seam (r := f.body ++ r) (by simpa using h.1) (hr.pre _)
  simpa using this

/-- An item in front of a line break after which blank lines and comment lines are exchanged. -/
theorem item_seam (hs : Swap f p p' z) (hq : Mild p) (hq' : Mild p') {i : Item} {r : Str}
    (hw : f = true → ∀ w a, i = .misc w a → ¬ IsKeyword w) (h : i.Fits (r ++ (p ++ z))) (hr : Seam r (p ++ z) (p' ++ z)) : i.Fits (r ++ (p' ++ z)) := by
  have hb := hr.brk
  have h0 := item_less h hb
  cases i with
  | blank => trivial
  | comment t => exact ⟨h.1, h0.2.ext hb.ne⟩
  | «from» kw fs g i a =>
    obtain ⟨h1, h2, h3, h4, h5, h6⟩ := h0
    have hr1 := (hb.pre (aliasText a)).pre i
    refine ⟨h1, by simpa using flags_add (z := p' ++ z) h2 (hr1.pre g), by simpa using gap_add (z := p' ++ z) h3 hr1,
      h4, h5, ?_⟩
    intro x hx
    obtain ⟨h7, h8, h9, h10, h11⟩ := h6 x hx
    refine ⟨by simpa using gap_add (z := p' ++ z) h7 (((hb.pre x.name).pre x.gap').pre x.kw), h8,
      by simpa using gap_add (z := p' ++ z) h9 (hb.pre x.name), h10, h11⟩
  | arg kw g n v =>
    obtain ⟨h1, h2, h3, h4⟩ := h
    refine ⟨h1, ?_, h3, fun x hx => value_seam hq hq' (h4 x hx) hr⟩
    have := Gap.seam (r := n ++ (valueText v ++ r)) (by simpa using h2) ((hr.pre _).pre _)
    simpa using this
  | label kw ps t =>
    obtain ⟨h1, h2, h3, h4, h5⟩ := h
    refine ⟨h1, ?_, space_add h0.2.2.1 hb, h4, h0.2.2.2.2.ext hb.ne⟩
    have := pairs_seam (label_seam hq hq') (r := t ++ r) (by simpa using h2) (hr.pre t)
    simpa using this
  | label1 kw g n g' v =>
    obtain ⟨h1, h2, h3, h4, h5⟩ := h
    have hr1 := hr.pre v.text
    refine ⟨h1, ?_, ?_, ?_, value_seam hq hq' h5 hr⟩
    · have := Gap.seam (r := n.text ++ (g' ++ (v.text ++ r))) (by simpa using h2) ((hr1.pre _).pre _)
      simpa using this
    · have := name_seam hq hq' (r := g' ++ (v.text ++ r)) (by simpa using h3) (hr1.pre _)
      simpa using this
    · have := Gap.seam (r := v.text ++ r) (by simpa using h4) hr1
      simpa using this
  | shell k kw g s =>
    obtain ⟨h1, h2, h3, h4⟩ := h
    refine ⟨h1, ?_, shell_add h0.2.2.1 hb, ?_⟩
    · have := Gap.seam (r := s.text ++ r) (by simpa using h2) (hr.pre _)
      simpa using this
    · have := noArray_seam hs hq hq' (hr.pre s.text) (by simpa using h4)
      simpa using this
  | exec k kw g a =>
    obtain ⟨h1, h2, h3⟩ := h
    refine ⟨h1, ?_, array_add h0.2.2 hb⟩
    have := Gap.seam (r := a.text ++ r) (by simpa using h2) (hr.pre _)
    simpa using this
  | copy kw fs ss d =>
    obtain ⟨h1, h2, h3, h4, h5⟩ := h0
    refine ⟨h1, by simpa using flags_add (z := p' ++ z) h2 (hb.pre _), h3, args_add h4 hb, ?_⟩
    rintro f b rfl hf
    exact h5 f b rfl (startsFlag_less (z := p' ++ z) (by simpa using hf) ((hb.pre _).pre _))
  | env kw ps t =>
    obtain ⟨h1, h2, h3, h4, h5⟩ := h
    refine ⟨h1, ?_, space_add h0.2.2.1 hb, h4, h0.2.2.2.2.ext hb.ne⟩
    have := pairs_seam (env_seam hq hq') (r := t ++ r) (by simpa using h2) (hr.pre t)
    simpa using this
  | env1 kw g n g' s =>
    obtain ⟨h1, h2, h3, h4, h5, h6, h7⟩ := h
    have hr1 := hr.pre s.text
    refine ⟨h1, ?_, h3, h4, ?_, shell_add h0.2.2.2.2.2.1 hb, ?_⟩
    · have := Gap.seam (r := n ++ (g' ++ (s.text ++ r))) (by simpa using h2) ((hr1.pre _).pre _)
      simpa using this
    · have := Gap.seam (r := s.text ++ r) (by simpa using h5) hr1
      simpa using this
    · have := noQuoted_seam hq hq' hr1 (by simpa using h7)
      simpa using this
  | env1q kw g n g' v =>
    obtain ⟨h1, h2, h3, h4, h5, h6⟩ := h
    have hr1 := hr.pre v
    refine ⟨h1, ?_, h3, h4, ?_, h6⟩
    · have := Gap.seam (r := n ++ (g' ++ (v ++ r))) (by simpa using h2) ((hr1.pre _).pre _)
      simpa using this
    · have := Gap.seam (r := v ++ r) (by simpa using h5) hr1
      simpa using this
  | misc w a =>
    obtain ⟨h1, h2, h3, h4, h5⟩ := h
    refine ⟨h1, h2, shell_add h0.2.2.1 hb, h4, fun hk hB => h5 hk ?_⟩
    cases f with
    | true => exact absurd hk (hw rfl w a rfl)
    | false =>
    have := begins_seam hs.symm (k := lower w) (x := a.text ++ r) (by simpa using hB) (hr.pre _).symm
    simpa using this

theorem pre_seam (hs : Swap f p p' z) (hq : Mild p) (hq' : Mild p')
    (ps : List (Line × Str)) (hw : f = true → ∀ x ∈ ps, ∀ w a, x.1.item = .misc w a → ¬ IsKeyword w) (h : PreFits ps (p ++ z)) (hr : preText ps = [] ∨ Seam (preText ps) (p ++ z) (p' ++ z)) :
    PreFits ps (p' ++ z) := by
  induction ps with
  | nil => trivial
  | cons a ps ih =>
    obtain ⟨l, n⟩ := a
    obtain ⟨h1, h2, h3⟩ := h
    have hn := (break_end h2).ne
    have hr : Seam (l.text ++ (n ++ preText ps)) (p ++ z) (p' ++ z) := hr.resolve_left (by simp [preText, hn])
    have hr1 := hr.right (by simp [hn])
    obtain ⟨y, e1, -, hy, hl⟩ := hr1.line (r := preText ps ++ (p ++ z)) (by simp) h2
    have e1 := List.append_cancel_left e1
    subst e1
    refine ⟨⟨h1.1, ?_, h1.2.2⟩, hl, ih (fun hf x hx => hw hf x (by simp [hx])) h3 hy⟩
    have := item_seam hs hq hq' (fun hf => hw hf _ List.mem_cons_self) (r := l.trail ++ (n ++ preText ps)) (by simpa using h1.2.1) (hr1.pre _)
    simpa using this

end
end Src
end Verif
