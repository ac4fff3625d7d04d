import Verif.Proof.Swap

/-!
# Exchanging the image of a `FROM` in a later line

Whether a line is one of the known instructions may depend on the text behind it: a continuation
followed by comments and empty lines makes the parser look at the lines below.  It never looks
beyond the keyword of the next instruction, so the image in a later `FROM` does not matter.
-/

namespace Verif
namespace Src
open Spec

/-- at the start of a line, up to blanks -/
def Lead (a : Str) : Prop :=
  ∃ a0 w, a = a0 ++ w ∧ Blanks w ∧ (a0 = [] ∨ ∃ a1 c, a0 = a1 ++ [c] ∧ (c = '\n' ∨ c = '\r'))

theorem Lead.tail {c : Char} {a : Str} (h : Lead (c :: a)) : Lead a := by
  obtain ⟨a0, w, e, hw, h⟩ := h
  cases a0 with
  | nil =>
    cases w with
    | nil => cases e
    | cons d w =>
      obtain ⟨-, rfl⟩ := List.cons.inj e
      exact ⟨[], a, rfl, hw.tail, .inl rfl⟩
  | cons d a0 =>
    obtain ⟨-, rfl⟩ := List.cons.inj e
    refine ⟨a0, w, rfl, hw, ?_⟩
    rcases h with h | ⟨a1, c, h, hc⟩
    · cases h
    · cases a1 with
      | nil =>
        obtain ⟨-, rfl⟩ := List.cons.inj h
        exact .inl rfl
      | cons d a1 =>
        obtain ⟨-, rfl⟩ := List.cons.inj h
        exact .inr ⟨a1, c, rfl, hc⟩

theorem Lead.drop {u a : Str} (h : Lead (u ++ a)) : Lead a := by
  induction u with
  | nil => exact h
  | cons c u ih => exact ih h.tail

/-- text without line breaks, not starting with a blank, lies in front of the line -/
theorem line_before {c : Char} {b z a k : Str} {F : Char} (e : c :: b ++ z = a ++ F :: k) (ha : Lead a)
    (hc : ¬ (c = ' ' ∨ c = '\t')) (hb : ∀ d ∈ c :: b, ¬ (d = '\n' ∨ d = '\r')) (hF : a ≠ []) :
    ∃ a2, a = c :: b ++ a2 ∧ z = a2 ++ F :: k := by
  rcases List.append_eq_append_iff.1 e with ⟨a2, h1, h2⟩ | ⟨k2, h1, -⟩
  · exact ⟨a2, h1, h2⟩
  · exfalso
    cases a with
    | nil => exact hF rfl
    | cons d a =>
      obtain ⟨rfl, -⟩ := List.cons.inj h1
      obtain ⟨a0, w, e, hw, h⟩ := ha
      rcases h with rfl | ⟨a1, d, rfl, hd⟩
      · rw [List.nil_append] at e
        exact hc (hw c (by rw [← e]; simp))
      · refine hb d ?_ hd
        rw [h1, e]; simp

/-- text without letters lies in front of a letter -/
theorem strip_before {y z a k : Str} {F : Char} (e : y ++ z = a ++ F :: k) (hF : IsAlpha F)
    (hy : ∀ c ∈ y, ¬ IsAlpha c) : ∃ a2, a = y ++ a2 ∧ z = a2 ++ F :: k := by
  rcases List.append_eq_append_iff.1 e with ⟨a2, h1, h2⟩ | ⟨k2, h1, h2⟩
  · exact ⟨a2, h1, h2⟩
  · cases k2 with
    | nil => exact ⟨[], by simpa using h1.symm, h2.symm⟩
    | cons d k2 =>
      obtain ⟨rfl, -⟩ := List.cons.inj h2
      exact absurd hF (hy F (by simp [h1]))

theorem nalpha {c : Char} (h : isAlpha c = false) : ¬ IsAlpha c := fun h' => by
  rw [isAlpha_iff.2 h'] at h; cases h

theorem nalpha_blanks {w : Str} (h : Blanks w) : ∀ c ∈ w, ¬ IsAlpha c := fun c hc => by
  rcases h c hc with rfl | rfl <;> exact nalpha (by decide)

theorem nalpha_break {n r : Str} (h : LineBreak n r) : ∀ c ∈ n, ¬ IsAlpha c := by
  intro c hc
  rcases h with rfl | rfl | ⟨rfl, -⟩ <;> simp at hc
  · subst hc; exact nalpha (by decide)
  · rcases hc with rfl | rfl <;> exact nalpha (by decide)
  · subst hc; exact nalpha (by decide)

theorem skip_before {l r : Str} (h : SkipLines l r) {a k : Str} {F : Char}
    (e : l ++ r = a ++ F :: k) (ha : Lead a) (hF : IsAlpha F) :
    ∃ a2, a = l ++ a2 ∧ r = a2 ++ F :: k := by
  induction h generalizing a with
  | nil _ => exact ⟨a, rfl, e⟩
  | @blank w n l r hw hn _ ih =>
    simp only [List.append_assoc] at e
    obtain ⟨a2, e0, e1⟩ := strip_before e hF (nalpha_blanks hw)
    subst e0; clear e; have e := e1; clear e1
    obtain ⟨a3, e0, e1⟩ := strip_before e hF (nalpha_break hn)
    subst e0; clear e; have e := e1; clear e1
    obtain ⟨a4, e0, e1⟩ := ih e ha.drop.drop
    subst e0; clear e; have e := e1; clear e1
    exact ⟨a4, by simp, e⟩
  | @comment w t n l r hw ht hn _ ih =>
    simp only [List.append_assoc] at e
    obtain ⟨a2, e0, e1⟩ := strip_before e hF (nalpha_blanks hw)
    subst e0; clear e; have e := e1; clear e1
    obtain ⟨b, rfl, hb⟩ := ht
    have hc1 : ∀ d ∈ '#' :: b, ¬ (d = '\n' ∨ d = '\r') := fun d hd => by
      rcases List.mem_cons.1 hd with rfl | hd
      · decide
      · exact fun h => h.elim (hb d hd).1 (hb d hd).2
    have hc2 : a2 ≠ [] := by
      rintro rfl
      obtain ⟨rfl, -⟩ := List.cons.inj e
      exact nalpha (by decide) hF
    obtain ⟨a3, e0, e1⟩ := line_before e ha.drop (by decide) hc1 hc2
    · subst e0; clear e; have e := e1; clear e1
      obtain ⟨a4, e0, e1⟩ := strip_before e hF (nalpha_break hn)
      subst e0; clear e; have e := e1; clear e1
      obtain ⟨a5, e0, e1⟩ := ih e (Lead.drop (Lead.drop ha.drop))
      subst e0; clear e; have e := e1; clear e1
      exact ⟨a5, by simp, e⟩
  | @lastComment w t hw ht =>
    simp only [List.append_assoc] at e
    obtain ⟨a2, e0, e1⟩ := strip_before e hF (nalpha_blanks hw)
    subst e0; clear e; have e := e1; clear e1
    obtain ⟨b, rfl, hb⟩ := ht
    have hc1 : ∀ d ∈ '#' :: b, ¬ (d = '\n' ∨ d = '\r') := fun d hd => by
      rcases List.mem_cons.1 hd with rfl | hd
      · decide
      · exact fun h => h.elim (hb d hd).1 (hb d hd).2
    have hc2 : a2 ≠ [] := by
      rintro rfl
      obtain ⟨rfl, -⟩ := List.cons.inj e
      exact nalpha (by decide) hF
    obtain ⟨a3, e0, e1⟩ := line_before e ha.drop (by decide) hc1 hc2
    · subst e0; clear e; have e := e1; clear e1
      exact ⟨a3, by simp, e⟩

theorem space_before {g r : Str} (h : Space g r) {a k : Str} {F : Char}
    (e : g ++ r = a ++ F :: k) (ha : Lead a) (hF : IsAlpha F) :
    ∃ a2, a = g ++ a2 ∧ r = a2 ++ F :: k := by
  induction h generalizing a with
  | nil _ => exact ⟨a, rfl, e⟩
  | @blank c g r hc _ ih =>
    obtain ⟨a2, e0, e1⟩ := strip_before (y := [c]) e hF (nalpha_blanks (by simpa [Blanks] using hc))
    subst e0; clear e; have e := e1; clear e1
    obtain ⟨a3, e0, e1⟩ := ih e ha.tail
    subst e0; clear e; have e := e1; clear e1
    exact ⟨a3, rfl, e⟩
  | @continuation w n l g r hw hn hl _ ih =>
    simp only [List.append_assoc, List.cons_append] at e
    obtain ⟨a1, e0, e1⟩ := strip_before (y := ['\\']) e hF (by simpa using nalpha (by decide))
    subst e0; clear e; have e := e1; clear e1
    obtain ⟨a2, e0, e1⟩ := strip_before e hF (nalpha_blanks hw)
    subst e0; clear e; have e := e1; clear e1
    obtain ⟨a3, e0, e1⟩ := strip_before e hF (nalpha_break hn)
    subst e0; clear e; have e := e1; clear e1
    obtain ⟨a4, e0, e1⟩ := skip_before hl e (Lead.drop (Lead.drop ha.drop)) hF
    subst e0; clear e; have e := e1; clear e1
    obtain ⟨a5, e0, e1⟩ := ih e (Lead.drop (Lead.drop (Lead.drop ha.drop)))
    subst e0; clear e; have e := e1; clear e1
    exact ⟨a5, by simp, e⟩

theorem Word.chars {w r : Str} (h : Word w r) {c : Char} (hc : c ∈ w) :
    ¬ (c = '\n' ∨ c = '\r') ∧ ¬ (c = ' ' ∨ c = '\t') := by
  obtain ⟨a, b, rfl⟩ := List.append_of_mem hc
  have := h.2.1 a (c :: b) rfl (by simp)
  constructor
  · intro hc'
    refine this (.inl fun d b' e => ?_)
    obtain ⟨rfl, -⟩ := List.cons.inj e
    exact hc'
  · intro hc'
    exact this (.inr (.inl ⟨c, b ++ r, rfl, hc'⟩))

theorem alpha_plain' {c : Char} (h : IsAlpha c) : ¬ (c = '\n' ∨ c = '\r') ∧ ¬ (c = ' ' ∨ c = '\t') := by
  constructor <;> rintro (rfl | rfl) <;> exact nalpha (by decide) h

/-- The text of a flag, without the gap. -/
theorem flagBody_chars {n v r : Str} (hn : ∀ c ∈ n, IsAlpha c) (hv : Word v r) :
    ∀ d ∈ '-' :: ('-' :: (n ++ '=' :: v)), ¬ (d = '\n' ∨ d = '\r') := by
  intro d hd
  simp only [List.mem_cons, List.mem_append] at hd
  rcases hd with rfl | rfl | hd | rfl | hd
  · decide
  · decide
  · exact (alpha_plain' (hn d hd)).1
  · decide
  · exact (hv.chars hd).1

theorem flags_before {fs : List Flag} {y : Str} (h : FlagsFit fs y) {a k : Str} {F : Char}
    (e : flagsText fs ++ y = a ++ F :: k) (ha : Lead a) (hF : IsAlpha F) :
    ∃ a2, a = flagsText fs ++ a2 ∧ y = a2 ++ F :: k := by
  induction fs generalizing a with
  | nil => exact ⟨a, rfl, e⟩
  | cons f fs ih =>
    obtain ⟨⟨h1, h2, h3, h4⟩, h5⟩ := h
    rw [flagsText_cons] at e ⊢
    simp only [Flag.text, Flag.body, List.append_assoc] at e
    obtain ⟨a1, e0, e1⟩ := space_before h1.2 (by simpa [Flag.body] using e) ha hF
    subst e0; clear e; have e := e1; clear e1
    have e : '-' :: ('-' :: (f.name ++ '=' :: f.value)) ++ (flagsText fs ++ y) = a1 ++ F :: k := by
      simpa [Flag.body] using e
    obtain ⟨a2, e0, e1⟩ := line_before e ha.drop (by decide) (flagBody_chars h3 h4) (by
      rintro rfl
      obtain ⟨rfl, -⟩ := List.cons.inj e
      exact nalpha (by decide) hF)
    subst e0; clear e; have e := e1; clear e1
    obtain ⟨a3, e0, e1⟩ := ih h5 e (Lead.drop ha.drop)
    subst e0; clear e; have e := e1; clear e1
    exact ⟨a3, by simp [Flag.text, Flag.body], e⟩

/-- `x'` is `x` with the image of a `FROM` exchanged that follows `a`. -/
def Site (L : Str → Prop) (x x' : Str) : Prop :=
  ∃ a kw fs g i i' b, x = a ++ (kw ++ (flagsText fs ++ (g ++ (i ++ b)))) ∧
    x' = a ++ (kw ++ (flagsText fs ++ (g ++ (i' ++ b)))) ∧ L a ∧ lower kw = c!"from" ∧
    FlagsFit fs (g ++ (i ++ b)) ∧ Gap g (i ++ b) ∧ Img i ∧ Img i' ∧ WordEnd b

theorem Site.w {L x x'} : Site L x x' → W x x'
  | ⟨a, kw, fs, g, i, i', b, e, e', _, _, _, _, hi, hi', _⟩ =>
    ⟨a ++ (kw ++ (flagsText fs ++ g)), i, i', b, by simp [e], by simp [e'], hi, hi'⟩

theorem img_w {i i' : Str} (b : Str) (hi : Img i) (hi' : Img i') : W (i ++ b) (i' ++ b) :=
  ⟨[], i, i', b, rfl, rfl, hi, hi'⟩

theorem Site.symm {L x x'} : Site L x x' → Site L x' x
  | ⟨a, kw, fs, g, i, i', b, e, e', ha, hk, hf, hg, hi, hi', hb⟩ =>
    ⟨a, kw, fs, g, i', i, b, e', e, ha, hk, FlagsFit.swap hf ((img_w b hi hi').pre g),
      Gap.swap hg (img_w b hi hi'), hi', hi, hb⟩

theorem alpha_of_lower {c : Char} (h : IsAlpha (lowerChar c)) : IsAlpha c := by
  rw [← isAlpha_iff] at h ⊢
  rwa [isAlpha_lowerChar] at h

theorem kw_from {kw : Str} (h : lower kw = c!"from") : ∃ F k, kw = F :: k ∧ ∀ c ∈ F :: k, IsAlpha c := by
  have h' : ∀ c ∈ kw, IsAlpha c := by
    intro c hc
    have : lowerChar c ∈ lower kw := List.mem_map_of_mem hc
    rw [h] at this
    refine alpha_of_lower (isAlpha_iff.1 ?_)
    revert this
    generalize lowerChar c = d
    revert d
    decide
  cases kw with
  | nil => cases h
  | cons F k => exact ⟨F, k, rfl, h'⟩

theorem word_alpha {w r : Str} (h : w ≠ []) (hw : ∀ c ∈ w, IsAlpha c) (hr : WordEnd r) : Word w r := by
  refine ⟨h, fun a b e hb => ?_, hr⟩
  cases b with
  | nil => exact absurd rfl hb
  | cons c b =>
    have hc := hw c (by simp [e])
    rintro (h | ⟨d, t, e', hd⟩ | ⟨w', n, t, e', -⟩)
    · exact (alpha_plain' hc).1 (h c _ rfl)
    · obtain ⟨rfl, -⟩ := List.cons.inj e'
      exact (alpha_plain' hc).2 hd
    · obtain ⟨rfl, -⟩ := List.cons.inj e'
      exact nalpha (by decide) hc

theorem word_img {w r : Str} (h : Img w) (hr : WordEnd r) : Word w r := by
  refine ⟨h.1, fun a b e hb => ?_, hr⟩
  cases b with
  | nil => exact absurd rfl hb
  | cons c b =>
    have hc := h.2 c (by simp [e])
    rintro (h | ⟨d, t, e', hd⟩ | ⟨w', n, t, e', -⟩)
    · exact nimg_break (h c _ rfl) hc
    · obtain ⟨rfl, -⟩ := List.cons.inj e'
      exact nimg_blank hd hc
    · obtain ⟨rfl, -⟩ := List.cons.inj e'
      exact nimg (by decide) hc

/-- a word goes on to the left -/
theorem Word.append {u w r : Str} (hu : ∀ c ∈ u, ¬ (c = '\n' ∨ c = '\r') ∧ ¬ (c = ' ' ∨ c = '\t') ∧ c ≠ '\\')
    (h : Word w r) : Word (u ++ w) r := by
  induction u with
  | nil => exact h
  | cons c u ih =>
    have ih := ih fun d hd => hu d (by simp [hd])
    refine ⟨by simp, fun a b e hb => ?_, h.2.2⟩
    cases a with
    | cons d a =>
      obtain ⟨-, e⟩ := List.cons.inj e
      exact ih.2.1 a b e hb
    | nil =>
      rw [List.nil_append] at e
      subst e
      obtain ⟨h1, h2, h3⟩ := hu c (by simp)
      rintro (h | ⟨d, t, e', hd⟩ | ⟨w', n, t, e', -⟩)
      · exact h1 (h c _ rfl)
      · obtain ⟨rfl, -⟩ := List.cons.inj e'
        exact h2 hd
      · obtain ⟨rfl, -⟩ := List.cons.inj e'
        exact h3 rfl

theorem startsFlag_site {x x' : Str} (h : Site Lead x x') (hx : StartsFlag x) : StartsFlag x' := by
  obtain ⟨a, kw, fs, g, i, i', b, e, rfl, ha, hk, hf, hg, hi, hi', hb⟩ := h
  obtain ⟨F, k, rfl, hF⟩ := kw_from hk
  obtain ⟨n, v, r, rfl, h1, h2, h3⟩ := hx
  have e : '-' :: ('-' :: (n ++ '=' :: v)) ++ r = a ++ F :: (k ++ (flagsText fs ++ (g ++ (i ++ b)))) := by
    simpa using e
  obtain ⟨a2, rfl, rfl⟩ := line_before e ha (by decide) (flagBody_chars h2 h3) (by
      rintro rfl
      obtain ⟨rfl, -⟩ := List.cons.inj e
      exact nalpha (by decide) (hF '-' (by simp)))
  refine ⟨n, v, a2 ++ F :: (k ++ (flagsText fs ++ (g ++ (i' ++ b)))), by simp, h1, h2, h3.swap ?_⟩
  refine W.pre a2 ?_
  have := ((((img_w b hi hi').pre g).pre (flagsText fs)).pre k).pre [F]
  exact this

/-- What follows the keyword is a word. -/
theorem second_word {fs : List Flag} {g i b : Str} (hf : FlagsFit fs (g ++ (i ++ b)))
    (hg : Gap g (i ++ b)) (hi : Img i) (hb : WordEnd b) :
    ∃ (B : Arg) (r : Str), flagsText fs ++ (g ++ (i ++ b)) = B.text ++ r ∧ B.Fits r := by
  cases fs with
  | nil => exact ⟨⟨g, i⟩, b, by simp [flagsText, Arg.text], hg, word_img hi hb⟩
  | cons f fs =>
    obtain ⟨⟨h1, h2, h3, h4⟩, -⟩ := hf
    refine ⟨⟨f.gap, ('-' :: '-' :: (f.name ++ ['='])) ++ f.value⟩, flagsText fs ++ (g ++ (i ++ b)), ?_, ?_, ?_⟩
    · rw [flagsText_cons]; simp [Flag.text, Flag.body, Arg.text]
    · simpa [Flag.body] using h1
    · refine Word.append (fun c hc => ?_) h4
      simp only [List.mem_cons, List.mem_append, List.not_mem_nil, or_false] at hc
      rcases hc with rfl | rfl | hc | rfl
      · decide
      · decide
      · refine ⟨(alpha_plain' (h3 c hc)).1, (alpha_plain' (h3 c hc)).2, ?_⟩
        rintro rfl
        exact nalpha (by decide) (h3 _ hc)
      · decide

theorem Arg.starts {B : Arg} {r : Str} (h : B.Fits r) : WordEnd (B.text ++ r) := by
  have : Gap B.gap (B.value ++ r) := h.1
  have := this.starts
  rw [Arg.text, List.append_assoc]
  exact .inr this

theorem begins_site {k x x' : Str} (h : Site Lead x x') (hx : Begins k x) : Begins k x' := by
  obtain ⟨a, kw, fs, g, i, i', b, e, rfl, ha, hk, hf, hg, hi, hi', hb⟩ := h
  obtain ⟨F, kw', hFk, hkw⟩ := kw_from hk
  have hF := hkw F (by simp)
  have hf' := FlagsFit.swap hf ((img_w b hi hi').pre g)
  have hg' := Gap.swap hg (img_w b hi hi')
  -- the text from the keyword on
  have hW : W (kw ++ (flagsText fs ++ (g ++ (i ++ b)))) (kw ++ (flagsText fs ++ (g ++ (i' ++ b)))) :=
    (((img_w b hi hi').pre g).pre (flagsText fs)).pre kw
  have hS : kw ++ (flagsText fs ++ (g ++ (i ++ b))) = F :: (kw' ++ (flagsText fs ++ (g ++ (i ++ b)))) := by
    rw [hFk]; rfl
  have hS' : kw ++ (flagsText fs ++ (g ++ (i' ++ b))) =
      F :: (kw' ++ (flagsText fs ++ (g ++ (i' ++ b)))) := by rw [hFk]; rfl
  -- the site, seen from further on
  have hsite : ∀ {u v : Str}, Lead (u ++ v) → Site Lead (v ++ (kw ++ (flagsText fs ++ (g ++ (i ++ b)))))
      (v ++ (kw ++ (flagsText fs ++ (g ++ (i' ++ b))))) := fun h =>
    ⟨_, kw, fs, g, i, i', b, rfl, rfl, h.drop, hk, hf, hg, hi, hi', hb⟩
  -- the keyword is a word, and so is what follows it
  obtain ⟨B', r', hB, hB'⟩ := second_word hf' hg' hi' hb
  have hkwW : Word kw (flagsText fs ++ (g ++ (i' ++ b))) := by
    refine word_alpha (by rw [hFk]; simp) (by rw [hFk]; exact hkw) ?_
    rw [hB]; exact Arg.starts hB'
  unfold Begins at hx ⊢
  split at hx
  · rename_i h1
    rw [if_pos h1]
    obtain ⟨fl, g1, c, r, rfl, h2, h3, h4, h5⟩ := hx
    rw [hS] at e
    obtain ⟨a2, e0, e2⟩ := flags_before h2 e ha hF
    subst e0
    obtain ⟨a3, e0, e3⟩ := space_before h3.2 e2 ha.drop hF
    subst e0
    rw [← hS] at e3
    have hW' := hW.pre a3
    obtain ⟨c', r', e4, hc⟩ := (e3 ▸ hW').head
    have hc : c' = c := by
      cases a3 with
      | nil =>
        rw [List.nil_append, hS] at e3
        rw [List.nil_append, hS'] at e4
        exact (List.cons.inj e4).1.symm.trans (List.cons.inj e3).1.symm
      | cons d a3 => exact (List.cons.inj e4).1.symm.trans (List.cons.inj e3).1.symm
    subst hc
    rw [← e3, e4] at hW'
    refine ⟨fl, g1, c', r', by simp [← e4], h2.swap (hW'.pre g1), h3.swap hW', h4, fun h => h5 ?_⟩
    rw [e3]; rw [← e4] at h
    exact startsFlag_site (hsite (u := flagsText fl ++ g1) (by simpa using ha)).symm h
  · rename_i h1
    rw [if_neg h1]
    split at hx
    · rename_i h2
      rw [if_pos h2]
      obtain ⟨g1, c, r, rfl, h3, h4⟩ := hx
      rw [hS] at e
      obtain ⟨a3, e0, e3⟩ := space_before h3.2 e ha hF
      subst e0
      rw [← hS] at e3
      have hW' := hW.pre a3
      cases a3 with
      | nil =>
        rw [List.nil_append, hS] at e3
        rw [List.nil_append, List.nil_append, hS'] at hW'
        obtain ⟨rfl, -⟩ := List.cons.inj e3
        rw [hS, ← e3] at hW'
        exact ⟨g1, c, _, by rw [List.append_nil, hS'], h3.swap hW', h4⟩
      | cons d a3 =>
        obtain ⟨rfl, -⟩ := List.cons.inj e3
        rw [← e3] at hW'
        exact ⟨g1, c, _, by rw [List.append_assoc]; rfl, h3.swap hW', h4⟩
    · rename_i h2
      rw [if_neg h2]
      split at hx
      · rename_i h3
        rw [if_pos h3]
        obtain ⟨fl, A, B, r, rfl, h4, ⟨h5, h5'⟩, ⟨h6, h6'⟩, h7⟩ := hx
        rw [hS] at e
        obtain ⟨a2, e0, e2⟩ := flags_before h4 e ha hF
        subst e0
        rw [e2, ← hS] at h4
        rw [Arg.text, List.append_assoc] at e2
        obtain ⟨a3, e0, e3⟩ := space_before h5.2 e2 ha.drop hF
        subst e0
        by_cases ha3 : a3 = []
        · subst ha3
          rw [List.nil_append] at e3
          rw [e3, ← hS] at h5
          refine ⟨fl, ⟨A.gap, kw⟩, B', r', by simp [Arg.text, hB], ?_, ⟨?_, ?_⟩, hB', ?_⟩
          · rw [← hB]
            have := FlagsFit.swap h4 (hW.pre (A.gap ++ []))
            simpa [Arg.text] using this
          · rw [← hB]
            exact Gap.swap h5 hW
          · rw [← hB]; exact hkwW
          · rintro ⟨n, v, r, e, -⟩
            rw [hFk] at e
            obtain ⟨rfl, -⟩ := List.cons.inj e
            exact nalpha (by decide) hF
        · obtain ⟨c, av, hc⟩ := List.exists_cons_of_ne_nil h5'.1
          rw [hc] at e3
          obtain ⟨a4, e0, e4⟩ := line_before e3 (Lead.drop ha.drop)
            (h5'.chars (c := c) (by rw [hc]; simp)).2
            (fun d hd => (h5'.chars (c := d) (by rw [hc]; exact hd)).1) ha3
          rw [← hc] at e0
          subst e0
          have ha4 : Lead a4 := Lead.drop (Lead.drop ha.drop)
          rw [e4, ← hS] at h5 h5' h7
          have h7' : ¬ StartsFlag (A.value ++ (a4 ++ (kw ++ (flagsText fs ++ (g ++ (i' ++ b)))))) := by
            intro h
            refine h7 ?_
            have := (hsite (u := flagsText fl ++ A.gap) (v := A.value ++ a4) (by simpa using ha)).symm
            simp only [List.append_assoc] at this
            exact startsFlag_site this h
          rw [Arg.text, List.append_assoc] at e4
          obtain ⟨a5, e0, e5⟩ := space_before h6.2 e4 ha4 hF
          subst e0
          have h4' := FlagsFit.swap h4 (hW.pre (A.gap ++ (A.value ++ (B.gap ++ a5))))
          have h5'' := Gap.swap h5 ((hW.pre (B.gap ++ a5)).pre A.value)
          have h5''' := Word.swap h5' (hW.pre (B.gap ++ a5))
          simp only [List.append_assoc] at h4' h5'' h5''' h7'
          by_cases ha5 : a5 = []
          · subst ha5
            rw [List.nil_append] at e5
            rw [e5, ← hS] at h6
            refine ⟨fl, A, ⟨B.gap, kw⟩, flagsText fs ++ (g ++ (i' ++ b)), by simp [Arg.text], ?_,
              ⟨?_, ?_⟩, ⟨Gap.swap h6 hW, hkwW⟩, ?_⟩
            · simpa [Arg.text] using h4'
            · simpa [Arg.text] using h5''
            · simpa [Arg.text] using h5'''
            · simpa [Arg.text] using h7'
          · obtain ⟨c, bv, hc⟩ := List.exists_cons_of_ne_nil h6'.1
            rw [hc] at e5
            obtain ⟨a6, e0, e6⟩ := line_before e5 ha4.drop
              (h6'.chars (c := c) (by rw [hc]; simp)).2
              (fun d hd => (h6'.chars (c := d) (by rw [hc]; exact hd)).1) ha5
            rw [← hc] at e0
            subst e0
            rw [← hS] at e6
            subst e6
            refine ⟨fl, A, B, a6 ++ (kw ++ (flagsText fs ++ (g ++ (i' ++ b)))), by simp [Arg.text], ?_,
              ⟨?_, ?_⟩, ⟨Gap.swap h6 ((hW.pre a6).pre _), Word.swap h6' (hW.pre a6)⟩, ?_⟩
            · simpa [Arg.text] using h4'
            · simpa [Arg.text] using h5''
            · simpa [Arg.text] using h5'''
            · simpa [Arg.text] using h7'
      · rename_i h3
        rw [if_neg h3]
        have hWx := hW.pre a
        rw [← e] at hWx
        split at hx
        · rename_i h4
          rw [if_pos h4]
          exact hWx.startsSpace hx
        · rename_i h4
          rw [if_neg h4]
          obtain ⟨g1, r, rfl, h5, h6⟩ := hx
          rw [hS] at e
          obtain ⟨a2, e0, e2⟩ := space_before h5.2 e ha hF
          subst e0
          rw [← hS] at e2
          subst e2
          exact ⟨g1, a2 ++ (kw ++ (flagsText fs ++ (g ++ (i' ++ b)))), by simp,
            Gap.swap h5 (hW.pre a2), fun h => h6 ((hW.pre a2).symm.eol h)⟩

/-! ## items -/

/-- behind a line break -/
def Broken (a : Str) : Prop := ∀ u, Lead (u ++ a)

theorem broken {n r a : Str} (hn : LineBreak n r) (ha : Lead a) : Broken (n ++ a) := by
  intro u
  obtain ⟨a0, w, rfl, hw, ha⟩ := ha
  have hn : ∃ n1 c, n = n1 ++ [c] ∧ (c = '\n' ∨ c = '\r') := by
    rcases hn with rfl | rfl | ⟨rfl, -⟩
    · exact ⟨[], _, rfl, .inl rfl⟩
    · exact ⟨['\r'], _, rfl, .inl rfl⟩
    · exact ⟨[], _, rfl, .inr rfl⟩
  refine ⟨u ++ (n ++ a0), w, by simp, hw, .inr ?_⟩
  rcases ha with rfl | ⟨a1, c, rfl, hc⟩
  · obtain ⟨n1, c, rfl, hc⟩ := hn
    exact ⟨u ++ n1, c, by simp, hc⟩
  · exact ⟨u ++ (n ++ a1), c, by simp, hc⟩

theorem Broken.pre {a : Str} (h : Broken a) (u : Str) : Broken (u ++ a) := fun v => by
  rw [← List.append_assoc]; exact h _

theorem Site.lead {x x' : Str} (u : Str) : Site Broken x x' → Site Lead (u ++ x) (u ++ x')
  | ⟨a, kw, fs, g, i, i', b, e, e', ha, h⟩ =>
    ⟨u ++ a, kw, fs, g, i, i', b, by simp [e], by simp [e'], ha u, h⟩

theorem Site.pre {x x' : Str} (u : Str) : Site Broken x x' → Site Broken (u ++ x) (u ++ x')
  | ⟨a, kw, fs, g, i, i', b, e, e', ha, h⟩ =>
    ⟨u ++ a, kw, fs, g, i, i', b, by simp [e], by simp [e'], ha.pre u, h⟩

theorem Item.Fits.site {i : Item} {r r' : Str} (hi : i.Fits r) (h : Site Broken r r') : i.Fits r' := by
  have hw := h.w
  cases i with
  | blank => trivial
  | comment t => exact ⟨hi.1, hw.eol hi.2⟩
  | «from» kw fs g i a =>
    obtain ⟨h1, h2, h3, h4, h5, h6⟩ := hi
    refine ⟨h1, FlagsFit.swap h2 (((hw.pre _).pre _).pre _), Gap.swap h3 ((hw.pre _).pre _), h4, h5, ?_⟩
    intro x hx
    obtain ⟨h7, h8, h9, h10⟩ := h6 x hx
    exact ⟨Gap.swap h7 (((hw.pre _).pre _).pre _), h8, Gap.swap h9 (hw.pre _), h10⟩
  | arg kw g n v =>
    obtain ⟨h1, h2, h3, h4⟩ := hi
    exact ⟨h1, Gap.swap h2 ((hw.pre _).pre _), h3, fun x hx => (h4 x hx).swap hw⟩
  | label kw ps t =>
    obtain ⟨h1, h2, h3, h4, h5⟩ := hi
    exact ⟨h1, PairsFit.swap (fun _ _ _ hf => hf.swap) h2 (hw.pre _), h3.swap hw, h4, hw.eol h5⟩
  | label1 kw g n g' v =>
    obtain ⟨h1, h2, h3, h4, h5⟩ := hi
    exact ⟨h1, Gap.swap h2 (((hw.pre _).pre _).pre _), h3.swap ((hw.pre _).pre _),
      Gap.swap h4 (hw.pre _), h5.swap hw⟩
  | shell k kw g s =>
    obtain ⟨h1, h2, h3, h4⟩ := hi
    exact ⟨h1, Gap.swap h2 (hw.pre _), h3.swap hw, NoArray.swap h4 (hw.pre _)⟩
  | exec k kw g a =>
    obtain ⟨h1, h2, h3⟩ := hi
    exact ⟨h1, Gap.swap h2 (hw.pre _), h3.swap hw⟩
  | copy kw fs ss d =>
    obtain ⟨h1, h2, h3, h4, h5⟩ := hi
    refine ⟨h1, FlagsFit.swap h2 (hw.pre _), h3, ArgsFit.swap h4 hw, fun f b e hf => h5 f b e ?_⟩
    have := (h.lead (f.value ++ argsText (b ++ [d]))).symm
    rw [List.append_assoc, List.append_assoc] at this
    exact startsFlag_site this hf
  | env kw ps t =>
    obtain ⟨h1, h2, h3, h4, h5⟩ := hi
    exact ⟨h1, PairsFit.swap (fun _ _ _ hf => hf.swap) h2 (hw.pre _), h3.swap hw, h4, hw.eol h5⟩
  | env1 kw g n g' s =>
    obtain ⟨h1, h2, h3, h4, h5, h6, h7⟩ := hi
    exact ⟨h1, Gap.swap h2 (((hw.pre _).pre _).pre _), h3, h4, Gap.swap h5 (hw.pre _), h6.swap hw,
      NoQuoted.swap h7 (hw.pre _)⟩
  | env1q kw g n g' v =>
    obtain ⟨h1, h2, h3, h4, h5, h6⟩ := hi
    exact ⟨h1, Gap.swap h2 (((hw.pre _).pre _).pre _), h3, h4, Gap.swap h5 (hw.pre _), h6⟩
  | misc w a =>
    obtain ⟨h1, h2, h3, h4, h5⟩ := hi
    exact ⟨h1, h2, h3.swap hw, h4, fun hk hb => h5 hk (begins_site (h.lead a.text).symm hb)⟩

/-- A well-formed line stays so. -/
theorem Line.Fits.site {l : Line} {r r' : Str} (hl : l.Fits r) (h : Site Broken r r') : l.Fits r' :=
  ⟨hl.1, Item.Fits.site hl.2.1 (h.pre l.trail), hl.2.2⟩

end Src
end Verif
