import Verif.Proof.SrcDoc

/-!
# Exchanging an image name somewhere in a text

What this does to the parts of the lines in front of it.
-/

namespace Verif
namespace Src
open Spec

/-- the text of an image -/
def Img (i : Str) : Prop := i ≠ [] ∧ ∀ c ∈ i, IsImageChar c

/-- `x'` is `x` with one piece of image characters exchanged. -/
def W (x x' : Str) : Prop := ∃ a i i' b, x = a ++ (i ++ b) ∧ x' = a ++ (i' ++ b) ∧ Img i ∧ Img i'

theorem W.symm {x x'} : W x x' → W x' x
  | ⟨a, i, i', b, h1, h2, h3, h4⟩ => ⟨a, i', i, b, h2, h1, h4, h3⟩

theorem W.pre {x x'} (u : Str) : W x x' → W (u ++ x) (u ++ x')
  | ⟨a, i, i', b, h1, h2, h3, h4⟩ => ⟨u ++ a, i, i', b, by simp [h1], by simp [h2], h3, h4⟩

theorem W.ne {x x'} : W x x' → x ≠ []
  | ⟨a, i, i', b, h1, _, h3, _⟩ => by
    rintro rfl
    exact h3.1 (List.append_eq_nil_iff.1 (List.append_eq_nil_iff.1 h1.symm).2).1

theorem W.nil {x'} (h : W [] x') : False := h.ne rfl

theorem nimg {c : Char} (h : isImageChar c = false) : ¬ IsImageChar c := fun h' => by
  rw [isImageChar_iff.2 h'] at h; cases h

theorem nimg_blank {c : Char} (h : c = ' ' ∨ c = '\t') : ¬ IsImageChar c := by
  rcases h with rfl | rfl <;> exact nimg (by decide)

theorem nimg_break {c : Char} (h : c = '\n' ∨ c = '\r') : ¬ IsImageChar c := by
  rcases h with rfl | rfl <;> exact nimg (by decide)

theorem nimg_lineBreak {n r : Str} (h : LineBreak n r) : ∀ c ∈ n, ¬ IsImageChar c := by
  intro c hc
  rcases h with rfl | rfl | ⟨rfl, -⟩ <;> simp at hc
  · exact nimg_break (.inl hc)
  · exact nimg_break hc.symm
  · exact nimg_break (.inr hc)

/-- what is in front of a character of another kind -/
theorem W.cons {c z x'} (h : W (c :: z) x') (hc : ¬ IsImageChar c) :
    ∃ z', x' = c :: z' ∧ W z z' := by
  obtain ⟨a, i, i', b, h1, rfl, h3, h4⟩ := h
  cases a with
  | nil =>
    obtain ⟨h5, h6⟩ := h3
    cases i with
    | nil => exact absurd rfl h5
    | cons d i =>
      obtain ⟨rfl, -⟩ := List.cons.inj h1
      exact absurd (h6 _ (by simp)) hc
  | cons d a =>
    obtain ⟨rfl, rfl⟩ := List.cons.inj h1
    exact ⟨_, rfl, a, i, i', b, rfl, rfl, h3, h4⟩

theorem W.strip {y z x'} (h : W (y ++ z) x') (hy : ∀ c ∈ y, ¬ IsImageChar c) :
    ∃ z', x' = y ++ z' ∧ W z z' := by
  induction y generalizing x' with
  | nil => exact ⟨x', rfl, h⟩
  | cons c y ih =>
    obtain ⟨z1, rfl, h1⟩ := h.cons (hy c (by simp))
    obtain ⟨z2, rfl, h2⟩ := ih h1 fun d hd => hy d (by simp [hd])
    exact ⟨z2, rfl, h2⟩

/-- the first characters are equal, or both belong to images -/
theorem W.head {c z x'} (h : W (c :: z) x') :
    ∃ c' z', x' = c' :: z' ∧ (c' = c ∧ W z z' ∨ IsImageChar c ∧ IsImageChar c') := by
  obtain ⟨a, i, i', b, h1, rfl, h3, h4⟩ := h
  cases a with
  | nil =>
    cases i with
    | nil => exact absurd rfl h3.1
    | cons d i =>
      cases i' with
      | nil => exact absurd rfl h4.1
      | cons d' i' =>
        obtain ⟨rfl, -⟩ := List.cons.inj h1
        exact ⟨d', _, rfl, .inr ⟨h3.2 _ (by simp), h4.2 _ (by simp)⟩⟩
  | cons d a =>
    obtain ⟨rfl, rfl⟩ := List.cons.inj h1
    exact ⟨_, _, rfl, .inl ⟨rfl, a, i, i', b, rfl, rfl, h3, h4⟩⟩

/-- a run of characters, including those of images -/
theorem W.run {P : Char → Prop} (hP : ∀ c, IsImageChar c → P c) {y z x' : Str}
    (hz : ∀ c b, z = c :: b → ¬ IsImageChar c) (h : W (y ++ z) x') (hy : ∀ c ∈ y, P c) :
    (∃ z', x' = y ++ z' ∧ W z z') ∨ ∃ y', x' = y' ++ z ∧ ∀ c ∈ y', P c := by
  obtain ⟨a, i, i', b, h1, rfl, h3, h4⟩ := h
  rcases List.append_eq_append_iff.1 h1 with ⟨k, rfl, hk⟩ | ⟨k, rfl, hk⟩
  · exact .inl ⟨k ++ (i' ++ b), by simp, k, i, i', b, hk, rfl, h3, h4⟩
  · right
    rcases List.append_eq_append_iff.1 hk with ⟨j, rfl, hj⟩ | ⟨j, rfl, hj⟩
    · refine ⟨a ++ (i' ++ j), by simp [hj], fun c hc => ?_⟩
      simp only [List.mem_append] at hc
      rcases hc with hc | hc | hc
      · exact hy c (by simp [hc])
      · exact hP c (h4.2 c hc)
      · exact hy c (by simp [hc])
    · cases j with
      | nil =>
        rw [List.nil_append] at hj
        subst hj
        refine ⟨a ++ i', by simp, fun c hc => ?_⟩
        simp only [List.mem_append] at hc
        rcases hc with hc | hc
        · exact hy c (by simp [hc])
        · exact hP c (h4.2 c hc)
      | cons c j => exact absurd (h3.2 c (by simp)) (hz c (j ++ b) hj)

/-! ## space -/

theorem W.lineBreak {n t t'} (h : W t t') (hn : LineBreak n t) : LineBreak n t' := by
  rcases hn with rfl | rfl | ⟨rfl, hn⟩
  · exact .inl rfl
  · exact .inr (.inl rfl)
  · refine .inr (.inr ⟨rfl, ?_⟩)
    rintro r rfl
    obtain ⟨z, rfl, -⟩ := h.symm.cons (nimg_break (.inl rfl))
    exact hn z rfl

theorem blanks_nimg {w : Str} (h : Blanks w) : ∀ c ∈ w, ¬ IsImageChar c := fun c hc => nimg_blank (h c hc)

theorem W.continuation {x x'} (h : W x x') (hx : Continuation x) : Continuation x' := by
  obtain ⟨w, n, t, rfl, hw, hn⟩ := hx
  obtain ⟨_, e0, h0⟩ := h.cons (nimg (by decide))
  subst e0; clear h; have h := h0; clear h0
  obtain ⟨_, e0, h0⟩ := h.strip (blanks_nimg hw)
  subst e0; clear h; have h := h0; clear h0
  obtain ⟨t', e0, h0⟩ := h.strip (nimg_lineBreak hn)
  subst e0; clear h; have h := h0; clear h0
  exact ⟨w, n, t', rfl, hw, h.lineBreak hn⟩

theorem W.eol {x x'} (h : W x x') (hx : Eol x) : Eol x' := by
  cases x with
  | nil => exact h.nil.elim
  | cons c z =>
    have hc := hx c z rfl
    obtain ⟨z', rfl, -⟩ := h.cons (nimg_break hc)
    intro d b e
    obtain ⟨rfl, -⟩ := List.cons.inj e
    exact hc

theorem W.startsSpace {x x'} (h : W x x') (hx : StartsSpace x) : StartsSpace x' := by
  rcases hx with ⟨c, t, rfl, hc⟩ | hx
  · obtain ⟨z', rfl, -⟩ := h.cons (nimg_blank hc)
    exact .inl ⟨c, z', rfl, hc⟩
  · exact .inr (h.continuation hx)

theorem W.wordEnd {x x'} (h : W x x') : WordEnd x → WordEnd x' :=
  Or.imp h.eol h.startsSpace

theorem W.skippable {x x'} (h : W x x') (hx : Skippable x) : Skippable x' := by
  obtain ⟨w, v, rfl, hw, hv⟩ := hx
  obtain ⟨v', e0, h0⟩ := h.strip (blanks_nimg hw)
  subst e0; clear h; have h := h0; clear h0
  refine ⟨w, v', rfl, hw, ?_⟩
  rcases hv with ⟨t, rfl⟩ | ⟨n, t, rfl, hn⟩
  · obtain ⟨t', rfl, -⟩ := h.cons (nimg (by decide))
    exact .inl ⟨t', rfl⟩
  · obtain ⟨t', e0, h0⟩ := h.strip (nimg_lineBreak hn)
    subst e0; clear h; have h := h0; clear h0
    exact .inr ⟨n, t', rfl, h.lineBreak hn⟩

theorem SkipLines.swap {l r r'} (hl : SkipLines l r) (h : W r r') : SkipLines l r' := by
  induction hl with
  | nil hn => exact .nil fun hs => hn (h.symm.skippable hs)
  | blank hw hn _ ih => exact .blank hw ((h.pre _).lineBreak hn) (ih h)
  | comment hw ht hn _ ih => exact .comment hw ht ((h.pre _).lineBreak hn) (ih h)
  | lastComment => exact h.nil.elim

theorem Space.swap {g r r'} (hg : Space g r) (h : W r r') : Space g r' := by
  induction hg with
  | nil hn => exact .nil fun hs => hn (h.symm.startsSpace hs)
  | blank hc _ ih => exact .blank hc (ih h)
  | continuation hw hn hl _ ih =>
    exact .continuation hw (((h.pre _).pre _).lineBreak hn) (hl.swap (h.pre _)) (ih h)

theorem Gap.swap {g r r'} (hg : Gap g r) (h : W r r') : Gap g r' := ⟨hg.1, Space.swap hg.2 h⟩

theorem Word.swap {w r r'} (hw : Word w r) (h : W r r') : Word w r' :=
  ⟨hw.1, fun a b e hb he => hw.2.1 a b e hb ((h.symm.pre b).wordEnd he), h.wordEnd hw.2.2⟩

theorem endsName_nimg {c : Char} (h : EndsName c) : ¬ IsImageChar c := by
  rcases h with rfl | rfl | rfl | rfl | rfl <;> exact nimg (by decide)

theorem NameWord.swap {w r r'} (hw : NameWord w r) (h : W r r') : NameWord w r' := by
  refine ⟨hw.1, hw.2.1, fun c b e => ?_⟩
  cases r with
  | nil => exact h.nil.elim
  | cons d z =>
    have hd := hw.2.2 d z rfl
    obtain ⟨z', rfl, -⟩ := h.cons (endsName_nimg hd)
    obtain ⟨rfl, -⟩ := List.cons.inj e
    exact hd

/-! ## quotes -/

theorem quote_nimg {q : Char} (h : q = '"' ∨ q = '\'') : ¬ IsImageChar q := by
  rcases h with rfl | rfl <;> exact nimg (by decide)

theorem img_chr {c : Char} (h : IsImageChar c) :
    c ≠ '"' ∧ c ≠ '\'' ∧ c ≠ '\\' ∧ c ≠ '\x00' ∧ c ≠ '\x1F' := by
  refine ⟨?_, ?_, ?_, ?_, ?_⟩ <;> rintro rfl <;> exact absurd h (nimg (by decide))

theorem body_drop {q : Char} {i t : Str} (hi : ∀ c ∈ i, IsImageChar c)
    (h : QuotedBody q (i ++ t)) : QuotedBody q t := by
  induction i with
  | nil => exact h
  | cons c i ih =>
    have hc := img_chr (hi c (by simp))
    rw [List.cons_append] at h
    generalize hu : i ++ t = u at h ih
    cases h with
    | chr _ _ _ _ h => exact ih (fun d hd => hi d (by simp [hd])) h
    | escaped => exact absurd rfl hc.2.2.1
    | backslash => exact absurd rfl hc.2.2.1

theorem body_add {q : Char} (hq : q = '"' ∨ q = '\'') {i t : Str} (hi : ∀ c ∈ i, IsImageChar c)
    (h : QuotedBody q t) : QuotedBody q (i ++ t) := by
  induction i with
  | nil => exact h
  | cons c i ih =>
    have hc := img_chr (hi c (by simp))
    refine .chr ?_ hc.2.2.1 hc.2.2.2.1 hc.2.2.2.2 (ih fun d hd => hi d (by simp [hd]))
    rcases hq with rfl | rfl
    · exact hc.1
    · exact hc.2.1

/-- equal, or with an exchanged image -/
def E (x x' : Str) : Prop := W x x' ∨ x = x'

theorem body_T {q : Char} (hq : q = '"' ∨ q = '\'') {b z x' : Str} (hb : QuotedBody q b)
    (h : W (b ++ q :: z) x') :
    ∃ b' z', x' = b' ++ q :: z' ∧ QuotedBody q b' ∧ E z z' := by
  -- the piece starts here
  have start : ∀ {c t i i' d : Str}, QuotedBody q (c ++ t) → Img i → Img i' →
      c ++ t ++ q :: z = i ++ d → ∃ b' z', i' ++ d = b' ++ q :: z' ∧ QuotedBody q b' ∧ E z z' := by
    intro c t i i' d hb hi hi' e
    rcases List.append_eq_append_iff.1 e with ⟨k, rfl, hk⟩ | ⟨k, e', rfl⟩
    · cases k with
      | nil =>
        rw [List.nil_append] at hk
        subst hk
        rw [← List.append_nil i']
        exact ⟨i', z, by simp, by simpa using body_add hq hi'.2 .nil, .inr rfl⟩
      | cons e k =>
        obtain ⟨rfl, -⟩ := List.cons.inj hk
        exact absurd (hi.2 q (by simp)) (quote_nimg hq)
    · rw [e'] at hb
      exact ⟨i' ++ k, z, by simp, body_add hq hi'.2 (body_drop hi.2 hb), .inr rfl⟩
  induction hb generalizing x' with
  | nil =>
    obtain ⟨z', rfl, h0⟩ := h.cons (quote_nimg hq)
    have h := h0; clear h0
    exact ⟨[], z', rfl, .nil, .inl h⟩
  | @chr c t h1 h2 h3 h4 hb ih =>
    obtain ⟨a, i, i', d, e, rfl, hi, hi'⟩ := h
    cases a with
    | nil =>
      exact start (c := [c]) (t := t) (i := i) (i' := i') (d := d) (.chr h1 h2 h3 h4 hb) hi hi' e
    | cons c' a =>
      obtain ⟨rfl, e1⟩ := List.cons.inj e
      clear e
      have e := e1
      obtain ⟨b', z', e', hb', hz⟩ := ih ⟨a, i, i', d, e, rfl, hi, hi'⟩
      exact ⟨c :: b', z', congrArg (c :: ·) e', .chr h1 h2 h3 h4 hb', hz⟩
  | @escaped c t hc _ ih =>
    obtain ⟨_, e0, h0⟩ := h.cons (nimg (by decide))
    subst e0; clear h; have h := h0; clear h0
    have : ¬ IsImageChar c := by
      rcases hc with rfl | rfl | rfl <;> exact nimg (by decide)
    obtain ⟨_, e0, h0⟩ := h.cons this
    subst e0; clear h; have h := h0; clear h0
    obtain ⟨b', z', rfl, hb', hz⟩ := ih h
    exact ⟨'\\' :: c :: b', z', rfl, .escaped hc hb', hz⟩
  | @backslash c t h1 h2 h3 _ ih =>
    obtain ⟨x2, e0, h0⟩ := h.cons (nimg (by decide))
    subst e0; clear h; have h := h0; clear h0
    obtain ⟨b', z', rfl, hb', hz⟩ := ih h
    obtain ⟨c', z2, e, hc'⟩ := h.head
    have hc : c' ≠ '"' ∧ c' ≠ '\'' ∧ c' ≠ '\\' := by
      rcases hc' with ⟨rfl, -⟩ | ⟨-, hc'⟩
      · exact ⟨h1, h2, h3⟩
      · exact ⟨(img_chr hc').1, (img_chr hc').2.1, (img_chr hc').2.2.1⟩
    cases b' with
    | nil =>
      obtain ⟨rfl, -⟩ := List.cons.inj e
      rcases hq with rfl | rfl
      · exact absurd rfl hc.1
      · exact absurd rfl hc.2.1
    | cons d b' =>
      obtain ⟨rfl, -⟩ := List.cons.inj e
      exact ⟨'\\' :: d :: b', z', rfl, .backslash hc.1 hc.2.1 hc.2.2 hb', hz⟩

theorem quoted_T {t z x' : Str} (h : E (t ++ z) x') (ht : QuotedText t) :
    ∃ t' z', x' = t' ++ z' ∧ QuotedText t' ∧ E z z' := by
  rcases h with h | rfl
  · obtain ⟨q, b, rfl, hq, hb⟩ := ht
    obtain ⟨_, e0, h0⟩ := h.cons (quote_nimg hq)
    subst e0; clear h; have h := h0; clear h0
    simp only [List.append_eq, List.append_assoc, List.singleton_append] at h
    obtain ⟨b', z', rfl, hb', hz⟩ := body_T hq hb h
    exact ⟨q :: (b' ++ [q]), z', by simp, ⟨q, b', rfl, hq, hb'⟩, hz⟩
  · exact ⟨t, z, rfl, ht, .inr rfl⟩

theorem NoQuoted.swap {x x'} (hx : NoQuoted x) (h : W x x') : NoQuoted x' := by
  rintro t z rfl ht
  obtain ⟨t', z', e, ht', -⟩ := quoted_T (.inl h.symm) ht
  exact hx t' z' e ht'

theorem Value.Fits.swap {v : Value} {r r'} (hv : v.Fits r) (h : W r r') : v.Fits r' := by
  cases v with
  | quoted => exact hv
  | bare t => exact ⟨hv.1.swap (h.pre t), hv.2.swap h⟩

theorem Value.FitsName.swap {v : Value} {r r'} (hv : v.FitsName r) (h : W r r') : v.FitsName r' := by
  cases v with
  | quoted => exact hv
  | bare t => exact ⟨hv.1.swap (h.pre t), hv.2.swap h⟩

/-! ## arrays -/

theorem E.cons {c z x'} (h : E (c :: z) x') (hc : ¬ IsImageChar c) :
    ∃ z', x' = c :: z' ∧ E z z' := by
  rcases h with h | rfl
  · obtain ⟨z', e, h⟩ := h.cons hc
    exact ⟨z', e, .inl h⟩
  · exact ⟨z, rfl, .inr rfl⟩

theorem skipLines_T {l r x' : Str} (hl : SkipLines l r) (h : W (l ++ r) x') :
    ∃ l' r', x' = l' ++ r' ∧ SkipLines l' r' ∧ E r r' := by
  induction hl generalizing x' with
  | nil hn => exact ⟨[], x', rfl, .nil fun hs => hn (h.symm.skippable hs), .inl h⟩
  | @blank w n l r hw hn hl ih =>
    simp only [List.append_eq, List.append_assoc] at h
    obtain ⟨_, e0, h0⟩ := h.strip (blanks_nimg hw)
    subst e0; clear h; have h := h0; clear h0
    obtain ⟨_, e0, h0⟩ := h.strip (nimg_lineBreak hn)
    subst e0; clear h; have h := h0; clear h0
    obtain ⟨l', r', rfl, hl', hr⟩ := ih h
    exact ⟨w ++ (n ++ l'), r', by simp, .blank hw (h.lineBreak hn) hl', hr⟩
  | @comment w t n l r hw ht hn hl ih =>
    simp only [List.append_eq, List.append_assoc] at h
    obtain ⟨_, e0, h0⟩ := h.strip (blanks_nimg hw)
    subst e0; clear h; have h := h0; clear h0
    obtain ⟨b, rfl, hb⟩ := ht
    obtain ⟨_, e0, h0⟩ := h.cons (nimg (by decide))
    subst e0; clear h; have h := h0; clear h0
    rcases h.run (P := fun c => c ≠ '\n' ∧ c ≠ '\r') (fun c hc => ⟨fun e => nimg_break (.inl e) hc,
        fun e => nimg_break (.inr e) hc⟩) (fun c b e => nimg_lineBreak hn c (by
          rcases hn with rfl | rfl | ⟨rfl, -⟩ <;> simp at e <;> simp [← e.1])) hb with ⟨_, rfl, h0⟩ | ⟨b', rfl, hb'⟩
    · clear h; have h := h0; clear h0
      obtain ⟨_, e0, h0⟩ := h.strip (nimg_lineBreak hn)
      subst e0; clear h; have h := h0; clear h0
      obtain ⟨l', r', rfl, hl', hr⟩ := ih h
      exact ⟨w ++ ('#' :: b ++ (n ++ l')), r', by simp,
        .comment hw ⟨b, rfl, hb⟩ (h.lineBreak hn) hl', hr⟩
    · exact ⟨w ++ ('#' :: b' ++ (n ++ l)), r, by simp, .comment hw ⟨b', rfl, hb'⟩ hn hl, .inr rfl⟩
  | @lastComment w t hw ht =>
    simp only [List.append_eq, List.append_assoc] at h
    obtain ⟨_, e0, h0⟩ := h.strip (blanks_nimg hw)
    subst e0; clear h; have h := h0; clear h0
    obtain ⟨b, rfl, hb⟩ := ht
    obtain ⟨_, e0, h0⟩ := h.cons (nimg (by decide))
    subst e0; clear h; have h := h0; clear h0
    rcases h.run (P := fun c => c ≠ '\n' ∧ c ≠ '\r') (fun c hc => ⟨fun e => nimg_break (.inl e) hc,
        fun e => nimg_break (.inr e) hc⟩) (by simp) hb with ⟨_, rfl, h0⟩ | ⟨b', rfl, hb'⟩
    · exact h0.nil.elim
    · exact ⟨w ++ '#' :: b', [], by simp, .lastComment hw ⟨b', rfl, hb'⟩, .inr rfl⟩

theorem space_T {g r x' : Str} (hg : Space g r) (h : E (g ++ r) x') :
    ∃ g' r', x' = g' ++ r' ∧ Space g' r' ∧ E r r' := by
  rcases h with h | rfl
  case inr => exact ⟨g, r, rfl, hg, .inr rfl⟩
  induction hg generalizing x' with
  | nil hn => exact ⟨[], x', rfl, .nil fun hs => hn (h.symm.startsSpace hs), .inl h⟩
  | @blank c g r hc hg ih =>
    obtain ⟨_, e0, h0⟩ := h.cons (nimg_blank hc)
    subst e0; clear h; have h := h0; clear h0
    obtain ⟨g', r', rfl, hg', hr⟩ := ih h
    exact ⟨c :: g', r', rfl, .blank hc hg', hr⟩
  | @continuation w n l g r hw hn hl hg ih =>
    obtain ⟨_, e0, h0⟩ := h.cons (nimg (by decide))
    subst e0; clear h; have h := h0; clear h0
    simp only [List.append_eq, List.append_assoc] at h
    obtain ⟨_, e0, h0⟩ := h.strip (blanks_nimg hw)
    subst e0; clear h; have h := h0; clear h0
    obtain ⟨_, e0, h0⟩ := h.strip (nimg_lineBreak hn)
    subst e0; clear h; have h := h0; clear h0
    obtain ⟨l', r1, rfl, hl', hr⟩ := skipLines_T hl h
    rcases hr with hr | rfl
    · obtain ⟨g', r', rfl, hg', hr⟩ := ih hr
      exact ⟨'\\' :: (w ++ (n ++ (l' ++ g'))), r', by simp,
        .continuation hw (h.lineBreak hn) hl' hg', hr⟩
    · exact ⟨'\\' :: (w ++ (n ++ (l' ++ g))), r, by simp,
        .continuation hw (h.lineBreak hn) hl' hg, .inr rfl⟩

theorem elem_T {e : Elem} {r x' : Str} (he : e.Fits r) (h : E (e.text ++ r) x') :
    ∃ (e' : Elem) (r' : Str), x' = e'.text ++ r' ∧ e'.Fits r' ∧ E r r' := by
  obtain ⟨h1, h2, h3⟩ := he
  simp only [Elem.text, List.append_assoc, List.cons_append] at h
  obtain ⟨g, _, e0, hg, h0⟩ := space_T h1 h
  subst e0; clear h; have h := h0; clear h0
  obtain ⟨_, e0, h0⟩ := h.cons (nimg (by decide))
  subst e0; clear h; have h := h0; clear h0
  obtain ⟨g', _, e0, hg', h0⟩ := space_T h2 h
  subst e0; clear h; have h := h0; clear h0
  obtain ⟨v, r', e0, hv, h0⟩ := quoted_T h h3
  subst e0; clear h; have h := h0; clear h0
  exact ⟨⟨g, g', v⟩, r', by simp [Elem.text], ⟨hg, hg', hv⟩, h⟩

theorem elems_T {es : List Elem} {r x' : Str} (he : ElemsFit es r) (h : E (elemsText es ++ r) x') :
    ∃ (es' : List Elem) (r' : Str), x' = elemsText es' ++ r' ∧ ElemsFit es' r' ∧ E r r' := by
  induction es generalizing x' with
  | nil => exact ⟨[], x', rfl, trivial, h⟩
  | cons e es ih =>
    rw [elemsText_cons, List.append_assoc] at h
    obtain ⟨e', _, e0, he', h0⟩ := elem_T he.1 h
    subst e0; clear h; have h := h0; clear h0
    obtain ⟨es', r', e0, hes', h0⟩ := ih he.2 h
    subst e0; clear h; have h := h0; clear h0
    exact ⟨e' :: es', r', by rw [elemsText_cons, List.append_assoc], ⟨he', hes'⟩, h⟩

theorem array_T {a : Array} {r x' : Str} (ha : a.Fits r) (h : E (a.text ++ r) x') :
    ∃ (a' : Array) (r' : Str), x' = a'.text ++ r' ∧ a'.Fits r' := by
  cases a with
  | empty g =>
    obtain ⟨_, e0, h0⟩ := h.cons (nimg (by decide))
    subst e0; clear h; have h := h0; clear h0
    simp only [List.append_eq, List.append_assoc] at h
    obtain ⟨g', _, e0, hg', h0⟩ := space_T (show Space g (']' :: r) from ha) h
    subst e0; clear h; have h := h0; clear h0
    obtain ⟨r', e0, h0⟩ := h.cons (nimg (by decide))
    subst e0; clear h; have h := h0; clear h0
    exact ⟨.empty g', r', by simp [Array.text], hg'⟩
  | full g v es c g2 =>
    obtain ⟨h1, h2, h3, h4⟩ := ha
    obtain ⟨_, e0, h0⟩ := h.cons (nimg (by decide))
    subst e0; clear h; have h := h0; clear h0
    simp only [List.append_eq, List.append_assoc] at h
    obtain ⟨g', _, e0, hg', h0⟩ := space_T h1 h
    subst e0; clear h; have h := h0; clear h0
    obtain ⟨v', _, e0, hv', h0⟩ := quoted_T h h2
    subst e0; clear h; have h := h0; clear h0
    obtain ⟨es', x2, e0, hes', h0⟩ := elems_T h3 h
    subst e0; clear h; have h := h0; clear h0
    have htail : ∀ {x2}, E (Array.tail c g2 ++ r) x2 →
        ∃ g3 r', x2 = Array.tail c g3 ++ r' ∧ Space g3 (']' :: r') := by
      intro x2 h
      cases c with
      | true =>
        obtain ⟨_, e0, h0⟩ := h.cons (nimg (by decide))
        subst e0; clear h; have h := h0; clear h0
        simp only [List.append_eq, List.nil_append, List.append_assoc] at h
        obtain ⟨g3, _, e0, hg3, h0⟩ := space_T h4 h
        subst e0; clear h; have h := h0; clear h0
        obtain ⟨r', e0, h0⟩ := h.cons (nimg (by decide))
        subst e0; clear h; have h := h0; clear h0
        exact ⟨g3, r', by simp [Array.tail], hg3⟩
      | false =>
        have h : E (g2 ++ ([']'] ++ r)) x2 := by simpa [Array.tail] using h
        obtain ⟨g3, _, e0, hg3, h0⟩ := space_T h4 h
        subst e0; clear h; have h := h0; clear h0
        obtain ⟨r', e0, h0⟩ := h.cons (nimg (by decide))
        subst e0; clear h; have h := h0; clear h0
        exact ⟨g3, r', by simp [Array.tail], hg3⟩
    obtain ⟨g3, r', rfl, hg3⟩ := htail h
    exact ⟨.full g' v' es' c g3, r', by simp [Array.text], hg', hv', hes', hg3⟩

theorem NoArray.swap {x x'} (hx : NoArray x) (h : W x x') : NoArray x' := by
  rintro a r rfl ha
  obtain ⟨a', r', e, ha'⟩ := array_T ha (.inl h.symm)
  exact hx a' r' e ha'

theorem ElemsFit.swap {es : List Elem} {r r'} (he : ElemsFit es r) (h : W r r') : ElemsFit es r' := by
  induction es with
  | nil => trivial
  | cons e es ih =>
    obtain ⟨⟨h1, h2, h3⟩, h4⟩ := he
    exact ⟨⟨h1.swap (((h.pre _).pre e.value).pre e.after |>.pre [',']),
      h2.swap ((h.pre _).pre _), h3⟩, ih h4⟩

theorem Array.Fits.swap {a : Array} {r r'} (ha : a.Fits r) (h : W r r') : a.Fits r' := by
  cases a with
  | empty g => exact Space.swap (show Space g (']' :: r) from ha) (h.pre [']'])
  | full g v es c g2 =>
    obtain ⟨h1, h2, h3, h4⟩ := ha
    exact ⟨h1.swap (((h.pre _).pre _).pre _), h2, ElemsFit.swap h3 (h.pre _), h4.swap (h.pre [']'])⟩

/-! ## shell text, flags, pairs -/

theorem Shell.Piece.swap {t r r'} (hp : Shell.Piece t r) (h : W r r') : Shell.Piece t r' := by
  obtain ⟨h1, h2, h3, h4⟩ := hp
  refine ⟨h1, h2, fun a b e hb hc => h3 a b e hb ((h.symm.pre b).continuation hc), fun w u hw e => ?_⟩
  have hx := h.symm.pre t
  rw [e] at hx
  obtain ⟨_, e', hx⟩ := hx.strip (blanks_nimg hw)
  obtain ⟨u', rfl, hx⟩ := hx.cons (nimg (by decide))
  exact h4 w u' hw e'

theorem Shell.Fits.swap {s : Shell} {r r'} (hs : s.Fits r) (h : W r r') : s.Fits r' := by
  induction s with
  | last t => exact ⟨hs.1.swap h, h.eol hs.2⟩
  | lastComment w t n =>
    obtain ⟨h1, h2, h3⟩ := hs
    refine ⟨h1, h2, ?_⟩
    rcases h3 with ⟨-, rfl⟩ | ⟨h3, h4⟩
    · exact h.nil.elim
    · exact .inr ⟨h.lineBreak h3, h.eol h4⟩
  | more t w n s ih =>
    obtain ⟨h1, h2, h3, h4⟩ := hs
    exact ⟨h1.swap ((((h.pre _).pre n).pre w).pre ['\\']), h2, (h.pre _).lineBreak h3, ih h4⟩
  | comment w t n s ih =>
    obtain ⟨h1, h2, h3, h4⟩ := hs
    exact ⟨h1, h2, (h.pre _).lineBreak h3, ih h4⟩

theorem Flag.Fits.swap {f : Flag} {r r'} (hf : f.Fits r) (h : W r r') : f.Fits r' := by
  obtain ⟨h1, h2, h3, h4⟩ := hf
  exact ⟨h1.swap (h.pre _), h2, h3, h4.swap h⟩

theorem FlagsFit.swap {fs : List Flag} {r r'} (hf : FlagsFit fs r) (h : W r r') : FlagsFit fs r' := by
  induction fs with
  | nil => trivial
  | cons f fs ih => exact ⟨hf.1.swap (h.pre _), ih hf.2⟩

theorem Arg.Fits.swap {f : Arg} {r r'} (hf : f.Fits r) (h : W r r') : f.Fits r' :=
  ⟨Gap.swap hf.1 (h.pre _), Word.swap hf.2 h⟩

theorem ArgsFit.swap {fs : List Arg} {r r'} (hf : ArgsFit fs r) (h : W r r') : ArgsFit fs r' := by
  induction fs with
  | nil => trivial
  | cons f fs ih => exact ⟨hf.1.swap (h.pre _), ih hf.2⟩

theorem PairsFit.swap {F : Pair → Str → Prop} (hF : ∀ f r r', F f r → W r r' → F f r')
    {fs : List Pair} {r r'} (hf : PairsFit F fs r) (h : W r r') : PairsFit F fs r' := by
  induction fs with
  | nil => trivial
  | cons f fs ih => exact ⟨hF _ _ _ hf.1 (h.pre _), ih hf.2⟩

theorem Pair.FitsLabel.swap {f : Pair} {r r'} (hf : f.FitsLabel r) (h : W r r') : f.FitsLabel r' :=
  ⟨Gap.swap hf.1 (h.pre _), hf.2.1.swap ((h.pre _).pre ['=']), hf.2.2.swap h⟩

theorem Pair.FitsEnv.swap {f : Pair} {r r'} (hf : f.FitsEnv r) (h : W r r') : f.FitsEnv r' :=
  ⟨Gap.swap hf.1 (h.pre _), hf.2.1, hf.2.2.swap h⟩

end Src
end Verif
