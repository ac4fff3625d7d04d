import Verif.Proof.SwapItem
import Verif.Spec.Like

/-!
# Exchanging plain text anywhere

When `x'` is `x` with some pieces of plain text replaced by others: what this does to the
parts of lines.
-/

namespace Verif
namespace Src
open Spec

theorem Like.refl : ∀ x, Like x x
  | [] => .nil
  | c :: x => .same c (Like.refl x)

theorem Like.symm {x x'} (h : Like x x') : Like x' x := by
  induction h with
  | nil => exact .nil
  | same c _ ih => exact .same c ih
  | piece h1 h2 _ ih => exact .piece h2 h1 ih

theorem Like.append {x x' y y'} (h : Like x x') (h' : Like y y') : Like (x ++ y) (x' ++ y') := by
  induction h with
  | nil => exact h'
  | same c _ ih => exact .same c ih
  | piece h1 h2 _ ih => rw [List.append_assoc, List.append_assoc]; exact .piece h1 h2 ih

theorem Like.pre {x x'} (u : Str) (h : Like x x') : Like (u ++ x) (u ++ x') := (Like.refl u).append h

theorem Like.plain {i i' : Str} (h : Over Plain i) (h' : Over Plain i') : Like i i' := by
  have := Like.piece h h' .nil
  rwa [List.append_nil, List.append_nil] at this

theorem Like.empty {x'} (h : Like [] x') : x' = [] := by
  generalize e : ([] : Str) = x at h
  cases h with
  | nil => rfl
  | same => cases e
  | piece h1 => exact absurd (List.append_eq_nil_iff.1 e.symm).1 h1.1

theorem nplain {c : Char} (h : c ∈ [' ', '\t', '\n', '\r', '\\', '#', '=', '"', '\'', '`', ',', '[', ']',
    '\x00', '\x1F']) : ¬ Plain c := fun h' => h' h

theorem nplain_blank {c : Char} (h : c = ' ' ∨ c = '\t') : ¬ Plain c := by
  rcases h with rfl | rfl <;> exact nplain (by decide)

theorem nplain_break {c : Char} (h : c = '\n' ∨ c = '\r') : ¬ Plain c := by
  rcases h with rfl | rfl <;> exact nplain (by decide)

theorem nplain_lineBreak {n r : Str} (h : LineBreak n r) : ∀ c ∈ n, ¬ Plain c := by
  intro c hc
  rcases h with rfl | rfl | ⟨rfl, -⟩ <;> simp at hc
  · exact nplain_break (.inl hc)
  · exact nplain_break hc.symm
  · exact nplain_break (.inr hc)

/-- the first characters are equal, or both are plain -/
theorem Like.head {c z x'} (h : Like (c :: z) x') :
    ∃ c' z', x' = c' :: z' ∧ (c' = c ∧ Like z z' ∨ Plain c ∧ Plain c') := by
  generalize e : c :: z = x at h
  cases h with
  | nil => cases e
  | same d h =>
    obtain ⟨rfl, rfl⟩ := List.cons.inj e
    exact ⟨c, _, rfl, .inl ⟨rfl, h⟩⟩
  | @piece i i' x y h1 h2 h =>
    obtain ⟨d, i, rfl⟩ := List.exists_cons_of_ne_nil h1.1
    obtain ⟨d', i', rfl⟩ := List.exists_cons_of_ne_nil h2.1
    obtain ⟨rfl, -⟩ := List.cons.inj e
    exact ⟨d', _, rfl, .inr ⟨h1.2 _ (by simp), h2.2 _ (by simp)⟩⟩

/-- what is in front of a character of another kind -/
theorem Like.cons {c z x'} (h : Like (c :: z) x') (hc : ¬ Plain c) : ∃ z', x' = c :: z' ∧ Like z z' := by
  obtain ⟨c', z', e, ⟨rfl, h1⟩ | ⟨h1, -⟩⟩ := h.head
  · exact ⟨z', e, h1⟩
  · exact absurd h1 hc

theorem Like.strip {y z x'} (h : Like (y ++ z) x') (hy : ∀ c ∈ y, ¬ Plain c) :
    ∃ z', x' = y ++ z' ∧ Like z z' := by
  induction y generalizing x' with
  | nil => exact ⟨x', rfl, h⟩
  | cons c y ih =>
    obtain ⟨z1, rfl, h1⟩ := h.cons (hy c (by simp))
    obtain ⟨z2, rfl, h2⟩ := ih h1 fun d hd => hy d (by simp [hd])
    exact ⟨z2, rfl, h2⟩

/-- in front of a character that is not plain -/
theorem Like.cut {y z x' : Str} (h : Like (y ++ z) x') (hz : ∀ c b, z = c :: b → ¬ Plain c) :
    ∃ y' z', x' = y' ++ z' ∧ Like y y' ∧ Like z z' := by
  generalize e : y ++ z = x at h
  induction h generalizing y with
  | nil =>
    obtain ⟨rfl, rfl⟩ := List.append_eq_nil_iff.1 e
    exact ⟨[], [], rfl, .nil, .nil⟩
  | @same c x y1 h ih =>
    cases y with
    | nil => exact ⟨[], _, rfl, .nil, by rw [List.nil_append] at e; subst e; exact .same c h⟩
    | cons d y =>
      obtain ⟨rfl, e1⟩ := List.cons.inj e
      obtain ⟨y', z', rfl, h1, h2⟩ := ih e1
      exact ⟨d :: y', z', rfl, .same d h1, h2⟩
  | @piece i i' x y1 hi hi' h ih =>
    rcases List.append_eq_append_iff.1 e with ⟨k, rfl, hk⟩ | ⟨k, rfl, hk⟩
    · cases k with
      | nil =>
        rw [List.append_nil] at hi
        rw [List.nil_append] at hk
        subst hk
        exact ⟨i', y1, rfl, .plain hi hi', h⟩
      | cons c k => exact absurd (hi.2 c (by simp)) (hz c _ hk)
    · obtain ⟨y', z', rfl, h1, h2⟩ := ih hk.symm
      exact ⟨i' ++ y', z', by simp, .piece hi hi' h1, h2⟩

theorem Like.all {P : Char → Prop} (hP : ∀ c, Plain c → P c) {y y' : Str} (h : Like y y')
    (hy : ∀ c ∈ y, P c) : ∀ c ∈ y', P c := by
  induction h with
  | nil => exact hy
  | same c h ih =>
    intro d hd
    rcases List.mem_cons.1 hd with rfl | hd
    · exact hy d (by simp)
    · exact ih (fun d hd => hy d (by simp [hd])) d hd
  | piece h1 h2 h ih =>
    intro d hd
    rcases List.mem_append.1 hd with hd | hd
    · exact hP d (h2.2 d hd)
    · exact ih (fun d hd => hy d (by simp [hd])) d hd

/-! ## space -/

theorem Like.lineBreak {n t t'} (h : Like t t') (hn : LineBreak n t) : LineBreak n t' := by
  rcases hn with rfl | rfl | ⟨rfl, hn⟩
  · exact .inl rfl
  · exact .inr (.inl rfl)
  · refine .inr (.inr ⟨rfl, ?_⟩)
    rintro r rfl
    obtain ⟨z, rfl, -⟩ := h.symm.cons (nplain_break (.inl rfl))
    exact hn z rfl

theorem blanks_nplain {w : Str} (h : Blanks w) : ∀ c ∈ w, ¬ Plain c := fun c hc => nplain_blank (h c hc)

theorem Like.continuation {x x'} (h : Like x x') (hx : Continuation x) : Continuation x' := by
  obtain ⟨w, n, t, rfl, hw, hn⟩ := hx
  obtain ⟨_, e0, h0⟩ := h.cons (nplain (by decide))
  subst e0; clear h; have h := h0; clear h0
  obtain ⟨_, e0, h0⟩ := h.strip (blanks_nplain hw)
  subst e0; clear h; have h := h0; clear h0
  obtain ⟨t', e0, h0⟩ := h.strip (nplain_lineBreak hn)
  subst e0; clear h; have h := h0; clear h0
  exact ⟨w, n, t', rfl, hw, h.lineBreak hn⟩

theorem Like.eol {x x'} (h : Like x x') (hx : Eol x) : Eol x' := by
  cases x with
  | nil => rw [h.empty]; exact hx
  | cons c z =>
    have hc := hx c z rfl
    obtain ⟨z', rfl, -⟩ := h.cons (nplain_break hc)
    intro d b e
    obtain ⟨rfl, -⟩ := List.cons.inj e
    exact hc

theorem Like.startsSpace {x x'} (h : Like x x') (hx : StartsSpace x) : StartsSpace x' := by
  rcases hx with ⟨c, t, rfl, hc⟩ | hx
  · obtain ⟨z', rfl, -⟩ := h.cons (nplain_blank hc)
    exact .inl ⟨c, z', rfl, hc⟩
  · exact .inr (h.continuation hx)

theorem Like.wordEnd {x x'} (h : Like x x') : WordEnd x → WordEnd x' :=
  Or.imp h.eol h.startsSpace

theorem Like.skippable {x x'} (h : Like x x') (hx : Skippable x) : Skippable x' := by
  obtain ⟨w, v, rfl, hw, hv⟩ := hx
  obtain ⟨v', e0, h0⟩ := h.strip (blanks_nplain hw)
  subst e0; clear h; have h := h0; clear h0
  refine ⟨w, v', rfl, hw, ?_⟩
  rcases hv with ⟨t, rfl⟩ | ⟨n, t, rfl, hn⟩
  · obtain ⟨t', rfl, -⟩ := h.cons (nplain (by decide))
    exact .inl ⟨t', rfl⟩
  · obtain ⟨t', e0, h0⟩ := h.strip (nplain_lineBreak hn)
    subst e0; clear h; have h := h0; clear h0
    exact .inr ⟨n, t', rfl, h.lineBreak hn⟩

theorem SkipLines.exch {l r r'} (hl : SkipLines l r) (h : Like r r') : SkipLines l r' := by
  induction hl with
  | nil hn => exact .nil fun hs => hn (h.symm.skippable hs)
  | blank hw hn _ ih => exact .blank hw ((h.pre _).lineBreak hn) (ih h)
  | comment hw ht hn _ ih => exact .comment hw ht ((h.pre _).lineBreak hn) (ih h)
  | lastComment hw ht => rw [h.empty]; exact .lastComment hw ht

theorem Space.exch {g r r'} (hg : Space g r) (h : Like r r') : Space g r' := by
  induction hg with
  | nil hn => exact .nil fun hs => hn (h.symm.startsSpace hs)
  | blank hc _ ih => exact .blank hc (ih h)
  | continuation hw hn hl _ ih =>
    exact .continuation hw (((h.pre _).pre _).lineBreak hn) (hl.exch (h.pre _)) (ih h)

theorem Gap.exch {g r r'} (hg : Gap g r) (h : Like r r') : Gap g r' := ⟨hg.1, Space.exch hg.2 h⟩

theorem Word.exch {w r r'} (hw : Word w r) (h : Like r r') : Word w r' :=
  ⟨hw.1, fun a b e hb he => hw.2.1 a b e hb ((h.symm.pre b).wordEnd he), h.wordEnd hw.2.2⟩

theorem endsName_nplain {c : Char} (h : EndsName c) : ¬ Plain c := by
  rcases h with rfl | rfl | rfl | rfl | rfl <;> exact nplain (by decide)

theorem NameWord.exch {w r r'} (hw : NameWord w r) (h : Like r r') : NameWord w r' := by
  refine ⟨hw.1, hw.2.1, fun c b e => ?_⟩
  cases r with
  | nil => rw [h.empty] at e; cases e
  | cons d z =>
    have hd := hw.2.2 d z rfl
    obtain ⟨z', rfl, -⟩ := h.cons (endsName_nplain hd)
    obtain ⟨rfl, -⟩ := List.cons.inj e
    exact hd

/-! ## quotes -/

theorem quote_nplain {q : Char} (h : q = '"' ∨ q = '\'') : ¬ Plain q := by
  rcases h with rfl | rfl <;> exact nplain (by decide)

theorem plain_chr {c : Char} (h : Plain c) :
    c ≠ '"' ∧ c ≠ '\'' ∧ c ≠ '\\' ∧ c ≠ '\x00' ∧ c ≠ '\x1F' := by
  refine ⟨?_, ?_, ?_, ?_, ?_⟩ <;> rintro rfl <;> exact absurd h (nplain (by decide))

theorem bodyX_drop {q : Char} {i t : Str} (hi : ∀ c ∈ i, Plain c)
    (h : QuotedBody q (i ++ t)) : QuotedBody q t := by
  induction i with
  | nil => exact h
  | cons c i ih =>
    have hc := plain_chr (hi c (by simp))
    rw [List.cons_append] at h
    generalize hu : i ++ t = u at h ih
    cases h with
    | chr _ _ _ _ h => exact ih (fun d hd => hi d (by simp [hd])) h
    | escaped => exact absurd rfl hc.2.2.1
    | backslash => exact absurd rfl hc.2.2.1

theorem bodyX_add {q : Char} (hq : q = '"' ∨ q = '\'') {i t : Str} (hi : ∀ c ∈ i, Plain c)
    (h : QuotedBody q t) : QuotedBody q (i ++ t) := by
  induction i with
  | nil => exact h
  | cons c i ih =>
    have hc := plain_chr (hi c (by simp))
    refine .chr ?_ hc.2.2.1 hc.2.2.2.1 hc.2.2.2.2 (ih fun d hd => hi d (by simp [hd]))
    rcases hq with rfl | rfl
    · exact hc.1
    · exact hc.2.1

theorem bodyX {q : Char} (hq : q = '"' ∨ q = '\'') {b b' : Str} (hb : QuotedBody q b) (h : Like b b') :
    QuotedBody q b' := by
  induction hb generalizing b' with
  | nil => rw [h.empty]; exact .nil
  | @chr c t h1 h2 h3 h4 _ ih =>
    generalize e : c :: t = x at h
    cases h with
    | nil => cases e
    | same d h =>
      obtain ⟨rfl, rfl⟩ := List.cons.inj e
      exact .chr h1 h2 h3 h4 (ih h)
    | @piece i i' x y hi hi' h =>
      obtain ⟨d, i, rfl⟩ := List.exists_cons_of_ne_nil hi.1
      obtain ⟨rfl, rfl⟩ := List.cons.inj e
      exact bodyX_add hq hi'.2 (bodyX_drop (fun c hc => hi.2 c (by simp [hc])) (ih (h.pre i)))
  | @escaped c t hc _ ih =>
    obtain ⟨_, e0, h0⟩ := h.cons (nplain (by decide))
    subst e0; clear h; have h := h0; clear h0
    have : ¬ Plain c := by
      rcases hc with rfl | rfl | rfl <;> exact nplain (by decide)
    obtain ⟨_, e0, h0⟩ := h.cons this
    subst e0; clear h; have h := h0; clear h0
    exact .escaped hc (ih h)
  | @backslash c t h1 h2 h3 _ ih =>
    obtain ⟨x2, e0, h0⟩ := h.cons (nplain (by decide))
    subst e0; clear h; have h := h0; clear h0
    have hb := ih h
    obtain ⟨c', z2, e, hc'⟩ := h.head
    have hc : c' ≠ '"' ∧ c' ≠ '\'' ∧ c' ≠ '\\' := by
      rcases hc' with ⟨rfl, -⟩ | ⟨-, hc'⟩
      · exact ⟨h1, h2, h3⟩
      · exact ⟨(plain_chr hc').1, (plain_chr hc').2.1, (plain_chr hc').2.2.1⟩
    rw [e] at hb ⊢
    exact .backslash hc.1 hc.2.1 hc.2.2 hb

theorem quoted_swap {t t' : Str} (h : Like t t') (ht : QuotedText t) : QuotedText t' := by
  obtain ⟨q, b, rfl, hq, hb⟩ := ht
  obtain ⟨z, rfl, h1⟩ := h.cons (quote_nplain hq)
  obtain ⟨b', z', rfl, h2, h3⟩ := h1.cut fun c b e => by
    obtain ⟨rfl, -⟩ := List.cons.inj e
    exact quote_nplain hq
  obtain ⟨z'', rfl, h4⟩ := h3.cons (quote_nplain hq)
  rw [h4.empty]
  exact ⟨q, b', rfl, hq, bodyX hq hb h2⟩

theorem quoted_X {t z x' : Str} (h : Like (t ++ z) x') (ht : QuotedText t) :
    ∃ t' z', x' = t' ++ z' ∧ QuotedText t' ∧ Like z z' := by
  obtain ⟨q, b, rfl, hq, hb⟩ := ht
  obtain ⟨_, e0, h0⟩ := h.cons (quote_nplain hq)
  subst e0; clear h; have h := h0; clear h0
  simp only [List.append_eq, List.append_assoc, List.singleton_append] at h
  obtain ⟨b', _, rfl, h2, h3⟩ := h.cut fun c b e => by
    obtain ⟨rfl, -⟩ := List.cons.inj e
    exact quote_nplain hq
  obtain ⟨z', rfl, h4⟩ := h3.cons (quote_nplain hq)
  exact ⟨q :: (b' ++ [q]), z', by simp, ⟨q, b', rfl, hq, bodyX hq hb h2⟩, h4⟩

theorem NoQuoted.exch {x x'} (hx : NoQuoted x) (h : Like x x') : NoQuoted x' := by
  rintro t z rfl ht
  obtain ⟨t', z', e, ht', -⟩ := quoted_X h.symm ht
  exact hx t' z' e ht'

theorem Value.Fits.exch {v : Value} {r r'} (hv : v.Fits r) (h : Like r r') : v.Fits r' := by
  cases v with
  | quoted => exact hv
  | bare t => exact ⟨hv.1.exch (h.pre t), hv.2.exch h⟩

theorem Value.FitsName.exch {v : Value} {r r'} (hv : v.FitsName r) (h : Like r r') : v.FitsName r' := by
  cases v with
  | quoted => exact hv
  | bare t => exact ⟨hv.1.exch (h.pre t), hv.2.exch h⟩

/-! ## arrays -/

theorem comment_X {t t' : Str} (h : Like t t') (ht : CommentText t) : CommentText t' := by
  obtain ⟨b, rfl, hb⟩ := ht
  obtain ⟨b', rfl, h'⟩ := h.cons (nplain (by decide))
  exact ⟨b', rfl, h'.all (P := fun c => c ≠ '\n' ∧ c ≠ '\r') (fun c hc =>
    ⟨fun e => nplain_break (.inl e) hc, fun e => nplain_break (.inr e) hc⟩) hb⟩

theorem break_head {n r : Str} (hn : LineBreak n r) (z : Str) : ∀ c b, n ++ z = c :: b → ¬ Plain c := by
  intro c b e
  refine nplain_lineBreak hn c ?_
  rcases hn with rfl | rfl | ⟨rfl, -⟩ <;> simp at e <;> simp [← e.1]

theorem skipLines_X {l r x' : Str} (hl : SkipLines l r) (h : Like (l ++ r) x') :
    ∃ l' r', x' = l' ++ r' ∧ SkipLines l' r' ∧ Like r r' := by
  induction hl generalizing x' with
  | nil hn => exact ⟨[], x', rfl, .nil fun hs => hn (h.symm.skippable hs), h⟩
  | @blank w n l r hw hn hl ih =>
    simp only [List.append_eq, List.append_assoc] at h
    obtain ⟨_, e0, h0⟩ := h.strip (blanks_nplain hw)
    subst e0; clear h; have h := h0; clear h0
    obtain ⟨_, e0, h0⟩ := h.strip (nplain_lineBreak hn)
    subst e0; clear h; have h := h0; clear h0
    obtain ⟨l', r', rfl, hl', hr⟩ := ih h
    exact ⟨w ++ (n ++ l'), r', by simp, .blank hw (h.lineBreak hn) hl', hr⟩
  | @comment w t n l r hw ht hn hl ih =>
    simp only [List.append_eq, List.append_assoc] at h
    obtain ⟨_, e0, h0⟩ := h.strip (blanks_nplain hw)
    subst e0; clear h; have h := h0; clear h0
    obtain ⟨t', _, rfl, h1, h0⟩ := h.cut (break_head hn _)
    clear h; have h := h0; clear h0
    obtain ⟨_, e0, h0⟩ := h.strip (nplain_lineBreak hn)
    subst e0; clear h; have h := h0; clear h0
    obtain ⟨l', r', rfl, hl', hr⟩ := ih h
    exact ⟨w ++ (t' ++ (n ++ l')), r', by simp, .comment hw (comment_X h1 ht) (h.lineBreak hn) hl', hr⟩
  | @lastComment w t hw ht =>
    simp only [List.append_eq, List.append_assoc, List.append_nil] at h
    obtain ⟨t', rfl, h0⟩ := h.strip (blanks_nplain hw)
    exact ⟨w ++ t', [], by simp, .lastComment hw (comment_X h0 ht), .nil⟩

theorem space_X {g r x' : Str} (hg : Space g r) (h : Like (g ++ r) x') :
    ∃ g' r', x' = g' ++ r' ∧ Space g' r' ∧ Like r r' := by
  induction hg generalizing x' with
  | nil hn => exact ⟨[], x', rfl, .nil fun hs => hn (h.symm.startsSpace hs), h⟩
  | @blank c g r hc hg ih =>
    obtain ⟨_, e0, h0⟩ := h.cons (nplain_blank hc)
    subst e0; clear h; have h := h0; clear h0
    obtain ⟨g', r', rfl, hg', hr⟩ := ih h
    exact ⟨c :: g', r', rfl, .blank hc hg', hr⟩
  | @continuation w n l g r hw hn hl hg ih =>
    obtain ⟨_, e0, h0⟩ := h.cons (nplain (by decide))
    subst e0; clear h; have h := h0; clear h0
    simp only [List.append_eq, List.append_assoc] at h
    obtain ⟨_, e0, h0⟩ := h.strip (blanks_nplain hw)
    subst e0; clear h; have h := h0; clear h0
    obtain ⟨_, e0, h0⟩ := h.strip (nplain_lineBreak hn)
    subst e0; clear h; have h := h0; clear h0
    obtain ⟨l', r1, rfl, hl', hr⟩ := skipLines_X hl h
    obtain ⟨g', r', rfl, hg', hr⟩ := ih hr
    exact ⟨'\\' :: (w ++ (n ++ (l' ++ g'))), r', by simp,
      .continuation hw (h.lineBreak hn) hl' hg', hr⟩

theorem elem_X {e : Elem} {r x' : Str} (he : e.Fits r) (h : Like (e.text ++ r) x') :
    ∃ (e' : Elem) (r' : Str), x' = e'.text ++ r' ∧ e'.Fits r' ∧ Like r r' := by
  obtain ⟨h1, h2, h3⟩ := he
  simp only [Elem.text, List.append_assoc, List.cons_append] at h
  obtain ⟨g, _, e0, hg, h0⟩ := space_X h1 h
  subst e0; clear h; have h := h0; clear h0
  obtain ⟨_, e0, h0⟩ := h.cons (nplain (by decide))
  subst e0; clear h; have h := h0; clear h0
  obtain ⟨g', _, e0, hg', h0⟩ := space_X h2 h
  subst e0; clear h; have h := h0; clear h0
  obtain ⟨v, r', e0, hv, h0⟩ := quoted_X h h3
  subst e0; clear h; have h := h0; clear h0
  exact ⟨⟨g, g', v⟩, r', by simp [Elem.text], ⟨hg, hg', hv⟩, h⟩

theorem elems_X {es : List Elem} {r x' : Str} (he : ElemsFit es r) (h : Like (elemsText es ++ r) x') :
    ∃ (es' : List Elem) (r' : Str), x' = elemsText es' ++ r' ∧ ElemsFit es' r' ∧ Like r r' := by
  induction es generalizing x' with
  | nil => exact ⟨[], x', rfl, trivial, h⟩
  | cons e es ih =>
    rw [elemsText_cons, List.append_assoc] at h
    obtain ⟨e', _, e0, he', h0⟩ := elem_X he.1 h
    subst e0; clear h; have h := h0; clear h0
    obtain ⟨es', r', e0, hes', h0⟩ := ih he.2 h
    subst e0; clear h; have h := h0; clear h0
    exact ⟨e' :: es', r', by rw [elemsText_cons, List.append_assoc], ⟨he', hes'⟩, h⟩

theorem array_X {a : Array} {r x' : Str} (ha : a.Fits r) (h : Like (a.text ++ r) x') :
    ∃ (a' : Array) (r' : Str), x' = a'.text ++ r' ∧ a'.Fits r' := by
  cases a with
  | empty g =>
    obtain ⟨_, e0, h0⟩ := h.cons (nplain (by decide))
    subst e0; clear h; have h := h0; clear h0
    simp only [List.append_eq, List.append_assoc] at h
    obtain ⟨g', _, e0, hg', h0⟩ := space_X (show Space g (']' :: r) from ha) h
    subst e0; clear h; have h := h0; clear h0
    obtain ⟨r', e0, h0⟩ := h.cons (nplain (by decide))
    subst e0; clear h; have h := h0; clear h0
    exact ⟨.empty g', r', by simp [Array.text], hg'⟩
  | full g v es c g2 =>
    obtain ⟨h1, h2, h3, h4⟩ := ha
    obtain ⟨_, e0, h0⟩ := h.cons (nplain (by decide))
    subst e0; clear h; have h := h0; clear h0
    simp only [List.append_eq, List.append_assoc] at h
    obtain ⟨g', _, e0, hg', h0⟩ := space_X h1 h
    subst e0; clear h; have h := h0; clear h0
    obtain ⟨v', _, e0, hv', h0⟩ := quoted_X h h2
    subst e0; clear h; have h := h0; clear h0
    obtain ⟨es', x2, e0, hes', h0⟩ := elems_X h3 h
    subst e0; clear h; have h := h0; clear h0
    have htail : ∀ {x2}, Like (Array.tail c g2 ++ r) x2 →
        ∃ g3 r', x2 = Array.tail c g3 ++ r' ∧ Space g3 (']' :: r') := by
      intro x2 h
      cases c with
      | true =>
        obtain ⟨_, e0, h0⟩ := h.cons (nplain (by decide))
        subst e0; clear h; have h := h0; clear h0
        simp only [List.append_eq, List.nil_append, List.append_assoc] at h
        obtain ⟨g3, _, e0, hg3, h0⟩ := space_X h4 h
        subst e0; clear h; have h := h0; clear h0
        obtain ⟨r', e0, h0⟩ := h.cons (nplain (by decide))
        subst e0; clear h; have h := h0; clear h0
        exact ⟨g3, r', by simp [Array.tail], hg3⟩
      | false =>
        have h : Like (g2 ++ ([']'] ++ r)) x2 := by simpa [Array.tail] using h
        obtain ⟨g3, _, e0, hg3, h0⟩ := space_X h4 h
        subst e0; clear h; have h := h0; clear h0
        obtain ⟨r', e0, h0⟩ := h.cons (nplain (by decide))
        subst e0; clear h; have h := h0; clear h0
        exact ⟨g3, r', by simp [Array.tail], hg3⟩
    obtain ⟨g3, r', rfl, hg3⟩ := htail h
    exact ⟨.full g' v' es' c g3, r', by simp [Array.text], hg', hv', hes', hg3⟩

theorem NoArray.exch {x x'} (hx : NoArray x) (h : Like x x') : NoArray x' := by
  rintro a r rfl ha
  obtain ⟨a', r', e, ha'⟩ := array_X ha h.symm
  exact hx a' r' e ha'

theorem ElemsFit.exch {es : List Elem} {r r'} (he : ElemsFit es r) (h : Like r r') : ElemsFit es r' := by
  induction es with
  | nil => trivial
  | cons e es ih =>
    obtain ⟨⟨h1, h2, h3⟩, h4⟩ := he
    exact ⟨⟨h1.exch (((h.pre _).pre e.value).pre e.after |>.pre [',']),
      h2.exch ((h.pre _).pre _), h3⟩, ih h4⟩

theorem Array.Fits.exch {a : Array} {r r'} (ha : a.Fits r) (h : Like r r') : a.Fits r' := by
  cases a with
  | empty g => exact Space.exch (show Space g (']' :: r) from ha) (h.pre [']'])
  | full g v es c g2 =>
    obtain ⟨h1, h2, h3, h4⟩ := ha
    exact ⟨h1.exch (((h.pre _).pre _).pre _), h2, ElemsFit.exch h3 (h.pre _), h4.exch (h.pre [']'])⟩

/-! ## shell text, flags, pairs -/

theorem Shell.Piece.exch {t r r'} (hp : Shell.Piece t r) (h : Like r r') : Shell.Piece t r' := by
  obtain ⟨h1, h2, h3, h4⟩ := hp
  refine ⟨h1, h2, fun a b e hb hc => h3 a b e hb ((h.symm.pre b).continuation hc), fun w u hw e => ?_⟩
  have hx := h.symm.pre t
  rw [e] at hx
  obtain ⟨_, e', hx⟩ := hx.strip (blanks_nplain hw)
  obtain ⟨u', rfl, hx⟩ := hx.cons (nplain (by decide))
  exact h4 w u' hw e'

theorem Shell.Fits.exch {s : Shell} {r r'} (hs : s.Fits r) (h : Like r r') : s.Fits r' := by
  induction s with
  | last t => exact ⟨hs.1.exch h, h.eol hs.2⟩
  | lastComment w t n =>
    obtain ⟨h1, h2, h3⟩ := hs
    refine ⟨h1, h2, ?_⟩
    rcases h3 with ⟨h3, rfl⟩ | ⟨h3, h4⟩
    · exact .inl ⟨h3, h.empty⟩
    · exact .inr ⟨h.lineBreak h3, h.eol h4⟩
  | more t w n s ih =>
    obtain ⟨h1, h2, h3, h4⟩ := hs
    exact ⟨h1.exch ((((h.pre _).pre n).pre w).pre ['\\']), h2, (h.pre _).lineBreak h3, ih h4⟩
  | comment w t n s ih =>
    obtain ⟨h1, h2, h3, h4⟩ := hs
    exact ⟨h1, h2, (h.pre _).lineBreak h3, ih h4⟩

theorem Flag.Fits.exch {f : Flag} {r r'} (hf : f.Fits r) (h : Like r r') : f.Fits r' := by
  obtain ⟨h1, h2, h3, h4⟩ := hf
  exact ⟨h1.exch (h.pre _), h2, h3, h4.exch h⟩

theorem FlagsFit.exch {fs : List Flag} {r r'} (hf : FlagsFit fs r) (h : Like r r') : FlagsFit fs r' := by
  induction fs with
  | nil => trivial
  | cons f fs ih => exact ⟨hf.1.exch (h.pre _), ih hf.2⟩

theorem Arg.Fits.exch {f : Arg} {r r'} (hf : f.Fits r) (h : Like r r') : f.Fits r' :=
  ⟨Gap.exch hf.1 (h.pre _), Word.exch hf.2 h⟩

theorem ArgsFit.exch {fs : List Arg} {r r'} (hf : ArgsFit fs r) (h : Like r r') : ArgsFit fs r' := by
  induction fs with
  | nil => trivial
  | cons f fs ih => exact ⟨hf.1.exch (h.pre _), ih hf.2⟩

theorem PairsFit.exch {F : Pair → Str → Prop} (hF : ∀ f r r', F f r → Like r r' → F f r')
    {fs : List Pair} {r r'} (hf : PairsFit F fs r) (h : Like r r') : PairsFit F fs r' := by
  induction fs with
  | nil => trivial
  | cons f fs ih => exact ⟨hF _ _ _ hf.1 (h.pre _), ih hf.2⟩

theorem Pair.FitsLabel.exch {f : Pair} {r r'} (hf : f.FitsLabel r) (h : Like r r') : f.FitsLabel r' :=
  ⟨Gap.exch hf.1 (h.pre _), hf.2.1.exch ((h.pre _).pre ['=']), hf.2.2.exch h⟩

theorem Pair.FitsEnv.exch {f : Pair} {r r'} (hf : f.FitsEnv r) (h : Like r r') : f.FitsEnv r' :=
  ⟨Gap.exch hf.1 (h.pre _), hf.2.1, hf.2.2.exch h⟩

end Src
end Verif
