import Verif.Proof.Split
import Verif.Props.Unsupported
import Verif.Spec.Seam

/-!
# Exchanging blank lines and comment lines between the lines of a document: pieces of lines

`x` ends with a line break; after it come the lines `p` or the lines `p'`, and then `z`.  What is read at
the start of `x` is the same with both, whether it ends in `x` or only in `z`.
-/

namespace Verif
namespace Src
open Spec

/-- `x` ends with a line break that does not go on in `m`, nor in `m'` -/
structure Seam (x m m' : Str) : Prop where
  brk : BreakEnd x
  cr : ∀ a, x = a ++ ['\r'] → ∀ t, m ≠ '\n' :: t
  cr' : ∀ a, x = a ++ ['\r'] → ∀ t, m' ≠ '\n' :: t

theorem Seam.symm {x m m' : Str} (h : Seam x m m') : Seam x m' m := ⟨h.brk, h.cr', h.cr⟩

theorem Seam.right {a x m m' : Str} (h : Seam (a ++ x) m m') (hx : x ≠ []) : Seam x m m' :=
  ⟨h.brk.right hx, fun b e => h.cr (a ++ b) (by rw [e]; simp), fun b e => h.cr' (a ++ b) (by rw [e]; simp)⟩

/-- a text without line breaks in front -/
theorem Seam.before {x m m' a b : Str} (h : Seam x m m') (e : a ++ b = x ++ m)
    (ha : ∀ c ∈ a, ¬ (c = '\n' ∨ c = '\r')) : ∃ y, x = a ++ y ∧ b = y ++ m ∧ Seam y m m' := by
  obtain ⟨y, rfl, e2, hy⟩ := h.brk.before e.symm ha
  exact ⟨y, rfl, e2, h.right hy.ne⟩

theorem Seam.char {x m m' b : Str} {c : Char} (h : Seam x m m') (e : c :: b = x ++ m)
    (hc : ¬ (c = '\n' ∨ c = '\r')) : ∃ y, x = c :: y ∧ b = y ++ m ∧ Seam y m m' :=
  h.before (a := [c]) e (by intro d hd; rw [List.mem_singleton.1 hd]; exact hc)

/-- the line break in front -/
theorem Seam.line {x m m' n r : Str} (h : Seam x m m') (e : n ++ r = x ++ m) (hn : LineBreak n r) :
    ∃ y, x = n ++ y ∧ r = y ++ m ∧ (y = [] ∨ Seam y m m') ∧ LineBreak n (y ++ m') := by
  have main : ∃ y, x = n ++ y ∧ r = y ++ m := by
    rcases List.append_eq_append_iff.1 e with ⟨y, rfl, e2⟩ | ⟨y, e1, e2⟩
    · exact ⟨y, rfl, e2⟩
    · by_cases hy : y = []
      · subst hy
        exact ⟨[], by simpa using e1.symm, by simpa using e2.symm⟩
      exfalso
      have hx := h.brk.ne
      rcases hn with rfl | rfl | ⟨rfl, -⟩
      · cases x with
        | nil => exact hx rfl
        | cons c x => exact hy (List.append_eq_nil_iff.1 (List.cons.inj e1).2.symm).2
      · cases x with
        | nil => exact hx rfl
        | cons c x =>
          obtain ⟨rfl, e1⟩ := List.cons.inj e1
          cases x with
          | nil =>
            cases e1
            exact h.cr [] rfl _ e2
          | cons d x =>
            have e3 : ['\n'] = d :: (x ++ y) := by simpa using e1
            exact hy (List.append_eq_nil_iff.1 (List.cons.inj e3).2.symm).2
      · cases x with
        | nil => exact hx rfl
        | cons c x => exact hy (List.append_eq_nil_iff.1 (List.cons.inj e1).2.symm).2
  obtain ⟨y, rfl, rfl⟩ := main
  refine ⟨y, rfl, rfl, ?_, ?_⟩
  · by_cases hy : y = []
    · exact .inl hy
    · exact .inr (h.right hy)
  · by_cases hy : y = []
    · subst hy
      rcases hn with rfl | rfl | ⟨rfl, -⟩
      · exact .inl rfl
      · exact .inr (.inl rfl)
      · exact .inr (.inr ⟨rfl, h.cr' [] rfl⟩)
    · exact hn.cut.extNil hy

/-! ## skipped lines -/

theorem SkipLines.unique {l r l' r' : Str} (h : SkipLines l r) (h' : SkipLines l' r') (e : l ++ r = l' ++ r') :
    l = l' ∧ r = r' := by
  obtain ⟨cs, h1, -⟩ := skipLines_x h 0
  obtain ⟨cs', h1', -⟩ := skipLines_x h' 0
  unfold SemX at h1 h1'
  rw [e] at h1
  have := h1.det h1'
  simp only [Option.some.injEq, Prod.mk.injEq] at this
  obtain ⟨-, rfl, -⟩ := this
  exact ⟨List.append_cancel_right e, rfl⟩

theorem exists_skip (s : Str) : ∃ l r, s = l ++ r ∧ SkipLines l r := by
  have := parse_sem (e := .star (.alt G.comment_line G.empty_line)) (by decide +kernel) false 0 s
  generalize parse (.star (.alt G.comment_line G.empty_line)) false 0 s = o at this
  rcases o with _ | ⟨p, r, ts⟩
  · exact absurd this Sem.star_ne_none
  · obtain ⟨g, rfl, -, h⟩ := this.x
    exact ⟨g, r, rfl, skipLines_inv h⟩

theorem idle_skip {p z : Str} (h : IdleLines p z) {l r : Str} (e : z = l ++ r) (hl : SkipLines l r) :
    SkipLines (p ++ l) r := by
  induction h with
  | nil => exact hl
  | blank hw hn _ ih => subst e; simpa using SkipLines.blank hw (by simpa using hn) (ih rfl)
  | comment hw ht hn _ ih => subst e; simpa using SkipLines.comment hw ht (by simpa using hn) (ih rfl)

theorem idle_end {p z : Str} (h : IdleLines p z) : p = [] ∨ BreakEnd p := by
  have : ∀ {n u z : Str}, LineBreak n z → u = [] ∨ BreakEnd u → BreakEnd (n ++ u) := by
    rintro n u z hn (rfl | h)
    · rw [List.append_nil]; exact break_end hn
    · exact h.pre _
  induction h with
  | nil => exact .inl rfl
  | @blank w n u s _ hn _ ih => exact .inr (by simpa using (this hn ih).pre w)
  | @comment w t n u s _ _ hn _ ih => exact .inr (by simpa using ((this hn ih).pre t).pre w)

/-- a letter comes next, after blanks, or nothing -/
def Bare (r : Str) : Prop := (∃ w c t, r = w ++ c :: t ∧ Blanks w ∧ IsAlpha c) ∨ Blanks r

/-- Lines that are skipped at the start of `p ++ z`, up to something that is not `Bare` (if `f`; otherwise up to
anything), go on into `z`, and are skipped at the start of `p' ++ z` too; and the other way round. -/
structure Swap (f : Bool) (p p' z : Str) : Prop where
  skip : ∀ {k r}, SkipLines k r → ¬ (f = true ∧ Bare r) → k ++ r = p ++ z →
    ∃ l, z = l ++ r ∧ k = p ++ l ∧ SkipLines (p' ++ l) r
  skip' : ∀ {k r}, SkipLines k r → ¬ (f = true ∧ Bare r) → k ++ r = p' ++ z →
    ∃ l, z = l ++ r ∧ k = p' ++ l ∧ SkipLines (p ++ l) r

theorem Swap.symm {f : Bool} {p p' z : Str} (h : Swap f p p' z) : Swap f p' p z := ⟨h.skip', h.skip⟩

theorem idle_swap {p p' z : Str} (hp : IdleLines p z) (hp' : IdleLines p' z) : Swap false p p' z := by
  have front : ∀ {p p' : Str}, IdleLines p z → IdleLines p' z → ∀ {k r}, SkipLines k r → k ++ r = p ++ z →
      ∃ l, z = l ++ r ∧ k = p ++ l ∧ SkipLines (p' ++ l) r := by
    intro p p' hp hp' k r h e
    obtain ⟨l, t, e1, hl⟩ := exists_skip z
    obtain ⟨rfl, rfl⟩ := h.unique (idle_skip hp e1 hl) (by rw [e, e1]; simp)
    exact ⟨l, e1, rfl, idle_skip hp' e1 hl⟩
  exact ⟨fun h _ e => front hp hp' h e, fun h _ e => front hp' hp h e⟩

theorem not_bare_false {r : Str} : ¬ (false = true ∧ Bare r) := fun h => by cases h.1

theorem not_bare_char {f : Bool} {c : Char} {r : Str} (h : ¬ IsAlpha c) (h1 : ¬ (c = ' ' ∨ c = '\t')) :
    ¬ (f = true ∧ Bare (c :: r)) := by
  rintro ⟨-, ⟨w, d, t, e, hw, hd⟩ | hb⟩
  · cases w with
    | nil => obtain ⟨rfl, -⟩ := List.cons.inj e; exact h hd
    | cons b w => obtain ⟨rfl, -⟩ := List.cons.inj e; exact h1 (hw _ (by simp))
  · exact h1 (hb c (by simp))

theorem not_bare_quoted {f : Bool} {v r : Str} (h : QuotedText v) : ¬ (f = true ∧ Bare (v ++ r)) := by
  obtain ⟨q, b, rfl, hq, -⟩ := h
  refine not_bare_char (c := q) (r := b ++ [q] ++ r) ?_ ?_
  · rcases hq with rfl | rfl <;> (unfold IsAlpha; decide)
  · rcases hq with rfl | rfl <;> decide

theorem not_bare_space {f : Bool} {g r : Str} (h : Space g r) (hr : ¬ (f = true ∧ Bare r)) : ¬ (f = true ∧ Bare (g ++ r)) := by
  induction h with
  | nil _ => exact hr
  | @blank c g r hc _ ih =>
    refine fun hb => ih hr ⟨hb.1, ?_⟩
    rcases hb.2 with ⟨w, d, t, e, hw, hd⟩ | hb
    · cases w with
      | nil => obtain ⟨rfl, -⟩ := List.cons.inj e; exact absurd hd (by rcases hc with rfl | rfl <;> (unfold IsAlpha; decide))
      | cons b w => exact .inl ⟨w, d, t, (List.cons.inj e).2, fun x hx => hw x (by simp [hx]), hd⟩
    · exact .inr fun x hx => hb x (by simp only [List.cons_append, List.mem_cons]; exact .inr hx)
  | continuation _ _ _ _ _ => exact not_bare_char (by unfold IsAlpha; decide) (by decide)

section
variable {f : Bool} {p p' z : Str}

theorem skip_seam (hs : Swap f p p' z) {k r : Str} (h : SkipLines k r) (hr : ¬ (f = true ∧ Bare r)) :
    ∀ x, k ++ r = x ++ (p ++ z) → (x = [] ∨ Seam x (p ++ z) (p' ++ z)) →
    (∃ y, x = k ++ y ∧ r = y ++ (p ++ z) ∧ Seam y (p ++ z) (p' ++ z)) ∨
    ∃ l, z = l ++ r ∧ k = x ++ (p ++ l) ∧ SkipLines (x ++ (p' ++ l)) r := by
  induction h with
  | nil h =>
    rintro x e (rfl | hx)
    · exact .inr (hs.skip (.nil h) hr e)
    · exact .inl ⟨x, rfl, e, hx⟩
  | @blank w n l r hw hn hl ih =>
    rintro x e (rfl | hx)
    · exact .inr (hs.skip (.blank hw hn hl) hr e)
    obtain ⟨x1, rfl, e1, hx1⟩ := hx.before (a := w) (b := n ++ (l ++ r)) (by simpa using e)
      (by intro c hc; rcases hw c hc with rfl | rfl <;> decide)
    obtain ⟨x2, rfl, e2, hx2, hn2⟩ := hx1.line e1 hn
    rcases ih hr x2 e2 hx2 with ⟨y, rfl, h1, h2⟩ | ⟨l', h1, rfl, h2⟩
    · exact .inl ⟨y, by simp, h1, h2⟩
    · refine .inr ⟨l', h1, by simp, ?_⟩
      have := SkipLines.blank hw (n := n) (by rw [h1] at hn2; simpa using hn2) h2
      simpa using this
  | @comment w t n l r hw ht hn hl ih =>
    rintro x e (rfl | hx)
    · exact .inr (hs.skip (.comment hw ht hn hl) hr e)
    obtain ⟨x1, rfl, e1, hx1⟩ := hx.before (a := w ++ t) (b := n ++ (l ++ r)) (by simpa using e) (by
      intro c hc
      rcases List.mem_append.1 hc with hc | hc
      · rcases hw c hc with rfl | rfl <;> decide
      · obtain ⟨b, rfl, hb⟩ := ht
        rcases List.mem_cons.1 hc with rfl | hc
        · decide
        · exact fun h => h.elim (hb c hc).1 (hb c hc).2)
    obtain ⟨x2, rfl, e2, hx2, hn2⟩ := hx1.line e1 hn
    rcases ih hr x2 e2 hx2 with ⟨y, rfl, h1, h2⟩ | ⟨l', h1, rfl, h2⟩
    · exact .inl ⟨y, by simp, h1, h2⟩
    · refine .inr ⟨l', h1, by simp, ?_⟩
      have := SkipLines.comment hw ht (n := n) (by rw [h1] at hn2; simpa using hn2) h2
      simpa using this
  | @lastComment w t hw ht =>
    rintro x e (rfl | hx)
    · exact .inr (hs.skip (.lastComment hw ht) hr e)
    obtain ⟨x1, -, e1, hx1⟩ := hx.before (a := w ++ t) (b := []) (by simpa using e) (by
      intro c hc
      rcases List.mem_append.1 hc with hc | hc
      · rcases hw c hc with rfl | rfl <;> decide
      · obtain ⟨b, rfl, hb⟩ := ht
        rcases List.mem_cons.1 hc with rfl | hc
        · decide
        · exact fun h => h.elim (hb c hc).1 (hb c hc).2)
    exact absurd (List.append_eq_nil_iff.1 e1.symm).1 hx1.brk.ne

theorem space_seam (hs : Swap f p p' z) {g r : Str} (h : Space g r) (hr : ¬ (f = true ∧ Bare r)) :
    ∀ x, g ++ r = x ++ (p ++ z) → Seam x (p ++ z) (p' ++ z) →
    (∃ y, x = g ++ y ∧ r = y ++ (p ++ z) ∧ Seam y (p ++ z) (p' ++ z) ∧ Space g (y ++ (p' ++ z))) ∨
    ∃ g', g' ++ r = x ++ (p' ++ z) ∧ g' ≠ [] ∧ Space g' r := by
  induction h with
  | @nil r h =>
    intro x e hx
    have e : r = x ++ (p ++ z) := e
    subst e
    exact .inl ⟨x, rfl, rfl, hx, .nil fun h' => h ((h'.cut hx.brk.ne (hx.brk.no _)).ext)⟩
  | @blank c g r hc hg ih =>
    intro x e hx
    obtain ⟨x1, rfl, e1, hx1⟩ := hx.char e (by rcases hc with rfl | rfl <;> decide)
    rcases ih hr x1 e1 hx1 with ⟨y, rfl, h1, h2, h3⟩ | ⟨g', h1, h2, h3⟩
    · exact .inl ⟨y, rfl, h1, h2, .blank hc h3⟩
    · exact .inr ⟨c :: g', by simp [h1], by simp, .blank hc h3⟩
  | @continuation w n l g r hw hn hl hg ih =>
    intro x e hx
    obtain ⟨x1, rfl, e1, hx1⟩ := hx.before (a := '\\' :: w) (b := n ++ (l ++ (g ++ r))) (by simpa using e) (by
      intro c hc
      rcases List.mem_cons.1 hc with rfl | hc
      · decide
      · rcases hw c hc with rfl | rfl <;> decide)
    obtain ⟨x2, rfl, e2, hx2, hn2⟩ := hx1.line e1 hn
    rcases skip_seam hs hl (not_bare_space hg hr) x2 e2 hx2 with ⟨y, rfl, h1, h2⟩ | ⟨l', h1, rfl, h2⟩
    · have hly : SkipLines l (y ++ (p' ++ z)) := by
        refine ((h1 ▸ hl).cut y rfl).ext fun hb => blanks_noBreak hb h2.brk
      rcases ih hr y h1 h2 with ⟨y', rfl, h3, h4, h5⟩ | ⟨g', h3, h4, h5⟩
      · refine .inl ⟨y', by simp, h3, h4, .continuation hw ?_ ?_ h5⟩
        · simpa using hn2
        · simpa using hly
      · refine .inr ⟨'\\' :: (w ++ (n ++ (l ++ g'))), by simp [h3], by simp, .continuation hw ?_ ?_ h5⟩
        · rw [h3]; simpa using hn2
        · rw [h3]; exact hly
    · refine .inr ⟨'\\' :: (w ++ (n ++ ((x2 ++ (p' ++ l')) ++ g))), ?_, by simp, .continuation hw ?_ h2 hg⟩
      · rw [h1]; simp
      · rw [h1] at hn2; simpa using hn2

theorem gap_seam (hs : Swap f p p' z) {g r : Str} (h : Gap g r) (hr : ¬ (f = true ∧ Bare r)) {x : Str}
    (e : g ++ r = x ++ (p ++ z)) (hx : Seam x (p ++ z) (p' ++ z)) :
    (∃ y, x = g ++ y ∧ r = y ++ (p ++ z) ∧ Seam y (p ++ z) (p' ++ z) ∧ Gap g (y ++ (p' ++ z))) ∨
    ∃ g', g' ++ r = x ++ (p' ++ z) ∧ Gap g' r := by
  rcases space_seam hs h.2 hr x e hx with ⟨y, h1, h2, h3, h4⟩ | ⟨g', h1, h2, h3⟩
  · exact .inl ⟨y, h1, h2, h3, h.1, h4⟩
  · exact .inr ⟨g', h1, h2, h3⟩

end

/-! ## words -/

section
variable {m m' : Str}

theorem word_seam {w r x : Str} (h : Word w r) (e : w ++ r = x ++ m) (hx : Seam x m m') :
    ∃ y, x = w ++ y ∧ r = y ++ m ∧ Seam y m m' ∧ Word w (y ++ m') := by
  obtain ⟨y, rfl, rfl, hy⟩ := hx.before e (fun c hc => (h.chars hc).1)
  exact ⟨y, rfl, rfl, hy, word_add (word_less h hy.brk) hy.brk⟩

theorem startsFlag_seam {y : Str} (hy : Seam y m m') (h : StartsFlag (y ++ m')) : StartsFlag (y ++ m) :=
  startsFlag_more (startsFlag_less h hy.brk) hy.brk

/-! ## texts in quotes -/

theorem quotedBody_append {q : Char} {a b : Str} (ha : QuotedBody q a) (hb : QuotedBody q b) : QuotedBody q (a ++ b) := by
  induction ha with
  | nil => exact hb
  | chr h1 h2 h3 h4 _ ih => exact .chr h1 h2 h3 h4 ih
  | escaped h _ ih => exact .escaped h ih
  | backslash h1 h2 h3 _ ih => exact .backslash h1 h2 h3 ih

theorem quotedBody_cut {q : Char} {s : Str} (h : QuotedBody q s) : ∀ a b, s = a ++ b → a.getLast? ≠ some '\\' →
    QuotedBody q a ∧ QuotedBody q b := by
  have last : ∀ {x y : Char} {a : Str}, (x :: y :: a).getLast? ≠ some '\\' → (y :: a).getLast? ≠ some '\\' := by
    intro x y a h; rwa [List.getLast?_cons_cons] at h
  induction h with
  | nil =>
    intro a b e _
    obtain ⟨rfl, rfl⟩ := List.append_eq_nil_iff.1 e.symm
    exact ⟨.nil, .nil⟩
  | @chr c t h1 h2 h3 h4 ht ih =>
    intro a b e ha
    match a, e, ha with
    | [], e, _ => subst e; exact ⟨.nil, .chr h1 h2 h3 h4 ht⟩
    | [d], e, _ =>
      obtain ⟨e1, e2⟩ := List.cons.inj e
      have e2 : t = b := e2
      subst e1 e2
      exact ⟨.chr h1 h2 h3 h4 .nil, ht⟩
    | d :: d' :: a, e, ha =>
      obtain ⟨e1, e2⟩ := List.cons.inj e
      subst e1
      obtain ⟨g1, g2⟩ := ih (d' :: a) b e2 (last ha)
      exact ⟨.chr h1 h2 h3 h4 g1, g2⟩
  | @escaped c t h ht ih =>
    intro a b e ha
    match a, e, ha with
    | [], e, _ => subst e; exact ⟨.nil, .escaped h ht⟩
    | [d], e, ha => obtain ⟨e1, -⟩ := List.cons.inj e; subst e1; exact absurd rfl ha
    | [d, d'], e, _ =>
      obtain ⟨e1, e2⟩ := List.cons.inj e
      have e2 : c :: t = d' :: b := e2
      obtain ⟨e3, e4⟩ := List.cons.inj e2
      subst e1 e3 e4
      exact ⟨.escaped h .nil, ht⟩
    | d :: d' :: d'' :: a, e, ha =>
      obtain ⟨e1, e2⟩ := List.cons.inj e
      have e2 : c :: t = d' :: (d'' :: a ++ b) := e2
      obtain ⟨e3, e4⟩ := List.cons.inj e2
      subst e1 e3
      obtain ⟨g1, g2⟩ := ih (d'' :: a) b e4 (last (last ha))
      exact ⟨.escaped h g1, g2⟩
  | @backslash c t h1 h2 h3 ht ih =>
    intro a b e ha
    match a, e, ha with
    | [], e, _ => subst e; exact ⟨.nil, .backslash h1 h2 h3 ht⟩
    | [d], e, ha => obtain ⟨e1, -⟩ := List.cons.inj e; subst e1; exact absurd rfl ha
    | d :: d' :: a, e, ha =>
      obtain ⟨e1, e2⟩ := List.cons.inj e
      have e2 : c :: t = d' :: (a ++ b) := e2
      obtain ⟨e3, e4⟩ := List.cons.inj e2
      subst e1 e3
      obtain ⟨g1, g2⟩ := ih (c :: a) b e2 (last ha)
      exact ⟨.backslash h1 h2 h3 g1, g2⟩

theorem BreakEnd.last {x : Str} (h : BreakEnd x) : x.getLast? ≠ some '\\' := by
  obtain ⟨u, c, rfl, hc⟩ := h
  rw [List.getLast?_append]
  simp only [List.getLast?_singleton, Option.some_or, ne_eq, Option.some.injEq]
  rintro rfl
  exact absurd hc (by decide)

theorem mild_end {p : Str} (h : Unquoted p) (he : p = [] ∨ BreakEnd p) : Mild p :=
  ⟨h, he.elim (fun h => by rw [h]; simp) BreakEnd.last⟩

/-- a text without quotes and forbidden characters can be inside of quotes -/
theorem quotedBody_calm {q : Char} (hq : q = '"' ∨ q = '\'') : ∀ {p : Str}, Mild p → QuotedBody q p := by
  have main : ∀ (n : Nat) (p : Str), p.length ≤ n → Unquoted p → p.getLast? ≠ some '\\' → QuotedBody q p := by
    intro n
    induction n with
    | zero =>
      intro p hn _ _
      obtain rfl := List.length_eq_zero_iff.1 (Nat.le_zero.1 hn)
      exact .nil
    | succ n ih =>
      intro p hn h he
      match p, hn, h, he with
      | [], _, _, _ => exact .nil
      | [c], _, h, he =>
        have hc := h c (by simp)
        have hcq : c ≠ q := by
          rcases hq with rfl | rfl
          · exact hc.1
          · exact hc.2.1
        exact .chr hcq (fun e => he (by rw [e]; rfl)) hc.2.2.1 hc.2.2.2 .nil
      | c :: d :: p, hn, h, he =>
        have hc := h c (by simp)
        have hd := h d (by simp)
        have hp : Unquoted (d :: p) := fun x hx => h x (List.mem_cons_of_mem _ hx)
        have hl : (d :: p).length ≤ n := by simpa using hn
        have he' : (d :: p).getLast? ≠ some '\\' := by rwa [List.getLast?_cons_cons] at he
        by_cases hb : c = '\\'
        · subst hb
          by_cases hd' : d = '\\'
          · subst hd'
            refine .escaped (.inr (.inr rfl)) (ih p ?_ (fun e he => hp e (by simp [he])) ?_)
            · have : p.length + 1 ≤ n := by simpa using hl
              omega
            · cases p with
              | nil => simp
              | cons e p => rwa [List.getLast?_cons_cons] at he'
          · exact .backslash hd.1 hd.2.1 hd' (ih (d :: p) hl hp he')
        · refine .chr ?_ hb hc.2.2.1 hc.2.2.2 (ih (d :: p) hl hp he')
          rcases hq with rfl | rfl
          · exact hc.1
          · exact hc.2.1
  exact fun {p} h => main _ p (Nat.le_refl _) h.1 h.2

end

section
variable {f : Bool} {p p' z : Str}

theorem quoted_seam (hq : Mild p) (hq' : Mild p')
    {v r x : Str} (h : QuotedText v) (e : v ++ r = x ++ (p ++ z)) (hx : Seam x (p ++ z) (p' ++ z)) :
    (∃ y, x = v ++ y ∧ r = y ++ (p ++ z) ∧ Seam y (p ++ z) (p' ++ z)) ∨
    ∃ v', v' ++ r = x ++ (p' ++ z) ∧ QuotedText v' := by
  obtain ⟨q, b, rfl, hqq, hb⟩ := h
  have hqb : ¬ (q = '\n' ∨ q = '\r') := by rcases hqq with rfl | rfl <;> decide
  obtain ⟨x, rfl, e, hx⟩ := hx.char (b := b ++ [q] ++ r) (by simpa using e) hqb
  rcases List.append_eq_append_iff.1 e with ⟨y, rfl, e2⟩ | ⟨y, e1, e2⟩
  · left
    refine ⟨y, rfl, e2, hx.right ?_⟩
    rintro rfl
    obtain ⟨u, c, e3, hc⟩ := hx.brk
    rw [List.append_nil] at e3
    obtain rfl : q = c := by simpa using List.append_inj_right' e3 rfl
    exact hqb hc
  · right
    have e2 : y ++ r = p ++ z := e2.symm
    -- the closing quote is after the line break
    by_cases hy : y = []
    · subst hy
      exfalso
      rw [List.append_nil] at e1
      obtain ⟨u, c, e3, hc⟩ := hx.brk
      rw [e3] at e1
      obtain rfl : q = c := by simpa using List.append_inj_right' e1 rfl
      exact hqb hc
    obtain ⟨b2, rfl⟩ : ∃ b2, y = b2 ++ [q] := by
      refine ⟨y.dropLast, ?_⟩
      have h1 := List.dropLast_concat_getLast hy
      have h2 := congrArg List.getLast? e1
      rw [List.getLast?_append, List.getLast?_append, List.getLast?_eq_some_getLast hy] at h2
      simp only [List.getLast?_singleton, Option.some.injEq, Option.some_or] at h2
      rw [← h2] at h1
      exact h1.symm
    have e1 : b = x ++ b2 := List.append_inj_left' (by rw [e1]; simp) rfl
    subst e1
    obtain ⟨b3, rfl, rfl⟩ : ∃ b3, b2 = p ++ b3 ∧ z = b3 ++ ([q] ++ r) := by
      rw [List.append_assoc] at e2
      rcases List.append_eq_append_iff.1 e2 with ⟨u, rfl, e3⟩ | ⟨u, rfl, e3⟩
      · cases u with
        | nil => exact ⟨[], by simp, e3.symm⟩
        | cons c u =>
          exfalso
          obtain ⟨rfl, -⟩ := List.cons.inj e3
          have := hq.1 q (by simp)
          rcases hqq with rfl | rfl
          · exact this.1 rfl
          · exact this.2.1 rfl
      · exact ⟨u, rfl, e3⟩
    obtain ⟨h1, h2⟩ := quotedBody_cut hb x _ rfl hx.brk.last
    have h3 : QuotedBody q b3 := (quotedBody_cut h2 p _ rfl hq.2).2
    refine ⟨q :: ((x ++ (p' ++ b3)) ++ [q]), by simp, q, _, rfl, hqq, ?_⟩
    exact quotedBody_append h1 (quotedBody_append (quotedBody_calm hqq hq') h3)

theorem noQuoted_seam (hq : Mild p) (hq' : Mild p') {x : Str}
    (hx : Seam x (p ++ z) (p' ++ z)) (h : NoQuoted (x ++ (p ++ z))) : NoQuoted (x ++ (p' ++ z)) := by
  intro t r e ht
  rcases quoted_seam hq' hq ht e.symm hx.symm with ⟨y, rfl, -, -⟩ | ⟨v, h1, h2⟩
  · exact h t (y ++ (p ++ z)) (by simp) ht
  · exact h v r h1.symm h2

/-! ## arrays -/

theorem comma {r : Str} : ¬ (f = true ∧ Bare (',' :: r)) := not_bare_char (by unfold IsAlpha; decide) (by decide)
theorem close {r : Str} : ¬ (f = true ∧ Bare (']' :: r)) := not_bare_char (by unfold IsAlpha; decide) (by decide)

theorem elems_seam (hs : Swap f p p' z) (hq : Mild p) (hq' : Mild p')
    {es : List Elem} {r : Str} (h : ElemsFit es r) : ∀ x, elemsText es ++ r = x ++ (p ++ z) →
    Seam x (p ++ z) (p' ++ z) →
    (∃ y, x = elemsText es ++ y ∧ r = y ++ (p ++ z) ∧ Seam y (p ++ z) (p' ++ z) ∧ ElemsFit es (y ++ (p' ++ z))) ∨
    ∃ es', elemsText es' ++ r = x ++ (p' ++ z) ∧ ElemsFit es' r := by
  induction es with
  | nil => intro x e hx; exact .inl ⟨x, rfl, e, hx, trivial⟩
  | cons v es ih =>
    intro x e hx
    obtain ⟨⟨h1, h2, h3⟩, h4⟩ := h
    rcases space_seam hs h1 comma x (by simpa [elemsText, Elem.text] using e) hx with ⟨x1, rfl, e1, hx1, s1⟩ | ⟨g', e1, -, s1⟩
    · obtain ⟨x2, rfl, e2, hx2⟩ := hx1.char e1 (by decide)
      rcases space_seam hs h2 (not_bare_quoted h3) x2 (by simpa using e2) hx2 with ⟨x3, rfl, e3, hx3, s2⟩ | ⟨g', e3, -, s2⟩
      · rcases quoted_seam hq hq' h3 e3 hx3 with ⟨x4, rfl, e4, hx4⟩ | ⟨v', e4, s3⟩
        · rcases ih h4 x4 e4 hx4 with ⟨y, rfl, e5, hy, s4⟩ | ⟨es', e5, s4⟩
          · exact .inl ⟨y, by simp [elemsText, Elem.text], e5, hy, ⟨by simpa using s1, by simpa using s2, h3⟩, s4⟩
          · refine .inr ⟨v :: es', ?_, ⟨?_, ?_, h3⟩, s4⟩
            · simp only [elemsText, List.flatMap_cons, Elem.text] at e5 ⊢; simp [e5]
            · rw [e5]; simpa using s1
            · rw [e5]; simpa using s2
        · refine .inr ⟨⟨v.before, v.after, v'⟩ :: es, ?_, ⟨?_, ?_, s3⟩, h4⟩
          · simp only [elemsText, List.flatMap_cons, Elem.text] at e4 ⊢; simp [e4]
          · show Space v.before (',' :: (v.after ++ (v' ++ (elemsText es ++ r))))
            rw [e4]; simpa using s1
          · show Space v.after (v' ++ (elemsText es ++ r))
            rw [e4]; simpa using s2
      · refine .inr ⟨⟨v.before, g', v.value⟩ :: es, ?_, ⟨?_, s2, h3⟩, h4⟩
        · simp only [elemsText, List.flatMap_cons, Elem.text] at e3 ⊢; simp [e3]
        · show Space v.before (',' :: (g' ++ (v.value ++ (elemsText es ++ r))))
          rw [e3]; simpa using s1
    · refine .inr ⟨⟨g', v.after, v.value⟩ :: es, ?_, ⟨s1, h2, h3⟩, h4⟩
      simp only [elemsText, List.flatMap_cons, Elem.text] at e1 ⊢; simp [e1]

theorem array_seam (hs : Swap f p p' z) (hq : Mild p) (hq' : Mild p')
    {a : Array} {r x : Str} (h : a.Fits r) (e : a.text ++ r = x ++ (p ++ z)) (hx : Seam x (p ++ z) (p' ++ z)) :
    ∃ (a' : Array) (r' : Str), a'.text ++ r' = x ++ (p' ++ z) ∧ a'.Fits r' := by
  cases a with
  | empty g =>
    obtain ⟨x, rfl, e, hx⟩ := hx.char (b := g ++ ']' :: r) (by simpa [Array.text] using e) (by decide)
    rcases space_seam hs h close x e hx with ⟨y, rfl, e1, hy, s⟩ | ⟨g', e1, -, s⟩
    · obtain ⟨y, rfl, e2, hy⟩ := hy.char e1 (by decide)
      exact ⟨.empty g, y ++ (p' ++ z), by simp [Array.text], s⟩
    · exact ⟨.empty g', r, by simp [Array.text, e1], s⟩
  | full g v es c g' =>
    obtain ⟨h1, h2, h3, h4⟩ := h
    obtain ⟨x, rfl, e, hx⟩ := hx.char (b := g ++ (v ++ (elemsText es ++ (Array.tail c g' ++ r))))
      (by simpa [Array.text] using e) (by decide)
    rcases space_seam hs h1 (not_bare_quoted h2) x e hx with ⟨x1, rfl, e1, hx1, s1⟩ | ⟨g1, e1, -, s1⟩
    · rcases quoted_seam hq hq' h2 e1 hx1 with ⟨x2, rfl, e2, hx2⟩ | ⟨v', e2, s2⟩
      · rcases elems_seam hs hq hq' h3 x2 e2 hx2 with ⟨x3, rfl, e3, hx3, s3⟩ | ⟨es', e3, s3⟩
        · obtain ⟨x4, hx4, e4, e5⟩ : ∃ x4, Seam x4 (p ++ z) (p' ++ z) ∧ g' ++ ']' :: r = x4 ++ (p ++ z) ∧
              x3 = (if c then [','] else []) ++ x4 := by
            cases c with
            | false => exact ⟨x3, hx3, by simpa [Array.tail] using e3, rfl⟩
            | true =>
              obtain ⟨x4, rfl, e4, hx4⟩ := hx3.char (c := ',') (b := g' ++ ']' :: r) (by simpa [Array.tail] using e3) (by decide)
              exact ⟨x4, hx4, e4, rfl⟩
          rcases space_seam hs h4 close x4 e4 hx4 with ⟨y, rfl, e6, hy, s4⟩ | ⟨g2, e6, -, s4⟩
          · obtain ⟨y, rfl, e7, hy⟩ := hy.char e6 (by decide)
            subst e5
            refine ⟨.full g v es c g', y ++ (p' ++ z), by simp [Array.text, Array.tail], ?_, h2, ?_, s4⟩
            · simpa [Array.tail] using s1
            · simpa [Array.tail] using s3
          · subst e5
            have e8 : Array.tail c g2 ++ r = (if c then [','] else []) ++ x4 ++ (p' ++ z) := by
              simp only [Array.tail, List.append_assoc, ← e6]
              simp
            refine ⟨.full g v es c g2, r, ?_, ?_, h2, ?_, s4⟩
            · simp only [Array.text, List.cons_append, List.append_assoc, e8]
            · rw [e8]; simpa using s1
            · rw [e8]; exact s3
        · refine ⟨.full g v es' c g', r, ?_, ?_, h2, s3, h4⟩
          · simp only [Array.text, List.cons_append, List.append_assoc, e3]
          · rw [e3]; simpa using s1
      · refine ⟨.full g v' es c g', r, ?_, ?_, s2, h3, h4⟩
        · simp only [Array.text, List.cons_append, List.append_assoc, e2]
        · rw [e2]; exact s1
    · refine ⟨.full g1 v es c g', r, ?_, s1, h2, h3, h4⟩
      simp only [Array.text, List.cons_append, List.append_assoc, e1]

theorem noArray_seam (hs : Swap f p p' z) (hq : Mild p) (hq' : Mild p') {x : Str}
    (hx : Seam x (p ++ z) (p' ++ z)) (h : NoArray (x ++ (p ++ z))) : NoArray (x ++ (p' ++ z)) := by
  intro a r e ha
  obtain ⟨a', r', e', ha'⟩ := array_seam hs.symm hq' hq ha e.symm hx.symm
  exact h a' r' e'.symm ha'

/-! ## the start of an instruction -/

theorem flags_seam (hs : Swap false p p' z) {fs : List Flag} {r : Str} (h : FlagsFit fs r) :
    ∀ x, flagsText fs ++ r = x ++ (p ++ z) → Seam x (p ++ z) (p' ++ z) →
    (∃ y, x = flagsText fs ++ y ∧ r = y ++ (p ++ z) ∧ Seam y (p ++ z) (p' ++ z) ∧ FlagsFit fs (y ++ (p' ++ z))) ∨
    ∃ fs', flagsText fs' ++ r = x ++ (p' ++ z) ∧ FlagsFit fs' r := by
  induction fs with
  | nil => intro x e hx; exact .inl ⟨x, rfl, e, hx, trivial⟩
  | cons f fs ih =>
    intro x e hx
    obtain ⟨⟨h1, h2, h3, h4⟩, h5⟩ := h
    rcases gap_seam hs h1 not_bare_false (by simpa [flagsText, Flag.text] using e) hx with ⟨x1, rfl, e1, hx1, s1⟩ | ⟨g', e1, s1⟩
    · obtain ⟨x2, rfl, e2, hx2⟩ := hx1.before e1 (flagBody_chars h3 h4)
      have h4' : Word f.value (x2 ++ (p' ++ z)) := by
        rw [e2] at h4
        exact word_add (word_less h4 hx2.brk) hx2.brk
      rcases ih h5 x2 e2 hx2 with ⟨y, rfl, e3, hy, s2⟩ | ⟨fs', e3, s2⟩
      · exact .inl ⟨y, by simp [flagsText, Flag.text], e3, hy, ⟨by simpa using s1, h2, h3, by simpa using h4'⟩, s2⟩
      · refine .inr ⟨f :: fs', ?_, ⟨?_, h2, h3, ?_⟩, s2⟩
        · simp only [flagsText, List.flatMap_cons, Flag.text] at e3 ⊢; simp [e3]
        · rw [e3]; simpa using s1
        · rw [e3]; exact h4'
    · refine .inr ⟨⟨g', f.name, f.value⟩ :: fs, ?_, ⟨s1, h2, h3, h4⟩, h5⟩
      simp only [flagsText, List.flatMap_cons, Flag.text, Flag.body] at e1 ⊢; simpa using e1

theorem arg_seam (hs : Swap false p p' z) {f : Arg} {r x : Str} (h : f.Fits r)
    (e : f.text ++ r = x ++ (p ++ z)) (hx : Seam x (p ++ z) (p' ++ z)) :
    (∃ y, x = f.text ++ y ∧ r = y ++ (p ++ z) ∧ Seam y (p ++ z) (p' ++ z) ∧ f.Fits (y ++ (p' ++ z))) ∨
    ∃ g', (Arg.mk g' f.value).text ++ r = x ++ (p' ++ z) ∧ (Arg.mk g' f.value).Fits r := by
  rcases gap_seam hs h.1 not_bare_false (by simpa [Arg.text] using e) hx with ⟨x1, rfl, e1, hx1, s1⟩ | ⟨g', e1, s1⟩
  · obtain ⟨y, rfl, e2, hy, s2⟩ := word_seam h.2 e1 hx1
    exact .inl ⟨y, by simp [Arg.text], e2, hy, by simpa using s1, s2⟩
  · exact .inr ⟨g', by simpa [Arg.text] using e1, s1, h.2⟩

theorem begins_seam (hs : Swap false p p' z) {k x : Str} (h : Begins k (x ++ (p ++ z)))
    (hx : Seam x (p ++ z) (p' ++ z)) : Begins k (x ++ (p' ++ z)) := by
  unfold Begins at h ⊢
  split
  · rename_i hk
    rw [if_pos hk] at h
    obtain ⟨fs, g, c, r, e, h1, h2, h3, h4⟩ := h
    rcases flags_seam hs h1 x e.symm hx with ⟨x1, rfl, e1, hx1, s1⟩ | ⟨fs', e1, s1⟩
    · rcases gap_seam hs h2 not_bare_false e1 hx1 with ⟨x2, rfl, e2, hx2, s2⟩ | ⟨g', e2, s2⟩
      · cases x2 with
        | nil => exact absurd rfl hx2.brk.ne
        | cons c' x2 =>
          obtain ⟨rfl, rfl⟩ := List.cons.inj e2
          exact ⟨fs, g, c, x2 ++ (p' ++ z), by simp, by simpa using s1, s2, h3, fun h => h4 (startsFlag_seam hx2 h)⟩
      · exact ⟨fs, g', c, r, by simp [e2], by rw [e2]; exact s1, s2, h3, h4⟩
    · exact ⟨fs', g, c, r, e1.symm, s1, h2, h3, h4⟩
  rename_i hk1
  rw [if_neg hk1] at h
  split
  · rename_i hk
    rw [if_pos hk] at h
    obtain ⟨g, c, r, e, h1, h2⟩ := h
    rcases gap_seam hs h1 not_bare_false e.symm hx with ⟨x2, rfl, e2, hx2, s2⟩ | ⟨g', e2, s2⟩
    · cases x2 with
      | nil => exact absurd rfl hx2.brk.ne
      | cons c' x2 =>
        obtain ⟨rfl, rfl⟩ := List.cons.inj e2
        exact ⟨g, c, x2 ++ (p' ++ z), by simp, s2, h2⟩
    · exact ⟨g', c, r, e2.symm, s2, h2⟩
  rename_i hk2
  rw [if_neg hk2] at h
  split
  · rename_i hk
    rw [if_pos hk] at h
    obtain ⟨fs, a, b, r, e, h1, h2, h3, h4⟩ := h
    rcases flags_seam hs h1 x e.symm hx with ⟨x1, rfl, e1, hx1, s1⟩ | ⟨fs', e1, s1⟩
    · rcases arg_seam hs h2 e1 hx1 with ⟨x2, rfl, e2, hx2, s2⟩ | ⟨g', e2, s2⟩
      · have hf : ∀ u, u = x2 ++ (p' ++ z) → ¬ StartsFlag (a.value ++ u) := by
          rintro u rfl h
          have hav : Seam (a.value ++ x2) (p ++ z) (p' ++ z) :=
            Seam.right (a := a.gap) (by simpa [Arg.text] using hx1) (by simp [h2.2.1])
          refine h4 ?_
          rw [e2]
          simpa using startsFlag_seam hav (by simpa using h)
        rcases arg_seam hs h3 e2 hx2 with ⟨y, rfl, e3, hy, s3⟩ | ⟨g', e3, s3⟩
        · exact ⟨fs, a, b, y ++ (p' ++ z), by simp, by simpa using s1, by simpa using s2, s3, hf _ (by simp)⟩
        · exact ⟨fs, a, ⟨g', b.value⟩, r, by rw [e3]; simp, by rw [e3]; simpa using s1, by rw [e3]; exact s2, s3, hf _ e3⟩
      · exact ⟨fs, ⟨g', a.value⟩, b, r, by rw [e2]; simp, by rw [e2]; exact s1, s2, h3, h4⟩
    · exact ⟨fs', a, b, r, e1.symm, s1, h2, h3, h4⟩
  rename_i hk3
  rw [if_neg hk3] at h
  split
  · rename_i hk
    rw [if_pos hk] at h
    exact (h.cut hx.brk.ne (hx.brk.no _)).ext
  rename_i hk4
  rw [if_neg hk4] at h
  obtain ⟨g, r, e, h1, h2⟩ := h
  rcases gap_seam hs h1 not_bare_false e.symm hx with ⟨y, rfl, rfl, hy, s2⟩ | ⟨g', e2, s2⟩
  · exact ⟨g, y ++ (p' ++ z), by simp, s2, fun h => h2 (h.cut.ext hy.brk.ne)⟩
  · exact ⟨g', r, e2.symm, s2, h2⟩

end
end Src
end Verif
