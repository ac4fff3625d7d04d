import Verif.Proof.SrcDoc
import Verif.Proof.SwapItem
import Verif.Spec.Alike

/-!
# Texts that look alike are cut into lines in the same way
-/

namespace Verif
namespace Src
open Spec

local notation "A" => AlikeText

theorem Alike.rfl' (c : Char) : Alike c c := .inl rfl

theorem Alike.symm {c d : Char} : Alike c d → Alike d c
  | .inl h => .inl h.symm
  | .inr (.inl ⟨h1, h2, h3⟩) => .inr (.inl ⟨h2, h1, h3.symm⟩)
  | .inr (.inr (.inl ⟨h1, h2⟩)) => .inr (.inr (.inl ⟨h2, h1⟩))
  | .inr (.inr (.inr ⟨h1, h2, h3⟩)) => .inr (.inr (.inr ⟨h2, h1, h3.symm⟩))

theorem special_class {c : Char} (h : c ∈ special) : ¬ IsAlpha c ∧ ¬ IsDigit c := by
  have : ∀ c ∈ special, isAlpha c = false ∧ isDigit c = false := by decide
  obtain ⟨h1, h2⟩ := this c h
  refine ⟨fun h' => ?_, fun h' => ?_⟩
  · rw [isAlpha_iff.2 h'] at h1; cases h1
  · rw [isDigit_iff.2 h'] at h2; cases h2

theorem Alike.special {c d : Char} (h : Alike c d) (hc : c ∈ Src.special) : d = c := by
  rcases h with h | ⟨h, -⟩ | ⟨h, -⟩ | ⟨h, -⟩
  · exact h.symm
  · exact absurd h (special_class hc).1
  · exact absurd h (special_class hc).2
  · exact absurd hc h.2.2

theorem digit_not_alpha {c : Char} (h : IsDigit c) : ¬ IsAlpha c := by
  unfold IsDigit at h
  unfold IsAlpha
  simp only [Char.le_def, UInt32.le_iff_toNat_le] at *
  have e1 : '0'.val.toNat = 48 := by decide
  have e2 : '9'.val.toNat = 57 := by decide
  have e3 : 'a'.val.toNat = 97 := by decide
  have e4 : 'A'.val.toNat = 65 := by decide
  omega

theorem Alike.alpha {c d : Char} (h : Alike c d) (hc : IsAlpha c) : IsAlpha d ∧ lowerChar d = lowerChar c := by
  rcases h with rfl | ⟨-, h, e⟩ | ⟨h, -⟩ | ⟨h, -⟩
  · exact ⟨hc, rfl⟩
  · exact ⟨h, e.symm⟩
  · exact absurd hc (digit_not_alpha h)
  · exact absurd hc h.1

theorem Alike.digit {c d : Char} (h : Alike c d) (hc : IsDigit c) : IsDigit d := by
  rcases h with rfl | ⟨h, -⟩ | ⟨-, h⟩ | ⟨h, -⟩
  · exact hc
  · exact absurd h (digit_not_alpha hc)
  · exact h
  · exact absurd hc h.2.1

theorem Alike.eq {c d k : Char} (h : Alike c d) (hk : k ∈ Src.special) : c = k ↔ d = k := by
  constructor
  · rintro rfl; exact h.special hk
  · rintro rfl; exact h.symm.special hk

theorem Alike.word {c d : Char} (h : Alike c d) : IsWord c → IsWord d
  | .inl h1 => .inl (h.alpha h1).1
  | .inr (.inl h1) => .inr (.inl (h.digit h1))
  | .inr (.inr h1) => .inr (.inr ((h.eq (by decide)).1 h1))

theorem Alike.ident {c d : Char} (h : Alike c d) (hc : IsIdent c) : IsIdent d := by
  rcases hc with h1 | h1 | h1 | h1
  · exact .inl (h.alpha h1).1
  · exact .inr (.inl (h.digit h1))
  · exact .inr (.inr (.inl ((h.eq (by decide)).1 h1)))
  · exact .inr (.inr (.inr ((h.eq (by decide)).1 h1)))

theorem Alike.image {c d : Char} (h : Alike c d) (hc : IsImageChar c) : IsImageChar d := by
  unfold IsImageChar at hc ⊢
  rw [← h.eq (k := '_') (by decide), ← h.eq (k := '-') (by decide), ← h.eq (k := '.') (by decide),
    ← h.eq (k := ':') (by decide), ← h.eq (k := '/') (by decide), ← h.eq (k := '$') (by decide),
    ← h.eq (k := '{') (by decide), ← h.eq (k := '}') (by decide), ← h.eq (k := '@') (by decide)]
  rcases hc with h1 | h1 | h1
  · exact .inl (h.alpha h1).1
  · exact .inr (.inl (h.digit h1))
  · exact .inr (.inr h1)

theorem digit_size {c : Char} (h : IsDigit c) : c.utf8Size = 1 := by
  unfold IsDigit at h
  simp only [Char.le_def, UInt32.le_iff_toNat_le] at h
  have e2 : '9'.val.toNat = 57 := by decide
  have : c.val ≤ 127 := by
    rw [UInt32.le_iff_toNat_le]
    show c.val.toNat ≤ 127
    omega
  unfold Char.utf8Size
  exact if_pos this

theorem Alike.size {c d : Char} (h : Alike c d) : c.utf8Size = d.utf8Size := by
  rcases h with rfl | ⟨-, -, h⟩ | ⟨h1, h2⟩ | ⟨-, -, h⟩
  · rfl
  · rw [← utf8Size_lowerChar c, h, utf8Size_lowerChar]
  · rw [digit_size h1, digit_size h2]
  · exact h

/-! ## texts -/

theorem AlikeText.rfl' (x : Str) : A x x := by
  induction x with
  | nil => exact .nil
  | cons c x ih => exact .cons (.inl rfl) ih

theorem AlikeText.symm {x y : Str} (h : A x y) : A y x := by
  induction h with
  | nil => exact .nil
  | cons h _ ih => exact .cons h.symm ih

theorem AlikeText.append {x y x' y' : Str} (h : A x x') (h' : A y y') : A (x ++ y) (x' ++ y') := by
  induction h with
  | nil => exact h'
  | cons h _ ih => exact .cons h ih

theorem AlikeText.cut {x y z : Str} (h : A (x ++ y) z) : ∃ x' y', z = x' ++ y' ∧ A x x' ∧ A y y' := by
  induction x generalizing z with
  | nil => exact ⟨[], z, rfl, .nil, h⟩
  | cons c x ih =>
    cases h with
    | cons h1 h2 =>
      obtain ⟨x', y', rfl, h3, h4⟩ := ih h2
      exact ⟨_, y', rfl, .cons h1 h3, h4⟩

theorem AlikeText.cutc {c : Char} {y z : Str} (h : A (c :: y) z) : ∃ d y', z = d :: y' ∧ Alike c d ∧ A y y' := by
  cases h with
  | cons h1 h2 => exact ⟨_, _, rfl, h1, h2⟩

theorem AlikeText.cutk {c : Char} {y z : Str} (h : A (c :: y) z) (hc : c ∈ Src.special) : ∃ y', z = c :: y' ∧ A y y' := by
  obtain ⟨d, y', rfl, h1, h2⟩ := h.cutc
  rw [h1.special hc]
  exact ⟨y', rfl, h2⟩

theorem AlikeText.eq_nil {z : Str} (h : A [] z) : z = [] := by cases h; rfl

theorem AlikeText.eq_nil' {z : Str} (h : A z []) : z = [] := by cases h; rfl

theorem AlikeText.ne {x y : Str} (h : A x y) (hx : x ≠ []) : y ≠ [] := by
  rintro rfl; exact hx h.eq_nil'

theorem AlikeText.blen {x y : Str} (h : A x y) : blen x = blen y := by
  induction h with
  | nil => rfl
  | cons h _ ih => rw [blen_cons, blen_cons, ih, h.size]

/-- properties of characters that depend on the looks only -/
theorem AlikeText.all {P : Char → Prop} (hP : ∀ c d, Alike c d → P c → P d) {x y : Str} (h : A x y)
    (hx : ∀ c ∈ x, P c) : ∀ c ∈ y, P c := by
  induction h with
  | nil => nofun
  | cons h _ ih =>
    intro c hc
    rcases List.mem_cons.1 hc with rfl | hc
    · exact hP _ _ h (hx _ (by simp))
    · exact ih (fun d hd => hx d (by simp [hd])) c hc

theorem AlikeText.special {x y : Str} (h : A x y) (hx : ∀ c ∈ x, c ∈ Src.special) : y = x := by
  induction h with
  | nil => rfl
  | cons h _ ih =>
    rw [h.special (hx _ (by simp)), ih fun c hc => hx c (by simp [hc])]

theorem AlikeText.mem {x y : Str} (h : A x y) {k : Char} (hk : k ∈ Src.special) : k ∈ x ↔ k ∈ y := by
  induction h with
  | nil => simp
  | cons h _ ih =>
    rw [List.mem_cons, List.mem_cons, ih]
    constructor
    · rintro (h1 | h1)
      · exact .inl ((h.eq hk).1 h1.symm).symm
      · exact .inr h1
    · rintro (h1 | h1)
      · exact .inl ((h.eq hk).2 h1.symm).symm
      · exact .inr h1

theorem AlikeText.lower {x y : Str} (h : A x y) (hx : ∀ c ∈ lower x, IsAlpha c) : lower y = lower x := by
  induction h with
  | nil => rfl
  | @cons c d x y h _ ih =>
    have h1 : IsAlpha c := alpha_of_lower (hx (lowerChar c) (by simp [Verif.lower]))
    have h2 := ih fun c hc => hx c (by
      simp only [Verif.lower, List.map_cons, List.mem_cons]
      exact .inr hc)
    simp only [Verif.lower, List.map_cons] at h2 ⊢
    rw [h2, (h.alpha h1).2]

theorem AlikeText.keyword {x y k : Str} (h : A x y) (hx : Verif.lower x = k) (hk : ∀ c ∈ k, isAlpha c = true) :
    Verif.lower y = k := by
  rw [h.lower fun c hc => isAlpha_iff.1 (hk c (by rw [← hx]; exact hc)), hx]

theorem AlikeText.blanks {w w' : Str} (h : A w w') (hw : Blanks w) : w' = w :=
  h.special fun c hc => by rcases hw c hc with rfl | rfl <;> decide

theorem AlikeText.break {n n' r : Str} (h : A n n') (hn : LineBreak n r) : n' = n :=
  h.special fun c hc => by
    rcases hn with rfl | rfl | ⟨rfl, -⟩ <;> revert c <;> decide

theorem AlikeText.lineBreak {n n' r r' : Str} (h : A n n') (hr : A r r') (hn : LineBreak n r) : LineBreak n' r' := by
  rw [h.break hn]
  rcases hn with rfl | rfl | ⟨rfl, hn⟩
  · exact .inl rfl
  · exact .inr (.inl rfl)
  · refine .inr (.inr ⟨rfl, ?_⟩)
    rintro t rfl
    obtain ⟨t', rfl, -⟩ := hr.symm.cutk (by decide)
    exact hn t' rfl

theorem AlikeText.noBreak {x y : Str} (h : A x y) (hx : ∀ c ∈ x, c ≠ '\n' ∧ c ≠ '\r') :
    ∀ c ∈ y, c ≠ '\n' ∧ c ≠ '\r' :=
  h.all (P := fun c => c ≠ '\n' ∧ c ≠ '\r') (fun c d hcd hc => by
    rwa [ne_eq, ne_eq, ← hcd.eq (k := '\n') (by decide), ← hcd.eq (k := '\r') (by decide)]) hx

theorem AlikeText.comment {t t' : Str} (h : A t t') (ht : CommentText t) : CommentText t' := by
  obtain ⟨b, rfl, hb⟩ := ht
  obtain ⟨b', rfl, hh1⟩ := h.cutk (by decide)
  exact ⟨b', rfl, hh1.noBreak hb⟩

theorem AlikeText.eol {x y : Str} (h : A x y) (hx : Eol x) : Eol y := by
  rintro c b rfl
  obtain ⟨d, x', rfl, h1, -⟩ := h.symm.cutc
  rw [h1.eq (k := '\n') (by decide), h1.eq (k := '\r') (by decide)]
  exact hx d x' rfl

theorem AlikeText.continuation {x y : Str} (h : A x y) (hx : Continuation x) : Continuation y := by
  obtain ⟨w, n, t, rfl, hw, hn⟩ := hx
  obtain ⟨y1, rfl, hh2⟩ := h.cutk (by decide)
  obtain ⟨w', y2, rfl, h1, hh3⟩ := hh2.cut
  obtain ⟨n', t', rfl, h2, hh4⟩ := hh3.cut
  exact ⟨w', n', t', rfl, by rw [h1.blanks hw]; exact hw, h2.lineBreak hh4 hn⟩

theorem Alike.blank {c d : Char} (h : Alike c d) (hc : c = ' ' ∨ c = '\t') : d = ' ' ∨ d = '\t' := by
  rwa [← h.eq (k := ' ') (by decide), ← h.eq (k := '\t') (by decide)]

theorem AlikeText.startsSpace {x y : Str} (h : A x y) (hx : StartsSpace x) : StartsSpace y := by
  rcases hx with ⟨c, t, rfl, hc⟩ | hx
  · obtain ⟨d, t', rfl, h1, -⟩ := h.cutc
    exact .inl ⟨d, t', rfl, h1.blank hc⟩
  · exact .inr (h.continuation hx)

theorem AlikeText.skippable {x y : Str} (h : A x y) (hx : Skippable x) : Skippable y := by
  obtain ⟨w, v, rfl, hw, hv⟩ := hx
  obtain ⟨w', v', rfl, h1, hh5⟩ := h.cut
  refine ⟨w', v', rfl, by rw [h1.blanks hw]; exact hw, ?_⟩
  rcases hv with ⟨t, rfl⟩ | ⟨n, t, rfl, hn⟩
  · obtain ⟨t', rfl, -⟩ := hh5.cutk (by decide)
    exact .inl ⟨t', rfl⟩
  · obtain ⟨n', t', rfl, h2, hh6⟩ := hh5.cut
    exact .inr ⟨n', t', rfl, h2.lineBreak hh6 hn⟩

theorem AlikeText.skipLines {l r l' r' : Str} (hl : SkipLines l r) (h : A l l') (hr : A r r') : SkipLines l' r' := by
  induction hl generalizing l' with
  | nil hn => rw [h.eq_nil]; exact .nil fun h' => hn (hr.symm.skippable h')
  | blank hw hn _ ih =>
    obtain ⟨w', y, rfl, h1, hh7⟩ := h.cut
    obtain ⟨n', l', rfl, h2, hh8⟩ := hh7.cut
    exact .blank (by rw [h1.blanks hw]; exact hw) (h2.lineBreak (hh8.append hr) hn) (ih hh8 hr)
  | comment hw ht hn _ ih =>
    obtain ⟨w', y, rfl, h1, hh9⟩ := h.cut
    obtain ⟨t', y, rfl, h2, hh10⟩ := hh9.cut
    obtain ⟨n', l', rfl, h3, hh11⟩ := hh10.cut
    exact .comment (by rw [h1.blanks hw]; exact hw) (h2.comment ht) (h3.lineBreak (hh11.append hr) hn) (ih hh11 hr)
  | lastComment hw ht =>
    obtain ⟨w', y, rfl, h1, hh12⟩ := h.cut
    rw [hr.eq_nil]
    exact .lastComment (by rw [h1.blanks hw]; exact hw) (hh12.comment ht)

theorem AlikeText.space {g r g' r' : Str} (hg : Space g r) (h : A g g') (hr : A r r') : Space g' r' := by
  induction hg generalizing g' with
  | nil hn => rw [h.eq_nil]; exact .nil fun h' => hn (hr.symm.startsSpace h')
  | blank hc _ ih =>
    obtain ⟨d, g', rfl, h1, hh13⟩ := h.cutc
    exact .blank (h1.blank hc) (ih hh13 hr)
  | continuation hw hn hl _ ih =>
    obtain ⟨y, rfl, hh14⟩ := h.cutk (by decide)
    obtain ⟨w', y, rfl, h1, hh15⟩ := hh14.cut
    obtain ⟨n', y, rfl, h2, hh16⟩ := hh15.cut
    obtain ⟨l', g', rfl, h3, hh17⟩ := hh16.cut
    exact .continuation (by rw [h1.blanks hw]; exact hw) (h2.lineBreak (h3.append (hh17.append hr)) hn)
      (AlikeText.skipLines hl h3 (hh17.append hr)) (ih hh17 hr)

theorem AlikeText.gap {g r g' r' : Str} (h : A g g') (hr : A r r') (hg : Gap g r) : Gap g' r' :=
  ⟨h.ne hg.1, AlikeText.space hg.2 h hr⟩

theorem AlikeText.wordEnd {x y : Str} (h : A x y) : WordEnd x → WordEnd y :=
  Or.imp h.eol h.startsSpace

theorem AlikeText.word {w r w' r' : Str} (h : A w w') (hr : A r r') (hw : Word w r) : Word w' r' := by
  refine ⟨h.ne hw.1, fun a b e hb hh => ?_, hr.wordEnd hw.2.2⟩
  subst e
  obtain ⟨a0, b0, rfl, h1, h2⟩ := h.symm.cut
  exact hw.2.1 a0 b0 rfl (h2.ne hb) ((h2.append hr.symm).wordEnd hh)

theorem Alike.endsName {c d : Char} (h : Alike c d) (hc : EndsName c) : EndsName d := by
  unfold EndsName at hc ⊢
  rwa [← h.eq (k := ' ') (by decide), ← h.eq (k := '\t') (by decide), ← h.eq (k := '\n') (by decide),
    ← h.eq (k := '\r') (by decide), ← h.eq (k := '=') (by decide)]

theorem AlikeText.nameWord {w r w' r' : Str} (h : A w w') (hr : A r r') (hw : NameWord w r) : NameWord w' r' := by
  refine ⟨h.ne hw.1, h.all (P := fun c => ¬ EndsName c) (fun c d hcd hc hd => hc (hcd.symm.endsName hd)) hw.2.1, ?_⟩
  rintro c b rfl
  obtain ⟨d, x', rfl, h1, -⟩ := hr.symm.cutc
  exact h1.symm.endsName (hw.2.2 d x' rfl)

theorem AlikeText.quotedBody {q : Char} (hq : q = '"' ∨ q = '\'') {b b' : Str} (hb : QuotedBody q b) (h : A b b') :
    QuotedBody q b' := by
  have hq : q ∈ Src.special := by rcases hq with rfl | rfl <;> decide
  induction hb generalizing b' with
  | nil => rw [h.eq_nil]; exact .nil
  | chr h1 h2 h3 h4 _ ih =>
    obtain ⟨d, t', rfl, hd, hh18⟩ := h.cutc
    exact .chr (fun e => h1 ((hd.eq hq).2 e)) (fun e => h2 ((hd.eq (by decide)).2 e))
      (fun e => h3 ((hd.eq (by decide)).2 e)) (fun e => h4 ((hd.eq (by decide)).2 e)) (ih hh18)
  | escaped hc _ ih =>
    obtain ⟨y, rfl, hh19⟩ := h.cutk (by decide)
    obtain ⟨y, rfl, hh20⟩ := hh19.cutk (by rcases hc with rfl | rfl | rfl <;> decide)
    exact .escaped hc (ih hh20)
  | backslash h1 h2 h3 _ ih =>
    obtain ⟨y, rfl, hh21⟩ := h.cutk (by decide)
    obtain ⟨d, t', rfl, hd, h'⟩ := hh21.cutc
    exact .backslash (fun e => h1 ((hd.eq (by decide)).2 e)) (fun e => h2 ((hd.eq (by decide)).2 e))
      (fun e => h3 ((hd.eq (by decide)).2 e)) (ih hh21)

theorem AlikeText.quoted {t t' : Str} (h : A t t') (ht : QuotedText t) : QuotedText t' := by
  obtain ⟨q, b, rfl, hq, hb⟩ := ht
  have hs : q ∈ Src.special := by rcases hq with rfl | rfl <;> decide
  obtain ⟨y, rfl, hh22⟩ := h.cutk hs
  obtain ⟨b', z, rfl, h1, hh23⟩ := hh22.cut
  obtain ⟨e, rfl, hh24⟩ := hh23.cutk hs
  rw [hh24.eq_nil]
  exact ⟨q, b', rfl, hq, AlikeText.quotedBody hq hb h1⟩

theorem AlikeText.noQuoted {x y : Str} (h : A x y) (hx : NoQuoted x) : NoQuoted y := by
  rintro t r rfl ht
  obtain ⟨t', r', rfl, h1, -⟩ := h.symm.cut
  exact hx t' r' rfl (h1.quoted ht)

theorem AlikeText.alphas {x y : Str} (h : A x y) : (∀ c ∈ x, IsAlpha c) → ∀ c ∈ y, IsAlpha c :=
  h.all fun _ _ hcd hc => (hcd.alpha hc).1

theorem AlikeText.words {x y : Str} (h : A x y) : (∀ c ∈ x, IsWord c) → ∀ c ∈ y, IsWord c :=
  h.all fun _ _ hcd hc => hcd.word hc

theorem AlikeText.startsFlag {x y : Str} (h : A x y) (hx : StartsFlag x) : StartsFlag y := by
  obtain ⟨n, v, r, rfl, h1, h2, h3⟩ := hx
  obtain ⟨y, rfl, hh25⟩ := h.cutk (by decide)
  obtain ⟨y, rfl, hh26⟩ := hh25.cutk (by decide)
  obtain ⟨n', y, rfl, hn, hh27⟩ := hh26.cut
  obtain ⟨y, rfl, hh28⟩ := hh27.cutk (by decide)
  obtain ⟨v', r', rfl, hv, hh29⟩ := hh28.cut
  exact ⟨n', v', r', rfl, hn.ne h1, hn.alphas h2, hv.word hh29 h3⟩

/-! ## parts of lines -/

/-- lists of the same length with related elements -/
inductive Each {α : Type} (R : α → α → Prop) : List α → List α → Prop
  | nil : Each R [] []
  | cons {a b l m} : R a b → Each R l m → Each R (a :: l) (b :: m)

section
variable (B : Str → Str → Prop)

/-- Related parts of lines: fields are related by `B`, what is between them looks alike. -/
structure FlagR (f f' : Flag) : Prop where
  gap : A f.gap f'.gap
  name : B f.name f'.name
  value : B f.value f'.value

structure ArgR (f f' : Arg) : Prop where
  gap : A f.gap f'.gap
  value : B f.value f'.value

inductive ValueR : Value → Value → Prop
  | quoted {t t'} : B t t' → ValueR (.quoted t) (.quoted t')
  | bare {t t'} : B t t' → ValueR (.bare t) (.bare t')

structure PairR (f f' : Pair) : Prop where
  gap : A f.gap f'.gap
  name : ValueR B f.name f'.name
  value : ValueR B f.value f'.value

inductive ShellR : Shell → Shell → Prop
  | last {t t'} : B t t' → ShellR (.last t) (.last t')
  | lastComment {w w' t t' n n'} : A w w' → B t t' → A n n' →
      ShellR (.lastComment w t n) (.lastComment w' t' n')
  | more {t t' w w' n n' s s'} : B t t' → A w w' → A n n' → ShellR s s' →
      ShellR (.more t w n s) (.more t' w' n' s')
  | comment {w w' t t' n n' s s'} : A w w' → B t t' → A n n' → ShellR s s' →
      ShellR (.comment w t n s) (.comment w' t' n' s')

structure ElemR (e e' : Elem) : Prop where
  before : A e.before e'.before
  after : A e.after e'.after
  value : B e.value e'.value

inductive ArrayR : Array → Array → Prop
  | empty {g g'} : A g g' → ArrayR (.empty g) (.empty g')
  | full {g g' v v' es es' c k k'} : A g g' → B v v' → Each (ElemR B) es es' → A k k' →
      ArrayR (.full g v es c k) (.full g' v' es' c k')

inductive AliasR : Option AliasText → Option AliasText → Prop
  | none : AliasR none none
  | some {a a' : AliasText} : A a.gap a'.gap → A a.kw a'.kw → A a.gap' a'.gap' → B a.name a'.name →
      AliasR (some a) (some a')

inductive OptR : Option Value → Option Value → Prop
  | none : OptR none none
  | some {v v'} : ValueR B v v' → OptR (some v) (some v')

inductive ItemR : Item → Item → Prop
  | blank : ItemR .blank .blank
  | comment {t t'} : A t t' → ItemR (.comment t) (.comment t')
  | from {kw kw' fs fs' g g' i i' a a'} : A kw kw' → Each (FlagR B) fs fs' → A g g' → B i i' →
      AliasR B a a' → ItemR (.from kw fs g i a) (.from kw' fs' g' i' a')
  | arg {kw kw' g g' n n' v v'} : A kw kw' → A g g' → B n n' → OptR B v v' →
      ItemR (.arg kw g n v) (.arg kw' g' n' v')
  | label {kw kw' ps ps' t t'} : A kw kw' → Each (PairR B) ps ps' → A t t' →
      ItemR (.label kw ps t) (.label kw' ps' t')
  | label1 {kw kw' g g' n n' k k' v v'} : A kw kw' → A g g' → ValueR B n n' → A k k' → ValueR B v v' →
      ItemR (.label1 kw g n k v) (.label1 kw' g' n' k' v')
  | shell {k kw kw' g g' s s'} : A kw kw' → A g g' → ShellR B s s' →
      ItemR (.shell k kw g s) (.shell k kw' g' s')
  | exec {k kw kw' g g' a a'} : A kw kw' → A g g' → ArrayR B a a' →
      ItemR (.exec k kw g a) (.exec k kw' g' a')
  | copy {kw kw' fs fs' ss ss' d d'} : A kw kw' → Each (FlagR B) fs fs' → Each (ArgR B) ss ss' →
      ArgR B d d' → ItemR (.copy kw fs ss d) (.copy kw' fs' ss' d')
  | env {kw kw' ps ps' t t'} : A kw kw' → Each (PairR B) ps ps' → A t t' →
      ItemR (.env kw ps t) (.env kw' ps' t')
  | env1 {kw kw' g g' n n' k k' s s'} : A kw kw' → A g g' → B n n' → A k k' → ShellR B s s' →
      ItemR (.env1 kw g n k s) (.env1 kw' g' n' k' s')
  | env1q {kw kw' g g' n n' k k' v v'} : A kw kw' → A g g' → B n n' → A k k' → B v v' →
      ItemR (.env1q kw g n k v) (.env1q kw' g' n' k' v')
  | misc {w w' s s'} : B w w' → ShellR B s s' → ItemR (.misc w s) (.misc w' s')

structure LineR (l l' : Line) : Prop where
  indent : A l.indent l'.indent
  item : ItemR B l.item l'.item
  trail : A l.trail l'.trail

inductive LinesR : List (Str × Line) → List (Str × Line) → Prop
  | nil : LinesR [] []
  | cons {n n' m m' ms ms'} : A n n' → LineR B m m' → LinesR ms ms' →
      LinesR ((n, m) :: ms) ((n', m') :: ms')

end

/-! ## their texts -/

section
variable {B : Str → Str → Prop} (hB : ∀ x y, B x y → A x y)
include hB

theorem FlagR.text {f f' : Flag} (h : FlagR B f f') : A f.text f'.text :=
  h.gap.append (.cons (.inl rfl) (.cons (.inl rfl) ((hB _ _ h.name).append (.cons (.inl rfl) (hB _ _ h.value)))))

theorem FlagR.body {f f' : Flag} (h : FlagR B f f') : A f.body f'.body :=
  .cons (.inl rfl) (.cons (.inl rfl) ((hB _ _ h.name).append (.cons (.inl rfl) (hB _ _ h.value))))

omit hB in
theorem Each.text {α : Type} {R : α → α → Prop} {tx : α → Str} (hR : ∀ a b, R a b → A (tx a) (tx b))
    {l m : List α} (h : Each R l m) : A (l.flatMap tx) (m.flatMap tx) := by
  induction h with
  | nil => exact .nil
  | cons h _ ih => rw [List.flatMap_cons, List.flatMap_cons]; exact (hR _ _ h).append ih

omit hB in
theorem Each.append {α : Type} {R : α → α → Prop} {l m l' m' : List α} (h : Each R l m) (h' : Each R l' m') :
    Each R (l ++ l') (m ++ m') := by
  induction h with
  | nil => exact h'
  | cons h _ ih => exact .cons h ih

omit hB in
theorem Each.symm {α : Type} {R : α → α → Prop} (hR : ∀ a b, R a b → R b a) {l m : List α} (h : Each R l m) :
    Each R m l := by
  induction h with
  | nil => exact .nil
  | cons h _ ih => exact .cons (hR _ _ h) ih

theorem flagsR_text {fs fs' : List Flag} (h : Each (FlagR B) fs fs') : A (flagsText fs) (flagsText fs') :=
  h.text fun _ _ h => FlagR.text hB h

theorem ArgR.text {f f' : Arg} (h : ArgR B f f') : A f.text f'.text := h.gap.append (hB _ _ h.value)

theorem argsR_text {fs fs' : List Arg} (h : Each (ArgR B) fs fs') : A (argsText fs) (argsText fs') :=
  h.text fun _ _ h => ArgR.text hB h

theorem ValueR.text {v v' : Value} (h : ValueR B v v') : A v.text v'.text := by
  cases h with
  | quoted h => exact hB _ _ h
  | bare h => exact hB _ _ h

theorem PairR.body {f f' : Pair} (h : PairR B f f') : A f.body f'.body :=
  (h.name.text hB).append (.cons (.inl rfl) (h.value.text hB))

theorem PairR.text {f f' : Pair} (h : PairR B f f') : A f.text f'.text := h.gap.append (h.body hB)

theorem pairsR_text {fs fs' : List Pair} (h : Each (PairR B) fs fs') : A (pairsText fs) (pairsText fs') :=
  h.text fun _ _ h => PairR.text hB h

theorem ShellR.text {s s' : Shell} (h : ShellR B s s') : A s.text s'.text := by
  induction h with
  | last h => exact hB _ _ h
  | lastComment h1 h2 h3 => exact h1.append ((hB _ _ h2).append h3)
  | more h1 h2 h3 _ ih => exact (hB _ _ h1).append (.cons (.inl rfl) (h2.append (h3.append ih)))
  | comment h1 h2 h3 _ ih => exact h1.append ((hB _ _ h2).append (h3.append ih))

theorem ElemR.text {e e' : Elem} (h : ElemR B e e') : A e.text e'.text :=
  h.before.append (.cons (.inl rfl) (h.after.append (hB _ _ h.value)))

theorem elemsR_text {fs fs' : List Elem} (h : Each (ElemR B) fs fs') : A (elemsText fs) (elemsText fs') :=
  h.text fun _ _ h => ElemR.text hB h

omit hB in
theorem tail_A (c : Bool) {k k' : Str} (h : A k k') : A (Array.tail c k) (Array.tail c k') :=
  (AlikeText.rfl' _).append (h.append (AlikeText.rfl' _))

theorem ArrayR.text {a a' : Array} (h : ArrayR B a a') : A a.text a'.text := by
  cases h with
  | empty h => exact .cons (.inl rfl) (h.append (AlikeText.rfl' _))
  | full h1 h2 h3 h4 =>
    exact .cons (.inl rfl) (h1.append ((hB _ _ h2).append ((elemsR_text hB h3).append (tail_A _ h4))))

theorem AliasR.text {a a' : Option AliasText} (h : AliasR B a a') : A (aliasText a) (aliasText a') := by
  cases h with
  | none => exact .nil
  | some h1 h2 h3 h4 => exact h1.append (h2.append (h3.append (hB _ _ h4)))

theorem OptR.text {v v' : Option Value} (h : OptR B v v') : A (valueText v) (valueText v') := by
  cases h with
  | none => exact .nil
  | some h => exact .cons (.inl rfl) (h.text hB)

theorem ItemR.text {i i' : Item} (h : ItemR B i i') : A i.text i'.text := by
  cases h with
  | blank => exact .nil
  | comment h => exact h
  | «from» h1 h2 h3 h4 h5 =>
    exact h1.append ((flagsR_text hB h2).append (h3.append ((hB _ _ h4).append (h5.text hB))))
  | arg h1 h2 h3 h4 => exact h1.append (h2.append ((hB _ _ h3).append (h4.text hB)))
  | label h1 h2 h3 => exact h1.append ((pairsR_text hB h2).append h3)
  | label1 h1 h2 h3 h4 h5 => exact h1.append (h2.append ((h3.text hB).append (h4.append (h5.text hB))))
  | shell h1 h2 h3 => exact h1.append (h2.append (h3.text hB))
  | exec h1 h2 h3 => exact h1.append (h2.append (h3.text hB))
  | copy h1 h2 h3 h4 =>
    exact h1.append ((flagsR_text hB h2).append ((argsR_text hB h3).append (h4.text hB)))
  | env h1 h2 h3 => exact h1.append ((pairsR_text hB h2).append h3)
  | env1 h1 h2 h3 h4 h5 => exact h1.append (h2.append ((hB _ _ h3).append (h4.append (h5.text hB))))
  | env1q h1 h2 h3 h4 h5 => exact h1.append (h2.append ((hB _ _ h3).append (h4.append (hB _ _ h5))))
  | misc h1 h2 => exact (hB _ _ h1).append (h2.text hB)

theorem LineR.text {l l' : Line} (h : LineR B l l') : A l.text l'.text :=
  h.indent.append ((h.item.text hB).append h.trail)

theorem docR_text {ms ms' : List (Str × Line)} (h : LinesR B ms ms') {l l' : Line} (hl : LineR B l l') :
    A (docText l ms) (docText l' ms') := by
  induction h generalizing l l' with
  | nil => exact hl.text hB
  | cons h1 h2 _ ih => exact (hl.text hB).append (h1.append (ih h2))

end

end Src
end Verif
