import Verif.Proof.Logical

/-! Reading line by line (C88): the items. -/

namespace Verif
namespace Logical
open Spec Src

theorem Flat.blanks {ws : List Str} {y b : Str} (hb : Blanks b) (h : Flat ws y) : Flat ws (b ++ y) := by
  cases h with
  | nil h => exact .nil (blanks_append hb h)
  | cons h h' => rw [← List.append_assoc]; exact .cons (blanks_append hb h) h'

theorem Flat.append {ws ws' : List Str} {y y' : Str} (h : Flat ws y) (h' : Flat ws' y') : Flat (ws ++ ws') (y ++ y') := by
  induction h with
  | nil hb => exact h'.blanks hb
  | cons hb _ ih =>
    rw [List.append_assoc, List.append_assoc]
    exact .cons hb ih

theorem Flat.one {b : Str} (hb : Blanks b) (w : Str) : Flat [w] (b ++ w) := by
  have := Flat.cons (w := w) hb (Flat.nil blanks_none)
  rw [List.append_nil] at this
  exact this

/-- reading `g` in front of `R` from within a line; the words in `g` are `ws` -/
def Pass (R g : Str) (ws : List Str) : Prop := ∀ o x, Content x →
  ∃ o' x' j y, Scan R o x g o' x' j ∧ Content x' ∧ j ++ x' = x ++ y ∧ Flat ws y

/-- likewise, and the line can end there -/
def Done (R g : Str) (ws : List Str) : Prop := ∀ o x, Content x →
  ∃ o' x' j y, Scan R o x g o' x' j ∧ Content x' ∧ j ++ x' = x ++ y ∧ Flat ws y ∧ Ends x' R

theorem Pass.nil (R : Str) : Pass R [] [] := fun o x h => ⟨o, x, [], [], .nil, h, by simp, .nil blanks_none⟩

theorem Pass.append {R g g' ws ws'} (h : Pass (g' ++ R) g ws) (h' : Pass R g' ws') : Pass R (g ++ g') (ws ++ ws') := by
  intro o x hx
  obtain ⟨o1, x1, j1, y1, a1, a2, a3, a4⟩ := h o x hx
  obtain ⟨o2, x2, j2, y2, b1, b2, b3, b4⟩ := h' o1 x1 a2
  refine ⟨o2, x2, _, y1 ++ y2, a1.append rfl b1, b2, ?_, a4.append b4⟩
  rw [List.append_assoc, b3, ← List.append_assoc, a3, List.append_assoc]

theorem Pass.done {R g g' ws ws'} (h : Pass (g' ++ R) g ws) (h' : Done R g' ws') : Done R (g ++ g') (ws ++ ws') := by
  intro o x hx
  obtain ⟨o1, x1, j1, y1, a1, a2, a3, a4⟩ := h o x hx
  obtain ⟨o2, x2, j2, y2, b1, b2, b3, b4, b5⟩ := h' o1 x1 a2
  refine ⟨o2, x2, _, y1 ++ y2, a1.append rfl b1, b2, ?_, a4.append b4, b5⟩
  rw [List.append_assoc, b3, ← List.append_assoc, a3, List.append_assoc]

/-- a word that is read -/
def Good (w : Str) : Prop := Head w ∧ carried w = true ∧ ∀ t, w ≠ '\n' :: t ∧ w ≠ '\r' :: t

theorem good_one {w : Str} (h : Head w) (h' : OneLine w) : Good w :=
  ⟨h, h'.carried, fun t => ⟨by rintro rfl; exact (h' '\n' (by simp)).1 rfl, by rintro rfl; exact (h' '\r' (by simp)).2 rfl⟩⟩

theorem space_word {g w R : Str} (h : Src.Space g (w ++ R)) (hw : Good w) {o x} (hx : Content x) :
    ∃ o' x' j b, Scan R o x (g ++ w) o' x' j ∧ Content x' ∧ Blanks b ∧ j ++ x' = x ++ (b ++ onOne w) ∧ (Ends w R → Ends x' R) := by
  obtain ⟨o1, x1, j1, a1, a2⟩ := space_scan h (.inl hx)
  rcases a2 with ⟨hr, ⟨b, hb, e⟩, -⟩ | ⟨he, -⟩
  · obtain ⟨o2, x2, j2, b1, b2, b3⟩ := word_scan hw.1 hw.2.1 hr hw.2.2
    refine ⟨o2, x2, _, b, a1.append rfl b1, b2, hb, ?_, fun h => h.transfer hw.1.solid b1 b2⟩
    rw [List.append_assoc, b3, ← List.append_assoc, e, List.append_assoc]
  · exact absurd (List.append_eq_nil_iff.1 he).1 hw.1.ne

theorem pass_word {g w R : Str} (h : Src.Space g (w ++ R)) (hw : Good w) : Pass R (g ++ w) [onOne w] := by
  intro o x hx
  obtain ⟨o', x', j, b, h1, h2, h3, h4, -⟩ := space_word h hw (o := o) hx
  exact ⟨o', x', j, _, h1, h2, h4, .one h3 _⟩

theorem done_word {g w R : Str} (h : Src.Space g (w ++ R)) (hw : Good w) (he : Ends w R) : Done R (g ++ w) [onOne w] := by
  intro o x hx
  obtain ⟨o', x', j, b, h1, h2, h3, h4, h5⟩ := space_word h hw (o := o) hx
  exact ⟨o', x', j, _, h1, h2, h4, .one h3 _, h5 he⟩

/-- a word without space in front of it -/
theorem pass_word0 {w R : Str} (hw : Good w) : Pass R w [onOne w] := by
  intro o x hx
  obtain ⟨o', x', j, h1, h2, h3⟩ := word_scan hw.1 hw.2.1 (o := o) (.inl hx : Ready o x (w ++ R)) hw.2.2
  exact ⟨o', x', j, _, h1, h2, h3, by simpa using Flat.one blanks_none (onOne w)⟩

/-! ## kinds of words -/

theorem ends_last {a : Str} {c : Char} (h : ¬ (c = ' ' ∨ c = '\t')) (h' : c ≠ '\\') (R : Str) : Ends (a ++ [c]) R := by
  intro t n z ht _ _
  rw [List.append_assoc, List.singleton_append, continued_other ht _ h]
  simpa using h'

theorem concat_of_ne {w : Str} (h : w ≠ []) : ∃ a c, w = a ++ [c] :=
  ⟨w.dropLast, w.getLast h, (List.dropLast_concat_getLast h).symm⟩

/-- words over a class of ordinary characters -/
theorem over_word {P : Char → Prop} (hP : ∀ c, P c → ¬ (c = ' ' ∨ c = '\t') ∧ c ≠ '\n' ∧ c ≠ '\r' ∧ c ≠ '\\') {w : Str} (hn : w ≠ [])
    (h : ∀ c ∈ w, P c) : Head w ∧ OneLine w ∧ continued w = false ∧ ∀ R, Ends w R := by
  refine ⟨?_, fun c hc => ⟨(hP c (h c hc)).2.1, (hP c (h c hc)).2.2.1⟩, ?_, ?_⟩
  · cases w with
    | nil => exact absurd rfl hn
    | cons c t => exact ⟨c, t, rfl, (hP c (h c (by simp))).1⟩
  · obtain ⟨a, c, rfl⟩ := concat_of_ne hn
    have := hP c (h c (by simp))
    rw [continued_other blanks_none _ this.1]
    simpa using this.2.2.2
  · intro R
    obtain ⟨a, c, rfl⟩ := concat_of_ne hn
    have := hP c (h c (by simp))
    exact ends_last this.1 this.2.2.2 R

theorem alpha_plain (c : Char) (h : IsAlpha c) : ¬ (c = ' ' ∨ c = '\t') ∧ c ≠ '\n' ∧ c ≠ '\r' ∧ c ≠ '\\' := by
  unfold IsAlpha at h
  refine ⟨?_, ?_, ?_, ?_⟩
  · rintro (rfl | rfl) <;> revert h <;> decide
  all_goals rintro rfl; revert h; decide

theorem word_plain (c : Char) (h : IsWord c) : ¬ (c = ' ' ∨ c = '\t') ∧ c ≠ '\n' ∧ c ≠ '\r' ∧ c ≠ '\\' := by
  unfold IsWord IsAlpha IsDigit at h
  refine ⟨?_, ?_, ?_, ?_⟩
  · rintro (rfl | rfl) <;> revert h <;> decide
  all_goals rintro rfl; revert h; decide

theorem ident_plain (c : Char) (h : IsIdent c) : ¬ (c = ' ' ∨ c = '\t') ∧ c ≠ '\n' ∧ c ≠ '\r' ∧ c ≠ '\\' := by
  unfold IsIdent IsAlpha IsDigit at h
  refine ⟨?_, ?_, ?_, ?_⟩
  · rintro (rfl | rfl) <;> revert h <;> decide
  all_goals rintro rfl; revert h; decide

theorem image_plain (c : Char) (h : IsImageChar c) : ¬ (c = ' ' ∨ c = '\t') ∧ c ≠ '\n' ∧ c ≠ '\r' ∧ c ≠ '\\' := by
  unfold IsImageChar IsAlpha IsDigit at h
  refine ⟨?_, ?_, ?_, ?_⟩
  · rintro (rfl | rfl) <;> revert h <;> decide
  all_goals rintro rfl; revert h; decide

theorem word_head {w R : Str} (h : Word w R) : Head w := by
  obtain ⟨h1, h2, -⟩ := h
  cases w with
  | nil => exact absurd rfl h1
  | cons c t => exact ⟨c, t, rfl, fun hc => h2 [] _ rfl (by simp) (.inr (.inl ⟨c, _, rfl, hc⟩))⟩

theorem word_one {w R : Str} (h : Word w R) : OneLine w := by
  intro c hc
  obtain ⟨a, b, rfl⟩ := List.append_of_mem hc
  have := h.2.1 a (c :: b) rfl (by simp)
  refine ⟨?_, ?_⟩ <;>
  · rintro rfl
    refine this (.inl ?_)
    intro d e he
    rw [List.cons_append] at he
    rw [← (List.cons.inj he).1]
    decide

theorem word_ends {w R : Str} (h : Word w R) (p : Str) : Ends (p ++ w) R := by
  intro t n z ht hn e
  obtain ⟨a, c, rfl⟩ := concat_of_ne h.1
  have h1 := h.2.1 a [c] rfl (by simp)
  have hc : ¬ (c = ' ' ∨ c = '\t') := fun hc => h1 (.inr (.inl ⟨c, _, rfl, hc⟩))
  have hc' : c ≠ '\\' := by
    rintro rfl
    subst e
    exact h1 (.inr (.inr ⟨t, n, z, by simp, ht, hn⟩))
  rw [← List.append_assoc]
  exact ends_last hc hc' R t n z ht hn e

theorem quoted_head {t : Str} (h : QuotedText t) : Head t ∧ (∀ u, t ≠ '\n' :: u ∧ t ≠ '\r' :: u) := by
  obtain ⟨q, b, rfl, h, -⟩ := h
  refine ⟨⟨q, _, rfl, ?_⟩, fun u => ⟨?_, ?_⟩⟩
  · rcases h with rfl | rfl <;> decide
  all_goals
    intro e
    have := (List.cons.inj e).1
    subst this
    revert h; decide

theorem quoted_ends {t : Str} (h : QuotedText t) (p R : Str) : Ends (p ++ t) R := by
  obtain ⟨q, b, rfl, h, -⟩ := h
  have : p ++ q :: (b ++ [q]) = (p ++ q :: b) ++ [q] := by simp
  rw [this]
  refine ends_last ?_ ?_ R
  · rcases h with rfl | rfl <;> decide
  · rcases h with rfl | rfl <;> decide

theorem value_ends {v : Value} {R : Str} (h : v.Fits R) (p : Str) : Ends (p ++ v.text) R := by
  cases v with
  | quoted t => exact quoted_ends h p R
  | bare t => exact word_ends h.2 p

theorem value_head {v : Value} {R : Str} (h : v.Fits R) : Head v.text ∧ ∀ u, v.text ≠ '\n' :: u ∧ v.text ≠ '\r' :: u := by
  cases v with
  | quoted t => exact quoted_head h
  | bare t => exact ⟨word_head h.2, (good_one (word_head h.2) (word_one h.2)).2.2⟩

theorem name_head {v : Value} {R : Str} (h : v.FitsName R) : Head v.text ∧ ∀ u, v.text ≠ '\n' :: u ∧ v.text ≠ '\r' :: u := by
  cases v with
  | quoted t => exact quoted_head h
  | bare t =>
    obtain ⟨-, h1, h2, -⟩ := h
    have ho : OneLine t := fun c hc => ⟨fun e => h2 c hc (by subst e; simp [EndsName]), fun e => h2 c hc (by subst e; simp [EndsName])⟩
    have hh : Head t := by
      cases t with
      | nil => exact absurd rfl h1
      | cons c t => exact ⟨c, t, rfl, fun hc => h2 c (by simp) (by rcases hc with rfl | rfl <;> simp [EndsName])⟩
    exact ⟨hh, (good_one hh ho).2.2⟩

theorem starts_append {w : Str} (hn : w ≠ []) (h : ∀ u, w ≠ '\n' :: u ∧ w ≠ '\r' :: u) (t : Str) :
    ∀ u, w ++ t ≠ '\n' :: u ∧ w ++ t ≠ '\r' :: u := by
  cases w with
  | nil => exact absurd rfl hn
  | cons c w =>
    intro u
    refine ⟨fun e => (h w).1 ?_, fun e => (h w).2 ?_⟩ <;> rw [← (List.cons.inj e).1]

/-! ## lists of words -/

theorem flag_good {f : Src.Flag} {R : Str} (h : f.Fits R) : Good f.body ∧ OneLine f.body := by
  obtain ⟨-, -, h2, h3⟩ := h
  have : OneLine f.body := by
    refine .cons (by decide) (by decide) (.cons (by decide) (by decide) (OneLine.append ?_ (.cons (by decide) (by decide) (word_one h3))))
    exact fun c hc => ⟨(alpha_plain c (h2 c hc)).2.1, (alpha_plain c (h2 c hc)).2.2.1⟩
  exact ⟨good_one ⟨'-', _, rfl, by decide⟩ this, this⟩

theorem flags_pass {fs : List Src.Flag} {R : Str} (h : FlagsFit fs R) : Pass R (Src.flagsText fs) (fs.map Src.Flag.body) := by
  induction fs with
  | nil => exact .nil R
  | cons f fs ih =>
    obtain ⟨hg, ho⟩ := flag_good h.1
    have := (pass_word h.1.1.2 hg).append (ih h.2)
    rw [ho.onOne] at this
    exact this

theorem arg_good {f : Arg} {R : Str} (h : f.Fits R) : Good f.value ∧ OneLine f.value :=
  ⟨good_one (word_head h.2) (word_one h.2), word_one h.2⟩

theorem args_pass {fs : List Arg} {d : Arg} {R : Str} (h : ArgsFit (fs ++ [d]) R) :
    Pass (d.text ++ R) (argsText fs) (fs.map Arg.value) ∧ d.Fits R := by
  induction fs with
  | nil => exact ⟨.nil _, by simpa [argsText] using h.1⟩
  | cons f fs ih =>
    obtain ⟨hg, ho⟩ := arg_good h.1
    obtain ⟨h1, h2⟩ := ih h.2
    have h3 : Src.Gap f.gap (f.value ++ (argsText fs ++ (d.text ++ R))) := by
      have := h.1.1
      simpa [argsText] using this
    have := (pass_word h3.2 hg).append h1
    rw [ho.onOne] at this
    exact ⟨this, h2⟩

theorem elems_pass {es : List Elem} {R : Str} (h : ElemsFit es R) (ht : ∀ e ∈ es, carried e.value = true) :
    Pass R (elemsText es) (elemWords es) := by
  induction es with
  | nil => exact .nil R
  | cons e es ih =>
    obtain ⟨⟨h1, h2, h3⟩, h4⟩ := h
    have hq : Good e.value := ⟨(quoted_head h3).1, ht e (by simp), (quoted_head h3).2⟩
    have hc : Good [','] := good_one ⟨',', _, rfl, by decide⟩ (.cons (by decide) (by decide) fun c hc => by cases hc)
    have p1 : Pass ((e.after ++ e.value) ++ (elemsText es ++ R)) (e.before ++ [',']) [onOne [',']] :=
      pass_word (by simpa using h1) hc
    have p2 := (p1.append (pass_word h2 hq)).append (ih h4 fun e he => ht e (by simp [he]))
    have e1 : onOne [','] = [','] := by decide
    rw [e1] at p2
    have : (e.before ++ [','] ++ (e.after ++ e.value)) ++ elemsText es = Src.elemsText (e :: es) := by
      simp [Src.elemsText, Elem.text]
    rw [this] at p2
    exact p2

theorem array_done {a : Src.Array} {g R : Str} (hg : Src.Space g (a.text ++ R)) (h : a.Fits R) (ht : arrayTidy a) :
    Done R (g ++ a.text) (arrayWords a) := by
  have ho : Good ['['] := good_one ⟨'[', _, rfl, by decide⟩ (.cons (by decide) (by decide) fun c hc => by cases hc)
  have hc : Good [']'] := good_one ⟨']', _, rfl, by decide⟩ (.cons (by decide) (by decide) fun c hc => by cases hc)
  have hm : Good [','] := good_one ⟨',', _, rfl, by decide⟩ (.cons (by decide) (by decide) fun c hc => by cases hc)
  have he : Ends [']'] R := ends_last (a := []) (by decide) (by decide) R
  have e1 : onOne ['['] = ['['] := by decide
  have e2 : onOne [']'] = [']'] := by decide
  have e3 : onOne [','] = [','] := by decide
  cases a with
  | empty g' =>
    have p1 : Pass ((g' ++ [']']) ++ R) (g ++ ['[']) [onOne ['[']] := pass_word (by simpa [Src.Array.text] using hg) ho
    have p2 := p1.done (done_word (R := R) (by simpa [Src.Array.Fits] using h) hc he)
    rw [e1, e2] at p2
    have : g ++ ['['] ++ (g' ++ [']']) = g ++ (Src.Array.empty g').text := by simp [Src.Array.text]
    rw [this] at p2
    exact p2
  | full g' v es c g2 =>
    obtain ⟨h1, h2, h3, h4⟩ := h
    have hv : Good v := ⟨(quoted_head h2).1, ht.1, (quoted_head h2).2⟩
    have p1 : Pass ((g' ++ v ++ elemsText es ++ Src.Array.tail c g2) ++ R) (g ++ ['[']) [onOne ['[']] :=
      pass_word (by simpa [Src.Array.text] using hg) ho
    have p2 : Pass ((elemsText es ++ Src.Array.tail c g2) ++ R) (g' ++ v) [onOne v] := pass_word (by simpa using h1) hv
    have p3 := elems_pass h3 ht.2
    have p4 : Done R (Src.Array.tail c g2) ((if c then [[',']] else []) ++ [[']']]) := by
      have q : Done R (g2 ++ [']']) [[']']] := by
        have := done_word (g := g2) (by simpa using h4) hc he
        rw [e2] at this
        exact this
      cases c with
      | false => simpa [Src.Array.tail] using q
      | true =>
        have := (pass_word0 (R := (g2 ++ [']']) ++ R) hm).done q
        rw [e3] at this
        simpa [Src.Array.tail] using this
    have p5 := p3.done p4
    have p6 := p2.done p5
    have p7 := (show Pass ((g' ++ v ++ (elemsText es ++ Src.Array.tail c g2)) ++ R) (g ++ ['[']) [onOne ['[']] by simpa using p1).done p6
    rw [e1] at p7
    have : g ++ ['['] ++ (g' ++ v ++ (elemsText es ++ Src.Array.tail c g2)) = g ++ (Src.Array.full g' v es c g2).text := by
      simp [Src.Array.text]
    rw [this] at p7
    exact p7

/-! ## shell text -/

theorem solid_or {t : Str} : Solid t ∨ Blanks t := by
  by_cases h : Solid t
  · exact .inl h
  · exact .inr fun c hc => Classical.byContradiction fun hn => h ⟨c, hc, hn⟩

theorem piece_ends {t R : Str} (h : Src.Shell.Piece t R) (hs : Solid t) (p : Str) : Ends (p ++ t) R := by
  intro b n z hb hn e
  obtain ⟨a, c, w, rfl, hc, hw⟩ := solid_last hs
  rw [← List.append_assoc, List.append_assoc, List.cons_append, continued_other (blanks_append hw hb) _ hc]
  have : c ≠ '\\' := by
    rintro rfl
    subst e
    exact h.2.2.1 a _ rfl (by simp) ⟨w ++ b, n, z, by simp, blanks_append hw hb, hn⟩
  simpa using this

theorem solid_first {y : Str} (h : Solid y) : ∃ w c t, y = w ++ c :: t ∧ Blanks w ∧ ¬ (c = ' ' ∨ c = '\t') := by
  induction y with
  | nil => obtain ⟨c, hc, -⟩ := h; cases hc
  | cons d y ih =>
    by_cases hd : d = ' ' ∨ d = '\t'
    · have : Solid y := by
        obtain ⟨c, hc, h⟩ := h
        rcases List.mem_cons.1 hc with rfl | hc
        · exact absurd hd h
        · exact ⟨c, hc, h⟩
      obtain ⟨w, c, t, rfl, hw, hc⟩ := ih this
      exact ⟨d :: w, c, t, rfl, fun e he => (List.mem_cons.1 he).elim (· ▸ hd) (hw e), hc⟩
    · exact ⟨[], d, y, rfl, blanks_none, hd⟩

theorem piece_content {t R : Str} (h : Src.Shell.Piece t R) (hs : Solid t) : Content t := by
  obtain ⟨w, c, u, rfl, hw, hc⟩ := solid_first hs
  refine ⟨w, c, u, rfl, hw, hc, ?_⟩
  rintro rfl
  exact h.2.2.2 w (u ++ R) hw (by simp)

theorem mark_scan {x w n g R : Str} {o o' x' j} (hw : Blanks w) (hx : Content (x ++ '\\' :: w)) (hn : LineBreak n (g ++ R))
    (h : Scan R true [] g o' x' j) : Scan R o x ('\\' :: (w ++ (n ++ g))) o' x' (x ++ j) := by
  have h1 : Scan (n ++ g ++ R) o x ('\\' :: w) o (x ++ '\\' :: w) [] :=
    Scan.chars (.cons (by decide) (by decide) (oneLine_blanks hw)) _ o x
  have h2 := Scan.brk (x := x ++ '\\' :: w) hn (goesOn_mark hw hx o x rfl) h
  rw [part_mark hx hw] at h2
  exact h1.append rfl h2

theorem end_scan {s : Src.Shell} {R : Str} (h : s.Fits R) (ht : shellEnd s) :
    ∃ x' j, Scan R true [] s.text true x' j ∧ Content x' ∧ Ends x' R ∧ j ++ x' = plain s := by
  induction s with
  | last t =>
    have hs : Solid t := solid_or.resolve_right ht
    exact ⟨t, [], Scan.chars h.1.2.1 R true [], piece_content h.1 hs, piece_ends h.1 hs [], rfl⟩
  | lastComment w t n => exact ht.elim
  | more t w n s ih =>
    obtain ⟨h1, h2, h3, h4⟩ := h
    obtain ⟨x', j, e1, e2, e3, e4⟩ := ih h4 ht
    have hx : Content (t ++ '\\' :: w) := content_or (solid_or.elim (fun hs => .inr (piece_content h1 hs)) .inl) (by decide) (by decide) w
    refine ⟨x', _, (Scan.chars h1.2.1 _ true []).append (g' := '\\' :: (w ++ (n ++ s.text))) rfl
      (mark_scan h2 hx h3 e1), e2, e3, ?_⟩
    rw [List.append_assoc, List.append_assoc, e4]; rfl
  | comment w t n s ih =>
    obtain ⟨h1, h2, h3, h4⟩ := h
    obtain ⟨x', j, e1, e2, e3, e4⟩ := ih h4 ht
    have hs : skipped (w ++ t) = true := by obtain ⟨b, rfl, -⟩ := h2; exact skipped_comment h1 b
    have s1 := Scan.chars (OneLine.append (oneLine_blanks h1) (comment_oneLine h2)) (n ++ s.text ++ R) true []
    have s2 := Scan.brk (x := w ++ t) h3 (goesOn_skip hs) e1
    rw [part_skip hs] at s2
    have := s1.append rfl s2
    rw [List.append_assoc] at this
    exact ⟨x', j, this, e2, e3, e4⟩

theorem shell_scan {s : Src.Shell} {R : Str} (h : s.Fits R) (ht : shellTidy s) {o x}
    (hx : (Content x ∧ continued x = false) ∨ (Ready o x (s.text ++ R) ∧ Head s.text)) :
    ∃ o' x' j, Scan R o x s.text o' x' j ∧ Content x' ∧ Ends x' R ∧ j ++ x' = x ++ plain s := by
  cases s with
  | last t =>
    have hc : Content (x ++ t) ∧ Ends (x ++ t) R := by
      rcases hx with ⟨h1, h2⟩ | ⟨h1, h2⟩
      · refine ⟨h1.append t, ?_⟩
        rcases solid_or (t := t) with hs | hb
        · exact piece_ends h.1 hs x
        · intro b n z hb' _ _
          rw [List.append_assoc, continued_blanks (blanks_append hb hb'), h2]
      · obtain ⟨c, u, e, hc⟩ := h2
        have e' : t = c :: u := e
        subst e'
        exact ⟨h1.word hc, piece_ends h.1 ⟨c, by simp, hc⟩ x⟩
    exact ⟨o, x ++ t, [], Scan.chars h.1.2.1 R o x, hc.1, hc.2, rfl⟩
  | lastComment w t n => exact ht.elim
  | more t w n s =>
    obtain ⟨h1, h2, h3, h4⟩ := h
    obtain ⟨x', j, e1, e2, e3, e4⟩ := end_scan h4 ht
    have hc : Content (x ++ t) := by
      rcases hx with ⟨h, -⟩ | ⟨h, h'⟩
      · exact h.append t
      · obtain ⟨c, u, e, hc⟩ := h'
        cases t with
        | nil => exact absurd rfl h1.1
        | cons d t =>
          have : d = c := (List.cons.inj e).1
          subst this
          exact Ready.word (r := '\\' :: (w ++ (n ++ (s.text ++ R)))) (by simpa [Src.Shell.text] using h) hc
    refine ⟨true, x', _, (Scan.chars h1.2.1 _ o x).append (g' := '\\' :: (w ++ (n ++ s.text))) rfl
      (mark_scan h2 (hc.append _) h3 e1), e2, e3, ?_⟩
    rw [List.append_assoc, List.append_assoc, e4]; simp [plain]
  | comment w t n s => exact ht.elim

/-! ## pairs -/

theorem pairs_scan {F : Pair → Str → Prop} (hF : ∀ p R, F p R → Src.Gap p.gap (p.body ++ R) ∧ (carried p.body = true → Good p.body) ∧ Ends p.body R)
    {ps : List Pair} {R : Str} (h : PairsFit F ps R) (ht : ∀ p ∈ ps, carried p.body = true) :
    ∀ {o x}, Content x → Ends x (Src.pairsText ps ++ R) →
      ∃ o' x' j y, Scan R o x (Src.pairsText ps) o' x' j ∧ Content x' ∧ j ++ x' = x ++ y ∧
        Flat (ps.map fun p => onOne p.body) y ∧ Ends x' R := by
  induction ps with
  | nil => intro o x hx he; exact ⟨o, x, [], [], .nil, hx, by simp, .nil blanks_none, he⟩
  | cons p ps ih =>
    intro o x hx he
    obtain ⟨h1, h2, h3⟩ := hF p _ h.1
    obtain ⟨o1, x1, j1, b, a1, a2, a3, a4, a5⟩ := space_word h1.2 (h2 (ht p (by simp))) (o := o) hx
    obtain ⟨o2, x2, j2, y, b1, b2, b3, b4, b5⟩ := ih h.2 (fun q hq => ht q (by simp [hq])) (o := o1) a2 (a5 h3)
    refine ⟨o2, x2, _, b ++ (onOne p.body ++ y), a1.append rfl b1, b2, ?_, .cons a3 b4, b5⟩
    rw [List.append_assoc, b3, ← List.append_assoc, a4]; simp

theorem label_pair (p : Pair) (R : Str) (h : p.FitsLabel R) :
    Src.Gap p.gap (p.body ++ R) ∧ (carried p.body = true → Good p.body) ∧ Ends p.body R := by
  obtain ⟨h1, h2, h3⟩ := h
  obtain ⟨k1, k2⟩ := name_head h2
  refine ⟨h1, fun hc => ⟨k1.append _, hc, starts_append k1.ne k2 _⟩, ?_⟩
  have := value_ends h3 (p.name.text ++ ['='])
  simpa [Pair.body] using this

theorem env_pair (p : Pair) (R : Str) (h : p.FitsEnv R) :
    Src.Gap p.gap (p.body ++ R) ∧ (carried p.body = true → Good p.body) ∧ Ends p.body R := by
  obtain ⟨h1, ⟨n, e, h2, h2'⟩, h3⟩ := h
  obtain ⟨k1, k2, -, -⟩ := over_word word_plain h2 h2'
  have e' : p.name.text = n := by rw [e]; rfl
  refine ⟨h1, fun hc => ⟨?_, hc, ?_⟩, ?_⟩
  · unfold Pair.body; rw [e']; exact k1.append _
  · unfold Pair.body; rw [e']; exact starts_append k1.ne (good_one k1 k2).2.2 _
  have := value_ends h3 (p.name.text ++ ['='])
  simpa [Pair.body] using this

theorem skip_not {l r : Str} (h : Src.SkipLines l r) : ¬ Skippable r ∨ r = [] := by
  induction h with
  | nil h => exact .inl h
  | blank _ _ _ ih => exact ih
  | comment _ _ _ _ ih => exact ih
  | lastComment _ _ => exact .inr rfl

theorem eol_break {r : Str} (h : Eol r) (hr : r ≠ []) : ∃ n z, r = n ++ z ∧ LineBreak n z := by
  cases r with
  | nil => exact absurd rfl hr
  | cons c r =>
    rcases h c r rfl with rfl | rfl
    · exact ⟨['\n'], r, rfl, .inl rfl⟩
    · cases r with
      | nil => exact ⟨['\r'], [], rfl, .inr (.inr ⟨rfl, fun r e => by cases e⟩)⟩
      | cons d r =>
        by_cases hd : d = '\n'
        · subst hd; exact ⟨['\r', '\n'], r, rfl, .inr (.inl rfl)⟩
        · exact ⟨['\r'], d :: r, rfl, .inr (.inr ⟨rfl, fun _ e => hd (List.cons.inj e).1⟩)⟩

theorem space_blanks {t r : Str} (h : Src.Space t r) (he : Eol r) (hr : r ≠ []) : Blanks t := by
  induction h with
  | nil _ => exact blanks_none
  | blank hc _ ih => exact fun d hd => (List.mem_cons.1 hd).elim (· ▸ hc) (ih he hr d)
  | @continuation w n l g r _ _ hl _ ih =>
    rcases skip_not hl with h | h
    · obtain ⟨m, z, e, hm⟩ := eol_break he hr
      exact absurd ⟨g, r, rfl, ih he hr, .inr ⟨m, z, e, hm⟩⟩ h
    · exact absurd (List.append_eq_nil_iff.1 h).2 hr

/-- the line ends here, or the text ends in a line that is left out -/
def Finish (R : Str) (o : Bool) (x j x0 y : Str) : Prop :=
  (Content x ∧ Ends x R ∧ j ++ x = x0 ++ y) ∨ (R = [] ∧ o = true ∧ skipped x = true ∧ j = x0 ++ y)

theorem ends_nil (x : Str) : Ends x [] := by
  intro t n z _ hn e
  have := (List.append_eq_nil_iff.1 (List.append_eq_nil_iff.1 e.symm).2).1
  subst this
  rcases hn with h | h | ⟨h, -⟩ <;> cases h

theorem trail_scan {t R : Str} (h : Src.Space t R) (he : Eol R) {o x} (hx : Content x) (hE : Ends x (t ++ R)) :
    ∃ o' x' j b, Scan R o x t o' x' j ∧ Blanks b ∧ Finish R o' x' j x b := by
  by_cases hr : R = []
  · subst hr
    obtain ⟨o', x', j, a1, a2⟩ := space_scan h (o := o) (x := x) (.inl hx)
    rcases a2 with ⟨-, ⟨b, hb, e⟩, hc⟩ | ⟨-, h1, h2, b, hb, e⟩
    · rcases hc with hc | ⟨ho, hb', ⟨b', k1, k2⟩ | ⟨k1, k2⟩⟩
      · exact ⟨o', x', j, b, a1, hb, .inl ⟨hc, ends_nil _, e⟩⟩
      · exact ⟨o', x', j, b', a1, k1, .inr ⟨rfl, ho, skipped_blank hb', k2⟩⟩
      · have := skipped_blank k1
        rw [hx.not_skipped] at this
        cases this
    · exact ⟨o', x', j, b, a1, hb, .inr ⟨rfl, h1, h2, e⟩⟩
  · have hb := space_blanks h he hr
    refine ⟨o, x ++ t, [], t, Scan.chars (oneLine_blanks hb) R o x, hb, .inl ⟨hx.append t, ?_, rfl⟩⟩
    intro t' n z ht hn e
    rw [List.append_assoc]
    exact hE (t ++ t') n z (blanks_append hb ht) hn (by rw [e, List.append_assoc])

/-! ## items -/

theorem kw_start {kw k : Str} (h : lower kw = k) (hk : k ∈ keywords) {i : Str} (hi : Blanks i) (R : Str) :
    Scan R false i kw false (i ++ kw) [] ∧ Content (i ++ kw) ∧ continued (i ++ kw) = false ∧ OneLine kw ∧ Content kw := by
  obtain ⟨h1, h2⟩ := kw_alpha h hk
  obtain ⟨k1, k2, k3, -⟩ := over_word alpha_plain h1 h2
  have hc : Content kw := by
    obtain ⟨c, t, rfl, hc⟩ := k1
    exact ⟨[], c, t, rfl, blanks_none, hc, by rintro rfl; exact absurd (h2 '#' (by simp)) (by unfold IsAlpha; decide)⟩
  refine ⟨Scan.chars k2 R false i, ?_, by rw [continued_prefix k1.solid]; exact k3, k2, hc⟩
  obtain ⟨w, c, t, rfl, hw, h⟩ := hc
  exact ⟨i ++ w, c, t, by simp, blanks_append hi hw, h⟩

/-- what is proved about an item with blanks `i` in front of it -/
def Reads (R i g : Str) (ws : List Str) : Prop :=
  ∃ o' x' j y, Scan R false i g o' x' j ∧ Finish R o' x' j i y ∧ Flat ws y

theorem kw_done {kw k : Str} (h : lower kw = k) (hk : k ∈ keywords) {i : Str} (hi : Blanks i) {R g : Str} {ws : List Str} (hd : Done R g ws) :
    Reads R i (kw ++ g) (kw :: ws) := by
  obtain ⟨h1, h2, -⟩ := kw_start h hk hi (g ++ R)
  obtain ⟨o', x', j, y, a1, a2, a3, a4, a5⟩ := hd false _ h2
  refine ⟨o', x', _, kw ++ y, h1.append rfl a1, .inl ⟨a2, a5, ?_⟩, .cons blanks_none a4⟩
  rw [List.nil_append, a3, List.append_assoc]

theorem kw_pairs {kw k : Str} (h : lower kw = k) (hk : k ∈ keywords) {i : Str} (hi : Blanks i) {R t : Str} {ps : List Pair}
    {F : Pair → Str → Prop} (hF : ∀ p R, F p R → Src.Gap p.gap (p.body ++ R) ∧ (carried p.body = true → Good p.body) ∧ Ends p.body R)
    (hp : PairsFit F ps (t ++ R)) (hs : Src.Space t R) (he : Eol R) (ht : ∀ p ∈ ps, carried p.body = true) :
    Reads R i (kw ++ (Src.pairsText ps ++ t)) (kw :: ps.map fun p => onOne p.body) := by
  obtain ⟨h1, h2, h3, -⟩ := kw_start h hk hi ((Src.pairsText ps ++ t) ++ R)
  have hE : Ends (i ++ kw) (Src.pairsText ps ++ (t ++ R)) := by
    intro b n z hb _ _
    rw [continued_blanks hb, h3]
  obtain ⟨o1, x1, j1, y1, a1, a2, a3, a4, a5⟩ := pairs_scan hF hp ht (o := false) h2 hE
  obtain ⟨o2, x2, j2, b, b1, b2, b3⟩ := trail_scan hs he (o := o1) a2 a5
  refine ⟨o2, x2, _, kw ++ (y1 ++ b), h1.append rfl (a1.append rfl b1), ?_, .cons blanks_none ?_⟩
  · rcases b3 with ⟨k1, k2, k3⟩ | ⟨k1, k2, k3, k4⟩
    · refine .inl ⟨k1, k2, ?_⟩
      rw [List.nil_append, List.append_assoc, k3, ← List.append_assoc, a3]; simp
    · refine .inr ⟨k1, k2, k3, ?_⟩
      rw [List.nil_append, k4, ← List.append_assoc, a3]; simp
  · have := a4.append (Flat.nil b2)
    rw [List.append_nil] at this
    exact this

/-- shell text after space -/
theorem space_shell {g R : Str} {s : Src.Shell} (h : Src.Gap g (s.text ++ R)) (hf : s.Fits R) (ht : shellTidy s) :
    Done R (g ++ s.text) [plain s] := by
  intro o x hx
  have hn : s.text ≠ [] := by
    cases s with
    | last t => exact hf.1.1
    | lastComment => exact ht.elim
    | more t w n s => simp [Src.Shell.text]
    | comment => exact ht.elim
  have hh : Head s.text := by
    cases hs : s.text with
    | nil => exact absurd hs hn
    | cons c t =>
      refine ⟨c, t, rfl, fun hc => ?_⟩
      have : ∀ {g r : Str}, Src.Space g r → ¬ StartsSpace r := by
        intro g r h
        induction h with
        | nil h => exact h
        | blank _ _ ih => exact ih
        | continuation _ _ _ _ ih => exact ih
      refine this h.2 (.inl ⟨c, t ++ R, by rw [hs]; rfl, hc⟩)
  obtain ⟨o1, x1, j1, a1, a2⟩ := space_scan h.2 (o := o) (.inl hx)
  rcases a2 with ⟨hr, ⟨b, hb, e⟩, -⟩ | ⟨he, -⟩
  · obtain ⟨o2, x2, j2, b1, b2, b3, b4⟩ := shell_scan hf ht (.inr ⟨hr, hh⟩)
    refine ⟨o2, x2, _, b ++ plain s, a1.append rfl b1, b2, ?_, .one hb _, b3⟩
    rw [List.append_assoc, b4, ← List.append_assoc, e, List.append_assoc]
  · exact absurd (List.append_eq_nil_iff.1 he).1 hn

theorem item_reads {it : Src.Item} {i R : Str} (hi : Blanks i) (h : it.Fits R) (ht : itemTidy it) (hn : isNote it = false) :
    Reads R i it.text (words it) := by
  cases it with
  | blank => cases hn
  | comment t => cases hn
  | «from» kw fs g im a =>
    obtain ⟨h1, h2, h3, h4, h5, h6⟩ := h
    refine kw_done h1 (by decide) hi ?_
    obtain ⟨k1, k2, k3, k4⟩ := over_word image_plain h4 h5
    cases a with
    | none =>
      have p1 : Pass ((g ++ im) ++ R) (Src.flagsText fs) (fs.map Src.Flag.body) := flags_pass (by simpa [Src.aliasText] using h2)
      have p2 : Done R (g ++ im) [onOne im] := done_word (by simpa [Src.aliasText] using h3.2) (good_one k1 k2) (k4 R)
      rw [k2.onOne] at p2
      have := p1.done p2
      simpa [Src.aliasText, aliasWords] using this
    | some a =>
      obtain ⟨q1, q2, q3, q4, q5⟩ := h6 a rfl
      obtain ⟨m1, m2, m3, m4⟩ := over_word ident_plain q4 q5
      obtain ⟨w1, w2⟩ : a.kw ≠ [] ∧ ∀ c ∈ a.kw, IsAlpha c := by
        constructor
        · intro e; rw [e] at q2; cases q2
        · intro c hc
          have : lowerChar c ∈ lower a.kw := List.mem_map_of_mem hc
          rw [q2] at this
          refine Src.alpha_of_lower (isAlpha_iff.1 ?_)
          have hall : ∀ d ∈ c!"as", isAlpha d = true := by decide
          exact hall _ this
      obtain ⟨n1, n2, n3, n4⟩ := over_word alpha_plain w1 w2
      have p1 : Pass ((g ++ im ++ (a.gap ++ a.kw) ++ (a.gap' ++ a.name)) ++ R) (Src.flagsText fs) (fs.map Src.Flag.body) :=
        flags_pass (by simpa [Src.aliasText, AliasText.text] using h2)
      have p2 : Pass (((a.gap ++ a.kw) ++ (a.gap' ++ a.name)) ++ R) (g ++ im) [onOne im] :=
        pass_word (by simpa [Src.aliasText, AliasText.text] using h3.2) (good_one k1 k2)
      have p3 : Pass ((a.gap' ++ a.name) ++ R) (a.gap ++ a.kw) [onOne a.kw] := pass_word (by simpa using q1.2) (good_one n1 n2)
      have p4 : Done R (a.gap' ++ a.name) [onOne a.name] := done_word q3.2 (good_one m1 m2) (m4 R)
      rw [k2.onOne] at p2
      rw [n2.onOne] at p3
      rw [m2.onOne] at p4
      have := (show Pass (((g ++ im) ++ ((a.gap ++ a.kw) ++ (a.gap' ++ a.name))) ++ R) _ _ by simpa using p1).done (p2.done (p3.done p4))
      simpa [Src.aliasText, aliasWords, AliasText.text] using this
  | arg kw g n v =>
    obtain ⟨h1, h2, h3, h4⟩ := h
    refine kw_done h1 (by decide) hi ?_
    obtain ⟨c, b, rfl, hc, hb⟩ := h3
    obtain ⟨k1, k2, -, k4⟩ := over_word word_plain (w := c :: b) (by simp) (fun d hd => by
      rcases List.mem_cons.1 hd with rfl | hd
      · exact .inl hc
      · exact hb d hd)
    refine done_word (by simpa using h2.2) ⟨k1.append _, ht, starts_append k1.ne (good_one k1 k2).2.2 _⟩ ?_
    cases v with
    | none => simpa [Src.valueText] using k4 R
    | some v =>
      have := value_ends (h4 v rfl) (c :: b ++ ['='])
      simpa [Src.valueText] using this
  | label kw ps t =>
    obtain ⟨h1, h2, h3, -, h5⟩ := h
    exact kw_pairs h1 (by decide) hi label_pair h2 h3 h5 ht
  | label1 kw g n g' v =>
    obtain ⟨h1, h2, h3, h4, h5⟩ := h
    refine kw_done h1 (by decide) hi ?_
    obtain ⟨k1, k2⟩ := name_head h3
    obtain ⟨m1, m2⟩ := value_head h5
    have p1 : Pass ((g' ++ v.text) ++ R) (g ++ n.text) [onOne n.text] := pass_word (by simpa using h2.2) ⟨k1, ht.1, k2⟩
    have p2 : Done R (g' ++ v.text) [onOne v.text] := done_word h4.2 ⟨m1, ht.2, m2⟩ (value_ends h5 [])
    have := p1.done p2
    simpa using this
  | shell k kw g s =>
    obtain ⟨h1, h2, h3, -⟩ := h
    exact kw_done h1 (by cases k <;> decide) hi (space_shell h2 h3 ht)
  | exec k kw g a =>
    obtain ⟨h1, h2, h3⟩ := h
    exact kw_done h1 (by cases k <;> decide) hi (array_done h2.2 h3 ht)
  | copy kw fs ss d =>
    obtain ⟨h1, h2, -, h4, -⟩ := h
    refine kw_done h1 (by decide) hi ?_
    obtain ⟨q1, q2⟩ := args_pass h4
    obtain ⟨hg, ho⟩ := arg_good q2
    have p1 : Pass ((Src.argsText ss ++ d.text) ++ R) (Src.flagsText fs) (fs.map Src.Flag.body) :=
      flags_pass (by simpa [Src.argsText] using h2)
    have p2 : Done R (d.gap ++ d.value) [onOne d.value] := done_word q2.1.2 hg (word_ends q2.2 [])
    rw [ho.onOne] at p2
    have := p1.done (q1.done p2)
    simpa [Src.Arg.text] using this
  | env kw ps t =>
    obtain ⟨h1, h2, h3, -, h5⟩ := h
    exact kw_pairs h1 (by decide) hi env_pair h2 h3 h5 ht
  | env1 kw g n g' s =>
    obtain ⟨h1, h2, h3, h4, h5, h6, -⟩ := h
    refine kw_done h1 (by decide) hi ?_
    obtain ⟨k1, k2, -, -⟩ := over_word word_plain h3 h4
    have p1 : Pass ((g' ++ s.text) ++ R) (g ++ n) [onOne n] := pass_word (by simpa using h2.2) (good_one k1 k2)
    rw [k2.onOne] at p1
    have := p1.done (space_shell h5 h6 ht)
    simpa using this
  | env1q kw g n g' v =>
    obtain ⟨h1, h2, h3, h4, h5, h6⟩ := h
    refine kw_done h1 (by decide) hi ?_
    obtain ⟨k1, k2, -, -⟩ := over_word word_plain h3 h4
    have p1 : Pass ((g' ++ v) ++ R) (g ++ n) [onOne n] := pass_word (by simpa using h2.2) (good_one k1 k2)
    rw [k2.onOne] at p1
    have p2 : Done R (g' ++ v) [onOne v] := done_word h5.2 ⟨(quoted_head h6).1, ht, (quoted_head h6).2⟩ (quoted_ends h6 [] R)
    have := p1.done p2
    simpa using this
  | misc w a =>
    obtain ⟨h1, h2, h3, -, -⟩ := h
    obtain ⟨k1, k2, k3, -⟩ := over_word alpha_plain h1 h2
    have hc : Content (i ++ w) := by
      obtain ⟨c, t, rfl, hc⟩ := k1
      exact ⟨i, c, t, rfl, hi, hc, by rintro rfl; exact absurd (h2 '#' (by simp)) (by unfold IsAlpha; decide)⟩
    obtain ⟨o', x', j, a1, a2, a3, a4⟩ := shell_scan h3 ht (o := false) (.inl ⟨hc, by rw [continued_prefix k1.solid]; exact k3⟩)
    refine ⟨o', x', _, w ++ plain a, (Scan.chars k2 (a.text ++ R) false i).append rfl a1, .inl ⟨a2, a3, ?_⟩, ?_⟩
    · rw [List.nil_append, a4, List.append_assoc]
    · have := Flat.one blanks_none (w ++ plain a)
      exact this

end Logical
end Verif
