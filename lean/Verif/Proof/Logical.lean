import Verif.Spec.Logical
import Verif.Proof.EditDoc


/-! Reading line by line (C88): lemmas. -/

namespace Verif
namespace Logical
open Spec Src

/-! ## lines -/

theorem blank_iff {c : Char} : isBlank c = true ↔ (c = ' ' ∨ c = '\t') := by simp [isBlank]

theorem dropWhile_blanks {w : Str} (h : Blanks w) (t : Str) : (w ++ t).dropWhile isBlank = t.dropWhile isBlank := by
  induction w with
  | nil => rfl
  | cons c w ih =>
    rw [List.cons_append, List.dropWhile_cons_of_pos (blank_iff.2 (h c (by simp)))]
    exact ih fun d hd => h d (by simp [hd])

theorem blanks_reverse {w : Str} (h : Blanks w) : Blanks w.reverse := fun c hc => h c (by simpa using hc)

theorem blanks_append {a b : Str} (ha : Blanks a) (hb : Blanks b) : Blanks (a ++ b) := fun c hc => by
  rcases List.mem_append.1 hc with h | h
  · exact ha c h
  · exact hb c h

theorem blanks_none : Blanks [] := fun _ h => by cases h

/-- the line starts with something that is neither blank nor a comment -/
def Content (x : Str) : Prop := ∃ w c t, x = w ++ c :: t ∧ Blanks w ∧ ¬ (c = ' ' ∨ c = '\t') ∧ c ≠ '#'

theorem Content.append {x : Str} (h : Content x) (y : Str) : Content (x ++ y) := by
  obtain ⟨w, c, t, rfl, h⟩ := h
  exact ⟨w, c, t ++ y, by simp, h⟩

theorem Content.not_skipped {x : Str} (h : Content x) : skipped x = false := by
  obtain ⟨w, c, t, rfl, h1, h2, h3⟩ := h
  unfold skipped
  rw [dropWhile_blanks h1, List.dropWhile_cons_of_neg (by rw [blank_iff]; exact h2)]
  simpa using h3

theorem skipped_blank {w : Str} (h : Blanks w) : skipped w = true := by
  unfold skipped
  have := dropWhile_blanks h []
  rw [List.append_nil] at this
  rw [this]
  rfl

theorem skipped_comment {w : Str} (h : Blanks w) (t : Str) : skipped (w ++ '#' :: t) = true := by
  unfold skipped
  rw [dropWhile_blanks h, List.dropWhile_cons_of_neg (by simp [isBlank])]
  rfl

theorem continued_mark {w : Str} (h : Blanks w) (a : Str) : continued (a ++ '\\' :: w) = true := by
  unfold continued
  rw [List.reverse_append, List.reverse_cons, List.append_assoc, dropWhile_blanks (blanks_reverse h),
    List.singleton_append, List.dropWhile_cons_of_neg (by simp [isBlank])]
  rfl

theorem stripped_mark {w : Str} (h : Blanks w) (a : Str) : stripped (a ++ '\\' :: w) = a := by
  unfold stripped
  rw [List.reverse_append, List.reverse_cons, List.append_assoc, dropWhile_blanks (blanks_reverse h),
    List.singleton_append, List.dropWhile_cons_of_neg (by simp [isBlank])]
  simp

/-- the last character other than blanks -/
theorem continued_other {w : Str} (h : Blanks w) (a : Str) {c : Char} (hc : ¬ (c = ' ' ∨ c = '\t')) :
    continued (a ++ c :: w) = (c == '\\') := by
  unfold continued
  rw [List.reverse_append, List.reverse_cons, List.append_assoc, dropWhile_blanks (blanks_reverse h),
    List.singleton_append, List.dropWhile_cons_of_neg (by rw [blank_iff]; exact hc)]

theorem continued_blanks {w : Str} (h : Blanks w) (a : Str) : continued (a ++ w) = continued a := by
  unfold continued
  rw [List.reverse_append, dropWhile_blanks (blanks_reverse h)]

theorem goesOn_mark {w x : Str} (hw : Blanks w) (h : Content x) (o : Bool) (y : Str) (e : x = y ++ '\\' :: w) : goesOn o x = true := by
  have h1 := h.not_skipped
  subst e
  have h2 := continued_mark hw y
  cases o <;> simp [goesOn, h1, h2]

theorem goesOn_skip {x : Str} (h : skipped x = true) : goesOn true x = true := by simp [goesOn, h]

theorem Content.ends {x : Str} (h : Content x) (hc : continued x = false) (o : Bool) : goesOn o x = false := by
  cases o <;> simp [goesOn, h.not_skipped, hc]

/-- blanks, then anything, or a content line -/
theorem content_or {x : Str} (h : Blanks x ∨ Content x) {c : Char} (hc : ¬ (c = ' ' ∨ c = '\t')) (h' : c ≠ '#') (t : Str) :
    Content (x ++ c :: t) := by
  rcases h with h | h
  · exact ⟨x, c, t, rfl, h, hc, h'⟩
  · exact h.append _

/-! ## reading a piece of text -/

/-- Reading `g` (in front of `r`) in a line that starts with `x`: the logical line does not end in `g`; then the
line starts with `x'`; `j` is what the lines before contribute. -/
inductive Scan : Str → Bool → Str → Str → Bool → Str → Str → Prop
  | nil {r o x} : Scan r o x [] o x []
  | char {r o x c g o' x' j} : c ≠ '\n' → c ≠ '\r' → Scan r o (x ++ [c]) g o' x' j → Scan r o x (c :: g) o' x' j
  | brk {r o x n g o' x' j} : LineBreak n (g ++ r) → goesOn o x = true → Scan r true [] g o' x' j →
      Scan r o x (n ++ g) o' x' (part x ++ j)

theorem Scan.append {g' r x2 j' : Str} {b : Bool} {R o x g o1 x1 j} (h : Scan R o x g o1 x1 j) (e : R = g' ++ r)
    (h' : Scan r o1 x1 g' b x2 j') : Scan r o x (g ++ g') b x2 (j ++ j') := by
  subst e
  induction h with
  | nil => exact h'
  | char h1 h2 _ ih => exact .char h1 h2 (ih h')
  | brk h1 h2 _ ih =>
    rw [List.append_assoc, List.append_assoc]
    exact .brk (by rw [List.append_assoc]; exact h1) h2 (ih h')

/-- no line breaks -/
def OneLine (t : Str) : Prop := ∀ c ∈ t, c ≠ '\n' ∧ c ≠ '\r'

theorem Scan.chars {g : Str} (h : OneLine g) (r : Str) (o : Bool) (x : Str) : Scan r o x g o (x ++ g) [] := by
  induction g generalizing x with
  | nil => rw [List.append_nil]; exact .nil
  | cons c g ih =>
    have := ih (fun d hd => h d (by simp [hd])) (x ++ [c])
    rw [List.append_assoc] at this
    exact .char (h c (by simp)).1 (h c (by simp)).2 this

theorem rowsFrom_char (x : Str) {c : Char} (h1 : c ≠ '\n') (h2 : c ≠ '\r') (s : Str) :
    rowsFrom x (c :: s) = rowsFrom (x ++ [c]) s := by
  conv => lhs; unfold rowsFrom
  split <;> simp_all

theorem rowsFrom_break (x : Str) {n s : Str} (h : LineBreak n s) : rowsFrom x (n ++ s) = ⟨x, n⟩ :: rowsFrom [] s := by
  rcases h with rfl | rfl | ⟨rfl, h⟩
  · simp [rowsFrom]
  · simp [rowsFrom]
  · show rowsFrom x ('\r' :: s) = _
    conv => lhs; unfold rowsFrom
    split
    · simp_all
    · simp_all
    · simp_all
    · simp_all
    · rename_i hne heq
      exact absurd (List.cons.inj heq).1.symm hne

theorem rowsFrom_ne (x s : Str) : rowsFrom x s ≠ [] := by
  unfold rowsFrom
  split <;> try simp
  rename_i c s _ _ _
  exact rowsFrom_ne _ s
termination_by s.length

/-- the text of rows -/
def textOf (rs : List Row) : Str := rs.flatMap fun r => r.line ++ r.brk

/-- what they contribute -/
def partsOf (rs : List Row) : Str := rs.flatMap fun r => part r.line

theorem groups_ne {o : Bool} {rs : List Row} (h : rs ≠ []) : groups o rs ≠ [] := by
  cases rs with
  | nil => exact absurd rfl h
  | cons r rs =>
    unfold groups
    split
    · unfold attach
      split <;> simp
    · simp

theorem attach_attach (a b : List Row) {gs : List (List Row)} (h : gs ≠ []) : attach a (attach b gs) = attach (a ++ b) gs := by
  cases gs with
  | nil => exact absurd rfl h
  | cons g gs => simp [attach]

theorem scan_groups {r o x g o' x' j} (h : Scan r o x g o' x' j) :
    ∃ pre, groups o (rowsFrom x (g ++ r)) = attach pre (groups o' (rowsFrom x' r)) ∧ textOf pre ++ x' = x ++ g ∧ partsOf pre = j ∧
      (o' = true → o = true ∨ pre ≠ []) := by
  induction h with
  | @nil o x =>
    refine ⟨[], ?_, by simp [textOf], rfl, .inl⟩
    have := groups_ne (o := o) (rowsFrom_ne x r)
    cases hg : groups o (rowsFrom x r) with
    | nil => exact absurd hg this
    | cons g gs => simp [attach, hg]
  | char h1 h2 _ ih =>
    obtain ⟨pre, e1, e2, e3, e4⟩ := ih
    exact ⟨pre, by rw [List.cons_append, rowsFrom_char _ h1 h2]; exact e1, by rw [e2]; simp, e3, e4⟩
  | @brk o x n g o' x' j h1 h2 _ ih =>
    obtain ⟨pre, e1, e2, e3, e4⟩ := ih
    refine ⟨⟨x, n⟩ :: pre, ?_, ?_, ?_, fun _ => .inr (by simp)⟩
    · rw [List.append_assoc, rowsFrom_break _ h1]
      show (if goesOn o x = true then _ else _) = _
      rw [if_pos h2, e1, attach_attach _ _ (groups_ne (rowsFrom_ne _ _))]
      rfl
    · have : textOf (⟨x, n⟩ :: pre) = x ++ n ++ textOf pre := rfl
      rw [this, List.append_assoc, e2]; simp
    · have : partsOf (⟨x, n⟩ :: pre) = part x ++ partsOf pre := rfl
      rw [this, e3]

theorem body_concat (pre : List Row) (r : Row) : body (pre ++ [r]) = textOf pre ++ r.line := by
  induction pre with
  | nil => simp [body, textOf]
  | cons a pre ih =>
    have : ∀ l : List Row, l ≠ [] → body (a :: l) = a.line ++ a.brk ++ body l := by
      intro l hl
      cases l with
      | nil => exact absurd rfl hl
      | cons b l => rfl
    rw [List.cons_append, this _ (by simp), ih]
    simp [textOf]

theorem joinedFrom_cons (o : Bool) (a : Row) {l : List Row} (hl : l ≠ []) :
    joinedFrom o (a :: l) = part a.line ++ joinedFrom true l := by
  cases l with
  | nil => exact absurd rfl hl
  | cons b l => rfl

theorem joined_concat (o : Bool) (pre : List Row) (r : Row) :
    joinedFrom o (pre ++ [r]) = partsOf pre ++ if (o || !pre.isEmpty) && skipped r.line then [] else r.line := by
  induction pre generalizing o with
  | nil => simp [joinedFrom, partsOf]
  | cons a pre ih =>
    rw [List.cons_append, joinedFrom_cons _ _ (by simp), ih]
    simp [partsOf]

theorem lastBreak_concat (pre : List Row) (r : Row) : lastBreak (pre ++ [r]) = r.brk := by
  induction pre with
  | nil => rfl
  | cons a pre ih =>
    have : ∀ l : List Row, l ≠ [] → lastBreak (a :: l) = lastBreak l := by
      intro l hl
      cases l with
      | nil => exact absurd rfl hl
      | cons b l => rfl
    rw [List.cons_append, this _ (by simp), ih]

/-- a logical line in front of a line break -/
theorem scan_line {n z x g o' x' j} (h : Scan (n ++ z) false x g o' x' j) (hn : LineBreak n z) (hg : goesOn o' x' = false)
    (hs : skipped x' = false) :
    ∃ G, groups false (rowsFrom x (g ++ (n ++ z))) = G :: groups false (rows z) ∧ body G = x ++ g ∧ lastBreak G = n ∧
      joined G = j ++ x' := by
  obtain ⟨pre, e1, e2, e3, -⟩ := scan_groups h
  refine ⟨pre ++ [⟨x', n⟩], ?_, by rw [body_concat]; exact e2, lastBreak_concat _ _,
    by rw [joined, joined_concat, e3]; simp [hs]⟩
  rw [e1, rowsFrom_break _ hn]
  show attach pre (if goesOn o' x' = true then _ else _) = _
  rw [if_neg (by rw [hg]; simp)]
  rfl

/-- a logical line at the end of the text -/
theorem scan_last {x g o' x' j} (h : Scan [] false x g o' x' j) :
    ∃ G, groups false (rowsFrom x g) = [G] ∧ body G = x ++ g ∧ lastBreak G = [] ∧
      (skipped x' = false → joined G = j ++ x') ∧ (o' = true → skipped x' = true → joined G = j) := by
  obtain ⟨pre, e1, e2, e3, e4⟩ := scan_groups h
  refine ⟨pre ++ [⟨x', []⟩], ?_, by rw [body_concat]; exact e2, lastBreak_concat _ _, ?_, ?_⟩
  · rw [List.append_nil] at e1
    rw [e1]
    show attach pre (if goesOn o' x' = true then _ else _) = _
    split <;> rfl
  · intro hs
    rw [joined, joined_concat, e3]; simp [hs]
  · intro ho hs
    rcases e4 ho with h | h
    · cases h
    · rw [joined, joined_concat, e3]
      cases pre with
      | nil => exact absurd rfl h
      | cons a pre => simp [hs]

/-! ## space -/

/-- in a content line, or in a line after the first that has only blanks so far and is not to be skipped -/
def Ready (o : Bool) (x r : Str) : Prop := Content x ∨ (o = true ∧ Blanks x ∧ ¬ Skippable (x ++ r))

theorem oneLine_blanks {w : Str} (h : Blanks w) : OneLine w := fun c hc => by
  rcases h c hc with rfl | rfl <;> decide

theorem OneLine.append {a b : Str} (ha : OneLine a) (hb : OneLine b) : OneLine (a ++ b) := fun c hc => by
  rcases List.mem_append.1 hc with h | h
  · exact ha c h
  · exact hb c h

theorem OneLine.cons {c : Char} {b : Str} (h1 : c ≠ '\n') (h2 : c ≠ '\r') (hb : OneLine b) : OneLine (c :: b) := fun d hd => by
  rcases List.mem_cons.1 hd with rfl | h
  · exact ⟨h1, h2⟩
  · exact hb d h

theorem comment_oneLine {t : Str} (h : CommentText t) : OneLine t := by
  obtain ⟨b, rfl, hb⟩ := h
  exact .cons (by decide) (by decide) hb

theorem part_skip {x : Str} (h : skipped x = true) : part x = [] := by simp [part, h]

theorem part_mark {x w : Str} (hx : Content (x ++ '\\' :: w)) (hw : Blanks w) : part (x ++ '\\' :: w) = x := by
  simp [part, hx.not_skipped, stripped_mark hw]

theorem skip_scan {l r : Str} (h : Src.SkipLines l r) :
    (Scan r true [] l true [] [] ∧ ¬ Skippable r) ∨ (r = [] ∧ ∃ x, Scan r true [] l true x [] ∧ skipped x = true) := by
  induction h with
  | nil h => exact .inl ⟨.nil, h⟩
  | @blank w n l r hw hn _ ih =>
    have key : ∀ {o' x'}, Scan r true [] l o' x' [] → Scan r true [] (w ++ (n ++ l)) o' x' [] := by
      intro o' x' h
      have h1 := Scan.chars (oneLine_blanks hw) (n ++ l ++ r) true []
      have h2 := Scan.brk (x := w) hn (goesOn_skip (skipped_blank hw)) h
      rw [part_skip (skipped_blank hw)] at h2
      exact h1.append rfl h2
    rcases ih with ⟨h, h'⟩ | ⟨h, x, h', hs⟩
    · exact .inl ⟨key h, h'⟩
    · exact .inr ⟨h, x, key h', hs⟩
  | @comment w t n l r hw ht hn _ ih =>
    have hs : skipped (w ++ t) = true := by obtain ⟨b, rfl, -⟩ := ht; exact skipped_comment hw b
    have key : ∀ {o' x'}, Scan r true [] l o' x' [] → Scan r true [] (w ++ (t ++ (n ++ l))) o' x' [] := by
      intro o' x' h
      have h1 := Scan.chars (OneLine.append (oneLine_blanks hw) (comment_oneLine ht)) (n ++ l ++ r) true []
      have h2 := Scan.brk (x := w ++ t) hn (goesOn_skip hs) h
      rw [part_skip hs] at h2
      have := h1.append rfl h2
      rw [List.append_assoc] at this
      exact this
    rcases ih with ⟨h, h'⟩ | ⟨h, x, h', hs⟩
    · exact .inl ⟨key h, h'⟩
    · exact .inr ⟨h, x, key h', hs⟩
  | @lastComment w t hw ht =>
    refine .inr ⟨rfl, _, Scan.chars (OneLine.append (oneLine_blanks hw) (comment_oneLine ht)) [] true [], ?_⟩
    obtain ⟨b, rfl, -⟩ := ht
    exact skipped_comment hw b

theorem Ready.mark {o x r w} (h : Ready o x r) : Content (x ++ '\\' :: w) :=
  content_or (h.elim .inr fun h => .inl h.2.1) (by decide) (by decide) w

/-- after space: somewhere in a line, or at the end of the text in a line that is left out -/
def After (o : Bool) (x j x0 r : Str) : Prop :=
  (Ready o x r ∧ (∃ b, Blanks b ∧ j ++ x = x0 ++ b) ∧
    (Content x ∨ (o = true ∧ Blanks x ∧ ((∃ b, Blanks b ∧ j = x0 ++ b) ∨ (Blanks x0 ∧ j = []))))) ∨ (r = [] ∧ o = true ∧ skipped x = true ∧ ∃ b, Blanks b ∧ j = x0 ++ b)

theorem space_scan {g r : Str} (h : Src.Space g r) : ∀ {o x}, Ready o x (g ++ r) →
    ∃ o' x' j, Scan r o x g o' x' j ∧ After o' x' j x r := by
  induction h with
  | nil _ => intro o x hr; exact ⟨o, x, [], .nil, .inl ⟨hr, ⟨[], blanks_none, by simp⟩, hr.imp id fun h => ⟨h.1, h.2.1, .inr ⟨h.2.1, rfl⟩⟩⟩⟩
  | @blank c g r hc _ ih =>
    intro o x hr
    have hb : ∀ d ∈ [c], d = ' ' ∨ d = '\t' := by simpa using hc
    have hr' : Ready o (x ++ [c]) (g ++ r) := by
      rcases hr with h | ⟨h1, h2, h3⟩
      · exact .inl (h.append _)
      · exact .inr ⟨h1, blanks_append h2 hb, by simpa using h3⟩
    obtain ⟨o', x', j, e1, e2⟩ := ih hr'
    refine ⟨o', x', j, .char ?_ ?_ e1, ?_⟩
    · rcases hc with rfl | rfl <;> decide
    · rcases hc with rfl | rfl <;> decide
    · rcases e2 with ⟨h, ⟨b, h1, h2⟩, h3⟩ | ⟨h, h', h'', b, h1, h2⟩
      · refine .inl ⟨h, ⟨[c] ++ b, blanks_append hb h1, by rw [h2]; simp⟩, h3.imp id fun ⟨k1, k2, k3⟩ => ⟨k1, k2, ?_⟩⟩
        rcases k3 with ⟨b', k3, k4⟩ | ⟨k3, k4⟩
        · exact .inl ⟨[c] ++ b', blanks_append hb k3, by rw [k4]; simp⟩
        · exact .inr ⟨fun d hd => k3 d (by simp [hd]), k4⟩
      · exact .inr ⟨h, h', h'', [c] ++ b, blanks_append hb h1, by rw [h2]; simp⟩
  | @continuation w n l g r hw hn hl _ ih =>
    intro o x hr
    have hm : Content (x ++ '\\' :: w) := hr.mark
    have h1 : Scan (n ++ (l ++ g) ++ r) o x ('\\' :: w) o (x ++ '\\' :: w) [] :=
      Scan.chars (.cons (by decide) (by decide) (oneLine_blanks hw)) _ o x
    have key : ∀ {o' x' j}, Scan r true [] (l ++ g) o' x' j → Scan r o x ('\\' :: (w ++ (n ++ (l ++ g)))) o' x' (x ++ j) := by
      intro o' x' j h
      have h2 := Scan.brk (x := x ++ '\\' :: w) (by rw [List.append_assoc]; exact hn) (goesOn_mark hw hm o x rfl) h
      rw [part_mark hm hw] at h2
      exact h1.append (by simp) h2
    rcases skip_scan hl with ⟨h, h'⟩ | ⟨h, y, h', hs⟩
    · obtain ⟨o', x', j, e1, e2⟩ := ih (o := true) (x := []) (.inr ⟨rfl, blanks_none, by simpa using h'⟩)
      refine ⟨o', x', x ++ j, key (h.append rfl e1), ?_⟩
      rcases e2 with ⟨h, ⟨b, h1, h2⟩, h3⟩ | ⟨h, h', h'', b, h1, h2⟩
      · refine .inl ⟨h, ⟨b, h1, by rw [List.append_assoc, h2]; rfl⟩, h3.imp id fun ⟨k1, k2, k3⟩ => ⟨k1, k2, .inl ?_⟩⟩
        rcases k3 with ⟨b', k3, k4⟩ | ⟨k3, k4⟩
        · exact ⟨b', k3, by rw [k4]; rfl⟩
        · exact ⟨[], blanks_none, by rw [k4]⟩
      · exact .inr ⟨h, h', h'', b, h1, by rw [h2]; rfl⟩
    · have hg : g = [] ∧ r = [] := List.append_eq_nil_iff.1 h
      obtain ⟨rfl, rfl⟩ := hg
      refine ⟨true, y, x, ?_, .inr ⟨rfl, rfl, hs, [], blanks_none, by simp⟩⟩
      have := key (o' := true) (x' := y) (j := []) (by rw [List.append_nil]; exact h')
      rw [List.append_nil x] at this
      exact this

/-- a word after space -/
theorem Ready.word {o x r} {c : Char} {t : Str} (h : Ready o x (c :: t ++ r)) (hc : ¬ (c = ' ' ∨ c = '\t')) : Content (x ++ c :: t) := by
  rcases h with h | ⟨-, h1, h2⟩
  · exact h.append _
  · refine ⟨x, c, t, rfl, h1, hc, ?_⟩
    rintro rfl
    exact h2 ⟨x, _, rfl, h1, .inl ⟨_, rfl⟩⟩

/-! ## words -/

theorem content_of {x : Str} (h : skipped x = false) : Content x := by
  induction x with
  | nil => simp [skipped] at h
  | cons c x ih =>
    by_cases hc : c = ' ' ∨ c = '\t'
    · have h1 : skipped (c :: x) = skipped x := by
        unfold skipped; rw [List.dropWhile_cons_of_pos (blank_iff.2 hc)]
      obtain ⟨w, d, t, rfl, h2, h3⟩ := ih (h1 ▸ h)
      exact ⟨c :: w, d, t, rfl, fun e he => (List.mem_cons.1 he).elim (· ▸ hc) (h2 e), h3⟩
    · refine ⟨[], c, x, rfl, blanks_none, hc, ?_⟩
      rintro rfl
      have := skipped_comment blanks_none x
      rw [List.nil_append] at this
      rw [this] at h
      cases h

/-- the text has something other than blanks -/
def Solid (y : Str) : Prop := ∃ c ∈ y, ¬ (c = ' ' ∨ c = '\t')

theorem solid_last {y : Str} (h : Solid y) : ∃ a c w, y = a ++ c :: w ∧ ¬ (c = ' ' ∨ c = '\t') ∧ Blanks w := by
  induction y with
  | nil => obtain ⟨c, hc, -⟩ := h; cases hc
  | cons d y ih =>
    by_cases hy : Solid y
    · obtain ⟨a, c, w, rfl, h'⟩ := ih hy
      exact ⟨d :: a, c, w, rfl, h'⟩
    · obtain ⟨c, hc, hc'⟩ := h
      rcases List.mem_cons.1 hc with rfl | hc
      · exact ⟨[], c, y, rfl, hc', fun e he => Classical.byContradiction fun hn => hy ⟨e, he, hn⟩⟩
      · exact absurd ⟨c, hc, hc'⟩ hy

theorem continued_prefix {y : Str} (h : Solid y) (p : Str) : continued (p ++ y) = continued y := by
  obtain ⟨a, c, w, rfl, hc, hw⟩ := solid_last h
  rw [← List.append_assoc, continued_other hw _ hc, continued_other hw _ hc]

theorem stripped_prefix {y : Str} (h : Solid y) (p : Str) : stripped (p ++ y) = p ++ stripped y := by
  obtain ⟨a, c, w, rfl, hc, hw⟩ := solid_last h
  have key : ∀ q, stripped (q ++ c :: w) = q := by
    intro q
    unfold stripped
    rw [List.reverse_append, List.reverse_cons, List.append_assoc, dropWhile_blanks (blanks_reverse hw),
      List.singleton_append, List.dropWhile_cons_of_neg (by rw [blank_iff]; exact hc)]
    simp
  rw [← List.append_assoc, key, key]

theorem Solid.append {y : Str} (h : Solid y) (t : Str) : Solid (y ++ t) := by
  obtain ⟨c, hc, h⟩ := h
  exact ⟨c, by simp [hc], h⟩

theorem Content.solid {x : Str} (h : Content x) : Solid x := by
  obtain ⟨w, c, t, rfl, -, h, -⟩ := h
  exact ⟨c, by simp, h⟩

theorem Scan.suffix {R o x g o' x' j} (h : Scan R o x g o' x' j) : ∃ p, p ++ x' = x ++ g := by
  obtain ⟨pre, -, e, -⟩ := scan_groups h
  exact ⟨_, e⟩

/-- in front of a line break the line ends after `x` (and blanks) -/
def Ends (x R : Str) : Prop := ∀ t n z, Blanks t → LineBreak n z → R = t ++ (n ++ z) → continued (x ++ t) = false

theorem Ends.transfer {w R o x o' x' j} (h : Ends w R) (hw : Solid w) (hs : Scan R o x w o' x' j) (hx : Content x') : Ends x' R := by
  intro t n z ht hn e
  obtain ⟨p, hp⟩ := hs.suffix
  have h1 := h t n z ht hn e
  rw [← continued_prefix (hx.solid.append t) p, ← List.append_assoc, hp, List.append_assoc, continued_prefix (hw.append t)]
  exact h1

theorem rest_scan (R : Str) : ∀ (t : Str) (x : Str), carriedRest (rowsFrom x t) = true →
    ∃ x' j, Scan R true x t true x' j ∧ Content x' ∧ j ++ x' = joinedFrom true (rowsFrom x t)
  | [], x, h => by
    have h' : skipped x = false := by simpa [rowsFrom, carriedRest] using h
    exact ⟨x, [], .nil, content_of h', by simp [rowsFrom, joinedFrom, h']⟩
  | c :: t, x, h => by
    have brk : ∀ {n z : Str}, c :: t = n ++ z → LineBreak n z → z.length ≤ t.length →
        ∃ x' j, Scan R true x (c :: t) true x' j ∧ Content x' ∧ j ++ x' = joinedFrom true (rowsFrom x (c :: t)) := by
      intro n z e hn hl
      rw [e, rowsFrom_break _ hn] at h ⊢
      have h' : goesOn true x = true ∧ carriedRest (rowsFrom [] z) = true := by
        cases hr : rowsFrom [] z with
        | nil => exact absurd hr (rowsFrom_ne _ _)
        | cons a rs => rw [hr] at h; simpa [carriedRest] using h
      obtain ⟨x', j, e1, e2, e3⟩ := rest_scan R z [] h'.2
      have hz : z ≠ [] := by
        rintro rfl
        have := h'.2
        simp [rowsFrom, carriedRest, skipped] at this
      refine ⟨x', _, .brk ?_ h'.1 e1, e2, ?_⟩
      · rcases hn with h | h | ⟨h, h'⟩
        · exact .inl h
        · exact .inr (.inl h)
        · refine .inr (.inr ⟨h, ?_⟩)
          cases z with
          | nil => exact absurd rfl hz
          | cons d z =>
            intro r e
            rw [List.cons_append] at e
            exact h' z (by rw [(List.cons.inj e).1])
      · rw [joinedFrom_cons _ _ (rowsFrom_ne _ _), ← e3]; simp
    by_cases h1 : c = '\n'
    · subst h1; exact brk (n := ['\n']) rfl (.inl rfl) (Nat.le_refl _)
    · by_cases h2 : c = '\r'
      · subst h2
        cases t with
        | nil => exact brk (n := ['\r']) rfl (.inr (.inr ⟨rfl, fun r e => by cases e⟩)) (Nat.le_refl _)
        | cons d t =>
          by_cases hd : d = '\n'
          · subst hd; exact brk (n := ['\r', '\n']) rfl (.inr (.inl rfl)) (by simp)
          · exact brk (n := ['\r']) rfl (.inr (.inr ⟨rfl, fun r e => hd (List.cons.inj e).1⟩)) (Nat.le_refl _)
      · rw [rowsFrom_char _ h1 h2] at h ⊢
        obtain ⟨x', j, e1, e2⟩ := rest_scan R t (x ++ [c]) h
        exact ⟨x', j, .char h1 h2 e1, e2⟩
termination_by t => t.length
decreasing_by all_goals simp_wf <;> omega

def carriedRows : List Row → Bool
  | [] => true
  | [_] => true
  | r :: rs => continued r.line && carriedRest rs

def oneRows : List Row → Str
  | [] => []
  | [r] => r.line
  | r :: rs => stripped r.line ++ joinedFrom true rs

theorem carried_eq (t : Str) : carried t = carriedRows (rowsFrom [] t) := by
  unfold carried carriedRows rows; rfl

theorem onOne_eq (t : Str) : onOne t = oneRows (rowsFrom [] t) := by
  unfold onOne oneRows rows; rfl

theorem first_scan (R : Str) (o : Bool) (x0 : Str) : ∀ (t : Str) (x : Str), Solid x → Content (x0 ++ x) →
    carriedRows (rowsFrom x t) = true →
    ∃ o' x' j, Scan R o (x0 ++ x) t o' x' j ∧ Content x' ∧ j ++ x' = x0 ++ oneRows (rowsFrom x t)
  | [], x, hx, hc, h => ⟨o, x0 ++ x, [], .nil, hc, by simp [rowsFrom, oneRows]⟩
  | c :: t, x, hx, hc, h => by
    have brk : ∀ {n z : Str}, c :: t = n ++ z → LineBreak n z →
        ∃ o' x' j, Scan R o (x0 ++ x) (c :: t) o' x' j ∧ Content x' ∧ j ++ x' = x0 ++ oneRows (rowsFrom x (c :: t)) := by
      intro n z e hn
      rw [e, rowsFrom_break _ hn] at h ⊢
      have h' : continued x = true ∧ carriedRest (rowsFrom [] z) = true := by
        cases hr : rowsFrom [] z with
        | nil => exact absurd hr (rowsFrom_ne _ _)
        | cons a rs => rw [hr] at h; simpa [carriedRows] using h
      obtain ⟨x', j, e1, e2, e3⟩ := rest_scan R z [] h'.2
      have hz : z ≠ [] := by
        rintro rfl
        have := h'.2
        simp [rowsFrom, carriedRest, skipped] at this
      have hg : goesOn o (x0 ++ x) = true := by
        have : continued (x0 ++ x) = true := by rw [continued_prefix hx]; exact h'.1
        cases o <;> simp [goesOn, hc.not_skipped, this]
      refine ⟨true, x', _, .brk ?_ hg e1, e2, ?_⟩
      · rcases hn with h | h | ⟨h, h'⟩
        · exact .inl h
        · exact .inr (.inl h)
        · refine .inr (.inr ⟨h, ?_⟩)
          cases z with
          | nil => exact absurd rfl hz
          | cons d z =>
            intro r e
            rw [List.cons_append] at e
            exact h' z (by rw [(List.cons.inj e).1])
      · have : oneRows (⟨x, n⟩ :: rowsFrom [] z) = stripped x ++ joinedFrom true (rowsFrom [] z) := by
          cases hr : rowsFrom [] z with
          | nil => exact absurd hr (rowsFrom_ne _ _)
          | cons a rs => rfl
        rw [this, List.append_assoc, e3, part, hc.not_skipped, if_neg (by simp), stripped_prefix hx]; simp
    by_cases h1 : c = '\n'
    · subst h1; exact brk (n := ['\n']) rfl (.inl rfl)
    · by_cases h2 : c = '\r'
      · subst h2
        cases t with
        | nil => exact brk (n := ['\r']) rfl (.inr (.inr ⟨rfl, fun r e => by cases e⟩))
        | cons d t =>
          by_cases hd : d = '\n'
          · subst hd; exact brk (n := ['\r', '\n']) rfl (.inr (.inl rfl))
          · exact brk (n := ['\r']) rfl (.inr (.inr ⟨rfl, fun r e => hd (List.cons.inj e).1⟩))
      · rw [rowsFrom_char _ h1 h2] at h ⊢
        obtain ⟨o', x', j, e1, e2⟩ := first_scan R o x0 t (x ++ [c]) (hx.append _) (by rw [← List.append_assoc]; exact hc.append _) h
        exact ⟨o', x', j, .char h1 h2 (by rw [List.append_assoc]; exact e1), e2⟩

/-- the text starts with something other than a blank -/
def Head (w : Str) : Prop := ∃ c t, w = c :: t ∧ ¬ (c = ' ' ∨ c = '\t')

theorem Head.solid {w : Str} (h : Head w) : Solid w := by
  obtain ⟨c, t, rfl, h⟩ := h
  exact ⟨c, by simp, h⟩

theorem Head.append {w : Str} (h : Head w) (t : Str) : Head (w ++ t) := by
  obtain ⟨c, u, rfl, h⟩ := h
  exact ⟨c, u ++ t, rfl, h⟩

theorem Head.ne {w : Str} (h : Head w) : w ≠ [] := by
  obtain ⟨c, u, rfl, h⟩ := h
  simp

/-- a word in a line -/
theorem word_scan {R w : Str} (hw : Head w) (hc : carried w = true) {o x} (hr : Ready o x (w ++ R)) (hq : ∀ t, w ≠ '\n' :: t ∧ w ≠ '\r' :: t) :
    ∃ o' x' j, Scan R o x w o' x' j ∧ Content x' ∧ j ++ x' = x ++ onOne w := by
  obtain ⟨c, t, rfl, h⟩ := hw
  have h1 : c ≠ '\n' := fun e => (hq t).1 (by rw [e])
  have h2 : c ≠ '\r' := fun e => (hq t).2 (by rw [e])
  have h3 : Content (x ++ [c]) := Ready.word (t := []) (r := t ++ R) hr h
  rw [carried_eq, rowsFrom_char _ h1 h2] at hc
  obtain ⟨o', x', j, e1, e2, e3⟩ := first_scan R o x t [c] ⟨c, by simp, h⟩ h3 hc
  exact ⟨o', x', j, .char h1 h2 e1, e2, by rw [e3, onOne_eq, rowsFrom_char _ h1 h2]; rfl⟩

theorem rowsFrom_oneLine {t : Str} (h : OneLine t) (x : Str) : rowsFrom x t = [⟨x ++ t, []⟩] := by
  induction t generalizing x with
  | nil => simp [rowsFrom]
  | cons c t ih =>
    rw [rowsFrom_char _ (h c (by simp)).1 (h c (by simp)).2, ih fun d hd => h d (by simp [hd])]
    simp

theorem OneLine.carried {t : Str} (h : OneLine t) : carried t = true := by
  rw [carried_eq, rowsFrom_oneLine h]; rfl

theorem OneLine.onOne {t : Str} (h : OneLine t) : onOne t = t := by
  rw [onOne_eq, rowsFrom_oneLine h]; rfl

end Logical
end Verif
