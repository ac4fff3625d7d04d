import Verif.Proof.Keyword
import Verif.Spec.Print

/-!
# Running the grammar on written text: space, words, quoted strings
-/

namespace Verif
open Spec

theorem Spec.Break.line {n : Str} (h : Break n) (r : Str) : LineBreak n r := by
  rcases h with rfl | rfl
  · exact .inl rfl
  · exact .inr (.inl rfl)

theorem Spec.Break.head {n : Str} (h : Break n) : ∃ c b, n = c :: b ∧ isBreak c = true := by
  rcases h with rfl | rfl
  · exact ⟨_, _, rfl, rfl⟩
  · exact ⟨_, _, rfl, rfl⟩

theorem Spec.Break.sem {n : Str} (h : Break n) (r : Str) (q : Bool) (p : Nat) :
    SemX G.NEWLINE q p n r [] := lineBreak_sem (h.line r) q p

theorem Spec.Blanks.mem {w : Str} (h : Blanks w) {c : Char} (hc : c ∈ w) : isBlank c = true :=
  isBlank_iff.2 (h c hc)

theorem Spec.Blanks.tail {c : Char} {w : Str} (h : Blanks (c :: w)) : Blanks w :=
  fun d hd => h d (List.mem_cons_of_mem _ hd)

theorem Spec.Blanks.nil : Blanks [] := by intro c h; cases h

theorem isBlank_of_isBreak {c : Char} (h : isBreak c = true) : isBlank c = false := by
  refine isBlank_break ?_
  simpa [isBreak] using h

/-- Skipping the space at the front. -/
theorem dropWhile_blanks {w r : Str} (hw : Blanks w) :
    (w ++ r).dropWhile isBlank = r.dropWhile isBlank := by
  induction w with
  | nil => rfl
  | cons c w ih =>
    rw [List.cons_append, List.dropWhile_cons, if_pos (hw.mem (by simp)), ih hw.tail]

theorem dropWhile_head {c : Char} {r : Str} (hc : isBlank c = false) :
    (c :: r).dropWhile isBlank = c :: r := by
  rw [List.dropWhile_cons, if_neg (by simp [hc])]

/-! ## blank and comment lines -/

/-- Neither a blank line nor a comment line. -/
def NoSkip (s : Str) : Prop :=
  ∀ c b, s.dropWhile isBlank = c :: b → c ≠ '#' ∧ isBreak c = false

theorem comment_line_fails {q p s}
    (h : ∀ b, s.dropWhile isBlank ≠ '#' :: b) : Sem G.comment_line q p s none := by
  unfold G.comment_line
  have h1 := lex_ws_star q p s
  simp only [lexOut] at h1
  refine .seq_fail2 h1 (.seq_fail1 (.rule_fail (.seq_fail1 ?_)))
  refine (lex_str1 '#').none_iff.2 ?_
  cases hd : s.dropWhile isBlank with
  | nil => rfl
  | cons c b =>
    have : c ≠ '#' := fun e => h b (by rw [hd, e])
    simp [charFn, beq_eq_false_iff_ne.2 this]

theorem empty_line_fails {q p s}
    (h : ∀ c b, s.dropWhile isBlank = c :: b → isBreak c = false) : Sem G.empty_line q p s none := by
  unfold G.empty_line
  have h1 := lex_ws_star q p s
  simp only [lexOut] at h1
  refine .seq_fail2 h1 (lex_NEWLINE.none_iff.2 ?_)
  cases hd : s.dropWhile isBlank with
  | nil => rfl
  | cons c b =>
    have e := afterBreak_isNone c b
    rw [h c b hd] at e
    simpa using e

theorem noSkip_sem {q p s} (h : NoSkip s) : Sem (.alt G.comment_line G.empty_line) q p s none :=
  .alt_right (comment_line_fails fun b e => (h _ b e).1 rfl)
    (empty_line_fails fun c b e => (h c b e).2)

theorem comment_line_x {p w t n r} (hw : Blanks w) (ht : CommentText t) (hn : Break n) :
    SemX G.comment_line false p (w ++ (t ++ n)) r
      [.node .comment (p + blen w) (p + blen w + blen t) t []] := by
  unfold G.comment_line
  refine SemX.seq (t1 := []) (ws_x hw ?_) (SemX.seq (t2 := []) (comment_x ht ?_)
    (semX_opt.2 (.inl (hn.sem _ _ _))))
  · obtain ⟨b, rfl, -⟩ := ht
    intro c b' e
    simp only [List.cons_append, List.append_assoc, List.cons.injEq] at e
    rw [← e.1]; rfl
  · exact AtEnd.break (hn.line _)

theorem empty_line_x {q p w n r} (hw : Blanks w) (hn : Break n) :
    SemX G.empty_line q p (w ++ n) r [] := by
  unfold G.empty_line
  refine SemX.seq (t1 := []) (t2 := []) (ws_x hw ?_) (hn.sem _ _ _)
  obtain ⟨d, b, rfl, hd⟩ := hn.head
  intro c b' e
  simp only [List.cons_append, List.cons.injEq] at e
  rw [← e.1]; exact isBlank_of_isBreak hd

/-- Comments only. -/
def Comments (ts : List Tok) : Prop := ∀ t ∈ ts, t.rule = .comment

theorem Comments.nil : Comments [] := by intro t h; cases h

theorem Comments.append {a b : List Tok} (ha : Comments a) (hb : Comments b) : Comments (a ++ b) := by
  intro t h
  rcases List.mem_append.1 h with h | h
  · exact ha t h
  · exact hb t h

theorem skipLines_x {l : Str} (h : SkipLines l) {s' : Str} (hs : NoSkip s') (p : Nat) :
    ∃ cs, SemX (.star (.alt G.comment_line G.empty_line)) false p l s' cs ∧ Comments cs ∧
      ('#' ∉ l → cs = []) := by
  induction h generalizing p with
  | nil => exact ⟨[], .star_nil (noSkip_sem hs), .nil, fun _ => rfl⟩
  | @blank w n r hw hn hr ih =>
    obtain ⟨cs, h1, h2, h3⟩ := ih (p + blen (w ++ n))
    refine ⟨cs, ?_, h2, fun hm => h3 fun h => hm (by simp [h])⟩
    have := SemX.star_cons (e := .alt G.comment_line G.empty_line) (q := false) (p := p)
      (x1 := w ++ n) (x2 := r) (s' := s') (t1 := []) (t2 := cs)
      (semX_alt.2 (.inr ⟨?_, empty_line_x hw hn⟩)) h1
    · simpa using this
    · refine comment_line_fails fun b e => ?_
      obtain ⟨d, b', rfl, hd⟩ := hn.head
      rw [List.append_assoc, dropWhile_blanks hw, List.cons_append,
        dropWhile_head (isBlank_of_isBreak hd)] at e
      simp only [List.cons.injEq] at e
      rw [e.1] at hd; exact absurd hd (by decide)
  | @comment w t n r hw ht hn hr ih =>
    obtain ⟨cs, h1, h2, h3⟩ := ih (p + blen (w ++ (t ++ n)))
    refine ⟨[.node .comment (p + blen w) (p + blen w + blen t) t []] ++ cs, ?_,
      .append ?_ h2, fun hm => ?_⟩
    · have := SemX.star_cons (e := .alt G.comment_line G.empty_line) (q := false) (p := p)
        (x1 := w ++ (t ++ n)) (x2 := r) (s' := s')
        (t1 := [.node .comment (p + blen w) (p + blen w + blen t) t []]) (t2 := cs)
        (semX_alt.2 (.inl (comment_line_x hw ht hn))) h1
      simpa using this
    · intro t h; rw [List.mem_singleton.1 h]; rfl
    · obtain ⟨b, rfl, -⟩ := ht
      exact absurd (by simp) hm

/-! ## space between arguments -/

theorem continuation_x {q p w n r} (hw : Blanks w) (hn : Break n) :
    SemX G.line_continuation q p ('\\' :: (w ++ n)) r [] := by
  unfold G.line_continuation
  refine SemX.seq (x1 := ['\\']) (x2 := w ++ n) (t1 := []) (t2 := [])
    (semX_str.2 ⟨rfl, rfl⟩) (empty_line_x hw hn)

/-- What follows some space. -/
def AfterSpace (g s : Str) : Prop :=
  startsArgWs s = false ∧ (Blanks g ∨ ∀ c b, s = c :: b → c ≠ '#' ∧ isBreak c = false)

theorem AfterSpace.tail {c : Char} {g s : Str} (h : AfterSpace (c :: g) s) : AfterSpace g s :=
  ⟨h.1, h.2.imp (·.tail) id⟩

theorem startsArgWs_blank {s : Str} (h : startsArgWs s = false) :
    ∀ c b, s = c :: b → isBlank c = false := by
  rintro c b rfl
  simp only [startsArgWs, Bool.or_eq_false_iff] at h
  exact h.1

theorem space_noSkip {g s : Str} (hg : Space g) (h1 : startsArgWs s = false)
    (h2 : ∀ c b, s = c :: b → c ≠ '#' ∧ isBreak c = false) : NoSkip (g ++ s) := by
  induction hg with
  | nil =>
    intro c b e
    cases s with
    | nil => simp at e
    | cons d s =>
      rw [List.nil_append, dropWhile_head (startsArgWs_blank h1 d s rfl)] at e
      exact h2 c b e
  | @blank c g hc hg ih =>
    intro d b e
    rw [List.cons_append, List.dropWhile_cons, if_pos (isBlank_iff.2 hc)] at e
    exact ih d b e
  | continuation hw hn hl hg ih =>
    intro d b e
    rw [List.cons_append, dropWhile_head (by rfl)] at e
    simp only [List.cons.injEq] at e
    rw [← e.1]; exact ⟨by decide, by decide⟩

theorem arg_ws_maybe_x {g : Str} (hg : Space g) {s' : Str} (hs : AfterSpace g s') (p : Nat) :
    ∃ cs, SemX G.arg_ws_maybe false p g s' cs ∧ Comments cs ∧ ('#' ∉ g → cs = []) := by
  unfold G.arg_ws_maybe
  induction hg generalizing p with
  | nil => exact ⟨[], .star_nil (arg_ws_item_none.2 hs.1), .nil, fun _ => rfl⟩
  | @blank c g hc hg ih =>
    obtain ⟨cs, h1, h2, h3⟩ := ih hs.tail (p + blen [c])
    refine ⟨cs, ?_, h2, fun hm => h3 fun h => hm (by simp [h])⟩
    exact SemX.star_cons (x1 := [c]) (x2 := g) (t1 := [])
      (semX_alt.2 (.inl (lex_ws.x.2 ⟨c, rfl, isBlank_iff.2 hc, rfl⟩))) h1
  | @continuation w n l g hw hn hl hg ih =>
    have hs2 : ∀ c b, s' = c :: b → c ≠ '#' ∧ isBreak c = false := by
      rcases hs.2 with h | h
      · have := h '\\' (by simp)
        simp at this
      · exact h
    obtain ⟨cs, h1, h2, h3⟩ := skipLines_x hl (space_noSkip hg hs.1 hs2)
      (p + blen ('\\' :: (w ++ n)))
    obtain ⟨ds, k1, k2, k3⟩ := ih ⟨hs.1, .inr hs2⟩ (p + blen ('\\' :: (w ++ n) ++ l))
    refine ⟨cs ++ ds, ?_, h2.append k2, fun hm => ?_⟩
    · have := SemX.star_cons (e := G.arg_ws_item) (q := false) (p := p)
        (x1 := '\\' :: (w ++ n) ++ l) (x2 := g) (s' := s') (t1 := cs) (t2 := ds)
        (semX_alt.2 (.inr ⟨?_, SemX.seq (t1 := []) (continuation_x hw hn) h1⟩)) k1
      · simpa using this
      · exact lex_ws.none_iff.2 rfl
    · rw [h3 fun h => hm (by simp [h]), k3 fun h => hm (by simp [h])]; rfl

theorem arg_ws_of_maybe {p g s' cs} (h : SemX G.arg_ws_maybe false p g s' cs) (hg : g ≠ []) :
    SemX G.arg_ws false p g s' cs := by
  rcases semX_star.1 h with ⟨h, -, -⟩ | ⟨x1, x2, t1, t2, rfl, rfl, h1, h2⟩
  · exact absurd h hg
  · exact SemX.seq h1 h2

theorem arg_ws_x {g : Str} (hg : Space g) (hne : g ≠ []) {s' : Str} (hs : AfterSpace g s')
    (p : Nat) : ∃ cs, SemX G.arg_ws false p g s' cs ∧ Comments cs ∧ ('#' ∉ g → cs = []) := by
  obtain ⟨cs, h1, h2, h3⟩ := arg_ws_maybe_x hg hs p
  exact ⟨cs, arg_ws_of_maybe h1 hne, h2, h3⟩

theorem space_of_blanks {g : Str} (h : Blanks g) : Space g := by
  induction g with
  | nil => exact .nil
  | cons c g ih => exact .blank (h c (by simp)) (ih h.tail)

/-- Space is recognised by its first character. -/
theorem space_starts {g : Str} (hg : Space g) (hne : g ≠ []) (s : Str) :
    startsArgWs (g ++ s) = true := by
  cases hg with
  | nil => exact absurd rfl hne
  | blank hc _ => simp [startsArgWs, isBlank_iff.2 hc]
  | @continuation w n l g hw hn hl hg =>
    obtain ⟨d, b, rfl, hd⟩ := hn.head
    have := (lineBreak_iff.1 (hn.line (l ++ (g ++ s)))).2
    simp only [List.cons_append, startsArgWs, Bool.or_eq_true]
    right
    simp only [afterContinuation, List.append_assoc, dropWhile_blanks hw, List.cons_append]
    rw [dropWhile_head (isBlank_of_isBreak hd), ← List.cons_append, this]
    rfl

/-! ## words -/

/-- Ends a word. -/
def EndsWord (s : Str) : Prop := ∀ c b, s = c :: b → (isBreak c || startsArgWs (c :: b)) = true

theorem EndsWord.space {g s : Str} (hg : Space g) (hne : g ≠ []) : EndsWord (g ++ s) := by
  intro c b e
  rw [← e, space_starts hg hne]; simp

theorem EndsWord.atEnd {s : Str} (h : AtEnd s) : EndsWord s := by
  intro c b e
  have : isBreak c = true := by rcases h c b e with rfl | rfl <;> rfl
  simp [this]

theorem EndsWord.trail {w s : Str} (hw : Blanks w) (h : AtEnd s) : EndsWord (w ++ s) := by
  by_cases hne : w = []
  · subst hne; exact .atEnd h
  · exact .space (space_of_blanks hw) hne

theorem noSpace_mem {w : Str} (h : NoSpace w) {c : Char} (hc : c ∈ w) :
    isBreak c = false ∧ isBlank c = false := by
  have := h c hc
  simp [isBreak, isBlank, this]

/-- There is no continuation inside of a word. -/
theorem word_no_continuation {w a b s : Str} {c : Char} (h : WordText w) (e : w = a ++ c :: b) :
    startsArgWs (c :: (b ++ s)) = false := by
  obtain ⟨h1, h2, h3⟩ := h
  have hc := noSpace_mem h2 (c := c) (by simp [e])
  simp only [startsArgWs, hc.2, Bool.false_or]
  by_cases hb : c = '\\'
  · subst hb
    cases b with
    | nil => simp [e] at h3
    | cons d b =>
      have hd := noSpace_mem h2 (c := d) (by simp [e])
      have e2 := afterBreak_isNone d (b ++ s)
      rw [hd.1] at e2
      simp only [afterContinuation, List.cons_append, dropWhile_head hd.2]
      cases hx : afterBreak (d :: (b ++ s)) with
      | none => rfl
      | some r => rw [hx] at e2; simp at e2
  · cases hx : afterContinuation (c :: (b ++ s)) with
    | none => rfl
    | some r => exact absurd (afterContinuation_some hx) hb

theorem word_run {w s : Str} (h : WordText w) (hs : EndsWord s) :
    RunOf (fun c s => !(isBreak c || startsArgWs (c :: s))) w s := by
  refine ⟨fun a c b e => ?_, fun c b e => by simp [hs c b e]⟩
  show (!(isBreak c || startsArgWs (c :: (b ++ s)))) = true
  rw [word_no_continuation h e, (noSpace_mem h.2.1 (c := c) (by simp [e])).1]; rfl

theorem any_whitespace_x {q p w s} (h : WordText w) (hs : EndsWord s) :
    SemX G.any_whitespace q p w s [] :=
  step_any_whitespace.plus_x.2 ⟨h.1, word_run h hs, rfl⟩

theorem word_after {g w s : Str} (hw : WordText w) (hg : Gap g w) : AfterSpace g (w ++ s) := by
  obtain ⟨h1, h2, h3⟩ := hw
  cases w with
  | nil => exact absurd rfl h1
  | cons c w =>
    refine ⟨word_no_continuation (a := []) ⟨h1, h2, h3⟩ rfl, ?_⟩
    rcases hg.2.2 with h | h
    · exact .inl h
    · refine .inr fun d b e => ?_
      simp only [List.cons_append, List.cons.injEq] at e
      rw [← e.1]
      exact ⟨fun e => h w (by rw [e]), (noSpace_mem h2 (by simp)).1⟩

end Verif
