import Verif.Proof.Quote
import Verif.Spec.Source

/-!
# The grammar's space, words and quoted strings are exactly those of the specification
-/

namespace Verif
namespace Src
open Spec

theorem eol_iff {r : Str} : Eol r ↔ AtEnd r := Iff.rfl

/-! ## what starts with space -/

theorem dropWhile_split (s : Str) : ∃ w, Blanks w ∧ s = w ++ s.dropWhile isBlank := by
  induction s with
  | nil => exact ⟨[], .nil, rfl⟩
  | cons c s ih =>
    cases hc : isBlank c with
    | false => exact ⟨[], .nil, by rw [dropWhile_head hc]; rfl⟩
    | true =>
      obtain ⟨w, hw, e⟩ := ih
      refine ⟨c :: w, fun d hd => ?_, ?_⟩
      · rcases List.mem_cons.1 hd with rfl | hd
        · exact isBlank_iff.1 hc
        · exact hw d hd
      · rw [List.dropWhile_cons, if_pos hc, List.cons_append, ← e]

theorem lineBreak_blank {n t : Str} (h : LineBreak n t) : (n ++ t).dropWhile isBlank = n ++ t := by
  rcases h with rfl | rfl | ⟨rfl, -⟩ <;> exact dropWhile_head (by rfl)

theorem afterBreak_some {s t : Str} (h : afterBreak s = some t) : ∃ n, s = n ++ t ∧ LineBreak n t := by
  have := lex_NEWLINE.suffix h
  obtain ⟨n, rfl⟩ := this
  refine ⟨n, rfl, lineBreak_iff.2 ⟨?_, h⟩⟩
  rintro rfl
  have := lex_NEWLINE.x (q := false) (p := 0) (x := []) (s' := t) (ts := [])
  exact (this.2 ⟨h, rfl⟩).nonempty (by decide +kernel) rfl

theorem continuation_iff {u : Str} : Continuation u ↔ ∃ t, afterContinuation u = some t := by
  constructor
  · rintro ⟨w, n, t, rfl, hw, hn⟩
    refine ⟨t, ?_⟩
    simp only [afterContinuation]
    rw [dropWhile_blanks hw, lineBreak_blank hn]
    exact (lineBreak_iff.1 hn).2
  · rintro ⟨t, h⟩
    cases u with
    | nil => simp [afterContinuation] at h
    | cons c u =>
      have := afterContinuation_some h
      subst this
      simp only [afterContinuation] at h
      obtain ⟨w, hw, e⟩ := dropWhile_split u
      obtain ⟨n, e2, hn⟩ := afterBreak_some h
      exact ⟨w, n, t, by rw [← e2, ← e], hw, hn⟩

theorem startsSpace_iff {u : Str} : StartsSpace u ↔ startsArgWs u = true := by
  unfold StartsSpace
  rw [continuation_iff]
  cases u with
  | nil => simp [startsArgWs, afterContinuation]
  | cons c u =>
    simp only [startsArgWs, Bool.or_eq_true, isBlank_iff, List.cons.injEq, Option.isSome_iff_exists]
    constructor
    · rintro (⟨c', t, ⟨rfl, rfl⟩, h⟩ | h)
      · exact .inl h
      · exact .inr h
    · rintro (h | h)
      · exact .inl ⟨c, u, ⟨rfl, rfl⟩, h⟩
      · exact .inr h

theorem not_startsSpace {u : Str} : ¬ StartsSpace u ↔ startsArgWs u = false := by
  rw [startsSpace_iff]; simp

theorem not_continuation {u : Str} : ¬ Continuation u ↔ afterContinuation u = none := by
  rw [continuation_iff]
  cases afterContinuation u <;> simp

theorem not_skippable {u : Str} : ¬ Skippable u ↔ NoSkip u := by
  constructor
  · intro h c b e
    obtain ⟨w, hw, e2⟩ := dropWhile_split u
    rw [e] at e2
    refine ⟨?_, ?_⟩
    · rintro rfl; exact h ⟨w, _, e2, hw, .inl ⟨b, rfl⟩⟩
    · cases hb : isBreak c with
      | false => rfl
      | true =>
        have := afterBreak_isNone c b
        rw [hb] at this
        cases ha : afterBreak (c :: b) with
        | none => rw [ha] at this; cases this
        | some t =>
          obtain ⟨n, e3, hn⟩ := afterBreak_some ha
          exact absurd ⟨w, _, e2, hw, .inr ⟨n, t, e3, hn⟩⟩ h
  · rintro h ⟨w, v, rfl, hw, h2⟩
    unfold NoSkip at h
    rw [dropWhile_blanks hw] at h
    rcases h2 with ⟨t, rfl⟩ | ⟨n, t, rfl, hn⟩
    · exact (h '#' t (dropWhile_head (by rfl))).1 rfl
    · rw [lineBreak_blank hn] at h
      rcases hn with rfl | rfl | ⟨rfl, -⟩
      · exact absurd (h _ _ rfl).2 (by decide)
      · exact absurd (h _ _ rfl).2 (by decide)
      · exact absurd (h _ _ rfl).2 (by decide)

/-! ## skipped lines -/

theorem comment_line_iff {p x r ts} : SemX G.comment_line false p x r ts ↔
    ∃ w t n, x = w ++ (t ++ n) ∧ Blanks w ∧ CommentText t ∧ (LineBreak n r ∨ (n = [] ∧ r = [])) ∧
      ts = [.node .comment (p + blen w) (p + blen w + blen t) t []] := by
  unfold G.comment_line
  constructor
  · intro h
    obtain ⟨w, y, t1, t2, rfl, rfl, h1, h2⟩ := semX_seq.1 h
    obtain ⟨t, n, t3, t4, rfl, rfl, h3, h4⟩ := semX_seq.1 h2
    obtain ⟨hw, rfl⟩ := blanks_of h1
    have h3' := h3
    unfold G.comment G.atm at h3
    obtain ⟨t5, h5, rfl⟩ := semX_rule.1 h3
    obtain ⟨x1, b, t6, t7, rfl, rfl, h6, h7⟩ := semX_seq.1 h5
    obtain ⟨rfl, rfl⟩ := semX_str.1 h6
    obtain ⟨h8, rfl⟩ := step_not_newline.star_x.1 h7
    have h9 := runOf_class.1 h8
    have ht : CommentText (['#'] ++ b) := ⟨b, rfl, fun c hc => by
      have := h9.1 c hc
      exact isBreak_false.1 (by simpa using this)⟩
    refine ⟨w, _, n, rfl, hw, ht, ?_, ?_⟩
    · rcases semX_opt.1 h4 with h4 | ⟨rfl, -, h4⟩
      · have := lex_NEWLINE.x.1 h4
        exact .inl (lineBreak_iff.2 ⟨h4.nonempty (by decide +kernel), this.1⟩)
      · right
        refine ⟨rfl, ?_⟩
        have h10 := lex_NEWLINE.none_iff.1 h4
        cases r with
        | nil => rfl
        | cons c r =>
          have := h9.2 c r rfl
          have e := afterBreak_isNone c r
          rw [h10] at e
          simp at e this
          rw [e] at this; cases this
    · have : t4 = [] := by
        rcases semX_opt.1 h4 with h4 | ⟨-, rfl, -⟩
        · exact (lex_NEWLINE.x.1 h4).2
        · rfl
      subst this
      simp [emitToks]
  · rintro ⟨w, t, n, rfl, hw, ht, hn, rfl⟩
    refine SemX.seq (t1 := []) (ws_x hw ?_) (SemX.seq (t2 := []) (comment_x ht ?_) ?_)
    · obtain ⟨b, rfl, -⟩ := ht
      intro c b' e
      simp only [List.cons_append, List.append_assoc, List.cons.injEq] at e
      rw [← e.1]; rfl
    · rcases hn with hn | ⟨rfl, rfl⟩
      · exact AtEnd.break hn
      · exact AtEnd.nil
    · rcases hn with hn | ⟨rfl, rfl⟩
      · exact semX_opt.2 (.inl (lineBreak_sem hn _ _))
      · exact semX_opt.2 (.inr ⟨rfl, rfl, lex_NEWLINE.none_iff.2 rfl⟩)

theorem empty_line_iff {q p x r ts} : SemX G.empty_line q p x r ts ↔
    ∃ w n, x = w ++ n ∧ Blanks w ∧ LineBreak n r ∧ ts = [] := by
  unfold G.empty_line
  constructor
  · intro h
    obtain ⟨w, n, t1, t2, rfl, rfl, h1, h2⟩ := semX_seq.1 h
    obtain ⟨hw, rfl⟩ := blanks_of h1
    have := lex_NEWLINE.x.1 h2
    exact ⟨w, n, rfl, hw, lineBreak_iff.2 ⟨h2.nonempty (by decide +kernel), this.1⟩, by simp [this.2]⟩
  · rintro ⟨w, n, rfl, hw, hn, rfl⟩
    refine SemX.seq (t1 := []) (t2 := []) (ws_x hw ?_) (lineBreak_sem hn _ _)
    intro c b e
    rcases hn with rfl | rfl | ⟨rfl, -⟩ <;> simp at e <;> rw [← e.1] <;> rfl

theorem line_continuation_iff {q p x r ts} : SemX G.line_continuation q p x r ts ↔
    ∃ w n, x = '\\' :: (w ++ n) ∧ Blanks w ∧ LineBreak n r ∧ ts = [] := by
  unfold G.line_continuation
  constructor
  · intro h
    obtain ⟨x1, x2, t1, t2, rfl, rfl, h1, h2⟩ := semX_seq.1 h
    obtain ⟨rfl, rfl⟩ := semX_str.1 h1
    obtain ⟨w, n, rfl, hw, hn, rfl⟩ := empty_line_iff.1 h2
    exact ⟨w, n, rfl, hw, hn, rfl⟩
  · rintro ⟨w, n, rfl, hw, hn, rfl⟩
    exact SemX.seq (x1 := ['\\']) (x2 := w ++ n) (t1 := []) (t2 := [])
      (semX_str.2 ⟨rfl, rfl⟩) (empty_line_iff.2 ⟨w, n, rfl, hw, hn, rfl⟩)

theorem comment_line_none {q p s} : Sem G.comment_line q p s none ↔
    ∀ w u, Blanks w → s ≠ w ++ '#' :: u := by
  constructor
  · rintro h w u hw rfl
    have hs := lex_ws_star q p (w ++ '#' :: u)
    simp only [lexOut] at hs
    rw [dropWhile_blanks hw, dropWhile_head (by rfl)] at hs
    unfold G.comment_line at h
    rcases sem_seq_none.1 h with h | ⟨p1, s1, t1, h1, h2⟩
    · exact absurd (h.det hs) (by simp)
    · have := h1.det hs
      simp only [Option.some.injEq, Prod.mk.injEq] at this
      obtain ⟨rfl, rfl, rfl⟩ := this
      rcases sem_seq_none.1 h2 with h | ⟨p1, s1, t1, h1, h3⟩
      · unfold G.comment G.atm at h
        cases h with
        | rule_fail h =>
          rcases sem_seq_none.1 h with h | ⟨p1, s1, t1, h1, h3⟩
          · have := (lex_str1 '#').none_iff.1 h
            simp [charFn] at this
          · exact absurd h3 Sem.star_ne_none
      · cases h3
  · intro h
    refine comment_line_fails fun b e => ?_
    obtain ⟨w, hw, e2⟩ := dropWhile_split s
    rw [e] at e2
    exact h w b hw e2

theorem skipItem_none {q p s} : Sem (.alt G.comment_line G.empty_line) q p s none ↔ ¬ Skippable s := by
  constructor
  · rintro h ⟨w, v, rfl, hw, h2⟩
    have ⟨h3, h4⟩ := sem_alt_none.1 h
    rcases h2 with ⟨t, rfl⟩ | ⟨n, t, rfl, hn⟩
    · exact comment_line_none.1 h3 w t hw rfl
    · have := (empty_line_iff (q := q) (p := p)).2 ⟨w, n, rfl, hw, hn, rfl⟩
      unfold SemX at this
      rw [List.append_assoc] at this
      exact absurd (h4.det this) (by simp)
  · intro h; exact noSkip_sem (not_skippable.1 h)

theorem skipLines_inv {p x r ts} (h : SemX (.star (.alt G.comment_line G.empty_line)) false p x r ts) :
    SkipLines x r := by
  refine semX_star_induction (P := fun _ x _ => SkipLines x r) ?_ ?_ h
  · intro p h; exact .nil (skipItem_none.1 h)
  · intro p x1 x2 t1 t2 h1 _ ih
    rcases semX_alt.1 h1 with h1 | ⟨-, h1⟩
    · obtain ⟨w, t, n, rfl, hw, ht, hn, -⟩ := comment_line_iff.1 h1
      rcases hn with hn | ⟨rfl, hr⟩
      · simpa using SkipLines.comment hw ht hn ih
      · obtain ⟨rfl, rfl⟩ := List.append_eq_nil_iff.1 hr
        simpa using SkipLines.lastComment hw ht
    · obtain ⟨w, n, rfl, hw, hn, -⟩ := empty_line_iff.1 h1
      simpa using SkipLines.blank hw hn ih

theorem blanks_no_hash {w : Str} (hw : Blanks w) : '#' ∉ w := by
  intro h
  have := hw.mem h
  exact absurd this (by decide)

theorem lineBreak_no_hash {n r : Str} (h : LineBreak n r) : '#' ∉ n := by
  rcases h with rfl | rfl | ⟨rfl, -⟩ <;> decide

theorem blank_not_comment {w n r : Str} (hw : Blanks w) (hn : LineBreak n r) {q p} :
    Sem G.comment_line q p (w ++ n ++ r) none := by
  refine comment_line_fails fun b e => ?_
  rw [List.append_assoc, dropWhile_blanks hw, lineBreak_blank hn] at e
  rcases hn with rfl | rfl | ⟨rfl, -⟩ <;> simp at e

theorem skipLines_x {x r : Str} (h : SkipLines x r) (p : Nat) :
    ∃ cs, SemX (.star (.alt G.comment_line G.empty_line)) false p x r cs ∧ Comments cs ∧
      ('#' ∈ x ↔ cs ≠ []) := by
  induction h generalizing p with
  | nil h => exact ⟨[], .star_nil (skipItem_none.2 h), .nil, by simp⟩
  | @blank w n l r hw hn _ ih =>
    obtain ⟨cs, h1, h2, h3⟩ := ih (p + blen (w ++ n))
    refine ⟨cs, ?_, h2, ?_⟩
    · have := SemX.star_cons (t1 := []) (semX_alt.2 (.inr ⟨?_, empty_line_iff.2
        ⟨w, n, rfl, hw, hn, rfl⟩⟩)) h1
      · simpa using this
      · exact blank_not_comment hw hn
    · simp [blanks_no_hash hw, lineBreak_no_hash hn, h3]
  | @comment w t n l r hw ht hn _ ih =>
    obtain ⟨cs, h1, h2, h3⟩ := ih (p + blen (w ++ (t ++ n)))
    refine ⟨[.node .comment (p + blen w) (p + blen w + blen t) t []] ++ cs, ?_, .append ?_ h2, ?_⟩
    · have := SemX.star_cons (semX_alt.2 (.inl (comment_line_iff.2
        ⟨w, t, n, rfl, hw, ht, .inl hn, rfl⟩))) h1
      simpa using this
    · intro t h; rw [List.mem_singleton.1 h]; rfl
    · obtain ⟨b, rfl, -⟩ := ht; simp
  | @lastComment w t hw ht =>
    refine ⟨[.node .comment (p + blen w) (p + blen w + blen t) t []], ?_, ?_, ?_⟩
    · have := SemX.star_cons (p := p) (x2 := []) (t2 := []) (semX_alt.2 (.inl (comment_line_iff.2
        ⟨w, t, [], rfl, hw, ht, .inr ⟨rfl, rfl⟩, rfl⟩)))
        (SemX.star_nil (skipItem_none.2 ?_))
      · simpa using this
      · rw [not_skippable]; intro c b e; simp at e
    · intro t h; rw [List.mem_singleton.1 h]; rfl
    · obtain ⟨b, rfl, -⟩ := ht; simp

/-! ## space -/

theorem space_inv {p g r ts} (h : SemX G.arg_ws_maybe false p g r ts) : Space g r := by
  unfold G.arg_ws_maybe at h
  refine semX_star_induction (P := fun _ x _ => Space x r) ?_ ?_ h
  · intro p h; exact .nil (not_startsSpace.2 (arg_ws_item_none.1 h))
  · intro p x1 x2 t1 t2 h1 _ ih
    unfold G.arg_ws_item at h1
    rcases semX_alt.1 h1 with h1 | ⟨-, h1⟩
    · obtain ⟨c, rfl, hc, -⟩ := lex_ws.x.1 h1
      exact .blank (isBlank_iff.1 hc) ih
    · obtain ⟨y, l, t3, t4, rfl, rfl, h3, h4⟩ := semX_seq.1 h1
      obtain ⟨w, n, rfl, hw, hn, rfl⟩ := line_continuation_iff.1 h3
      simpa using Space.continuation hw hn (skipLines_inv h4) ih

theorem space_x {g r : Str} (h : Space g r) (p : Nat) :
    ∃ cs, SemX G.arg_ws_maybe false p g r cs ∧ Comments cs ∧ ('#' ∈ g ↔ cs ≠ []) := by
  unfold G.arg_ws_maybe
  induction h generalizing p with
  | nil h => exact ⟨[], .star_nil (arg_ws_item_none.2 (not_startsSpace.1 h)), .nil, by simp⟩
  | @blank c g r hc _ ih =>
    obtain ⟨cs, h1, h2, h3⟩ := ih (p + blen [c])
    refine ⟨cs, ?_, h2, ?_⟩
    · exact SemX.star_cons (x1 := [c]) (x2 := g) (t1 := [])
        (semX_alt.2 (.inl (lex_ws.x.2 ⟨c, rfl, isBlank_iff.2 hc, rfl⟩))) h1
    · rw [← h3]
      have : '#' ≠ c := by rintro rfl; simp at hc
      simp [this]
  | @continuation w n l g r hw hn hl _ ih =>
    obtain ⟨cs, h1, h2, h3⟩ := skipLines_x hl (p + blen ('\\' :: (w ++ n)))
    obtain ⟨ds, k1, k2, k3⟩ := ih (p + blen ('\\' :: (w ++ n) ++ l))
    refine ⟨cs ++ ds, ?_, h2.append k2, ?_⟩
    · have := SemX.star_cons (e := G.arg_ws_item) (q := false) (p := p)
        (x1 := '\\' :: (w ++ n) ++ l) (x2 := g) (s' := r) (t1 := cs) (t2 := ds)
        (semX_alt.2 (.inr ⟨?_, SemX.seq (t1 := []) (line_continuation_iff.2
          ⟨w, n, rfl, hw, hn, rfl⟩) h1⟩)) k1
      · simpa using this
      · exact lex_ws.none_iff.2 rfl
    · simp [blanks_no_hash hw, lineBreak_no_hash hn, h3, k3]
      by_cases h : cs = [] <;> simp [h]

theorem gap_inv {p g r ts} (h : SemX G.arg_ws false p g r ts) : Gap g r := by
  refine ⟨h.nonempty (by decide +kernel), ?_⟩
  obtain ⟨x1, x2, t1, t2, rfl, rfl, h1, h2⟩ := semX_seq.1 h
  exact space_inv (SemX.star_cons h1 h2)

theorem gap_x {g r : Str} (h : Gap g r) (p : Nat) :
    ∃ cs, SemX G.arg_ws false p g r cs ∧ Comments cs ∧ ('#' ∈ g ↔ cs ≠ []) := by
  obtain ⟨cs, h1, h2, h3⟩ := space_x h.2 p
  exact ⟨cs, arg_ws_of_maybe h1 h.1, h2, h3⟩

theorem gap_iff {g r : Str} (p : Nat) : Gap g r ↔ ∃ ts, SemX G.arg_ws false p g r ts :=
  ⟨fun h => let ⟨cs, h1, _⟩ := gap_x h p; ⟨cs, h1⟩, fun ⟨_, h⟩ => gap_inv h⟩

/-- the space at the front of a text is determined -/
theorem Space.unique {g r g' r' : Str} (h : Space g r) (h' : Space g' r') (e : g ++ r = g' ++ r') :
    g = g' ∧ r = r' := by
  obtain ⟨cs, h1, -⟩ := space_x h 0
  obtain ⟨cs', h1', -⟩ := space_x h' 0
  unfold SemX at h1 h1'
  rw [e] at h1
  have := h1.det h1'
  simp only [Option.some.injEq, Prod.mk.injEq] at this
  obtain ⟨-, rfl, -⟩ := this
  exact ⟨List.append_cancel_right e, rfl⟩

theorem Space.starts {g r : Str} (h : Space g r) (hg : g ≠ []) : StartsSpace (g ++ r) := by
  cases h with
  | nil _ => exact absurd rfl hg
  | @blank c g r hc _ => exact .inl ⟨c, _, rfl, hc⟩
  | @continuation w n l g r hw hn hl _ => exact .inr ⟨w, n, l ++ (g ++ r), by simp, hw, hn⟩

theorem Space.ends {g r : Str} (h : Space g r) : ¬ StartsSpace r := by
  induction h with
  | nil h => exact h
  | blank _ _ ih => exact ih
  | continuation _ _ _ _ ih => exact ih

theorem Gap.starts {g r : Str} (h : Gap g r) : StartsSpace (g ++ r) := h.2.starts h.1

theorem exists_space (s : Str) : ∃ g r, s = g ++ r ∧ Space g r := by
  have := parse_sem (e := G.arg_ws_maybe) (by decide +kernel) false 0 s
  generalize parse G.arg_ws_maybe false 0 s = o at this
  rcases o with _ | ⟨p, r, ts⟩
  · exact absurd this Sem.star_ne_none
  · obtain ⟨g, rfl, -, h⟩ := this.x
    exact ⟨g, r, rfl, space_inv h⟩

theorem exists_gap {s : Str} (h : StartsSpace s) : ∃ g r, s = g ++ r ∧ Gap g r := by
  obtain ⟨g, r, rfl, hg⟩ := exists_space s
  refine ⟨g, r, rfl, ?_, hg⟩
  rintro rfl
  exact hg.ends h

theorem arg_ws_none' {p s} : Sem G.arg_ws false p s none ↔ ¬ StartsSpace s := by
  rw [arg_ws_none, not_startsSpace]

theorem Eol.not_starts {r : Str} (h : Eol r) : ¬ StartsSpace r :=
  not_startsSpace.2 (AtEnd.startsArgWs h)

theorem Eol.space {r : Str} (h : Eol r) : Space [] r := .nil h.not_starts

theorem Blanks.space {w r : Str} (hw : Blanks w) (h : ¬ StartsSpace r) : Space w r := by
  induction w with
  | nil => exact .nil h
  | cons c w ih => exact .blank (hw c (by simp)) (ih hw.tail)

/-! ## words -/

theorem wordEnd_iff {c : Char} {b : Str} :
    WordEnd (c :: b) ↔ (isBreak c || startsArgWs (c :: b)) = true := by
  unfold WordEnd
  rw [startsSpace_iff, Bool.or_eq_true]
  have : Eol (c :: b) ↔ isBreak c = true := by
    unfold Eol isBreak
    constructor
    · intro h; have := h c b rfl; simpa using this
    · intro h c' b' e
      cases e; simpa using h
  rw [this]

theorem wordEnd_nil : WordEnd [] := .inl fun c b h => by cases h

theorem word_iff {w r : Str} : Word w r ↔
    w ≠ [] ∧ RunOf (fun c s => !(isBreak c || startsArgWs (c :: s))) w r := by
  unfold Word RunOf
  constructor
  · rintro ⟨h1, h2, h3⟩
    refine ⟨h1, fun a c b e => ?_, ?_⟩
    · have := h2 a (c :: b) e (by simp)
      rw [List.cons_append, wordEnd_iff] at this
      simpa using this
    · rintro c b rfl
      have := wordEnd_iff.1 h3
      simp [this]
  · rintro ⟨h1, h2, h3⟩
    refine ⟨h1, fun a b e hb => ?_, ?_⟩
    · cases b with
      | nil => exact absurd rfl hb
      | cons c b =>
        have := h2 a c b e
        rw [List.cons_append, wordEnd_iff]
        simpa using this
    · cases r with
      | nil => exact wordEnd_nil
      | cons c b =>
        have := h3 c b rfl
        rw [wordEnd_iff]
        exact Bool.not_eq_false' .. ▸ this

theorem any_whitespace_iff {q p w r ts} : SemX G.any_whitespace q p w r ts ↔ Word w r ∧ ts = [] := by
  unfold G.any_whitespace
  rw [step_any_whitespace.plus_x, word_iff, and_assoc]

theorem any_whitespace_none {q p s} : Sem G.any_whitespace q p s none ↔ WordEnd s := by
  unfold G.any_whitespace
  rw [step_any_whitespace.plus_none]
  cases s with
  | nil => exact ⟨fun _ => wordEnd_nil, fun _ c b h => by cases h⟩
  | cons c b =>
    rw [wordEnd_iff]
    constructor
    · intro h; exact Bool.not_eq_false' .. ▸ h c b rfl
    · intro h c' b' e; cases e; simp [h]

theorem nameWord_iff {t r : Str} : NameWord t r ↔
    t ≠ [] ∧ RunOf (fun c _ => !(isBreak c || (isBlank c || c == '='))) t r := by
  have key : ∀ c, EndsName c ↔ (isBreak c || (isBlank c || c == '=')) = true := by
    intro c; simp [EndsName, isBreak, isBlank, or_assoc]
    constructor
    · rintro (h | h | h | h | h) <;> simp [h]
    · rintro (h | h | h | h | h) <;> simp [h]
  unfold NameWord
  rw [runOf_class]
  simp only [key, Bool.not_eq_true, Bool.not_eq_eq_eq_not, Bool.not_true, Bool.not_false]

theorem any_equals_iff {q p t r ts} : SemX G.any_equals q p t r ts ↔ NameWord t r ∧ ts = [] := by
  unfold G.any_equals
  rw [step_any_equals.plus_x, nameWord_iff, and_assoc]

/-! ## quoted strings -/

theorem quotedBody_chars {q : Char} {x t : Str} (hq : q = '"' ∨ q = '\'')
    (hx : ∀ c ∈ x, (c != '"' && c != '\'' && c != '\\' && c != '\x00' && c != '\x1F') = true)
    (ht : QuotedBody q t) : QuotedBody q (x ++ t) := by
  induction x with
  | nil => exact ht
  | cons c x ih =>
    have := hx c (by simp)
    simp only [Bool.and_eq_true, bne_iff_ne] at this
    refine .chr ?_ (by simp [this]) (by simp [this]) (by simp [this])
      (ih fun d hd => hx d (by simp [hd]))
    rcases hq with rfl | rfl <;> simp [this]

theorem escape_inv {q : Char} (hq : q = '"' ∨ q = '\'') {p x b s ts}
    (h : SemX G.escape true p x (b ++ q :: s) ts) (hb : QuotedBody q b) : QuotedBody q (x ++ b) := by
  rw [escape_eq] at h
  obtain ⟨t1, h1, -⟩ := semX_rule.1 h
  obtain ⟨x1, y, t2, t3, rfl, rfl, h2, h3⟩ := semX_seq.1 h1
  obtain ⟨rfl, -⟩ := semX_str.1 h2
  rw [List.cons_append, List.nil_append, List.cons_append]
  rcases semX_opt.1 h3 with h3 | ⟨rfl, -, h3⟩
  · have hne := h3.nonempty (by decide +kernel)
    have fin : ∀ y : Str, y ≠ [] →
        (∀ c ∈ y, (c != '"' && c != '\'' && c != '\\' && c != '\x00' && c != '\x1F') = true) →
        QuotedBody q ('\\' :: (y ++ b)) := by
      intro y hy hc
      have := quotedBody_chars hq hc hb
      cases y with
      | nil => exact absurd rfl hy
      | cons c y =>
        have hc := hc c (by simp)
        simp only [Bool.and_eq_true, bne_iff_ne] at hc
        exact .backslash (by simp [hc]) (by simp [hc]) (by simp [hc]) this
    unfold escapeTail at h3
    simp only [semX_alt, semX_str] at h3
    rcases h3 with h1 | ⟨-, h1 | ⟨-, h1 | ⟨-, h1 | ⟨-, h1 | ⟨-, h1 | ⟨-, h1 | ⟨-, h1 |
      ⟨-, h1 | ⟨-, h1⟩⟩⟩⟩⟩⟩⟩⟩⟩
    · exact fin y hne (by rw [h1.1]; decide)
    · exact fin y hne (by rw [h1.1]; decide)
    · exact fin y hne (by rw [h1.1]; decide)
    · exact fin y hne (by rw [h1.1]; decide)
    · exact fin y hne (by rw [h1.1]; decide)
    · rw [h1.1]; exact .escaped (by simp) hb
    · rw [h1.1]; exact .escaped (by simp) hb
    · rw [h1.1]; exact .escaped (by simp) hb
    · exact fin y hne (SemX.chars (by decide +kernel) h1)
    · exact fin y hne (SemX.chars (by decide +kernel) h1)
  · unfold escapeTail at h3
    simp only [sem_alt_none, (lex_str1 _).none_iff] at h3
    rw [List.nil_append]
    cases b with
    | nil =>
      rcases hq with rfl | rfl
      · exact absurd h3.2.2.2.2.2.1 (by simp [charFn])
      · exact absurd h3.2.2.2.2.2.2.2.1 (by simp [charFn])
    | cons c b =>
      refine .backslash ?_ ?_ ?_ hb
      · rintro rfl; exact absurd h3.2.2.2.2.2.1 (by simp [charFn])
      · rintro rfl; exact absurd h3.2.2.2.2.2.2.2.1 (by simp [charFn])
      · rintro rfl; exact absurd h3.2.2.2.2.2.2.1 (by simp [charFn])

theorem inner_inv {q : Char} {r : Rule} {rr : RecRule} (hq : q = '"' ∨ q = '\'')
    (hr : G.body rr = innerOf q r rr) (s : Str) : ∀ (n : Nat) (b : Str), b.length ≤ n →
    ∀ p ts, SemX (innerOf q r rr) true p b (q :: s) ts → QuotedBody q b := by
  intro n
  induction n with
  | zero =>
    intro b hb p ts h
    have := List.eq_nil_of_length_eq_zero (Nat.le_zero.1 hb)
    subst this; exact .nil
  | succ n ih =>
    intro b hb p ts h
    obtain ⟨t1, h1, -⟩ := semX_rule.1 h
    obtain ⟨x, y, t2, t3, rfl, rfl, h2, h3⟩ := semX_seq.1 h1
    have h4 := (runOf_class.1 ((step_quoted q).star_x.1 h2).1).1
    have hy : QuotedBody q y := by
      rcases semX_opt.1 h3 with h3 | ⟨rfl, -, -⟩
      · obtain ⟨z, u, t4, t5, rfl, rfl, h5, h6⟩ := semX_seq.1 h3
        have h7 := semX_recur.1 h6
        rw [hr] at h7
        have hz := h5.nonempty (by decide +kernel)
        refine escape_inv hq h5 (ih u ?_ _ _ h7)
        have : z.length ≠ 0 := fun h => hz (List.eq_nil_of_length_eq_zero h)
        simp only [List.length_append] at hb
        omega
      · exact .nil
    clear h1 h2 h3 hb h
    induction x with
    | nil => exact hy
    | cons c x ihx =>
      have := h4 c (by simp)
      simp only [Bool.not_eq_true', Bool.or_eq_false_iff, beq_eq_false_iff_ne] at this
      exact .chr this.1 this.2.1 this.2.2.1 this.2.2.2 (ihx fun d hd => h4 d (by simp [hd]))

theorem string_inv {q p v s ts} (h : SemX G.string q p v s ts) : QuotedText v := by
  obtain ⟨t1, h1, -⟩ := semX_rule.1 h
  rcases semX_alt.1 h1 with h1 | ⟨-, h1⟩
  · obtain ⟨t2, h2, -⟩ := semX_rule.1 h1
    obtain ⟨x1, x2, t3, t4, rfl, rfl, h3, h4⟩ := semX_seq.1 h2
    obtain ⟨x3, x4, t5, t6, rfl, rfl, h5, h6⟩ := semX_seq.1 h4
    obtain ⟨rfl, -⟩ := semX_str.1 h3
    obtain ⟨rfl, -⟩ := semX_str.1 h6
    exact ⟨'\'', x3, rfl, .inr rfl, inner_inv (r := .single_quoted_inner)
      (rr := .single_quoted_inner) (.inr rfl) rfl s _ x3 (Nat.le_refl _) _ _ h5⟩
  · obtain ⟨t2, h2, -⟩ := semX_rule.1 h1
    obtain ⟨x1, x2, t3, t4, rfl, rfl, h3, h4⟩ := semX_seq.1 h2
    obtain ⟨x3, x4, t5, t6, rfl, rfl, h5, h6⟩ := semX_seq.1 h4
    obtain ⟨rfl, -⟩ := semX_str.1 h3
    obtain ⟨rfl, -⟩ := semX_str.1 h6
    exact ⟨'"', x3, rfl, .inl rfl, inner_inv (r := .inner)
      (rr := .inner) (.inl rfl) rfl s _ x3 (Nat.le_refl _) _ _ h5⟩

theorem string_none' {q p s} : Sem G.string q p s none ↔ NoQuoted s := by
  constructor
  · rintro h t r rfl ht
    obtain ⟨ch, h2⟩ := string_x ht q p r
    exact absurd (h.det h2) (by simp)
  · intro h
    have := parse_sem (e := G.string) (by decide +kernel) q p s
    rcases hp : parse G.string q p s with _ | ⟨p', r, ts⟩
    · rw [hp] at this; exact this
    · rw [hp] at this
      obtain ⟨x, rfl, -, h2⟩ := this.x
      exact absurd (string_inv h2) (h x r rfl)

/-- the quoted text at the front of a text is determined -/
theorem quoted_unique {t r t' r' : Str} (h : QuotedText t) (h' : QuotedText t')
    (e : t ++ r = t' ++ r') : t = t' ∧ r = r' := by
  obtain ⟨cs, h1⟩ := string_x h false 0 r
  obtain ⟨cs', h1'⟩ := string_x h' false 0 r'
  unfold SemX at h1 h1'
  rw [e] at h1
  have := h1.det h1'
  simp only [Option.some.injEq, Prod.mk.injEq] at this
  obtain ⟨-, rfl, -⟩ := this
  exact ⟨List.append_cancel_right e, rfl⟩

end Src
end Verif
