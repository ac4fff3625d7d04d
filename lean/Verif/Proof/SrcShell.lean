import Verif.Proof.Print3
import Verif.Proof.SrcGap

/-!
# The grammar's `any_breakable` is exactly the shell text of the specification
-/

namespace Verif
namespace Src
open Spec

/-! ## pieces of lines -/

theorem eol_cons {c : Char} {b : Str} : Eol (c :: b) ↔ isBreak c = true := by
  unfold Eol isBreak
  constructor
  · intro h; have := h c b rfl; simpa using this
  · intro h c' b' e; cases e; simpa using h

/-- `any_content` -/
theorem content_iff {q p t r ts} : SemX G.any_content q p t r ts ↔
    t ≠ [] ∧ (∀ c ∈ t, c ≠ '\n' ∧ c ≠ '\r') ∧
      (∀ a b, t = a ++ b → b ≠ [] → ¬ Continuation (b ++ r)) ∧ (Eol r ∨ Continuation r) ∧
      ts = emitToks .atomic .any_content q p (p + blen t) t [] := by
  unfold G.any_content G.atm
  rw [semX_rule]
  constructor
  · rintro ⟨t1, h, rfl⟩
    obtain ⟨h1, ⟨h2, h3⟩, rfl⟩ := step_any_content.plus_x.1 h
    refine ⟨h1, fun c hc => ?_, fun a b e hb => ?_, ?_, rfl⟩
    · obtain ⟨a, b, rfl⟩ := List.append_of_mem hc
      have := h2 a c b rfl
      simp only [Bool.and_eq_true, Bool.not_eq_true'] at this
      exact isBreak_false.1 this.1
    · cases b with
      | nil => exact absurd rfl hb
      | cons c b =>
        have := h2 a c b e
        simp only [Bool.and_eq_true, Option.isNone_iff_eq_none] at this
        exact not_continuation.2 this.2
    · cases r with
      | nil => exact .inl AtEnd.nil
      | cons c b =>
        have := h3 c b rfl
        rw [Bool.and_eq_false_iff] at this
        rcases this with h | h
        · exact .inl (eol_cons.2 (by simpa using h))
        · right
          rw [continuation_iff]
          cases hx : afterContinuation (c :: b) with
          | none => rw [hx] at h; cases h
          | some t => exact ⟨t, rfl⟩
  · rintro ⟨h1, h2, h3, h4, rfl⟩
    refine ⟨[], step_any_content.plus_x.2 ⟨h1, ⟨fun a c b e => ?_, ?_⟩, rfl⟩, rfl⟩
    · have := h3 a (c :: b) e (by simp)
      rw [List.cons_append, not_continuation] at this
      show (!isBreak c && (afterContinuation (c :: (b ++ r))).isNone) = true
      rw [this, isBreak_false.2 (h2 c (by simp [e]))]; rfl
    · rintro c b rfl
      show (!isBreak c && (afterContinuation (c :: b)).isNone) = false
      rcases h4 with h | h
      · rw [eol_cons.1 h]; rfl
      · obtain ⟨t, ht⟩ := continuation_iff.1 h
        rw [ht]; simp

theorem content_none {q p s} : Sem G.any_content q p s none ↔ Eol s ∨ Continuation s := by
  constructor
  · intro h
    cases h with
    | rule_fail h =>
      have := step_any_content.plus_none.1 h
      cases s with
      | nil => exact .inl AtEnd.nil
      | cons c b =>
        have := this c b rfl
        rw [Bool.and_eq_false_iff] at this
        rcases this with h | h
        · exact .inl (eol_cons.2 (by simpa using h))
        · right
          rw [continuation_iff]
          cases hx : afterContinuation (c :: b) with
          | none => rw [hx] at h; cases h
          | some t => exact ⟨t, rfl⟩
  · intro h
    refine .rule_fail (step_any_content.plus_none.2 ?_)
    rintro c b rfl
    rcases h with h | h
    · rw [eol_cons.1 h]; rfl
    · obtain ⟨t, ht⟩ := continuation_iff.1 h
      rw [ht]; simp

/-- A comment line can start here. -/
def StartsComment (s : Str) : Prop := ∃ w u, Blanks w ∧ s = w ++ '#' :: u

theorem comment_line_none' {q p s} : Sem G.comment_line q p s none ↔ ¬ StartsComment s := by
  rw [comment_line_none]
  exact ⟨fun h ⟨w, u, hw, e⟩ => h w u hw e, fun h w u hw e => h ⟨w, u, hw, e⟩⟩

theorem Eol.noComment {r : Str} (h : Eol r) : ¬ StartsComment r := by
  rintro ⟨w, u, hw, rfl⟩
  have := AtEnd.noComment h u
  rw [dropWhile_blanks hw, dropWhile_head (by rfl)] at this
  exact this rfl

theorem breakBody_none {q p s} : Sem breakBody q p s none ↔
    ¬ StartsComment s ∧ (Eol s ∨ Continuation s) := by
  unfold breakBody
  rw [sem_alt_none]
  constructor
  · rintro ⟨h1, h2⟩
    constructor
    · rcases sem_seq_none.1 h1 with h | ⟨_, _, _, _, h⟩
      · exact comment_line_none'.1 h
      · cases h
    · rcases sem_seq_none.1 h2 with h | ⟨_, _, _, _, h⟩
      · exact content_none.1 h
      · cases h
  · rintro ⟨h1, h2⟩
    exact ⟨.seq_fail1 (comment_line_none'.2 h1), .seq_fail1 (content_none.2 h2)⟩

theorem recur_none {q p s} : Sem (.recur .any_breakable) q p s none ↔
    ¬ StartsComment s ∧ (Eol s ∨ Continuation s) := by
  constructor
  · intro h
    cases h with
    | recur h =>
      replace h : Sem (G.cmp .any_breakable breakBody) q p s none := h
      cases h with
      | rule_fail h => exact breakBody_none.1 h
  · intro h
    exact .recur (.rule_fail (breakBody_none.2 h))

/-- the rules whose body is `any_breakable` -/
theorem shell_none {k rl p s} (h : ¬ StartsComment s) (h' : Eol s ∨ Continuation s) :
    Sem (.rule k rl G.any_breakable) false p s none :=
  .rule_fail (.rule_fail (breakBody_none.2 ⟨h, h'⟩))

/-! ## reading shell text -/

theorem shell_body_x {s : Shell} {r : Str} (h : s.Fits r) (p : Nat) :
    ∃ ch, SemX breakBody false p s.text r ch ∧
      breakableComponentsList ch = .ok (s.components p) := by
  induction s generalizing p with
  | last t =>
    obtain ⟨⟨h1, h2, h3, h4⟩, hr⟩ := h
    refine ⟨[.node .any_content p (p + blen t) t []] ++ [], semX_alt.2 (.inr ⟨?_, ?_⟩), rfl⟩
    · exact .seq_fail1 (comment_line_none'.2 fun ⟨w, u, hw, e⟩ => h4 w u hw e)
    · show SemX _ false p t r _
      have := SemX.seq (q := false) (p := p) (x1 := t) (x2 := []) (s' := r) (t2 := [])
        (content_iff.2 ⟨h1, h2, h3, .inl hr, rfl⟩)
        (semX_opt.2 (.inr ⟨rfl, rfl, .seq_fail1 (lex_line_continuation.none_iff.2 ?_)⟩))
        (b := .opt (.seq G.line_continuation (.recur .any_breakable)))
      · simpa [emitToks] using this
      · cases r with
        | nil => rfl
        | cons c b => rcases hr c b rfl with rfl | rfl <;> rfl
  | lastComment w t n =>
    obtain ⟨hw, ht, hn⟩ := h
    refine ⟨[.node .comment (p + blen w) (p + blen w + blen t) t []] ++ [],
      semX_alt.2 (.inl ?_), rfl⟩
    show SemX _ false p (w ++ (t ++ n)) r _
    have := SemX.seq (x1 := w ++ (t ++ n)) (x2 := []) (s' := r) (t2 := []) (p := p)
      (comment_line_iff.2 ⟨w, t, n, rfl, hw, ht, ?_, rfl⟩)
      (semX_opt.2 (.inr ⟨rfl, rfl, recur_none.2 ?_⟩))
    · simpa using this
    · rcases hn with ⟨rfl, rfl⟩ | ⟨hn, -⟩
      · exact .inr ⟨rfl, rfl⟩
      · exact .inl hn
    · have : Eol r := by
        rcases hn with ⟨-, rfl⟩ | ⟨-, hr⟩
        · exact AtEnd.nil
        · exact hr
      exact ⟨this.noComment, .inl this⟩
  | more t w n s ih =>
    obtain ⟨⟨h1, h2, h3, h4⟩, hw, hn, hs⟩ := h
    obtain ⟨ch, k2, k3⟩ := ih hs (p + blen t + 1 + blen w + blen n)
    have e1 : blen ('\\' :: (w ++ n)) = 1 + blen w + blen n := by
      rw [blen_cons, blen_append, show '\\'.utf8Size = 1 from rfl]; omega
    refine ⟨[.node .any_content p (p + blen t) t []] ++ ([] ++ [.node .any_breakable
      (p + blen t + 1 + blen w + blen n) (p + blen t + 1 + blen w + blen n + blen s.text)
      s.text ch]), semX_alt.2 (.inr ⟨?_, ?_⟩), ?_⟩
    · refine .seq_fail1 (comment_line_none'.2 fun ⟨w', u, hw', e⟩ => h4 w' u hw' ?_)
      simpa [Shell.text] using e
    · show SemX _ false p (t ++ '\\' :: (w ++ (n ++ s.text))) r _
      have h4 : SemX G.line_continuation false (p + blen t) ('\\' :: (w ++ n)) (s.text ++ r) [] :=
        line_continuation_iff.2 ⟨w, n, rfl, hw, hn, rfl⟩
      have h5 := SemX.seq h4 (semX_any_breakable.2 ⟨ch, by
        rw [e1, show p + blen t + (1 + blen w + blen n) = p + blen t + 1 + blen w + blen n by omega]
        exact k2, rfl⟩)
      rw [e1, show p + blen t + (1 + blen w + blen n) = p + blen t + 1 + blen w + blen n by omega]
        at h5
      have e2 : '\\' :: (w ++ (n ++ s.text)) = '\\' :: (w ++ n) ++ s.text := by simp
      rw [e2]
      refine SemX.seq (content_iff.2 ⟨h1, h2, ?_, .inr ?_, rfl⟩) (semX_opt.2 (.inl h5))
      · intro a b e hb
        have := h3 a b e hb
        simpa using this
      · exact ⟨w, n, s.text ++ r, by simp, hw, hn⟩
    · simp only [List.cons_append, List.nil_append, breakableComponentsList, Tok.rule,
        breakableComponents, k3, Shell.components]
      simp [Tok.span, Tok.start, Tok.stop, Tok.text, ok_bind]
  | comment w t n s ih =>
    obtain ⟨hw, ht, hn, hs⟩ := h
    obtain ⟨ch, h2, h3⟩ := ih hs (p + blen w + blen t + blen n)
    have e1 : p + blen (w ++ (t ++ n)) = p + blen w + blen t + blen n := by
      rw [blen_append, blen_append]; omega
    refine ⟨[.node .comment (p + blen w) (p + blen w + blen t) t []] ++ [.node .any_breakable
      (p + blen w + blen t + blen n) (p + blen w + blen t + blen n + blen s.text)
      s.text ch], semX_alt.2 (.inl ?_), ?_⟩
    · show SemX _ false p (w ++ (t ++ (n ++ s.text))) r _
      have e2 : w ++ (t ++ (n ++ s.text)) = w ++ (t ++ n) ++ s.text := by simp
      rw [e2]
      refine SemX.seq (comment_line_iff.2 ⟨w, t, n, rfl, hw, ht, .inl hn, rfl⟩)
        (semX_opt.2 (.inl (semX_any_breakable.2 ⟨ch, ?_, ?_⟩)))
      · rw [e1]; exact h2
      · rw [e1]
    · simp only [List.cons_append, List.nil_append, breakableComponentsList, Tok.rule,
        breakableComponents, h3, Shell.components]
      simp [Tok.span, Tok.start, Tok.stop, Tok.text, ok_bind]

theorem shell_x {s : Shell} {r : Str} (h : s.Fits r) (rl : Rule) (p : Nat) :
    ∃ ch, SemX (G.atm rl G.any_breakable) false p s.text r
        [.node rl p (p + blen s.text) s.text ch] ∧
      parseAnyBreakable (.node rl p (p + blen s.text) s.text ch) = .ok (s.string p) := by
  obtain ⟨ch, h1, h2⟩ := shell_body_x h p
  refine ⟨_, semX_rule.2 ⟨_, semX_recur.1 (semX_any_breakable.2 ⟨ch, h1, rfl⟩), rfl⟩, ?_⟩
  simp only [parseAnyBreakable, breakableComponents, breakableComponentsList, Tok.rule, h2]
  simp [ok_bind, Shell.string, Tok.span, Tok.start, Tok.stop]

/-! ## and back -/

theorem shell_body_inv {r : Str} (hr : ¬ Continuation r) (n : Nat) : ∀ {p x ch}, x.length ≤ n →
    SemX breakBody false p x r ch → ∃ s : Shell, s.text = x ∧ s.Fits r := by
  induction n with
  | zero =>
    intro p x ch hn h
    have := h.nonempty (by decide +kernel)
    exact absurd (List.eq_nil_of_length_eq_zero (by omega)) this
  | succ n ih =>
    intro p x ch hn h
    unfold breakBody at h
    rcases semX_alt.1 h with h | ⟨h0, h⟩
    · obtain ⟨x1, x2, t1, t2, rfl, rfl, h1, h2⟩ := semX_seq.1 h
      obtain ⟨w, t, m, rfl, hw, ht, hm, rfl⟩ := comment_line_iff.1 h1
      rcases semX_opt.1 h2 with h2 | ⟨rfl, rfl, h6⟩
      · obtain ⟨ch, h3, -⟩ := semX_any_breakable.1 h2
        have hne := h3.nonempty (by decide +kernel)
        rcases hm with hm | ⟨rfl, hm⟩
        · obtain ⟨s, rfl, hs⟩ := ih (x := x2) (by
            obtain ⟨b, rfl, -⟩ := ht
            simp only [List.length_append, List.length_cons] at hn; omega) h3
          exact ⟨.comment w t m s, by simp [Shell.text], hw, ht, hm, hs⟩
        · simp only [List.append_eq_nil_iff] at hm
          exact absurd hm.1 hne
      · refine ⟨.lastComment w t m, by simp [Shell.text], hw, ht, ?_⟩
        have he := (recur_none.1 h6).2.resolve_right hr
        rcases hm with hm | ⟨rfl, hm⟩
        · exact .inr ⟨hm, he⟩
        · exact .inl ⟨rfl, hm⟩
    · obtain ⟨x1, x2, t1, t2, rfl, rfl, h1, h2⟩ := semX_seq.1 h
      obtain ⟨c1, c2, c3, c4, rfl⟩ := content_iff.1 h1
      have c5 : ¬ StartsComment (x1 ++ x2 ++ r) := by
        rcases sem_seq_none.1 h0 with h | ⟨_, _, _, _, h⟩
        · exact comment_line_none'.1 h
        · cases h
      rcases semX_opt.1 h2 with h2 | ⟨rfl, rfl, h2⟩
      · obtain ⟨y1, y2, t3, t4, rfl, rfl, h3, h4⟩ := semX_seq.1 h2
        obtain ⟨w, m, rfl, hw, hm, rfl⟩ := line_continuation_iff.1 h3
        obtain ⟨ch, h5, -⟩ := semX_any_breakable.1 h4
        obtain ⟨s, rfl, hs⟩ := ih (x := y2) (by
            simp only [List.length_append, List.length_cons] at hn; omega) h5
        refine ⟨.more x1 w m s, by simp [Shell.text], ⟨c1, c2, ?_, ?_⟩, hw, hm, hs⟩
        · intro a b e hb; simpa using c3 a b e hb
        · intro w' u hw' e
          exact c5 ⟨w', u, hw', by simpa using e⟩
      · refine ⟨.last x1, by simp [Shell.text], ⟨c1, c2, ?_, ?_⟩, c4.resolve_right hr⟩
        · intro a b e hb; simpa using c3 a b e hb
        · intro w' u hw' e
          exact c5 ⟨w', u, hw', by simpa using e⟩

theorem shell_inv {k rl p x r ts} (hr : ¬ Continuation r)
    (h : SemX (.rule k rl G.any_breakable) false p x r ts) : ∃ s : Shell, s.text = x ∧ s.Fits r := by
  obtain ⟨t1, h1, -⟩ := semX_rule.1 h
  obtain ⟨t2, h2, -⟩ := semX_rule.1 h1
  exact shell_body_inv hr _ (Nat.le_refl _) h2

theorem Shell.Fits.eol {s : Shell} {r : Str} (h : s.Fits r) : Eol r := by
  induction s with
  | last t => exact h.2
  | lastComment w t n =>
    rcases h.2.2 with ⟨-, rfl⟩ | ⟨-, h⟩
    · exact AtEnd.nil
    · exact h
  | more t w n s ih => exact ih h.2.2.2
  | comment w t n s ih => exact ih h.2.2.2

theorem Shell.Fits.ne {s : Shell} {r : Str} (h : s.Fits r) : s.text ≠ [] := by
  cases s with
  | last t => exact h.1.1
  | lastComment w t n =>
    obtain ⟨b, rfl, -⟩ := h.2.1
    simp [Shell.text]
  | more t w n s => simp [Shell.text]
  | comment w t n s =>
    obtain ⟨b, rfl, -⟩ := h.2.1
    simp [Shell.text]

end Src
end Verif
