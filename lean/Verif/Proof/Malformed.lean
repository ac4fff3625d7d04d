import Verif.Proof.SrcDoc
import Verif.Proof.Local
import Verif.Spec.Malformed

/-!
# What the grammar leaves of a malformed line
-/

namespace Verif
namespace Src
open Spec

theorem clean_iff {r : Str} : Clean r ↔ Rest r := Iff.rfl

/-- `e` reads a part of `u`, and something other than blanks is left in the line. -/
def Leaves (e : PExpr) (u : Str) : Prop := ∀ p, ∃ x s ts, u = x ++ s ∧ SemX e false p x s ts ∧ ¬ Clean s

theorem Continuation.not_clean {s : Str} (h : Continuation s) : ¬ Clean s := fun hc =>
  Rest.not_continuation hc h

theorem Continuation.noComment {s : Str} (h : Continuation s) : ¬ StartsComment s := by
  rintro ⟨w', u, hw', rfl⟩
  obtain ⟨w2, n2, t2, e, -⟩ := h
  cases w' with
  | nil => cases e
  | cons c w' =>
    have := hw' c (by simp)
    rw [(List.cons.inj e).1] at this
    exact absurd this (by decide)

/-! ## shell text -/

theorem Unfinished.read {v : Str} (h : Unfinished v) : Continuation v ∨
    ∀ p, ∃ x s ts, v = x ++ s ∧ SemX breakBody false p x s ts ∧ Continuation s := by
  induction h with
  | nothing h => exact .inl h
  | @empty t w n v ht hw hn hv =>
    obtain ⟨h1, h2, h3, h4⟩ := ht
    refine .inr fun p => ⟨t, _, [.node .any_content p (p + blen t) t []] ++ [], rfl,
      semX_alt.2 (.inr ⟨.seq_fail1 (comment_line_none'.2 fun ⟨w, u, hw, e⟩ => h4 w u hw e), ?_⟩), w, n, v, rfl, hw, hn⟩
    have hc : Continuation ('\\' :: (w ++ (n ++ v))) := ⟨w, n, v, rfl, hw, hn⟩
    have := SemX.seq (q := false) (p := p) (x1 := t) (x2 := []) (s' := '\\' :: (w ++ (n ++ v))) (t2 := [])
      (content_iff.2 ⟨h1, h2, h3, .inr hc, rfl⟩)
      (semX_opt.2 (.inr ⟨rfl, rfl, .seq_fail2 (p1 := p + blen t + blen ('\\' :: (w ++ n))) (s1 := v) (t1 := [])
        (by
          have : SemX G.line_continuation false (p + blen t) ('\\' :: (w ++ n)) v [] :=
            line_continuation_iff.2 ⟨w, n, rfl, hw, hn, rfl⟩
          unfold SemX at this
          simpa using this) (recur_none.2 ⟨hv.noComment, .inl hv⟩)⟩))
      (b := .opt (.seq G.line_continuation (.recur .any_breakable)))
    simpa [emitToks] using this
  | @more t w n v ht hw hn hv ih =>
    obtain ⟨h1, h2, h3, h4⟩ := ht
    have hc : Continuation ('\\' :: (w ++ (n ++ v))) := ⟨w, n, v, rfl, hw, hn⟩
    have hlc : ∀ p, SemX G.line_continuation false p ('\\' :: (w ++ n)) v [] := fun p =>
      line_continuation_iff.2 ⟨w, n, rfl, hw, hn, rfl⟩
    have h0 : ∀ p, Sem (.seq G.comment_line (.opt (.recur .any_breakable))) false p (t ++ '\\' :: (w ++ (n ++ v))) none :=
      fun p => .seq_fail1 (comment_line_none'.2 fun ⟨w, u, hw, e⟩ => h4 w u hw e)
    refine .inr fun p => ?_
    rcases ih with ih | ih
    · refine ⟨t, _, [.node .any_content p (p + blen t) t []] ++ [], rfl, semX_alt.2 (.inr ⟨h0 p, ?_⟩), hc⟩
      have hnc : ¬ StartsComment v := Continuation.noComment ih
      have := SemX.seq (q := false) (p := p) (x1 := t) (x2 := []) (s' := '\\' :: (w ++ (n ++ v))) (t2 := [])
        (content_iff.2 ⟨h1, h2, h3, .inr hc, rfl⟩)
        (semX_opt.2 (.inr ⟨rfl, rfl, .seq_fail2 (p1 := p + blen t + blen ('\\' :: (w ++ n))) (s1 := v) (t1 := [])
          (by
            have := hlc (p + blen t)
            unfold SemX at this
            simpa using this) (recur_none.2 ⟨hnc, .inr ih⟩)⟩))
        (b := .opt (.seq G.line_continuation (.recur .any_breakable)))
      simpa [emitToks] using this
    · obtain ⟨x, s, ts, rfl, k1, k2⟩ := ih (p + blen t + blen ('\\' :: (w ++ n)))
      have hx := SemX.seq (b := .opt (.seq G.line_continuation (.recur .any_breakable)))
        (content_iff.2 ⟨h1, h2, by simpa using h3, .inr (by simpa using hc), rfl⟩ :
          SemX G.any_content false p t ('\\' :: (w ++ n) ++ x ++ s) _)
        (semX_opt.2 (.inl (SemX.seq (hlc _) (semX_any_breakable.2 ⟨_, k1, rfl⟩))))
      exact ⟨t ++ ('\\' :: (w ++ n) ++ x), s, _, by simp, semX_alt.2 (.inr ⟨by simpa using h0 p, hx⟩), k2⟩
  | @comment w t n v hw ht hn hv ih =>
    refine .inr fun p => ?_
    have hcl : SemX G.comment_line false p (w ++ (t ++ n)) v _ := comment_line_iff.2 ⟨w, t, n, rfl, hw, ht, .inl hn, rfl⟩
    rcases ih with ih | ih
    · have hnc : ¬ StartsComment v := Continuation.noComment ih
      have := SemX.seq (x1 := w ++ (t ++ n)) (x2 := []) (s' := v) (t2 := []) hcl
        (semX_opt.2 (.inr ⟨rfl, rfl, recur_none.2 ⟨hnc, .inr ih⟩⟩))
      rw [List.append_nil (w ++ (t ++ n))] at this
      exact ⟨w ++ (t ++ n), v, _, by simp, semX_alt.2 (.inl this), ih⟩
    · obtain ⟨x, s, ts, rfl, k1, k2⟩ := ih (p + blen (w ++ (t ++ n)))
      exact ⟨w ++ (t ++ n) ++ x, s, _, by simp, semX_alt.2 (.inl (SemX.seq hcl
        (semX_opt.2 (.inl (semX_any_breakable.2 ⟨_, k1, rfl⟩))))), k2⟩

theorem unfinished_of {s : Str} (hs : Continuation s) (n : Nat) : ∀ {p x ch}, x.length ≤ n →
    SemX breakBody false p x s ch → Unfinished (x ++ s) := by
  induction n with
  | zero =>
    intro p x ch hn h
    have := h.nonempty (by decide +kernel)
    exact absurd (List.eq_nil_of_length_eq_zero (by omega)) this
  | succ n ih =>
    intro p x ch hn h
    unfold breakBody at h
    rcases semX_alt.1 h with h | ⟨h0, h⟩
    · obtain ⟨x1, x2, t1, t2, rfl, rfl, h1, h2⟩ := semX_seq.1 h
      obtain ⟨w, t, m, rfl, hw, ht, hm, rfl⟩ := comment_line_iff.1 h1
      replace hm : LineBreak m (x2 ++ s) := by
        rcases hm with hm | ⟨-, hm⟩
        · exact hm
        · simp only [List.append_eq_nil_iff] at hm
          obtain ⟨_, _, _, e, -⟩ := hs
          rw [hm.2] at e; cases e
      have e : w ++ (t ++ m) ++ x2 ++ s = w ++ (t ++ (m ++ (x2 ++ s))) := by simp
      rw [e]
      rcases semX_opt.1 h2 with h2 | ⟨rfl, rfl, h6⟩
      · obtain ⟨ch, h3, -⟩ := semX_any_breakable.1 h2
        refine .comment hw ht hm (ih (x := x2) ?_ h3)
        obtain ⟨b, rfl, -⟩ := ht
        simp only [List.length_append, List.length_cons] at hn; omega
      · exact .comment hw ht hm (.nothing hs)
    · obtain ⟨x1, x2, t1, t2, rfl, rfl, h1, h2⟩ := semX_seq.1 h
      obtain ⟨c1, c2, c3, c4, rfl⟩ := content_iff.1 h1
      have c5 : ¬ StartsComment (x1 ++ x2 ++ s) := by
        rcases sem_seq_none.1 h0 with h | ⟨_, _, _, _, h⟩
        · exact comment_line_none'.1 h
        · cases h
      rcases semX_opt.1 h2 with h2 | ⟨rfl, rfl, h6⟩
      · obtain ⟨y1, y2, t3, t4, rfl, rfl, h3, h4⟩ := semX_seq.1 h2
        obtain ⟨w, m, rfl, hw, hm, rfl⟩ := line_continuation_iff.1 h3
        obtain ⟨ch, h5, -⟩ := semX_any_breakable.1 h4
        have := ih (x := y2) (by
            simp only [List.length_append, List.length_cons] at hn; omega) h5
        have e : x1 ++ ('\\' :: (w ++ m) ++ y2) ++ s = x1 ++ '\\' :: (w ++ (m ++ (y2 ++ s))) := by simp
        rw [e] at c5 ⊢
        refine .more ⟨c1, c2, ?_, fun w' u hw' e => c5 ⟨w', u, hw', e⟩⟩ hw hm this
        intro a b e hb; simpa using c3 a b e hb
      · rw [List.append_nil] at c5 ⊢
        obtain ⟨w, m, v, rfl, hw, hm⟩ := hs
        have hp : Shell.Piece x1 ('\\' :: (w ++ (m ++ v))) :=
          ⟨c1, c2, fun a b e hb => by simpa using c3 a b e hb, fun w' u hw' e => c5 ⟨w', u, hw', e⟩⟩
        rcases sem_seq_none.1 h6 with h3 | ⟨p1, s1, t1, h3, h4⟩
        · have k : SemX G.line_continuation false (p + blen x1) ('\\' :: (w ++ m)) v [] :=
            line_continuation_iff.2 ⟨w, m, rfl, hw, hm, rfl⟩
          refine absurd h3 (by have := sem_not_none k; simpa using this)
        · have k : SemX G.line_continuation false (p + blen x1) ('\\' :: (w ++ m)) v [] :=
            line_continuation_iff.2 ⟨w, m, rfl, hw, hm, rfl⟩
          unfold SemX at k
          have := h3.det (by simpa using k)
          simp only [Option.some.injEq, Prod.mk.injEq] at this
          obtain ⟨rfl, rfl, -⟩ := this
          rcases (recur_none.1 h4).2 with h5 | h5
          · exact .empty hp hw hm h5
          · exact .more hp hw hm (.nothing h5)

theorem shell_none_iff {k : Kind} {rl : Rule} {p : Nat} {v : Str} :
    (Sem (.rule k rl G.any_breakable) false p v none ↔ ¬ StartsComment v ∧ (Eol v ∨ Continuation v)) := by
  constructor
  · intro h
    cases h with
    | rule_fail h =>
      replace h : Sem (G.cmp .any_breakable breakBody) _ _ _ none := h
      cases h with
      | rule_fail h => exact breakBody_none.1 h
  · rintro ⟨h1, h2⟩; exact shell_none h1 h2

theorem SemX.same {e : PExpr} {q : Bool} {p : Nat} {u x s x' s' : Str} {ts ts' : List Tok} (h : SemX e q p x s ts)
    (h' : SemX e q p x' s' ts') (hu : u = x ++ s) (hu' : u = x' ++ s') : x = x' ∧ s = s' := by
  subst hu
  unfold SemX at h h'
  rw [← hu'] at h'
  have := h.det h'
  simp only [Option.some.injEq, Prod.mk.injEq] at this
  obtain ⟨-, rfl, -⟩ := this
  exact ⟨List.append_cancel_right hu', rfl⟩

/-- What is left of shell text. -/
theorem shell_left {k rl p x s ts} (h : SemX (.rule k rl G.any_breakable) false p x s ts) (hs : ¬ Clean s) :
    Unfinished (x ++ s) := by
  by_cases hc : Continuation s
  · obtain ⟨t1, h1, -⟩ := semX_rule.1 h
    obtain ⟨t2, h2, -⟩ := semX_rule.1 h1
    exact unfinished_of hc _ (Nat.le_refl _) h2
  · obtain ⟨t, -, ht⟩ := shell_inv hc h
    exact absurd ⟨[], s, rfl, .nil, ht.eol⟩ hs

theorem shell_leaves {rl : Rule} {v : Str} (h : Unfinished v) (hv : ¬ Continuation v) :
    Leaves (G.atm rl G.any_breakable) v := by
  intro p
  obtain ⟨x, s, ts, rfl, h1, h2⟩ := h.read.resolve_left hv p
  exact ⟨x, s, _, rfl, semX_rule.2 ⟨_, semX_recur.1 (semX_any_breakable.2 ⟨_, h1, rfl⟩), rfl⟩, h2.not_clean⟩

/-! ## FROM -/

theorem from_left {kw : Str} (hk : lower kw = c!"from") {p x s ts} (h : SemX fromBody false p x s ts) (hs : ¬ Clean s) :
    Malformed (kw ++ (x ++ s)) := by
  obtain ⟨x1, y, _, _, rfl, -, h1, h2⟩ := semX_seq.1 h
  obtain ⟨⟨fs, rfl, hf⟩, p', hn⟩ := flags_inv (r := .from_flag) (rn := .from_flag_name) (rv := .from_flag_value) h1
  obtain ⟨g, y, _, _, rfl, -, hg, h3⟩ := gap_seq h2
  obtain ⟨i, y, _, _, rfl, -, h4, h5⟩ := semX_seq.1 h3
  obtain ⟨_, h6, -⟩ := semX_rule.1 h4
  obtain ⟨i1, i2, -⟩ := step_image.plus_x.1 h6
  have i3 := runOf_class.1 i2
  rw [List.append_assoc, gap_seq_none hg, flag_none] at hn
  have e : flagsText fs ++ (g ++ (i ++ y)) ++ s = flagsText fs ++ (g ++ (i ++ (y ++ s))) := by simp
  rw [e]
  refine .from hk (by simpa using hf) (by simpa using hg) i1 (fun c hc => isImageChar_iff.1 (i3.1 c hc))
    (by simpa using hn) (fun c b e hc => ?_) (fun hc => ?_) (fun a r' e ha hc => ?_)
  · have := i3.2 c b e
    rw [isImageChar_iff.2 hc] at this; cases this
  · have := SemX.same h5 (from_alias_none hc _) rfl (by simp)
    rw [this.2] at hs; exact hs hc
  · obtain ⟨_, _, k1, -⟩ := alias_x ha hc (p + blen (flagsText fs) + blen g + blen i)
    have := SemX.same h5 k1 rfl e
    rw [this.2] at hs; exact hs hc

theorem from_leaves {fs : List Flag} {g i r : Str} (h1 : FlagsFit fs (g ++ (i ++ r))) (h2 : Gap g (i ++ r)) (h3 : i ≠ [])
    (h4 : ∀ c ∈ i, IsImageChar c) (h5 : ¬ StartsFlag (i ++ r)) (h6 : ∀ c b, r = c :: b → ¬ IsImageChar c)
    (h7 : ¬ Clean r) (h8 : ∀ a r', r = a.text ++ r' → AliasFits a r' → ¬ Clean r') :
    Leaves fromBody (flagsText fs ++ (g ++ (i ++ r))) := by
  intro p
  obtain ⟨ts, f1, -⟩ := flags_x .from_flag .from_flag_name .from_flag_value h1 (fun p => gap_flag_none _ _ _ h2 h5) p
  replace f1 : SemX (.star (.seq G.arg_ws G.from_flag)) _ _ _ _ _ := f1
  obtain ⟨ds, k1, -⟩ := gap_x h2 (p + blen (flagsText fs))
  have him : SemX G.from_image false (p + blen (flagsText fs) + blen g) i r _ :=
    semX_rule.2 ⟨[], step_image.plus_x.2 ⟨h3, runOf_class.2 ⟨fun c hc => isImageChar_iff.2 (h4 c hc),
      fun c b e => by
        cases hx : isImageChar c with
        | false => rfl
        | true => exact absurd (isImageChar_iff.1 hx) (h6 c b e)⟩, rfl⟩, rfl⟩
  rcases sem_or (e := .opt G.from_alias_outer) (by decide +kernel) false (p + blen (flagsText fs) + blen g + blen i) r with
    h | ⟨y, s, us, rfl, h⟩
  · cases h
  · refine ⟨flagsText fs ++ (g ++ (i ++ y)), s, _, by simp, SemX.seq (by simpa using f1)
      (SemX.seq (by simpa using k1) (SemX.seq him h)), ?_⟩
    obtain ⟨a, rfl, ha⟩ := alias_inv h
    cases a with
    | none => exact h7
    | some a => exact h8 a s rfl (ha a rfl)

/-! ## ARG -/

theorem clean_equals {s : Str} (hs : Clean s) (p : Nat) : Sem (.str ['=']) false p s none := by
  refine (lex_str1 '=').none_iff.2 ?_
  cases s with
  | nil => rfl
  | cons c b =>
    show charFn _ _ = _
    rw [charFn]
    rcases (Rest.endsWord hs).sep c b rfl with h | h | rfl
    · rcases isBlank_iff.1 h with rfl | rfl <;> rfl
    · simp only [isBreak, Bool.or_eq_true, beq_iff_eq] at h
      rcases h with rfl | rfl <;> rfl
    · rfl

theorem arg_left {kw : Str} (hk : lower kw = c!"arg") {p x s ts} (h : SemX argBody false p x s ts) (hs : ¬ Clean s) :
    Malformed (kw ++ (x ++ s)) := by
  obtain ⟨g, y, _, _, rfl, -, hg, h3⟩ := gap_seq h
  obtain ⟨n, y, _, _, rfl, -, h4, h5⟩ := semX_seq.1 h3
  obtain ⟨_, h6, -⟩ := semX_rule.1 h4
  obtain ⟨x1, n, _, _, rfl, -, h1, h2⟩ := semX_seq.1 h6
  obtain ⟨c, rfl, hc, -⟩ := step_alpha.x.1 h1
  have hn := runOf_class.1 (step_word.star_x.1 h2).1
  have e : g ++ ([c] ++ n ++ y) ++ s = g ++ (c :: (n ++ (y ++ s))) := by simp
  rw [e]
  refine .arg hk (by simpa using hg) (isAlpha_iff.1 hc) (fun d hd => isWord_iff.1 (hn.1 d hd)) (fun d b e hc => ?_)
    (fun hc => ?_) (fun v r' e hv hc => ?_)
  · have := hn.2 d b e
    rw [isWord_iff.2 hc] at this; cases this
  · have k := semX_opt (e := .seq (.str ['=']) (.alt G.arg_quoted_value G.arg_value)) (q := false)
      (p := p + blen g + blen ([c] ++ n)) (x := []) (s' := y ++ s) (ts := []) |>.2
      (.inr ⟨rfl, rfl, .seq_fail1 (clean_equals (by simpa using hc) _)⟩)
    have := SemX.same h5 k rfl (by simp)
    rw [this.2] at hs; exact hs hc
  · obtain ⟨ch, h6⟩ := value_x .arg_quoted_value .arg_value hv false (p + blen g + blen ([c] ++ n) + 1)
    have k := semX_opt (e := .seq (.str ['=']) (.alt G.arg_quoted_value G.arg_value)) |>.2
      (.inl (SemX.seq (x1 := ['=']) (t1 := []) (semX_str.2 ⟨rfl, rfl⟩) h6))
    have := SemX.same h5 k rfl (by simpa using e)
    rw [this.2] at hs; exact hs hc

theorem arg_leaves {g : Str} {c : Char} {n r : Str} (h1 : Gap g (c :: (n ++ r))) (h2 : IsAlpha c) (h3 : ∀ d ∈ n, IsWord d)
    (h4 : ∀ c b, r = c :: b → ¬ IsWord c) (h5 : ¬ Clean r)
    (h6 : ∀ (v : Value) r', r = '=' :: (v.text ++ r') → v.Fits r' → ¬ Clean r') :
    Leaves argBody (g ++ (c :: (n ++ r))) := by
  intro p
  obtain ⟨cs, k1, -⟩ := gap_x h1 p
  have hname : SemX G.arg_name false (p + blen g) (c :: n) r _ :=
    semX_rule.2 ⟨[] ++ [], SemX.seq (x1 := [c]) (x2 := n) (step_alpha.x.2 ⟨c, rfl, isAlpha_iff.2 h2, rfl⟩)
      (step_word.star_x.2 ⟨runOf_class.2 ⟨fun d hd => isWord_iff.2 (h3 d hd), fun c b e => by
        cases hx : isWord c with
        | false => rfl
        | true => exact absurd (isWord_iff.1 hx) (h4 c b e)⟩, rfl⟩), rfl⟩
  rcases sem_or (e := .opt (.seq (.str ['=']) (.alt G.arg_quoted_value G.arg_value))) (by decide +kernel) false
    (p + blen g + blen (c :: n)) r with h | ⟨y, s, us, rfl, h⟩
  · cases h
  · refine ⟨g ++ (c :: n ++ y), s, _, by simp, SemX.seq (by simpa using k1) (SemX.seq hname h), ?_⟩
    rcases semX_opt.1 h with h | ⟨rfl, -, -⟩
    · obtain ⟨x1, x2, _, _, rfl, -, h7, h8⟩ := semX_seq.1 h
      obtain ⟨rfl, -⟩ := semX_str.1 h7
      obtain ⟨v, rfl, hv⟩ := value_inv h8
      exact h6 v s (by simp) hv
    · exact h5

/-! ## COPY -/

theorem args_end {p x s ts} (h : SemX (.star (.seq G.arg_ws G.copy_pathspec)) false p x s ts) :
    ∃ p', Sem (.seq G.arg_ws G.copy_pathspec) false p' s none :=
  semX_star_induction (P := fun _ _ _ => ∃ p', Sem (.seq G.arg_ws G.copy_pathspec) false p' s none)
    (fun p h => ⟨p, h⟩) (fun _ _ _ _ _ _ _ ih => ih) h

theorem args_to {fs : List Arg} {s : Str} (h : ArgsFit fs s)
    (hs : ∀ p, Sem (.seq G.arg_ws G.copy_pathspec) false p s none) (p : Nat) :
    ∃ ts, SemX (.star (.seq G.arg_ws G.copy_pathspec)) false p (argsText fs) s ts := by
  induction fs generalizing p with
  | nil => exact ⟨[], .star_nil (hs p)⟩
  | cons f fs ih =>
    obtain ⟨ts, h1⟩ := ih h.2 (p + blen f.text)
    obtain ⟨cs, h3, -⟩ := carg_x h.1 p
    exact ⟨_, SemX.star_cons h3 h1⟩

theorem ArgsFit.ends {fs : List Arg} {s : Str} (h : ArgsFit fs s) (hne : fs ≠ []) : WordEnd s := by
  induction fs with
  | nil => exact absurd rfl hne
  | cons f fs ih =>
    cases fs with
    | nil => simpa [argsText] using h.1.2.2.2
    | cons f' fs => exact ih h.2 (by simp)

theorem copy_left {kw : Str} (hk : lower kw = c!"copy") {p x s ts} (h : SemX copyBody false p x s ts) (hs : ¬ Clean s) :
    Malformed (kw ++ (x ++ s)) := by
  obtain ⟨x1, y, _, _, rfl, -, h1, h2⟩ := semX_seq.1 h
  obtain ⟨⟨fs, rfl, hf⟩, p', hn⟩ := flags_inv (r := .copy_flag) (rn := .copy_flag_name) (rv := .copy_flag_value) h1
  obtain ⟨x1, y, _, _, rfl, -, h3, h4⟩ := semX_seq.1 h2
  obtain ⟨x2, y, _, _, rfl, -, h5, h6⟩ := semX_seq.1 h4
  obtain ⟨f1, rfl, a1⟩ := carg_inv h3
  obtain ⟨f2, rfl, a2⟩ := carg_inv h5
  obtain ⟨fr, rfl, a3⟩ := args_inv h6
  obtain ⟨p2, a4⟩ := args_end h6
  have hall : ArgsFit (f1 :: f2 :: fr) s := ⟨by simpa [argsText_cons] using a1, a2, a3⟩
  have hnf : ¬ StartsFlag (f1.value ++ (argsText (f2 :: fr) ++ s)) := by
    rw [Arg.text, List.append_assoc, List.append_assoc,
      gap_seq_none (by simpa [argsText_cons] using hall.1.1), flag_none] at hn
    simpa [argsText_cons] using hn
  obtain ⟨g, r, rfl, hg⟩ := exists_space s
  have hend : Eol r := by
    by_cases hne : g = []
    · subst hne
      exact (hall.ends (by simp)).resolve_right hg.ends
    · rw [gap_seq_none ⟨hne, hg⟩] at a4
      cases a4 with
      | rule_fail a4 => exact (any_whitespace_none.1 a4).resolve_right hg.ends
  have e : flagsText fs ++ (f1.text ++ (f2.text ++ argsText fr)) ++ (g ++ r) =
      flagsText fs ++ (f1.text ++ (argsText (f2 :: fr) ++ (g ++ r))) := by simp [argsText_cons]
  rw [e]
  exact .copy hk (by simpa [argsText_cons] using hf) (by simp) hall hnf hg
    (fun hb => hs ⟨g, r, rfl, hb, hend⟩) hend

theorem copy_leaves {fs : List Flag} {a : Arg} {as : List Arg} {g r : Str}
    (h1 : FlagsFit fs (a.text ++ (argsText as ++ (g ++ r)))) (h2 : as ≠ []) (h3 : ArgsFit (a :: as) (g ++ r))
    (h4 : ¬ StartsFlag (a.value ++ (argsText as ++ (g ++ r)))) (h5 : Space g r) (h6 : ¬ Blanks g) (h7 : Eol r) :
    Leaves copyBody (flagsText fs ++ (a.text ++ (argsText as ++ (g ++ r)))) := by
  intro p
  have hne : g ≠ [] := by rintro rfl; exact h6 .nil
  have hstop : ∀ p, Sem (.seq G.arg_ws G.copy_pathspec) false p (g ++ r) none := fun p =>
    (gap_seq_none ⟨hne, h5⟩).2 (.rule_fail (any_whitespace_none.2 (.inl h7)))
  cases as with
  | nil => exact absurd rfl h2
  | cons b as =>
    obtain ⟨us, u1⟩ := args_to h3.2.2 hstop (p + blen (flagsText fs) + blen a.text + blen b.text)
    obtain ⟨c1, a1, -⟩ := carg_x h3.1 (p + blen (flagsText fs))
    obtain ⟨c2, b1, -⟩ := carg_x h3.2.1 (p + blen (flagsText fs) + blen a.text)
    have hnf : ∀ p, Sem (.seq G.arg_ws (flagE .copy_flag .copy_flag_name .copy_flag_value)) false p
        (a.text ++ (argsText (b :: as) ++ (g ++ r))) none := by
      intro p
      rw [Arg.text, List.append_assoc]
      exact gap_flag_none _ _ _ h3.1.1 h4
    obtain ⟨ts, v1, -⟩ := flags_x .copy_flag .copy_flag_name .copy_flag_value h1 hnf p
    replace v1 : SemX (.star (.seq G.arg_ws G.copy_flag)) _ _ _ _ _ := v1
    refine ⟨flagsText fs ++ (a.text ++ (b.text ++ argsText as)), g ++ r, _, by simp [argsText_cons],
      SemX.seq (by simpa [argsText_cons] using v1) (SemX.seq (by simpa [argsText_cons] using a1)
        (SemX.seq b1 u1)), ?_⟩
    rintro ⟨w, v, e, hw, hv⟩
    obtain ⟨rfl, -⟩ := h5.unique (Blanks.space hw hv.not_starts) e
    exact h6 hw

/-! ## pairs -/

section
variable {e : PExpr} {F : Pair → Str → Prop} {Q : Nat → Pair → Tok → Prop}

theorem pairs_left (hF : PairRule e F Q) {p x s ts}
    (h : SemX (.star (.seq G.arg_ws (.opt e))) false p x s ts) :
    ∃ ps t, x = pairsText ps ++ t ∧ PairsFit F ps (t ++ s) ∧ Space t s ∧
      (t ≠ [] → ∃ p, Sem e false (p + blen t) s none) := by
  refine semX_star_induction (P := fun _ x _ => ∃ ps t, x = pairsText ps ++ t ∧
    PairsFit F ps (t ++ s) ∧ Space t s ∧ (t ≠ [] → ∃ p, Sem e false (p + blen t) s none)) ?_ ?_ h
  · intro p h
    refine ⟨[], [], rfl, trivial, .nil ?_, fun h => absurd rfl h⟩
    rcases sem_seq_none.1 h with h | ⟨_, _, _, _, h⟩
    · exact arg_ws_none'.1 h
    · cases h
  · rintro p x1 x2 t1 t2 h1 _ ⟨ps, t, rfl, h3, h4, h7⟩
    obtain ⟨g, y, _, _, rfl, -, hg, h5⟩ := gap_seq h1
    rcases semX_opt.1 h5 with h6 | ⟨rfl, -, h6⟩
    · obtain ⟨f, rfl, rfl, hf⟩ := hF.inv h6 g hg
      exact ⟨f :: ps, t, by simp [pairsText_cons, Pair.text], ⟨by simpa using hf, h3⟩, h4, h7⟩
    · have hn : ¬ StartsSpace (pairsText ps ++ t ++ s) := by simpa using hg.2.ends
      have e1 : ps = [] := by
        cases ps with
        | nil => rfl
        | cons f fs =>
          refine absurd ?_ hn
          have := (hF.gap h3.1).starts
          simpa [pairsText_cons, Pair.text] using this
      subst e1
      have e2 : t = [] := by
        cases t with
        | nil => rfl
        | cons c t => exact absurd (h4.starts (by simp)) (by simpa [pairsText] using hn)
      subst e2
      exact ⟨[], g, by simp [pairsText], trivial, by simpa [pairsText] using hg.2,
        fun _ => ⟨p, by simpa [pairsText] using h6⟩⟩

theorem pairs_plus_left (hF : PairRule e F Q) {p x s ts}
    (h : SemX (G.plus (.seq G.arg_ws (.opt e))) false p x s ts) (hs : ¬ Clean s) :
    ∃ ps t, x = pairsText ps ++ t ∧ PairsCut F ps t s := by
  obtain ⟨x1, x2, t1, t2, rfl, rfl, h1, h2⟩ := semX_seq.1 h
  obtain ⟨ps, t, e1, h3, h4, h5⟩ := pairs_left hF (SemX.star_cons h1 h2)
  refine ⟨ps, t, e1, h3, h4, ?_, fun he => hs ⟨[], s, rfl, .nil, he⟩, ?_⟩
  · cases ps with
    | cons f fs => exact .inl (by simp)
    | nil =>
      refine .inr fun ht => ?_
      subst ht
      obtain ⟨g, y, _, _, rfl, -, hg, -⟩ := gap_seq h1
      have : g = [] := by
        have e2 : g ++ y ++ x2 = [] := e1
        simp only [List.append_eq_nil_iff] at e2
        exact e2.1.1
      exact hg.1 this
  · rintro ht f r' rfl rfl hf
    obtain ⟨p, hp⟩ := h5 ht
    obtain ⟨tok, h6, -⟩ := hF.run hf p
    exact sem_not_none h6 hp

theorem pairs_leaves (hF : PairRule e F Q) (hsafe : safe false e = true) {ps : List Pair} {t r : Str}
    (h : PairsCut F ps t r) (p : Nat) :
    ∃ ts, SemX (G.plus (.seq G.arg_ws (.opt e))) false p (pairsText ps ++ t) r ts := by
  obtain ⟨h1, h2, h3, h4, h5⟩ := h
  suffices hstar : ∀ p, ∃ ts, SemX (.star (.seq G.arg_ws (.opt e))) false p (pairsText ps ++ t) r ts by
    obtain ⟨ts, hts⟩ := hstar p
    exact ⟨_, hts.plus_of_star (pairs_ne hF h3 h1)⟩
  clear h3
  induction ps with
  | nil =>
    intro p
    have hend : ∀ p, SemX (.star (.seq G.arg_ws (.opt e))) false p [] r [] := fun p =>
      .star_nil (.seq_fail1 (arg_ws_none'.2 h2.ends))
    by_cases hne : t = []
    · subst hne; exact ⟨[], hend p⟩
    · have hg : Gap t r := ⟨hne, h2⟩
      obtain ⟨cs, k1, -⟩ := gap_x hg p
      have hnone : Sem e false (p + blen t) r none := by
        rcases sem_or hsafe false (p + blen t) r with k | ⟨x, s', ts, rfl, k⟩
        · exact k
        · obtain ⟨f, rfl, rfl, hf⟩ := hF.inv k t hg
          exact absurd hf (h5 hne f s' rfl rfl)
      have k3 : SemX (.seq G.arg_ws (.opt e)) false p t r cs := by
        have := SemX.seq (x2 := []) (t2 := []) k1 (semX_opt.2 (.inr ⟨rfl, rfl, hnone⟩))
        simpa using this
      have := SemX.star_cons (x2 := []) k3 (hend _)
      exact ⟨_, by simpa [pairsText] using this⟩
  | cons f fs ih =>
    intro p
    obtain ⟨ts, k1⟩ := ih h1.2 (p + blen f.text)
    obtain ⟨cs, k3, -⟩ := gap_x (hF.gap h1.1) p
    obtain ⟨tok, k5, -⟩ := hF.run h1.1 p
    have k7 := SemX.seq k3 (semX_opt.2 (.inl k5))
    rw [← List.append_assoc (pairsText fs)] at k7
    have := SemX.star_cons (x1 := f.text) (s' := r) k7 k1
    rw [← List.append_assoc, ← pairsText_cons] at this
    exact ⟨_, this⟩
end

/-! ## LABEL -/

theorem label_single_iff {p u r} : LabelOne u r ↔ ∃ x ts, u = x ++ r ∧ SemX G.label_single false p x r ts := by
  constructor
  · rintro ⟨g, n, g', v, rfl, h2, h3, h4, h5⟩
    obtain ⟨cs, k1, -⟩ := gap_x h2 p
    obtain ⟨ch, n1⟩ := nameValue_x (k := .normal) (k' := .normal) (by decide) (by decide)
      .label_single_quoted_name .label_single_name h3 (p + blen g)
    rw [← List.append_assoc] at n1
    obtain ⟨cs', k1', -⟩ := gap_x h4 (p + blen g + blen n.text)
    obtain ⟨ch', v1⟩ := value_x .label_quoted_value .label_value h5 false (p + blen g + blen n.text + blen g')
    exact ⟨g ++ (n.text ++ (g' ++ v.text)), _, by simp, semX_rule.2 ⟨_, SemX.seq
      (show SemX _ false _ _ _ _ by simpa using k1) (SemX.seq (x2 := g' ++ v.text) n1 (SemX.seq k1' v1)), rfl⟩⟩
  · rintro ⟨x, ts, rfl, h⟩
    obtain ⟨_, h, -⟩ := semX_rule.1 h
    obtain ⟨g, y, _, _, rfl, -, hg, h2⟩ := gap_seq h
    obtain ⟨x1, y, _, _, rfl, -, h3, h4⟩ := semX_seq.1 h2
    obtain ⟨g', y, _, _, rfl, -, hg', h5⟩ := gap_seq h4
    obtain ⟨n, rfl, hn⟩ := nameValue_inv h3
    obtain ⟨v, rfl, hv⟩ := value_inv h5
    exact ⟨g, n, g', v, by simp, by simpa using hg, by simpa using hn, hg', hv⟩

theorem label_left {kw : Str} (hk : lower kw = c!"label") {p x s ts} (h : SemX labelBody false p x s ts) (hs : ¬ Clean s) :
    Malformed (kw ++ (x ++ s)) := by
  rcases semX_alt.1 h with h | ⟨h1, h⟩
  · exact .label1 hk (label_single_iff.2 ⟨x, _, rfl, h⟩) hs
  · obtain ⟨ps, t, rfl, h2⟩ := pairs_plus_left (label_rule fun _ => .error .notEnoughChars) h hs
    rw [List.append_assoc] at h1 ⊢
    refine .label hk (fun r' hr' => ?_) h2
    obtain ⟨x, _, e, h3⟩ := label_single_iff.1 hr'
    exact sem_some_not h1 e h3

theorem label1_leaves {u r : Str} (h : LabelOne u r) (hr : ¬ Clean r) : Leaves labelBody u := by
  intro p
  obtain ⟨x, ts, rfl, h⟩ := label_single_iff.1 h
  exact ⟨x, r, ts, rfl, semX_alt.2 (.inl h), hr⟩

theorem label_leaves {ps : List Pair} {t r : Str} (h1 : ∀ r', ¬ LabelOne (pairsText ps ++ (t ++ r)) r')
    (h2 : PairsCut Pair.FitsLabel ps t r) : Leaves labelBody (pairsText ps ++ (t ++ r)) := by
  intro p
  obtain ⟨ts, h3⟩ := pairs_leaves (label_rule fun _ => .error .notEnoughChars) (by decide +kernel) h2 p
  refine ⟨pairsText ps ++ t, r, ts, by simp, semX_alt.2 (.inr ⟨?_, h3⟩), ?_⟩
  · rcases sem_or (e := G.label_single) (by decide +kernel) false p (pairsText ps ++ t ++ r) with h | ⟨x, s', us, e, h⟩
    · exact h
    · exact absurd (label_single_iff.2 ⟨x, us, by rw [← e]; simp, h⟩) (h1 s')
  · exact fun hc => h2.2.2.2.1 (Space.eol h2.2.1 hc)

/-! ## ENV -/

theorem QuotedText.not_eol {v r : Str} (h : QuotedText v) : ¬ Eol (v ++ r) := by
  intro he
  exact noQuoted_eol he v r rfl h

theorem env_single_none_iff {p u} : Sem G.env_single false p u none ↔ ∀ r, ¬ EnvOne u r := by
  constructor
  · rintro h r ⟨g, n, g', rfl, h2, h3, h4, h5, h6⟩
    cases h with
    | rule_fail h =>
      replace h : Sem (.seq G.arg_ws (.seq G.env_name (.seq G.arg_ws
        (.alt G.env_single_quoted_value G.env_single_value)))) false p (g ++ (n ++ (g' ++ r))) none := h
      rw [gap_seq_none h2] at h
      have n1 := envName_x h3 h4 (s := g' ++ r) (h5.sep.not plain_word) false (p + blen g)
      rcases sem_seq_none.1 h with h | ⟨p1, s1, t1, h7, h8⟩
      · exact sem_not_none n1 h
      · have := h7.det n1
        simp only [Option.some.injEq, Prod.mk.injEq] at this
        obtain ⟨rfl, rfl, -⟩ := this
        rw [gap_seq_none h5] at h8
        have := shell_none_iff.1 (sem_alt_none.1 h8).2
        rcases this.2 with h9 | h9
        · exact h6 h9
        · exact h5.2.ends (.inr h9)
  · intro h
    rcases sem_or (e := G.env_single) (by decide +kernel) false p u with h1 | ⟨x, s, us, rfl, h1⟩
    · exact h1
    · exfalso
      obtain ⟨_, h1, -⟩ := semX_rule.1 h1
      obtain ⟨g, y, _, _, rfl, -, hg, h2⟩ := gap_seq h1
      obtain ⟨n, y, _, _, rfl, -, h3, h4⟩ := semX_seq.1 h2
      obtain ⟨g', y, _, _, rfl, -, hg', h5⟩ := gap_seq h4
      obtain ⟨_, h6, -⟩ := semX_rule.1 h3
      obtain ⟨n1, n2, -⟩ := step_word.plus_x.1 h6
      have n3 : ∀ c ∈ n, IsWord c := fun c hc => isWord_iff.1 ((runOf_class.1 n2).1 c hc)
      refine h (y ++ s) ⟨g, n, g', by simp, by simpa using hg, n1, n3, hg', fun he => ?_⟩
      rcases semX_alt.1 h5 with h7 | ⟨-, h7⟩
      · obtain ⟨_, h8, -⟩ := semX_rule.1 h7
        exact QuotedText.not_eol (string_inv h8) he
      · exact sem_not_none h7 (shell_none_iff.2 ⟨he.noComment, .inl he⟩)

theorem env_left {kw : Str} (hk : lower kw = c!"env") {p x s ts} (h : SemX envBody false p x s ts) (hs : ¬ Clean s) :
    Malformed (kw ++ (x ++ s)) := by
  rcases semX_alt.1 h with h | ⟨h1, h⟩
  · obtain ⟨_, h1, -⟩ := semX_rule.1 h
    obtain ⟨g, y, _, _, rfl, -, hg, h2⟩ := gap_seq h1
    obtain ⟨n, y, _, _, rfl, -, h3, h4⟩ := semX_seq.1 h2
    obtain ⟨g', y, _, _, rfl, -, hg', h5⟩ := gap_seq h4
    obtain ⟨_, h6, -⟩ := semX_rule.1 h3
    obtain ⟨n1, n2, -⟩ := step_word.plus_x.1 h6
    have n3 : ∀ c ∈ n, IsWord c := fun c hc => isWord_iff.1 ((runOf_class.1 n2).1 c hc)
    have one : ¬ Eol (y ++ s) → EnvOne (g ++ (n ++ (g' ++ y)) ++ s) (y ++ s) := fun he =>
      ⟨g, n, g', by simp, by simpa using hg, n1, n3, hg', he⟩
    rcases semX_alt.1 h5 with h7 | ⟨h8, h7⟩
    · obtain ⟨_, h8, -⟩ := semX_rule.1 h7
      have hq := string_inv h8
      exact .env1q hk (one (QuotedText.not_eol hq)) hq hs
    · cases h8 with
      | rule_fail h8 =>
        refine .env1 hk (one fun he => ?_) (string_none'.1 h8) (shell_left h7 hs)
        exact sem_not_none h7 (shell_none_iff.2 ⟨he.noComment, .inl he⟩)
  · obtain ⟨_, h, -⟩ := semX_rule.1 h
    obtain ⟨ps, t, rfl, h2⟩ := pairs_plus_left (env_rule fun _ => .error .notEnoughChars) h hs
    rw [List.append_assoc] at h1 ⊢
    exact .env hk (env_single_none_iff.1 h1) h2

theorem env_single_leaves {u v : Str} (h : EnvOne u v)
    (hv : Leaves (.alt G.env_single_quoted_value G.env_single_value) v) : Leaves envBody u := by
  intro p
  obtain ⟨g, n, g', rfl, h2, h3, h4, h5, h6⟩ := h
  obtain ⟨cs, k1, -⟩ := gap_x h2 p
  obtain ⟨cs', k1', -⟩ := gap_x h5 (p + blen g + blen n)
  have n1 := envName_x h3 h4 (s := g' ++ v) (h5.sep.not plain_word) false (p + blen g)
  obtain ⟨x, s, ts, rfl, h7, h8⟩ := hv (p + blen g + blen n + blen g')
  exact ⟨g ++ (n ++ (g' ++ x)), s, _, by simp, semX_alt.2 (.inl (semX_rule.2 ⟨_, SemX.seq
    (show SemX _ false _ _ _ _ by simpa using k1) (SemX.seq (x2 := g' ++ x)
      (show SemX _ false _ _ _ _ by simpa using n1) (SemX.seq k1' h7)), rfl⟩)), h8⟩

theorem env1_leaves {u r : Str} (h1 : EnvOne u r) (h2 : NoQuoted r) (h3 : Unfinished r) : Leaves envBody u := by
  refine env_single_leaves h1 fun p => ?_
  obtain ⟨g, n, g', -, -, -, -, h5, -⟩ := h1
  obtain ⟨x, s, ts, rfl, h7, h8⟩ := shell_leaves (rl := .env_single_value) h3 (fun hc => h5.2.ends (.inr hc)) p
  exact ⟨x, s, ts, rfl, semX_alt.2 (.inr ⟨.rule_fail (string_none'.2 h2), h7⟩), h8⟩

theorem env1q_leaves {u v r : Str} (h1 : EnvOne u (v ++ r)) (h2 : QuotedText v) (h3 : ¬ Clean r) : Leaves envBody u := by
  refine env_single_leaves h1 fun p => ?_
  obtain ⟨ch, q1⟩ := quoted_x .env_single_quoted_value (s := r) h2 false p
  exact ⟨v, r, _, rfl, semX_alt.2 (.inl q1), h3⟩

theorem env_leaves {ps : List Pair} {t r : Str} (h1 : ∀ r', ¬ EnvOne (pairsText ps ++ (t ++ r)) r')
    (h2 : PairsCut Pair.FitsEnv ps t r) : Leaves envBody (pairsText ps ++ (t ++ r)) := by
  intro p
  obtain ⟨ts, h3⟩ := pairs_leaves (env_rule fun _ => .error .notEnoughChars) (by decide +kernel) h2 p
  refine ⟨pairsText ps ++ t, r, _, by simp, semX_alt.2 (.inr ⟨?_, semX_rule.2 ⟨_, h3, rfl⟩⟩), ?_⟩
  · rw [List.append_assoc]; exact env_single_none_iff.2 h1
  · exact fun hc => h2.2.2.2.1 (Space.eol h2.2.1 hc)

/-! ## RUN, CMD, ENTRYPOINT -/

theorem exec_left {k : ExecKind} {kw : Str} (hk : lower kw = k.keyword) {p x s ts} (h : SemX (execBody k) false p x s ts)
    (hs : ¬ Clean s) : Malformed (kw ++ (x ++ s)) := by
  obtain ⟨g, y, _, _, rfl, -, hg, h1⟩ := gap_seq h
  rw [List.append_assoc]
  rcases semX_alt.1 h1 with h2 | ⟨h3, h2⟩
  · obtain ⟨_, h2, -⟩ := semX_rule.1 h2
    obtain ⟨a, rfl, ha⟩ := array_inv h2
    exact .exec hk hg ha hs
  · cases h3 with
    | rule_fail h3 => exact .shell hk hg (array_none.1 h3) (shell_left h2 hs)

theorem shellExec_leaves {k : ExecKind} {g v : Str} (h1 : Gap g v) (h2 : NoArray v) (h3 : Unfinished v) :
    Leaves (execBody k) (g ++ v) := by
  intro p
  obtain ⟨cs, k1, -⟩ := gap_x h1 p
  obtain ⟨x, s, ts, rfl, h7, h8⟩ := shell_leaves (rl := (execRule k).2.2) h3 (fun hc => h1.2.ends (.inr hc)) (p + blen g)
  exact ⟨g ++ x, s, _, by simp, SemX.seq k1 (semX_alt.2 (.inr ⟨.rule_fail (array_none.2 h2), h7⟩)), h8⟩

theorem exec_leaves {k : ExecKind} {g : Str} {a : Array} {r : Str} (h1 : Gap g (a.text ++ r)) (h2 : a.Fits r)
    (h3 : ¬ Clean r) : Leaves (execBody k) (g ++ (a.text ++ r)) := by
  intro p
  obtain ⟨cs, k1, -⟩ := gap_x h1 p
  obtain ⟨ts, v1, -⟩ := array_x (unq := fun _ => .error .notEnoughChars) h2 (p + blen g)
  exact ⟨g ++ a.text, r, _, by simp, SemX.seq k1 (semX_alt.2 (.inl (semX_rule.2 ⟨ts, v1, rfl⟩))), h3⟩

/-! ## steps -/

/-- All arguments start with space. -/
theorem kw_body_space {k : Str × Rule × PExpr} (hk : k ∈ kwRules) {v : Str} (hv : ¬ StartsSpace v) (p : Nat) :
    Sem k.2.2 false p v none := by
  have hw : ∀ p, Sem G.arg_ws false p v none := fun p => arg_ws_none'.2 hv
  simp only [kwRules, List.mem_cons, List.not_mem_nil, or_false] at hk
  rcases hk with rfl | rfl | rfl | rfl | rfl | rfl | rfl | rfl
  · exact .seq_fail2 (.star_nil (.seq_fail1 (hw _))) (.seq_fail1 (hw _))
  · exact .seq_fail1 (hw _)
  · exact .seq_fail1 (hw _)
  · exact .alt_right (.rule_fail (.seq_fail1 (hw _))) (.seq_fail1 (.seq_fail1 (hw _)))
  · exact .seq_fail2 (.star_nil (.seq_fail1 (hw _))) (.seq_fail1 (.seq_fail1 (hw _)))
  · exact .seq_fail1 (hw _)
  · exact .seq_fail1 (hw _)
  · exact .alt_right (.rule_fail (.seq_fail1 (hw _))) (.rule_fail (.seq_fail1 (.seq_fail1 (hw _))))

/-- When the rules of all keywords fail. -/
theorem kw_all {w v : Str} (hw : ∀ c ∈ w, IsAlpha c) (hv : ∀ c b, v = c :: b → ¬ IsAlpha c) (p : Nat) :
    (∀ k ∈ kwRules, Sem (kwRule k) false p (w ++ v) none) ↔ (IsKeyword w → ¬ Begins (lower w) v) := by
  have ha : ∀ c ∈ w, isAlpha c = true := fun c hc => isAlpha_iff.2 (hw c hc)
  have hsa : ∀ c b, v = c :: b → isAlpha c = false := by
    intro c b e
    cases hd : isAlpha c with
    | false => rfl
    | true => exact absurd (isAlpha_iff.1 hd) (hv c b e)
  constructor
  · intro h1 hk
    have : lower w ∈ kwRules.map (·.1) := by rw [kwRules_keywords]; exact hk
    obtain ⟨k, hk, e⟩ := List.mem_map.1 this
    rw [← e, ← kw_begins hk (p := p + blen w)]
    have h7 := h1 k hk
    cases h7 with
    | rule_fail h7 =>
      have hl : lower k.1 = k.1 := by rw [e, lower_lower]
      have h8 := kw_x (p := p) (q := false) (s := v) hl e.symm
      rcases sem_seq_none.1 h7 with h9 | ⟨p1, s1, t1, h9, h10⟩
      · exact absurd h9 (sem_not_none h8)
      · have := h9.det h8
        simp only [Option.some.injEq, Prod.mk.injEq] at this
        obtain ⟨rfl, rfl, -⟩ := this
        exact h10
  · intro h6 k hk
    by_cases hw : IsKeyword w
    · by_cases he : k.1 = lower w
      · refine .rule_fail ?_
        have hl : lower k.1 = k.1 := by rw [he, lower_lower]
        refine .seq_fail2 (kw_x (p := p) (q := false) (s := v) hl he.symm) ?_
        show Sem _ false _ _ _
        rw [kw_begins hk, he]
        exact h6 hw
      · exact kw_fail (by rw [← kwRules_keywords]; exact List.mem_map_of_mem hk) hw he _ _
    · exact kw_other hk ha hw hsa p

theorem step_skip {p : Nat} {u : Str} (h : ∀ k ∈ kwRules, Sem (kwRule k) false p u none) {o}
    (hm : Sem G.misc false p u o) : Sem G.step false p u o := by
  rw [step_eq]
  generalize kwRules = ks at h
  induction ks with
  | nil => exact hm
  | cons k ks ih => exact .alt_right (h k (by simp)) (ih fun k hk => h k (by simp [hk]))

theorem step_fails {p : Nat} {u : Str} (h : Sem G.step false p u none) :
    (∀ k ∈ kwRules, Sem (kwRule k) false p u none) ∧ Sem G.misc false p u none := by
  rw [step_eq] at h
  generalize kwRules = ks at h
  induction ks with
  | nil => exact ⟨by simp, h⟩
  | cons k ks ih =>
    obtain ⟨h1, h2⟩ := sem_alt_none.1 h
    obtain ⟨h3, h4⟩ := ih h2
    refine ⟨fun k' hk' => ?_, h4⟩
    rcases List.mem_cons.1 hk' with rfl | hk'
    · exact h1
    · exact h3 k' hk'

theorem kw_left {k : Str × Rule × PExpr} (hk : k ∈ kwRules) {kw : Str} (hw : lower kw = k.1) {p x s ts}
    (hs : ¬ Clean s) (h : SemX k.2.2 false p x s ts) : Malformed (kw ++ (x ++ s)) := by
  simp only [kwRules, List.mem_cons, List.not_mem_nil, or_false] at hk
  rcases hk with rfl | rfl | rfl | rfl | rfl | rfl | rfl | rfl
  · exact from_left hw h hs
  · exact exec_left (k := .run) hw h hs
  · exact arg_left hw h hs
  · exact label_left hw h hs
  · exact copy_left hw h hs
  · exact exec_left (k := .entrypoint) hw h hs
  · exact exec_left (k := .cmd) hw h hs
  · exact env_left hw h hs

theorem alpha_run {w v : Str} (h : RunOf (fun c _ => isAlpha c) w v) :
    (∀ c ∈ w, IsAlpha c) ∧ ∀ c b, v = c :: b → ¬ IsAlpha c := by
  obtain ⟨h1, h2⟩ := runOf_class.1 h
  refine ⟨fun c hc => isAlpha_iff.1 (h1 c hc), fun c b e hc => ?_⟩
  have := h2 c b e
  rw [isAlpha_iff.2 hc] at this; cases this

theorem run_alpha {w v : Str} (h1 : ∀ c ∈ w, IsAlpha c) (h2 : ∀ c b, v = c :: b → ¬ IsAlpha c) :
    RunOf (fun c _ => isAlpha c) w v := by
  refine runOf_class.2 ⟨fun c hc => isAlpha_iff.2 (h1 c hc), fun c b e => ?_⟩
  cases hd : isAlpha c with
  | false => rfl
  | true => exact absurd (isAlpha_iff.1 hd) (h2 c b e)

/-- A step that leaves something is malformed. -/
theorem step_left {p x s ts} (h : SemX G.step false p x s ts) (hs : ¬ Clean s) : Malformed (x ++ s) := by
  have key : (∃ k ∈ kwRules, SemX (kwRule k) false p x s ts) ∨
      ((∀ k ∈ kwRules, Sem (kwRule k) false p (x ++ s) none) ∧ SemX G.misc false p x s ts) := by
    rw [step_eq] at h
    generalize kwRules = ks at h
    induction ks with
    | nil => exact .inr ⟨by simp, h⟩
    | cons k ks ih =>
      rcases semX_alt.1 h with h1 | ⟨h1, h2⟩
      · exact .inl ⟨k, by simp, h1⟩
      · rcases ih h2 with ⟨k', hk', h3⟩ | ⟨h3, h4⟩
        · exact .inl ⟨k', by simp [hk'], h3⟩
        · refine .inr ⟨fun k' hk' => ?_, h4⟩
          rcases List.mem_cons.1 hk' with rfl | hk'
          · exact h1
          · exact h3 k' hk'
  rcases key with ⟨k, hk, h1⟩ | ⟨h1, h2⟩
  · obtain ⟨_, h2, -⟩ := semX_rule.1 h1
    obtain ⟨kw, y, _, _, rfl, -, h3, h4⟩ := semX_seq.1 h2
    have hl : ∀ k ∈ kwRules, lower k.1 = k.1 := by decide +kernel
    have hw : lower kw = k.1 := by rw [← hl k hk]; exact (semX_istr.1 h3).1
    rw [List.append_assoc]
    exact kw_left hk hw hs h4
  · obtain ⟨_, h3, -⟩ := semX_rule.1 h2
    obtain ⟨w, y, _, _, rfl, -, h4, h5⟩ := semX_seq.1 h3
    obtain ⟨_, h6, -⟩ := semX_rule.1 h4
    obtain ⟨w1, w2, -⟩ := step_alpha.plus_x.1 h6
    obtain ⟨w3, w4⟩ := alpha_run w2
    rw [List.append_assoc] at h1 ⊢
    exact .misc w1 w3 w4 ((kw_all w3 w4 p).1 h1) (shell_left h5 hs)

/-- A text that starts a line and is no step is malformed. -/
theorem step_no {p : Nat} {c : Char} {t : Str} (h : Sem G.step false p (c :: t) none) (h1 : c ≠ ' ') (h2 : c ≠ '\t')
    (h3 : c ≠ '\n') (h4 : c ≠ '\r') (h5 : c ≠ '#') : Malformed (c :: t) := by
  by_cases hc : IsAlpha c
  · obtain ⟨hk, hm⟩ := step_fails h
    have hr : ∃ w v, c :: t = w ++ v ∧ w ≠ [] ∧ RunOf (fun c _ => isAlpha c) w v := by
      rcases sem_or (e := G.plus G.ASCII_ALPHA) (by decide +kernel) false p (c :: t) with h | ⟨x, s, us, e, h⟩
      · exfalso
        rcases sem_or (e := .star G.ASCII_ALPHA) (by decide +kernel) false p (c :: t) with h' | ⟨x, s, us, e, h'⟩
        · exact Sem.star_ne_none h'
        · obtain ⟨r, -⟩ := step_alpha.star_x.1 h'
          cases x with
          | nil => exact (alpha_run r).2 c t e.symm hc
          | cons d x =>
            have := step_alpha.plus_x (q := false) (p := p) (x := d :: x) (s' := s) (ts := [])
            exact sem_some_not h e (this.2 ⟨by simp, r, rfl⟩)
      · obtain ⟨r1, r2, -⟩ := step_alpha.plus_x.1 h
        exact ⟨x, s, e, r1, r2⟩
    obtain ⟨w, v, e, w1, w2⟩ := hr
    rw [e] at hk hm ⊢
    obtain ⟨w3, w4⟩ := alpha_run w2
    have hw : SemX G.misc_instruction false p w v _ := semX_rule.2 ⟨[], step_alpha.plus_x.2 ⟨w1, w2, rfl⟩, rfl⟩
    cases hm with
    | rule_fail hm =>
      rcases sem_seq_none.1 hm with h6 | ⟨p1, s1, t1, h6, h7⟩
      · exact absurd h6 (sem_not_none hw)
      · have := h6.det hw
        simp only [Option.some.injEq, Prod.mk.injEq] at this
        obtain ⟨rfl, rfl, -⟩ := this
        rcases (shell_none_iff.1 h7).2 with h8 | h8
        · exact .word w1 w3 h8
        · exact .misc w1 w3 w4 ((kw_all w3 w4 p).1 hk) (.nothing h8)
  · exact .start h1 h2 h3 h4 h5 hc

/-- `u` starts with something that is no blank, no line break and no hash. -/
def Starts (u : Str) : Prop := ∃ c t, u = c :: t ∧ c ≠ ' ' ∧ c ≠ '\t' ∧ c ≠ '\n' ∧ c ≠ '\r' ∧ c ≠ '#'

theorem starts_alpha {c : Char} {t : Str} (h : IsAlpha c) : Starts (c :: t) := by
  refine ⟨c, t, rfl, ?_, ?_, ?_, ?_, ?_⟩ <;> rintro rfl <;> exact absurd (isAlpha_iff.2 h) (by decide)

theorem starts_word {w v : Str} (h1 : w ≠ []) (h2 : ∀ c ∈ w, IsAlpha c) : Starts (w ++ v) := by
  cases w with
  | nil => exact absurd rfl h1
  | cons c w => exact starts_alpha (h2 c (by simp))

theorem Leaves.starts {u : Str} (h : Leaves G.step u) : Starts u := by
  obtain ⟨x, s, ts, rfl, h1, -⟩ := h 0
  cases hu : x ++ s with
  | nil =>
    have := h1.nonempty (by decide +kernel)
    exact absurd (List.append_eq_nil_iff.1 hu).1 this
  | cons c t => exact starts_alpha (isAlpha_iff.1 (step_letter h1 c t hu))

theorem leaves_kw {k : Str × Rule × PExpr} (hk : k ∈ kwRules) {kw u : Str} (hw : lower kw = k.1)
    (h : Leaves k.2.2 u) : Leaves G.step (kw ++ u) := by
  intro p
  obtain ⟨x, s, ts, rfl, h1, h2⟩ := h (p + blen kw)
  exact ⟨kw ++ x, s, _, by simp, step_kw hk hw h1, h2⟩

theorem leaves_exec {k : ExecKind} {kw u : Str} (hw : lower kw = k.keyword)
    (h : Leaves (execBody k) u) : Leaves G.step (kw ++ u) := by
  cases k
  · exact leaves_kw (k := (c!"run", .run, execBody .run)) (by simp [kwRules]; exact ⟨rfl, rfl⟩) hw h
  · exact leaves_kw (k := (c!"cmd", .cmd, execBody .cmd)) (by simp [kwRules]; exact ⟨rfl, rfl⟩) hw h
  · exact leaves_kw (k := (c!"entrypoint", .entrypoint, execBody .entrypoint)) (by simp [kwRules]; exact ⟨rfl, rfl⟩) hw h

theorem misc_word {w v : Str} (h1 : w ≠ []) (h2 : ∀ c ∈ w, IsAlpha c) (h3 : ∀ c b, v = c :: b → ¬ IsAlpha c) (p : Nat) :
    SemX G.misc_instruction false p w v [.node .misc_instruction p (p + blen w) w []] :=
  semX_rule.2 ⟨[], step_alpha.plus_x.2 ⟨h1, run_alpha h2 h3, rfl⟩, rfl⟩

/-- No step reads a malformed text to the end of the line. -/
theorem malformed_step {u : Str} (h : Malformed u) :
    Starts u ∧ ((∀ p, Sem G.step false p u none) ∨ Leaves G.step u) := by
  have lv : ∀ {u}, Leaves G.step u → Starts u ∧ ((∀ p, Sem G.step false p u none) ∨ Leaves G.step u) :=
    fun h => ⟨h.starts, .inr h⟩
  cases h with
  | start h1 h2 h3 h4 h5 h6 =>
    refine ⟨⟨_, _, rfl, h1, h2, h3, h4, h5⟩, .inl fun p => step_none fun d b e => ?_⟩
    cases e
    cases hd : isAlpha _ with
    | false => rfl
    | true => exact absurd (isAlpha_iff.1 hd) h6
  | @word w v h1 h2 h3 =>
    have h4 : ∀ c b, v = c :: b → ¬ IsAlpha c := by
      rintro c b rfl hc
      have := isAlpha_iff.2 hc
      rcases h3 c b rfl with rfl | rfl <;> exact absurd this (by decide)
    refine ⟨starts_word h1 h2, .inl fun p => step_skip ((kw_all h2 h4 p).2 fun hk => ?_) ?_⟩
    · have : lower w ∈ kwRules.map (·.1) := by rw [kwRules_keywords]; exact hk
      obtain ⟨k, hk, e⟩ := List.mem_map.1 this
      rw [← e, ← kw_begins hk (p := 0)]
      exact kw_body_space hk h3.not_starts 0
    · exact .rule_fail (.seq_fail2 (misc_word h1 h2 h4 p) (shell_none_iff.2 ⟨h3.noComment, .inl h3⟩))
  | @misc w v h1 h2 h3 h4 h5 =>
    refine ⟨starts_word h1 h2, ?_⟩
    by_cases hc : Continuation v
    · exact .inl fun p => step_skip ((kw_all h2 h3 p).2 h4)
        (.rule_fail (.seq_fail2 (misc_word h1 h2 h3 p) (shell_none_iff.2 ⟨hc.noComment, .inr hc⟩)))
    · refine .inr fun p => ?_
      obtain ⟨x, s, ts, rfl, h7, h8⟩ := shell_leaves (rl := .misc_arguments) h5 hc (p + blen w)
      have hm : SemX G.misc false p (w ++ x) s _ := semX_rule.2 ⟨_, SemX.seq (misc_word h1 h2 h3 p) h7, rfl⟩
      refine ⟨w ++ x, s, _, by simp, step_skip ?_ hm, h8⟩
      rw [List.append_assoc]; exact (kw_all h2 h3 p).2 h4
  | shell h1 h2 h3 h4 => exact lv (leaves_exec h1 (shellExec_leaves h2 h3 h4))
  | exec h1 h2 h3 h4 => exact lv (leaves_exec h1 (exec_leaves h2 h3 h4))
  | «from» h1 h2 h3 h4 h5 h6 h7 h8 h9 =>
    exact lv (leaves_kw (k := (c!"from", .from, fromBody)) (by simp [kwRules]) h1 (from_leaves h2 h3 h4 h5 h6 h7 h8 h9))
  | arg h1 h2 h3 h4 h5 h6 h7 =>
    exact lv (leaves_kw (k := (c!"arg", .arg, argBody)) (by simp [kwRules]) h1 (arg_leaves h2 h3 h4 h5 h6 h7))
  | copy h1 h2 h3 h4 h5 h6 h7 h8 =>
    exact lv (leaves_kw (k := (c!"copy", .copy, copyBody)) (by simp [kwRules]) h1 (copy_leaves h2 h3 h4 h5 h6 h7 h8))
  | label1 h1 h2 h3 =>
    exact lv (leaves_kw (k := (c!"label", .label, labelBody)) (by simp [kwRules]) h1 (label1_leaves h2 h3))
  | label h1 h2 h3 =>
    exact lv (leaves_kw (k := (c!"label", .label, labelBody)) (by simp [kwRules]) h1 (label_leaves h2 h3))
  | env1 h1 h2 h3 h4 =>
    exact lv (leaves_kw (k := (c!"env", .env, envBody)) (by simp [kwRules]) h1 (env1_leaves h2 h3 h4))
  | env1q h1 h2 h3 h4 =>
    exact lv (leaves_kw (k := (c!"env", .env, envBody)) (by simp [kwRules]) h1 (env1q_leaves h2 h3 h4))
  | env h1 h2 h3 =>
    exact lv (leaves_kw (k := (c!"env", .env, envBody)) (by simp [kwRules]) h1 (env_leaves h2 h3))

/-! ## lines -/

theorem clean_blanks {w s : Str} (hw : Blanks w) (hs : ∀ c b, s = c :: b → isBlank c = false) (h : Clean (w ++ s)) :
    Eol s := by
  obtain ⟨w', v, e, hw', hv⟩ := h
  have e1 : (w ++ s).dropWhile isBlank = s := by
    rw [dropWhile_blanks hw]
    cases s with
    | nil => rfl
    | cons c b => exact dropWhile_head (hs c b rfl)
  have e2 : (w' ++ v).dropWhile isBlank = v := by rw [dropWhile_blanks hw']; exact AtEnd.dropWhile hv
  rw [e, e2] at e1
  rw [← e1]; exact hv

/-- **A line is malformed if and only if it does not fit.** -/
theorem malformed_iff {z : Str} : MalformedLine z ↔ ∀ (l : Line) r, z = l.text ++ r → AtEnd r → ¬ l.Fits r := by
  constructor
  · rintro ⟨w, u, rfl, hw, hm⟩ l r e hr hl
    obtain ⟨ts, h1, -⟩ := line_reads (unq := fun w => .ok w) hl 0 hr
    obtain ⟨⟨c, t, hu, c1, c2, c3, c4, c5⟩, h2⟩ := malformed_step hm
    have hub : ∀ c b, u = c :: b → isBlank c = false := by
      rintro d b e'
      rw [hu] at e'; cases e'
      cases hd : isBlank c with
      | false => rfl
      | true => rcases isBlank_iff.1 hd with h | h <;> contradiction
    rcases h2 with h2 | h2
    · have hc : Sem (.alt G.step G.comment) false (blen w) u none := by
        refine .alt_right (h2 _) ?_
        rw [hu]
        refine .rule_fail (.seq_fail1 (.str_fail ?_))
        simp [stripPrefix, Ne.symm c5]
      have h3 : SemX G.meta_step false 0 w u ([] ++ ([] ++ [])) := by
        have := SemX.seq (x1 := w) (x2 := []) (s' := u) (ws_x (q := false) (p := 0) hw (by simpa using hub))
          (SemX.seq (x1 := []) (x2 := []) (semX_opt.2 (.inr ⟨rfl, rfl, by simpa using hc⟩)) (ws_nil hub))
        rw [List.append_nil] at this; exact this
      obtain ⟨-, rfl⟩ := SemX.same h3 h1 rfl e
      rcases hr c t hu with h | h <;> contradiction
    · obtain ⟨x, s, ts', rfl, h3, h4⟩ := h2 (blen w)
      rcases sem_or (e := .star G.ws) (by decide +kernel) false (blen w + blen x) s with h5 | ⟨w', s', us, rfl, h5⟩
      · exact Sem.star_ne_none h5
      · have h6 : SemX G.meta_step false 0 (w ++ (x ++ w')) s' _ :=
          SemX.seq (ws_x (q := false) (p := 0) hw (by simpa using hub))
            (SemX.seq (semX_opt.2 (.inl (semX_alt.2 (.inl (by simpa using h3))))) (by simpa using h5))
        obtain ⟨-, rfl⟩ := SemX.same h6 h1 (by simp) e
        exact h4 ⟨w', s', rfl, (blanks_of h5).1, hr⟩
  · intro hn
    obtain ⟨p', s, ts, h⟩ := meta_step_some 0 z
    obtain ⟨x, rfl, rfl, h⟩ := h.x
    have hs : ¬ AtEnd s := fun hs => by
      obtain ⟨l, rfl, hl⟩ := line_inv hs h
      exact hn l s rfl hs hl
    obtain ⟨w, y, _, _, rfl, -, h1, h⟩ := semX_seq.1 h
    obtain ⟨t, w', _, _, rfl, -, h2, h3⟩ := semX_seq.1 h
    obtain ⟨hw, -⟩ := blanks_of h1
    obtain ⟨hw', -⟩ := blanks_of h3
    have hb := (runOf_class.1 (lex_ws.star_x.1 h1).1).2
    have hb' := (runOf_class.1 (lex_ws.star_x.1 h3).1).2
    rcases semX_opt.1 h2 with h4 | ⟨rfl, -, h4⟩
    · rcases semX_alt.1 h4 with h4 | ⟨_, h4⟩
      · exact ⟨w, t ++ (w' ++ s), by simp, hw, step_left h4 fun hc => hs (clean_blanks hw' hb' hc)⟩
      · exfalso
        obtain ⟨-, he, -⟩ := comment_inv h4
        cases w' with
        | nil => exact hs fun c b e => by simpa [isBreak] using he c b e
        | cons d w' =>
          have h5 := he d (w' ++ s) rfl
          have h6 := hw' d (by simp)
          rcases h6 with rfl | rfl <;> cases h5
    · obtain ⟨h5, h6⟩ := sem_alt_none.1 h4
      cases w' with
      | cons d w' =>
        have h7 := hb d (w' ++ s) (by simp)
        rw [isBlank_iff.2 (hw' d (by simp))] at h7; cases h7
      | nil =>
        cases s with
        | nil => exact absurd AtEnd.nil hs
        | cons c b =>
          have h7 := hb' c b rfl
          refine ⟨w, c :: b, by simp, hw, step_no h5 ?_ ?_ ?_ ?_ ?_⟩
          · rintro rfl; cases h7
          · rintro rfl; cases h7
          · rintro rfl; exact hs fun d b' e => by cases e; exact .inl rfl
          · rintro rfl; exact hs fun d b' e => by cases e; exact .inr rfl
          · rintro rfl
            cases h6 with
            | rule_fail h6 =>
              rcases sem_seq_none.1 h6 with h6 | ⟨_, _, _, -, h6⟩
              · cases h6 with
                | str_fail h6 => simp [stripPrefix] at h6
              · exact Sem.star_ne_none h6

end Src
end Verif
