import Verif.Proof.Shift
import Verif.Proof.Document

/-!
# Putting a document together from lines
-/

namespace Verif

open Spec

/-- Nothing more on the line. -/
def AtEnd (r : Str) : Prop := ∀ c b, r = c :: b → c = '\n' ∨ c = '\r'

theorem AtEnd.nil : AtEnd [] := by intro c b h; cases h

theorem AtEnd.break {n r : Str} (h : LineBreak n r) : AtEnd (n ++ r) := by
  intro c b e
  rcases h with rfl | rfl | ⟨rfl, -⟩ <;> simp at e <;> simp [← e.1]

/-- The text `t`, standing alone on its line at offset `p`, yields the tokens `ts`. -/
def Line (p : Nat) (t : Str) (ts : List Tok) : Prop :=
  ∀ r, AtEnd r → SemX G.meta_step false p t r ts

theorem Line.at {p : Nat} {t : Str} {ts : List Tok} (h : Line p t ts) {n r : Str}
    (hn : LineBreak n r) : SemX G.meta_step false p t (n ++ r) ts := h _ (AtEnd.break hn)

theorem lineBreak_sem {n r : Str} (h : LineBreak n r) (q : Bool) (p : Nat) :
    SemX G.NEWLINE q p n r [] := lex_NEWLINE.x.2 ⟨(lineBreak_iff.1 h).2, rfl⟩

theorem lineBreak_ne {n r : Str} (h : LineBreak n r) : n ≠ [] := (lineBreak_iff.1 h).1

theorem Sem.eoi_inv {q p s o} (h : Sem .eoi q p s o) :
    o = if s = [] then some (p, [], []) else none := by
  cases h <;> simp

/-- The token of the end of the document. -/
def eoiTok (p : Nat) : Tok := .node .EOI p p [] []

theorem docToks_last {p : Nat} {t : Str} {ts : List Tok}
    (h : SemX G.meta_step false p t [] ts) :
    docToks p t = some (ts ++ [eoiTok (p + blen t)]) := by
  unfold docToks
  have h1 := h
  have h2 : Sem (.star (.seq G.NEWLINE G.meta_step)) false (p + blen t) []
      (some (p + blen t, [], [])) :=
    .star_nil (.seq_fail1 (lex_NEWLINE.none_iff.2 rfl))
  have h3 : Sem G.EOI false (p + blen t) [] (some (p + blen t, [], [eoiTok (p + blen t)])) :=
    .rule_ok .eoi_ok
  have h4 : Sem G.lines false p t (some (p + blen t, [], ts ++ [eoiTok (p + blen t)])) := by
    refine .seq_ok ?_ (.seq_ok h2 h3)
    have := h1; unfold SemX at this; simpa using this
  rw [(parse_eq_iff safe_lines).2 h4]; rfl

theorem docToks_cons {p : Nat} {t n r : Str} {ts : List Tok}
    (h : SemX G.meta_step false p t (n ++ r) ts) (hn : LineBreak n r) :
    docToks p (t ++ n ++ r) = (docToks (p + blen t + blen n) r).map (ts ++ ·) := by
  unfold docToks
  have h1 : Sem G.meta_step false p (t ++ n ++ r) (some (p + blen t, n ++ r, ts)) := by
    have := h
    unfold SemX at this; simpa using this
  have h2 : Sem G.NEWLINE false (p + blen t) (n ++ r) (some (p + blen t + blen n, r, [])) :=
    lineBreak_sem hn _ _
  have h3 := parse_sem safe_lines false (p + blen t + blen n) r
  have hne : n ++ r ≠ [] := by simp [lineBreak_ne hn]
  rcases hl : parse G.lines false (p + blen t + blen n) r with _ | ⟨p', s', us⟩
  · rw [hl] at h3
    have h4 : Sem G.lines false p (t ++ n ++ r) none := by
      refine .seq_fail2 h1 ?_
      rcases sem_seq_none.1 h3 with h3 | ⟨p2, s2, t2, h3, h5⟩
      · -- the rest of the document does not start with a line
        have h6 : Sem (.star (.seq G.NEWLINE G.meta_step)) false (p + blen t) (n ++ r)
            (some (p + blen t, n ++ r, [])) := .star_nil (.seq_fail2 h2 h3)
        refine .seq_fail2 h6 (.rule_fail ?_)
        cases hs : n ++ r with
        | nil => exact absurd hs hne
        | cons c b => exact .eoi_fail
      · rcases sem_seq_none.1 h5 with h5 | ⟨p3, s3, t3, h5, h6⟩
        · exact absurd h5 Sem.star_ne_none
        · exact .seq_fail2 (.star_cons (.seq_ok h2 h3) h5) h6
    rw [(parse_eq_iff safe_lines).2 h4]; rfl
  · rw [hl] at h3
    obtain ⟨p2, s2, t2, u2, h7, h5, rfl⟩ := sem_seq_some.1 h3
    obtain ⟨p3, s3, t3, u3, h8, h6, rfl⟩ := sem_seq_some.1 h5
    have h4 : Sem G.lines false p (t ++ n ++ r)
        (some (p', s', ts ++ ((([] ++ t2) ++ t3) ++ u3))) :=
      .seq_ok h1 (.seq_ok (.star_cons (.seq_ok h2 h7) h8) h6)
    rw [(parse_eq_iff safe_lines).2 h4]; simp

/-- Parsing a document whose first line is known. -/
theorem parse_line_cons {unq : Unquote} {t n r : Str} {ts : List Tok} {st : LoopState}
    (h : SemX G.meta_step false 0 t (n ++ r) ts) (hn : LineBreak n r) (hr : recordLoop unq ts .init = .ok st) :
    Dockerfile.parse unq (t ++ n ++ r) = (Dockerfile.parse unq r).mapped fun d =>
      { content := t ++ n ++ r
        global_args := if st.fromFound then st.globalArgs
          else st.globalArgs ++ d.global_args.map (·.shift (blen t + blen n))
        instructions := st.instructions ++
          d.instructions.map fun i => (i.shift (blen t + blen n)).renumber st.fromIndex } := by
  rw [parse_docToks, parse_docToks, docToks_cons h hn, Nat.zero_add, docToks_at (blen t + blen n)]
  cases docToks 0 r with
  | none => rfl
  | some us =>
    simp only [Option.map_some, recordLoop_append, hr, ok_bind]
    rw [recordLoop_from]
    have := recordLoop_shift unq (blen t + blen n) us .init
    rw [show LoopState.init.shift (blen t + blen n) = LoopState.init from rfl] at this
    rw [this]
    cases recordLoop unq us .init with
    | error e => rfl
    | ok st' =>
      simp only [mapped_ok, LoopState.join, LoopState.shift, LoopState.done, List.map_map]
      rfl

/-- If the instructions of the first line do not come through, the document does not. -/
theorem parse_line_error {unq : Unquote} {t n r : Str} {ts : List Tok} {e : Fault}
    (h : SemX G.meta_step false 0 t (n ++ r) ts) (hn : LineBreak n r)
    (hr : recordLoop unq ts .init = .error e) :
    Dockerfile.parse unq (t ++ n ++ r) = .error (if docToks 0 r = none then .err .parseError else e)
    := by
  rw [parse_docToks, docToks_cons h hn, docToks_at]
  cases docToks 0 r with
  | none => rfl
  | some us =>
    simp only [Option.map_some, recordLoop_append, hr, error_bind, mapped_error]
    simp

/-- The grammar rejects the text iff the result is a `ParseError`. -/
theorem parse_error_iff {unq : Unquote} {s : Str} :
    Dockerfile.parse unq s = .error (.err .parseError) ↔ docToks 0 s = none := by
  constructor
  · intro h
    cases hd : docToks 0 s with
    | none => rfl
    | some ts =>
      exfalso
      rw [parse_docToks, hd] at h
      have hp := parse_dockerfile_lines s
      unfold docToks at hd
      rcases hl : parse G.lines false 0 s with _ | ⟨p', s', us⟩
      · rw [hl] at hd; cases hd
      · rw [hl] at hp hd
        cases hd
        obtain ⟨vs, e, hv⟩ := dockerfile_toks hp
        simp only [List.cons.injEq, and_true, Tok.node.injEq] at e
        simp only [e] at h
        have hens := ens_recordLoop (unq := unq) (q := blen s) hv .init
        cases hr : recordLoop unq (vs ++ [.node .EOI (blen s) (blen s) [] []]) .init with
        | ok st => rw [hr] at h; cases h
        | error f =>
          rw [hr] at h hens
          cases h
          rcases hens with ⟨_, _, _, h⟩ | h | h <;> cases h
  · intro h
    rw [parse_docToks, h]

theorem parse_line_last {unq : Unquote} {t : Str} {ts : List Tok}
    (h : SemX G.meta_step false 0 t [] ts) :
    Dockerfile.parse unq t = (recordLoop unq ts .init).mapped (·.done t) := by
  rw [parse_docToks, docToks_last h]
  simp only [recordLoop_append]
  cases recordLoop unq ts .init <;> rfl

/-! ## lines without instructions -/

theorem lowerChar_of_not_alpha {c : Char} (h : isAlpha c = false) : lowerChar c = c := by
  unfold lowerChar
  split
  · rename_i hc
    simp [isAlpha, hc] at h
  · rfl

theorem stripPrefixI_none_head {k : Char} {ks s : Str} (hk : isAlpha (lowerChar k) = true)
    (hs : ∀ c b, s = c :: b → isAlpha c = false) : stripPrefixI (k :: ks) s = none := by
  cases s with
  | nil => rfl
  | cons c b =>
    have hc := hs c b rfl
    unfold stripPrefixI
    rw [if_neg]
    rw [lowerChar_of_not_alpha hc]
    intro e
    rw [e, hc] at hk
    cases hk

/-- Instructions start with a letter. -/
theorem step_none {q : Bool} {p : Nat} {s : Str} (hs : ∀ c b, s = c :: b → isAlpha c = false) :
    Sem G.step q p s none := by
  have hk : ∀ {k ks} {r : Rule} {e : PExpr}, isAlpha (lowerChar k) = true →
      Sem (.rule .normal r (.seq (.istr (k :: ks)) e)) q p s none := fun h =>
    .rule_fail (.seq_fail1 (.istr_fail (stripPrefixI_none_head h hs)))
  unfold G.step
  refine .alt_right (hk (by decide +kernel)) (.alt_right (hk (by decide +kernel))
    (.alt_right (hk (by decide +kernel)) (.alt_right (hk (by decide +kernel))
    (.alt_right (hk (by decide +kernel)) (.alt_right (hk (by decide +kernel))
    (.alt_right (hk (by decide +kernel)) (.alt_right (hk (by decide +kernel)) ?_)))))))
  refine .rule_fail (.seq_fail1 (.rule_fail ?_))
  exact step_alpha.plus_none.2 hs

theorem isAlpha_break {c : Char} (h : c = '\n' ∨ c = '\r') : isAlpha c = false := by
  rcases h with rfl | rfl <;> decide +kernel

theorem isBlank_break {c : Char} (h : c = '\n' ∨ c = '\r') : isBlank c = false := by
  rcases h with rfl | rfl <;> decide +kernel

theorem ws_x {q p w s'} (hw : Blanks w) (hs : ∀ c b, s' = c :: b → isBlank c = false) :
    SemX (.star G.ws) q p w s' [] :=
  lex_ws.star_x.2 ⟨runOf_class.2 ⟨fun c hc => isBlank_iff.2 (hw c hc), hs⟩, rfl⟩

theorem ws_nil {q p s'} (hs : ∀ c b, s' = c :: b → isBlank c = false) :
    SemX (.star G.ws) q p [] s' [] := ws_x (by intro c h; cases h) hs

theorem comment_x {p t r} (ht : CommentText t) (hr : AtEnd r) :
    SemX G.comment false p t r [.node .comment p (p + blen t) t []] := by
  obtain ⟨b, rfl, hb⟩ := ht
  unfold G.comment G.atm
  refine semX_rule.2 ⟨[], ?_, by simp [emitToks]⟩
  refine SemX.seq (x1 := ['#']) (x2 := b) (t1 := []) (t2 := []) (semX_str.2 ⟨rfl, rfl⟩) ?_
  refine step_not_newline.star_x.2 ⟨runOf_class.2 ⟨fun c hc => ?_, fun c b' e => ?_⟩, rfl⟩
  · simp [isBreak_false.2 (hb c hc)]
  · have := hr c b' e
    rcases this with rfl | rfl <;> rfl

/-- A line of blanks. -/
theorem line_blank {p : Nat} {w : Str} (hw : Blanks w) : Line p w [] := by
  intro r hr
  unfold G.meta_step
  have hb : ∀ c b, r = c :: b → isBlank c = false := fun c b e => isBlank_break (hr c b e)
  have := SemX.seq (x1 := w) (x2 := []) (t1 := []) (t2 := []) (q := false) (p := p) (s' := r)
    (a := .star G.ws) (b := .seq (.opt (.alt G.step G.comment)) (.star G.ws)) (ws_x hw hb) ?_
  · simpa using this
  refine SemX.seq (x1 := []) (x2 := []) (t1 := []) (t2 := []) (semX_opt.2 (.inr ⟨rfl, rfl, ?_⟩))
    (ws_nil hb)
  refine .alt_right (step_none fun c b e => isAlpha_break (hr c b (by simpa using e)))
    (.rule_fail (.seq_fail1 ?_))
  refine (lex_str1 '#').none_iff.2 ?_
  cases r with
  | nil => rfl
  | cons c b => rcases hr c b rfl with rfl | rfl <;> rfl

/-- A line holding a comment. -/
theorem line_comment {p : Nat} {w t : Str} (hw : Blanks w) (ht : CommentText t) :
    Line p (w ++ t) [.node .comment (p + blen w) (p + blen w + blen t) t []] := by
  intro r hr
  unfold G.meta_step
  have hb : ∀ c b, r = c :: b → isBlank c = false := fun c b e => isBlank_break (hr c b e)
  have hh : ∀ c b, t ++ r = c :: b → c = '#' := by
    obtain ⟨b, rfl, -⟩ := ht
    intro c b e; simp at e; exact e.1.symm
  refine SemX.seq (x1 := w) (x2 := t) (t1 := []) (ws_x hw ?_) ?_
  · intro c b e; rw [hh c b e]; rfl
  have := SemX.seq (x1 := t) (x2 := []) (q := false) (p := p + blen w) (s' := r)
    (a := .opt (.alt G.step G.comment)) (b := .star G.ws)
    (t1 := [.node .comment (p + blen w) (p + blen w + blen t) t []])
    (t2 := []) (semX_opt.2 (.inl (semX_alt.2 (.inr ⟨?_, comment_x ht hr⟩)))) (ws_nil hb)
  · simpa using this
  · refine step_none fun c b e => ?_
    rw [hh c b e]; decide +kernel

end Verif
