import Verif.Proof.Tokens

/-!
# What the `from_record` functions return on tokens made by the grammar
-/

namespace Verif

open Spec

/-! ## results -/

/-- a value satisfying `Q`, or a fault satisfying `E` -/
def Ens {α : Type} (r : Result α) (Q : α → Prop) (E : Fault → Prop) : Prop :=
  match r with
  | .ok a => Q a
  | .error f => E f

theorem Ens.bind {α β : Type} {x : Result α} {f : α → Result β} {Q : α → Prop} {R : β → Prop}
    {E : Fault → Prop} (hx : Ens x Q E) (hf : ∀ a, Q a → Ens (f a) R E) :
    Ens (x >>= f) R E := by
  cases x with
  | ok a => exact hf a hx
  | error e => exact hx

theorem Ens.mono {α : Type} {x : Result α} {Q Q' : α → Prop} {E E' : Fault → Prop}
    (hx : Ens x Q E) (hQ : ∀ a, Q a → Q' a) (hE : ∀ f, E f → E' f) : Ens x Q' E' := by
  cases x with
  | ok a => exact hQ a hx
  | error e => exact hE e hx

theorem Ens.ok_of {α : Type} {x : Result α} {Q : α → Prop} {E : Fault → Prop} {a : α}
    (h : Ens x Q E) (hx : x = .ok a) : Q a := by subst hx; exact h

theorem Ens.error_of {α : Type} {x : Result α} {Q : α → Prop} {E : Fault → Prop} {f : Fault}
    (h : Ens x Q E) (hx : x = .error f) : E f := by subst hx; exact h

/-- the error of unquoting some text -/
def Unesc (unq : Unquote) (f : Fault) : Prop := ∃ t e, unq t = .error e ∧ f = .err (.unescape e)

/-! ## layout -/

theorem Spec.Laid.pad {p : Nat} {x : Str} {ns : List SpanTree} (h : Laid p x ns) (y : Str) :
    Laid p (x ++ y) ns := by
  induction h with
  | nil => exact .nil
  | cons h0 hP h1 h2 ih1 ih2 => rw [List.append_assoc]; exact .cons h0 hP h1 ih2

theorem Spec.Laid.padLeft {p : Nat} {x y : Str} {ns : List SpanTree} (h : Laid (p + blen y) x ns) :
    Laid p (y ++ x) ns := by
  cases h with
  | nil => exact .nil
  | @cons _ a b c P ch ns h0 hP h1 h2 =>
    have e : p + blen y + blen a = p + blen (y ++ a) := by rw [blen_append]; omega
    rw [e] at h1 h2 ⊢
    have : y ++ (a ++ b ++ c) = (y ++ a) ++ b ++ c := by simp
    rw [this]; exact .cons h0 hP h1 h2

theorem Spec.Laid.append {p : Nat} {x y : Str} {ns ms : List SpanTree} (h : Laid p x ns)
    (h' : Laid (p + blen x) y ms) : Laid p (x ++ y) (ns ++ ms) := by
  induction h with
  | nil => exact h'.padLeft
  | @cons p a b c P ch ns h0 hP h1 h2 ih1 ih2 =>
    have e : p + blen (a ++ b ++ c) = p + blen a + blen b + blen c := by
      simp only [blen_append]; omega
    rw [e] at h'
    have := ih2 h'
    rw [List.append_assoc]
    exact .cons h0 hP h1 this

theorem Spec.Laid.single {p : Nat} {x : Str} {P : Str → Prop} {ch : List SpanTree} (h0 : x ≠ [])
    (hP : P x) (h : Laid p x ch) : Laid p x [.node ⟨p, p + blen x⟩ P ch] := by
  have := Laid.cons (p := p) (a := []) (b := x) (c := []) (P := P) (ch := ch) (ns := []) h0 hP
    (by simpa using h) .nil
  simpa using this

/-- The node `n` describes the token `t`. -/
def Mirror (t : Tok) (n : SpanTree) : Prop :=
  ∃ P ch, n = .node t.span P ch ∧ P t.text ∧ t.text ≠ [] ∧ Laid t.start t.text ch

inductive Mirrors : List Tok → List SpanTree → Prop
  | nil : Mirrors [] []
  | cons {t n ts ns} : Mirror t n → Mirrors ts ns → Mirrors (t :: ts) (n :: ns)

theorem Mirrors.append {ts us : List Tok} {ns ms : List SpanTree} (h : Mirrors ts ns)
    (h' : Mirrors us ms) : Mirrors (ts ++ us) (ns ++ ms) := by
  induction h with
  | nil => exact h'
  | cons h1 _ ih => exact .cons h1 ih

theorem laid_of_forest {p : Nat} {x : Str} {ts : List Tok} {ns : List SpanTree}
    (hf : Forest p x ts) (hm : Mirrors ts ns) : Laid p x ns := by
  induction hf generalizing ns with
  | nil => cases hm; exact .nil
  | @cons p r a b c ch ts h1 h2 ih1 ih2 =>
    cases hm with
    | cons hm1 hm2 =>
      obtain ⟨P, ch', rfl, hP, h0, hl⟩ := hm1
      exact .cons h0 hP hl (ih2 hm2)

theorem mirror_leaf {k r e} {t : Tok} (h : Made k r e t) (hc : consumes e = true)
    {P : Str → Prop} (hP : P t.text) : Mirror t (.node t.span P []) :=
  ⟨P, [], rfl, hP, h.nonempty hc, .nil⟩

theorem mirror_core {k r e} {t : Tok} (h : Made k r e t) (hc : consumes e = true)
    {P : Str → Prop} (hP : P t.text) {ns : List SpanTree} (hm : Mirrors (core t.children) ns) :
    Mirror t (.node t.span P ns) :=
  ⟨P, ns, rfl, hP, h.nonempty hc, laid_of_forest (h.forest.2.sublist (core_sublist _)) hm⟩

theorem mirror_children {k r e} {t : Tok} (h : Made k r e t) (hc : consumes e = true)
    {P : Str → Prop} (hP : P t.text) {ns : List SpanTree} (hm : Mirrors t.children ns) :
    Mirror t (.node t.span P ns) :=
  ⟨P, ns, rfl, hP, h.nonempty hc, laid_of_forest h.forest.2 hm⟩

/-! ## texts of tokens -/

theorem startsWithQuote_iff {s : Str} : startsWithQuote s = true ↔ StartsQuoted s := by
  cases s with
  | nil => simp [startsWithQuote, StartsQuoted]
  | cons c cs => simp [startsWithQuote, StartsQuoted, QuoteChar, or_assoc]

theorem Spec.Quoted.starts {s : Str} (h : Quoted s) : StartsQuoted s := by
  obtain ⟨c, m, rfl, h⟩ := h
  exact ⟨c, m ++ [c], rfl, by rcases h with rfl | rfl <;> simp [QuoteChar]⟩

theorem quoted_string {q p x s' ts} (h : SemX G.string q p x s' ts) : Quoted x := by
  obtain ⟨_, h, _⟩ := semX_rule.1 h
  rcases semX_alt.1 h with h | ⟨_, h⟩
  · obtain ⟨_, h, _⟩ := semX_rule.1 h
    obtain ⟨x1, x2, _, _, rfl, _, h1, h2⟩ := semX_seq.1 h
    obtain ⟨x3, x4, _, _, rfl, _, h3, h4⟩ := semX_seq.1 h2
    rw [(semX_str.1 h1).1, (semX_str.1 h4).1]
    exact ⟨'\'', x3, by simp, .inr rfl⟩
  · obtain ⟨_, h, _⟩ := semX_rule.1 h
    obtain ⟨x1, x2, _, _, rfl, _, h1, h2⟩ := semX_seq.1 h
    obtain ⟨x3, x4, _, _, rfl, _, h3, h4⟩ := semX_seq.1 h2
    rw [(semX_str.1 h1).1, (semX_str.1 h4).1]
    exact ⟨'"', x3, by simp, .inl rfl⟩

theorem made_quoted {k r} {t : Tok} (h : Made k r G.string t) : Quoted t.text := by
  obtain ⟨_, _, s', h⟩ := made_iff.1 h
  exact quoted_string h

theorem made_string_quoted {t : Tok} (h : MadeBy G.string t) : Quoted t.text := by
  obtain ⟨_, _, s', h⟩ := made_iff.1 h
  exact quoted_string (q := false) (semX_rule.2 ⟨_, h, rfl⟩)

/-! ## strings -/

theorem ens_unquoteR (unq : Unquote) (s : Str) :
    Ens (unquoteR unq s) (fun v => unq s = .ok v) (Unesc unq) := by
  unfold unquoteR
  cases h : unq s with
  | ok v => rfl
  | error e => exact ⟨s, e, h, rfl⟩

theorem ens_parseString (unq : Unquote) (t : Tok) :
    Ens (parseString unq t) (fun s => s.span = t.span ∧ Reads unq t.text s.content)
      (Unesc unq) := by
  unfold parseString
  split
  · rename_i h
    refine (ens_unquoteR unq t.text).bind fun v hv => ?_
    exact ⟨rfl, .inl ⟨startsWithQuote_iff.1 h, hv⟩⟩
  · rename_i h
    exact ⟨rfl, .inr ⟨fun hq => h (startsWithQuote_iff.2 hq), rfl⟩⟩

theorem mirror_str {unq : Unquote} {k r e} {t : Tok} (h : Made k r e t) (hc : consumes e = true)
    {s : SpannedString} (hs : s.span = t.span ∧ Reads unq t.text s.content) :
    Mirror t (strTree unq s) := by
  unfold strTree
  rw [hs.1]
  exact mirror_leaf h hc hs.2

/-! ## comments and shell text -/

theorem lex_comment_inv {q p x s' ts}
    (h : SemX (.seq (.str ['#']) (.star (.seq (.neg G.NEWLINE) .any))) q p x s' ts) :
    (∃ b, x = '#' :: b ∧ ∀ c ∈ b, isBreak c = false) ∧
    (∀ c b, s' = c :: b → isBreak c = true) ∧ ts = [] := by
  obtain ⟨x1, x2, t1, t2, rfl, rfl, h1, h2⟩ := semX_seq.1 h
  obtain ⟨rfl, rfl⟩ := semX_str.1 h1
  obtain ⟨h3, rfl⟩ := step_not_newline.star_x.1 h2
  have h3 := runOf_class.1 h3
  refine ⟨⟨x2, rfl, fun c hc => by simpa using h3.1 c hc⟩, fun c b e => ?_, rfl⟩
  simpa using h3.2 c b e

theorem afterBreak_local {n x s : Str} (h : afterBreak (n ++ (x ++ s)) = some (x ++ s)) :
    afterBreak (n ++ x) = some x := by
  cases n with
  | nil =>
    obtain ⟨y, hy⟩ := lex_NEWLINE.suffix h
    have hy0 : y = [] := by simpa using hy
    subst hy0
    have := (Lex.run (x := []) (q := false) (p := 0) lex_NEWLINE h).consumes _ _ _ rfl
    have := this.2 (by decide +kernel)
    simp at this
  | cons c n =>
    unfold afterBreak at h
    split at h
    · rename_i heq
      simp only [List.cons_append, List.cons.injEq] at heq
      simp only [Option.some.injEq] at h
      have : n = [] := by
        have := heq.2; rw [h] at this; simpa using this
      subst this; rw [heq.1]; rfl
    · rename_i heq
      simp only [List.cons_append, List.cons.injEq] at heq
      simp only [Option.some.injEq] at h
      have e := heq.2
      rw [h] at e
      have : n = ['\n'] := List.append_cancel_right (bs := x ++ s) (by simpa using e)
      subst this; rw [heq.1]; rfl
    · rename_i hne heq
      simp only [List.cons_append, List.cons.injEq] at heq
      simp only [Option.some.injEq] at h
      have : n = [] := by
        have := heq.2; rw [h] at this; simpa using this
      subst this; rw [heq.1]
      cases x with
      | nil => rfl
      | cons d x =>
        have : d ≠ '\n' := by
          intro hd; subst hd
          exact hne _ h
        simp only [List.cons_append, List.nil_append]
        unfold afterBreak
        split <;> simp_all
    · simp at h

theorem afterBreak_mono {x r : Str} (h : afterBreak x = some r) (s : Str) :
    (afterBreak (x ++ s)).isSome = true := by
  cases x with
  | nil => simp [afterBreak] at h
  | cons c x =>
    have e := afterBreak_isNone c x
    have e' := afterBreak_isNone c (x ++ s)
    rw [h] at e
    rw [← e] at e'
    rw [List.cons_append]
    cases hh : afterBreak (c :: (x ++ s)) with
    | none => rw [hh] at e'; simp at e'
    | some _ => rfl

theorem dropWhile_append_of_cons {f : Char → Bool} {x s r : Str} {c : Char}
    (h : x.dropWhile f = c :: r) : (x ++ s).dropWhile f = c :: (r ++ s) := by
  induction x with
  | nil => simp at h
  | cons d x ih =>
    simp only [List.dropWhile_cons, List.cons_append] at h ⊢
    split
    · rename_i hd; rw [if_pos hd] at h; exact ih h
    · rename_i hd
      rw [if_neg hd] at h
      simp only [List.cons.injEq] at h
      rw [h.1, h.2]

theorem afterContinuation_mono {x : Str} (h : (afterContinuation x).isSome = true) (s : Str) :
    (afterContinuation (x ++ s)).isSome = true := by
  unfold afterContinuation at h
  split at h
  · rename_i r
    simp only [List.cons_append, afterContinuation]
    cases hd : r.dropWhile isBlank with
    | nil => rw [hd] at h; simp [afterBreak] at h
    | cons c r' =>
      rw [dropWhile_append_of_cons hd]
      rw [hd] at h
      obtain ⟨y, hy⟩ := Option.isSome_iff_exists.1 h
      exact afterBreak_mono hy s
  · simp at h

theorem continuation_inv {q p k r ts} (h : SemX G.line_continuation q p k r ts) :
    ∃ w n, k = '\\' :: w ++ n ∧ (∀ c ∈ w, isBlank c = true) ∧ afterBreak (n ++ r) = some r ∧
      ts = [] := by
  obtain ⟨x1, x2, t1, t2, rfl, rfl, h1, h2⟩ := semX_seq.1 h
  obtain ⟨x3, x4, t3, t4, rfl, rfl, h3, h4⟩ := semX_seq.1 h2
  obtain ⟨rfl, rfl⟩ := semX_str.1 h1
  obtain ⟨h5, rfl⟩ := lex_ws.star_x.1 h3
  obtain ⟨h6, rfl⟩ := lex_NEWLINE.x.1 h4
  exact ⟨x3, x4, rfl, (runOf_class.1 h5).1, h6, rfl⟩

theorem dropWhile_run {f : Char → Bool} {w r : Str} (hw : ∀ c ∈ w, f c = true)
    (hr : ∀ c b, r = c :: b → f c = false) : (w ++ r).dropWhile f = r := by
  induction w with
  | nil =>
    cases r with
    | nil => rfl
    | cons c b => simp [hr c b rfl]
  | cons c w ih =>
    have : f c = true := hw c (by simp)
    simp only [List.cons_append, List.dropWhile_cons, this, if_true]
    exact ih (fun d hd => hw d (by simp [hd]))

theorem afterBreak_head {n r : Str} (h : afterBreak (n ++ r) = some r) :
    ∃ c b, n = c :: b ∧ isBreak c = true := by
  cases n with
  | nil =>
    have := (Lex.run (x := []) (q := false) (p := 0) lex_NEWLINE h).consumes _ _ _ rfl
    have := this.2 (by decide +kernel)
    simp at this
  | cons c b =>
    refine ⟨c, b, rfl, ?_⟩
    have e := afterBreak_isNone c (b ++ r)
    rw [List.cons_append] at h
    rw [h] at e; simpa using e.symm

theorem blank_of_break {c : Char} (h : isBreak c = true) : isBlank c = false := by
  have : c = '\n' ∨ c = '\r' := by simpa [isBreak] using h
  rcases this with rfl | rfl <;> rfl

theorem continuation_local {q p k x s ts} (h : SemX G.line_continuation q p k (x ++ s) ts) :
    afterContinuation (k ++ x) = some x := by
  obtain ⟨w, n, rfl, hw, hn, _⟩ := continuation_inv h
  have hn' := afterBreak_local hn
  obtain ⟨c, b, rfl, hc⟩ := afterBreak_head hn
  show afterBreak (List.dropWhile isBlank (w ++ c :: b ++ x)) = _
  rw [show w ++ c :: b ++ x = w ++ ((c :: b) ++ x) by simp,
    dropWhile_run hw (by
      intro c' b' e
      simp only [List.cons_append, List.cons.injEq] at e
      rw [← e.1]; exact blank_of_break hc)]
  exact hn'

/-- The body of `any_breakable`. -/
def breakBody : PExpr :=
  .alt (.seq G.comment_line (.opt (.recur .any_breakable)))
    (.seq G.any_content (.opt (.seq G.line_continuation (.recur .any_breakable))))

theorem any_breakable_eq : G.any_breakable = G.cmp .any_breakable breakBody := rfl

theorem semX_any_breakable {q p x s' ts} : SemX (.recur .any_breakable) q p x s' ts ↔
    ∃ ch, SemX breakBody false p x s' ch ∧
      ts = [.node .any_breakable p (p + blen x) x ch] := by
  rw [semX_recur]
  show SemX (G.cmp .any_breakable breakBody) q p x s' ts ↔ _
  rw [semX_rule]; exact Iff.rfl

theorem comment_inv {p x s' ts} (h : SemX G.comment false p x s' ts) :
    (∃ b, x = '#' :: b ∧ ∀ c ∈ b, isBreak c = false) ∧
    (∀ c b, s' = c :: b → isBreak c = true) ∧ ts = [.node .comment p (p + blen x) x []] := by
  obtain ⟨t1, h1, rfl⟩ := semX_rule.1 h
  obtain ⟨h2, h3, rfl⟩ := lex_comment_inv h1
  exact ⟨h2, h3, rfl⟩

theorem comment_line_inv {p x r ts} (h : SemX G.comment_line false p x r ts) :
    ∃ w b n, x = w ++ ('#' :: b) ++ n ∧ (∀ c ∈ w, isBlank c = true) ∧
      (∀ c ∈ b, isBreak c = false) ∧
      (afterBreak (n ++ r) = some r ∨ (n = [] ∧ r = [])) ∧
      ts = [.node .comment (p + blen w) (p + blen w + blen ('#' :: b)) ('#' :: b) []] := by
  obtain ⟨w, x2, t1, t2, rfl, rfl, h1, h2⟩ := semX_seq.1 h
  obtain ⟨y, n, t3, t4, rfl, rfl, h3, h4⟩ := semX_seq.1 h2
  obtain ⟨h5, rfl⟩ := lex_ws.star_x.1 h1
  obtain ⟨⟨b, rfl, hb⟩, hn, rfl⟩ := comment_inv h3
  rcases semX_opt.1 h4 with h6 | ⟨rfl, rfl, h6⟩
  · obtain ⟨h7, rfl⟩ := lex_NEWLINE.x.1 h6
    exact ⟨w, b, n, by simp, (runOf_class.1 h5).1, hb, .inl h7, rfl⟩
  · refine ⟨w, b, [], by simp, (runOf_class.1 h5).1, hb, .inr ⟨rfl, ?_⟩, rfl⟩
    cases r with
    | nil => rfl
    | cons c r =>
      have hc := hn c r rfl
      have e := afterBreak_isNone c r
      rw [lex_NEWLINE.none_iff.1 h6, hc] at e
      simp at e

/-- A comment line, seen from the text up to the end of the shell text. -/
theorem comment_line_local {p x1 x2 s ts} (h : SemX G.comment_line false p x1 (x2 ++ s) ts) :
    afterComment (x1 ++ x2) = some x2 := by
  obtain ⟨w, b, n, rfl, hw, hb, hn, _⟩ := comment_line_inv h
  have hd : (w ++ '#' :: b ++ n ++ x2).dropWhile isBlank = '#' :: (b ++ (n ++ x2)) := by
    have := dropWhile_run (f := isBlank) (w := w) (r := '#' :: (b ++ (n ++ x2))) hw (by
      intro c r e
      simp only [List.cons.injEq] at e
      rw [← e.1]; rfl)
    simpa using this
  unfold afterComment
  rw [hd]
  simp only [Option.some.injEq]
  have hd2 : (b ++ (n ++ x2)).dropWhile (fun c => !isBreak c) = n ++ x2 := by
    refine dropWhile_run (fun c hc => by simp [hb c hc]) ?_
    intro c r e
    rcases hn with hn | ⟨rfl, hr⟩
    · obtain ⟨d, b', rfl, hdb⟩ := afterBreak_head hn
      simp only [List.cons_append, List.cons.injEq] at e
      rw [← e.1]; simp [hdb]
    · have : x2 = [] := by
        have := congrArg List.length hr
        simp only [List.length_append, List.length_nil] at this
        exact List.eq_nil_of_length_eq_zero (by omega)
      subst this; simp at e
  rw [hd2]
  rcases hn with hn | ⟨rfl, hr⟩
  · rw [afterBreak_local hn]; rfl
  · have : x2 = [] := by
      have := congrArg List.length hr
      simp only [List.length_append, List.length_nil] at this
      exact List.eq_nil_of_length_eq_zero (by omega)
    subst this; rfl

/-- The comment of a comment line. -/
theorem comment_line_text {p x1 x2 s ts} (h : SemX G.comment_line false p x1 (x2 ++ s) ts) :
    ∃ p1 p2, ts = [.node .comment p1 p2 (commentText (x1 ++ x2)) []] := by
  obtain ⟨w, b, n, rfl, hw, hb, hn, e⟩ := comment_line_inv h
  refine ⟨p + blen w, p + blen w + blen ('#' :: b), e.trans ?_⟩
  have hd : (w ++ '#' :: b ++ n ++ x2).dropWhile isBlank = '#' :: (b ++ (n ++ x2)) := by
    have := dropWhile_run (f := isBlank) (w := w) (r := '#' :: (b ++ (n ++ x2))) hw (by
      intro c r e
      simp only [List.cons.injEq] at e
      rw [← e.1]; rfl)
    simpa using this
  have ht : commentText (w ++ '#' :: b ++ n ++ x2) = '#' :: b := by
    unfold commentText
    rw [hd, List.takeWhile_cons]
    simp only [show (!isBreak '#') = true from rfl, if_true, List.cons.injEq, true_and]
    rw [List.takeWhile_append_of_pos (by intro c hc; simp [hb c hc])]
    have : (n ++ x2).takeWhile (fun c => !isBreak c) = [] := by
      rcases hn with hn | ⟨rfl, hr⟩
      · obtain ⟨d, b', rfl, hdb⟩ := afterBreak_head hn
        simp [hdb]
      · have : x2 = [] := by
          have := congrArg List.length hr
          simp only [List.length_append, List.length_nil] at this
          exact List.eq_nil_of_length_eq_zero (by omega)
        subst this; rfl
    rw [this, List.append_nil]
  rw [ht]

theorem comment_line_none {q p s} (h : Sem G.comment_line q p s none) : afterComment s = none := by
  unfold afterComment
  split
  · rename_i r hd
    exfalso
    have h1 : Sem _ q p s (lexOut p s (some (s.dropWhile isBlank))) := lex_ws_star q p s
    rw [hd] at h1
    rcases sem_seq_none.1 h with h2 | ⟨p1, s1, t1, h2, h3⟩
    · exact Sem.star_ne_none h2
    · have := h1.det h2
      simp only [lexOut, Option.some.injEq, Prod.mk.injEq] at this
      obtain ⟨_, rfl, _⟩ := this
      rcases sem_seq_none.1 h3 with h4 | ⟨_, _, _, _, h4⟩
      · have := (Lex.none_iff lex_comment_body).1 (sem_rule_none.1 h4)
        simp [charFn] at this
      · cases h4
  · rfl

theorem afterComment_mono {x s : Str} (h : afterComment (x ++ s) = none) :
    afterComment x = none := by
  unfold afterComment at h ⊢
  split
  · rename_i r hd
    rw [dropWhile_append_of_cons hd] at h
    simp at h
  · rfl

theorem lineText_run {x r : Str} (hx : ∀ a c b, x = a ++ c :: b → afterContinuation (c :: b ++ r) = none)
    (hr : r = [] ∨ (afterContinuation r).isSome = true) :
    lineText (x ++ r) = (x, afterContinuation r) := by
  induction x with
  | nil =>
    rcases hr with rfl | hr
    · rfl
    · cases r with
      | nil => simp [afterContinuation] at hr
      | cons c r =>
        obtain ⟨y, hy⟩ := Option.isSome_iff_exists.1 hr
        simp only [List.nil_append, lineText, hy]
  | cons c x ih =>
    have h1 := hx [] c x rfl
    have h2 := ih (fun a d b e => hx (c :: a) d b (by rw [e]; rfl))
    rw [List.cons_append] at h1 ⊢
    simp only [lineText, h1, h2]

/-- string form of a list of components -/
def dispOf (cs : List BreakableStringComponent) : Str :=
  cs.flatMap fun
    | .string s => s.content
    | .comment _ => []

/-- what a string component of shell text says about its source text -/
def ShellRd (t c : Str) : Prop := c = t ∧ ∀ d ∈ t, isBreak d = false

theorem breakable_body (n : Nat) : ∀ {p x s' ch}, x.length ≤ n → SemX breakBody false p x s' ch →
    ∃ cs, breakableComponentsList ch = .ok cs ∧ Laid p x (cs.map (compTree ShellRd)) ∧
      ∀ m, x.length ≤ m → stripLines (m + 1) x = dispOf cs ∧
        pieceLines (m + 1) x = cs.map pieceOf := by
  induction n with
  | zero =>
    intro p x s' ch hn h
    have := h.nonempty (by decide +kernel)
    exact absurd (List.eq_nil_of_length_eq_zero (by omega)) this
  | succ n ih =>
    intro p x s' ch hn h
    -- a recursive part
    have hrec : ∀ {p x s' ts}, x.length ≤ n → SemX (.recur .any_breakable) false p x s' ts →
        ∃ t ch cs, ts = [t] ∧ t = .node .any_breakable p (p + blen x) x ch ∧
          breakableComponentsList ch = .ok cs ∧ Laid p x (cs.map (compTree ShellRd)) ∧
          ∀ m, x.length ≤ m → stripLines (m + 1) x = dispOf cs ∧
        pieceLines (m + 1) x = cs.map pieceOf := by
      intro p x s' ts hx h
      obtain ⟨ch, h1, rfl⟩ := semX_any_breakable.1 h
      obtain ⟨cs, a, b, c⟩ := ih hx h1
      exact ⟨_, ch, cs, rfl, rfl, a, b, c⟩
    rcases semX_alt.1 h with h | ⟨hno, h⟩
    · -- a comment line
      obtain ⟨x1, x2, t1, t2, rfl, rfl, h1, h2⟩ := semX_seq.1 h
      have hc := h1.nonempty (by decide +kernel)
      have hlen : x1.length ≠ 0 := fun h => hc (List.eq_nil_of_length_eq_zero h)
      have hloc := comment_line_local h1
      have hct := comment_line_text h1
      obtain ⟨w, b, nl, rfl, hw, hb, hnl, rfl⟩ := comment_line_inv h1
      replace hct : commentText (w ++ '#' :: b ++ nl ++ x2) = '#' :: b := by
        obtain ⟨p1, p2, hct⟩ := hct
        simp only [List.cons.injEq, Tok.node.injEq] at hct
        exact hct.1.2.2.2.1.symm
      have hne : w ++ '#' :: b ++ nl ++ x2 ≠ [] := by simp
      simp only [List.length_append] at hn hlen
      have hbr : ∀ d ∈ '#' :: b, isBreak d = false := by
        intro d hd
        rcases List.mem_cons.1 hd with rfl | hd
        · rfl
        · exact hb d hd
      have lay : ∀ ns, Laid (p + blen (w ++ '#' :: b ++ nl)) x2 ns →
          Laid p (w ++ '#' :: b ++ nl ++ x2)
            (compTree ShellRd (.comment ⟨⟨p + blen w, p + blen w + blen ('#' :: b)⟩, '#' :: b⟩) :: ns) := by
        intro ns hl
        have hl' : Laid (p + blen w + blen ('#' :: b)) (nl ++ x2) ns := by
          apply Spec.Laid.padLeft
          rw [show p + blen w + blen ('#' :: b) + blen nl = p + blen (w ++ '#' :: b ++ nl) by
            simp only [blen_append]; omega]
          exact hl
        rw [show w ++ '#' :: b ++ nl ++ x2 = w ++ ('#' :: b) ++ (nl ++ x2) by simp]
        exact Laid.cons (by simp) ⟨rfl, ⟨b, rfl⟩, hbr⟩ .nil hl'
      rcases semX_opt.1 h2 with h3 | ⟨rfl, rfl, h3⟩
      · obtain ⟨t, ch, cs, rfl, rfl, e1, l1, d1⟩ := hrec (by omega) h3
        refine ⟨.comment ⟨⟨p + blen w, p + blen w + blen ('#' :: b)⟩, '#' :: b⟩ :: cs, ?_, lay _ l1, ?_⟩
        · simp only [List.cons_append, List.nil_append, breakableComponentsList, Tok.rule,
            breakableComponents, e1]
          show Except.ok _ = Except.ok _
          simp [Tok.span, Tok.start, Tok.stop, Tok.text]
        · intro m hm
          simp only [stripLines, pieceLines, hloc, if_neg hne]
          cases m with
          | zero => simp only [List.length_append] at hm; omega
          | succ m =>
            have := d1 m (by simp only [List.length_append] at hm; omega)
            rw [this.1, this.2, hct]
            simp [dispOf, pieceOf]
      · refine ⟨[.comment ⟨⟨p + blen w, p + blen w + blen ('#' :: b)⟩, '#' :: b⟩], ?_, lay [] .nil, ?_⟩
        · simp only [List.append_nil, breakableComponentsList, Tok.rule]; rfl
        · intro m hm
          simp only [stripLines, pieceLines, hloc, if_neg hne, hct]
          cases m <;> exact ⟨rfl, rfl⟩
    · -- text
      obtain ⟨x1, x2, t1, t2, rfl, rfl, h1, h2⟩ := semX_seq.1 h
      obtain ⟨ch1, h3, rfl⟩ := semX_rule.1 h1
      obtain ⟨hx1, hrun, rfl⟩ := step_any_content.plus_x.1 h3
      have hlen : x1.length ≠ 0 := fun h => hx1 (List.eq_nil_of_length_eq_zero h)
      have hne : x1 ++ x2 ≠ [] := fun h => hx1 (List.append_eq_nil_iff.1 h).1
      simp only [List.length_append] at hn
      have hbr : ∀ d ∈ x1, isBreak d = false := by
        intro d hd
        obtain ⟨a, b, rfl⟩ := List.append_of_mem hd
        have := hrun.1 a d b rfl
        rw [Bool.and_eq_true] at this
        simpa using this.1
      have hco : ∀ a c b, x1 = a ++ c :: b → afterContinuation (c :: b ++ x2) = none := by
        intro a c b e
        have := hrun.1 a c b e
        rw [Bool.and_eq_true] at this
        cases hh : afterContinuation (c :: b ++ x2) with
        | none => rfl
        | some r =>
          have h5 := afterContinuation_mono (x := c :: b ++ x2) (by rw [hh]; rfl) s'
          rw [List.append_assoc, List.cons_append, ← Option.not_isNone, this.2] at h5
          simp at h5
      have hnoc : afterComment (x1 ++ x2) = none := by
        obtain h4 | ⟨_, _, _, _, h4⟩ := sem_seq_none.1 hno
        · exact afterComment_mono (comment_line_none h4)
        · cases h4
      have lay : ∀ ns, Laid (p + blen x1) x2 ns →
          Laid p (x1 ++ x2) (compTree ShellRd (.string ⟨⟨p, p + blen x1⟩, x1⟩) :: ns) := by
        intro ns hl
        have := Laid.cons (p := p) (a := []) (b := x1) (c := x2)
          (P := fun t => ShellRd t x1) (ch := []) hx1 ⟨rfl, hbr⟩ .nil (by simpa using hl)
        simpa [compTree] using this
      rcases semX_opt.1 h2 with h4 | ⟨rfl, rfl, h4⟩
      · obtain ⟨k, x3, t3, t4, rfl, rfl, h5, h6⟩ := semX_seq.1 h4
        have hk := continuation_local h5
        have hk0 : k.length ≠ 0 := fun h =>
          h5.nonempty (by decide +kernel) (List.eq_nil_of_length_eq_zero h)
        obtain ⟨_, _, _, _, _, rfl⟩ := continuation_inv h5
        simp only [List.length_append] at hn
        obtain ⟨t, ch, cs, rfl, rfl, e1, l1, d1⟩ := hrec (by omega) h6
        refine ⟨.string ⟨⟨p, p + blen x1⟩, x1⟩ :: cs, ?_, lay _ l1.padLeft, ?_⟩
        · simp only [emitToks, Bool.false_eq_true, if_false, List.cons_append,
            List.nil_append, breakableComponentsList, Tok.rule, breakableComponents, e1]
          show Except.ok _ = Except.ok _
          simp [Tok.span, Tok.start, Tok.stop, Tok.text]
        · intro m hm
          have hlt := lineText_run hco (.inr (by rw [hk]; rfl))
          rw [hk] at hlt
          simp only [stripLines, pieceLines, hnoc, hlt, if_neg hne]
          cases m with
          | zero => simp only [List.length_append] at hm; omega
          | succ m =>
            have := d1 m (by simp only [List.length_append] at hm; omega)
            rw [this.1, this.2]
            simp [dispOf, pieceOf]
      · refine ⟨[.string ⟨⟨p, p + blen x1⟩, x1⟩], ?_, lay [] .nil, ?_⟩
        · simp only [emitToks, Bool.false_eq_true, if_false, List.append_nil,
            breakableComponentsList, Tok.rule]; rfl
        · intro m hm
          have hlt := lineText_run hco (.inl rfl)
          simp only [stripLines, pieceLines, hnoc, hlt, if_neg hne]
          simp [dispOf, afterContinuation, pieceOf]

end Verif
