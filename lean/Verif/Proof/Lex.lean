import Verif.Proof.Shape
import Verif.Spec.Layout

/-!
# Lexical expressions as functions

`Lex e g`: the token-free expression `e` behaves like the function `g` (rest of the input, or
failure).  `CharStep e f`: `e` consumes exactly one character, and does so iff `f` holds.
-/

namespace Verif

open Spec

/-- Outcome of a token-free run given the rest of the input. -/
def lexOut (p : Nat) (s : Str) : Option Str → Out
  | some r => some (p + (blen s - blen r), r, [])
  | none => none

def Lex (e : PExpr) (g : Str → Option Str) : Prop := ∀ q p s, Sem e q p s (lexOut p s (g s))

/-- one character satisfying `f` (which may look ahead) -/
def charFn (f : Char → Str → Bool) : Str → Option Str
  | [] => none
  | c :: cs => bif f c cs then some cs else none

def CharStep (e : PExpr) (f : Char → Str → Bool) : Prop := Lex e (charFn f)

theorem Lex.congr {e g g'} (h : Lex e g) (hg : ∀ s, g s = g' s) : Lex e g' := by
  intro q p s; rw [← hg]; exact h q p s

theorem CharStep.congr {e f f'} (h : CharStep e f) (hf : ∀ c s, f c s = f' c s) :
    CharStep e f' := by
  refine Lex.congr h fun s => ?_
  cases s with
  | nil => rfl
  | cons c cs => simp [charFn, hf]

theorem Lex.sem {e g} (h : Lex e g) {q p s o} (hs : Sem e q p s o) : o = lexOut p s (g s) :=
  hs.det (h q p s)

theorem Lex.ok_inv {e g} (h : Lex e g) {q p s p' s' ts} (hs : Sem e q p s (some (p', s', ts))) :
    g s = some s' ∧ ts = [] := by
  have := h.sem hs
  cases hg : g s with
  | none => rw [hg] at this; simp [lexOut] at this
  | some r =>
    rw [hg] at this; simp only [lexOut, Option.some.injEq, Prod.mk.injEq] at this
    rw [this.2.1]; exact ⟨rfl, this.2.2⟩

theorem Lex.fail_inv {e g} (h : Lex e g) {q p s} (hs : Sem e q p s none) : g s = none := by
  have := h.sem hs
  cases hg : g s with
  | none => rfl
  | some r => rw [hg] at this; simp [lexOut] at this

theorem Lex.none_iff {e g} (h : Lex e g) {q p s} : Sem e q p s none ↔ g s = none := by
  refine ⟨h.fail_inv, fun hg => ?_⟩
  have := h q p s; rw [hg] at this; exact this

/-- Build a run from the function. -/
theorem Lex.run {e g} (h : Lex e g) {q p} {x r : Str} (hg : g (x ++ r) = some r) :
    Sem e q p (x ++ r) (some (p + blen x, r, [])) := by
  have := h q p (x ++ r); rw [hg] at this
  simp only [lexOut, blen_append, Nat.add_sub_cancel] at this
  exact this

theorem Lex.suffix {e g} (h : Lex e g) {s r : Str} (hg : g s = some r) : ∃ x, s = x ++ r := by
  have := h false 0 s; rw [hg] at this
  obtain ⟨x, hx, _⟩ := this.forest _ _ _ rfl
  exact ⟨x, hx⟩

/-! ## combinators -/

theorem lex_str1 (w : Char) : CharStep (.str [w]) (fun c _ => c == w) := by
  intro q p s
  cases s with
  | nil => exact .str_fail rfl
  | cons c cs =>
    by_cases h : c = w
    · subst h
      simp only [charFn, beq_self_eq_true, cond_true, lexOut, blen_cons]
      have : p + (c.utf8Size + blen cs - blen cs) = p + blen [c] := by simp
      rw [this]
      exact .str_ok (by simp [stripPrefix])
    · simp only [charFn, beq_eq_false_iff_ne.2 h, cond_false, lexOut]
      exact .str_fail (by simp [stripPrefix, Ne.symm h])

theorem lex_range (lo hi : Char) :
    CharStep (.range lo hi) (fun c _ => decide (lo ≤ c ∧ c ≤ hi)) := by
  intro q p s
  cases s with
  | nil => exact .range_nil
  | cons c cs =>
    by_cases h : lo ≤ c ∧ c ≤ hi
    · simp only [charFn, h, and_self, decide_true, cond_true, lexOut, blen_cons, Nat.add_sub_cancel]
      exact .range_ok h
    · simp only [charFn, h, decide_false, cond_false, lexOut]
      exact .range_fail h

theorem lex_any : CharStep .any (fun _ _ => true) := by
  intro q p s
  cases s with
  | nil => exact .any_nil
  | cons c cs =>
    simp only [charFn, cond_true, lexOut, blen_cons, Nat.add_sub_cancel]
    exact .any_ok

theorem Lex.seq {a b g h} (ha : Lex a g) (hb : Lex b h) :
    Lex (.seq a b) (fun s => (g s).bind h) := by
  intro q p s
  show Sem _ q p s (lexOut p s ((g s).bind h))
  cases hg : g s with
  | none =>
    simp only [Option.bind_none, lexOut]
    exact .seq_fail1 (ha.none_iff.2 hg)
  | some r =>
    obtain ⟨x, rfl⟩ := ha.suffix hg
    have h1 := ha.run (q := q) (p := p) hg
    simp only [Option.bind_some]
    cases hh : h r with
    | none => exact .seq_fail2 h1 (hb.none_iff.2 hh)
    | some r2 =>
      obtain ⟨y, rfl⟩ := hb.suffix hh
      have h2 := hb.run (q := q) (p := p + blen x) hh
      have := Sem.seq_ok h1 h2
      simp only [lexOut, blen_append]
      rw [show p + (blen x + (blen y + blen r2) - blen r2) = p + blen x + blen y by omega]
      exact this

theorem Lex.alt {a b g h} (ha : Lex a g) (hb : Lex b h) :
    Lex (.alt a b) (fun s => (g s).or (h s)) := by
  intro q p s
  show Sem _ q p s (lexOut p s ((g s).or (h s)))
  cases hg : g s with
  | none =>
    simp only [Option.none_or]
    exact .alt_right (ha.none_iff.2 hg) (hb q p s)
  | some r =>
    simp only [Option.some_or]
    have := ha q p s; rw [hg] at this
    exact .alt_left this

theorem CharStep.alt {a b f g} (ha : CharStep a f) (hb : CharStep b g) :
    CharStep (.alt a b) (fun c s => f c s || g c s) := by
  refine Lex.congr (Lex.alt ha hb) fun s => ?_
  cases s with
  | nil => rfl
  | cons c cs => simp only [charFn]; cases f c cs <;> simp

theorem Lex.opt {a g} (ha : Lex a g) : Lex (.opt a) (fun s => some ((g s).getD s)) := by
  intro q p s
  show Sem _ q p s (lexOut p s (some ((g s).getD s)))
  cases hg : g s with
  | none =>
    simp only [Option.getD_none, lexOut, Nat.sub_self, Nat.add_zero]
    exact .opt_none (ha.none_iff.2 hg)
  | some r =>
    simp only [Option.getD_some]
    have := ha q p s; rw [hg] at this
    exact .opt_some this

theorem Lex.rule_quiet {k r e g} (h : Lex e g) (p : Nat) (s : Str)
    (hk : k = .normal ∨ k = .atomic) : Sem (.rule k r e) true p s (lexOut p s (g s)) := by
  have h1 := h (innerQuiet k true) p s
  cases hg : g s with
  | none => rw [hg] at h1; exact .rule_fail h1
  | some x =>
    rw [hg] at h1
    have := Sem.rule_ok (k := k) (r := r) h1
    rcases hk with rfl | rfl <;> exact this

/-- negative lookahead followed by any character -/
theorem charStep_neg {e : PExpr} {f : Char → Str → Bool}
    (h : ∀ q p c cs, f c cs = false ↔ Sem e q p (c :: cs) none)
    (h' : ∀ q p c cs, f c cs = true → ∃ r, Sem e q p (c :: cs) (some r))
    (hnil : ∀ q p, ∃ o, Sem e q p [] o) :
    CharStep (.seq (.neg e) .any) (fun c s => !f c s) := by
  intro q p s
  cases s with
  | nil =>
    obtain ⟨o, ho⟩ := hnil q p
    cases o with
    | none => exact .seq_fail2 (.neg_ok ho) .any_nil
    | some r => exact .seq_fail1 (.neg_fail ho)
  | cons c cs =>
    cases hf : f c cs with
    | true =>
      simp only [charFn, hf, Bool.not_true, cond_false, lexOut]
      obtain ⟨r, hr⟩ := h' q p c cs hf
      exact .seq_fail1 (.neg_fail hr)
    | false =>
      simp only [charFn, hf, Bool.not_false, cond_true, lexOut, blen_cons, Nat.add_sub_cancel]
      exact .seq_ok (t1 := []) (t2 := []) (.neg_ok ((h q p c cs).1 hf)) .any_ok

/-- negative lookahead of a lexical expression followed by a one-character expression -/
theorem charStep_neg_lex {e b : PExpr} {g : Str → Option Str} {f : Char → Str → Bool}
    (h : Lex e g) (hb : CharStep b f) :
    CharStep (.seq (.neg e) b) (fun c s => (g (c :: s)).isNone && f c s) := by
  intro q p s
  have hneg : Sem (.neg e) q p s (if (g s).isNone then some (p, s, []) else none) := by
    cases hg : g s with
    | none => exact .neg_ok (h.none_iff.2 hg)
    | some r => have := h q p s; rw [hg] at this; exact .neg_fail this
  cases s with
  | nil =>
    simp only [charFn, lexOut]
    split at hneg
    · exact .seq_fail2 hneg (hb q p [])
    · exact .seq_fail1 hneg
  | cons c cs =>
    have h2 := hb q p (c :: cs)
    simp only [charFn] at h2 ⊢
    cases hg : (g (c :: cs)).isNone with
    | false => rw [hg] at hneg; exact .seq_fail1 hneg
    | true =>
      rw [hg] at hneg
      simp only [Bool.true_and]
      cases hf : f c cs with
      | false => rw [hf] at h2; exact .seq_fail2 hneg h2
      | true => rw [hf] at h2; exact .seq_ok (t1 := []) (t2 := []) hneg h2

/-! ## repetition -/

/-- the rest after the longest prefix of characters satisfying `f` -/
def skipBy (f : Char → Str → Bool) : Str → Str
  | [] => []
  | c :: cs => if f c cs then skipBy f cs else c :: cs

/-- the longest prefix of characters satisfying `f` -/
def takeBy (f : Char → Str → Bool) : Str → Str
  | [] => []
  | c :: cs => if f c cs then c :: takeBy f cs else []

theorem takeBy_skipBy (f : Char → Str → Bool) (s : Str) : takeBy f s ++ skipBy f s = s := by
  induction s with
  | nil => rfl
  | cons c cs ih => simp only [takeBy, skipBy]; split <;> simp [ih]

theorem skipBy_eq_dropWhile (f : Char → Bool) (s : Str) :
    skipBy (fun c _ => f c) s = s.dropWhile f := by
  induction s with
  | nil => rfl
  | cons c cs ih =>
    simp only [skipBy, List.dropWhile_cons]; split
    · exact ih
    · rfl

theorem takeBy_eq_takeWhile (f : Char → Bool) (s : Str) :
    takeBy (fun c _ => f c) s = s.takeWhile f := by
  induction s with
  | nil => rfl
  | cons c cs ih =>
    simp only [takeBy, List.takeWhile_cons]; split
    · rw [ih]
    · rfl

theorem CharStep.star {e f} (h : CharStep e f) : Lex (.star e) (fun s => some (skipBy f s)) := by
  intro q p s
  induction s generalizing p with
  | nil =>
    simp only [skipBy, lexOut, Nat.sub_self, Nat.add_zero]
    exact .star_nil (h q p [])
  | cons c cs ih =>
    have h1 := h q p (c :: cs)
    simp only [charFn] at h1
    simp only [skipBy]
    cases hf : f c cs with
    | false =>
      rw [hf] at h1
      simp only [Bool.false_eq_true, if_false, lexOut, Nat.sub_self, Nat.add_zero]
      exact .star_nil h1
    | true =>
      rw [hf] at h1
      simp only [if_true]
      have h2 := ih (p + c.utf8Size)
      have e : blen cs = blen (takeBy f cs) + blen (skipBy f cs) := by
        rw [← blen_append, takeBy_skipBy]
      have := Sem.star_cons (t1 := []) (t2 := []) (by simpa [lexOut] using h1)
        (by simpa [lexOut] using h2)
      simp only [lexOut, blen_cons]
      rw [show p + (c.utf8Size + blen cs - blen (skipBy f cs))
        = p + c.utf8Size + (blen cs - blen (skipBy f cs)) by omega]
      exact this

theorem CharStep.plus {e f} (h : CharStep e f) :
    Lex (G.plus e) (fun s => (charFn f s).map (skipBy f)) := by
  refine Lex.congr (Lex.seq h h.star) fun s => ?_
  cases charFn f s <;> rfl

theorem takeBy_append {f : Char → Str → Bool} {x r : Str}
    (hx : ∀ a c b, x = a ++ c :: b → f c (b ++ r) = true)
    (hr : ∀ c b, r = c :: b → f c b = false) : skipBy f (x ++ r) = r ∧ takeBy f (x ++ r) = x := by
  induction x with
  | nil =>
    cases r with
    | nil => exact ⟨rfl, rfl⟩
    | cons c cs => simp [skipBy, takeBy, hr c cs rfl]
  | cons c cs ih =>
    have h1 := hx [] c cs rfl
    obtain ⟨i1, i2⟩ := ih (fun a d b e => hx (c :: a) d b (by rw [e]; rfl))
    simp [skipBy, takeBy, h1, i1, i2]

theorem takeBy_all {f : Char → Str → Bool} {s a b : Str} {c : Char}
    (h : takeBy f s = a ++ c :: b) : f c (b ++ skipBy f s) = true := by
  induction s generalizing a with
  | nil => simp [takeBy] at h
  | cons d ds ih =>
    simp only [takeBy] at h
    split at h
    · rename_i hf
      simp only [skipBy, hf, if_true]
      cases a with
      | nil =>
        simp only [List.nil_append, List.cons.injEq] at h
        rw [← h.1, ← h.2, takeBy_skipBy]; exact hf
      | cons a0 a =>
        simp only [List.cons_append, List.cons.injEq] at h
        exact ih h.2
    · simp at h

theorem skipBy_head {f : Char → Str → Bool} {s b : Str} {c : Char} (h : skipBy f s = c :: b) :
    f c b = false := by
  induction s with
  | nil => simp [skipBy] at h
  | cons d ds ih =>
    simp only [skipBy] at h
    split at h
    · exact ih h
    · rename_i hf
      simp only [List.cons.injEq] at h
      rw [← h.1, ← h.2]; simpa using hf

/-! ## the lexical rules of the grammar -/

theorem lex_NEWLINE : Lex G.NEWLINE afterBreak := by
  have h2 : Lex (.str ['\r', '\n']) (stripPrefix ['\r', '\n']) := by
    intro q p s
    cases hs : stripPrefix ['\r', '\n'] s with
    | some r =>
      have e := stripPrefix_eq_some_iff.1 hs
      have := Sem.str_ok (q := q) (p := p) hs
      have e2 : blen s - blen r = blen ['\r', '\n'] := by
        rw [e, blen_append, Nat.add_sub_cancel]
      simp only [lexOut, e2]; exact this
    | none => exact Sem.str_fail hs
  refine Lex.congr (Lex.alt (lex_str1 '\n') (Lex.alt h2 (lex_str1 '\r'))) fun s => ?_
  cases s with
  | nil => rfl
  | cons c cs =>
    by_cases a1 : c = '\n'
    · subst a1; rfl
    · by_cases a2 : c = '\r'
      · subst a2
        cases cs with
        | nil => rfl
        | cons d ds =>
          by_cases a3 : d = '\n'
          · subst a3; rfl
          · have e : afterBreak ('\r' :: d :: ds) = some (d :: ds) := by
              unfold afterBreak; split
              · simp_all
              · simp_all
              · rename_i heq; simp at heq; rw [heq]
              · rename_i h1 h2 h3; exact absurd rfl (h3 (d :: ds))
            rw [e]
            simp [charFn, stripPrefix, Ne.symm a3]
      · have e : afterBreak (c :: cs) = none := by
          unfold afterBreak; split <;> simp_all
        rw [e]
        simp [charFn, stripPrefix, beq_eq_false_iff_ne.2 a1, beq_eq_false_iff_ne.2 a2, Ne.symm a2]

theorem lex_ws : CharStep G.ws (fun c _ => isBlank c) :=
  CharStep.alt (lex_str1 ' ') (lex_str1 '\t')

theorem lex_ws_star : Lex (.star G.ws) (fun s => some (s.dropWhile isBlank)) :=
  Lex.congr lex_ws.star fun s => by rw [skipBy_eq_dropWhile]

theorem lex_line_continuation : Lex G.line_continuation afterContinuation := by
  refine Lex.congr (Lex.seq (lex_str1 '\\') (Lex.seq lex_ws_star lex_NEWLINE)) fun s => ?_
  cases s with
  | nil => rfl
  | cons c cs =>
    by_cases h : c = '\\'
    · subst h; rfl
    · simp only [charFn, beq_eq_false_iff_ne.2 h, cond_false, Option.bind_none]
      unfold afterContinuation
      split
      · rename_i heq; simp at heq; exact absurd heq.1 h
      · rfl

theorem afterBreak_isNone (c : Char) (s : Str) : (afterBreak (c :: s)).isNone = !isBreak c := by
  unfold afterBreak isBreak
  split
  · rename_i h; simp at h; simp [h.1]
  · rename_i h; simp at h; simp [h.1]
  · rename_i h; simp at h; simp [h.1]
  · rename_i h1 h2 h3
    have a1 : c ≠ '\n' := fun h => h1 s (by rw [h])
    have a2 : c ≠ '\r' := fun h => h3 s (by rw [h])
    simp [a1, a2]

/-- `!NEWLINE ~ ANY` -/
theorem step_not_newline : CharStep (.seq (.neg G.NEWLINE) .any) (fun c _ => !isBreak c) :=
  (charStep_neg_lex lex_NEWLINE lex_any).congr fun c s => by rw [afterBreak_isNone]; simp

/-- the item of `any_content` -/
theorem step_any_content :
    CharStep (.seq (.neg G.NEWLINE) (.seq (.neg G.line_continuation) .any))
      (fun c s => !isBreak c && (afterContinuation (c :: s)).isNone) :=
  (charStep_neg_lex lex_NEWLINE (charStep_neg_lex lex_line_continuation lex_any)).congr
    fun c s => by rw [afterBreak_isNone]; simp

/-- `comment`'s text -/
theorem lex_comment_body :
    Lex (.seq (.str ['#']) (.star (.seq (.neg G.NEWLINE) .any)))
      (fun s => (charFn (fun c _ => c == '#') s).map (List.dropWhile fun c => !isBreak c)) := by
  refine Lex.congr (Lex.seq (lex_str1 '#') step_not_newline.star) fun s => ?_
  cases charFn (fun c _ => c == '#') s with
  | none => rfl
  | some r => simp only [Option.bind_some, Option.map_some]; rw [skipBy_eq_dropWhile]

theorem afterContinuation_some {c : Char} {s r : Str} (h : afterContinuation (c :: s) = some r) :
    c = '\\' := by
  unfold afterContinuation at h
  split at h
  · rename_i heq; simp at heq; exact heq.1
  · simp at h

/-! `arg_ws`: the first character decides -/

/-- `arg_ws_item` succeeds exactly at a blank or a line continuation. -/
theorem arg_ws_item_total (q : Bool) (p : Nat) (s : Str) : ∃ o, Sem G.arg_ws_item q p s o := 
  ⟨_, parse_sem (by decide +kernel) q p s⟩

def startsArgWs (s : Str) : Bool :=
  match s with
  | [] => false
  | c :: cs => isBlank c || (afterContinuation (c :: cs)).isSome

theorem arg_ws_item_none {q : Bool} {p : Nat} {s : Str} :
    Sem G.arg_ws_item q p s none ↔ startsArgWs s = false := by
  unfold G.arg_ws_item
  rw [sem_alt_none, sem_seq_none, lex_ws.none_iff, lex_line_continuation.none_iff]
  constructor
  · rintro ⟨h1, h2⟩
    cases s with
    | nil => rfl
    | cons c cs =>
      rcases h2 with h2 | ⟨_, _, _, _, h2⟩
      · simp only [charFn] at h1
        simp only [startsArgWs, h2]
        cases hb : isBlank c with
        | true => rw [hb] at h1; simp at h1
        | false => rfl
      · cases h2
  · intro h
    cases s with
    | nil => exact ⟨rfl, .inl rfl⟩
    | cons c cs =>
      simp only [startsArgWs, Bool.or_eq_false_iff] at h
      refine ⟨by simp [charFn, h.1], .inl ?_⟩
      cases hc : afterContinuation (c :: cs) with
      | none => rfl
      | some r => rw [hc] at h; simp at h

theorem arg_ws_none {q : Bool} {p : Nat} {s : Str} :
    Sem G.arg_ws q p s none ↔ startsArgWs s = false := by
  unfold G.arg_ws
  rw [sem_seq_none, arg_ws_item_none]
  constructor
  · rintro (h | ⟨_, _, _, _, h⟩)
    · exact h
    · cases h
  · exact .inl

theorem arg_ws_some {q : Bool} {p : Nat} {s : Str} {r} (h : Sem G.arg_ws q p s (some r)) :
    startsArgWs s = true := by
  cases hs : startsArgWs s with
  | true => rfl
  | false => exact absurd ((arg_ws_none.2 hs).det h) (by simp)

/-- the item of `any_whitespace` -/
theorem step_any_whitespace :
    CharStep (.seq (.neg (.alt G.NEWLINE (.alt G.EOI G.arg_ws))) .any)
      (fun c s => !(isBreak c || startsArgWs (c :: s))) := by
  have key : ∀ q p c cs, (isBreak c || startsArgWs (c :: cs)) = false ↔
      Sem (.alt G.NEWLINE (.alt G.EOI G.arg_ws)) q p (c :: cs) none := by
    intro q p c cs
    rw [sem_alt_none, sem_alt_none, lex_NEWLINE.none_iff, arg_ws_none, Bool.or_eq_false_iff]
    have e := afterBreak_isNone c cs
    constructor
    · rintro ⟨h1, h2⟩
      refine ⟨?_, .rule_fail .eoi_fail, h2⟩
      rw [h1] at e; simpa using e
    · rintro ⟨h1, _, h2⟩
      refine ⟨?_, h2⟩
      rw [h1] at e; simpa using e
  refine charStep_neg key ?_ ?_
  · intro q p c cs h
    have := parse_sem (e := .alt G.NEWLINE (.alt G.EOI G.arg_ws)) (by decide +kernel) q p (c :: cs)
    cases hp : Verif.parse (.alt G.NEWLINE (.alt G.EOI G.arg_ws)) q p (c :: cs) with
    | some r => exact ⟨r, hp ▸ this⟩
    | none =>
      have := (key q p c cs).2 (hp ▸ this)
      rw [this] at h; cases h
  · intro q p; exact ⟨_, parse_sem (by decide +kernel) q p []⟩

/-- the item of `any_equals` -/
theorem step_any_equals :
    CharStep (.seq (.neg (.alt G.NEWLINE (.alt G.ws (.str ['='])))) .any)
      (fun c _ => !(isBreak c || (isBlank c || c == '='))) := by
  refine (charStep_neg_lex (Lex.alt lex_NEWLINE (Lex.alt lex_ws (lex_str1 '='))) lex_any).congr
    fun c s => ?_
  have e := afterBreak_isNone c s
  cases ha : afterBreak (c :: s) with
  | some r =>
    rw [ha] at e
    have : isBreak c = true := by simpa using e.symm
    simp [this]
  | none =>
    rw [ha] at e
    have : isBreak c = false := by simpa using e.symm
    simp only [Option.none_or, charFn, this, Bool.false_or, Bool.and_true]
    cases isBlank c <;> cases (c == '=') <;> rfl

def isAlpha (c : Char) : Bool := decide ('a' ≤ c ∧ c ≤ 'z') || decide ('A' ≤ c ∧ c ≤ 'Z')
def isDigit (c : Char) : Bool := decide ('0' ≤ c ∧ c ≤ '9')
def isAlnum (c : Char) : Bool := isAlpha c || isDigit c

theorem step_alpha : CharStep G.ASCII_ALPHA (fun c _ => isAlpha c) :=
  CharStep.alt (lex_range 'a' 'z') (lex_range 'A' 'Z')

theorem step_alnum : CharStep G.ASCII_ALPHANUMERIC (fun c _ => isAlnum c) :=
  (CharStep.alt (lex_range 'a' 'z') (CharStep.alt (lex_range 'A' 'Z') (lex_range '0' '9'))).congr
    fun c s => by simp [isAlnum, isAlpha, isDigit, Bool.or_assoc]

def isWord (c : Char) : Bool := isAlnum c || c == '_'

theorem step_word : CharStep (.alt G.ASCII_ALPHANUMERIC (.str ['_'])) (fun c _ => isWord c) :=
  CharStep.alt step_alnum (lex_str1 '_')

def isIdent (c : Char) : Bool := isAlnum c || (c == '_' || c == '-')

/-- the item of `identifier_whitespace` -/
theorem step_ident :
    CharStep (.seq (.neg G.ws) (.alt G.ASCII_ALPHANUMERIC (.alt (.str ['_']) (.str ['-']))))
      (fun c _ => isIdent c) := by
  refine (charStep_neg_lex lex_ws (CharStep.alt step_alnum
    (CharStep.alt (lex_str1 '_') (lex_str1 '-')))).congr fun c s => ?_
  simp only [charFn]
  cases hb : isBlank c with
  | false => simp [isIdent]
  | true =>
    have : c = ' ' ∨ c = '\t' := by simpa [isBlank] using hb
    rcases this with rfl | rfl <;> rfl

def isImageChar (c : Char) : Bool :=
  isAlnum c || (c == '_' || (c == '-' || (c == '.' || (c == ':' || (c == '/' || (c == '$' ||
    (c == '{' || (c == '}' || c == '@'))))))))

theorem step_image :
    CharStep (.alt G.ASCII_ALPHANUMERIC (.alt (.str ['_']) (.alt (.str ['-']) (.alt (.str ['.'])
      (.alt (.str [':']) (.alt (.str ['/']) (.alt (.str ['$']) (.alt (.str ['{']) (.alt (.str ['}'])
        (.str ['@']))))))))))
      (fun c _ => isImageChar c) :=
  CharStep.alt step_alnum (CharStep.alt (lex_str1 '_') (CharStep.alt (lex_str1 '-')
    (CharStep.alt (lex_str1 '.') (CharStep.alt (lex_str1 ':') (CharStep.alt (lex_str1 '/')
      (CharStep.alt (lex_str1 '$') (CharStep.alt (lex_str1 '{') (CharStep.alt (lex_str1 '}')
        (lex_str1 '@')))))))))

end Verif
