import Verif.Proof.CostGap
import Verif.Proof.SrcDoc
import Verif.Spec.Cost

/-! # Documents that make the engine work hard, and documents that make it nest deeply -/

namespace Verif
open Spec

theorem SemM.pos {e q p s o m} (h : SemM e q p s o m) : 1 ≤ m.evals := by
  induction h <;> simp only [Meter.leaf, Meter.around, Meter.andThen] <;> omega

theorem ok_semM {e q p s p' s' ts} (n : Nat) (h : runFuel G.body n e q p s = .ok p' s' ts) :
    ∃ m, SemM e q p s (some (p', s', ts)) m := ⟨_, semM_of_run (n := n) (by rw [h]; rfl)⟩

theorem ok_semM' {q p} (e : PExpr) (s s' : Str)
    (h : ∃ p' ts, runFuel G.body 20 e q p s = .ok p' s' ts) :
    ∃ p' ts m, SemM e q p s (some (p', s', ts)) m := by
  obtain ⟨p', ts, h⟩ := h
  exact ⟨_, _, ok_semM 20 h⟩

theorem fail_semM {e q p s} (n : Nat) (h : runFuel G.body n e q p s = .fail) :
    ∃ m, SemM e q p s none m := ⟨_, semM_of_run (n := n) (by rw [h]; rfl)⟩

/-! ## work -/

/-- The rest of a `scanLine` from the second quote on, and the lines after it. -/
def scanMid (k : Nat) : Str := c!",\"\\\n#\"\\\n,\"\n" ++ scanDoc k

theorem scan_mid (k : Nat) : ∀ q p, ∃ p' ts m,
    SemM (.star arrayItem) q p (scanMid k) (some (p', c!"\\\n,\"\n", ts)) m ∧
      4 * k ≤ m.evals := by
  induction k with
  | zero =>
    intro q p
    obtain ⟨p1, _, m1, h1⟩ := ok_semM' (q := q) (p := p) arrayItem (scanMid 0) c!"\\\n,\"\n"
      ⟨_, _, rfl⟩
    obtain ⟨m2, h2⟩ := fail_semM (e := arrayItem) (q := q) (p := p1) (s := c!"\\\n,\"\n") 20 rfl
    exact ⟨_, _, _, .star_cons h1 (.star_nil h2), by omega⟩
  | succ k ih =>
    intro q p
    obtain ⟨p1, _, m1, h1⟩ := ok_semM' (q := q) (p := p) arrayItem (scanMid (k + 1))
      (c!"\\\n,\"\nCMD [\"" ++ scanMid k) ⟨_, _, rfl⟩
    obtain ⟨p2, _, m2, h2⟩ := ok_semM' (q := q) (p := p1) arrayItem
      (c!"\\\n,\"\nCMD [\"" ++ scanMid k) (scanMid k) ⟨_, _, rfl⟩
    obtain ⟨_, _, m3, h3, e3⟩ := ih q p2
    have := h1.pos
    have := h2.pos
    refine ⟨_, _, _, .star_cons h1 (.star_cons h2 h3), ?_⟩
    simp only [Meter.around, Meter.andThen]; omega

/-- The elements after the first one. -/
theorem scan_star (k : Nat) (q p) : ∃ p' s' ts m,
    SemM (.star arrayItem) q p (c!"\\\n#\"\\\n,\"\n" ++ scanDoc k) (some (p', s', ts)) m ∧
      4 * k ≤ m.evals + 4 ∧
      ∀ q p, ∃ m, SemM (.seq (.opt (.str [','])) (.seq G.arg_ws_maybe (.str [']']))) q p s' none m
    := by
  cases k with
  | zero =>
    obtain ⟨m1, h1⟩ := fail_semM (e := arrayItem) (q := q) (p := p)
      (s := c!"\\\n#\"\\\n,\"\n" ++ scanDoc 0) 20 rfl
    exact ⟨_, _, _, _, .star_nil h1, by omega, fun q p => fail_semM 20 rfl⟩
  | succ k =>
    obtain ⟨p1, _, m1, h1⟩ := ok_semM' (q := q) (p := p) arrayItem
      (c!"\\\n#\"\\\n,\"\n" ++ scanDoc (k + 1)) (scanMid k) ⟨_, _, rfl⟩
    obtain ⟨_, _, m2, h2, e2⟩ := scan_mid k q p1
    refine ⟨_, _, _, _, .star_cons h1 h2, ?_, fun q p => fail_semM 20 rfl⟩
    simp only [Meter.around, Meter.andThen]; omega

/-- The text after `CMD ` in front of `k` more lines. -/
def scanArgs (k : Nat) : Str := c!"[\",\"\\\n#\"\\\n,\"\n" ++ scanDoc k

theorem scan_array (k : Nat) (q p) : ∃ m, SemM G.string_array q p (scanArgs k) none m ∧
    4 * k ≤ m.evals := by
  obtain ⟨p1, _, m1, h1⟩ := ok_semM' (q := q) (p := p) (.str ['[']) (scanArgs k)
    (c!"\",\"\\\n#\"\\\n,\"\n" ++ scanDoc k) ⟨_, _, rfl⟩
  obtain ⟨p2, _, m2, h2⟩ := ok_semM' (q := q) (p := p1) G.arg_ws_maybe
    (c!"\",\"\\\n#\"\\\n,\"\n" ++ scanDoc k) (c!"\",\"\\\n#\"\\\n,\"\n" ++ scanDoc k) ⟨_, _, rfl⟩
  obtain ⟨p3, _, m3, h3⟩ := ok_semM' (q := q) (p := p2) G.string
    (c!"\",\"\\\n#\"\\\n,\"\n" ++ scanDoc k) (c!"\\\n#\"\\\n,\"\n" ++ scanDoc k) ⟨_, _, rfl⟩
  obtain ⟨p4, _, _, m4, h4, e4, f4⟩ := scan_star k q p3
  obtain ⟨m5, h5⟩ := f4 q p4
  obtain ⟨m6, h6⟩ := fail_semM (e := .seq (.str ['[']) (.seq G.arg_ws_maybe (.str [']'])))
    (q := q) (p := p) (s := scanArgs k) 20 rfl
  have := h1.pos
  have := h2.pos
  have := h3.pos
  refine ⟨_, .alt_right (.seq_fail2 h1 (.seq_fail2 h2 (.seq_fail2 h3 (.seq_fail2 h4 h5)))) h6, ?_⟩
  simp only [Meter.around, Meter.andThen]; omega

theorem scan_cmd (k : Nat) (q p) : ∃ p' ts m,
    SemM G.cmd q p (scanDoc (k + 1)) (some (p', '\n' :: scanDoc k, ts)) m ∧ 4 * k ≤ m.evals := by
  obtain ⟨p1, _, m1, h1⟩ := ok_semM' (q := q) (p := p) (.istr ['c', 'm', 'd']) (scanDoc (k + 1))
    (' ' :: scanArgs k) ⟨_, _, rfl⟩
  obtain ⟨p2, _, m2, h2⟩ := ok_semM' (q := q) (p := p1) G.arg_ws (' ' :: scanArgs k) (scanArgs k)
    ⟨_, _, rfl⟩
  obtain ⟨m3, h3, e3⟩ := scan_array k q p2
  obtain ⟨p4, _, m4, h4⟩ := ok_semM' (q := q) (p := p2) G.cmd_shell (scanArgs k)
    ('\n' :: scanDoc k) ⟨_, _, rfl⟩
  refine ⟨_, _, _, .rule_ok (.seq_ok h1 (.seq_ok h2 (.alt_right (.rule_fail h3) h4))), ?_⟩
  simp only [Meter.around, Meter.andThen]; omega

theorem scan_meta (k : Nat) (q p) : ∃ p' ts m,
    SemM G.meta_step q p (scanDoc (k + 1)) (some (p', '\n' :: scanDoc k, ts)) m ∧
      4 * k ≤ m.evals := by
  obtain ⟨p1, _, m1, h1⟩ := ok_semM' (q := q) (p := p) (.star G.ws) (scanDoc (k + 1))
    (scanDoc (k + 1)) ⟨_, _, rfl⟩
  have no : ∀ e, runFuel G.body 20 e q p1 (scanDoc (k + 1)) = .fail →
      ∃ m, SemM e q p1 (scanDoc (k + 1)) none m := fun e h => fail_semM 20 h
  obtain ⟨n1, g1⟩ := no G.from rfl
  obtain ⟨n2, g2⟩ := no G.run rfl
  obtain ⟨n3, g3⟩ := no G.arg rfl
  obtain ⟨n4, g4⟩ := no G.label rfl
  obtain ⟨n5, g5⟩ := no G.copy rfl
  obtain ⟨n6, g6⟩ := no G.entrypoint rfl
  obtain ⟨p2, _, m2, h2, e2⟩ := scan_cmd k q p1
  obtain ⟨p3, _, m3, h3⟩ := ok_semM' (q := q) (p := p2) (.star G.ws) ('\n' :: scanDoc k)
    ('\n' :: scanDoc k) ⟨_, _, rfl⟩
  refine ⟨_, _, _, .seq_ok h1 (.seq_ok (.opt_some (.alt_left (.alt_right g1 (.alt_right g2
    (.alt_right g3 (.alt_right g4 (.alt_right g5 (.alt_right g6 (.alt_left h2))))))))) h3), ?_⟩
  simp only [Meter.around, Meter.andThen]; omega

theorem scan_lines (k : Nat) : ∀ q p, ∃ p' ts m,
    SemM (.star (.seq G.NEWLINE G.meta_step)) q p ('\n' :: scanDoc k) (some (p', [], ts)) m ∧
      k * k ≤ m.evals := by
  induction k with
  | zero =>
    intro q p
    obtain ⟨p1, _, m1, h1⟩ := ok_semM' (q := q) (p := p) (.star (.seq G.NEWLINE G.meta_step))
      ('\n' :: scanDoc 0) [] ⟨_, _, rfl⟩
    exact ⟨_, _, _, h1, by omega⟩
  | succ k ih =>
    intro q p
    obtain ⟨p1, _, m1, h1⟩ := ok_semM' (q := q) (p := p) G.NEWLINE ('\n' :: scanDoc (k + 1))
      (scanDoc (k + 1)) ⟨_, _, rfl⟩
    obtain ⟨p2, _, m2, h2, e2⟩ := scan_meta k q p1
    obtain ⟨_, _, m3, h3, e3⟩ := ih q p2
    refine ⟨_, _, _, .star_cons (.seq_ok h1 h2) h3, ?_⟩
    have : (k + 1) * (k + 1) = k * k + 2 * k + 1 := by
      rw [Nat.add_mul, Nat.mul_add]; omega
    rw [this]
    simp only [Meter.around, Meter.andThen]; omega

theorem scan_engine (n : Nat) : n * n ≤ (engineMeter (scanDoc n)).evals := by
  obtain ⟨o, h⟩ := engine_semM (scanDoc n)
  cases n with
  | zero => omega
  | succ k =>
    obtain ⟨p0, _, m0, h0⟩ := ok_semM' (q := false) (p := 0) .soi (scanDoc (k + 1))
      (scanDoc (k + 1)) ⟨_, _, rfl⟩
    have : p0 = 0 := by cases h0.sem; rfl
    subst this
    obtain ⟨p1, _, m1, h1, e1⟩ := scan_meta k false 0
    obtain ⟨p2, _, m2, h2, e2⟩ := scan_lines k false p1
    obtain ⟨p3, _, m3, h3⟩ := ok_semM' (q := false) (p := p2) G.EOI [] [] ⟨_, _, rfl⟩
    obtain ⟨-, e⟩ := h.det (.rule_ok (.seq_ok h0 (.seq_ok h1 (.seq_ok h2 h3))))
    rw [e]
    have : (k + 1) * (k + 1) = k * k + 2 * k + 1 := by
      rw [Nat.add_mul, Nat.mul_add]; omega
    rw [this]
    simp only [Meter.around, Meter.andThen]; omega

theorem length_scanDoc (n : Nat) : (scanDoc n).length = 17 * n := by
  induction n with
  | zero => rfl
  | succ n ih =>
    simp only [scanDoc, List.length_append, List.length_cons, ih]
    rw [show scanLine.length = 16 by decide]; omega

/-! ## nesting -/

theorem deep_breakable (n : Nat) : ∀ q p, ∃ p' ts m,
    SemM G.any_breakable q p (xLines n) (some (p', [], ts)) m ∧ n ≤ m.nest := by
  induction n with
  | zero =>
    intro q p
    obtain ⟨p1, _, m1, h1⟩ := ok_semM' (q := q) (p := p) G.any_breakable (xLines 0) [] ⟨_, _, rfl⟩
    exact ⟨_, _, _, h1, by omega⟩
  | succ n ih =>
    intro q p
    obtain ⟨m1, h1⟩ := fail_semM (e := .seq G.comment_line (.opt (.recur .any_breakable)))
      (q := innerQuiet .compound q) (p := p) (s := xLines (n + 1)) 20 rfl
    obtain ⟨p2, _, m2, h2⟩ := ok_semM' (q := innerQuiet .compound q) (p := p) G.any_content
      (xLines (n + 1)) ('\\' :: '\n' :: xLines n) ⟨_, _, rfl⟩
    obtain ⟨p3, _, m3, h3⟩ := ok_semM' (q := innerQuiet .compound q) (p := p2) G.line_continuation
      ('\\' :: '\n' :: xLines n) (xLines n) ⟨_, _, rfl⟩
    obtain ⟨_, _, m4, h4, e4⟩ := ih (innerQuiet .compound q) p3
    refine ⟨_, _, _, .rule_ok (.alt_right h1 (.seq_ok h2 (.opt_some (.seq_ok h3
      (.recur (r := .any_breakable) h4))))), ?_⟩
    simp only [Meter.around, Meter.andThen]; omega

theorem deep_run (n : Nat) (q p) : ∃ p' ts m,
    SemM G.run q p (deepDoc n) (some (p', [], ts)) m ∧ n ≤ m.nest := by
  have hx : ∀ n, ∃ t, xLines n = 'x' :: t := fun n => by
    cases n with
    | zero => exact ⟨_, rfl⟩
    | succ n => exact ⟨_, rfl⟩
  obtain ⟨t, ht⟩ := hx n
  obtain ⟨p1, _, m1, h1⟩ := ok_semM' (q := q) (p := p) (.istr ['r', 'u', 'n']) (deepDoc n)
    (' ' :: xLines n) ⟨_, _, rfl⟩
  have h2 := ok_semM' (q := q) (p := p1) G.arg_ws (' ' :: 'x' :: t) ('x' :: t) ⟨_, _, rfl⟩
  rw [← ht] at h2
  obtain ⟨p2, _, m2, h2⟩ := h2
  have h3 := fail_semM (q := q) (p := p2) (e := G.run_exec) (s := 'x' :: t) 20 rfl
  rw [← ht] at h3
  obtain ⟨m3, h3⟩ := h3
  obtain ⟨_, _, m4, h4, e4⟩ := deep_breakable n (innerQuiet .atomic q) p2
  refine ⟨_, _, _, .rule_ok (.seq_ok h1 (.seq_ok h2 (.alt_right h3 (.rule_ok h4)))), ?_⟩
  simp only [Meter.around, Meter.andThen]; omega

theorem deep_engine (n : Nat) : n ≤ (engineMeter (deepDoc n)).nest := by
  obtain ⟨o, h⟩ := engine_semM (deepDoc n)
  obtain ⟨p0, _, m0, h0⟩ := ok_semM' (q := false) (p := 0) .soi (deepDoc n) (deepDoc n)
    ⟨_, _, rfl⟩
  have : p0 = 0 := by cases h0.sem; rfl
  subst this
  obtain ⟨p1, _, m1, h1⟩ := ok_semM' (q := false) (p := 0) (.star G.ws) (deepDoc n) (deepDoc n)
    ⟨_, _, rfl⟩
  obtain ⟨n1, g1⟩ := fail_semM (e := G.from) (q := false) (p := p1) (s := deepDoc n) 20 rfl
  obtain ⟨p2, _, m2, h2, e2⟩ := deep_run n false p1
  obtain ⟨p3, _, m3, h3⟩ := ok_semM' (q := false) (p := p2) (.star G.ws) [] [] ⟨_, _, rfl⟩
  obtain ⟨p4, _, m4, h4⟩ := ok_semM' (q := false) (p := p3) (.star (.seq G.NEWLINE G.meta_step))
    [] [] ⟨_, _, rfl⟩
  obtain ⟨p5, _, m5, h5⟩ := ok_semM' (q := false) (p := p4) G.EOI [] [] ⟨_, _, rfl⟩
  obtain ⟨-, e⟩ := h.det (.rule_ok (.seq_ok h0 (.seq_ok
    (.seq_ok h1 (.seq_ok (.opt_some (.alt_left (.alt_right g1 (.alt_left h2)))) h3))
    (.seq_ok h4 h5))))
  rw [e]
  simp only [Meter.around, Meter.andThen]; omega

/-! ## both are accepted -/

/-- A piece of a line of which neither the first character nor any other is special. -/
theorem piece_plain {t r : Str} {c : Char} {b : Str} (ht : t = c :: b) (h1 : c ≠ '#')
    (h2 : c ≠ ' ') (h3 : c ≠ '\t') (h : ∀ d ∈ t, d ≠ '\n' ∧ d ≠ '\r' ∧ d ≠ '\\') :
    Src.Shell.Piece t r := by
  refine ⟨by rw [ht]; exact List.cons_ne_nil _ _, fun d hd => ⟨(h d hd).1, (h d hd).2.1⟩, ?_, ?_⟩
  · rintro a b' rfl hb ⟨w, n, u, e, -⟩
    cases b' with
    | nil => exact hb rfl
    | cons d b' =>
      exact (h d (by simp)).2.2 (List.cons.inj e).1
  · rintro w u hw e
    rw [ht] at e
    cases w with
    | nil => exact h1 (List.cons.inj e).1
    | cons d w =>
      obtain rfl := (List.cons.inj e).1
      rcases hw c (by simp) with e | e
      · exact h2 e
      · exact h3 e

def scanShell : Src.Shell :=
  .more c!"[\",\"" [] ['\n'] (.comment [] c!"#\"\\" ['\n'] (.last c!",\""))
def scanItem : Src.Line := ⟨[], .shell .cmd c!"CMD" [' '] scanShell, []⟩
def scanRest : Nat → List (Str × Src.Line)
  | 0 => [(['\n'], ⟨[], .blank, []⟩)]
  | n + 1 => (['\n'], scanItem) :: scanRest n

theorem scanRest_text (n : Nat) : Src.docText scanItem (scanRest n) = scanDoc (n + 1) := by
  induction n with
  | zero => rfl
  | succ n ih =>
    show scanItem.text ++ (['\n'] ++ Src.docText scanItem (scanRest n)) = _
    rw [ih]; rfl

theorem blanks_nil : Blanks [] := by intro c h; cases h

theorem scanItem_fits (k : Nat) : scanItem.Fits ('\n' :: scanDoc k) := by
  refine ⟨blanks_nil, ⟨by decide, ⟨by decide, .blank (.inl rfl) (.nil ?_)⟩, ?_, ?_⟩, blanks_nil⟩
  · exact Src.not_starts_plain (b := c!"\",\"\\\n#\"\\\n,\"\n" ++ scanDoc k) (by decide)
  · refine ⟨piece_plain rfl (by decide) (by decide) (by decide) (by decide), blanks_nil, .inl rfl,
      blanks_nil, ⟨_, rfl, by decide⟩, .inl rfl,
      piece_plain rfl (by decide) (by decide) (by decide) (by decide), ?_⟩
    rintro c b ⟨⟩
    exact .inl rfl
  · obtain ⟨m, h, -⟩ := scan_array k false 0
    exact Src.array_none.1 h.sem

theorem scanRest_fits (n : Nat) : Src.DocFits scanItem (scanRest n) := by
  induction n with
  | zero =>
    exact ⟨scanItem_fits 0, .inl rfl, blanks_nil, trivial, blanks_nil⟩
  | succ n ih =>
    refine ⟨?_, .inl rfl, ih⟩
    rw [scanRest_text]
    exact scanItem_fits (n + 1)

theorem scanRest_eval (unq : Unquote) (n : Nat) : ∀ p, ∃ is,
    Src.evalDoc unq p scanItem (scanRest n) = .ok is ∧ is.length = n + 1 := by
  have one : ∀ p, ∃ i, scanItem.item.eval unq p = .ok (some i) := fun p => ⟨_, rfl⟩
  induction n with
  | zero =>
    intro p
    exact ⟨_, rfl, rfl⟩
  | succ n ih =>
    intro p
    obtain ⟨is, e, l⟩ := ih (p + blen scanItem.text + blen ['\n'])
    obtain ⟨i, hi⟩ := one (p + blen scanItem.indent)
    refine ⟨i :: is, ?_, by simp [l]⟩
    show (do
      let i ← scanItem.item.eval unq (p + blen scanItem.indent)
      let is ← Src.evalDoc unq (p + blen scanItem.text + blen ['\n']) scanItem (scanRest n)
      return i.toList ++ is : Result (List Instruction)) = _
    rw [hi, e]; rfl

theorem numberStages_length (is : List Instruction) : ∀ n,
    (numberStages n is).length = is.length := by
  induction is with
  | nil => intro n; rfl
  | cons i is ih => intro n; cases i <;> simp [numberStages, ih]

theorem documentOf_length (s : Str) (is : List Instruction) :
    (documentOf s is).instructions.length = is.length := numberStages_length is 0

/-- `scanDoc n` is accepted and has `n` instructions. -/
theorem scan_accepted (unq : Unquote) (n : Nat) :
    ∃ d, Dockerfile.parse unq (scanDoc n) = .ok d ∧ d.instructions.length = n := by
  cases n with
  | zero =>
    have h : Src.DocFits ⟨[], .blank, []⟩ [] := ⟨blanks_nil, trivial, blanks_nil⟩
    exact ⟨_, (Src.parse_fits (unq := unq) h).trans rfl, rfl⟩
  | succ n =>
    obtain ⟨is, e, l⟩ := scanRest_eval unq n 0
    have := Src.parse_fits (unq := unq) (scanRest_fits n)
    rw [e, scanRest_text] at this
    exact ⟨_, this, by rw [documentOf_length, l]⟩

def xShell : Nat → Src.Shell
  | 0 => .last ['x']
  | n + 1 => .more ['x'] [] ['\n'] (xShell n)

theorem xShell_text (n : Nat) : (xShell n).text = xLines n := by
  induction n with
  | zero => rfl
  | succ n ih => simp [xShell, Src.Shell.text, xLines, ih]

theorem xShell_fits (n : Nat) : (xShell n).Fits [] := by
  induction n with
  | zero =>
    exact ⟨piece_plain rfl (by decide) (by decide) (by decide) (by decide), by rintro c b ⟨⟩⟩
  | succ n ih =>
    exact ⟨piece_plain rfl (by decide) (by decide) (by decide) (by decide), blanks_nil, .inl rfl,
      ih⟩

/-- `deepDoc n` is accepted and has one instruction. -/
theorem deep_accepted (unq : Unquote) (n : Nat) :
    ∃ d, Dockerfile.parse unq (deepDoc n) = .ok d ∧ d.instructions.length = 1 := by
  obtain ⟨t, ht⟩ : ∃ t, xLines n = 'x' :: t := by
    cases n with
    | zero => exact ⟨_, rfl⟩
    | succ n => exact ⟨_, rfl⟩
  have h : Src.DocFits ⟨[], .shell .run c!"RUN" [' '] (xShell n), []⟩ [] := by
    refine ⟨blanks_nil, ⟨by decide, ⟨by decide, .blank (.inl rfl) (.nil ?_)⟩, xShell_fits n, ?_⟩,
      blanks_nil⟩
    · rw [xShell_text, ht]; exact Src.not_starts_plain (by decide)
    · rw [xShell_text, ht]
      exact Src.array_none.1 (fail_semM (q := false) (p := 0) (e := G.string_array) 20
        rfl).choose_spec.sem
  have e : Src.docText ⟨[], .shell .run c!"RUN" [' '] (xShell n), []⟩ [] = deepDoc n := by
    simp [Src.docText, Src.Line.text, Src.Item.text, xShell_text, deepDoc]
  have := Src.parse_fits (unq := unq) h
  rw [e] at this
  exact ⟨_, this.trans rfl, rfl⟩

end Verif
