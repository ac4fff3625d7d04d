import Verif.Proof.SrcPairs
import Verif.Proof.PrintDoc

/-!
# RUN, CMD, ENTRYPOINT and unknown instructions
-/

namespace Verif
namespace Src
open Spec

/-! ## arrays -/

theorem space_unit (c : Char) (hc : plainChar c = true) (s : Str) : Space [] (c :: s) :=
  .nil (not_starts_plain hc)

theorem noQuoted_char {c : Char} (h1 : c ≠ '"') (h2 : c ≠ '\'') (s : Str) : NoQuoted (c :: s) :=
  string_none'.1 (string_none_char h1 h2 false 0 s)

/-- `arg_ws_maybe ~ e` -/
theorem space_seq {e : PExpr} {p x s ts} (h : SemX (.seq G.arg_ws_maybe e) false p x s ts) :
    ∃ g y cs us, x = g ++ y ∧ ts = cs ++ us ∧ Space g (y ++ s) ∧ SemX e false (p + blen g) y s us := by
  obtain ⟨g, y, cs, us, rfl, rfl, h1, h2⟩ := semX_seq.1 h
  exact ⟨g, y, cs, us, rfl, rfl, space_inv h1, h2⟩

theorem space_seq_none {e : PExpr} {p g s} (h : Space g s) (h2 : Sem e false (p + blen g) s none) :
    Sem (.seq G.arg_ws_maybe e) false p (g ++ s) none := by
  obtain ⟨cs, h1, -⟩ := space_x h p
  exact .seq_fail2 h1 h2

theorem elem_none {comma : Bool} {g s : Str} (hg : Space g (']' :: s)) (p : Nat) :
    Sem elemE false p (Array.tail comma g ++ s) none := by
  cases comma with
  | false =>
    have : Array.tail false g ++ s = g ++ ']' :: s := by simp [Array.tail]
    rw [this]
    exact space_seq_none hg (.seq_fail1 ((lex_str1 ',').none_iff.2 rfl))
  | true =>
    have : Array.tail true g ++ s = [] ++ ([','] ++ (g ++ ']' :: s)) := by simp [Array.tail]
    rw [this]
    refine space_seq_none (space_unit ',' (by decide) _) (.seq_fail2
      (p1 := p + blen [] + blen [',']) (s1 := g ++ ']' :: s)
      (t1 := []) (semX_str.2 ⟨rfl, rfl⟩ : SemX _ _ _ _ _ _) (space_seq_none hg ?_))
    exact string_none_char (by decide) (by decide) _ _ _

theorem elem_x {e : Elem} {s : Str} (h : e.Fits s) (p : Nat) :
    ∃ cs ch, SemX elemE false p e.text s (cs ++ [.node .string
        (p + blen e.before + 1 + blen e.after)
        (p + blen e.before + 1 + blen e.after + blen e.value) e.value ch]) ∧ Comments cs := by
  obtain ⟨h1, h2, h3⟩ := h
  obtain ⟨cs, k1, k2, -⟩ := space_x h1 p
  obtain ⟨cs', k3, k4, -⟩ := space_x h2 (p + blen e.before + blen [','])
  obtain ⟨ch, k5⟩ := string_x h3 false (p + blen e.before + blen [','] + blen e.after) s
  refine ⟨cs ++ cs', ch, ?_, k2.append k4⟩
  rw [List.append_assoc]
  exact SemX.seq (x2 := ',' :: (e.after ++ e.value)) (by simpa using k1)
    (SemX.seq (x1 := [',']) (t1 := []) (semX_str.2 ⟨rfl, rfl⟩) (SemX.seq k3 k5))

theorem elem_inv {p x s ts} (h : SemX elemE false p x s ts) : ∃ e : Elem, x = e.text ∧ e.Fits s := by
  obtain ⟨g, y, _, _, rfl, -, hg, h1⟩ := space_seq h
  obtain ⟨x1, y, _, _, rfl, -, h2, h3⟩ := semX_seq.1 h1
  obtain ⟨rfl, -⟩ := semX_str.1 h2
  obtain ⟨g', y, _, _, rfl, -, hg', h4⟩ := space_seq h3
  exact ⟨⟨g, g', y⟩, rfl, by simpa using hg, hg', string_inv h4⟩

inductive ElemToks (unq : Unquote) : Nat → List Elem → List Tok → Prop
  | nil {p cs} : Comments cs → ElemToks unq p [] cs
  | cons {p e es cs ch ts} : Comments cs → ElemToks unq (p + blen e.text) es ts →
      ElemToks unq p (e :: es) (cs ++ .node .string (p + blen e.before + 1 + blen e.after)
        (p + blen e.before + 1 + blen e.after + blen e.value) e.value ch :: ts)

theorem elems_skip {unq : Unquote} {cs ts : List Tok} (h : Comments cs) :
    stringArrayElems unq (cs ++ ts) = stringArrayElems unq ts := by
  induction cs with
  | nil => rfl
  | cons c cs ih =>
    rw [List.cons_append, stringArrayElems, h c (by simp)]
    exact ih fun t ht => h t (by simp [ht])

theorem read_quoted {unq : Unquote} {v : Str} (h : QuotedText v) : read unq v = unquoted unq v := by
  obtain ⟨q, b, rfl, hq, -⟩ := h
  unfold read
  exact if_pos (hq.imp_right .inl)

theorem elems_ok {unq : Unquote} {p es ts s} (hf : ElemsFit es s) (h : ElemToks unq p es ts) :
    stringArrayElems unq ts = evalElems unq p es := by
  induction h with
  | @nil p cs h =>
    have := elems_skip (unq := unq) (ts := []) h
    rw [List.append_nil] at this
    rw [this]; rfl
  | @cons p e es cs ch ts hc _ ih =>
    rw [elems_skip hc, stringArrayElems]
    simp only [Tok.rule]
    rw [parseString_read, ih hf.2, evalElems]
    simp only [Tok.text, Elem.eval]
    rw [read_quoted hf.1.2.2]
    cases unquoted unq e.value with
    | error x => rfl
    | ok c =>
      cases evalElems unq (p + blen e.text) es <;> rfl

theorem elemsText_cons (e : Elem) (es : List Elem) : elemsText (e :: es) = e.text ++ elemsText es := rfl

theorem elems_x {unq : Unquote} {es : List Elem} {comma : Bool} {g s : Str}
    (h : ElemsFit es (Array.tail comma g ++ s)) (hg : Space g (']' :: s)) (p : Nat) :
    ∃ ts, SemX (.star elemE) false p (elemsText es) (Array.tail comma g ++ s) ts ∧
      ∀ cs, Comments cs → ElemToks unq p es (ts ++ cs) := by
  induction es generalizing p with
  | nil => exact ⟨[], .star_nil (elem_none hg p), fun cs hc => .nil hc⟩
  | cons e es ih =>
    obtain ⟨ts, h1, h2⟩ := ih h.2 (p + blen e.text)
    obtain ⟨cs, ch, h3, h4⟩ := elem_x h.1 p
    refine ⟨_, SemX.star_cons h3 h1, fun ds hd => ?_⟩
    rw [List.append_assoc, List.append_assoc]
    exact .cons h4 (h2 ds hd)

theorem elems_inv {p x s ts} (h : SemX (.star elemE) false p x s ts) :
    ∃ es, x = elemsText es ∧ ElemsFit es s := by
  refine semX_star_induction (P := fun _ x _ => ∃ es, x = elemsText es ∧ ElemsFit es s) ?_ ?_ h
  · intro p _; exact ⟨[], rfl, trivial⟩
  · rintro p x1 x2 t1 t2 h1 _ ⟨es, rfl, hes⟩
    obtain ⟨e, rfl, he⟩ := elem_inv h1
    exact ⟨e :: es, rfl, he, hes⟩

theorem space_comma {g s : Str} (hg : Space g (']' :: s)) {p : Nat} :
    Sem (.str [',']) false p (g ++ ']' :: s) none := by
  refine (lex_str1 ',').none_iff.2 ?_
  cases hg with
  | nil => rfl
  | blank hc _ => rcases hc with rfl | rfl <;> rfl
  | continuation => rfl

theorem array_x {unq : Unquote} {a : Array} {s : Str} (h : a.Fits s) (p : Nat) :
    ∃ ts, SemX G.string_array false p a.text s ts ∧
      stringArrayElems unq ts = a.eval unq p := by
  have hb : ∀ s, SemX (.str ['[']) false p ['['] s [] := fun _ => semX_str.2 ⟨rfl, rfl⟩
  cases a with
  | empty g =>
    have hg : Space g (']' :: s) := h
    obtain ⟨cs, h1, h2, -⟩ := space_x hg (p + blen ['['])
    refine ⟨[] ++ (cs ++ []), semX_alt.2 (.inr ⟨?_, ?_⟩), ?_⟩
    · have e : (Array.empty g).text ++ s = ['['] ++ (g ++ ']' :: s) := by simp [Array.text]
      rw [e]
      exact .seq_fail2 (hb _) (.seq_fail2 h1 (.seq_fail1
        (string_none_char (by decide) (by decide) _ _ _)))
    · exact SemX.seq (x1 := ['[']) (x2 := g ++ [']']) (hb _) (SemX.seq (x2 := [']']) h1
        (semX_str.2 ⟨rfl, rfl⟩))
    · rw [List.nil_append, List.append_nil]
      have := elems_skip (unq := unq) (ts := []) h2
      rw [List.append_nil] at this
      rw [this]; rfl
  | full g v es comma g' =>
    obtain ⟨o1, o2, o3, o4⟩ := h
    obtain ⟨cs, h1, h2, -⟩ := space_x o1 (p + blen ['['])
    obtain ⟨ch, h3⟩ := string_x o2 false (p + blen ['['] + blen g)
      (elemsText es ++ (Array.tail comma g' ++ s))
    obtain ⟨ts, h4, h5⟩ := elems_x (unq := unq) o3 o4 (p + blen ['['] + blen g + blen v)
    have htail : ∀ p, ∃ ds, SemX (.seq (.opt (.str [','])) (.seq G.arg_ws_maybe (.str [']']))) false
        p (Array.tail comma g') s ds ∧ Comments ds := by
      intro p
      obtain ⟨ds, k1, k2, -⟩ := space_x o4 (p + blen (if comma then [','] else []))
      have k3 := SemX.seq (x2 := [']']) (t2 := []) k1 (semX_str.2 ⟨rfl, rfl⟩)
      rw [List.append_nil] at k3
      refine ⟨[] ++ ds, SemX.seq ?_ k3, by simpa using k2⟩
      cases comma with
      | true => exact semX_opt.2 (.inl (semX_str.2 ⟨rfl, rfl⟩))
      | false =>
        refine semX_opt.2 (.inr ⟨rfl, rfl, ?_⟩)
        have e : g' ++ [']'] ++ s = g' ++ ']' :: s := by simp
        rw [e]
        exact space_comma o4
    obtain ⟨ds, h6, h7⟩ := htail (p + blen ['['] + blen g + blen v + blen (elemsText es))
    refine ⟨cs ++ .node .string (p + 1 + blen g) (p + 1 + blen g + blen v) v ch :: (ts ++ ds),
      semX_alt.2 (.inl ?_), ?_⟩
    · have h9 := SemX.seq (hb _) (SemX.seq (by simp only [List.append_assoc]; exact h1)
        (SemX.seq (by simp only [List.append_assoc]; exact h3) (SemX.seq h4 h6)))
      simp only [List.cons_append, List.nil_append] at h9
      exact h9
    · rw [elems_skip h2, stringArrayElems]
      simp only [Tok.rule]
      rw [parseString_read, elems_ok o3 (h5 ds h7)]
      simp only [Tok.text]
      rw [read_quoted o2]
      simp only [Array.eval]
      cases unquoted unq v with
      | error x => rfl
      | ok c =>
        show (do let xs ← evalElems unq (p + 1 + blen g + blen v) es; _) = _
        cases evalElems unq (p + 1 + blen g + blen v) es <;> rfl

theorem array_inv {p x s ts} (h : SemX G.string_array false p x s ts) :
    ∃ a : Array, x = a.text ∧ a.Fits s := by
  rcases semX_alt.1 h with h | ⟨-, h⟩
  · obtain ⟨x1, y, _, _, rfl, -, h1, h2⟩ := semX_seq.1 h
    obtain ⟨rfl, -⟩ := semX_str.1 h1
    obtain ⟨g, y, _, _, rfl, -, hg, h3⟩ := space_seq h2
    obtain ⟨v, y, _, _, rfl, -, h4, h5⟩ := semX_seq.1 h3
    obtain ⟨x1, y, _, _, rfl, -, h6, h7⟩ := semX_seq.1 h5
    obtain ⟨c, y, _, _, rfl, -, h8, h9⟩ := semX_seq.1 h7
    obtain ⟨g', y, _, _, rfl, -, hg', h10⟩ := space_seq h9
    obtain ⟨rfl, -⟩ := semX_str.1 h10
    obtain ⟨es, rfl, hes⟩ := elems_inv h6
    obtain ⟨comma, rfl⟩ : ∃ comma : Bool, c = if comma then [','] else [] := by
      rcases semX_opt.1 h8 with h | ⟨h, -⟩
      · exact ⟨true, (semX_str.1 h).1⟩
      · exact ⟨false, h⟩
    exact ⟨.full g v es comma g', rfl, by simpa [Array.tail] using hg, string_inv h4,
      by simpa [Array.tail] using hes, hg'⟩
  · obtain ⟨x1, y, _, _, rfl, -, h1, h2⟩ := semX_seq.1 h
    obtain ⟨rfl, -⟩ := semX_str.1 h1
    obtain ⟨g, y, _, _, rfl, -, hg, h3⟩ := space_seq h2
    obtain ⟨rfl, -⟩ := semX_str.1 h3
    exact ⟨.empty g, rfl, hg⟩

theorem array_none {p u} : Sem G.string_array false p u none ↔ NoArray u := by
  constructor
  · rintro h a r rfl hf
    obtain ⟨ts, h1, -⟩ := array_x (unq := fun _ => .error .notEnoughChars) hf p
    exact sem_not_none h1 h
  · intro h
    rcases sem_or (e := G.string_array) (by decide +kernel) false p u with h1 | ⟨x, s, ts, rfl, h1⟩
    · exact h1
    · obtain ⟨a, rfl, ha⟩ := array_inv h1
      exact absurd ha (h a s rfl)

/-! ## RUN, CMD, ENTRYPOINT -/

abbrev execBody (k : ExecKind) : PExpr := .seq G.arg_ws (.alt
  (G.nrm (execRule k).2.1 G.string_array) (G.atm (execRule k).2.2 G.any_breakable))

theorem step_exec' (k : ExecKind) {kw g x s : Str} {p : Nat} (h : lower kw = k.keyword) {cs : List Tok}
    (hg : SemX G.arg_ws false (p + blen kw) g (x ++ s) cs) {tok : Tok}
    (hx : SemX (.alt (G.nrm (execRule k).2.1 G.string_array)
      (G.atm (execRule k).2.2 G.any_breakable)) false (p + blen kw + blen g) x s [tok]) :
    SemX G.step false p (kw ++ (g ++ x)) s
      [.node (execRule k).1 p (p + blen (kw ++ (g ++ x))) (kw ++ (g ++ x)) (cs ++ [tok])] := by
  have := SemX.seq hg hx
  cases k
  · exact step_kw (k := (c!"run", .run, .seq G.arg_ws (.alt G.run_exec G.run_shell)))
      (by simp [kwRules]) h this
  · exact step_kw (k := (c!"cmd", .cmd, .seq G.arg_ws (.alt G.cmd_exec G.cmd_shell)))
      (by simp [kwRules]) h this
  · exact step_kw (k := (c!"entrypoint", .entrypoint,
      .seq G.arg_ws (.alt G.entrypoint_exec G.entrypoint_shell))) (by simp [kwRules]) h this

theorem exec_ne (k : ExecKind) : (execRule k).1 ≠ .EOI ∧ (execRule k).1 ≠ .comment := by
  cases k <;> decide

/-- a comment in front of the arguments -/
theorem exec_comment (k : ExecKind) {unq : Unquote} {cs ts : List Tok} (hc : Comments cs)
    (hn : cs ≠ []) (p p' : Nat) (x : Str) :
    instructionOf unq (.node (execRule k).1 p p' x (cs ++ ts)) =
      .error (.err (.generic (.unexpectedToken .comment))) := by
  rw [instr_exec]
  cases cs with
  | nil => exact absurd rfl hn
  | cons c cs =>
    have hr := hc c (by simp)
    simp only [List.cons_append, execRecord, Tok.children]
    rw [if_neg (by rw [hr]; cases k <;> decide), if_neg (by rw [hr]; cases k <;> decide)]
    simp only [unexpectedToken, hr]
    rfl

theorem shell_reads {k : ExecKind} {kw g : Str} {t : Shell} {s : Str}
    (h : (Item.shell k kw g t).Fits s) : Reads (.shell k kw g t) s := by
  intro unq p
  obtain ⟨h1, h2, h3, h4⟩ := h
  obtain ⟨ch, v1, v2⟩ := shell_x h3 (execRule k).2.2 (p + blen kw + blen g)
  obtain ⟨cs, k1, k2, k3⟩ := gap_x h2 (p + blen kw)
  have hrun := step_exec' k h1 k1 (semX_alt.2 (.inr ⟨.rule_fail (array_none.2 h4), v1⟩))
  refine ⟨_, hrun, exec_ne k, ?_⟩
  simp only [Item.eval]
  by_cases hg : '#' ∈ g
  · rw [if_pos hg, exec_comment k k2 (k3.1 hg)]
    rfl
  · rw [if_neg hg, show cs = [] from Decidable.byContradiction fun h => hg (k3.2 h), instr_exec]
    have hne : (execRule k).2.2 ≠ (execRule k).2.1 := by cases k <;> decide
    simp only [List.nil_append, execRecord, Tok.children, Tok.rule, if_neg hne, if_true]
    rw [v2]
    rfl

theorem exec_reads {k : ExecKind} {kw g : Str} {a : Array} {s : Str}
    (h : (Item.exec k kw g a).Fits s) : Reads (.exec k kw g a) s := by
  intro unq p
  obtain ⟨h1, h2, h3⟩ := h
  obtain ⟨ts, v1, v2⟩ := array_x (unq := unq) h3 (p + blen kw + blen g)
  obtain ⟨cs, k1, k2, k3⟩ := gap_x h2 (p + blen kw)
  have hrun := step_exec' k h1 k1 (semX_alt.2 (.inl (semX_rule.2 ⟨ts, v1, rfl⟩)))
  refine ⟨_, hrun, exec_ne k, ?_⟩
  simp only [Item.eval]
  by_cases hg : '#' ∈ g
  · rw [if_pos hg, exec_comment k k2 (k3.1 hg)]
    rfl
  · rw [if_neg hg, show cs = [] from Decidable.byContradiction fun h => hg (k3.2 h), instr_exec]
    simp only [List.nil_append, execRecord, Tok.children, Tok.rule, if_true, parseStringArray]
    rw [v2]
    cases a.eval unq (p + blen kw + blen g) <;> rfl

theorem exec_inv {k : ExecKind} {kw : Str} (hk : lower kw = k.keyword) {p x s ts} (hs : Rest s)
    (h : SemX (execBody k) false p x s ts) : ∃ i : Item, i.text = kw ++ x ∧ i.Fits s := by
  obtain ⟨g, y, _, _, rfl, -, hg, h1⟩ := gap_seq h
  rcases semX_alt.1 h1 with h2 | ⟨h3, h2⟩
  · obtain ⟨_, h2, -⟩ := semX_rule.1 h2
    obtain ⟨a, rfl, ha⟩ := array_inv h2
    exact ⟨.exec k kw g a, rfl, hk, hg, ha⟩
  · obtain ⟨t, rfl, ht⟩ := shell_inv (Rest.not_continuation hs) h2
    cases h3 with
    | rule_fail h3 => exact ⟨.shell k kw g t, rfl, hk, hg, ht, array_none.1 h3⟩

theorem noArray_eol {r : Str} (h : Eol r) : NoArray r := by
  rintro a r' rfl -
  cases a <;> exact absurd (h _ _ rfl) (by decide)

theorem Eol.not_continuation {r : Str} (h : Eol r) : ¬ Continuation r := by
  rintro ⟨w, n, t, rfl, -⟩
  exact absurd (h _ _ rfl) (by decide)

theorem exec_none {k : ExecKind} {p u} : Sem (execBody k) false p u none ↔ ¬ Begins k.keyword u := by
  have hb : Begins k.keyword u ↔ ∃ g r, u = g ++ r ∧ Gap g r ∧ ¬ Eol r := by
    unfold Begins
    cases k <;>
    rw [if_neg (by decide), if_neg (by decide), if_neg (by decide), if_neg (by decide)]
  rw [hb]
  constructor
  · rintro h ⟨g, r, rfl, hg, hr⟩
    rw [gap_seq_none hg] at h
    cases (sem_alt_none.1 h).2 with
    | rule_fail h1 =>
      replace h1 : Sem (G.cmp .any_breakable breakBody) _ _ _ none := h1
      cases h1 with
      | rule_fail h2 =>
        rcases (breakBody_none.1 h2).2 with h3 | h3
        · exact hr h3
        · exact hg.2.ends (.inr h3)
  · intro h
    by_cases hs : StartsSpace u
    · obtain ⟨g, r, rfl, hg⟩ := exists_gap hs
      have hr : Eol r := Classical.byContradiction fun hr => h ⟨g, r, rfl, hg, hr⟩
      refine (gap_seq_none hg).2 (.alt_right (.rule_fail (array_none.2 (noArray_eol hr)))
        (shell_none (Eol.noComment hr) (.inl hr)))
    · exact .seq_fail1 (arg_ws_none'.2 hs)

/-! ## all keywords -/

theorem kw_begins {k : Str × Rule × PExpr} (hk : k ∈ kwRules) {p u} :
    Sem k.2.2 false p u none ↔ ¬ Begins k.1 u := by
  simp only [kwRules, List.mem_cons, List.not_mem_nil, or_false] at hk
  rcases hk with rfl | rfl | rfl | rfl | rfl | rfl | rfl | rfl
  · exact from_none
  · exact exec_none (k := .run)
  · exact arg_none
  · exact label_none
  · exact copy_none
  · exact exec_none (k := .entrypoint)
  · exact exec_none (k := .cmd)
  · exact env_none

theorem kw_inv {k : Str × Rule × PExpr} (hk : k ∈ kwRules) {kw : Str} (hw : lower kw = k.1)
    {p x s ts} (hs : Rest s) (h : SemX k.2.2 false p x s ts) :
    ∃ i : Item, i.text = kw ++ x ∧ i.Fits s := by
  simp only [kwRules, List.mem_cons, List.not_mem_nil, or_false] at hk
  rcases hk with rfl | rfl | rfl | rfl | rfl | rfl | rfl | rfl
  · exact from_inv hw h
  · exact exec_inv (k := .run) hw hs h
  · exact arg_inv hw h
  · exact label_inv hw hs h
  · exact copy_inv hw h
  · exact exec_inv (k := .entrypoint) hw hs h
  · exact exec_inv (k := .cmd) hw hs h
  · exact env_inv hw hs h

/-! ## unknown instructions -/

theorem lower_lower (w : Str) : lower (lower w) = lower w := by
  simp [lower, lowerChar_idem]


theorem kwRules_keywords : kwRules.map (·.1) = keywords := by decide +kernel

theorem misc_reads {w : Str} {a : Shell} {s : Str} (h : (Item.misc w a).Fits s) :
    Reads (.misc w a) s := by
  intro unq p
  obtain ⟨h1, h2, h4, h5, h6⟩ := h
  have ha : ∀ c ∈ w, isAlpha c = true := fun c hc => isAlpha_iff.2 (h2 c hc)
  have hsa : ∀ c b, a.text ++ s = c :: b → isAlpha c = false := by
    intro c b e
    cases ht : a.text with
    | nil => exact absurd ht h4.ne
    | cons d r =>
      rw [ht] at e
      simp only [List.cons_append, List.cons.injEq] at e
      rw [← e.1]
      have := h5 d r ht
      cases hd : isAlpha d with
      | false => rfl
      | true => exact absurd (isAlpha_iff.1 hd) this
  obtain ⟨ch, v1, v2⟩ := shell_x h4 .misc_arguments (p + blen w)
  have hm : SemX G.misc false p (w ++ a.text) s
      [.node .misc p (p + blen (w ++ a.text)) (w ++ a.text)
        [.node .misc_instruction p (p + blen w) w [],
         .node .misc_arguments (p + blen w) (p + blen w + blen a.text) a.text ch]] :=
    semX_rule.2 ⟨_, SemX.seq (semX_rule.2 ⟨[], step_alpha.plus_x.2 ⟨h1, runOf_class.2 ⟨ha, hsa⟩, rfl⟩,
      rfl⟩) v1, rfl⟩
  have hrun : ∀ ts, SemX G.misc false p (w ++ a.text) s ts →
      SemX G.step false p (w ++ a.text) s ts := by
    intro ts hm
    rw [step_eq]
    have hall : ∀ k ∈ kwRules, Sem (kwRule k) false p (w ++ a.text ++ s) none := fun k hk => by
      rw [List.append_assoc]
      by_cases hw : IsKeyword w
      · by_cases he : k.1 = lower w
        · refine .rule_fail ?_
          have hl : lower k.1 = k.1 := by rw [he, lower_lower]
          refine .seq_fail2 (kw_x (p := p) (q := false) (s := a.text ++ s) hl he.symm) ?_
          show Sem _ false _ _ _
          rw [kw_begins hk, he]
          exact h6 hw
        · exact kw_fail (by rw [← kwRules_keywords]; exact List.mem_map_of_mem hk) hw he _ _
      · exact kw_other hk ha hw hsa p
    generalize kwRules = ks at hall
    induction ks with
    | nil => exact hm
    | cons k ks ih =>
      exact semX_alt.2 (.inr ⟨hall k (by simp), ih fun k hk => hall k (by simp [hk])⟩)
  refine ⟨_, hrun _ hm, ⟨by simp [Tok.rule], by simp [Tok.rule]⟩, ?_⟩
  simp only [instructionOf, Tok.rule, miscRecord, Tok.children, miscFields]
  rw [parseString_reads (c := w) (reads_image (t := w) fun c hc => alpha_image (h2 c hc)), v2]
  rfl

/-! ## steps -/

/-- A step is an item. -/
theorem step_inv {p x s ts} (hs : Rest s) (h : SemX G.step false p x s ts) :
    ∃ i : Item, i.text = x ∧ i.Fits s ∧ i ≠ .blank ∧ ∀ t, i ≠ .comment t := by
  have key : (∃ k ∈ kwRules, SemX (kwRule k) false p x s ts) ∨
      ((∀ k ∈ kwRules, Sem (kwRule k) false p (x ++ s) none) ∧ SemX G.misc false p x s ts) := by
    rw [step_eq] at h
    generalize kwRules = ks at h
    induction ks with
    | nil => exact .inr ⟨by simp, h⟩
    | cons k ks ih =>
      rcases semX_alt.1 h with h1 | ⟨h1, h2⟩
      · exact .inl ⟨k, by simp, h1⟩
      · rcases ih h2 with ⟨k', hk', h3⟩ | ⟨h3, h4⟩
        · exact .inl ⟨k', by simp [hk'], h3⟩
        · refine .inr ⟨fun k' hk' => ?_, h4⟩
          rcases List.mem_cons.1 hk' with rfl | hk'
          · exact h1
          · exact h3 k' hk'
  have hne : ∀ i : Item, i.text = x → i.Fits s → i ≠ .blank ∧ ∀ t, i ≠ .comment t := by
    have hl := step_letter h
    have hx := h.nonempty (by decide +kernel)
    intro i e hf
    constructor
    · rintro rfl; exact hx e.symm
    · rintro t rfl
      obtain ⟨⟨r, rfl, -⟩, -⟩ := hf
      have := hl '#' (r ++ s) (by rw [← e]; rfl)
      exact absurd this (by decide +kernel)
  rcases key with ⟨k, hk, h1⟩ | ⟨h1, h2⟩
  · obtain ⟨_, h2, -⟩ := semX_rule.1 h1
    obtain ⟨kw, y, _, _, rfl, -, h3, h4⟩ := semX_seq.1 h2
    have hl : ∀ k ∈ kwRules, lower k.1 = k.1 := by decide +kernel
    have hw : lower kw = k.1 := by rw [← hl k hk]; exact (semX_istr.1 h3).1
    obtain ⟨i, e, hi⟩ := kw_inv hk hw hs h4
    exact ⟨i, e, hi, hne i e hi⟩
  · obtain ⟨_, h3, -⟩ := semX_rule.1 h2
    obtain ⟨w, y, _, _, rfl, -, h4, h5⟩ := semX_seq.1 h3
    obtain ⟨_, h6, -⟩ := semX_rule.1 h4
    obtain ⟨w1, w2, -⟩ := step_alpha.plus_x.1 h6
    obtain ⟨a, rfl, ha⟩ := shell_inv (Rest.not_continuation hs) h5
    have w3 := runOf_class.1 w2
    have hi : (Item.misc w a).Fits s := by
      refine ⟨w1, fun c hc => isAlpha_iff.1 (w3.1 c hc), ha, fun c b e hc => ?_, fun hk => ?_⟩
      · have := w3.2 c (b ++ s) (by rw [e]; rfl)
        rw [isAlpha_iff.2 hc] at this; cases this
      · have : lower w ∈ kwRules.map (·.1) := by rw [kwRules_keywords]; exact hk
        obtain ⟨k, hk, e⟩ := List.mem_map.1 this
        rw [← e, ← kw_begins hk (p := p + blen w)]
        have h7 := h1 k hk
        cases h7 with
        | rule_fail h7 =>
          have hl : lower k.1 = k.1 := by rw [e, lower_lower]
          have h8 := kw_x (p := p) (q := false) (s := a.text ++ s) hl e.symm
          rcases sem_seq_none.1 h7 with h9 | ⟨p1, s1, t1, h9, h10⟩
          · rw [List.append_assoc] at h9
            exact absurd h9 (sem_not_none h8)
          · rw [List.append_assoc] at h9
            have := h9.det h8
            simp only [Option.some.injEq, Prod.mk.injEq] at this
            obtain ⟨rfl, rfl, -⟩ := this
            exact h10
    exact ⟨.misc w a, rfl, hi, hne _ rfl hi⟩

/-- An item is read as it says. -/
theorem item_reads {i : Item} {s : Str} (h : i.Fits s) (hs : Rest s) (hb : i ≠ .blank)
    (hc : ∀ t, i ≠ .comment t) : Reads i s := by
  cases i with
  | blank => exact absurd rfl hb
  | comment t => exact absurd rfl (hc t)
  | «from» => exact from_reads h hs
  | arg => exact arg_reads h hs
  | label => exact label_reads h
  | label1 => exact label1_reads h
  | shell => exact shell_reads h
  | exec => exact exec_reads h
  | copy => exact copy_reads h hs
  | env => exact env_reads h
  | env1 => exact env1_reads h
  | env1q => exact env1q_reads h
  | misc => exact misc_reads h

end Src
end Verif
