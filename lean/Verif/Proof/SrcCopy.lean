import Verif.Proof.SrcFrom

/-!
# ARG and COPY
-/

namespace Verif
namespace Src
open Spec

/-! ## values -/

/-- the rule of a value -/
def Value.rule (rq rv : Rule) : Value → Rule
  | quoted _ => rq
  | bare _ => rv

theorem value_x (rq rv : Rule) {v : Value} {s : Str} (h : v.Fits s) (q : Bool) (p : Nat) :
    ∃ ch, SemX (.alt (G.cmp rq G.string) (G.cmp rv G.any_whitespace)) q p v.text s
        [.node (v.rule rq rv) p (p + blen v.text) v.text ch] := by
  cases v with
  | quoted t =>
    obtain ⟨ch, h1⟩ := quoted_x rq (s := s) h q p
    exact ⟨ch, semX_alt.2 (.inl h1)⟩
  | bare t =>
    refine ⟨[], semX_alt.2 (.inr ⟨.rule_fail (string_none'.2 h.1), semX_rule.2 ⟨_,
      any_whitespace_iff.2 ⟨h.2, rfl⟩, rfl⟩⟩)⟩

theorem value_inv {rq rv : Rule} {q p x s ts}
    (h : SemX (.alt (G.cmp rq G.string) (G.cmp rv G.any_whitespace)) q p x s ts) :
    ∃ v : Value, x = v.text ∧ v.Fits s := by
  rcases semX_alt.1 h with h | ⟨h', h⟩
  · obtain ⟨_, h, -⟩ := semX_rule.1 h
    exact ⟨.quoted x, rfl, string_inv h⟩
  · obtain ⟨_, h, -⟩ := semX_rule.1 h
    cases h' with
    | rule_fail h' =>
      exact ⟨.bare x, rfl, string_none'.1 h', (any_whitespace_iff.1 h).1⟩

theorem nameValue_x {k k' : Kind} (hk : k ≠ .silent) (hk' : k' ≠ .silent) (rq rv : Rule) {v : Value} {s : Str} (h : v.FitsName s) (p : Nat) :
    ∃ ch, SemX (.alt (.rule k rq G.string) (.rule k' rv G.any_equals)) false p v.text s
        [.node (v.rule rq rv) p (p + blen v.text) v.text ch] := by
  cases v with
  | quoted t =>
    obtain ⟨ch, h1⟩ := string_x h (innerQuiet k false) p s
    cases k <;> first | exact absurd rfl hk | exact ⟨_, semX_alt.2 (.inl (semX_rule.2 ⟨_, h1, rfl⟩))⟩
  | bare t =>
    cases k' <;> first | exact absurd rfl hk' | exact ⟨[], semX_alt.2 (.inr ⟨.rule_fail (string_none'.2 h.1), semX_rule.2 ⟨_,
      any_equals_iff.2 ⟨h.2, rfl⟩, rfl⟩⟩)⟩

theorem nameValue_inv {k k' : Kind} {rq rv : Rule} {q p x s ts}
    (h : SemX (.alt (.rule k rq G.string) (.rule k' rv G.any_equals)) q p x s ts) :
    ∃ v : Value, x = v.text ∧ v.FitsName s := by
  rcases semX_alt.1 h with h | ⟨h', h⟩
  · obtain ⟨_, h, -⟩ := semX_rule.1 h
    exact ⟨.quoted x, rfl, string_inv h⟩
  · obtain ⟨_, h, -⟩ := semX_rule.1 h
    cases h' with
    | rule_fail h' =>
      exact ⟨.bare x, rfl, string_none'.1 h', (any_equals_iff.1 h).1⟩

/-! ## ARG -/

abbrev argBody : PExpr := .seq G.arg_ws (.seq G.arg_name
  (.opt (.seq (.str ['=']) (.alt G.arg_quoted_value G.arg_value))))

theorem arg_name_inv {p x s ts} (h : SemX G.arg_name false p x s ts) :
    ∃ c b, x = c :: b ∧ IsAlpha c ∧ ∀ d ∈ b, IsWord d := by
  obtain ⟨_, h, -⟩ := semX_rule.1 h
  obtain ⟨x1, x2, _, _, rfl, -, h1, h2⟩ := semX_seq.1 h
  obtain ⟨c, rfl, hc, -⟩ := step_alpha.x.1 h1
  have := step_word.star_x.1 h2
  exact ⟨c, x2, rfl, isAlpha_iff.1 hc, fun d hd => isWord_iff.1 ((runOf_class.1 this.1).1 d hd)⟩

theorem arg_reads {kw g n : Str} {v : Option Value} {s : Str}
    (h : (Item.arg kw g n v).Fits s) (hs : Rest s) : Reads (.arg kw g n v) s := by
  intro unq p
  obtain ⟨h1, h2, ⟨c, r, rfl, h3, h4⟩, h5⟩ := h
  have hi : ∀ d ∈ c :: r, isImageChar d = true := by
    intro d hd
    rcases List.mem_cons.1 hd with rfl | hd
    · exact alpha_image h3
    · exact word_image (h4 d hd)
  obtain ⟨cs, k1, k2, -⟩ := gap_x h2 (p + blen kw)
  have hv : ∀ p, ∃ ts, SemX (.opt (.seq (.str ['=']) (.alt G.arg_quoted_value G.arg_value))) false p
        (valueText v) s ts ∧
      (∀ c b, valueText v ++ s = c :: b → isWord c = false) ∧
      ∀ n, argFields unq ts n none = (match v with
        | none => .ok (n, none)
        | some v => do
          let c ← read unq v.text
          return (n, some ⟨⟨p + 1, p + 1 + blen v.text⟩, c⟩)) := by
    intro p
    cases v with
    | none =>
      refine ⟨[], semX_opt.2 (.inr ⟨rfl, rfl, .seq_fail1 ((lex_str1 '=').none_iff.2 ?_)⟩),
        hs.endsWord.sep.not plain_word, fun n => rfl⟩
      cases s with
      | nil => rfl
      | cons c b =>
        show charFn _ _ = _
        rw [charFn]
        rcases hs.endsWord.sep c b rfl with h | h | rfl
        · rcases isBlank_iff.1 h with rfl | rfl <;> rfl
        · simp only [isBreak, Bool.or_eq_true, beq_iff_eq] at h
          rcases h with rfl | rfl <;> rfl
        · rfl
    | some x =>
      have hx := h5 x rfl
      obtain ⟨ch, h6⟩ := value_x .arg_quoted_value .arg_value hx false (p + 1)
      refine ⟨[.node (x.rule .arg_quoted_value .arg_value) (p + 1) (p + 1 + blen x.text) x.text ch],
        semX_opt.2 (.inl ?_), fun c b e => ?_, fun n => ?_⟩
      · exact SemX.seq (x1 := ['=']) (t1 := []) (semX_str.2 ⟨rfl, rfl⟩) h6
      · simp only [valueText, List.cons_append, List.cons.injEq] at e
        rw [← e.1]; decide +kernel
      · have := parseString_read unq (.node (x.rule .arg_quoted_value .arg_value) (p + 1)
          (p + 1 + blen x.text) x.text ch)
        cases x <;>
        · simp only [argFields, Tok.rule, Value.rule] at this ⊢
          rw [this]
          simp only [Tok.text]
          cases read unq _ <;> rfl
  obtain ⟨ts, v1, v2, v3⟩ := hv (p + blen kw + blen g + blen (c :: r))
  have hname : SemX G.arg_name false (p + blen kw + blen g) (c :: r) (valueText v ++ s)
      [.node .arg_name (p + blen kw + blen g) (p + blen kw + blen g + blen (c :: r)) (c :: r) []] := by
    refine semX_rule.2 ⟨[] ++ [], SemX.seq (x1 := [c]) (x2 := r) (step_alpha.x.2
      ⟨c, rfl, isAlpha_iff.2 h3, rfl⟩)
      (step_word.star_x.2 ⟨runOf_class.2 ⟨fun d hd => isWord_iff.2 (h4 d hd), v2⟩, rfl⟩), rfl⟩
  have hrun := step_kw (k := (c!"arg", .arg, argBody))
    (by simp [kwRules]) h1 (SemX.seq (x2 := c :: r ++ valueText v) (s' := s) (by simpa using k1)
      (SemX.seq hname v1))
  refine ⟨_, hrun, ⟨by simp [Tok.rule], by simp [Tok.rule]⟩, ?_⟩
  simp only [instructionOf, Tok.rule, argRecord, Tok.children]
  rw [argFields_comments k2]
  simp only [List.cons_append, List.nil_append, argFields, Tok.rule]
  rw [parseString_reads (c := c :: r) (reads_image (t := c :: r) hi)]
  simp only [ok_bind]
  rw [v3]
  cases v with
  | none => rfl
  | some v =>
    simp only [Item.eval]
    cases read unq v.text <;> rfl

theorem arg_inv {kw : Str} (hk : lower kw = c!"arg") {p x s ts}
    (h : SemX argBody false p x s ts) : ∃ i : Item, i.text = kw ++ x ∧ i.Fits s := by
  obtain ⟨g, y, _, _, rfl, -, hg, h3⟩ := gap_seq h
  obtain ⟨n, y, _, _, rfl, -, h4, h5⟩ := semX_seq.1 h3
  have hn := arg_name_inv h4
  rcases semX_opt.1 h5 with h6 | ⟨rfl, -, -⟩
  · obtain ⟨x1, x2, _, _, rfl, -, h7, h8⟩ := semX_seq.1 h6
    obtain ⟨rfl, -⟩ := semX_str.1 h7
    obtain ⟨v, rfl, hv⟩ := value_inv h8
    refine ⟨.arg kw g n (some v), rfl, hk, by simpa [valueText] using hg, hn, ?_⟩
    rintro _ ⟨⟩; exact hv
  · exact ⟨.arg kw g n none, rfl, hk, by simpa [valueText] using hg, hn, by simp⟩

theorem arg_none {p u} : Sem argBody false p u none ↔ ¬ Begins c!"arg" u := by
  have hb : Begins c!"arg" u ↔ ∃ g c r, u = g ++ c :: r ∧ Gap g (c :: r) ∧ IsAlpha c := by
    unfold Begins; rw [if_neg (by decide), if_pos rfl]
  rw [hb]
  constructor
  · rintro h ⟨g, c, r, rfl, hg, hc⟩
    rw [gap_seq_none hg] at h
    rcases sem_seq_none.1 h with h3 | ⟨_, _, _, _, h3⟩
    · cases h3 with
      | rule_fail h3 =>
        rcases sem_seq_none.1 h3 with h4 | ⟨_, _, _, _, h4⟩
        · have := step_alpha.none_iff.1 h4
          rw [charFn, isAlpha_iff.2 hc] at this; cases this
        · exact absurd h4 Sem.star_ne_none
    · cases h3
  · intro h
    rcases sem_or (e := argBody) (by decide +kernel) false p u with h1 | ⟨x, s, ts, rfl, h1⟩
    · exact h1
    · exfalso
      obtain ⟨g, y, _, _, rfl, -, hg, h3⟩ := gap_seq h1
      obtain ⟨n, y, _, _, rfl, -, h4, -⟩ := semX_seq.1 h3
      obtain ⟨c, b, rfl, hc, -⟩ := arg_name_inv h4
      exact h ⟨g, c, b ++ (y ++ s), by simp, by simpa using hg, hc⟩

/-! ## COPY -/

def argTok (p : Nat) (f : Arg) : Tok :=
  .node .copy_pathspec (p + blen f.gap) (p + blen f.gap + blen f.value) f.value []

inductive ArgToks : Nat → List Arg → List Tok → Prop
  | nil {p} : ArgToks p [] []
  | cons {p f fs cs ts} : Comments cs → ArgToks (p + blen f.text) fs ts →
      ArgToks p (f :: fs) (cs ++ argTok p f :: ts)

theorem carg_x {f : Arg} {s : Str} (h : f.Fits s) (p : Nat) :
    ∃ cs, SemX (.seq G.arg_ws G.copy_pathspec) false p f.text s (cs ++ [argTok p f]) ∧
      Comments cs := by
  obtain ⟨cs, h1, h2, -⟩ := gap_x h.1 p
  exact ⟨cs, SemX.seq h1 (semX_rule.2 ⟨[], any_whitespace_iff.2 ⟨h.2, rfl⟩, rfl⟩), h2⟩

theorem carg_inv {p x s ts} (h : SemX (.seq G.arg_ws G.copy_pathspec) false p x s ts) :
    ∃ f : Arg, x = f.text ∧ f.Fits s := by
  obtain ⟨g, y, _, _, rfl, -, hg, h3⟩ := gap_seq h
  obtain ⟨_, h4, -⟩ := semX_rule.1 h3
  exact ⟨⟨g, y⟩, rfl, hg, (any_whitespace_iff.1 h4).1⟩

theorem argsText_cons (f : Arg) (fs : List Arg) : argsText (f :: fs) = f.text ++ argsText fs := rfl

theorem argsText_append (fs gs : List Arg) : argsText (fs ++ gs) = argsText fs ++ argsText gs := by
  simp [argsText]

theorem rest_none {e : PExpr} {s : Str} (hs : Rest s)
    (he : ∀ p r, AtEnd r → Sem e false p r none) (p : Nat) :
    Sem (.seq G.arg_ws e) false p s none := rest_fail (fun p r hr => he p r hr) hs p

theorem args_x {fs : List Arg} {s : Str} (h : ArgsFit fs s) (hs : Rest s) (p : Nat) :
    ∃ ts, SemX (.star (.seq G.arg_ws G.copy_pathspec)) false p (argsText fs) s ts ∧
      ArgToks p fs ts := by
  induction fs generalizing p with
  | nil =>
    exact ⟨[], .star_nil (rest_none hs (fun p r hr => .rule_fail (any_whitespace_none.2 (.inl hr))) p),
      .nil⟩
  | cons f fs ih =>
    obtain ⟨ts, h1, h2⟩ := ih h.2 (p + blen f.text)
    obtain ⟨cs, h3, h4⟩ := carg_x h.1 p
    refine ⟨_, ?_, .cons h4 h2⟩
    have := SemX.star_cons h3 h1
    rw [List.append_assoc] at this
    exact this

theorem args_inv {p x s ts} (h : SemX (.star (.seq G.arg_ws G.copy_pathspec)) false p x s ts) :
    ∃ fs, x = argsText fs ∧ ArgsFit fs s := by
  refine semX_star_induction (P := fun _ x _ => ∃ fs, x = argsText fs ∧ ArgsFit fs s) ?_ ?_ h
  · intro p _; exact ⟨[], rfl, trivial⟩
  · rintro p x1 x2 t1 t2 h1 _ ⟨fs, rfl, hfs⟩
    obtain ⟨f, rfl, hf⟩ := carg_inv h1
    exact ⟨f :: fs, rfl, hf, hfs⟩

theorem copyFields_flags {unq : Unquote} {p fs ts us s} (h : FlagsFit fs s)
    (ht : FlagToks .copy_flag .copy_flag_name .copy_flag_value p fs ts) (fl ps) :
    copyFields unq (ts ++ us) fl ps =
      evalFlags unq p fs >>= fun xs => copyFields unq us (fl ++ xs) ps := by
  induction ht generalizing fl with
  | nil => simp [evalFlags]
  | @cons p f fs cs ts hc _ ih =>
    rw [List.append_assoc, copyFields_comments hc, List.cons_append, copyFields]
    simp only [flagTok, Tok.rule]
    rw [show (Tok.node .copy_flag _ _ _ _) = flagTok .copy_flag .copy_flag_name .copy_flag_value
      (p + blen f.gap) f from rfl, copyFlag_ok h.1.2.2.1, evalFlags]
    cases f.eval unq p with
    | error e => rfl
    | ok x =>
      simp only [ok_bind]
      rw [ih h.2]
      cases evalFlags unq (p + blen f.text) fs with
      | error e => rfl
      | ok xs => simp

theorem copyFields_args {unq : Unquote} {p fs ts} (ht : ArgToks p fs ts) (fl ps) :
    copyFields unq ts fl ps = (evalArgs unq p fs).map fun xs => (fl, ps ++ xs) := by
  induction ht generalizing ps with
  | nil => simp [evalArgs, copyFields, Except.map]
  | @cons p f fs cs ts hc _ ih =>
    rw [copyFields_comments hc, copyFields]
    simp only [argTok, Tok.rule]
    rw [parseString_read, evalArgs]
    simp only [Tok.text, Arg.eval]
    cases read unq f.value with
    | error e => rfl
    | ok x =>
      simp only [ok_bind, mapped_ok, ih]
      show Except.map _ _ = _
      cases evalArgs unq (p + blen f.text) fs with
      | error e => rfl
      | ok xs => simp [Except.map]; rfl

theorem evalArgs_snoc (unq : Unquote) (ss : List Arg) (d : Arg) (p : Nat) :
    evalArgs unq p (ss ++ [d]) = do
      let xs ← evalArgs unq p ss
      let x ← d.eval unq (p + blen (argsText ss))
      return xs ++ [x] := by
  induction ss generalizing p with
  | nil =>
    simp only [List.nil_append, evalArgs, argsText, List.flatMap_nil, blen_nil, Nat.add_zero, ok_bind]
  | cons f fs ih =>
    simp only [List.cons_append, evalArgs, ih, argsText_cons, blen_append, ← Nat.add_assoc]
    cases f.eval unq p with
    | error e => rfl
    | ok x =>
      simp only [ok_bind]
      cases evalArgs unq (p + blen f.text) fs with
      | error e => rfl
      | ok xs =>
        simp only [ok_bind]
        cases d.eval unq (p + blen f.text + blen (argsText fs)) <;> rfl

theorem evalArgs_length {unq : Unquote} {fs : List Arg} {p xs} (h : evalArgs unq p fs = .ok xs) :
    xs.length = fs.length := by
  induction fs generalizing p xs with
  | nil => cases h; rfl
  | cons f fs ih =>
    rw [evalArgs] at h
    cases hx : f.eval unq p with
    | error e => rw [hx] at h; cases h
    | ok x =>
      rw [hx, ok_bind] at h
      cases hy : evalArgs unq (p + blen f.text) fs with
      | error e => rw [hy] at h; cases h
      | ok ys => rw [hy] at h; cases h; simp [ih hy]

abbrev copyBody : PExpr := .seq (.star (.seq G.arg_ws G.copy_flag))
  (.seq (.seq G.arg_ws G.copy_pathspec) (.seq (.seq G.arg_ws G.copy_pathspec)
    (.star (.seq G.arg_ws G.copy_pathspec))))

theorem copy_reads {kw : Str} {fs : List Flag} {ss : List Arg} {d : Arg} {s : Str}
    (h : (Item.copy kw fs ss d).Fits s) (hs : Rest s) : Reads (.copy kw fs ss d) s := by
  intro unq p
  obtain ⟨h1, h2, h3, h4, h6⟩ := h
  have htext : argsText ss ++ d.text = argsText (ss ++ [d]) := by
    rw [argsText_append]; simp [argsText]
  obtain ⟨f1, f2, fr, hsplit, hf1⟩ : ∃ f1 f2 fr, ss ++ [d] = f1 :: f2 :: fr ∧
      ¬ StartsFlag (f1.value ++ (argsText (f2 :: fr) ++ s)) := by
    match ss, h3 with
    | [f], _ => exact ⟨f, d, [], rfl, h6 _ _ rfl⟩
    | f :: f' :: r, _ => exact ⟨f, f', r ++ [d], rfl, h6 _ _ rfl⟩
  rw [hsplit] at h2 h4
  obtain ⟨us, u1, u2⟩ := args_x h4.2.2 hs (p + blen kw + blen (flagsText fs) + blen f1.text + blen f2.text)
  obtain ⟨c1, a1, a2⟩ := carg_x h4.1 (p + blen kw + blen (flagsText fs))
  obtain ⟨c2, b1, b2⟩ := carg_x h4.2.1 (p + blen kw + blen (flagsText fs) + blen f1.text)
  have hnf : ∀ p, Sem (.seq G.arg_ws (flagE .copy_flag .copy_flag_name .copy_flag_value)) false p
      (argsText (f1 :: f2 :: fr) ++ s) none := by
    intro p
    rw [argsText_cons, Arg.text, List.append_assoc, List.append_assoc]
    exact gap_flag_none _ _ _ h4.1.1 hf1
  obtain ⟨ts, v1, v2⟩ := flags_x .copy_flag .copy_flag_name .copy_flag_value h2 hnf (p + blen kw)
  replace v1 : SemX (.star (.seq G.arg_ws G.copy_flag)) _ _ _ _ _ := v1
  have htoks : ArgToks (p + blen kw + blen (flagsText fs)) (f1 :: f2 :: fr)
      (c1 ++ argTok _ f1 :: (c2 ++ argTok _ f2 :: us)) := .cons a2 (.cons b2 u2)
  have hargs := SemX.seq (x2 := f2.text ++ argsText fr) (s' := s) (a1 : SemX _ _ _ _ (f2.text ++ argsText fr ++ s) _)
    (SemX.seq b1 u1)
  have hrun := step_kw (k := (c!"copy", .copy, copyBody)) (by simp [kwRules]) h1
    (SemX.seq (x2 := argsText (f1 :: f2 :: fr)) v1 hargs)
  have ht : (Item.copy kw fs ss d).text = kw ++ (flagsText fs ++ argsText (f1 :: f2 :: fr)) := by
    rw [← hsplit, ← htext]; rfl
  rw [← ht] at hrun
  refine ⟨_, hrun, ⟨by simp [Tok.rule], by simp [Tok.rule]⟩, ?_⟩
  simp only [instructionOf, Tok.rule, copyRecord, Tok.children]
  rw [copyFields_flags h2 v2]
  simp only [List.append_assoc, List.cons_append, List.nil_append] at htoks ⊢
  simp only [Item.eval]
  cases evalFlags unq (p + blen kw) fs with
  | error e => rfl
  | ok xs =>
    simp only [ok_bind]
    rw [copyFields_args htoks, ← hsplit, evalArgs_snoc]
    cases hy : evalArgs unq (p + blen kw + blen (flagsText fs)) ss with
    | error e => rfl
    | ok ys =>
      have hl := evalArgs_length hy
      simp only [ok_bind]
      cases d.eval unq (p + blen kw + blen (flagsText fs) + blen (argsText ss)) with
      | error e => rfl
      | ok y =>
        have hne : ys ≠ [] := by
          rintro rfl
          exact h3 (List.length_eq_zero_iff.1 hl.symm)
        simp only [ok_bind, mapped_ok, pure_ok, List.nil_append, Except.map]
        rw [if_pos (by
          rw [List.length_append]
          have := List.length_pos_iff.2 hne
          simp; omega)]
        simp only [List.getLast?_append, List.getLast?_singleton, Option.some_or,
          List.dropLast_append_cons, List.dropLast_singleton, List.append_nil]
        rfl

theorem copy_inv {kw : Str} (hk : lower kw = c!"copy") {p x s ts}
    (h : SemX copyBody false p x s ts) : ∃ i : Item, i.text = kw ++ x ∧ i.Fits s := by
  obtain ⟨x1, y, _, _, rfl, -, h1, h2⟩ := semX_seq.1 h
  obtain ⟨⟨fs, rfl, hf⟩, p', hn⟩ := flags_inv (r := .copy_flag) (rn := .copy_flag_name)
    (rv := .copy_flag_value) h1
  obtain ⟨x1, y, _, _, rfl, -, h3, h4⟩ := semX_seq.1 h2
  obtain ⟨x2, y, _, _, rfl, -, h5, h6⟩ := semX_seq.1 h4
  obtain ⟨f1, rfl, a1⟩ := carg_inv h3
  obtain ⟨f2, rfl, a2⟩ := carg_inv h5
  obtain ⟨fr, rfl, a3⟩ := args_inv h6
  have hall : ArgsFit (f1 :: f2 :: fr) s := ⟨by simpa [argsText_cons] using a1, a2, a3⟩
  have hnf : ¬ StartsFlag (f1.value ++ (argsText (f2 :: fr) ++ s)) := by
    rw [Arg.text, List.append_assoc, List.append_assoc,
      gap_seq_none (by simpa [argsText_cons] using hall.1.1), flag_none] at hn
    simpa [argsText_cons] using hn
  obtain ⟨ss, d, e⟩ : ∃ ss d, f2 :: fr = ss ++ [d] :=
    ⟨_, _, (List.dropLast_concat_getLast (List.cons_ne_nil _ _)).symm⟩
  refine ⟨.copy kw fs (f1 :: ss) d, ?_, hk, ?_, by simp, ?_, ?_⟩
  · have : argsText (f2 :: fr) = argsText ss ++ d.text := by
      rw [e, argsText_append]; simp [argsText]
    simp only [argsText_cons] at this
    simp [Item.text, argsText_cons, this]
  · rw [List.cons_append, ← e]; simpa [argsText_cons] using hf
  · rw [List.cons_append, ← e]; exact hall
  · rintro f b ⟨⟩
    rw [← e]; exact hnf

theorem copy_none {p u} : Sem copyBody false p u none ↔ ¬ Begins c!"copy" u := by
  have hb : Begins c!"copy" u ↔ ∃ fs a b r, u = flagsText fs ++ (a.text ++ (b.text ++ r)) ∧
      FlagsFit fs (a.text ++ (b.text ++ r)) ∧ Arg.Fits a (b.text ++ r) ∧ Arg.Fits b r ∧
      ¬ StartsFlag (a.value ++ (b.text ++ r)) := by
    unfold Begins; rw [if_neg (by decide), if_neg (by decide), if_pos rfl]
  rw [hb]
  constructor
  · rintro h ⟨fs, a, b, r, rfl, hf, ha, hb', hn⟩
    obtain ⟨ts, f1, f2⟩ := flags_x .copy_flag .copy_flag_name .copy_flag_value hf
      (fun p => by
        rw [Arg.text, List.append_assoc]
        exact gap_flag_none _ _ _ ha.1 hn) p
    rcases sem_seq_none.1 h with h | ⟨p1, s1, t1, h1, h2⟩
    · exact absurd h Sem.star_ne_none
    · have := h1.det f1
      simp only [Option.some.injEq, Prod.mk.injEq] at this
      obtain ⟨rfl, rfl, -⟩ := this
      obtain ⟨_, a1, -⟩ := carg_x ha (p + blen (flagsText fs))
      obtain ⟨_, b1, -⟩ := carg_x hb' (p + blen (flagsText fs) + blen a.text)
      rcases sem_seq_none.1 h2 with h3 | ⟨p1, s1, t1, h3, h4⟩
      · exact sem_not_none a1 h3
      · have := h3.det a1
        simp only [Option.some.injEq, Prod.mk.injEq] at this
        obtain ⟨rfl, rfl, -⟩ := this
        rcases sem_seq_none.1 h4 with h5 | ⟨_, _, _, _, h5⟩
        · exact sem_not_none b1 h5
        · exact absurd h5 Sem.star_ne_none
  · intro h
    rcases sem_or (e := copyBody) (by decide +kernel) false p u with h1 | ⟨x, s, ts, rfl, h1⟩
    · exact h1
    · exfalso
      obtain ⟨x1, y, _, _, rfl, -, h1, h2⟩ := semX_seq.1 h1
      obtain ⟨⟨fs, rfl, hf⟩, p', hn⟩ := flags_inv (r := .copy_flag) (rn := .copy_flag_name)
        (rv := .copy_flag_value) h1
      obtain ⟨x1, y, _, _, rfl, -, h3, h4⟩ := semX_seq.1 h2
      obtain ⟨x2, y, _, _, rfl, -, h5, h6⟩ := semX_seq.1 h4
      obtain ⟨f1, rfl, a1⟩ := carg_inv h3
      obtain ⟨f2, rfl, a2⟩ := carg_inv h5
      refine h ⟨fs, f1, f2, y ++ s, by simp, by simpa using hf, by simpa using a1, a2, ?_⟩
      rw [Arg.text, List.append_assoc, List.append_assoc, gap_seq_none (by simpa using a1.1),
        flag_none] at hn
      simpa using hn

end Src
end Verif
