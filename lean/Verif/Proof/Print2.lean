import Verif.Proof.Print

/-! # Running the grammar and the record functions on written items: the remaining instructions -/

namespace Verif
open Spec

theorem SemX.plus_of_star {e : PExpr} {q p x s' ts} (h : SemX (.star e) q p x s' ts) (hx : x ≠ []) :
    SemX (G.plus e) q p x s' ts := by
  rcases semX_star.1 h with ⟨h, -⟩ | ⟨x1, x2, t1, t2, rfl, rfl, h1, h2⟩
  · exact absurd h hx
  · exact .seq h1 h2

theorem joined_unique {s j : Str} (h : Joined s j) : j = cleanEscapedBreaks s := by
  induction h with
  | nil => rfl
  | brk _ ih => rw [cleanEscapedBreaks, ih]
  | @chr c t j hc _ ih =>
    rw [cleanEscapedBreaks.eq_2 _ _ (fun r h1 h2 => hc r (by rw [h1, h2])), ih]

theorem labelQuoted_reads {unq : Unquote} {t : Tok} {c : Str} (hq : QuotedText t.text)
    (h : LabelReads unq t.text c) : labelQuoted unq t = .ok ⟨t.span, c⟩ := by
  rcases h with ⟨-, j, hj, h⟩ | ⟨h, -⟩
  · rw [joined_unique hj] at h
    simp [labelQuoted, unquoteR, h]
  · exact absurd (quoted_starts hq) h

/-! ## pairs -/

inductive PairToks (Q : Nat → PairText → Tok → Prop) : Nat → List PairText → List Tok → Prop
  | nil {p} : PairToks Q p [] []
  | cons {p f fs cs tok ts} : Comments cs → Q p f tok → PairToks Q (p + blen f.text) fs ts →
      PairToks Q p (f :: fs) (cs ++ tok :: ts)

/-- The pair `f` is read by `e`. -/
def PairRun (e : PExpr) (Q : Nat → PairText → Tok → Prop) (f : PairText) : Prop :=
  Space f.gap ∧ f.gap ≠ [] ∧
  ∀ s, EndsWord s → ∀ p, (∃ cs, SemX G.arg_ws false p f.gap (f.body ++ s) cs ∧ Comments cs) ∧
    ∃ tok, SemX e false (p + blen f.gap) f.body s [tok] ∧ Q p f tok

theorem pairs_x {e : PExpr} {Q : Nat → PairText → Tok → Prop} {ps : List PairText}
    (h : ∀ f ∈ ps, PairRun e Q f) (he : ∀ p r, AtEnd r → Sem e false p r none) {t r : Str}
    (ht : Blanks t) (hr : AtEnd r) (p : Nat) :
    ∃ ts, SemX (.star (.seq G.arg_ws (.opt e))) false p (pairsText ps ++ t) r ts ∧
      PairToks Q p ps ts := by
  induction ps generalizing p with
  | nil =>
    refine ⟨[], ?_, .nil⟩
    have hend : ∀ p, SemX (.star (.seq G.arg_ws (.opt e))) false p [] r [] := fun p =>
      .star_nil (.seq_fail1 (arg_ws_none.2 hr.startsArgWs))
    by_cases hne : t = []
    · subst hne; exact hend p
    · obtain ⟨cs, h1, -, h2⟩ := arg_ws_x (space_of_blanks ht) hne (hr.after ht) p
      rw [h2 (blanks_no_hash ht)] at h1
      have h3 : SemX (.seq G.arg_ws (.opt e)) false p t r [] := by
        have := SemX.seq (x2 := []) (t2 := []) h1 (semX_opt.2 (.inr ⟨rfl, rfl, he _ _ hr⟩))
        simpa using this
      have := SemX.star_cons (x2 := []) h3 (hend _)
      simpa [pairsText] using this
  | cons f fs ih =>
    obtain ⟨ts, h1, h2⟩ := ih (fun f hf => h f (by simp [hf])) (p + blen f.text)
    obtain ⟨-, -, hf⟩ := h f (by simp)
    have hend : EndsWord (pairsText fs ++ t ++ r) := by
      cases fs with
      | nil => exact .trail ht hr
      | cons f' fs =>
        obtain ⟨g1, g2, -⟩ := h f' (by simp)
        show EndsWord (f'.gap ++ f'.body ++ pairsText fs ++ t ++ r)
        simp only [List.append_assoc]
        exact .space g1 g2
    obtain ⟨⟨cs, h3, h4⟩, tok, h5, h6⟩ := hf _ hend p
    refine ⟨_, ?_, .cons h4 h6 h2⟩
    have := SemX.star_cons (SemX.seq h3 (semX_opt.2 (.inl h5))) h1
    simp only [List.append_assoc, List.cons_append, List.nil_append] at this
    show SemX _ _ _ (f.gap ++ f.body ++ pairsText fs ++ t) _ _
    simp only [List.append_assoc]
    exact this

theorem pairs_ne {ps : List PairText} {t : Str} (h : ps ≠ [] ∨ t ≠ [])
    (hg : ∀ f ∈ ps, f.gap ≠ []) : pairsText ps ++ t ≠ [] := by
  intro e
  rw [List.append_eq_nil_iff] at e
  rcases h with h | h
  · cases ps with
    | nil => exact h rfl
    | cons f fs =>
      have : f.gap ++ f.body ++ pairsText fs = [] := e.1
      simp only [List.append_eq_nil_iff] at this
      exact hg f (by simp) this.1.1
  · exact h e.2

/-! ## LABEL -/

theorem any_equals_x {n s : Str} (h : LabelWord n)
    (hs : ∀ c b, s = c :: b → isBreak c = true ∨ isBlank c = true ∨ c = '=') {q p} :
    SemX G.any_equals q p n s [] := by
  obtain ⟨h1, h2, h3, -⟩ := h
  refine step_any_equals.plus_x.2 ⟨h1, runOf_class.2 ⟨fun c hc => ?_, fun c b e => ?_⟩, rfl⟩
  · have := h2 c hc
    simp [isBreak, isBlank, h3 c hc, this]
  · rcases hs c b e with h | h | h <;> simp [h]

theorem any_equals_none {r : Str} (hr : AtEnd r) (q p) : Sem G.any_equals q p r none := by
  refine step_any_equals.plus_none.2 fun c b e => ?_
  rcases hr c b e with rfl | rfl <;> rfl

theorem unquoted_string_none {n s : Str} (h1 : n ≠ []) (h : ¬ StartsQuoted n) (q p) :
    Sem G.string q p (n ++ s) none := by
  refine string_none (noquote_append h1 fun r => ⟨fun e => h ⟨_, r, e, ?_⟩, fun e => h ⟨_, r, e, ?_⟩⟩)
  · exact .inl rfl
  · exact .inr (.inl rfl)

/-- the name of a label -/
theorem label_name_x (k : Kind) (hk : k = .normal ∨ k = .compound) (rq rv : Rule) {unq : Unquote}
    {n c s : Str} (h : LabelName unq n c)
    (hs : ∀ c b, s = c :: b → isBreak c = true ∨ isBlank c = true ∨ c = '=') (p : Nat) :
    ∃ r ch, SemX (.alt (.rule k rq G.string) (.rule k rv G.any_equals)) false p n s
        [.node r p (p + blen n) n ch] ∧
      ((r = rq ∧ labelQuoted unq (.node r p (p + blen n) n ch) = .ok ⟨⟨p, p + blen n⟩, c⟩) ∨
       (r = rv ∧ parseString unq (.node r p (p + blen n) n ch) = .ok ⟨⟨p, p + blen n⟩, c⟩)) := by
  have hi : ∀ r x p' ch, emitToks k r false p p' x ch = [.node r p p' x ch] := by
    rcases hk with rfl | rfl <;> intros <;> rfl
  rcases h with ⟨hq, hr⟩ | ⟨hw, rfl⟩
  · obtain ⟨ch, h1⟩ := string_x hq (innerQuiet k false) p s
    refine ⟨rq, [.node .string p (p + blen n) n ch],
      semX_alt.2 (.inl (semX_rule.2 ⟨_, h1, ?_⟩)), .inl ⟨rfl, ?_⟩⟩
    · rw [hi]
    · exact labelQuoted_reads (t := .node ..) hq hr
  · refine ⟨rv, [], semX_alt.2 (.inr ⟨.rule_fail (unquoted_string_none hw.1 hw.2.2.2 _ _),
      semX_rule.2 ⟨[], any_equals_x hw hs, ?_⟩⟩), .inr ⟨rfl, ?_⟩⟩
    · rw [hi]
    · exact parseString_reads (t := .node ..) (.inr ⟨hw.2.2.2, rfl⟩)

theorem label_value_x {unq : Unquote} {v c s : Str} (h : LabelValue unq v c) (hs : EndsWord s)
    (p : Nat) :
    ∃ r ch, SemX (.alt G.label_quoted_value G.label_value) false p v s
        [.node r p (p + blen v) v ch] ∧
      ((r = .label_quoted_value ∧
          labelQuoted unq (.node r p (p + blen v) v ch) = .ok ⟨⟨p, p + blen v⟩, c⟩) ∨
       (r = .label_value ∧
          parseString unq (.node r p (p + blen v) v ch) = .ok ⟨⟨p, p + blen v⟩, c⟩)) := by
  rcases h with ⟨hq, hr⟩ | ⟨hw, hq, hr⟩
  · obtain ⟨ch, h1⟩ := quoted_x .label_quoted_value (s := s) hq false p
    exact ⟨_, ch, semX_alt.2 (.inl h1), .inl ⟨rfl, labelQuoted_reads (t := .node ..) hq hr⟩⟩
  · exact ⟨_, [], semX_alt.2 (.inr ⟨.rule_fail (string_none (noquote_append hw.1 hq)),
      bare_x .label_value hw hs false p⟩), .inr ⟨rfl, parseString_reads (t := .node ..) hr⟩⟩

theorem labelName_ne {unq : Unquote} {n c : Str} (h : LabelName unq n c) : n ≠ [] := by
  rcases h with ⟨h, -⟩ | ⟨h, -⟩
  · exact quoted_ne h
  · exact h.1

/-- the space in front of a pair -/
theorem label_gap {unq : Unquote} {g n c v s : Str} (hg : Gap g (n ++ '=' :: v))
    (hn : LabelName unq n c) : AfterSpace g (n ++ '=' :: v ++ s) := by
  rcases hn with ⟨h, -⟩ | ⟨⟨h1, h2, h3, h4⟩, -⟩
  · rw [List.append_assoc]; exact quoted_after h
  · have hw : WordText (n ++ ['=']) := by
      refine ⟨by simp, fun c hc => ?_, by simp⟩
      rcases List.mem_append.1 hc with hc | hc
      · exact h2 c hc
      · rw [List.mem_singleton.1 hc]; decide
    have := word_after (s := v ++ s) hw (g := g) ⟨hg.1, hg.2.1, hg.2.2.imp id fun h r e => ?_⟩
    · simpa using this
    · cases n with
      | nil => exact h1 rfl
      | cons d n =>
        simp only [List.cons_append, List.cons.injEq] at e
        exact h _ (by rw [e.1]; rfl)

theorem argWs_equals (q p) (s : Str) : Sem G.arg_ws q p ('=' :: s) none := arg_ws_none.2 rfl

def LabelQ (unq : Unquote) (p : Nat) (f : PairText) (tok : Tok) : Prop :=
  tok.rule = .label_pair ∧ labelPairRecord unq tok = .ok (f.label p)

theorem pair_body_len (f : PairText) : blen f.body = blen f.name + 1 + blen f.value := by
  unfold PairText.body
  simp only [blen_cons, blen_append, show '='.utf8Size = 1 from rfl]
  omega

theorem labelFields_two {unq : Unquote} {r r' : Rule} {p1 p1' p2 p2' : Nat} {n n' v v' : Str}
    {ch ch' : List Tok}
    (hn : ((r = .label_quoted_name ∨ r = .label_single_quoted_name) ∧
        labelQuoted unq (.node r p1 p1' n ch) = .ok ⟨⟨p1, p1'⟩, n'⟩) ∨
      ((r = .label_name ∨ r = .label_single_name) ∧
        parseString unq (.node r p1 p1' n ch) = .ok ⟨⟨p1, p1'⟩, n'⟩))
    (hv : (r' = .label_quoted_value ∧
        labelQuoted unq (.node r' p2 p2' v ch') = .ok ⟨⟨p2, p2'⟩, v'⟩) ∨
      (r' = .label_value ∧ parseString unq (.node r' p2 p2' v ch') = .ok ⟨⟨p2, p2'⟩, v'⟩))
    {cs cs' : List Tok} (hc : Comments cs) (hc' : Comments cs') :
    labelFields unq (cs ++ .node r p1 p1' n ch :: (cs' ++ [.node r' p2 p2' v ch'])) none none =
      .ok (some ⟨⟨p1, p1'⟩, n'⟩, some ⟨⟨p2, p2'⟩, v'⟩) := by
  have skip : ∀ {cs ts : List Tok}, Comments cs → ∀ n v,
      labelFields unq (cs ++ ts) n v = labelFields unq ts n v := by
    intro cs ts h n v
    induction cs with
    | nil => rfl
    | cons c cs ih =>
      rw [List.cons_append, labelFields, h c (by simp)]
      exact ih fun t ht => h t (by simp [ht])
  have hval : ∀ n, labelFields unq (cs' ++ [.node r' p2 p2' v ch']) n none =
      .ok (n, some ⟨⟨p2, p2'⟩, v'⟩) := by
    intro n
    rw [skip hc']
    rcases hv with ⟨rfl, h⟩ | ⟨rfl, h⟩ <;>
    · simp only [labelFields, Tok.rule, h]
      rfl
  rw [skip hc]
  rcases hn with ⟨rfl | rfl, h⟩ | ⟨rfl | rfl, h⟩ <;>
  · simp only [labelFields, Tok.rule, h, ok_bind, hval]

theorem label_run {unq : Unquote} {f : PairText} (h : f.LabelOK unq) :
    PairRun G.label_pair (LabelQ unq) f := by
  obtain ⟨hg, hn, hv⟩ := h
  refine ⟨hg.1, hg.2.1, fun s hs p => ⟨?_, ?_⟩⟩
  · obtain ⟨cs, h1, h2, -⟩ := arg_ws_x hg.1 hg.2.1 (label_gap (s := s) hg hn) p
    exact ⟨cs, h1, h2⟩
  · obtain ⟨r, ch, n1, n2⟩ := label_name_x .compound (.inr rfl) .label_quoted_name .label_name hn
      (s := '=' :: f.value ++ s) (fun c b e => by
        simp only [List.cons_append, List.cons.injEq] at e; exact .inr (.inr e.1.symm))
      (p + blen f.gap)
    obtain ⟨r', ch', v1, v2⟩ := label_value_x hv hs (p + blen f.gap + blen f.name + 1)
    refine ⟨_, semX_rule.2 ⟨_, SemX.seq n1 (SemX.seq (x1 := ['=']) (t1 := [])
      (semX_str.2 ⟨rfl, rfl⟩) v1), rfl⟩, rfl, ?_⟩
    simp only [labelPairRecord, Tok.children]
    have hl : p + blen f.gap + blen f.name + 1 + blen f.value = p + blen f.gap + blen f.body := by
      rw [pair_body_len]; omega
    rw [show ∀ a b : Tok, [a] ++ ([] ++ [b]) = [] ++ a :: ([] ++ [b]) from fun _ _ => rfl,
      labelFields_two (n' := f.nameContent) (v' := f.content)
      (n2.imp (fun h => ⟨.inl h.1, h.2⟩) (fun h => ⟨.inl h.1, h.2⟩)) v2 .nil .nil]
    simp only [ok_bind, require]
    unfold PairText.label PairText.nameAt PairText.valueSpan
    rw [← hl]
    rfl

theorem labelList_comments {unq : Unquote} {cs ts : List Tok} (h : Comments cs) :
    labelList unq (cs ++ ts) = labelList unq ts := by
  induction cs with
  | nil => rfl
  | cons c cs ih =>
    rw [List.cons_append, labelList, h c (by simp)]
    exact ih fun t ht => h t (by simp [ht])

theorem labelList_pairs {unq : Unquote} {p ps ts} (h : PairToks (LabelQ unq) p ps ts) :
    labelList unq ts = .ok (labelsAt p ps) := by
  induction h with
  | nil => rfl
  | cons hc hq _ ih =>
    rw [labelList_comments hc, labelList, hq.1]
    simp only [hq.2, ok_bind, ih]
    rfl

/-- `LABEL name=value` is not read as `LABEL name value`. -/
theorem label_single_none {unq : Unquote} {ps : List PairText} {t r : Str}
    (h : ∀ f ∈ ps, f.LabelOK unq) (ht : Blanks t) (hr : AtEnd r) (p : Nat) :
    Sem G.label_single false p (pairsText ps ++ t ++ r) none := by
  refine .rule_fail ?_
  show Sem _ false _ _ _
  cases ps with
  | nil =>
    refine rest_fail (fun p r hr => ?_) ⟨t, r, rfl, ht, hr⟩ p
    exact .seq_fail1 (.alt_right (.rule_fail (string_none_atEnd hr _ _))
      (.rule_fail (any_equals_none hr _ _)))
  | cons f fs =>
    obtain ⟨hg, hn, hv⟩ := h f (by simp)
    have e : pairsText (f :: fs) ++ t ++ r =
        f.gap ++ (f.name ++ ('=' :: (f.value ++ (pairsText fs ++ t ++ r)))) := by
      simp [pairsText, PairText.text, PairText.body]
    obtain ⟨cs, h1, -, -⟩ := arg_ws_x hg.1 hg.2.1
      (label_gap (s := pairsText fs ++ t ++ r) hg hn) p
    obtain ⟨rl, ch, n1, -⟩ := label_name_x .normal (.inl rfl) .label_single_quoted_name
      .label_single_name hn (s := '=' :: (f.value ++ (pairsText fs ++ t ++ r))) (fun c b e => by
        simp only [List.cons.injEq] at e; exact .inr (.inr e.1.symm)) (p + blen f.gap)
    rw [e]
    refine .seq_fail2 (by simpa [PairText.body, SemX] using h1) (.seq_fail2 n1 (.seq_fail1 ?_))
    exact argWs_equals _ _ _

theorem item_label {unq : Unquote} {kw : Str} {ps : List PairText} {t : Str}
    (h : (Item.label kw ps t).OK unq) {s : Str} (hs : AtEnd s) (p : Nat) :
    ∃ tok ins, SemX G.step false p (Item.label kw ps t).text s [tok] ∧
      (Item.label kw ps t).instr p = some ins ∧ tok.rule = .label ∧
      instructionOf unq tok = .ok ins := by
  obtain ⟨h1, h2, h3, h4⟩ := h
  obtain ⟨ts, k1, k2⟩ := pairs_x (fun f hf => label_run (h2 f hf)) (fun p r hr =>
    .rule_fail (.seq_fail1 (.alt_right (.rule_fail (string_none_atEnd hr _ _))
      (.rule_fail (any_equals_none hr _ _))))) h3 hs (p + blen kw)
  have hrun := step_kw (k := (c!"label", .label, .alt G.label_single
      (G.plus (.seq G.arg_ws (.opt G.label_pair))))) (by simp [kwRules]) h1
    (semX_alt.2 (.inr ⟨label_single_none h2 h3 hs _,
      k1.plus_of_star (pairs_ne h4 fun f hf => (h2 f hf).1.2.1)⟩))
  refine ⟨_, _, hrun, rfl, rfl, ?_⟩
  simp only [instructionOf, Tok.rule, labelRecord, Tok.children]
  rw [labelList_pairs k2]
  rfl

/-- no line break comes first after blanks -/
theorem space_drop {g v : Str} (hg : Space g) (hv : ∀ c b, v = c :: b → isBlank c = false ∧ isBreak c = false) :
    afterBreak ((g ++ v).dropWhile isBlank) = none := by
  have hnone : ∀ c b, isBreak c = false → afterBreak (c :: b) = none := by
    intro c b h
    have := afterBreak_isNone c b
    rw [h] at this
    simpa using this
  induction hg with
  | nil =>
    cases v with
    | nil => rfl
    | cons c b =>
      obtain ⟨h1, h2⟩ := hv c b rfl
      rw [List.nil_append, dropWhile_head h1]
      exact hnone _ _ h2
  | blank hc _ ih =>
    rw [List.cons_append, List.dropWhile_cons_of_pos (isBlank_iff.2 hc)]
    exact ih
  | continuation _ _ _ _ _ =>
    rw [List.cons_append, dropWhile_head (by decide)]
    rfl

theorem labelValue_head {unq : Unquote} {v c s : Str} (h : LabelValue unq v c) :
    ∀ d b, v ++ s = d :: b → isBlank d = false ∧ isBreak d = false := by
  intro d b e
  rcases h with ⟨⟨q, x, rfl, hq, -⟩, -⟩ | ⟨⟨h1, h2, -⟩, -⟩
  · simp only [List.cons_append, List.cons.injEq] at e
    rw [← e.1]
    rcases hq with rfl | rfl <;> decide
  · cases v with
    | nil => exact absurd rfl h1
    | cons d' v =>
      simp only [List.cons_append, List.cons.injEq] at e
      rw [← e.1]
      have := h2 d' (by simp)
      simp [isBlank, isBreak, this]

theorem item_label1 {unq : Unquote} {kw : Str} {n v : FieldText}
    (h : (Item.label1 kw n v).OK unq) {s : Str} (hs : Rest s) (p : Nat) :
    ∃ tok ins, SemX G.step false p (Item.label1 kw n v).text s [tok] ∧
      (Item.label1 kw n v).instr p = some ins ∧ tok.rule = .label ∧
      instructionOf unq tok = .ok ins := by
  obtain ⟨h1, h2, h3, h4, h5, h6⟩ := h
  have hv := labelValue_head (s := s) h6
  -- the name starts no space
  have ha : AfterSpace n.gap (n.value ++ (v.gap ++ (v.value ++ s))) := by
    rcases h3 with ⟨h, -⟩ | ⟨⟨w1, w2, w3, w4⟩, -⟩
    · exact quoted_after h
    · cases hn : n.value with
      | nil => exact absurd hn w1
      | cons c r =>
        rw [hn] at w2
        have hc := w2 c (by simp)
        constructor
        · simp only [List.cons_append, startsArgWs, isBlank,
            Bool.or_eq_false_iff]
          refine ⟨⟨by simpa using hc.1, by simpa using hc.2.1⟩, ?_⟩
          cases hx : afterContinuation (c :: (r ++ (v.gap ++ (v.value ++ s)))) with
          | none => rfl
          | some y =>
            have := afterContinuation_some hx
            subst this
            exfalso
            cases r with
            | nil =>
              rw [List.nil_append, afterContinuation, space_drop h4.1 hv] at hx
              cases hx
            | cons d r =>
              have hd := w2 d (by simp)
              have hb : isBlank d = false := by simp [isBlank, hd]
              have hb' : isBreak d = false := by simp [isBreak, hd]
              have := afterBreak_isNone d (r ++ (v.gap ++ (v.value ++ s)))
              rw [hb'] at this
              rw [afterContinuation, List.cons_append, dropWhile_head hb] at hx
              rw [hx] at this; cases this
        · rcases h2.2.2 with h | h
          · exact .inl h
          · refine .inr fun d b e => ?_
            simp only [List.cons_append, List.cons.injEq] at e
            rw [← e.1]
            refine ⟨fun e => h r (by rw [hn, e]), by simp [isBreak, hc]⟩
  have hb : AfterSpace v.gap (v.value ++ s) := by
    rcases h6 with ⟨h, -⟩ | ⟨h, -⟩
    · exact quoted_after h
    · exact word_after h h4
  obtain ⟨cs, k1, k2, -⟩ := arg_ws_x h2.1 h2.2.1 ha (p + blen kw)
  obtain ⟨r, ch, n1, n2⟩ := label_name_x .normal (.inl rfl) .label_single_quoted_name
    .label_single_name h3 (s := v.gap ++ (v.value ++ s)) (fun c b e => by
      cases hg : v.gap with
      | nil => exact absurd hg h4.2.1
      | cons d g =>
        rw [hg] at e
        simp only [List.cons_append, List.cons.injEq] at e
        rw [← e.1]
        have := h4.1
        rw [hg] at this
        cases this with
        | blank h _ => exact .inr (.inl (isBlank_iff.2 h))
        | continuation _ _ _ _ => exact absurd hg (h5 _)) (p + blen kw + blen n.gap)
  obtain ⟨cs', k3, k4, -⟩ := arg_ws_x h4.1 h4.2.1 hb (p + blen kw + blen n.gap + blen n.value)
  obtain ⟨r', ch', v1, v2⟩ := label_value_x h6 hs.endsWord
    (p + blen kw + blen n.gap + blen n.value + blen v.gap)
  have hs1 : SemX G.label_single false (p + blen kw) (n.gap ++ (n.value ++ (v.gap ++ v.value))) s _ :=
    semX_rule.2 ⟨_, SemX.seq (by simp only [List.append_assoc]; exact k1)
      (SemX.seq (by simp only [List.append_assoc]; exact n1) (SemX.seq k3 v1)), rfl⟩
  have hrun := step_kw (k := (c!"label", .label, .alt G.label_single
      (G.plus (.seq G.arg_ws (.opt G.label_pair))))) (by simp [kwRules]) h1
    (semX_alt.2 (.inl hs1))
  have et : (Item.label1 kw n v).text = kw ++ (n.gap ++ (n.value ++ (v.gap ++ v.value))) := by
    simp [Item.text, FieldText.text]
  refine ⟨_, _, by rw [et]; exact hrun, rfl, rfl, ?_⟩
  simp only [instructionOf, Tok.rule, labelRecord, Tok.children, emitToks, labelList, labelPairRecord,
    Bool.false_eq_true, if_false]
  rw [show ∀ (a b : List Tok) (x y : Tok), a ++ ([x] ++ (b ++ [y])) = a ++ x :: (b ++ [y]) from
      fun _ _ _ _ => rfl,
    labelFields_two (n' := n.content) (v' := v.content)
      (n2.imp (fun h => ⟨.inr h.1, h.2⟩) (fun h => ⟨.inr h.1, h.2⟩)) v2 k2 k4]
  simp only [ok_bind, require]
  have e1 : p + blen kw + blen (n.gap ++ (n.value ++ (v.gap ++ v.value))) =
      p + blen kw + blen n.text + blen v.text := by
    simp only [FieldText.text, blen_append]; omega
  have e2 : p + blen kw + blen n.gap + blen n.value + blen v.gap =
      p + blen kw + blen n.text + blen v.gap := by
    simp only [FieldText.text, blen_append]; omega
  rw [et]
  simp only [Tok.span, Tok.start, Tok.stop, e1, e2, FieldText.field]
  rfl

end Verif
