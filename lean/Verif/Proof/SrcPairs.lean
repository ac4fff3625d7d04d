import Verif.Proof.SrcCopy

/-!
# LABEL and ENV
-/

namespace Verif
namespace Src
open Spec

/-! ## pairs -/

theorem pairsText_cons (f : Pair) (fs : List Pair) : pairsText (f :: fs) = f.text ++ pairsText fs := rfl

theorem pair_body_len (f : Pair) : blen f.body = blen f.name.text + 1 + blen f.value.text := by
  unfold Pair.body
  simp only [blen_cons, blen_append, show '='.utf8Size = 1 from rfl]
  omega

inductive PairToks (Q : Nat → Pair → Tok → Prop) : Nat → List Pair → List Tok → Prop
  | last {p cs} : Comments cs → PairToks Q p [] cs
  | cons {p f fs cs tok ts} : Comments cs → Q p f tok → PairToks Q (p + blen f.text) fs ts →
      PairToks Q p (f :: fs) (cs ++ tok :: ts)

/-- `e` reads what is described by `F`. -/
structure PairRule (e : PExpr) (F : Pair → Str → Prop) (Q : Nat → Pair → Tok → Prop) : Prop where
  gap : ∀ {f s}, F f s → Gap f.gap (f.body ++ s)
  run : ∀ {f s}, F f s → ∀ p, ∃ tok, SemX e false (p + blen f.gap) f.body s [tok] ∧ Q p f tok
  none : ∀ {s}, Eol s → ∀ p, Sem e false p s none
  inv : ∀ {p x s ts}, SemX e false p x s ts → ∀ g, Gap g (x ++ s) →
    ∃ f : Pair, f.gap = g ∧ f.body = x ∧ F f s

variable {e : PExpr} {F : Pair → Str → Prop} {Q : Nat → Pair → Tok → Prop}

theorem pairs_x (hF : PairRule e F Q) {ps : List Pair} {t r : Str} (h : PairsFit F ps (t ++ r))
    (ht : Space t r) (hr : Eol r) (p : Nat) :
    ∃ ts, SemX (.star (.seq G.arg_ws (.opt e))) false p (pairsText ps ++ t) r ts ∧
      PairToks Q p ps ts := by
  induction ps generalizing p with
  | nil =>
    have hend : ∀ p, SemX (.star (.seq G.arg_ws (.opt e))) false p [] r [] := fun p =>
      .star_nil (.seq_fail1 (arg_ws_none'.2 hr.not_starts))
    by_cases hne : t = []
    · subst hne; exact ⟨[], hend p, .last .nil⟩
    · obtain ⟨cs, h1, h2, -⟩ := gap_x (⟨hne, ht⟩ : Gap t r) p
      refine ⟨cs, ?_, .last h2⟩
      have h3 : SemX (.seq G.arg_ws (.opt e)) false p t r cs := by
        have := SemX.seq (x2 := []) (t2 := []) h1 (semX_opt.2 (.inr ⟨rfl, rfl, hF.none hr _⟩))
        simpa using this
      have := SemX.star_cons (x2 := []) h3 (hend _)
      simpa [pairsText] using this
  | cons f fs ih =>
    obtain ⟨ts, h1, h2⟩ := ih h.2 (p + blen f.text)
    obtain ⟨cs, h3, h4, -⟩ := gap_x (hF.gap h.1) p
    obtain ⟨tok, h5, h6⟩ := hF.run h.1 p
    refine ⟨_, ?_, .cons h4 h6 h2⟩
    have h7 := SemX.seq h3 (semX_opt.2 (.inl h5))
    rw [← List.append_assoc (pairsText fs)] at h7
    have := SemX.star_cons (x1 := f.text) (s' := r) h7 h1
    simp only [List.append_assoc, List.cons_append, List.nil_append] at this
    rw [pairsText_cons, List.append_assoc]
    exact this

theorem pairs_ne (hF : PairRule e F Q) {ps : List Pair} {t s : Str} (h : ps ≠ [] ∨ t ≠ [])
    (hg : PairsFit F ps s) : pairsText ps ++ t ≠ [] := by
  intro e
  rw [List.append_eq_nil_iff] at e
  rcases h with h | h
  · cases ps with
    | nil => exact h rfl
    | cons f fs =>
      have : f.gap ++ f.body ++ pairsText fs = [] := e.1
      simp only [List.append_eq_nil_iff] at this
      exact (hF.gap hg.1).1 this.1.1
  · exact h e.2

theorem Space.eol {t s : Str} (ht : Space t s) (hs : Rest s) : Eol s := by
  obtain ⟨w, r, rfl, hw, hr⟩ := hs
  cases w with
  | nil => exact hr
  | cons c w => exact absurd (.inl ⟨c, w ++ r, rfl, hw c (by simp)⟩) ht.ends

theorem pairs_inv (hF : PairRule e F Q) {p x s ts}
    (h : SemX (.star (.seq G.arg_ws (.opt e))) false p x s ts) :
    ∃ ps t, x = pairsText ps ++ t ∧ PairsFit F ps (t ++ s) ∧ Space t s := by
  refine semX_star_induction (P := fun _ x _ => ∃ ps t, x = pairsText ps ++ t ∧
    PairsFit F ps (t ++ s) ∧ Space t s) ?_ ?_ h
  · intro p h
    refine ⟨[], [], rfl, trivial, .nil ?_⟩
    rcases sem_seq_none.1 h with h | ⟨_, _, _, _, h⟩
    · exact arg_ws_none'.1 h
    · cases h
  · rintro p x1 x2 t1 t2 h1 _ ⟨ps, t, rfl, h3, h4⟩
    obtain ⟨g, y, _, _, rfl, -, hg, h5⟩ := gap_seq h1
    rcases semX_opt.1 h5 with h6 | ⟨rfl, -, -⟩
    · obtain ⟨f, rfl, rfl, hf⟩ := hF.inv h6 g hg
      exact ⟨f :: ps, t, by simp [pairsText_cons, Pair.text], ⟨by simpa using hf, h3⟩, h4⟩
    · have hn : ¬ StartsSpace (pairsText ps ++ t ++ s) := by simpa using hg.2.ends
      have e1 : ps = [] := by
        cases ps with
        | nil => rfl
        | cons f fs =>
          refine absurd ?_ hn
          have := (hF.gap h3.1).starts
          simpa [pairsText_cons, Pair.text] using this
      subst e1
      have e2 : t = [] := by
        cases t with
        | nil => rfl
        | cons c t => exact absurd (h4.starts (by simp)) (by simpa [pairsText] using hn)
      subst e2
      exact ⟨[], g, by simp [pairsText], trivial, by simpa [pairsText] using hg.2⟩

theorem pairs_plus_inv (hF : PairRule e F Q) {p x s ts}
    (h : SemX (G.plus (.seq G.arg_ws (.opt e))) false p x s ts) :
    ∃ ps t, x = pairsText ps ++ t ∧ PairsFit F ps (t ++ s) ∧ Space t s ∧ (ps ≠ [] ∨ t ≠ []) := by
  obtain ⟨x1, x2, t1, t2, rfl, rfl, h1, h2⟩ := semX_seq.1 h
  obtain ⟨ps, t, e1, h3, h4⟩ := pairs_inv hF (SemX.star_cons h1 h2)
  refine ⟨ps, t, e1, h3, h4, ?_⟩
  cases ps with
  | cons f fs => exact .inl (by simp)
  | nil =>
    refine .inr fun ht => ?_
    subst ht
    obtain ⟨g, y, _, _, rfl, -, hg, -⟩ := gap_seq h1
    have : g = [] := by
      have e2 : g ++ y ++ x2 = [] := e1
      simp only [List.append_eq_nil_iff] at e2
      exact e2.1.1
    exact hg.1 this

theorem pairs_plus_none {p u} :
    Sem (G.plus (.seq G.arg_ws (.opt e))) false p u none ↔ ¬ StartsSpace u := by
  rw [← arg_ws_none' (p := p)]
  constructor
  · intro h
    rcases sem_seq_none.1 h with h | ⟨_, _, _, _, h⟩
    · rcases sem_seq_none.1 h with h | ⟨_, _, _, _, h⟩
      · exact h
      · cases h
    · exact absurd h Sem.star_ne_none
  · intro h; exact .seq_fail1 (.seq_fail1 h)

theorem noQuoted_eol {r : Str} (hr : Eol r) : NoQuoted r :=
  string_none'.1 (string_none_atEnd hr false 0)

theorem argWs_equals (p : Nat) (s : Str) : Sem G.arg_ws false p ('=' :: s) none :=
  arg_ws_none'.2 (not_starts_plain (by decide))

/-! ## LABEL -/

theorem labelFields_comments {unq : Unquote} {cs ts : List Tok} (h : Comments cs) (n v) :
    labelFields unq (cs ++ ts) n v = labelFields unq ts n v := by
  induction cs with
  | nil => rfl
  | cons c cs ih =>
    rw [List.cons_append, labelFields, h c (by simp)]
    exact ih fun t ht => h t (by simp [ht])

theorem labelFields_pair {unq : Unquote} (single : Bool) {n v : Value} {p1 p1' p2 p2' : Nat}
    {ch ch' cs cs' : List Tok} (hc : Comments cs) (hc' : Comments cs') :
    labelFields unq (cs ++ .node (if single then
          n.rule .label_single_quoted_name .label_single_name
        else n.rule .label_quoted_name .label_name) p1 p1' n.text ch ::
      (cs' ++ [.node (v.rule .label_quoted_value .label_value) p2 p2' v.text ch'])) none none = do
      let c ← n.readLabel unq
      let d ← v.readLabel unq
      return (some ⟨⟨p1, p1'⟩, c⟩, some ⟨⟨p2, p2'⟩, d⟩) := by
  rw [labelFields_comments hc]
  have second : ∀ k, labelFields unq (cs' ++ [.node (v.rule .label_quoted_value .label_value) p2 p2'
      v.text ch']) k none = do
      let d ← v.readLabel unq
      return (k, some ⟨⟨p2, p2'⟩, d⟩) := by
    intro k
    rw [labelFields_comments hc']
    cases v with
    | quoted t =>
      simp only [Value.rule, labelFields, Tok.rule]
      rw [labelQuoted_eq]
      simp only [Tok.text, Value.text, Value.readLabel]
      cases unquoted unq (joinLines t) <;> rfl
    | bare t =>
      simp only [Value.rule, labelFields, Tok.rule]
      rw [parseString_read]
      simp only [Tok.text, Value.text, Value.readLabel]
      cases read unq t <;> rfl
  generalize cs' ++ [Tok.node (v.rule .label_quoted_value .label_value) p2 p2' v.text ch'] = us
    at second ⊢
  generalize v.readLabel unq = rd at second ⊢
  cases n with
  | quoted t =>
    cases single <;>
    · simp only [Value.rule, if_true, Bool.false_eq_true, if_false, labelFields, Tok.rule]
      rw [labelQuoted_eq]
      simp only [Tok.text, Value.text, Value.readLabel]
      cases unquoted unq (joinLines t) with
      | error e => rfl
      | ok c =>
        show labelFields _ _ _ _ = _
        rw [second]
        rfl
  | bare t =>
    cases single <;>
    · simp only [Value.rule, if_true, Bool.false_eq_true, if_false, labelFields, Tok.rule]
      rw [parseString_read]
      simp only [Tok.text, Value.text, Value.readLabel]
      cases read unq t with
      | error e => rfl
      | ok c =>
        show labelFields _ _ _ _ = _
        rw [second]
        rfl

def LabelQ (unq : Unquote) (p : Nat) (f : Pair) (tok : Tok) : Prop :=
  tok.rule = .label_pair ∧ labelPairRecord unq tok = f.evalLabel unq p

theorem any_equals_none {q p s} (hs : Eol s) : Sem G.any_equals q p s none :=
  Verif.any_equals_none hs q p

theorem label_rule (unq : Unquote) : PairRule G.label_pair Pair.FitsLabel (LabelQ unq) where
  gap h := h.1
  run := by
    rintro f s ⟨hg, hn, hv⟩ p
    obtain ⟨ch, n1⟩ := nameValue_x (k := .compound) (k' := .compound) (by decide) (by decide)
      .label_quoted_name .label_name hn (p + blen f.gap)
    obtain ⟨ch', v1⟩ := value_x .label_quoted_value .label_value hv false
      (p + blen f.gap + blen f.name.text + 1)
    refine ⟨_, semX_rule.2 ⟨_, SemX.seq n1 (SemX.seq (x1 := ['=']) (t1 := [])
      (semX_str.2 ⟨rfl, rfl⟩) v1), rfl⟩, rfl, ?_⟩
    have hl : p + blen f.gap + blen f.name.text + 1 + blen f.value.text =
        p + blen f.gap + blen f.body := by
      rw [pair_body_len]; omega
    have := labelFields_pair (unq := unq) false (n := f.name) (v := f.value) (p1 := p + blen f.gap)
      (p1' := p + blen f.gap + blen f.name.text) (p2 := p + blen f.gap + blen f.name.text + 1)
      (p2' := p + blen f.gap + blen f.name.text + 1 + blen f.value.text) (ch := ch) (ch' := ch')
      Comments.nil Comments.nil
    simp only [List.nil_append, Bool.false_eq_true, if_false] at this
    simp only [labelPairRecord, Tok.children, List.cons_append, List.nil_append]
    rw [this]
    unfold Pair.evalLabel Pair.nameSpan Pair.valueSpan
    rw [← hl]
    cases f.name.readLabel unq with
    | error e => rfl
    | ok c =>
      cases f.value.readLabel unq with
      | error e => rfl
      | ok d =>
        simp only [ok_bind, pure_ok, require]
        show Except.ok _ = Except.ok _
        rfl
  none := by
    intro s hs p
    exact .rule_fail (.seq_fail1 (.alt_right (.rule_fail (string_none_atEnd hs _ _))
      (.rule_fail (any_equals_none hs))))
  inv := by
    intro p x s ts h g hg
    obtain ⟨_, h, -⟩ := semX_rule.1 h
    obtain ⟨x1, y, _, _, rfl, -, h1, h2⟩ := semX_seq.1 h
    obtain ⟨x2, x3, _, _, rfl, -, h3, h4⟩ := semX_seq.1 h2
    obtain ⟨rfl, -⟩ := semX_str.1 h3
    obtain ⟨n, rfl, hn⟩ := nameValue_inv h1
    obtain ⟨v, rfl, hv⟩ := value_inv h4
    exact ⟨⟨g, n, v⟩, rfl, rfl, hg, by simpa using hn, hv⟩

theorem labelList_pairs {unq : Unquote} {p ps ts} (h : PairToks (LabelQ unq) p ps ts) :
    labelList unq ts = evalPairs (Pair.evalLabel unq) p ps := by
  induction h with
  | last hc =>
    have := labelList_comments (unq := unq) (ts := []) hc
    rw [List.append_nil] at this
    rw [this]; rfl
  | cons hc hq _ ih =>
    rw [labelList_comments hc, labelList, hq.1]
    simp only [hq.2, ih]
    rfl

theorem label_single_none {ps : List Pair} {t r : Str}
    (h : PairsFit Pair.FitsLabel ps (t ++ r)) (ht : Space t r) (hr : Eol r) (p : Nat) :
    Sem G.label_single false p (pairsText ps ++ t ++ r) none := by
  refine .rule_fail ?_
  show Sem _ false _ _ _
  cases ps with
  | nil =>
    show Sem _ _ _ (t ++ r) _
    by_cases hne : t = []
    · subst hne; exact .seq_fail1 (arg_ws_none'.2 hr.not_starts)
    · refine (gap_seq_none ⟨hne, ht⟩).2 ?_
      exact .seq_fail1 (.alt_right (.rule_fail (string_none_atEnd hr _ _))
        (.rule_fail (any_equals_none hr)))
  | cons f fs =>
    obtain ⟨⟨hg, hn, hv⟩, -⟩ := h
    have e : pairsText (f :: fs) ++ t ++ r =
        f.gap ++ (f.name.text ++ ('=' :: (f.value.text ++ (pairsText fs ++ (t ++ r))))) := by
      simp [pairsText, Pair.text, Pair.body]
    rw [e]
    refine (gap_seq_none (by simpa [Pair.body] using hg)).2 ?_
    obtain ⟨ch, n1⟩ := nameValue_x (k := .normal) (k' := .normal) (by decide) (by decide)
      .label_single_quoted_name .label_single_name hn (p + blen f.gap)
    exact .seq_fail2 n1 (.seq_fail1 (argWs_equals _ _))

abbrev labelBody : PExpr := .alt G.label_single (G.plus (.seq G.arg_ws (.opt G.label_pair)))

theorem label_reads {kw : Str} {ps : List Pair} {t : Str} {s : Str}
    (h : (Item.label kw ps t).Fits s) : Reads (.label kw ps t) s := by
  intro unq p
  obtain ⟨h1, h2, h3, h4, h5⟩ := h
  obtain ⟨ts, k1, k2⟩ := pairs_x (label_rule unq) h2 h3 h5 (p + blen kw)
  have hrun := step_kw (k := (c!"label", .label, labelBody)) (by simp [kwRules]) h1
    (semX_alt.2 (.inr ⟨label_single_none h2 h3 h5 _,
      k1.plus_of_star (pairs_ne (label_rule unq) h4 h2)⟩))
  refine ⟨_, hrun, ⟨by simp [Tok.rule], by simp [Tok.rule]⟩, ?_⟩
  simp only [instructionOf, Tok.rule, labelRecord, Tok.children]
  rw [labelList_pairs k2]
  simp only [Item.eval]
  cases evalPairs (Pair.evalLabel unq) (p + blen kw) ps <;> rfl

theorem label1_reads {kw g : Str} {n : Value} {g' : Str} {v : Value} {s : Str}
    (h : (Item.label1 kw g n g' v).Fits s) : Reads (.label1 kw g n g' v) s := by
  intro unq p
  obtain ⟨h1, h2, h3, h4, h5⟩ := h
  obtain ⟨cs, k1, k2, -⟩ := gap_x h2 (p + blen kw)
  obtain ⟨ch, n1⟩ := nameValue_x (k := .normal) (k' := .normal) (by decide) (by decide)
      .label_single_quoted_name .label_single_name h3 (p + blen kw + blen g)
  have n1' : SemX (.alt G.label_single_quoted_name G.label_single_name) false (p + blen kw + blen g)
      n.text ((g' ++ v.text) ++ s) [.node (n.rule .label_single_quoted_name .label_single_name)
        (p + blen kw + blen g) (p + blen kw + blen g + blen n.text) n.text ch] := by
    rw [List.append_assoc]; exact n1
  obtain ⟨cs', k1', k2', -⟩ := gap_x h4 (p + blen kw + blen g + blen n.text)
  obtain ⟨ch', v1⟩ := value_x .label_quoted_value .label_value h5 false
    (p + blen kw + blen g + blen n.text + blen g')
  have hrun := step_kw (k := (c!"label", .label, labelBody)) (by simp [kwRules]) h1
    (semX_alt.2 (.inl (semX_rule.2 ⟨_, SemX.seq (x2 := n.text ++ (g' ++ v.text)) (s' := s)
      (show SemX _ false _ _ _ _ by simpa using k1) (SemX.seq (x2 := g' ++ v.text) n1'
        (SemX.seq k1' v1)), rfl⟩)))
  refine ⟨_, hrun, ⟨by simp [Tok.rule], by simp [Tok.rule]⟩, ?_⟩
  simp only [instructionOf, Tok.rule, labelRecord, Tok.children, emitToks, Bool.false_eq_true, if_false,
    labelList, labelPairRecord]
  have := labelFields_pair (unq := unq) true (n := n) (v := v) (p1 := p + blen kw + blen g)
      (p1' := p + blen kw + blen g + blen n.text) (p2 := p + blen kw + blen g + blen n.text + blen g')
      (p2' := p + blen kw + blen g + blen n.text + blen g' + blen v.text) (ch := ch) (ch' := ch')
      k2 k2'
  simp only [if_true] at this
  simp only [List.cons_append, List.nil_append]
  rw [this]
  simp only [Item.eval]
  cases n.readLabel unq with
  | error e => rfl
  | ok c =>
    cases v.readLabel unq with
    | error e => rfl
    | ok d =>
      simp only [ok_bind, pure_ok, require]
      have hl : p + blen kw + blen (g ++ (n.text ++ (g' ++ v.text))) =
        p + blen kw + blen g + blen n.text + blen g' + blen v.text := by
        simp only [blen_append]; omega
      simp only [Tok.span, hl]
      rfl

theorem label_inv {kw : Str} (hk : lower kw = c!"label") {p x s ts} (hs : Rest s)
    (h : SemX labelBody false p x s ts) : ∃ i : Item, i.text = kw ++ x ∧ i.Fits s := by
  rcases semX_alt.1 h with h | ⟨-, h⟩
  · obtain ⟨_, h, -⟩ := semX_rule.1 h
    obtain ⟨g, y, _, _, rfl, -, hg, h2⟩ := gap_seq h
    obtain ⟨x1, y, _, _, rfl, -, h3, h4⟩ := semX_seq.1 h2
    obtain ⟨g', y, _, _, rfl, -, hg', h5⟩ := gap_seq h4
    obtain ⟨n, rfl, hn⟩ := nameValue_inv h3
    obtain ⟨v, rfl, hv⟩ := value_inv h5
    exact ⟨.label1 kw g n g' v, rfl, hk, by simpa using hg, by simpa using hn, hg', hv⟩
  · obtain ⟨ps, t, rfl, h1, h2, h3⟩ := pairs_plus_inv (label_rule fun _ => .error .notEnoughChars) h
    exact ⟨.label kw ps t, rfl, hk, h1, h2, h3, h2.eol hs⟩

theorem label_none {p u} : Sem labelBody false p u none ↔ ¬ Begins c!"label" u := by
  have hb : Begins c!"label" u ↔ StartsSpace u := by
    unfold Begins
    rw [if_neg (by decide), if_neg (by decide), if_neg (by decide), if_pos (.inl rfl)]
  rw [hb]
  constructor
  · intro h; exact pairs_plus_none.1 (sem_alt_none.1 h).2
  · intro h
    exact .alt_right (.rule_fail (.seq_fail1 (arg_ws_none'.2 h))) (pairs_plus_none.2 h)

/-! ## ENV -/

def EnvQ (unq : Unquote) (p : Nat) (f : Pair) (tok : Tok) : Prop :=
  tok.rule = .env_pair ∧ envPairRecord unq tok = f.evalEnv unq p

theorem env_rule (unq : Unquote) : PairRule G.env_pair Pair.FitsEnv (EnvQ unq) where
  gap h := h.1
  run := by
    rintro f s ⟨hg, ⟨n, e, hn, ha⟩, hv⟩ p
    obtain ⟨ch', v1⟩ := value_x .env_pair_quoted_value .env_pair_value hv true
      (p + blen f.gap + blen n + 1)
    have n1 := envName_x hn ha (s := '=' :: f.value.text ++ s) equals_not_word true (p + blen f.gap)
    have e2 : f.body = n ++ '=' :: f.value.text := by rw [Pair.body, e]; rfl
    have e3 : f.name.text = n := by rw [e]; rfl
    rw [e2]
    refine ⟨_, semX_rule.2 ⟨_, SemX.seq n1 (SemX.seq (x1 := ['=']) (t1 := [])
      (semX_str.2 ⟨rfl, rfl⟩) v1), rfl⟩, rfl, ?_⟩
    have hl : p + blen f.gap + blen n + 1 + blen f.value.text =
        p + blen f.gap + blen f.body := by
      rw [pair_body_len, e3]; omega
    simp only [envPairRecord, Tok.children, List.cons_append, List.nil_append, envPairFields,
      Tok.rule]
    rw [parseString_reads (c := n) (reads_image (t := n) fun c hc => word_image (ha c hc))]
    simp only [ok_bind]
    unfold Pair.evalEnv Pair.nameSpan Pair.valueSpan
    rw [e3, ← e2, ← hl]
    cases f.value with
    | quoted t =>
      simp only [Value.rule, Tok.text, Value.readEnv, Value.text, unquoteR_eq]
      cases unquoted unq t <;> rfl
    | bare t => rfl
  none := by
    intro s hs p
    exact .rule_fail (.seq_fail1 (envName_none hs _ _))
  inv := by
    intro p x s ts h g hg
    obtain ⟨_, h, -⟩ := semX_rule.1 h
    obtain ⟨x1, y, _, _, rfl, -, h1, h2⟩ := semX_seq.1 h
    obtain ⟨x2, x3, _, _, rfl, -, h3, h4⟩ := semX_seq.1 h2
    obtain ⟨rfl, -⟩ := semX_str.1 h3
    obtain ⟨v, rfl, hv⟩ := value_inv h4
    obtain ⟨_, h5, -⟩ := semX_rule.1 h1
    obtain ⟨h6, h7, -⟩ := step_word.plus_x.1 h5
    exact ⟨⟨g, .bare x1, v⟩, rfl, rfl, hg, ⟨x1, rfl, h6,
      fun c hc => isWord_iff.1 ((runOf_class.1 h7).1 c hc)⟩, hv⟩

theorem envPairList_pairs {unq : Unquote} {p ps ts} (h : PairToks (EnvQ unq) p ps ts) :
    envPairList unq ts = evalPairs (Pair.evalEnv unq) p ps := by
  induction h with
  | last hc =>
    have := envPairList_comments (unq := unq) (ts := []) hc
    rw [List.append_nil] at this
    rw [this]; rfl
  | cons hc hq _ ih =>
    rw [envPairList_comments hc, envPairList, hq.1]
    simp only [hq.2, ih]
    rfl

theorem env_single_none {ps : List Pair} {t r : Str}
    (h : PairsFit Pair.FitsEnv ps (t ++ r)) (ht : Space t r) (hr : Eol r) (p : Nat) :
    Sem G.env_single false p (pairsText ps ++ t ++ r) none := by
  refine .rule_fail ?_
  show Sem _ false _ _ _
  cases ps with
  | nil =>
    show Sem _ _ _ (t ++ r) _
    by_cases hne : t = []
    · subst hne; exact .seq_fail1 (arg_ws_none'.2 hr.not_starts)
    · exact (gap_seq_none ⟨hne, ht⟩).2 (.seq_fail1 (envName_none hr _ _))
  | cons f fs =>
    obtain ⟨⟨hg, ⟨n, en, hn, ha⟩, hv⟩, -⟩ := h
    have e : pairsText (f :: fs) ++ t ++ r =
        f.gap ++ (n ++ ('=' :: (f.value.text ++ (pairsText fs ++ (t ++ r))))) := by
      simp [pairsText, Pair.text, Pair.body, en, Value.text]
    rw [e]
    refine (gap_seq_none (by simpa [Pair.body, en, Value.text] using hg)).2 ?_
    exact .seq_fail2 (envName_x hn ha equals_not_word false (p + blen f.gap))
      (.seq_fail1 (argWs_equals _ _))

abbrev envBody : PExpr := .alt G.env_single G.env_pairs

theorem env_reads {kw : Str} {ps : List Pair} {t : Str} {s : Str}
    (h : (Item.env kw ps t).Fits s) : Reads (.env kw ps t) s := by
  intro unq p
  obtain ⟨h1, h2, h3, h4, h5⟩ := h
  obtain ⟨ts, k1, k2⟩ := pairs_x (env_rule unq) h2 h3 h5 (p + blen kw)
  have hrun := step_kw (k := (c!"env", .env, envBody)) (by simp [kwRules]) h1
    (semX_alt.2 (.inr ⟨env_single_none h2 h3 h5 _, semX_rule.2 ⟨_,
      k1.plus_of_star (pairs_ne (env_rule unq) h4 h2), rfl⟩⟩))
  refine ⟨_, hrun, ⟨by simp [Tok.rule], by simp [Tok.rule]⟩, ?_⟩
  simp only [instructionOf, Tok.rule, envRecord, Tok.children, emitToks, Bool.false_eq_true, if_false]
  rw [envPairList_pairs k2]
  simp only [Item.eval]
  cases evalPairs (Pair.evalEnv unq) (p + blen kw) ps <;> rfl

/-- `ENV name value`, given how the value is read -/
theorem env_single_item {unq : Unquote} {kw g n g' x s : Str} (h1 : lower kw = c!"env")
    (h2 : Gap g (n ++ (g' ++ (x ++ s)))) (h3 : n ≠ []) (h4 : ∀ c ∈ n, IsWord c)
    (h5 : Gap g' (x ++ s)) (p : Nat) {vt : Tok} {b : Result BreakableString}
    (hv : SemX (.alt G.env_single_quoted_value G.env_single_value) false
      (p + blen kw + blen g + blen n + blen g') x s [vt])
    (hb : ∀ k, envSingleFields unq [vt] (some k) none = b.map fun b => (some k, some b)) :
    ∃ tok, SemX G.step false p (kw ++ (g ++ (n ++ (g' ++ x)))) s [tok] ∧ tok.rule = .env ∧
      instructionOf unq tok = b.map fun b => .env
        { span := ⟨p, p + blen (kw ++ (g ++ (n ++ (g' ++ x))))⟩
          vars := [{ span := ⟨p + blen kw + blen g, b.span.stop⟩
                     key := ⟨⟨p + blen kw + blen g, p + blen kw + blen g + blen n⟩, n⟩
                     value := b }] } := by
  obtain ⟨cs, k1, k2, -⟩ := gap_x h2 (p + blen kw)
  obtain ⟨cs', k1', k2', -⟩ := gap_x h5 (p + blen kw + blen g + blen n)
  have n1 := envName_x h3 h4 (s := g' ++ (x ++ s)) (h5.sep.not plain_word) false
    (p + blen kw + blen g)
  have hrun := step_kw (k := (c!"env", .env, envBody)) (by simp [kwRules]) h1
    (semX_alt.2 (.inl (semX_rule.2 ⟨_, SemX.seq (x2 := n ++ (g' ++ x)) (s' := s)
      (show SemX _ false _ _ _ _ by simpa using k1) (SemX.seq (x2 := g' ++ x) (show SemX _ false _ _ _ _ by simpa using n1)
        (SemX.seq k1' hv)), rfl⟩)))
  refine ⟨_, hrun, rfl, ?_⟩
  simp only [instructionOf, Tok.rule, envRecord, Tok.children, emitToks, Bool.false_eq_true, if_false]
  rw [envSingle_comments k2]
  simp only [List.cons_append, List.nil_append, envSingleFields, Tok.rule]
  rw [parseString_reads (c := n) (reads_image (t := n) fun c hc => word_image (h4 c hc))]
  simp only [ok_bind]
  rw [envSingle_comments k2', hb]
  cases b <;> rfl

theorem env1q_reads {kw g n g' v : Str} {s : Str}
    (h : (Item.env1q kw g n g' v).Fits s) : Reads (.env1q kw g n g' v) s := by
  intro unq p
  obtain ⟨h1, h2, h3, h4, h5, h6⟩ := h
  obtain ⟨ch, q1⟩ := quoted_x .env_single_quoted_value (s := s) h6 false
    (p + blen kw + blen g + blen n + blen g')
  obtain ⟨tok, k1, k2, k3⟩ := env_single_item (unq := unq) h1 h2 h3 h4 h5 p (semX_alt.2 (.inl q1))
    (b := (unquoted unq v).map fun c => ⟨⟨p + blen kw + blen g + blen n + blen g',
        p + blen kw + blen g + blen n + blen g' + blen v⟩,
      [.string ⟨⟨p + blen kw + blen g + blen n + blen g',
        p + blen kw + blen g + blen n + blen g' + blen v⟩, c⟩]⟩) (fun k => by
      simp only [envSingleFields, Tok.rule, unquoteR_eq, Tok.text]
      cases unquoted unq v <;> rfl)
  refine ⟨tok, k1, by rw [k2]; decide, ?_⟩
  rw [k3]
  simp only [Item.eval]
  cases unquoted unq v <;> rfl

theorem env1_reads {kw g n g' : Str} {t : Shell} {s : Str}
    (h : (Item.env1 kw g n g' t).Fits s) : Reads (.env1 kw g n g' t) s := by
  intro unq p
  obtain ⟨h1, h2, h3, h4, h5, h6, h7⟩ := h
  obtain ⟨ch, q1, q2⟩ := shell_x h6 .env_single_value (p + blen kw + blen g + blen n + blen g')
  obtain ⟨tok, k1, k2, k3⟩ := env_single_item (unq := unq) h1 h2 h3 h4 h5 p
    (semX_alt.2 (.inr ⟨.rule_fail (string_none'.2 h7), q1⟩))
    (b := .ok (t.string (p + blen kw + blen g + blen n + blen g'))) (fun k => by
      simp only [envSingleFields, Tok.rule, q2]
      rfl)
  refine ⟨tok, k1, by rw [k2]; decide, ?_⟩
  rw [k3]
  rfl

theorem env_inv {kw : Str} (hk : lower kw = c!"env") {p x s ts} (hs : Rest s)
    (h : SemX envBody false p x s ts) : ∃ i : Item, i.text = kw ++ x ∧ i.Fits s := by
  rcases semX_alt.1 h with h | ⟨-, h⟩
  · obtain ⟨_, h, -⟩ := semX_rule.1 h
    obtain ⟨g, y, _, _, rfl, -, hg, h2⟩ := gap_seq h
    obtain ⟨n, y, _, _, rfl, -, h3, h4⟩ := semX_seq.1 h2
    obtain ⟨g', y, _, _, rfl, -, hg', h5⟩ := gap_seq h4
    obtain ⟨_, h6, -⟩ := semX_rule.1 h3
    obtain ⟨n1, n2, -⟩ := step_word.plus_x.1 h6
    have n3 : ∀ c ∈ n, IsWord c := fun c hc => isWord_iff.1 ((runOf_class.1 n2).1 c hc)
    rcases semX_alt.1 h5 with h7 | ⟨h8, h7⟩
    · obtain ⟨_, h8, -⟩ := semX_rule.1 h7
      exact ⟨.env1q kw g n g' y, rfl, hk, by simpa using hg, n1, n3, hg', string_inv h8⟩
    · obtain ⟨t, rfl, ht⟩ := shell_inv (Rest.not_continuation hs) h7
      cases h8 with
      | rule_fail h8 =>
        exact ⟨.env1 kw g n g' t, rfl, hk, by simpa using hg, n1, n3, hg', ht, string_none'.1 h8⟩
  · obtain ⟨_, h, -⟩ := semX_rule.1 h
    obtain ⟨ps, t, rfl, h1, h2, h3⟩ := pairs_plus_inv (env_rule fun _ => .error .notEnoughChars) h
    exact ⟨.env kw ps t, rfl, hk, h1, h2, h3, h2.eol hs⟩

theorem env_none {p u} : Sem envBody false p u none ↔ ¬ Begins c!"env" u := by
  have hb : Begins c!"env" u ↔ StartsSpace u := by
    unfold Begins
    rw [if_neg (by decide), if_neg (by decide), if_neg (by decide), if_pos (.inr rfl)]
  rw [hb]
  constructor
  · intro h
    cases (sem_alt_none.1 h).2 with
    | rule_fail h => exact pairs_plus_none.1 h
  · intro h
    exact .alt_right (.rule_fail (.seq_fail1 (arg_ws_none'.2 h)))
      (.rule_fail (pairs_plus_none.2 h))

end Src
end Verif
