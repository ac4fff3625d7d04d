import Verif.Proof.Print2

/-! # Running the grammar and the record functions on written items: ENV, RUN, CMD, ENTRYPOINT and
unknown instructions -/

namespace Verif
open Spec

/-! ## shell text -/

theorem shell_head {s : Shell} (hs : s.StartsWithText) (h : s.OK) {r : Str}
    (ha : StartsArgument s.text) {g : Str} : AfterSpace g (s.text ++ r) := by
  obtain ⟨c, b, e, h1, h2, h3⟩ := ha
  have key : isBreak c = false ∧ (afterContinuation (c :: (b ++ r))).isNone = true := by
    cases s with
    | comment => exact hs.elim
    | last t =>
      obtain ⟨⟨o1, o2, o3⟩, o4⟩ := h
      have := lineOK_content (r := r) o2 (fun a w hw e => absurd e (o4 a w hw)) (a := []) e
      simpa using this
    | more t w n s =>
      obtain ⟨⟨o1, o2, o3⟩, -⟩ := h
      cases t with
      | nil => exact absurd rfl o1
      | cons d t =>
        simp only [Shell.text, List.cons_append, List.cons.injEq] at e
        obtain ⟨rfl, rfl⟩ := e
        have := lineOK_content (t := d :: t) (r := '\\' :: (w ++ (n ++ s.text)) ++ r) o2
          (fun a w hw e => by rw [List.cons_append, dropWhile_head (by decide)]; rfl) (a := []) rfl
        simpa using this
  rw [e]
  constructor
  · simp only [List.cons_append, startsArgWs, Bool.or_eq_false_iff]
    refine ⟨by simp [isBlank, h1, h2], ?_⟩
    have := key.2
    rw [Option.isNone_iff_eq_none] at this
    rw [this]; rfl
  · refine .inr fun d b' e' => ?_
    simp only [List.cons_append, List.cons.injEq] at e'
    rw [← e'.1]
    exact ⟨h3, key.1⟩

theorem shell_gap {s : Shell} (hs : s.StartsWithText) (h : s.OK) {r : Str}
    (ha : StartsArgument s.text) {g : Str} (hg : Gap g s.text) (p : Nat) :
    ∃ cs, SemX G.arg_ws false p g (s.text ++ r) cs ∧ Comments cs ∧ ('#' ∉ g → cs = []) :=
  arg_ws_x hg.1 hg.2.1 (shell_head hs h ha) p

/-! ## ENV -/

theorem envName_x {n s : Str} (h1 : n ≠ []) (h : ∀ c ∈ n, IsWord c)
    (hs : ∀ c b, s = c :: b → isWord c = false) (q : Bool) (p : Nat) :
    SemX G.env_name q p n s [.node .env_name p (p + blen n) n []] :=
  semX_rule.2 ⟨[], step_word.plus_x.2 ⟨h1, runOf_class.2
    ⟨fun c hc => isWord_iff.2 (h c hc), hs⟩, rfl⟩, rfl⟩

theorem envName_none {r : Str} (hr : AtEnd r) (q : Bool) (p : Nat) : Sem G.env_name q p r none := by
  refine .rule_fail (step_word.plus_none.2 fun c b e => ?_)
  rcases hr c b e with rfl | rfl <;> decide +kernel

theorem word_head {n : Str} (h1 : n ≠ []) (h : ∀ c ∈ n, IsWord c) :
    ∃ c r, n = c :: r ∧ plainChar c = true := by
  cases n with
  | nil => exact absurd rfl h1
  | cons c r => exact ⟨c, r, rfl, plain_word c (isWord_iff.2 (h c (by simp)))⟩

def EnvQ (unq : Unquote) (p : Nat) (f : PairText) (tok : Tok) : Prop :=
  tok.rule = .env_pair ∧ envPairRecord unq tok = .ok (f.envVar p)

theorem env_body_head {f : PairText} (h1 : f.name ≠ []) (h : ∀ c ∈ f.name, IsWord c) :
    ∃ c r, f.body = c :: r ∧ plainChar c = true := by
  obtain ⟨c, r, e, hc⟩ := word_head h1 h
  exact ⟨c, r ++ '=' :: f.value, by simp [PairText.body, e], hc⟩

theorem equals_not_word : ∀ {s : Str} (c : Char) (b : Str), '=' :: s = c :: b → isWord c = false := by
  intro s c b e
  simp only [List.cons.injEq] at e
  rw [← e.1]; decide +kernel

theorem env_run {unq : Unquote} {f : PairText} (h : f.EnvOK unq) :
    PairRun G.env_pair (EnvQ unq) f := by
  obtain ⟨hg, hn, ha, hc, hv⟩ := h
  refine ⟨hg.1, hg.2.1, fun s hs p => ⟨?_, ?_⟩⟩
  · obtain ⟨c, r, e, h1⟩ := env_body_head hn ha
    obtain ⟨cs, h1, h2, -⟩ := hg.x (s := s) e h1 p
    exact ⟨cs, h1, h2⟩
  · have hvt : ValueText f.value := hv.imp (·.1) (fun h => ⟨h.1, h.2.1⟩)
    obtain ⟨r, ch, v1, v2⟩ := value_x .env_pair_quoted_value .env_pair_value hvt hs true
      (p + blen f.gap + blen f.name + 1)
    have n1 := envName_x hn ha (s := '=' :: f.value ++ s) equals_not_word true (p + blen f.gap)
    refine ⟨_, semX_rule.2 ⟨_, SemX.seq n1 (SemX.seq (x1 := ['=']) (t1 := [])
      (semX_str.2 ⟨rfl, rfl⟩) v1), rfl⟩, rfl, ?_⟩
    have hl : p + blen f.gap + blen f.name + 1 + blen f.value = p + blen f.gap + blen f.body := by
      rw [pair_body_len]; omega
    simp only [envPairRecord, Tok.children, List.cons_append, List.nil_append, envPairFields,
      Tok.rule]
    rw [parseString_reads (c := f.name) (reads_image (t := f.name) fun c hc => word_image (ha c hc))]
    simp only [ok_bind]
    unfold PairText.envVar PairText.nameAt PairText.valueSpan
    rw [hc, ← hl]
    rcases v2 with ⟨rfl, hq⟩ | ⟨rfl, hw, hq⟩
    · rcases hv with ⟨-, hu⟩ | ⟨-, hq', -⟩
      · simp only [Tok.text, unquoteR, hu]
        rfl
      · obtain ⟨q, b, e, h | h, -⟩ := hq
        · exact absurd (by rw [e, h]) (hq' (b ++ [q])).1
        · exact absurd (by rw [e, h]) (hq' (b ++ [q])).2
    · rcases hv with ⟨⟨q, b, e, h | h, -⟩, -⟩ | ⟨-, -, hu⟩
      · exact absurd (by rw [e, h]) (hq (b ++ [q])).1
      · exact absurd (by rw [e, h]) (hq (b ++ [q])).2
      · rw [hu]
        rfl

theorem envPairList_comments {unq : Unquote} {cs ts : List Tok} (h : Comments cs) :
    envPairList unq (cs ++ ts) = envPairList unq ts := by
  induction cs with
  | nil => rfl
  | cons c cs ih =>
    rw [List.cons_append, envPairList, h c (by simp)]
    exact ih fun t ht => h t (by simp [ht])

theorem envPairList_pairs {unq : Unquote} {p ps ts} (h : PairToks (EnvQ unq) p ps ts) :
    envPairList unq ts = .ok (envVarsAt p ps) := by
  induction h with
  | nil => rfl
  | cons hc hq _ ih =>
    rw [envPairList_comments hc, envPairList, hq.1]
    simp only [hq.2, ok_bind, ih]
    rfl

theorem env_single_none {unq : Unquote} {ps : List PairText} {t r : Str}
    (h : ∀ f ∈ ps, f.EnvOK unq) (ht : Blanks t) (hr : AtEnd r) (p : Nat) :
    Sem G.env_single false p (pairsText ps ++ t ++ r) none := by
  refine .rule_fail ?_
  show Sem _ false _ _ _
  cases ps with
  | nil =>
    exact rest_fail (fun p r hr => .seq_fail1 (envName_none hr _ _)) ⟨t, r, rfl, ht, hr⟩ p
  | cons f fs =>
    obtain ⟨hg, hn, ha, -⟩ := h f (by simp)
    have e : pairsText (f :: fs) ++ t ++ r =
        f.gap ++ (f.name ++ ('=' :: (f.value ++ (pairsText fs ++ t ++ r)))) := by
      simp [pairsText, PairText.text, PairText.body]
    obtain ⟨c, b, e', h1⟩ := env_body_head hn ha
    obtain ⟨cs, h1, -, -⟩ := hg.x (s := pairsText fs ++ t ++ r) e' h1 p
    have n1 := envName_x hn ha (s := '=' :: (f.value ++ (pairsText fs ++ t ++ r)))
      equals_not_word false (p + blen f.gap)
    rw [e]
    refine .seq_fail2 (by simpa [PairText.body, SemX] using h1) (.seq_fail2 n1 (.seq_fail1 ?_))
    exact argWs_equals _ _ _

theorem item_env {unq : Unquote} {kw : Str} {ps : List PairText} {t : Str}
    (h : (Item.env kw ps t).OK unq) {s : Str} (hs : AtEnd s) (p : Nat) :
    ∃ tok ins, SemX G.step false p (Item.env kw ps t).text s [tok] ∧
      (Item.env kw ps t).instr p = some ins ∧ tok.rule = .env ∧
      instructionOf unq tok = .ok ins := by
  obtain ⟨h1, h2, h3, h4⟩ := h
  obtain ⟨ts, k1, k2⟩ := pairs_x (fun f hf => env_run (h2 f hf)) (fun p r hr =>
    .rule_fail (.seq_fail1 (envName_none hr _ _))) h3 hs (p + blen kw)
  have hrun := step_kw (k := (c!"env", .env, .alt G.env_single G.env_pairs)) (by simp [kwRules]) h1
    (semX_alt.2 (.inr ⟨env_single_none h2 h3 hs _, semX_rule.2 ⟨_,
      k1.plus_of_star (pairs_ne h4 fun f hf => (h2 f hf).1.2.1), rfl⟩⟩))
  refine ⟨_, _, hrun, rfl, rfl, ?_⟩
  simp only [instructionOf, Tok.rule, envRecord, Tok.children, emitToks, Bool.false_eq_true, if_false]
  rw [envPairList_pairs k2]
  rfl

theorem envSingle_comments {unq : Unquote} {cs ts : List Tok} (h : Comments cs) (k v) :
    envSingleFields unq (cs ++ ts) k v = envSingleFields unq ts k v := by
  induction cs with
  | nil => rfl
  | cons c cs ih =>
    rw [List.cons_append, envSingleFields, h c (by simp)]
    exact ih fun t ht => h t (by simp [ht])

/-- `ENV name value`, given how the value is read -/
theorem env_single_item {unq : Unquote} {kw g n g' x s : Str} (h1 : lower kw = c!"env")
    (h2 : Gap g n) (h3 : n ≠ []) (h4 : ∀ c ∈ n, IsWord c) (hsp : Space g' ∧ g' ≠ []) (p : Nat)
    (hg' : ∀ p, ∃ cs, SemX G.arg_ws false p g' (x ++ s) cs ∧ Comments cs)
    {vt : Tok} {b : BreakableString}
    (hv : SemX (.alt G.env_single_quoted_value G.env_single_value) false
      (p + blen kw + blen g + blen n + blen g') x s [vt])
    (hb : ∀ k, envSingleFields unq [vt] (some k) none = .ok (some k, some b)) :
    ∃ tok, SemX G.step false p (kw ++ (g ++ (n ++ (g' ++ x)))) s [tok] ∧ tok.rule = .env ∧
      instructionOf unq tok = .ok (.env
        { span := ⟨p, p + blen (kw ++ (g ++ (n ++ (g' ++ x))))⟩
          vars := [{ span := ⟨p + blen kw + blen g, b.span.stop⟩
                     key := ⟨⟨p + blen kw + blen g, p + blen kw + blen g + blen n⟩, n⟩
                     value := b }] }) := by
  obtain ⟨c, r, e, hc⟩ := word_head h3 h4
  obtain ⟨cs, k1, k2, -⟩ := h2.x (s := g' ++ (x ++ s)) e hc (p + blen kw)
  obtain ⟨cs', k3, k4⟩ := hg' (p + blen kw + blen g + blen n)
  have n1 := envName_x h3 h4 (s := g' ++ (x ++ s))
    ((EndsWord.space hsp.1 hsp.2).sep.not plain_word) false (p + blen kw + blen g)
  have hs1 : SemX G.env_single false (p + blen kw) (g ++ (n ++ (g' ++ x))) s _ :=
    semX_rule.2 ⟨_, SemX.seq (by simp only [List.append_assoc]; exact k1)
      (SemX.seq (by simp only [List.append_assoc]; exact n1) (SemX.seq k3 hv)), rfl⟩
  have hrun := step_kw (k := (c!"env", .env, .alt G.env_single G.env_pairs)) (by simp [kwRules]) h1
    (semX_alt.2 (.inl hs1))
  refine ⟨_, hrun, rfl, ?_⟩
  simp only [instructionOf, Tok.rule, envRecord, Tok.children, emitToks, Bool.false_eq_true, if_false]
  rw [envSingle_comments k2]
  simp only [List.cons_append, List.nil_append]
  rw [envSingleFields]
  simp only [Tok.rule]
  rw [parseString_reads (c := n) (reads_image (t := n) fun c hc => word_image (h4 c hc))]
  simp only [ok_bind]
  rw [envSingle_comments k4, hb]
  rfl

theorem item_env1 {unq : Unquote} {kw g n g' : Str} {a : Shell}
    (h : (Item.env1 kw g n g' a).OK unq) {s : Str} (hs : AtEnd s) (p : Nat) :
    ∃ tok ins, SemX G.step false p (Item.env1 kw g n g' a).text s [tok] ∧
      (Item.env1 kw g n g' a).instr p = some ins ∧ tok.rule = .env ∧
      instructionOf unq tok = .ok ins := by
  obtain ⟨h1, h2, h3, h4, h5, h6, h7, h8, h9⟩ := h
  obtain ⟨ch, v1, v2⟩ := shell_x h6 hs .env_single_value (p + blen kw + blen g + blen n + blen g')
  have hne : a.text ≠ [] := by obtain ⟨c, r, e, -⟩ := h8; simp [e]
  obtain ⟨tok, t1, t2, t3⟩ := env_single_item (unq := unq) (s := s) h1 h2 h3 h4 ⟨h5.1, h5.2.1⟩ p
    (fun p => (shell_gap h7 h6 h8 h5 p).imp fun cs h => ⟨h.1, h.2.1⟩)
    (semX_alt.2 (.inr ⟨.rule_fail (string_none (noquote_append hne h9)), v1⟩))
    (b := a.string (p + blen kw + blen g + blen n + blen g')) (fun k => by
      simp only [envSingleFields, Tok.rule, v2]; rfl)
  exact ⟨tok, _, t1, rfl, t2, t3⟩

theorem item_env1q {unq : Unquote} {kw g n g' v c : Str}
    (h : (Item.env1q kw g n g' v c).OK unq) {s : Str} (_ : Rest s) (p : Nat) :
    ∃ tok ins, SemX G.step false p (Item.env1q kw g n g' v c).text s [tok] ∧
      (Item.env1q kw g n g' v c).instr p = some ins ∧ tok.rule = .env ∧
      instructionOf unq tok = .ok ins := by
  obtain ⟨h1, h2, h3, h4, h5, h6, h7⟩ := h
  obtain ⟨ch, v1⟩ := quoted_x .env_single_quoted_value (s := s) h6 false
    (p + blen kw + blen g + blen n + blen g')
  obtain ⟨tok, t1, t2, t3⟩ := env_single_item (unq := unq) (s := s) h1 h2 h3 h4 ⟨h5.1, h5.2.1⟩ p
    (fun p => (h5.quoted (s := s) h6 p).imp fun cs h => ⟨h.1, h.2.1⟩)
    (semX_alt.2 (.inl v1)) (b := breakableOf (.node .env_single_quoted_value _ _ v ch) c) (fun k => by
      simp only [envSingleFields, Tok.rule, Tok.text, unquoteR, h7]; rfl)
  exact ⟨tok, _, t1, rfl, t2, t3⟩

/-! ## RUN, CMD, ENTRYPOINT -/

def execRule : ExecKind → Rule × Rule × Rule
  | .run => (.run, .run_exec, .run_shell)
  | .cmd => (.cmd, .cmd_exec, .cmd_shell)
  | .entrypoint => (.entrypoint, .entrypoint_exec, .entrypoint_shell)

theorem step_exec (k : ExecKind) {kw g x s : Str} {p : Nat} (h : lower kw = k.keyword)
    (hg : SemX G.arg_ws false (p + blen kw) g (x ++ s) []) {tok : Tok}
    (hx : SemX (.alt (G.nrm (execRule k).2.1 G.string_array)
      (G.atm (execRule k).2.2 G.any_breakable)) false (p + blen kw + blen g) x s [tok]) :
    SemX G.step false p (kw ++ (g ++ x)) s
      [.node (execRule k).1 p (p + blen (kw ++ (g ++ x))) (kw ++ (g ++ x)) [tok]] := by
  have := SemX.seq hg hx
  cases k
  · exact step_kw (k := (c!"run", .run, .seq G.arg_ws (.alt G.run_exec G.run_shell)))
      (by simp [kwRules]) h this
  · exact step_kw (k := (c!"cmd", .cmd, .seq G.arg_ws (.alt G.cmd_exec G.cmd_shell)))
      (by simp [kwRules]) h this
  · exact step_kw (k := (c!"entrypoint", .entrypoint,
      .seq G.arg_ws (.alt G.entrypoint_exec G.entrypoint_shell))) (by simp [kwRules]) h this

theorem instr_exec (k : ExecKind) (unq : Unquote) (p p' : Nat) (x : Str) (ch : List Tok) :
    instructionOf unq (.node (execRule k).1 p p' x ch) =
      (execRecord unq (execRule k).2.1 (execRule k).2.2 (.node (execRule k).1 p p' x ch)).map
        k.instr := by
  cases k <;>
  · simp only [instructionOf, execRule, Tok.rule]
    cases execRecord unq _ _ _ <;> rfl

theorem not_array {s : Shell} (hn : NotArray s.text) {r : Str} (hr : AtEnd r) (p : Nat) :
    Sem G.string_array false p (s.text ++ r) none := by
  generalize s.text = t at hn
  have hfail : ∀ e1 e2 : PExpr,
      (∀ p u, (∀ c b, u = c :: b → c ≠ '"' ∧ c ≠ '\'' ∧ c ≠ ']') → Sem e1 false p u none) →
      Sem (.seq (.str ['[']) (.seq G.arg_ws_maybe e1)) false p (t ++ r) none := by
    intro e1 _ he
    by_cases hb : ∃ u, t = '[' :: u
    · obtain ⟨u, rfl⟩ := hb
      have h1 : SemX (.str ['[']) false p ['['] (u ++ r) [] := semX_str.2 ⟨rfl, rfl⟩
      refine .seq_fail2 h1 ?_
      -- blanks
      obtain ⟨w, v, hw, rfl, hv⟩ : ∃ w v, Blanks w ∧ u = w ++ v ∧
          ∀ c b, v = c :: b → isBlank c = false := by
        refine ⟨u.takeWhile isBlank, u.dropWhile isBlank, ?_, (List.takeWhile_append_dropWhile).symm, ?_⟩
        · intro c hc
          exact isBlank_iff.1 (List.all_eq_true.1 (List.all_takeWhile) c hc)
        · intro c b e
          have := List.head?_dropWhile_not isBlank u
          rw [e] at this
          simpa using this
      have hv' : startsArgWs (v ++ r) = false ∧
          ∀ c b, v ++ r = c :: b → c ≠ '"' ∧ c ≠ '\'' ∧ c ≠ ']' := by
        cases v with
        | nil =>
          refine ⟨hr.startsArgWs, fun c b e => ?_⟩
          rcases hr c b e with rfl | rfl <;> decide
        | cons c v =>
          have hc := hv c v rfl
          have h2 : c ≠ '"' ∧ c ≠ '\'' ∧ c ≠ ']' ∧ c ≠ '\\' := by
            rcases hn w c v hw rfl with h | h | h
            · rw [h] at hc; cases hc
            · rw [h] at hc; cases hc
            · exact h
          refine ⟨?_, fun d b e => ?_⟩
          · simp only [List.cons_append, startsArgWs, hc, Bool.false_or]
            cases hx : afterContinuation (c :: (v ++ r)) with
            | none => rfl
            | some y => exact absurd (afterContinuation_some hx) h2.2.2.2
          · simp only [List.cons_append, List.cons.injEq] at e
            rw [← e.1]; exact ⟨h2.1, h2.2.1, h2.2.2.1⟩
      obtain ⟨cs, h3, -, -⟩ := arg_ws_maybe_x (space_of_blanks hw) (s' := v ++ r)
        ⟨hv'.1, .inl hw⟩ (p + blen ['['])
      rw [List.append_assoc]
      exact .seq_fail2 h3 (he _ _ hv'.2)
    · refine .seq_fail1 ((lex_str1 '[').none_iff.2 ?_)
      cases t with
      | nil =>
        cases r with
        | nil => rfl
        | cons c b => rcases hr c b rfl with rfl | rfl <;> rfl
      | cons c b =>
        have : c ≠ '[' := fun e => hb ⟨b, by rw [e]⟩
        rw [List.cons_append, charFn, beq_false_of_ne this]; rfl
  refine .alt_right (hfail _ .any ?_) (hfail _ .any ?_)
  · intro p u hu
    exact .seq_fail1 (string_none fun b => ⟨fun e => (hu _ _ e).1 rfl, fun e => (hu _ _ e).2.1 rfl⟩)
  · intro p u hu
    refine (lex_str1 ']').none_iff.2 ?_
    cases u with
    | nil => rfl
    | cons c b => rw [charFn, beq_false_of_ne (hu c b rfl).2.2]; rfl

theorem item_shell {unq : Unquote} {k : ExecKind} {kw g : Str} {a : Shell}
    (h : (Item.shell k kw g a).OK unq) {s : Str} (hs : AtEnd s) (p : Nat) :
    ∃ tok ins, SemX G.step false p (Item.shell k kw g a).text s [tok] ∧
      (Item.shell k kw g a).instr p = some ins ∧ tok.rule = (execRule k).1 ∧
      instructionOf unq tok = .ok ins := by
  obtain ⟨h1, h2, h3, h4, h5, h6, h7⟩ := h
  obtain ⟨ch, v1, v2⟩ := shell_x h4 hs (execRule k).2.2 (p + blen kw + blen g)
  obtain ⟨cs, k1, -, k2⟩ := shell_gap h5 h4 h6 h2 (p + blen kw)
  rw [k2 h3] at k1
  have hrun := step_exec k h1 k1 (semX_alt.2 (.inr ⟨.rule_fail (not_array h7 hs _), v1⟩))
  refine ⟨_, _, hrun, rfl, rfl, ?_⟩
  rw [instr_exec]
  have hne : (execRule k).2.2 ≠ (execRule k).2.1 := by cases k <;> decide
  simp only [execRecord, Tok.children, Tok.rule, if_neg hne, if_true]
  rw [v2]
  rfl

/-! ## arrays -/

inductive ElemToks (unq : Unquote) : List SpannedString → List Tok → Prop
  | nil {cs} : Comments cs → ElemToks unq [] cs
  | cons {cs p p' v ch c es ts} : Comments cs → QuotedText v → unq v = .ok c → ElemToks unq es ts →
      ElemToks unq (⟨⟨p, p'⟩, c⟩ :: es) (cs ++ .node .string p p' v ch :: ts)

theorem elems_ok {unq : Unquote} {es ts} (h : ElemToks unq es ts) :
    stringArrayElems unq ts = .ok es := by
  have skip : ∀ {cs ts : List Tok}, Comments cs →
      stringArrayElems unq (cs ++ ts) = stringArrayElems unq ts := by
    intro cs ts h
    induction cs with
    | nil => rfl
    | cons c cs ih =>
      rw [List.cons_append, stringArrayElems, h c (by simp)]
      exact ih fun t ht => h t (by simp [ht])
  induction h with
  | @nil cs h =>
    have := skip (ts := []) h
    rw [List.append_nil] at this
    rw [this]; rfl
  | cons hc hq hu _ ih =>
    rw [skip hc, stringArrayElems]
    simp only [Tok.rule]
    rw [parseString_reads (t := .node ..) (.inl ⟨quoted_starts hq, hu⟩)]
    simp only [ok_bind, ih]
    rfl

theorem after_char {g s : Str} {c : Char} (hc : plainChar c = true) (hh : c ≠ '#') :
    AfterSpace g (c :: s) := by
  simp only [plainChar, Bool.not_eq_true', Bool.or_eq_false_iff, beq_eq_false_iff_ne] at hc
  constructor
  · simp only [startsArgWs, hc.1.1, Bool.false_or]
    cases hx : afterContinuation (c :: s) with
    | none => rfl
    | some r => exact absurd (afterContinuation_some hx) hc.2
  · refine .inr fun d b e => ?_
    simp only [List.cons.injEq] at e
    rw [← e.1]
    exact ⟨hh, hc.1.2⟩

theorem space_head {g s : Str} (hg : Space g) {c d : Char} {b : Str} (e : g ++ c :: s = d :: b) :
    d = ' ' ∨ d = '\t' ∨ d = '\\' ∨ d = c := by
  cases hg with
  | nil =>
    simp only [List.nil_append, List.cons.injEq] at e
    exact .inr (.inr (.inr e.1.symm))
  | blank h _ =>
    simp only [List.cons_append, List.cons.injEq] at e
    rw [← e.1]
    rcases h with h | h
    · exact .inl h
    · exact .inr (.inl h)
  | continuation _ _ _ _ =>
    simp only [List.cons_append, List.cons.injEq] at e
    exact .inr (.inr (.inl e.1.symm))

/-- what follows the elements of an array -/
def tailText (comma : Bool) (g : Str) : Str := (if comma then [','] else []) ++ (g ++ [']'])

def elemE : PExpr := .seq G.arg_ws_maybe (.seq (.str [',']) (.seq G.arg_ws_maybe G.string))

theorem string_none_char {c : Char} (h1 : c ≠ '"') (h2 : c ≠ '\'') (q p) (s : Str) :
    Sem G.string q p (c :: s) none :=
  string_none fun r => ⟨fun e => h1 (by simpa using (List.cons.inj e).1),
    fun e => h2 (by simpa using (List.cons.inj e).1)⟩

theorem elem_none {comma : Bool} {g : Str} (hg : Space g) (s : Str) (p : Nat) :
    Sem elemE false p (tailText comma g ++ s) none := by
  have hend : ∀ p, ∃ cs, SemX G.arg_ws_maybe false p g (']' :: s) cs := fun p =>
    (arg_ws_maybe_x hg (s' := ']' :: s) (after_char (by decide) (by decide)) p).imp fun _ h => h.1
  cases comma with
  | false =>
    obtain ⟨cs, h⟩ := hend p
    have : tailText false g ++ s = g ++ ']' :: s := by simp [tailText]
    rw [this]
    exact .seq_fail2 h (.seq_fail1 ((lex_str1 ',').none_iff.2 rfl))
  | true =>
    obtain ⟨cs0, h0, -⟩ := arg_ws_maybe_x .nil (s' := ',' :: (g ++ ']' :: s))
      (after_char (by decide) (by decide)) p
    obtain ⟨cs, h⟩ := hend (p + blen [] + blen [','])
    have : tailText true g ++ s = [] ++ ([','] ++ (g ++ ']' :: s)) := by simp [tailText]
    rw [this]
    refine .seq_fail2 h0 (.seq_fail2 (p1 := p + blen [] + blen [',']) (s1 := g ++ ']' :: s)
      (t1 := []) (semX_str.2 ⟨rfl, rfl⟩ : SemX _ _ _ _ _ _) (.seq_fail2 h ?_))
    exact string_none_char (by decide) (by decide) _ _ _

theorem elem_x {unq : Unquote} {e : ElemText} (h : e.OK unq) (s : Str) (p : Nat) :
    ∃ cs ch, SemX elemE false p e.text s (cs ++ [.node .string
        (p + blen e.before + 1 + blen e.after)
        (p + blen e.before + 1 + blen e.after + blen e.value) e.value ch]) ∧ Comments cs := by
  obtain ⟨h1, h2, h3, h4⟩ := h
  obtain ⟨cs, k1, k2, -⟩ := arg_ws_maybe_x h1 (s' := ',' :: (e.after ++ e.value ++ s))
    (after_char (by decide) (by decide)) p
  obtain ⟨cs', k3, k4, -⟩ := arg_ws_maybe_x h2 (s' := e.value ++ s) (quoted_after h3)
    (p + blen e.before + blen [','])
  obtain ⟨ch, k5⟩ := string_x h3 false (p + blen e.before + blen [','] + blen e.after) s
  refine ⟨cs ++ cs', ch, ?_, k2.append k4⟩
  rw [List.append_assoc]
  exact SemX.seq (x2 := ',' :: (e.after ++ e.value)) k1 (SemX.seq (x1 := [',']) (t1 := [])
    (semX_str.2 ⟨rfl, rfl⟩) (SemX.seq k3 k5))

theorem ElemToks.comments {unq : Unquote} {es ts cs} (hc : Comments cs) (h : ElemToks unq es ts) :
    ElemToks unq es (cs ++ ts) := by
  cases h with
  | nil h => exact .nil (hc.append h)
  | cons h1 h2 h3 h4 =>
    rw [← List.append_assoc]
    exact .cons (hc.append h1) h2 h3 h4

theorem elems_x {unq : Unquote} {es : List ElemText} (h : ∀ e ∈ es, e.OK unq) {comma : Bool}
    {g : Str} (hg : Space g) (s : Str) (p : Nat) :
    ∃ ts, SemX (.star elemE) false p (elemsText es) (tailText comma g ++ s) ts ∧
      ∀ cs, Comments cs → ElemToks unq (elemsAt p es) (ts ++ cs) := by
  induction es generalizing p with
  | nil => exact ⟨[], .star_nil (elem_none hg s p), fun cs hc => .nil hc⟩
  | cons e es ih =>
    obtain ⟨ts, h1, h2⟩ := ih (fun e he => h e (by simp [he])) (p + blen e.text)
    have he := h e (by simp)
    obtain ⟨cs, ch, h3, h4⟩ := elem_x he (elemsText es ++ (tailText comma g ++ s)) p
    refine ⟨_, SemX.star_cons h3 h1, fun ds hd => ?_⟩
    rw [List.append_assoc, List.append_assoc]
    exact .cons h4 he.2.2.1 he.2.2.2 (h2 ds hd)

theorem array_x {unq : Unquote} {a : ArrayText} (h : a.OK unq) (s : Str) (p : Nat) :
    ∃ ts, SemX G.string_array false p a.text s ts ∧
      stringArrayElems unq ts = .ok (a.elements p) := by
  have hb : ∀ s, SemX (.str ['[']) false p ['['] s [] := fun _ => semX_str.2 ⟨rfl, rfl⟩
  cases a with
  | empty g =>
    have hg : Space g := h
    obtain ⟨cs, h1, h2, -⟩ := arg_ws_maybe_x hg (s' := ']' :: s)
      (after_char (by decide) (by decide)) (p + blen ['['])
    refine ⟨[] ++ (cs ++ []), semX_alt.2 (.inr ⟨?_, ?_⟩), ?_⟩
    · have e : (ArrayText.empty g).text ++ s = ['['] ++ (g ++ ']' :: s) := by simp [ArrayText.text]
      rw [e]
      exact .seq_fail2 (hb _) (.seq_fail2 h1 (.seq_fail1
        (string_none_char (by decide) (by decide) _ _ _)))
    · exact SemX.seq (x1 := ['[']) (x2 := g ++ [']']) (hb _) (SemX.seq (x2 := [']']) h1
        (semX_str.2 ⟨rfl, rfl⟩))
    · rw [List.nil_append, List.append_nil]
      exact elems_ok (.nil h2)
  | full g v c es comma g' =>
    obtain ⟨o1, o2, o3, o4, o5⟩ := h
    obtain ⟨cs, h1, h2, -⟩ := arg_ws_maybe_x o1
      (s' := v ++ (elemsText es ++ (tailText comma g' ++ s))) (quoted_after o2) (p + blen ['['])
    obtain ⟨ch, h3⟩ := string_x o2 false (p + blen ['['] + blen g)
      (elemsText es ++ (tailText comma g' ++ s))
    obtain ⟨ts, h4, h5⟩ := elems_x o4 (comma := comma) o5 s (p + blen ['['] + blen g + blen v)
    have htail : ∀ p, ∃ ds, SemX (.seq (.opt (.str [','])) (.seq G.arg_ws_maybe (.str [']']))) false
        p (tailText comma g') s ds ∧ Comments ds := by
      intro p
      obtain ⟨ds, k1, k2, -⟩ := arg_ws_maybe_x o5 (s' := ']' :: s)
        (after_char (by decide) (by decide)) (p + blen (if comma then [','] else []))
      have k3 := SemX.seq (x2 := [']']) (t2 := []) k1 (semX_str.2 ⟨rfl, rfl⟩)
      rw [List.append_nil] at k3
      refine ⟨[] ++ ds, SemX.seq ?_ k3, by simpa using k2⟩
      cases comma with
      | true => exact semX_opt.2 (.inl (semX_str.2 ⟨rfl, rfl⟩))
      | false =>
        refine semX_opt.2 (.inr ⟨rfl, rfl, (lex_str1 ',').none_iff.2 ?_⟩)
        have e : g' ++ [']'] ++ s = g' ++ ']' :: s := by simp
        rw [e]
        cases hx : g' ++ ']' :: s with
        | nil => rfl
        | cons d b => rcases space_head o5 hx with rfl | rfl | rfl | rfl <;> rfl
    obtain ⟨ds, h6, h7⟩ := htail (p + blen ['['] + blen g + blen v + blen (elemsText es))
    refine ⟨cs ++ .node .string (p + 1 + blen g) (p + 1 + blen g + blen v) v ch :: (ts ++ ds),
      semX_alt.2 (.inl ?_), elems_ok (unq := unq) ?_⟩
    rotate_left
    · have h8 := ElemToks.cons (p := p + 1 + blen g) (p' := p + 1 + blen g + blen v) (ch := ch)
        h2 o2 o3 (h5 ds h7)
      exact h8
    · have h9 := SemX.seq (hb _) (SemX.seq (by simp only [List.append_assoc]; exact h1)
        (SemX.seq (by simp only [List.append_assoc]; exact h3) (SemX.seq h4 h6)))
      simp only [List.cons_append, List.nil_append] at h9
      exact h9

theorem array_head (a : ArrayText) : ∃ r, a.text = '[' :: r := by
  cases a with
  | empty g => exact ⟨_, rfl⟩
  | full => exact ⟨_, rfl⟩

theorem item_exec {unq : Unquote} {k : ExecKind} {kw g : Str} {a : ArrayText}
    (h : (Item.exec k kw g a).OK unq) {s : Str} (_ : Rest s) (p : Nat) :
    ∃ tok ins, SemX G.step false p (Item.exec k kw g a).text s [tok] ∧
      (Item.exec k kw g a).instr p = some ins ∧ tok.rule = (execRule k).1 ∧
      instructionOf unq tok = .ok ins := by
  obtain ⟨h1, h2, h3, h4⟩ := h
  obtain ⟨ts, v1, v2⟩ := array_x h4 s (p + blen kw + blen g)
  obtain ⟨r, e⟩ := array_head a
  obtain ⟨cs, k1, -, k2⟩ := h2.x (s := s) e (by decide) (p + blen kw)
  rw [k2 h3] at k1
  have hrun := step_exec k h1 k1 (semX_alt.2 (.inl (semX_rule.2 ⟨ts, v1, rfl⟩)))
  refine ⟨_, _, hrun, rfl, rfl, ?_⟩
  rw [instr_exec]
  simp only [execRecord, Tok.children, Tok.rule, if_true, parseStringArray]
  rw [v2]
  rfl

/-! ## unknown instructions -/

theorem kw_body_letter {k : Str × Rule × PExpr} (hk : k ∈ kwRules) {c : Char}
    (hc : isAlpha c = true) (q : Bool) (p : Nat) (b : Str) : Sem k.2.2 q p (c :: b) none := by
  have hw : ∀ q p, Sem G.arg_ws q p (c :: b) none := fun q p => by
    refine arg_ws_none.2 ?_
    have := plain_alpha c hc
    simp only [plainChar, Bool.not_eq_true', Bool.or_eq_false_iff, beq_eq_false_iff_ne] at this
    simp only [startsArgWs, this.1.1, Bool.false_or]
    cases hx : afterContinuation (c :: b) with
    | none => rfl
    | some r => exact absurd (afterContinuation_some hx) this.2
  simp only [kwRules, List.mem_cons, List.not_mem_nil, or_false] at hk
  rcases hk with rfl | rfl | rfl | rfl | rfl | rfl | rfl | rfl
  · exact .seq_fail2 (.star_nil (.seq_fail1 (hw _ _))) (.seq_fail1 (hw _ _))
  · exact .seq_fail1 (hw _ _)
  · exact .seq_fail1 (hw _ _)
  · exact .alt_right (.rule_fail (.seq_fail1 (hw _ _))) (.seq_fail1 (.seq_fail1 (hw _ _)))
  · exact .seq_fail2 (.star_nil (.seq_fail1 (hw _ _))) (.seq_fail1 (.seq_fail1 (hw _ _)))
  · exact .seq_fail1 (hw _ _)
  · exact .seq_fail1 (hw _ _)
  · exact .alt_right (.rule_fail (.seq_fail1 (hw _ _)))
      (.rule_fail (.seq_fail1 (.seq_fail1 (hw _ _))))

theorem kw_other {k : Str × Rule × PExpr} (hk : k ∈ kwRules) {w s : Str}
    (ha : ∀ c ∈ w, isAlpha c = true) (hw : ¬ IsKeyword w)
    (hs : ∀ c b, s = c :: b → isAlpha c = false) (p : Nat) :
    Sem (kwRule k) false p (w ++ s) none := by
  have hkw : ∀ k ∈ kwRules, k.1 ∈ keywords ∧ lower k.1 = k.1 ∧ ∀ c ∈ k.1, isAlpha c = true := by
    decide +kernel
  obtain ⟨k1, k2, k3⟩ := hkw k hk
  refine .rule_fail ?_
  have h := parse_sem (e := .istr k.1) (by rfl) (innerQuiet .normal false) p (w ++ s)
  generalize parse (.istr k.1) (innerQuiet .normal false) p (w ++ s) = o at h
  rcases o with _ | ⟨p', s', ts⟩
  · exact .seq_fail1 h
  · obtain ⟨x, e, rfl, h'⟩ := h.x
    obtain ⟨hx, -⟩ := semX_istr.1 h'
    rw [k2] at hx
    have hxa : ∀ c ∈ x, isAlpha c = true := alpha_of_lower (by rw [k2, hx]) k3
    rcases List.append_eq_append_iff.1 e with ⟨y, rfl, e2⟩ | ⟨y, rfl, e2⟩
    · cases y with
      | nil =>
        rw [List.append_nil] at hx
        exact absurd (by unfold IsKeyword; rw [hx]; exact k1) hw
      | cons c y =>
        have := hs c (y ++ s') (by rw [e2]; rfl)
        rw [hxa c (by simp)] at this; cases this
    · cases y with
      | nil =>
        rw [List.append_nil] at hw
        exact absurd (by unfold IsKeyword; rw [hx]; exact k1) hw
      | cons c y =>
        refine .seq_fail2 h ?_
        rw [e2]
        exact kw_body_letter hk (ha c (by simp)) _ _ _

theorem shell_ne {s : Shell} (h : s.OK) : s.text ≠ [] := by
  cases s with
  | last t => exact h.1.1
  | more t w n s => simp [Shell.text]
  | comment w t n s =>
    obtain ⟨-, ⟨r, rfl, -⟩, -⟩ := h
    simp [Shell.text]

theorem item_misc {unq : Unquote} {w : Str} {a : Shell}
    (h : (Item.misc w a).OK unq) {s : Str} (hs : AtEnd s) (p : Nat) :
    ∃ tok ins, SemX G.step false p (Item.misc w a).text s [tok] ∧
      (Item.misc w a).instr p = some ins ∧ tok.rule = .misc ∧
      instructionOf unq tok = .ok ins := by
  obtain ⟨h1, h2, h3, h4, h5⟩ := h
  have ha : ∀ c ∈ w, isAlpha c = true := fun c hc => isAlpha_iff.2 (h2 c hc)
  have hsa : ∀ c b, a.text ++ s = c :: b → isAlpha c = false := by
    intro c b e
    cases ht : a.text with
    | nil => exact absurd ht (shell_ne h4)
    | cons d r =>
      rw [ht] at e
      simp only [List.cons_append, List.cons.injEq] at e
      rw [← e.1]
      have := h5 d r ht
      cases hd : isAlpha d with
      | false => rfl
      | true => exact absurd (isAlpha_iff.1 hd) this
  obtain ⟨ch, v1, v2⟩ := shell_x h4 hs .misc_arguments (p + blen w)
  have hm : SemX G.misc false p (w ++ a.text) s
      [.node .misc p (p + blen (w ++ a.text)) (w ++ a.text)
        [.node .misc_instruction p (p + blen w) w [],
         .node .misc_arguments (p + blen w) (p + blen w + blen a.text) a.text ch]] :=
    semX_rule.2 ⟨_, SemX.seq (semX_rule.2 ⟨[], step_alpha.plus_x.2 ⟨h1, runOf_class.2 ⟨ha, hsa⟩, rfl⟩,
      rfl⟩) v1, rfl⟩
  have hrun : ∀ ts, SemX G.misc false p (w ++ a.text) s ts →
      SemX G.step false p (w ++ a.text) s ts := by
    intro ts hm
    rw [step_eq]
    have hall : ∀ k ∈ kwRules, Sem (kwRule k) false p (w ++ a.text ++ s) none := fun k hk => by
      rw [List.append_assoc]; exact kw_other hk ha h3 hsa p
    generalize kwRules = ks at hall
    induction ks with
    | nil => exact hm
    | cons k ks ih =>
      exact semX_alt.2 (.inr ⟨hall k (by simp), ih fun k hk => hall k (by simp [hk])⟩)
  refine ⟨_, _, hrun _ hm, rfl, rfl, ?_⟩
  simp only [instructionOf, Tok.rule, miscRecord, Tok.children, miscFields]
  rw [parseString_reads (c := w) (reads_image (t := w) fun c hc => alpha_image (h2 c hc)), v2]
  rfl

end Verif
