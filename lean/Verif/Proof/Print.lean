import Verif.Proof.Quote

/-! # Running the grammar and the record functions on written items: FROM, COPY, ARG -/

namespace Verif
open Spec

/-! ## preliminaries -/

/-- blanks and the end of the line -/
def Rest (s : Str) : Prop := ∃ w r, s = w ++ r ∧ Blanks w ∧ AtEnd r

theorem Rest.endsWord {s : Str} (h : Rest s) : EndsWord s := by
  obtain ⟨w, r, rfl, hw, hr⟩ := h
  exact .trail hw hr

theorem AtEnd.rest {s : Str} (h : AtEnd s) : Rest s := ⟨[], s, rfl, .nil, h⟩

theorem AtEnd.after {r : Str} (h : AtEnd r) {w : Str} (hw : Blanks w) : AfterSpace w r :=
  ⟨h.startsArgWs, .inl hw⟩

theorem blanks_no_hash {w : Str} (hw : Blanks w) : '#' ∉ w := by
  intro h
  have := hw.mem h
  exact absurd this (by decide)

/-- `arg_ws ~ e` at the end of a line. -/
theorem rest_fail {e : PExpr} (he : ∀ p r, AtEnd r → Sem e false p r none) {s : Str} (h : Rest s)
    (p : Nat) : Sem (.seq G.arg_ws e) false p s none := by
  obtain ⟨w, r, rfl, hw, hr⟩ := h
  by_cases hne : w = []
  · subst hne
    exact .seq_fail1 (arg_ws_none.2 hr.startsArgWs)
  · obtain ⟨cs, h1, -, -⟩ := arg_ws_x (space_of_blanks hw) hne (hr.after hw) p
    exact .seq_fail2 h1 (he _ _ hr)

/-- starts with a blank, a line break or a backslash -/
def Sep (s : Str) : Prop := ∀ c b, s = c :: b → isBlank c = true ∨ isBreak c = true ∨ c = '\\'

theorem EndsWord.sep {s : Str} (h : EndsWord s) : Sep s := by
  rintro c b rfl
  have := h c b rfl
  simp only [startsArgWs, Bool.or_eq_true] at this
  rcases this with h | h | h
  · exact .inr (.inl h)
  · exact .inl h
  · right; right
    cases hx : afterContinuation (c :: b) with
    | none => rw [hx] at h; cases h
    | some r => exact afterContinuation_some hx

/-- neither blank nor line break nor backslash -/
def plainChar (c : Char) : Bool := !(isBlank c || isBreak c || c == '\\')

theorem Sep.not {s : Str} (h : Sep s) {f : Char → Bool} (hf : ∀ c, f c = true → plainChar c = true) :
    ∀ c b, s = c :: b → f c = false := by
  intro c b e
  cases hc : f c with
  | false => rfl
  | true =>
    have := hf c hc
    simp only [plainChar, Bool.not_eq_true', Bool.or_eq_false_iff, beq_eq_false_iff_ne] at this
    rcases h c b e with h | h | h
    · rw [this.1.1] at h; cases h
    · rw [this.1.2] at h; cases h
    · exact absurd h this.2

theorem plain_of {f : Char → Bool} (h : ∀ c, plainChar c = false → f c = false) (c : Char)
    (hc : f c = true) : plainChar c = true := by
  cases hp : plainChar c with
  | true => rfl
  | false => rw [h c hp] at hc; cases hc

theorem plainChar_false {c : Char} (h : plainChar c = false) :
    c = ' ' ∨ c = '\t' ∨ c = '\n' ∨ c = '\r' ∨ c = '\\' := by
  simp only [plainChar, isBlank, isBreak, Bool.not_eq_false', Bool.or_eq_true, beq_iff_eq] at h
  simpa only [or_assoc] using h

theorem plain_image (c : Char) (h : isImageChar c = true) : plainChar c = true := by
  refine plain_of (fun c hc => ?_) c h
  rcases plainChar_false hc with rfl | rfl | rfl | rfl | rfl <;> decide +kernel

theorem plain_ident (c : Char) (h : isIdent c = true) : plainChar c = true :=
  plain_image c (ident_image (isIdent_iff.1 h))

theorem plain_word (c : Char) (h : isWord c = true) : plainChar c = true :=
  plain_image c (word_image (isWord_iff.1 h))

theorem plain_alpha (c : Char) (h : isAlpha c = true) : plainChar c = true :=
  plain_image c (alpha_image (isAlpha_iff.1 h))

/-- A plain text at the start of `i ++ s` is at the start of `i`. -/
theorem plain_prefix {a b s : Str} (ha : ∀ c ∈ a, plainChar c = true) (hs : Sep s) :
    ∀ {i : Str}, a ++ b = i ++ s → ∃ i', i = a ++ i' ∧ b = i' ++ s := by
  induction a with
  | nil => intro i e; exact ⟨i, rfl, e⟩
  | cons c a ih =>
    intro i e
    cases i with
    | nil =>
      have := hs.not (f := plainChar) (fun _ h => h) c (a ++ b) (by simpa using e.symm)
      rw [ha c (by simp)] at this; cases this
    | cons d i =>
      simp only [List.cons_append, List.cons.injEq] at e
      obtain ⟨rfl, e⟩ := e
      obtain ⟨i', rfl, h⟩ := ih (fun c hc => ha c (by simp [hc])) e
      exact ⟨i', rfl, h⟩

/-- the space in front of a text that starts with a plain character -/
theorem Spec.Gap.after {g a s : Str} (hg : Gap g a) {c : Char} {r : Str} (ha : a = c :: r)
    (hc : plainChar c = true) : AfterSpace g (a ++ s) := by
  subst ha
  simp only [plainChar, Bool.not_eq_true', Bool.or_eq_false_iff, beq_eq_false_iff_ne] at hc
  constructor
  · simp only [List.cons_append, startsArgWs, hc.1.1, Bool.false_or]
    cases hx : afterContinuation (c :: (r ++ s)) with
    | none => rfl
    | some r => exact absurd (afterContinuation_some hx) hc.2
  · rcases hg.2.2 with h | h
    · exact .inl h
    · refine .inr fun d b e => ?_
      simp only [List.cons_append, List.cons.injEq] at e
      rw [← e.1]
      exact ⟨fun e => h r (by rw [e]), hc.1.2⟩

theorem Spec.Gap.x {g a s : Str} (hg : Gap g a) {c : Char} {r : Str} (ha : a = c :: r)
    (hc : plainChar c = true) (p : Nat) :
    ∃ cs, SemX G.arg_ws false p g (a ++ s) cs ∧ Comments cs ∧ ('#' ∉ g → cs = []) :=
  arg_ws_x hg.1 hg.2.1 (hg.after ha hc) p

theorem Spec.Gap.word {g a s : Str} (hg : Gap g a) (ha : WordText a) (p : Nat) :
    ∃ cs, SemX G.arg_ws false p g (a ++ s) cs ∧ Comments cs ∧ ('#' ∉ g → cs = []) :=
  arg_ws_x hg.1 hg.2.1 (word_after ha hg) p

theorem Spec.Gap.quoted {g a s : Str} (hg : Gap g a) (ha : QuotedText a) (p : Nat) :
    ∃ cs, SemX G.arg_ws false p g (a ++ s) cs ∧ Comments cs ∧ ('#' ∉ g → cs = []) :=
  arg_ws_x hg.1 hg.2.1 (quoted_after ha) p

theorem Spec.Gap.endsWord {g a s : Str} (hg : Gap g a) : EndsWord (g ++ s) :=
  .space hg.1 hg.2.1

theorem parseString_reads {unq : Unquote} {t : Tok} {c : Str} (h : Reads unq t.text c) :
    parseString unq t = .ok ⟨t.span, c⟩ := by
  unfold parseString
  rcases h with ⟨h1, h2⟩ | ⟨h1, rfl⟩
  · rw [if_pos (startsWithQuote_iff.2 h1)]
    simp [unquoteR, h2]
  · rw [if_neg (fun h => h1 (startsWithQuote_iff.1 h))]
    rfl

theorem reads_image {unq : Unquote} {t : Str} (h : ∀ c ∈ t, isImageChar c = true) :
    Reads unq t t := by
  refine .inr ⟨?_, rfl⟩
  rintro ⟨c, r, rfl, hc⟩
  exact image_not_quote (h c (by simp)) hc

/-! ## keywords -/

theorem kw_fail {k w rest : Str} {r : Rule} {e : PExpr} (hk : k ∈ keywords) (hw : IsKeyword w)
    (hne : k ≠ lower w) (q : Bool) (p : Nat) :
    Sem (.rule .normal r (.seq (.istr k) e)) q p (w ++ rest) none := by
  have := kw_istr (rest := rest) hk hw q p
  rw [if_neg hne] at this
  exact .rule_fail (.seq_fail1 this)

theorem kw_x {k w : Str} (hk : lower k = k) (h : lower w = k) (q : Bool) (p : Nat) (s : Str) :
    SemX (.istr k) q p w s [] := semX_istr.2 ⟨by rw [h, hk], rfl⟩

/-- The rules of the instructions with a keyword of their own. -/
def kwRules : List (Str × Rule × PExpr) :=
  [(c!"from", .from, .seq (.star (.seq G.arg_ws G.from_flag)) (.seq G.arg_ws (.seq G.from_image
      (.opt G.from_alias_outer)))),
   (c!"run", .run, .seq G.arg_ws (.alt G.run_exec G.run_shell)),
   (c!"arg", .arg, .seq G.arg_ws (.seq G.arg_name (.opt (.seq (.str ['='])
      (.alt G.arg_quoted_value G.arg_value))))),
   (c!"label", .label, .alt G.label_single (G.plus (.seq G.arg_ws (.opt G.label_pair)))),
   (c!"copy", .copy, .seq (.star (.seq G.arg_ws G.copy_flag)) (.seq (.seq G.arg_ws G.copy_pathspec)
      (.seq (.seq G.arg_ws G.copy_pathspec) (.star (.seq G.arg_ws G.copy_pathspec))))),
   (c!"entrypoint", .entrypoint, .seq G.arg_ws (.alt G.entrypoint_exec G.entrypoint_shell)),
   (c!"cmd", .cmd, .seq G.arg_ws (.alt G.cmd_exec G.cmd_shell)),
   (c!"env", .env, .alt G.env_single G.env_pairs)]

def kwRule (k : Str × Rule × PExpr) : PExpr := .rule .normal k.2.1 (.seq (.istr k.1) k.2.2)

theorem step_eq : G.step = kwRules.foldr (fun k e => .alt (kwRule k) e) G.misc := rfl

/-- The rule of a keyword is reached. -/
theorem step_kw {k : Str × Rule × PExpr} (hk : k ∈ kwRules) {w x s : Str} (hw : lower w = k.1)
    {p : Nat} {ch : List Tok} (h : SemX k.2.2 false (p + blen w) x s ch) :
    SemX G.step false p (w ++ x) s [.node k.2.1 p (p + blen (w ++ x)) (w ++ x) ch] := by
  have hkw : ∀ k ∈ kwRules, k.1 ∈ keywords ∧ lower k.1 = k.1 := by decide +kernel
  have hpw : (kwRules.map (·.1)).Nodup := by decide +kernel
  have hw' : IsKeyword w := by unfold IsKeyword; rw [hw]; exact (hkw k hk).1
  have run : SemX (kwRule k) false p (w ++ x) s [.node k.2.1 p (p + blen (w ++ x)) (w ++ x) ch] :=
    semX_rule.2 ⟨ch, SemX.seq (t1 := []) (kw_x (hkw k hk).2 hw _ _ _) h, rfl⟩
  rw [step_eq]
  generalize kwRules = ks at hk hkw hpw
  induction ks with
  | nil => simp at hk
  | cons k' ks ih =>
    simp only [List.map_cons, List.nodup_cons] at hpw
    rcases List.mem_cons.1 hk with rfl | hk
    · exact semX_alt.2 (.inl run)
    · refine semX_alt.2 (.inr ⟨?_, ih hk (fun k hk => hkw k (by simp [hk])) hpw.2⟩)
      rw [List.append_assoc]
      refine kw_fail (hkw k' (by simp)).1 hw' ?_ _ _
      intro e
      exact hpw.1 (List.mem_map.2 ⟨k, hk, by rw [e, hw]⟩)

/-! ## flags -/

/-- the rules `from_flag` and `copy_flag` -/
def flagE (r rn rv : Rule) : PExpr :=
  G.nrm r (.seq (.str ['-', '-']) (.seq (G.atm rn (G.plus G.ASCII_ALPHA)) (.seq (.str ['='])
    (G.atm rv G.any_whitespace))))

def flagTok (r rn rv : Rule) (p : Nat) (f : FlagText) : Tok :=
  .node r p (p + blen f.body) f.body
    [.node rn (p + 2) (p + 2 + blen f.name) f.name [],
     .node rv (p + 2 + blen f.name + 1) (p + blen f.body) f.value []]

theorem flag_body_len (f : FlagText) : blen f.body = 2 + blen f.name + 1 + blen f.value := by
  unfold FlagText.body
  simp only [blen_cons, blen_append, show '-'.utf8Size = 1 from rfl, show '='.utf8Size = 1 from rfl]
  omega

theorem flag_x (r rn rv : Rule) {f : FlagText} (hn : f.name ≠ []) (ha : ∀ c ∈ f.name, IsAlpha c)
    (hv : WordText f.value) {s : Str} (hs : EndsWord s) (p : Nat) :
    SemX (flagE r rn rv) false p f.body s [flagTok r rn rv p f] := by
  refine semX_rule.2 ⟨[] ++ ([.node rn (p + 2) (p + 2 + blen f.name) f.name []] ++
    ([] ++ [.node rv (p + 2 + blen f.name + 1) (p + blen f.body) f.value []])), ?_, rfl⟩
  refine SemX.seq (x1 := ['-', '-']) (semX_str.2 ⟨rfl, rfl⟩) (SemX.seq (x2 := '=' :: f.value) ?_
    (SemX.seq (x1 := ['=']) (x2 := f.value) (semX_str.2 ⟨rfl, rfl⟩) ?_))
  · refine semX_rule.2 ⟨[], step_alpha.plus_x.2 ⟨hn, runOf_class.2
      ⟨fun c hc => isAlpha_iff.2 (ha c hc), fun c b e => ?_⟩, rfl⟩, rfl⟩
    simp only [List.cons_append, List.cons.injEq] at e
    rw [← e.1]; decide +kernel
  · refine semX_rule.2 ⟨[], any_whitespace_x hv hs, ?_⟩
    rw [flag_body_len]
    simp only [emitToks, blen_cons, blen_nil, show '-'.utf8Size = 1 from rfl,
      show '='.utf8Size = 1 from rfl]
    congr 2 <;> omega

/-- what is no flag -/
theorem flag_none (r rn rv : Rule) {i s : Str} (hs : EndsWord s) (hi : ¬ LooksLikeFlag i) (p : Nat) :
    Sem (flagE r rn rv) false p (i ++ s) none := by
  have h := parse_sem (e := flagE r rn rv) (by cases r <;> cases rn <;> rfl) false p (i ++ s)
  generalize parse (flagE r rn rv) false p (i ++ s) = o at h
  rcases o with _ | ⟨p', s', ts⟩
  · exact h
  exfalso
  obtain ⟨x, e, -, h⟩ := h.x
  obtain ⟨t1, h, -⟩ := semX_rule.1 h
  obtain ⟨x1, x2, _, _, rfl, -, h1, h⟩ := semX_seq.1 h
  obtain ⟨x3, x4, _, _, rfl, -, h3, h⟩ := semX_seq.1 h
  obtain ⟨x5, x6, _, _, rfl, -, h5, h6⟩ := semX_seq.1 h
  obtain ⟨rfl, -⟩ := semX_str.1 h1
  obtain ⟨rfl, -⟩ := semX_str.1 h5
  obtain ⟨_, h3, -⟩ := semX_rule.1 h3
  obtain ⟨_, h6, -⟩ := semX_rule.1 h6
  obtain ⟨n3, r3, -⟩ := step_alpha.plus_x.1 h3
  have r3 := (runOf_class.1 r3).1
  obtain ⟨n6, r6, -⟩ := step_any_whitespace.plus_x.1 h6
  have hp : ∀ c ∈ ['-', '-'] ++ (x3 ++ ['=']), plainChar c = true := by
    intro c hc
    simp only [List.mem_append, List.mem_cons, List.not_mem_nil, or_false] at hc
    rcases hc with (rfl | rfl) | hc | rfl
    · decide
    · decide
    · exact plain_alpha c (r3 c hc)
    · decide
  obtain ⟨i', rfl, h7⟩ := plain_prefix (b := x6 ++ s') hp hs.sep (i := i) (by
    rw [e]; simp)
  cases i' with
  | nil =>
    cases x6 with
    | nil => exact n6 rfl
    | cons c b =>
      have h8 := r6.1 [] c b rfl
      have h9 := hs c (b ++ s') (by simpa using h7.symm)
      replace h8 : (!(isBreak c || startsArgWs (c :: (b ++ s')))) = true := h8
      rw [h9] at h8; cases h8
  | cons c i' =>
    exact hi ⟨x3, c :: i', by simp, n3, fun c hc => isAlpha_iff.1 (r3 c hc), by simp⟩

/-- the tokens of some flags, with comments in between -/
inductive FlagToks (r rn rv : Rule) : Nat → List FlagText → List Tok → Prop
  | nil {p} : FlagToks r rn rv p [] []
  | cons {p f fs cs ts} : Comments cs → FlagToks r rn rv (p + blen f.text) fs ts →
      FlagToks r rn rv p (f :: fs) (cs ++ flagTok r rn rv (p + blen f.gap) f :: ts)

theorem flags_x (r rn rv : Rule) {unq : Unquote} {fs : List FlagText} (h : ∀ f ∈ fs, f.OK unq)
    {s : Str} (hs : EndsWord s) (hf : ∀ p, Sem (.seq G.arg_ws (flagE r rn rv)) false p s none)
    (p : Nat) : ∃ ts, SemX (.star (.seq G.arg_ws (flagE r rn rv))) false p (flagsText fs) s ts ∧
      FlagToks r rn rv p fs ts := by
  induction fs generalizing p with
  | nil => exact ⟨[], .star_nil (hf p), .nil⟩
  | cons f fs ih =>
    obtain ⟨hg, hn, ha, hv, -⟩ := h f (by simp)
    obtain ⟨ts, h1, h2⟩ := ih (fun f hf => h f (by simp [hf])) (p + blen f.text)
    have hend : EndsWord (flagsText fs ++ s) := by
      cases fs with
      | nil => exact hs
      | cons f' fs =>
        have := (h f' (by simp)).1
        show EndsWord (f'.gap ++ f'.body ++ flagsText fs ++ s)
        rw [List.append_assoc, List.append_assoc]
        exact this.endsWord
    obtain ⟨cs, h3, h4, -⟩ := hg.x (s := flagsText fs ++ s) (a := f.body) rfl (by decide) p
    have h5 := SemX.seq h3 (flag_x r rn rv hn ha hv hend (p + blen f.gap))
    refine ⟨_, ?_, .cons h4 h2⟩
    have := SemX.star_cons (x1 := f.text) h5 h1
    rw [List.append_assoc] at this
    exact this

theorem flagTok_fields {unq : Unquote} {r rn rv : Rule} (hr : rn ≠ rv) {f : FlagText}
    (h : f.OK unq) (p : Nat) :
    flagFields unq rn rv (flagTok r rn rv (p + blen f.gap) f).children none none =
      .ok (some (f.flag p).name, some (f.flag p).value) := by
  obtain ⟨hg, hn, ha, hv, hc⟩ := h
  simp only [flagTok, Tok.children, flagFields, Tok.rule, if_true]
  rw [parseString_reads (c := f.name) (reads_image (t := f.name) fun c hc => alpha_image (ha c hc))]
  simp only [ok_bind, if_neg hr.symm]
  rw [parseString_reads (c := f.content) hc]
  simp only [ok_bind]
  rfl

theorem fromFlag_ok {unq : Unquote} {f : FlagText} (h : f.OK unq) (p : Nat) :
    fromFlagRecord unq (flagTok .from_flag .from_flag_name .from_flag_value (p + blen f.gap) f) =
      .ok (f.flag p) := by
  unfold fromFlagRecord
  rw [flagTok_fields (by decide) h]
  rfl

theorem copyFlag_ok {unq : Unquote} {f : FlagText} (h : f.OK unq) (p : Nat) :
    copyFlagRecord unq (flagTok .copy_flag .copy_flag_name .copy_flag_value (p + blen f.gap) f) =
      .ok (f.flag p) := by
  unfold copyFlagRecord
  rw [flagTok_fields (by decide) h]
  rfl

/-! ## FROM -/

theorem fromFields_comments {unq : Unquote} {cs ts : List Tok} (h : Comments cs) (i a fl) :
    fromFields unq (cs ++ ts) i a fl = fromFields unq ts i a fl := by
  induction cs with
  | nil => rfl
  | cons c cs ih =>
    rw [List.cons_append, fromFields, h c (by simp)]
    exact ih fun t ht => h t (by simp [ht])

theorem fromFields_flags {unq : Unquote} {p fs ts us} (h : ∀ f ∈ fs, FlagText.OK unq f)
    (ht : FlagToks .from_flag .from_flag_name .from_flag_value p fs ts) (i a fl) :
    fromFields unq (ts ++ us) i a fl = fromFields unq us i a (fl ++ flagsAt p fs) := by
  induction ht generalizing fl with
  | nil => simp [flagsAt]
  | @cons p f fs cs ts hc _ ih =>
    rw [List.append_assoc, fromFields_comments hc, List.cons_append, fromFields]
    simp only [flagTok, Tok.rule]
    rw [show (Tok.node .from_flag _ _ _ _) = flagTok .from_flag .from_flag_name .from_flag_value
      (p + blen f.gap) f from rfl, fromFlag_ok (h f (by simp)), ok_bind,
      ih fun f hf => h f (by simp [hf])]
    simp [flagsAt]

theorem splitOn_none {c : Char} {s : Str} (h : c ∉ s) : splitOn c s = [s] := by
  induction s with
  | nil => rfl
  | cons d s ih =>
    simp only [List.mem_cons, not_or] at h
    rw [splitOn, if_neg (Ne.symm h.1), ih h.2]

theorem checkDigest_of {r : ImageRef} (h : DigestOK r) : checkDigest r = true := by
  unfold checkDigest
  cases hh : r.hash with
  | none => rfl
  | some g =>
    obtain ⟨d, rfl, hd, hl, c, hc, hx⟩ := h g hh
    have : splitOn ':' (c!"sha256:" ++ d) = [c!"sha256", d] := by
      simp [splitOn, splitOn_none hd]
    simp only [this, Bool.and_eq_true, List.any_eq_true, beq_iff_eq, hl, and_true, true_and]
    refine ⟨c, hc, ?_⟩
    simp only [isHexChar, Bool.or_eq_true, Bool.and_eq_true, decide_eq_true_eq]
    simpa only [or_assoc] using hx

theorem not_flag_image {i : Str} (h : ∀ c ∈ i, isImageChar c = true) : ¬ LooksLikeFlag i := by
  rintro ⟨n, v, rfl, -⟩
  have := h '=' (by simp)
  exact absurd this (by decide)

theorem from_alias_x {a : AliasText} (h : a.OK) {s : Str} (hs : Rest s) (p : Nat) :
    ∃ cs ds, SemX (.opt G.from_alias_outer) false p a.text s
        (cs ++ (ds ++ [.node .from_alias (p + blen a.gap + blen a.kw + blen a.gap')
          (p + blen a.gap + blen a.kw + blen a.gap' + blen a.name) a.name []])) ∧
      Comments cs ∧ Comments ds := by
  obtain ⟨h1, h2, h3, h4, h5⟩ := h
  have ha : ∀ c ∈ a.name, isIdent c = true := fun c hc => isIdent_iff.2 (h5 c hc)
  obtain ⟨c, k, hk, hc⟩ : ∃ c k, a.kw = c :: k ∧ plainChar c = true := by
    cases hk : a.kw with
    | nil => rw [hk] at h2; simp [lower] at h2
    | cons c k =>
      have : ∀ c ∈ a.kw, isAlpha c = true :=
        alpha_of_lower (w := c!"as") (by rw [h2]; decide +kernel) (by decide +kernel)
      exact ⟨c, k, rfl, plain_alpha c (this c (by simp [hk]))⟩
  obtain ⟨d, n, hn, hd⟩ : ∃ c k, a.name = c :: k ∧ plainChar c = true := by
    cases hn : a.name with
    | nil => exact absurd hn h4
    | cons c k => exact ⟨c, k, rfl, plain_ident c (ha c (by simp [hn]))⟩
  obtain ⟨cs, g1, g2, -⟩ := h1.x (s := a.gap' ++ a.name ++ s) hk hc p
  obtain ⟨ds, g3, g4, -⟩ := h3.x (s := s) hn hd (p + blen a.gap + blen a.kw)
  refine ⟨cs, ds, semX_opt.2 (.inl ?_), g2, g4⟩
  refine SemX.seq (x2 := a.kw ++ (a.gap' ++ a.name)) ?_ (SemX.seq (t1 := []) ?_ (SemX.seq g3 ?_))
  · simpa using g1
  · exact kw_x (by decide +kernel) h2 _ _ _
  · exact semX_rule.2 ⟨[], step_ident.plus_x.2 ⟨h4, runOf_class.2
      ⟨ha, hs.endsWord.sep.not plain_ident⟩, rfl⟩, rfl⟩

theorem from_alias_none {s : Str} (hs : Rest s) (p : Nat) :
    SemX (.opt G.from_alias_outer) false p [] s [] := by
  refine semX_opt.2 (.inr ⟨rfl, rfl, rest_fail (fun p r hr => .seq_fail1 ?_) hs p⟩)
  refine .istr_fail (stripPrefixI_none_head (by decide +kernel) fun c b e => isAlpha_break (hr c b e))

theorem item_from {unq : Unquote} {kw : Str} {fs : List FlagText} {g i : Str}
    {a : Option AliasText} (h : (Item.from kw fs g i a).OK unq) {s : Str} (hs : Rest s) (p : Nat) :
    ∃ tok ins, SemX G.step false p (Item.from kw fs g i a).text s [tok] ∧
      (Item.from kw fs g i a).instr p = some ins ∧ tok.rule = .from ∧
      instructionOf unq tok = .ok ins := by
  obtain ⟨h1, h2, h3, h4, h5, h6, h7⟩ := h
  have hi : ∀ c ∈ i, isImageChar c = true := fun c hc => isImageChar_iff.2 (h5 c hc)
  obtain ⟨d, i', hd, hdp⟩ : ∃ c k, i = c :: k ∧ plainChar c = true := by
    cases hn : i with
    | nil => exact absurd hn h4
    | cons c k => exact ⟨c, k, rfl, plain_image c (hi c (by simp [hn]))⟩
  -- the alias
  have hal : ∀ p, ∃ cs, SemX (.opt G.from_alias_outer) false p ((a.map (·.text)).getD []) s cs ∧
      EndsWord ((a.map (·.text)).getD [] ++ s) ∧
      ∀ unq im fl, ∃ al, fromFields unq cs im none fl = .ok (im, al, fl) ∧
        ((a = none ∧ al = none) ∨ ∃ x t, a = some x ∧ al = some t ∧
          parseString unq t = .ok (x.name_at p)) := by
    intro p
    cases a with
    | none => exact ⟨[], from_alias_none hs p, hs.endsWord, fun unq im fl => ⟨none, rfl, .inl ⟨rfl, rfl⟩⟩⟩
    | some x =>
      have hx := h7 x rfl
      obtain ⟨cs, ds, g1, g2, g3⟩ := from_alias_x hx hs p
      refine ⟨_, g1, ?_, fun unq im fl => ⟨some (.node .from_alias
        (p + blen x.gap + blen x.kw + blen x.gap')
        (p + blen x.gap + blen x.kw + blen x.gap' + blen x.name) x.name []), ?_, ?_⟩⟩
      · show EndsWord ((x.gap ++ _) ++ s)
        rw [List.append_assoc]; exact hx.1.endsWord
      · rw [fromFields_comments g2, fromFields_comments g3]; rfl
      · refine .inr ⟨x, _, rfl, rfl, ?_⟩
        rw [parseString_reads (c := x.name) (reads_image (t := x.name) fun c hc => ident_image (hx.2.2.2.2 c hc))]
        rfl
  obtain ⟨cs, g1, g2, g3⟩ := hal (p + blen kw + blen (flagsText fs) + blen g + blen i)
  obtain ⟨ds, k1, k2, -⟩ := h3.x (s := (a.map (·.text)).getD [] ++ s) hd hdp
    (p + blen kw + blen (flagsText fs))
  have hnf : ∀ p, Sem (.seq G.arg_ws (flagE .from_flag .from_flag_name .from_flag_value)) false p
      (g ++ (i ++ ((a.map (·.text)).getD [] ++ s))) none := by
    intro p
    obtain ⟨ds, k1, -, -⟩ := h3.x (s := (a.map (·.text)).getD [] ++ s) hd hdp p
    exact .seq_fail2 k1 (flag_none _ _ _ g2 (not_flag_image hi) _)
  obtain ⟨ts, f1, f2⟩ := flags_x .from_flag .from_flag_name .from_flag_value h2 h3.endsWord hnf
    (p + blen kw)
  replace f1 : SemX (.star (.seq G.arg_ws G.from_flag)) _ _ _ _ _ := f1
  have him : SemX G.from_image false (p + blen kw + blen (flagsText fs) + blen g) i
      ((a.map (·.text)).getD [] ++ s) [.node .from_image (p + blen kw + blen (flagsText fs) + blen g)
        (p + blen kw + blen (flagsText fs) + blen g + blen i) i []] :=
    semX_rule.2 ⟨[], step_image.plus_x.2 ⟨h4, runOf_class.2 ⟨hi, g2.sep.not plain_image⟩, rfl⟩, rfl⟩
  have hrun := step_kw (k := (c!"from", .from, .seq (.star (.seq G.arg_ws G.from_flag))
    (.seq G.arg_ws (.seq G.from_image (.opt G.from_alias_outer))))) (by simp [kwRules]) h1
    (SemX.seq (x1 := flagsText fs) (x2 := g ++ (i ++ (a.map (·.text)).getD [])) (s' := s)
      (by simpa using f1) (SemX.seq (by simpa using k1) (SemX.seq him g1)))
  refine ⟨_, _, hrun, rfl, rfl, ?_⟩
  obtain ⟨al, e1, e2⟩ := g3 unq (some (.node .from_image
    (p + blen kw + blen (flagsText fs) + blen g)
    (p + blen kw + blen (flagsText fs) + blen g + blen i) i [])) (flagsAt (p + blen kw) fs)
  simp only [instructionOf, Tok.rule, fromRecord, Tok.children]
  rw [fromFields_flags h2 f2, fromFields_comments k2]
  simp only [List.cons_append, List.nil_append, fromFields, Tok.rule]
  rw [e1]
  simp only [ok_bind]
  rw [parseString_reads (c := i) (reads_image (t := i) hi)]
  simp only [ok_bind]
  rw [if_pos (checkDigest_of h6)]
  rcases e2 with ⟨rfl, rfl⟩ | ⟨x, t, rfl, rfl, e2⟩
  · rfl
  · simp only [e2, ok_bind]
    rfl

/-! ## values -/

theorem word_none {r : Str} (hr : AtEnd r) (q : Bool) (p : Nat) :
    Sem G.any_whitespace q p r none := by
  refine step_any_whitespace.plus_none.2 fun c b e => ?_
  rcases hr c b e with rfl | rfl <;> rfl

theorem string_none_atEnd {r : Str} (hr : AtEnd r) (q : Bool) (p : Nat) :
    Sem G.string q p r none :=
  string_none fun b => ⟨fun e => (by rcases hr _ _ e with h | h <;> exact absurd h (by decide)),
    fun e => (by rcases hr _ _ e with h | h <;> exact absurd h (by decide))⟩

/-- a quoted string -/
theorem quoted_x (rq : Rule) {v s : Str} (h : QuotedText v) (q : Bool) (p : Nat) :
    ∃ ch, SemX (G.cmp rq G.string) q p v s [.node rq p (p + blen v) v ch] := by
  obtain ⟨ch, h⟩ := string_x h false p s
  exact ⟨_, semX_rule.2 ⟨_, h, rfl⟩⟩

theorem bare_x (rv : Rule) {v s : Str} (h : WordText v) (hs : EndsWord s) (q : Bool) (p : Nat) :
    SemX (G.cmp rv G.any_whitespace) q p v s [.node rv p (p + blen v) v []] :=
  semX_rule.2 ⟨_, any_whitespace_x h hs, rfl⟩

theorem noquote_append {v s : Str} (hne : v ≠ []) (h : ∀ r, v ≠ '"' :: r ∧ v ≠ '\'' :: r) :
    ∀ r, v ++ s ≠ '"' :: r ∧ v ++ s ≠ '\'' :: r := by
  cases v with
  | nil => exact absurd rfl hne
  | cons c v =>
    intro r
    refine ⟨fun e => ?_, fun e => ?_⟩
    · simp only [List.cons_append, List.cons.injEq] at e
      exact (h v).1 (by rw [e.1])
    · simp only [List.cons_append, List.cons.injEq] at e
      exact (h v).2 (by rw [e.1])

theorem value_x (rq rv : Rule) {v s : Str} (h : ValueText v) (hs : EndsWord s) (q : Bool) (p : Nat) :
    ∃ r ch, SemX (.alt (G.cmp rq G.string) (G.cmp rv G.any_whitespace)) q p v s
        [.node r p (p + blen v) v ch] ∧
      ((r = rq ∧ QuotedText v) ∨
        (r = rv ∧ WordText v ∧ ∀ r, v ≠ '"' :: r ∧ v ≠ '\'' :: r)) := by
  rcases h with h | ⟨h, h'⟩
  · obtain ⟨ch, h1⟩ := quoted_x rq (s := s) h q p
    exact ⟨rq, ch, semX_alt.2 (.inl h1), .inl ⟨rfl, h⟩⟩
  · refine ⟨rv, [], semX_alt.2 (.inr ⟨.rule_fail (string_none (noquote_append h.1 h')),
      bare_x rv h hs q p⟩), .inr ⟨rfl, h, h'⟩⟩

/-! ## ARG -/

theorem argFields_comments {unq : Unquote} {cs ts : List Tok} (h : Comments cs) (n v) :
    argFields unq (cs ++ ts) n v = argFields unq ts n v := by
  induction cs with
  | nil => rfl
  | cons c cs ih =>
    rw [List.cons_append, argFields, h c (by simp)]
    exact ih fun t ht => h t (by simp [ht])

theorem item_arg {unq : Unquote} {kw g n : Str} {v : Option (Str × Str)}
    (h : (Item.arg kw g n v).OK unq) {s : Str} (hs : Rest s) (p : Nat) :
    ∃ tok ins, SemX G.step false p (Item.arg kw g n v).text s [tok] ∧
      (Item.arg kw g n v).instr p = some ins ∧ tok.rule = .arg ∧
      instructionOf unq tok = .ok ins := by
  obtain ⟨h1, h2, ⟨c, r, rfl, h3, h4⟩, h5⟩ := h
  have hi : ∀ d ∈ c :: r, isImageChar d = true := by
    intro d hd
    rcases List.mem_cons.1 hd with rfl | hd
    · exact alpha_image h3
    · exact word_image (h4 d hd)
  obtain ⟨cs, k1, k2, -⟩ := h2.x (s := (v.map fun v => '=' :: v.1).getD [] ++ s) rfl
    (plain_alpha c (isAlpha_iff.2 h3)) (p + blen kw)
  have hv : ∀ p, ∃ ts, SemX (.opt (.seq (.str ['=']) (.alt G.arg_quoted_value G.arg_value))) false p
        ((v.map fun v => '=' :: v.1).getD []) s ts ∧
      (∀ c b, (v.map fun v => '=' :: v.1).getD [] ++ s = c :: b → isWord c = false) ∧
      ∀ n, argFields unq ts n none = .ok (n, v.map fun v => ⟨⟨p + 1, p + 1 + blen v.1⟩, v.2⟩) := by
    intro p
    cases v with
    | none =>
      refine ⟨[], semX_opt.2 (.inr ⟨rfl, rfl, .seq_fail1 ((lex_str1 '=').none_iff.2 ?_)⟩),
        hs.endsWord.sep.not plain_word, fun n => rfl⟩
      cases s with
      | nil => rfl
      | cons c b =>
        rw [charFn]
        rcases hs.endsWord.sep c b rfl with h | h | rfl
        · rcases isBlank_iff.1 h with rfl | rfl <;> rfl
        · simp only [isBreak, Bool.or_eq_true, beq_iff_eq] at h
          rcases h with rfl | rfl <;> rfl
        · rfl
    | some x =>
      obtain ⟨hx, hr⟩ := h5 x rfl
      obtain ⟨rl, ch, h6, h7⟩ := value_x .arg_quoted_value .arg_value hx hs.endsWord false (p + 1)
      refine ⟨[.node rl (p + 1) (p + 1 + blen x.1) x.1 ch], semX_opt.2 (.inl ?_),
        fun c b e => ?_, fun n => ?_⟩
      · exact SemX.seq (x1 := ['=']) (t1 := []) (semX_str.2 ⟨rfl, rfl⟩) h6
      · simp only [Option.map_some, Option.getD_some, List.cons_append, List.cons.injEq] at e
        rw [← e.1]; decide +kernel
      · have := parseString_reads (t := .node rl (p + 1) (p + 1 + blen x.1) x.1 ch) hr
        rcases h7 with ⟨rfl, -⟩ | ⟨rfl, -⟩ <;>
        · simp only [argFields, Tok.rule, this]
          rfl
  obtain ⟨ts, v1, v2, v3⟩ := hv (p + blen kw + blen g + blen (c :: r))
  have hname : SemX G.arg_name false (p + blen kw + blen g) (c :: r)
      ((v.map fun v => '=' :: v.1).getD [] ++ s)
      [.node .arg_name (p + blen kw + blen g) (p + blen kw + blen g + blen (c :: r)) (c :: r) []] := by
    refine semX_rule.2 ⟨[], SemX.seq (x1 := [c]) (t1 := []) (t2 := []) (step_alpha.x.2
      ⟨c, rfl, isAlpha_iff.2 h3, rfl⟩) (step_word.star_x.2 ⟨runOf_class.2
        ⟨fun d hd => isWord_iff.2 (h4 d hd), v2⟩, rfl⟩), rfl⟩
  have hrun := step_kw (k := (c!"arg", .arg, .seq G.arg_ws (.seq G.arg_name (.opt (.seq (.str ['='])
      (.alt G.arg_quoted_value G.arg_value)))))) (by simp [kwRules]) h1
    (SemX.seq (x1 := g) (x2 := (c :: r) ++ (v.map fun v => '=' :: v.1).getD []) (s' := s)
      (by simpa using k1) (SemX.seq hname v1))
  refine ⟨_, _, hrun, rfl, rfl, ?_⟩
  simp only [instructionOf, Tok.rule, argRecord, Tok.children]
  rw [argFields_comments k2]
  simp only [List.cons_append, List.nil_append, argFields, Tok.rule]
  rw [parseString_reads (c := c :: r) (reads_image (t := c :: r) hi)]
  simp only [ok_bind]
  rw [v3]
  rfl

/-! ## COPY -/

def fieldTok (p : Nat) (f : FieldText) : Tok :=
  .node .copy_pathspec (p + blen f.gap) (p + blen f.gap + blen f.value) f.value []

inductive FieldToks : Nat → List FieldText → List Tok → Prop
  | nil {p} : FieldToks p [] []
  | cons {p f fs cs ts} : Comments cs → FieldToks (p + blen f.text) fs ts →
      FieldToks p (f :: fs) (cs ++ fieldTok p f :: ts)

theorem fields_endsWord {unq : Unquote} {fs : List FieldText} (h : ∀ f ∈ fs, f.OK unq) {s : Str}
    (hs : EndsWord s) : EndsWord (fieldsText fs ++ s) := by
  cases fs with
  | nil => exact hs
  | cons f fs =>
    show EndsWord (f.gap ++ f.value ++ fieldsText fs ++ s)
    rw [List.append_assoc, List.append_assoc]
    exact (h f (by simp)).1.endsWord

theorem field_x {unq : Unquote} {f : FieldText} (h : f.OK unq) {s : Str} (hs : EndsWord s) (p : Nat) :
    ∃ cs, SemX (.seq G.arg_ws G.copy_pathspec) false p f.text s (cs ++ [fieldTok p f]) ∧
      Comments cs := by
  obtain ⟨cs, h1, h2, -⟩ := h.1.word (s := s) h.2.1 p
  exact ⟨cs, SemX.seq h1 (semX_rule.2 ⟨[], any_whitespace_x h.2.1 hs, rfl⟩), h2⟩

theorem fields_x {unq : Unquote} {fs : List FieldText} (h : ∀ f ∈ fs, f.OK unq) {s : Str}
    (hs : Rest s) (p : Nat) : ∃ ts, SemX (.star (.seq G.arg_ws G.copy_pathspec)) false p
      (fieldsText fs) s ts ∧ FieldToks p fs ts := by
  induction fs generalizing p with
  | nil =>
    exact ⟨[], .star_nil (rest_fail (fun p r hr => .rule_fail (word_none hr _ _)) hs p), .nil⟩
  | cons f fs ih =>
    obtain ⟨ts, h1, h2⟩ := ih (fun f hf => h f (by simp [hf])) (p + blen f.text)
    obtain ⟨cs, h3, h4⟩ := field_x (h f (by simp)) (s := fieldsText fs ++ s)
      (fields_endsWord (fun f hf => h f (by simp [hf])) hs.endsWord) p
    refine ⟨_, ?_, .cons h4 h2⟩
    have := SemX.star_cons h3 h1
    rw [List.append_assoc] at this
    exact this

theorem copyFields_comments {unq : Unquote} {cs ts : List Tok} (h : Comments cs) (fl ps) :
    copyFields unq (cs ++ ts) fl ps = copyFields unq ts fl ps := by
  induction cs with
  | nil => rfl
  | cons c cs ih =>
    rw [List.cons_append, copyFields, h c (by simp)]
    exact ih fun t ht => h t (by simp [ht])

theorem copyFields_flags {unq : Unquote} {p fs ts us} (h : ∀ f ∈ fs, FlagText.OK unq f)
    (ht : FlagToks .copy_flag .copy_flag_name .copy_flag_value p fs ts) (fl ps) :
    copyFields unq (ts ++ us) fl ps = copyFields unq us (fl ++ flagsAt p fs) ps := by
  induction ht generalizing fl with
  | nil => simp [flagsAt]
  | @cons p f fs cs ts hc _ ih =>
    rw [List.append_assoc, copyFields_comments hc, List.cons_append, copyFields]
    simp only [flagTok, Tok.rule]
    rw [show (Tok.node .copy_flag _ _ _ _) = flagTok .copy_flag .copy_flag_name .copy_flag_value
      (p + blen f.gap) f from rfl, copyFlag_ok (h f (by simp)), ok_bind,
      ih fun f hf => h f (by simp [hf])]
    simp [flagsAt]

theorem copyFields_fields {unq : Unquote} {p fs ts} (h : ∀ f ∈ fs, FieldText.OK unq f)
    (ht : FieldToks p fs ts) (fl ps) :
    copyFields unq ts fl ps = .ok (fl, ps ++ fieldsAt p fs) := by
  induction ht generalizing ps with
  | nil => simp [fieldsAt, copyFields]
  | @cons p f fs cs ts hc _ ih =>
    rw [copyFields_comments hc, copyFields]
    simp only [fieldTok, Tok.rule]
    rw [parseString_reads (c := f.content) (h f (by simp)).2.2, ok_bind,
      ih fun f hf => h f (by simp [hf])]
    simp [fieldsAt]
    rfl

theorem fieldsText_append (fs gs : List FieldText) :
    fieldsText (fs ++ gs) = fieldsText fs ++ fieldsText gs := by
  simp [fieldsText]

theorem fieldsAt_append (fs gs : List FieldText) (p : Nat) :
    fieldsAt p (fs ++ gs) = fieldsAt p fs ++ fieldsAt (p + blen (fieldsText fs)) gs := by
  induction fs generalizing p with
  | nil => simp [fieldsAt, fieldsText]
  | cons f fs ih =>
    simp only [List.cons_append, fieldsAt, ih, fieldsText, List.flatMap_cons, blen_append,
      List.cons.injEq, true_and]
    congr 2; omega

theorem fieldsAt_length (fs : List FieldText) (p : Nat) : (fieldsAt p fs).length = fs.length := by
  induction fs generalizing p with
  | nil => rfl
  | cons f fs ih => simp [fieldsAt, ih]

/-- two fields or more -/
theorem fields2_x {unq : Unquote} {f f' : FieldText} {fs : List FieldText}
    (h : ∀ x ∈ f :: f' :: fs, x.OK unq) {s : Str} (hs : Rest s) (p : Nat) :
    ∃ ts, SemX (.seq (.seq G.arg_ws G.copy_pathspec) (.seq (.seq G.arg_ws G.copy_pathspec)
        (.star (.seq G.arg_ws G.copy_pathspec)))) false p (fieldsText (f :: f' :: fs)) s ts ∧
      FieldToks p (f :: f' :: fs) ts := by
  obtain ⟨ts, h1, h2⟩ := fields_x (fs := fs) (fun x hx => h x (by simp [hx])) hs
    (p + blen f.text + blen f'.text)
  obtain ⟨cs', h3, h4⟩ := field_x (h f' (by simp)) (s := fieldsText fs ++ s)
    (fields_endsWord (fun f hf => h f (by simp [hf])) hs.endsWord) (p + blen f.text)
  obtain ⟨cs, h5, h6⟩ := field_x (h f (by simp)) (s := fieldsText (f' :: fs) ++ s)
    (fields_endsWord (fun f hf => h f (List.mem_cons_of_mem _ hf)) hs.endsWord) p
  refine ⟨_, ?_, .cons h6 (.cons h4 h2)⟩
  have := SemX.seq h5 (SemX.seq h3 h1)
  simp only [List.append_assoc, List.cons_append, List.nil_append] at this
  exact this

theorem item_copy {unq : Unquote} {kw : Str} {fs : List FlagText} {ss : List FieldText}
    {d : FieldText} (h : (Item.copy kw fs ss d).OK unq) {s : Str} (hs : Rest s) (p : Nat) :
    ∃ tok ins, SemX G.step false p (Item.copy kw fs ss d).text s [tok] ∧
      (Item.copy kw fs ss d).instr p = some ins ∧ tok.rule = .copy ∧
      instructionOf unq tok = .ok ins := by
  obtain ⟨h1, h2, h3, h4, h5, h6⟩ := h
  have hall : ∀ f ∈ ss ++ [d], f.OK unq := by
    intro f hf
    rcases List.mem_append.1 hf with hf | hf
    · exact h4 f hf
    · rw [List.mem_singleton.1 hf]; exact h5
  have htext : fieldsText ss ++ d.text = fieldsText (ss ++ [d]) := by
    rw [fieldsText_append]; simp [fieldsText]
  obtain ⟨f1, f2, fr, hsplit⟩ : ∃ f1 f2 fr, ss ++ [d] = f1 :: f2 :: fr := by
    match ss, h3 with
    | [f], _ => exact ⟨f, d, [], rfl⟩
    | f :: f' :: r, _ => exact ⟨f, f', r ++ [d], rfl⟩
  have hf1 : ¬ LooksLikeFlag f1.value := by
    match ss, h3 with
    | f :: r, _ =>
      simp only [List.cons_append, List.cons.injEq] at hsplit
      rw [← hsplit.1]; exact h6 f r rfl
  obtain ⟨us, u1, u2⟩ := fields2_x (f := f1) (f' := f2) (fs := fr) (by rw [← hsplit]; exact hall) hs
    (p + blen kw + blen (flagsText fs))
  have hnf : ∀ p, Sem (.seq G.arg_ws (flagE .copy_flag .copy_flag_name .copy_flag_value)) false p
      (fieldsText (f1 :: f2 :: fr) ++ s) none := by
    intro p
    have o1 := hall f1 (by rw [hsplit]; simp)
    have hend : EndsWord (fieldsText (f2 :: fr) ++ s) :=
      fields_endsWord (fun f hf => hall f (by rw [hsplit]; exact List.mem_cons_of_mem _ hf))
        hs.endsWord
    obtain ⟨cs, k1, -, -⟩ := o1.1.word (s := fieldsText (f2 :: fr) ++ s) o1.2.1 p
    have e : fieldsText (f1 :: f2 :: fr) ++ s =
        f1.gap ++ (f1.value ++ (fieldsText (f2 :: fr) ++ s)) := by
      simp [fieldsText, FieldText.text]
    rw [e]
    exact .seq_fail2 k1 (flag_none _ _ _ hend hf1 _)
  have hend : EndsWord (fieldsText (f1 :: f2 :: fr) ++ s) := by
    rw [← hsplit]; exact fields_endsWord hall hs.endsWord
  obtain ⟨ts, v1, v2⟩ := flags_x .copy_flag .copy_flag_name .copy_flag_value h2 hend hnf (p + blen kw)
  replace v1 : SemX (.star (.seq G.arg_ws G.copy_flag)) _ _ _ _ _ := v1
  have hrun := step_kw (k := (c!"copy", .copy, .seq (.star (.seq G.arg_ws G.copy_flag))
      (.seq (.seq G.arg_ws G.copy_pathspec) (.seq (.seq G.arg_ws G.copy_pathspec)
        (.star (.seq G.arg_ws G.copy_pathspec)))))) (by simp [kwRules]) h1 (SemX.seq v1 u1)
  rw [← hsplit, ← htext] at hrun
  refine ⟨_, _, hrun, rfl, rfl, ?_⟩
  simp only [instructionOf, Tok.rule, copyRecord, Tok.children]
  rw [copyFields_flags h2 v2, copyFields_fields (by rw [← hsplit]; exact hall) u2]
  simp only [ok_bind, List.nil_append]
  rw [← hsplit, if_pos (by
    rw [fieldsAt_length, List.length_append]
    have := List.length_pos_iff.2 h3
    simp; omega), fieldsAt_append]
  simp only [fieldsAt, List.getLast?_append, List.getLast?_singleton, Option.some_or,
    List.dropLast_append_cons, List.dropLast_singleton, List.append_nil]
  rfl

end Verif
