import Verif.Proof.SrcShell

/-!
# FROM, ARG and COPY
-/

namespace Verif
namespace Src
open Spec

/-! ## preliminaries -/

/-- an expression succeeds or fails -/
theorem sem_or {e : PExpr} (hs : safe false e = true) (q : Bool) (p : Nat) (s : Str) :
    Sem e q p s none ∨ ∃ x s' ts, s = x ++ s' ∧ SemX e q p x s' ts := by
  have := parse_sem hs q p s
  generalize parse e q p s = o at this
  rcases o with _ | ⟨p', s', ts⟩
  · exact .inl this
  · obtain ⟨x, rfl, -, h⟩ := this.x
    exact .inr ⟨x, s', ts, rfl, h⟩

theorem sem_not_none {e : PExpr} {q p x s ts} (h : SemX e q p x s ts) :
    ¬ Sem e q p (x ++ s) none := fun h' => absurd (h'.det h) (by simp)

theorem sem_some_not {e : PExpr} {q p s} (h : Sem e q p s none) {x s' ts} (e' : s = x ++ s') :
    ¬ SemX e q p x s' ts := fun h' => by subst e'; exact sem_not_none h' h

theorem WordEnd.sep {s : Str} (h : WordEnd s) : Sep s := by
  refine EndsWord.sep fun c b e => ?_
  subst e
  exact wordEnd_iff.1 h

theorem Gap.sep {g r : Str} (h : Gap g r) : Sep (g ++ r) := WordEnd.sep (.inr h.starts)

theorem Rest.wordEnd {s : Str} (h : Rest s) : WordEnd s := by
  cases s with
  | nil => exact wordEnd_nil
  | cons c b => exact wordEnd_iff.2 (h.endsWord c b rfl)

theorem Rest.not_continuation {s : Str} (h : Rest s) : ¬ Continuation s := by
  obtain ⟨w, r, rfl, hw, hr⟩ := h
  rintro ⟨w', n, t, e, -⟩
  cases w with
  | nil =>
    rcases hr _ _ e with h | h <;> exact absurd h (by decide)
  | cons c w =>
    simp only [List.cons_append, List.cons.injEq] at e
    have := hw c (by simp)
    rw [e.1] at this
    exact absurd this (by decide)

theorem Eol.rest {s : Str} (h : Eol s) : Rest s := AtEnd.rest h

/-- A plain character starts no space. -/
theorem not_starts_plain {c : Char} {b : Str} (h : plainChar c = true) : ¬ StartsSpace (c :: b) := by
  rw [not_startsSpace]
  simp only [plainChar, Bool.not_eq_true', Bool.or_eq_false_iff, beq_eq_false_iff_ne] at h
  simp only [startsArgWs, h.1.1, Bool.false_or]
  cases hx : afterContinuation (c :: b) with
  | none => rfl
  | some r => exact absurd (afterContinuation_some hx) h.2

/-- `arg_ws ~ e` -/
theorem gap_seq {e : PExpr} {p x s ts} (h : SemX (.seq G.arg_ws e) false p x s ts) :
    ∃ g y cs us, x = g ++ y ∧ ts = cs ++ us ∧ Gap g (y ++ s) ∧ SemX e false (p + blen g) y s us := by
  obtain ⟨g, y, cs, us, rfl, rfl, h1, h2⟩ := semX_seq.1 h
  exact ⟨g, y, cs, us, rfl, rfl, gap_inv h1, h2⟩

theorem gap_seq_none {e : PExpr} {p g s} (h : Gap g s) :
    Sem (.seq G.arg_ws e) false p (g ++ s) none ↔ Sem e false (p + blen g) s none := by
  obtain ⟨cs, h1, -⟩ := gap_x h p
  constructor
  · intro h2
    rcases sem_seq_none.1 h2 with h3 | ⟨p1, s1, t1, h3, h4⟩
    · exact absurd h3 (sem_not_none h1)
    · have := h3.det h1
      simp only [Option.some.injEq, Prod.mk.injEq] at this
      obtain ⟨rfl, rfl, -⟩ := this
      exact h4
  · intro h2; exact .seq_fail2 h1 h2

/-! ## reading -/

theorem unquoteR_eq (unq : Unquote) (t : Str) : unquoteR unq t = unquoted unq t := rfl

theorem parseString_read (unq : Unquote) (t : Tok) :
    parseString unq t = (read unq t.text).map (⟨t.span, ·⟩) := by
  unfold parseString read startsWithQuote
  cases t.text with
  | nil => rfl
  | cons c b =>
    by_cases h : c = '"' ∨ c = '\'' ∨ c = '`'
    · have h' : (c == '"' || c == '\'' || c == '`') = true := by
        simpa [or_assoc] using h
      simp only [h', if_pos h, if_true]
      rw [unquoteR_eq]
      cases unquoted unq (c :: b) <;> rfl
    · have h' : (c == '"' || c == '\'' || c == '`') = false := by
        simpa [not_or, and_assoc] using h
      simp only [h', if_neg h]
      rfl

theorem read_image (unq : Unquote) {t : Str} (h : ∀ c ∈ t, isImageChar c = true) :
    read unq t = .ok t := by
  unfold read
  cases t with
  | nil => rfl
  | cons c b =>
    simp only
    rw [if_neg]
    intro hc
    exact image_not_quote (h c (by simp)) hc

theorem joinLines_eq (t : Str) : joinLines t = cleanEscapedBreaks t := by
  fun_induction joinLines t with
  | case1 t ih => rw [cleanEscapedBreaks, ih]
  | case2 c t h ih => rw [cleanEscapedBreaks.eq_2 _ _ h, ih]
  | case3 => rfl

theorem labelQuoted_eq (unq : Unquote) (t : Tok) :
    labelQuoted unq t = (unquoted unq (joinLines t.text)).map (⟨t.span, ·⟩) := by
  unfold labelQuoted
  rw [unquoteR_eq, joinLines_eq]
  cases unquoted unq (cleanEscapedBreaks t.text) <;> rfl

/-! ## flags -/

def flagTok (r rn rv : Rule) (p : Nat) (f : Flag) : Tok :=
  .node r p (p + blen f.body) f.body
    [.node rn (p + 2) (p + 2 + blen f.name) f.name [],
     .node rv (p + 2 + blen f.name + 1) (p + blen f.body) f.value []]

theorem flag_body_len (f : Flag) : blen f.body = 2 + blen f.name + 1 + blen f.value := by
  unfold Flag.body
  simp only [blen_cons, blen_append, show '-'.utf8Size = 1 from rfl, show '='.utf8Size = 1 from rfl]
  omega

theorem flag_x (r rn rv : Rule) {f : Flag} (hn : f.name ≠ []) (ha : ∀ c ∈ f.name, IsAlpha c)
    {s : Str} (hv : Word f.value s) (p : Nat) :
    SemX (flagE r rn rv) false p f.body s [flagTok r rn rv p f] := by
  refine semX_rule.2 ⟨[] ++ ([.node rn (p + 2) (p + 2 + blen f.name) f.name []] ++
    ([] ++ [.node rv (p + 2 + blen f.name + 1) (p + blen f.body) f.value []])), ?_, rfl⟩
  refine SemX.seq (x1 := ['-', '-']) (semX_str.2 ⟨rfl, rfl⟩) (SemX.seq (x2 := '=' :: f.value) ?_
    (SemX.seq (x1 := ['=']) (x2 := f.value) (semX_str.2 ⟨rfl, rfl⟩) ?_))
  · refine semX_rule.2 ⟨[], step_alpha.plus_x.2 ⟨hn, runOf_class.2
      ⟨fun c hc => isAlpha_iff.2 (ha c hc), fun c b e => ?_⟩, rfl⟩, rfl⟩
    simp only [List.cons_append, List.cons.injEq] at e
    rw [← e.1]; decide +kernel
  · refine semX_rule.2 ⟨[], any_whitespace_iff.2 ⟨hv, rfl⟩, ?_⟩
    rw [flag_body_len]
    simp only [emitToks, blen_cons, blen_nil, show '-'.utf8Size = 1 from rfl,
      show '='.utf8Size = 1 from rfl]
    congr 2 <;> omega

theorem flag_inv {r rn rv : Rule} {p x s ts} (h : SemX (flagE r rn rv) false p x s ts) :
    ∃ n v, x = '-' :: '-' :: (n ++ '=' :: v) ∧ n ≠ [] ∧ (∀ c ∈ n, IsAlpha c) ∧ Word v s := by
  obtain ⟨t1, h, -⟩ := semX_rule.1 h
  obtain ⟨x1, x2, _, _, rfl, -, h1, h⟩ := semX_seq.1 h
  obtain ⟨x3, x4, _, _, rfl, -, h3, h⟩ := semX_seq.1 h
  obtain ⟨x5, x6, _, _, rfl, -, h5, h6⟩ := semX_seq.1 h
  obtain ⟨rfl, -⟩ := semX_str.1 h1
  obtain ⟨rfl, -⟩ := semX_str.1 h5
  obtain ⟨_, h3, -⟩ := semX_rule.1 h3
  obtain ⟨_, h6, -⟩ := semX_rule.1 h6
  obtain ⟨n3, r3, -⟩ := step_alpha.plus_x.1 h3
  exact ⟨x3, x6, rfl, n3, fun c hc => isAlpha_iff.1 ((runOf_class.1 r3).1 c hc),
    (any_whitespace_iff.1 h6).1⟩

theorem flag_none (r rn rv : Rule) {p s} : Sem (flagE r rn rv) false p s none ↔ ¬ StartsFlag s := by
  constructor
  · rintro h ⟨n, v, r', rfl, hn, ha, hv⟩
    have := flag_x r rn rv (f := ⟨[], n, v⟩) hn ha hv p
    refine sem_some_not h ?_ this
    simp [Flag.body]
  · intro h
    rcases sem_or (e := flagE r rn rv) (by cases r <;> cases rn <;> rfl) false p s with h1 |
      ⟨x, s', ts, rfl, h1⟩
    · exact h1
    · obtain ⟨n, v, rfl, hn, ha, hv⟩ := flag_inv h1
      exact absurd ⟨n, v, s', by simp, hn, ha, hv⟩ h

theorem gap_flag_none (r rn rv : Rule) {p g s} (h : Gap g s) (hs : ¬ StartsFlag s) :
    Sem (.seq G.arg_ws (flagE r rn rv)) false p (g ++ s) none :=
  (gap_seq_none h).2 ((flag_none r rn rv).2 hs)

/-- the tokens of some flags, with comments in between -/
inductive FlagToks (r rn rv : Rule) : Nat → List Flag → List Tok → Prop
  | nil {p} : FlagToks r rn rv p [] []
  | cons {p f fs cs ts} : Comments cs → FlagToks r rn rv (p + blen f.text) fs ts →
      FlagToks r rn rv p (f :: fs) (cs ++ flagTok r rn rv (p + blen f.gap) f :: ts)

theorem flagsText_cons (f : Flag) (fs : List Flag) : flagsText (f :: fs) = f.text ++ flagsText fs := rfl

theorem flags_x (r rn rv : Rule) {fs : List Flag} {s : Str} (h : FlagsFit fs s)
    (hf : ∀ p, Sem (.seq G.arg_ws (flagE r rn rv)) false p s none)
    (p : Nat) : ∃ ts, SemX (.star (.seq G.arg_ws (flagE r rn rv))) false p (flagsText fs) s ts ∧
      FlagToks r rn rv p fs ts := by
  induction fs generalizing p with
  | nil => exact ⟨[], .star_nil (hf p), .nil⟩
  | cons f fs ih =>
    obtain ⟨⟨hg, hn, ha, hv⟩, hfs⟩ := h
    obtain ⟨ts, h1, h2⟩ := ih hfs (p + blen f.text)
    obtain ⟨cs, h3, h4, -⟩ := gap_x hg p
    have h5 := SemX.seq h3 (flag_x r rn rv hn ha hv (p + blen f.gap))
    refine ⟨_, ?_, .cons h4 h2⟩
    have := SemX.star_cons (x1 := f.text) h5 h1
    rw [List.append_assoc] at this
    exact this

theorem flags_inv {r rn rv : Rule} {p x s ts}
    (h : SemX (.star (.seq G.arg_ws (flagE r rn rv))) false p x s ts) :
    (∃ fs, x = flagsText fs ∧ FlagsFit fs s) ∧
      ∃ p', Sem (.seq G.arg_ws (flagE r rn rv)) false p' s none := by
  refine semX_star_induction (P := fun _ x _ => (∃ fs, x = flagsText fs ∧ FlagsFit fs s) ∧
    ∃ p', Sem (.seq G.arg_ws (flagE r rn rv)) false p' s none) ?_ ?_ h
  · intro p h; exact ⟨⟨[], rfl, trivial⟩, p, h⟩
  · rintro p x1 x2 t1 t2 h1 _ ⟨⟨fs, rfl, hfs⟩, h3⟩
    obtain ⟨g, y, cs, us, rfl, -, hg, h2⟩ := gap_seq h1
    obtain ⟨n, v, rfl, hn, ha, hv⟩ := flag_inv h2
    exact ⟨⟨⟨g, n, v⟩ :: fs, by simp [flagsText, Flag.text, Flag.body], ⟨hg, hn, ha, hv⟩, hfs⟩, h3⟩

theorem flagTok_fields {unq : Unquote} {r rn rv : Rule} (hr : rn ≠ rv) {f : Flag}
    (ha : ∀ c ∈ f.name, IsAlpha c) (p : Nat) :
    flagFields unq rn rv (flagTok r rn rv (p + blen f.gap) f).children none none =
      (f.eval unq p).map fun x => (some x.name, some x.value) := by
  simp only [flagTok, Tok.children, flagFields, Tok.rule, if_true]
  rw [parseString_read, parseString_read]
  simp only [Tok.text]
  rw [read_image unq fun c hc => alpha_image (ha c hc)]
  simp only [mapped_ok, ok_bind, if_neg hr.symm, Flag.eval]
  cases read unq f.value <;> rfl

theorem fromFlag_ok {unq : Unquote} {f : Flag} (h : ∀ c ∈ f.name, IsAlpha c) (p : Nat) :
    fromFlagRecord unq (flagTok .from_flag .from_flag_name .from_flag_value (p + blen f.gap) f) =
      f.eval unq p := by
  unfold fromFlagRecord
  rw [flagTok_fields (by decide) h]
  unfold Flag.eval
  cases read unq f.value <;> rfl

theorem copyFlag_ok {unq : Unquote} {f : Flag} (h : ∀ c ∈ f.name, IsAlpha c) (p : Nat) :
    copyFlagRecord unq (flagTok .copy_flag .copy_flag_name .copy_flag_value (p + blen f.gap) f) =
      f.eval unq p := by
  unfold copyFlagRecord
  rw [flagTok_fields (by decide) h]
  unfold Flag.eval
  cases read unq f.value <;> rfl

/-! ## FROM -/

theorem fromFields_flags {unq : Unquote} {p fs ts us s} (h : FlagsFit fs s)
    (ht : FlagToks .from_flag .from_flag_name .from_flag_value p fs ts) (i a fl) :
    fromFields unq (ts ++ us) i a fl =
      evalFlags unq p fs >>= fun xs => fromFields unq us i a (fl ++ xs) := by
  induction ht generalizing fl with
  | nil => simp [evalFlags]
  | @cons p f fs cs ts hc _ ih =>
    rw [List.append_assoc, fromFields_comments hc, List.cons_append, fromFields]
    simp only [flagTok, Tok.rule]
    rw [show (Tok.node .from_flag _ _ _ _) = flagTok .from_flag .from_flag_name .from_flag_value
      (p + blen f.gap) f from rfl, fromFlag_ok h.1.2.2.1, evalFlags]
    cases f.eval unq p with
    | error e => rfl
    | ok x =>
      simp only [ok_bind]
      rw [ih h.2]
      cases evalFlags unq (p + blen f.text) fs with
      | error e => rfl
      | ok xs => simp

theorem splitOn_iff {c : Char} {s a b : Str} : splitOn c s = [a, b] ↔
    s = a ++ c :: b ∧ c ∉ a ∧ c ∉ b := by
  have ne : ∀ s, splitOn c s ≠ [] := by
    intro s
    induction s with
    | nil => simp [splitOn]
    | cons d s ih =>
      rw [splitOn]
      split
      · simp
      · split <;> simp
  have one : ∀ {s x : Str}, splitOn c s = [x] → s = x ∧ c ∉ s := by
    intro s
    induction s with
    | nil => intro x h; simp [splitOn] at h; exact ⟨h.symm, by simp⟩
    | cons d s ih =>
      intro x h
      rw [splitOn] at h
      split at h
      · simp only [List.cons.injEq] at h; exact absurd h.2 (ne s)
      · rename_i hd
        split at h
        · rename_i e; exact absurd e (ne s)
        · rename_i y ys e
          simp only [List.cons.injEq] at h
          obtain ⟨rfl, rfl⟩ := h
          obtain ⟨rfl, h2⟩ := ih e
          refine ⟨rfl, ?_⟩
          simp only [List.mem_cons, not_or]
          exact ⟨fun h => hd h.symm, h2⟩
  constructor
  · intro h
    induction s generalizing a with
    | nil => simp [splitOn] at h
    | cons d s ih =>
      rw [splitOn] at h
      split at h
      · rename_i hd
        simp only [List.cons.injEq] at h
        obtain ⟨rfl, h⟩ := h
        obtain ⟨rfl, h2⟩ := one h
        exact ⟨by rw [hd]; rfl, by simp, h2⟩
      · rename_i hd
        split at h
        · rename_i e; exact absurd e (ne s)
        · rename_i y ys e
          simp only [List.cons.injEq] at h
          obtain ⟨rfl, rfl⟩ := h
          obtain ⟨rfl, h1, h2⟩ := ih e
          refine ⟨rfl, ?_, h2⟩
          simp only [List.mem_cons, not_or]
          exact ⟨fun h => hd h.symm, h1⟩
  · rintro ⟨rfl, h1, h2⟩
    induction a with
    | nil => rw [List.nil_append, splitOn, if_pos rfl, splitOn_none h2]
    | cons d a ih =>
      simp only [List.mem_cons, not_or] at h1
      rw [List.cons_append, splitOn, if_neg (Ne.symm h1.1), ih h1.2]

theorem checkDigest_iff {r : ImageRef} : Verif.checkDigest r = true ↔ DigestOK r := by
  constructor
  · intro h g hg
    unfold Verif.checkDigest at h
    rw [hg] at h
    simp only at h
    split at h
    · rename_i alg hex e
      obtain ⟨rfl, h1, h2⟩ := splitOn_iff.1 e
      simp only [Bool.and_eq_true, beq_iff_eq, List.any_eq_true] at h
      obtain ⟨rfl, ⟨c, hc, hx⟩, hl⟩ := h
      refine ⟨hex, rfl, h2, hl, c, hc, ?_⟩
      simp only [isHexChar, Bool.or_eq_true, Bool.and_eq_true, decide_eq_true_eq] at hx
      simpa only [or_assoc] using hx
    · cases h
  · exact checkDigest_of

theorem alias_x {a : AliasText} {s : Str} (h : AliasFits a s) (hs : Rest s) (p : Nat) :
    ∃ cs ds, SemX (.opt G.from_alias_outer) false p a.text s
        (cs ++ (ds ++ [.node .from_alias (p + blen a.gap + blen a.kw + blen a.gap')
          (p + blen a.gap + blen a.kw + blen a.gap' + blen a.name) a.name []])) ∧
      Comments cs ∧ Comments ds := by
  obtain ⟨h1, h2, h3, h4, h5⟩ := h
  have ha : ∀ c ∈ a.name, isIdent c = true := fun c hc => isIdent_iff.2 (h5 c hc)
  obtain ⟨cs, g1, g2, -⟩ := gap_x h1 p
  obtain ⟨ds, g3, g4, -⟩ := gap_x h3 (p + blen a.gap + blen a.kw)
  refine ⟨cs, ds, semX_opt.2 (.inl ?_), g2, g4⟩
  refine SemX.seq (x2 := a.kw ++ (a.gap' ++ a.name)) ?_ (SemX.seq (t1 := []) ?_ (SemX.seq g3 ?_))
  · simpa using g1
  · exact kw_x (by decide +kernel) h2 _ _ _
  · exact semX_rule.2 ⟨[], step_ident.plus_x.2 ⟨h4, runOf_class.2
      ⟨ha, hs.endsWord.sep.not plain_ident⟩, rfl⟩, rfl⟩

theorem alias_inv {p x s ts} (h : SemX (.opt G.from_alias_outer) false p x s ts) :
    ∃ a, x = aliasText a ∧ ∀ y, a = some y → AliasFits y s := by
  rcases semX_opt.1 h with h | ⟨rfl, -, -⟩
  · obtain ⟨g, y, cs, us, rfl, -, hg, h1⟩ := gap_seq h
    obtain ⟨kw, z, _, _, rfl, -, h2, h3⟩ := semX_seq.1 h1
    obtain ⟨g', n, _, _, rfl, -, hg', h4⟩ := gap_seq h3
    obtain ⟨_, h5, -⟩ := semX_rule.1 h4
    obtain ⟨h6, h7, -⟩ := step_ident.plus_x.1 h5
    refine ⟨some ⟨g, kw, g', n⟩, rfl, ?_⟩
    rintro _ ⟨⟩
    refine ⟨?_, ?_, hg', h6, fun c hc => isIdent_iff.1 ((runOf_class.1 h7).1 c hc)⟩
    · simpa using hg
    · rw [(semX_istr.1 h2).1]; decide +kernel
  · exact ⟨none, rfl, by simp⟩

theorem alias_sep {a : Option AliasText} {s : Str} (h : ∀ x, a = some x → AliasFits x s)
    (hs : Rest s) : Sep (aliasText a ++ s) := by
  cases a with
  | none => exact hs.endsWord.sep
  | some x =>
    show Sep ((x.gap ++ (x.kw ++ (x.gap' ++ x.name))) ++ s)
    rw [show (x.gap ++ (x.kw ++ (x.gap' ++ x.name))) ++ s =
      x.gap ++ (x.kw ++ (x.gap' ++ (x.name ++ s))) by simp]
    exact (h x rfl).1.sep

theorem image_no_flag {i s : Str} (hi : ∀ c ∈ i, isImageChar c = true) (hs : Sep s) :
    ¬ StartsFlag (i ++ s) := by
  rintro ⟨n, v, r, e, hn, ha, hv⟩
  have hp : ∀ c ∈ '-' :: '-' :: (n ++ ['=']), plainChar c = true := by
    intro c hc
    simp only [List.mem_append, List.mem_cons, List.not_mem_nil, or_false] at hc
    rcases hc with rfl | rfl | hc | rfl
    · decide
    · decide
    · exact plain_alpha c (isAlpha_iff.2 (ha c hc))
    · decide
  obtain ⟨i', rfl, -⟩ := plain_prefix (b := v ++ r) hp hs (i := i) (by rw [e]; simp)
  have := hi '=' (by simp)
  exact absurd this (by decide)

/-- What the items are read as. -/
def Reads (i : Item) (s : Str) : Prop :=
  ∀ unq p, ∃ tok, SemX G.step false p i.text s [tok] ∧ (tok.rule ≠ .EOI ∧ tok.rule ≠ .comment) ∧
    (instructionOf unq tok).map some = i.eval unq p

abbrev fromBody : PExpr := .seq (.star (.seq G.arg_ws G.from_flag))
    (.seq G.arg_ws (.seq G.from_image (.opt G.from_alias_outer)))

theorem from_reads {kw : Str} {fs : List Flag} {g i : Str} {a : Option AliasText} {s : Str}
    (h : (Item.from kw fs g i a).Fits s) (hs : Rest s) : Reads (.from kw fs g i a) s := by
  intro unq p
  obtain ⟨h1, h2, h3, h4, h5, h7⟩ := h
  have hi : ∀ c ∈ i, isImageChar c = true := fun c hc => isImageChar_iff.2 (h5 c hc)
  have hsep := alias_sep h7 hs
  -- the alias
  have hal : ∀ p, ∃ cs, SemX (.opt G.from_alias_outer) false p (aliasText a) s cs ∧
      ∀ unq im fl, ∃ al, fromFields unq cs im none fl = .ok (im, al, fl) ∧
        ((a = none ∧ al = none) ∨ ∃ x t, a = some x ∧ al = some t ∧
          parseString unq t = .ok (x.name_at p)) := by
    intro p
    cases a with
    | none => exact ⟨[], from_alias_none hs p, fun unq im fl => ⟨none, rfl, .inl ⟨rfl, rfl⟩⟩⟩
    | some x =>
      have hx := h7 x rfl
      obtain ⟨cs, ds, g1, g2, g3⟩ := alias_x hx hs p
      refine ⟨_, g1, fun unq im fl => ⟨some (.node .from_alias
        (p + blen x.gap + blen x.kw + blen x.gap')
        (p + blen x.gap + blen x.kw + blen x.gap' + blen x.name) x.name []), ?_, ?_⟩⟩
      · rw [fromFields_comments g2, fromFields_comments g3]; rfl
      · refine .inr ⟨x, _, rfl, rfl, ?_⟩
        rw [parseString_reads (c := x.name) (reads_image (t := x.name) fun c hc => ident_image (hx.2.2.2.2 c hc))]
        rfl
  obtain ⟨cs, g1, g3⟩ := hal (p + blen kw + blen (flagsText fs) + blen g + blen i)
  obtain ⟨ds, k1, k2, -⟩ := gap_x h3 (p + blen kw + blen (flagsText fs))
  obtain ⟨ts, f1, f2⟩ := flags_x .from_flag .from_flag_name .from_flag_value h2
    (fun p => gap_flag_none _ _ _ h3 (image_no_flag hi hsep)) (p + blen kw)
  replace f1 : SemX (.star (.seq G.arg_ws G.from_flag)) _ _ _ _ _ := f1
  have him : SemX G.from_image false (p + blen kw + blen (flagsText fs) + blen g) i
      (aliasText a ++ s) [.node .from_image (p + blen kw + blen (flagsText fs) + blen g)
        (p + blen kw + blen (flagsText fs) + blen g + blen i) i []] :=
    semX_rule.2 ⟨[], step_image.plus_x.2 ⟨h4, runOf_class.2 ⟨hi, hsep.not plain_image⟩, rfl⟩, rfl⟩
  have hrun := step_kw (k := (c!"from", .from, fromBody)) (by simp [kwRules]) h1
    (SemX.seq (x1 := flagsText fs) (x2 := g ++ (i ++ aliasText a)) (s' := s)
      (by simpa using f1) (SemX.seq (by simpa using k1) (SemX.seq him g1)))
  refine ⟨_, hrun, ⟨by simp [Tok.rule], by simp [Tok.rule]⟩, ?_⟩
  obtain ⟨q, hq⟩ : ∃ q, q = p + blen kw + blen (flagsText fs) + blen g := ⟨_, rfl⟩
  rw [← hq] at g3 ⊢
  simp only [instructionOf, Tok.rule, fromRecord, Tok.children]
  rw [fromFields_flags h2 f2]
  simp only [Item.eval]
  cases hfl : evalFlags unq (p + blen kw) fs with
  | error e => rfl
  | ok xs =>
    simp only [ok_bind]
    rw [fromFields_comments k2]
    simp only [List.cons_append, List.nil_append, fromFields, Tok.rule]
    obtain ⟨al, e1, e2⟩ := g3 unq (some (.node .from_image q (q + blen i) i [])) xs
    rw [e1]
    simp only [ok_bind]
    rw [parseString_reads (c := i) (reads_image (t := i) hi)]
    simp only [ok_bind, checkDigest]
    by_cases hd : DigestOK (ImageRef.parse i)
    · rw [if_pos (checkDigest_iff.2 hd), if_pos hd, ← hq]
      rcases e2 with ⟨rfl, rfl⟩ | ⟨x, t, rfl, rfl, e2⟩
      · rfl
      · simp only [e2, ok_bind]
        rfl
    · rw [if_neg (fun h => hd (checkDigest_iff.1 h)), if_neg hd]
      rfl

theorem from_inv {kw : Str} (hk : lower kw = c!"from") {p x s ts}
    (h : SemX fromBody false p x s ts) :
    ∃ i : Item, i.text = kw ++ x ∧ i.Fits s := by
  obtain ⟨x1, y, _, _, rfl, -, h1, h2⟩ := semX_seq.1 h
  obtain ⟨⟨fs, rfl, hf⟩, -⟩ := flags_inv (r := .from_flag) (rn := .from_flag_name)
    (rv := .from_flag_value) h1
  obtain ⟨g, y, _, _, rfl, -, hg, h3⟩ := gap_seq h2
  obtain ⟨i, y, _, _, rfl, -, h4, h5⟩ := semX_seq.1 h3
  obtain ⟨a, rfl, ha⟩ := alias_inv h5
  obtain ⟨_, h6, -⟩ := semX_rule.1 h4
  obtain ⟨i1, i2, -⟩ := step_image.plus_x.1 h6
  refine ⟨.from kw fs g i a, rfl, hk, ?_, ?_, i1, ?_, ha⟩
  · simpa using hf
  · simpa using hg
  · exact fun c hc => isImageChar_iff.1 ((runOf_class.1 i2).1 c hc)

theorem from_none {p u} : Sem fromBody false p u none ↔ ¬ Begins c!"from" u := by
  have hb : Begins c!"from" u ↔ ∃ fs g c r, u = flagsText fs ++ (g ++ c :: r) ∧
      FlagsFit fs (g ++ c :: r) ∧ Gap g (c :: r) ∧ IsImageChar c ∧ ¬ StartsFlag (c :: r) := by
    unfold Begins; rw [if_pos rfl]
  rw [hb]
  constructor
  · rintro h ⟨fs, g, c, r, rfl, hf, hg, hc, hn⟩
    obtain ⟨ts, f1, f2⟩ := flags_x .from_flag .from_flag_name .from_flag_value hf
      (fun p => gap_flag_none _ _ _ hg hn) p
    rcases sem_seq_none.1 h with h | ⟨p1, s1, t1, h1, h2⟩
    · exact absurd h Sem.star_ne_none
    · have := h1.det f1
      simp only [Option.some.injEq, Prod.mk.injEq] at this
      obtain ⟨rfl, rfl, -⟩ := this
      rw [gap_seq_none hg] at h2
      rcases sem_seq_none.1 h2 with h3 | ⟨_, _, _, _, h3⟩
      · cases h3 with
        | rule_fail h3 =>
          have := step_image.plus_none.1 h3 c r rfl
          rw [isImageChar_iff.2 hc] at this; cases this
      · cases h3
  · intro h
    rcases sem_or (e := fromBody) (by decide +kernel) false p u with h1 | ⟨x, s, ts, rfl, h1⟩
    · exact h1
    · exfalso
      obtain ⟨x1, y, _, _, rfl, -, h1, h2⟩ := semX_seq.1 h1
      obtain ⟨⟨fs, rfl, hf⟩, p', hn⟩ := flags_inv (r := .from_flag) (rn := .from_flag_name)
        (rv := .from_flag_value) h1
      obtain ⟨g, y, _, _, rfl, -, hg, h3⟩ := gap_seq h2
      obtain ⟨i, y, _, _, rfl, -, h4, -⟩ := semX_seq.1 h3
      obtain ⟨_, h6, -⟩ := semX_rule.1 h4
      obtain ⟨i1, i2, -⟩ := step_image.plus_x.1 h6
      cases i with
      | nil => exact i1 rfl
      | cons c i =>
        refine h ⟨fs, g, c, i ++ (y ++ s), by simp, by simpa using hf, by simpa using hg,
          isImageChar_iff.1 ((runOf_class.1 i2).1 c (by simp)), ?_⟩
        rw [List.append_assoc, gap_seq_none (by simpa using hg), flag_none] at hn
        simpa using hn

end Src
end Verif
