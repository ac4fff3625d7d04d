import Verif.Proof.Gap

/-! # Running the grammar on written text: quoted strings, shell text -/

namespace Verif
open Spec

/-! ## the characters consumed by an expression -/

/-- every character that `e` consumes satisfies `f` -/
def charsOK (f : Char → Bool) : PExpr → Bool
  | .str w => w.all f
  | .range lo hi => (List.range (hi.toNat + 1 - lo.toNat)).all fun n => f (Char.ofNat (n + lo.toNat))
  | .seq a b => charsOK f a && charsOK f b
  | .alt a b => charsOK f a && charsOK f b
  | .star e => charsOK f e
  | .opt e => charsOK f e
  | .rule _ _ e => charsOK f e
  | .neg _ => true
  | _ => false

theorem SemX.chars {f : Char → Bool} {e : PExpr} (hc : charsOK f e = true) {q p x s' ts}
    (h : SemX e q p x s' ts) : ∀ c ∈ x, f c = true := by
  induction e generalizing q p x s' ts with
  | str w =>
    obtain ⟨rfl, -⟩ := semX_str.1 h
    exact fun c hx => List.all_eq_true.1 hc c hx
  | range lo hi =>
    obtain ⟨c, rfl, hf, -⟩ := (lex_range lo hi).x.1 h
    intro d hd
    have hd := List.mem_singleton.1 hd; subst hd
    simp only [decide_eq_true_eq] at hf
    have h1 : lo.toNat ≤ d.toNat := hf.1
    have h2 : d.toNat ≤ hi.toNat := hf.2
    have := List.all_eq_true.1 hc (d.toNat - lo.toNat) (List.mem_range.2 (by omega))
    rw [show d.toNat - lo.toNat + lo.toNat = d.toNat by omega] at this
    simpa using this
  | seq a b iha ihb =>
    simp only [charsOK, Bool.and_eq_true] at hc
    obtain ⟨x1, x2, t1, t2, rfl, rfl, h1, h2⟩ := semX_seq.1 h
    intro c hx
    rcases List.mem_append.1 hx with hx | hx
    · exact iha hc.1 h1 c hx
    · exact ihb hc.2 h2 c hx
  | alt a b iha ihb =>
    simp only [charsOK, Bool.and_eq_true] at hc
    rcases semX_alt.1 h with h | ⟨-, h⟩
    · exact iha hc.1 h
    · exact ihb hc.2 h
  | star e ih =>
    refine semX_star_induction (P := fun _ x _ => ∀ c ∈ x, f c = true) ?_ ?_ h
    · intro _ _ c hx; cases hx
    · intro p x1 x2 t1 t2 h1 _ h2 c hx
      rcases List.mem_append.1 hx with hx | hx
      · exact ih hc h1 c hx
      · exact h2 c hx
  | opt e ih =>
    rcases semX_opt.1 h with h | ⟨rfl, -, -⟩
    · exact ih hc h
    · intro c hx; cases hx
  | rule k r e ih =>
    obtain ⟨t1, h1, -⟩ := semX_rule.1 h
    exact ih hc h1
  | neg e ih =>
    obtain ⟨rfl, -, -⟩ := semX_neg.1 h
    intro c hx; cases hx
  | _ => simp [charsOK] at hc

/-! ## quoted strings -/

/-- the item repeated inside of quotes -/
theorem step_quoted (q : Char) :
    CharStep (.seq (.neg (.alt (.str [q]) (.alt (.str ['\\']) (.alt (.str ['\x00'])
      (.str ['\x1F']))))) .any)
      (fun c _ => !(c == q || (c == '\\' || (c == '\x00' || c == '\x1F')))) := by
  refine (charStep_neg_lex ((lex_str1 q).alt ((lex_str1 '\\').alt ((lex_str1 '\x00').alt
    (lex_str1 '\x1F')))) lex_any).congr fun c s => ?_
  simp only [charFn, Bool.and_true]
  cases (c == q || (c == '\\' || (c == '\x00' || c == '\x1F'))) <;> rfl

/-- what follows the backslash of an escape -/
def escapeTail : PExpr :=
  .alt (.str ['b']) (.alt (.str ['t']) (.alt (.str ['n']) (.alt (.str ['f']) (.alt (.str ['r'])
    (.alt (.str ['"']) (.alt (.str ['\\']) (.alt (.str ['\'']) (.alt G.unicode G.NEWLINE))))))))

theorem escape_eq : G.escape = G.atm .escape (.seq (.str ['\\']) (.opt escapeTail)) := rfl

theorem Spec.QuotedBody.tail {q c : Char} {t : Str} (h : QuotedBody q (c :: t)) (hc : c ≠ '\\') :
    QuotedBody q t := by
  cases h with
  | chr _ _ _ _ h => exact h
  | escaped _ _ => exact absurd rfl hc
  | backslash _ _ _ _ => exact absurd rfl hc

/-- A text without quotes and backslashes at the start of a quoted text ends before the quote. -/
theorem Spec.QuotedBody.drop {q : Char} {s' : Str} {x : Str} : ∀ {t r : Str}, QuotedBody q t →
    t ++ q :: s' = x ++ r → (∀ c ∈ x, c ≠ q ∧ c ≠ '\\') →
    ∃ t', t = x ++ t' ∧ r = t' ++ q :: s' ∧ QuotedBody q t' := by
  induction x with
  | nil => intro t r h e _; exact ⟨t, rfl, e.symm, h⟩
  | cons c x ih =>
    intro t r h e hx
    cases t with
    | nil =>
      simp only [List.nil_append, List.cons_append, List.cons.injEq] at e
      exact absurd e.1.symm (hx c (by simp)).1
    | cons d t =>
      simp only [List.cons_append, List.cons.injEq] at e
      obtain ⟨rfl, e⟩ := e
      obtain ⟨t', rfl, h2, h3⟩ := ih (h.tail (hx d (by simp)).2) e
        fun c hc => hx c (by simp [hc])
      exact ⟨t', rfl, h2, h3⟩

/-- An escape inside of a quoted text ends before the quote. -/
theorem escape_drop {q : Char} (hq : q = '"' ∨ q = '\'') {t s' : Str}
    (h : QuotedBody q ('\\' :: t)) (p : Nat) :
    ∃ x t', '\\' :: t = x ++ t' ∧ SemX G.escape true p x (t' ++ q :: s') [] ∧ QuotedBody q t' ∧
      x ≠ [] := by
  have hsem := parse_sem (e := .opt escapeTail) (by decide +kernel) true (p + 1) (t ++ q :: s')
  generalize parse (.opt escapeTail) true (p + 1) (t ++ q :: s') = o at hsem
  rcases o with _ | ⟨p', r, ts⟩
  · exact absurd hsem (by intro h; cases h)
  obtain ⟨x, hx, rfl, h1⟩ := hsem.x
  have key : ∀ t', t = x ++ t' → r = t' ++ q :: s' → QuotedBody q t' →
      ∃ x t', '\\' :: t = x ++ t' ∧ SemX G.escape true p x (t' ++ q :: s') [] ∧ QuotedBody q t' ∧
      x ≠ [] := by
    intro t' e1 e2 h3
    refine ⟨'\\' :: x, t', by rw [e1]; rfl, ?_, h3, by simp⟩
    have hts : ts = [] := by
      have := shape_mute (by decide +kernel) h1.shape
      exact this
    subst hts
    rw [← e2]
    exact semX_rule.2 ⟨[], SemX.seq (x1 := ['\\']) (t1 := []) (t2 := [])
      (semX_str.2 ⟨rfl, rfl⟩) h1, rfl⟩
  cases h with
  | chr _ h _ _ _ => exact absurd rfl h
  | @escaped c t hc ht =>
    -- the next character is a quote or a backslash
    rcases semX_opt.1 h1 with h1 | ⟨rfl, -, h1⟩
    · have hx1 : x = [c] := by
        have hh : x ++ r = c :: (t ++ q :: s') := by rw [← hx]; rfl
        have hne := h1.nonempty (by decide +kernel)
        cases x with
        | nil => exact absurd rfl hne
        | cons d x =>
          simp only [List.cons_append, List.cons.injEq] at hh
          obtain ⟨rfl, -⟩ := hh
          unfold escapeTail at h1
          simp only [semX_alt, semX_str, List.cons.injEq] at h1
          rcases hc with rfl | rfl | rfl
          all_goals
            rcases h1 with h1 | ⟨-, h1 | ⟨-, h1 | ⟨-, h1 | ⟨-, h1 | ⟨-, h1 | ⟨-, h1 | ⟨-, h1 |
              ⟨-, h1 | ⟨-, h1⟩⟩⟩⟩⟩⟩⟩⟩⟩
            all_goals first
              | exact absurd h1.1.1 (by decide)
              | exact congrArg _ h1.1.2
              | (have := SemX.chars (f := fun c => c != '"' && c != '\'' && c != '\\')
                   (by decide +kernel) h1 _ (List.mem_cons_self ..)
                 exact absurd this (by decide))
      subst hx1
      refine key t rfl ?_ ht
      simpa using hx.symm
    · exfalso
      rw [List.nil_append] at hx
      unfold escapeTail at h1
      rw [← hx] at h1
      simp only [sem_alt_none, (lex_str1 _).none_iff, charFn, List.cons_append] at h1
      rcases hc with rfl | rfl | rfl
      · exact absurd h1.2.2.2.2.2.1 (by simp)
      · exact absurd h1.2.2.2.2.2.2.2.1 (by simp)
      · exact absurd h1.2.2.2.2.2.2.1 (by simp)
  | @backslash c t h2 h3 h4 ht =>
    have hxq : ∀ d ∈ x, d ≠ q ∧ d ≠ '\\' := by
      rcases semX_opt.1 h1 with h1 | ⟨rfl, -, -⟩
      · have hh : x ++ r = c :: (t ++ q :: s') := by rw [← hx]; rfl
        have hne := h1.nonempty (by decide +kernel)
        cases x with
        | nil => exact absurd rfl hne
        | cons d x =>
          simp only [List.cons_append, List.cons.injEq] at hh
          obtain ⟨rfl, -⟩ := hh
          unfold escapeTail at h1
          simp only [semX_alt, semX_str, List.cons.injEq] at h1
          have fin : ∀ x : Str, (∀ c ∈ x, (c != '"' && c != '\'' && c != '\\') = true) →
              ∀ d ∈ x, d ≠ q ∧ d ≠ '\\' := by
            intro x hx d hd
            have := hx d hd
            simp only [Bool.and_eq_true, bne_iff_ne] at this
            exact ⟨by rcases hq with rfl | rfl <;> simp [this], this.2⟩
          rcases h1 with h1 | ⟨-, h1 | ⟨-, h1 | ⟨-, h1 | ⟨-, h1 | ⟨-, h1 | ⟨-, h1 | ⟨-, h1 |
            ⟨-, h1 | ⟨-, h1⟩⟩⟩⟩⟩⟩⟩⟩⟩
          · obtain ⟨⟨rfl, rfl⟩, -⟩ := h1; exact fin _ (by decide)
          · obtain ⟨⟨rfl, rfl⟩, -⟩ := h1; exact fin _ (by decide)
          · obtain ⟨⟨rfl, rfl⟩, -⟩ := h1; exact fin _ (by decide)
          · obtain ⟨⟨rfl, rfl⟩, -⟩ := h1; exact fin _ (by decide)
          · obtain ⟨⟨rfl, rfl⟩, -⟩ := h1; exact fin _ (by decide)
          · exact absurd h1.1.1 h2
          · exact absurd h1.1.1 h4
          · exact absurd h1.1.1 h3
          · exact fin _ (SemX.chars (by decide +kernel) h1)
          · exact fin _ (SemX.chars (by decide +kernel) h1)
      · intro d hd; cases hd
    obtain ⟨t', e1, e2, h5⟩ := ht.drop hx hxq
    exact key t' e1 e2 h5

/-- the rules `inner` and `single_quoted_inner` -/
def innerOf (q : Char) (r : Rule) (rr : RecRule) : PExpr :=
  G.atm r (.seq (.star (.seq (.neg (.alt (.str [q]) (.alt (.str ['\\']) (.alt (.str ['\x00'])
    (.str ['\x1F']))))) .any)) (.opt (.seq G.escape (.recur rr))))

theorem inner_nil {q : Char} {r : Rule} {rr : RecRule} (hq : q = '"' ∨ q = '\'') (s' : Str)
    (p : Nat) : SemX (innerOf q r rr) true p [] (q :: s') [] := by
  refine semX_rule.2 ⟨[], SemX.seq (x1 := []) (t1 := []) (t2 := [])
    (SemX.star_nil ((step_quoted q).none_iff.2 ?_)) (semX_opt.2 (.inr ⟨rfl, rfl, ?_⟩)), rfl⟩
  · simp [charFn]
  · refine .seq_fail1 (.rule_fail (.seq_fail1 ((lex_str1 '\\').none_iff.2 ?_)))
    rcases hq with rfl | rfl <;> rfl

theorem inner_x {q : Char} {r : Rule} {rr : RecRule} (hq : q = '"' ∨ q = '\'')
    (hr : G.body rr = innerOf q r rr) (s' : Str) : ∀ (n : Nat) (b : Str), b.length ≤ n →
    QuotedBody q b → ∀ p, SemX (innerOf q r rr) true p b (q :: s') [] := by
  intro n
  induction n with
  | zero =>
    intro b hb h p
    have := List.eq_nil_of_length_eq_zero (Nat.le_zero.1 hb)
    subst this
    exact inner_nil hq s' p
  | succ n ih =>
    have esc : ∀ t p, ('\\' :: t).length ≤ n + 1 → QuotedBody q ('\\' :: t) →
        SemX (innerOf q r rr) true p ('\\' :: t) (q :: s') [] := by
      intro t p hb h
      obtain ⟨x, t', e, h1, h2, h3⟩ := escape_drop (s' := s') hq h p
      have hlen : t'.length ≤ n := by
        have := congrArg List.length e
        rw [List.length_append] at this
        have : x.length ≠ 0 := fun h => h3 (List.eq_nil_of_length_eq_zero h)
        omega
      rw [e]
      refine semX_rule.2 ⟨[], SemX.seq (x1 := []) (x2 := x ++ t') (t1 := []) (t2 := [])
        (SemX.star_nil ((step_quoted q).none_iff.2 ?_)) (semX_opt.2 (.inl ?_)), rfl⟩
      · rw [← e]; simp [charFn]
      · exact SemX.seq (t1 := []) (t2 := []) h1 (semX_recur.2 (hr ▸ ih t' hlen h2 _))
    intro b hb h p
    cases h with
    | nil => exact inner_nil hq s' p
    | @chr c t h1 h2 h3 h4 ht =>
      obtain ⟨t1, h5, h6⟩ := semX_rule.1 (ih t (by simp at hb; omega) ht (p + blen [c]))
      cases h6
      obtain ⟨x1, x2, t1, t2, rfl, h6, h7, h8⟩ := semX_seq.1 h5
      obtain ⟨rfl, rfl⟩ := List.append_eq_nil_iff.1 h6.symm
      refine semX_rule.2 ⟨[], ?_, rfl⟩
      have := SemX.seq (t1 := []) (t2 := []) (SemX.star_cons (t1 := []) (t2 := []) (x1 := [c])
        ((step_quoted q).x.2 ⟨c, rfl, by simp [h1, h2, h3, h4], rfl⟩) h7) (x2 := x2) (s' := q :: s')
        (b := .opt (.seq G.escape (.recur rr))) ?_
      · simpa using this
      · rw [blen_append, ← Nat.add_assoc]; exact h8
    | escaped hc ht => exact esc _ p hb (.escaped hc ht)
    | backslash h1 h2 h3 ht => exact esc _ p hb (.backslash h1 h2 h3 ht)

theorem string_x {v : Str} (h : QuotedText v) (q : Bool) (p : Nat) (s' : Str) :
    ∃ ch, SemX G.string q p v s' [.node .string p (p + blen v) v ch] := by
  obtain ⟨c, b, rfl, hc, hb⟩ := h
  rcases hc with rfl | rfl
  · refine ⟨_, semX_rule.2 ⟨_, semX_alt.2 (.inr ⟨?_, semX_rule.2 ⟨[], ?_, rfl⟩⟩), rfl⟩⟩
    · refine .rule_fail (.seq_fail1 ((lex_str1 '\'').none_iff.2 rfl))
    · have := inner_x (q := '"') (r := .inner) (rr := .inner) (.inl rfl) rfl s' _ b
        (Nat.le_refl _) hb (p + blen ['"'])
      exact SemX.seq (x1 := ['"']) (t1 := []) (t2 := []) (semX_str.2 ⟨rfl, rfl⟩)
        (SemX.seq (x2 := ['"']) (t1 := []) (t2 := []) this (semX_str.2 ⟨rfl, rfl⟩))
  · refine ⟨_, semX_rule.2 ⟨_, semX_alt.2 (.inl (semX_rule.2 ⟨[], ?_, rfl⟩)), rfl⟩⟩
    · have := inner_x (q := '\'') (r := .single_quoted_inner) (rr := .single_quoted_inner)
        (.inr rfl) rfl s' _ b (Nat.le_refl _) hb (p + blen ['\''])
      exact SemX.seq (x1 := ['\'']) (t1 := []) (t2 := []) (semX_str.2 ⟨rfl, rfl⟩)
        (SemX.seq (x2 := ['\'']) (t1 := []) (t2 := []) this (semX_str.2 ⟨rfl, rfl⟩))

theorem string_none {q p} {s : Str} (h : ∀ r, s ≠ '"' :: r ∧ s ≠ '\'' :: r) :
    Sem G.string q p s none := by
  have : ∀ d, (∀ r, s ≠ d :: r) → charFn (fun c _ => c == d) s = none := by
    intro d hd
    cases s with
    | nil => rfl
    | cons c s =>
      have : c ≠ d := by rintro rfl; exact hd s rfl
      simp [charFn, beq_eq_false_iff_ne.2 this]
  refine .rule_fail (.alt_right (.rule_fail (.seq_fail1 ?_)) (.rule_fail (.seq_fail1 ?_)))
  · exact (lex_str1 '\'').none_iff.2 (this _ fun r => (h r).2)
  · exact (lex_str1 '"').none_iff.2 (this _ fun r => (h r).1)

/-- a quoted text after some space -/
theorem quoted_after {g v s : Str} (h : QuotedText v) : AfterSpace g (v ++ s) := by
  obtain ⟨c, b, rfl, hc, -⟩ := h
  refine ⟨?_, .inr fun d b e => ?_⟩
  · rcases hc with rfl | rfl <;> rfl
  · simp only [List.cons_append, List.cons.injEq] at e
    rw [← e.1]
    rcases hc with rfl | rfl <;> decide

theorem quoted_starts {v : Str} (h : QuotedText v) : StartsQuoted v := by
  obtain ⟨c, b, rfl, hc, -⟩ := h
  exact ⟨c, _, rfl, by rcases hc with rfl | rfl; exact .inl rfl; exact .inr (.inl rfl)⟩

theorem quoted_ne {v : Str} (h : QuotedText v) : v ≠ [] := by
  obtain ⟨c, b, rfl, -⟩ := h; simp

/-! ## shell text -/

theorem lineOK_comment {t r : Str} (h : Shell.LineOK t)
    (hr : ∀ b, r.dropWhile isBlank ≠ '#' :: b) : ∀ b, (t ++ r).dropWhile isBlank ≠ '#' :: b := by
  obtain ⟨-, -, h⟩ := h
  suffices ∀ w t, Blanks w → (∀ w' r, Blanks w' → w ++ t ≠ w' ++ '#' :: r) →
      ∀ b, (t ++ r).dropWhile isBlank ≠ '#' :: b from this [] t .nil h
  intro w t hw ht
  induction t generalizing w with
  | nil => exact hr
  | cons c t ih =>
    intro b
    cases hc : isBlank c with
    | true =>
      rw [List.cons_append, List.dropWhile_cons, if_pos hc]
      refine ih (w ++ [c]) ?_ ?_ b
      · intro d hd
        rcases List.mem_append.1 hd with hd | hd
        · exact hw d hd
        · rw [List.mem_singleton.1 hd]; exact isBlank_iff.1 hc
      · simpa using ht
    | false =>
      rw [List.cons_append, dropWhile_head hc]
      intro e
      simp only [List.cons.injEq] at e
      exact ht w t hw (by rw [e.1])

/-- No continuation inside of a line. -/
theorem lineOK_content {t r : Str} (h : ∀ c ∈ t, c ≠ '\n' ∧ c ≠ '\r')
    (hr : ∀ a w, Blanks w → t = a ++ '\\' :: w → afterBreak (r.dropWhile isBlank) = none)
    {a b : Str} {c : Char} (e : t = a ++ c :: b) :
    (!isBreak c && (afterContinuation (c :: (b ++ r))).isNone) = true := by
  have hc : isBreak c = false := isBreak_false.2 (h c (by simp [e]))
  rw [hc, Bool.not_false, Bool.true_and]
  by_cases hb : c = '\\'
  · subst hb
    simp only [afterContinuation]
    have : ∀ w b, Blanks w → t = a ++ '\\' :: (w ++ b) →
        (afterBreak ((b ++ r).dropWhile isBlank)).isNone = true := by
      intro w b hw e
      induction b generalizing w with
      | nil =>
        rw [List.nil_append, hr a w hw (by simpa using e)]; rfl
      | cons d b ih =>
        cases hd : isBlank d with
        | true =>
          rw [List.cons_append, List.dropWhile_cons, if_pos hd]
          refine ih (w ++ [d]) ?_ (by simpa using e)
          intro x hx
          rcases List.mem_append.1 hx with hx | hx
          · exact hw x hx
          · rw [List.mem_singleton.1 hx]; exact isBlank_iff.1 hd
        | false =>
          rw [List.cons_append, dropWhile_head hd, afterBreak_isNone,
            isBreak_false.2 (h d (by simp [e]))]
          rfl
    exact this [] b .nil e
  · cases hx : afterContinuation (c :: (b ++ r)) with
    | none => rfl
    | some r => exact absurd (afterContinuation_some hx) hb

theorem any_content_x {t r : Str} (h1 : t ≠ []) (h : ∀ c ∈ t, c ≠ '\n' ∧ c ≠ '\r')
    (hr : ∀ a w, Blanks w → t = a ++ '\\' :: w → afterBreak (r.dropWhile isBlank) = none)
    (hs : ∀ c b, r = c :: b → isBreak c = true ∨ (afterContinuation (c :: b)).isSome = true)
    (p : Nat) : SemX G.any_content false p t r [.node .any_content p (p + blen t) t []] := by
  refine semX_rule.2 ⟨[], step_any_content.plus_x.2 ⟨h1, ⟨fun a c b e => lineOK_content h hr e,
    fun c b e => ?_⟩, rfl⟩, rfl⟩
  rcases hs c b e with h | h
  · simp [h]
  · simp only [Bool.and_eq_false_iff]
    right
    cases hx : afterContinuation (c :: b) with
    | none => rw [hx] at h; cases h
    | some _ => rfl

theorem AtEnd.dropWhile {r : Str} (h : AtEnd r) : r.dropWhile isBlank = r := by
  cases r with
  | nil => rfl
  | cons c b => exact dropWhile_head (isBlank_break (h c b rfl))

theorem AtEnd.noComment {r : Str} (h : AtEnd r) : ∀ b, r.dropWhile isBlank ≠ '#' :: b := by
  intro b e
  rw [h.dropWhile] at e
  rcases h _ _ e with h | h <;> exact absurd h (by decide)

theorem AtEnd.startsArgWs {r : Str} (h : AtEnd r) : startsArgWs r = false := by
  cases r with
  | nil => rfl
  | cons c b =>
    rcases h c b rfl with rfl | rfl <;> rfl

/-- Running `any_breakable` on shell text. -/
theorem shell_body_x {s : Shell} (h : s.OK) {r : Str} (hr : AtEnd r) (p : Nat) :
    ∃ ch, SemX breakBody false p s.text r ch ∧
      breakableComponentsList ch = .ok (s.components p) := by
  induction s generalizing p with
  | last t =>
    obtain ⟨h1, h2⟩ := h
    refine ⟨[.node .any_content p (p + blen t) t []] ++ [], semX_alt.2 (.inr ⟨?_, ?_⟩), ?_⟩
    · exact .seq_fail1 (comment_line_fails (lineOK_comment h1 hr.noComment))
    · show SemX _ false p t r _
      have h3 := any_content_x (r := r) h1.1 h1.2.1 (fun a w hw e => absurd e (h2 a w hw))
        (fun c b e => .inl (by rcases hr c b e with rfl | rfl <;> rfl)) p
      have := SemX.seq (x1 := t) (x2 := []) (s' := r) (t2 := []) h3
        (semX_opt.2 (.inr ⟨rfl, rfl, .seq_fail1 (lex_line_continuation.none_iff.2 ?_)⟩))
        (b := .opt (.seq G.line_continuation (.recur .any_breakable)))
      · simpa using this
      · cases r with
        | nil => rfl
        | cons c b => rcases hr c b rfl with rfl | rfl <;> rfl
    · rfl
  | more t w n s ih =>
    obtain ⟨h1, hw, hn, hs⟩ := h
    obtain ⟨ch, h2, h3⟩ := ih hs (p + blen t + 1 + blen w + blen n)
    have e1 : blen ('\\' :: (w ++ n)) = 1 + blen w + blen n := by
      rw [blen_cons, blen_append, show '\\'.utf8Size = 1 from rfl]; omega
    refine ⟨[.node .any_content p (p + blen t) t []] ++ ([] ++ [.node .any_breakable
      (p + blen t + 1 + blen w + blen n) (p + blen t + 1 + blen w + blen n + blen s.text)
      s.text ch]), semX_alt.2 (.inr ⟨?_, ?_⟩), ?_⟩
    · refine .seq_fail1 (comment_line_fails ?_)
      show ∀ b, ((t ++ '\\' :: (w ++ (n ++ s.text))) ++ r).dropWhile isBlank ≠ '#' :: b
      rw [List.append_assoc]
      refine lineOK_comment h1 fun b => ?_
      rw [List.cons_append, dropWhile_head (by rfl)]
      simp
    · show SemX _ false p (t ++ '\\' :: (w ++ (n ++ s.text))) r _
      have h4 : SemX G.line_continuation false (p + blen t) ('\\' :: (w ++ n)) (s.text ++ r) [] :=
        continuation_x hw hn
      have h5 := SemX.seq h4 (semX_any_breakable.2 ⟨ch, by
        rw [e1, show p + blen t + (1 + blen w + blen n) = p + blen t + 1 + blen w + blen n by omega]
        exact h2, rfl⟩)
      rw [e1, show p + blen t + (1 + blen w + blen n) = p + blen t + 1 + blen w + blen n by omega]
        at h5
      have e2 : '\\' :: (w ++ (n ++ s.text)) = '\\' :: (w ++ n) ++ s.text := by simp
      rw [e2]
      refine SemX.seq ?_ (semX_opt.2 (.inl h5))
      refine any_content_x h1.1 h1.2.1 (fun a w' hw' e => ?_) (fun c b e => .inr ?_) p
      · rw [List.append_assoc, List.cons_append, dropWhile_head (by rfl)]; rfl
      · rw [← e]
        obtain ⟨d, b, rfl, hd⟩ := hn.head
        have := (lineBreak_iff.1 (hn.line (s.text ++ r))).2
        simp only [List.cons_append, List.append_assoc, afterContinuation]
        rw [dropWhile_blanks hw, dropWhile_head (isBlank_of_isBreak hd),
          ← List.cons_append, this]
        rfl
    · simp only [List.cons_append, List.nil_append, breakableComponentsList, Tok.rule,
        breakableComponents, h3, Shell.components]
      simp [Tok.span, Tok.start, Tok.stop, Tok.text, ok_bind]
  | comment w t n s ih =>
    obtain ⟨hw, ht, hn, hs⟩ := h
    obtain ⟨ch, h2, h3⟩ := ih hs (p + blen w + blen t + blen n)
    have e1 : p + blen (w ++ (t ++ n)) = p + blen w + blen t + blen n := by
      rw [blen_append, blen_append]; omega
    refine ⟨[.node .comment (p + blen w) (p + blen w + blen t) t []] ++ [.node .any_breakable
      (p + blen w + blen t + blen n) (p + blen w + blen t + blen n + blen s.text)
      s.text ch], semX_alt.2 (.inl ?_), ?_⟩
    · show SemX _ false p (w ++ (t ++ (n ++ s.text))) r _
      have e2 : w ++ (t ++ (n ++ s.text)) = w ++ (t ++ n) ++ s.text := by simp
      rw [e2]
      refine SemX.seq (comment_line_x hw ht hn) (semX_opt.2 (.inl (semX_any_breakable.2
        ⟨ch, ?_, ?_⟩)))
      · rw [e1]; exact h2
      · rw [e1]
    · simp only [List.cons_append, List.nil_append, breakableComponentsList, Tok.rule,
        breakableComponents, h3, Shell.components]
      simp [Tok.span, Tok.start, Tok.stop, Tok.text, ok_bind]

/-- The rules whose body is `any_breakable`. -/
theorem shell_x {s : Shell} (h : s.OK) {r : Str} (hr : AtEnd r) (rl : Rule) (p : Nat) :
    ∃ ch, SemX (G.atm rl G.any_breakable) false p s.text r
        [.node rl p (p + blen s.text) s.text ch] ∧
      parseAnyBreakable (.node rl p (p + blen s.text) s.text ch) = .ok (s.string p) := by
  obtain ⟨ch, h1, h2⟩ := shell_body_x h hr p
  refine ⟨_, semX_rule.2 ⟨_, semX_recur.1 (semX_any_breakable.2 ⟨ch, h1, rfl⟩), rfl⟩, ?_⟩
  simp only [parseAnyBreakable, breakableComponents, breakableComponentsList, Tok.rule, h2]
  simp [ok_bind, Shell.string, Tok.span, Tok.start, Tok.stop]

end Verif
