import Verif.Proof.Lines
import Verif.Spec.Keyword

/-! # Keywords -/

namespace Verif
open Spec

/-- The texts differ, ignoring case, at a position that both have. -/
def clash : Str → Str → Bool
  | a :: as, b :: bs => lowerChar a != lowerChar b || clash as bs
  | _, _ => false

theorem stripPrefixI_none_of_clash {k w : Str} (h : clash k w = true) (rest : Str) :
    stripPrefixI k (w ++ rest) = none := by
  induction k generalizing w with
  | nil => simp [clash] at h
  | cons a as ih =>
    cases w with
    | nil => simp [clash] at h
    | cons b bs =>
      simp only [clash, Bool.or_eq_true, bne_iff_ne] at h
      simp only [List.cons_append, stripPrefixI]
      split
      · rename_i e
        exact ih (h.resolve_left (absurd e))
      · rfl

theorem clash_lower (k w : Str) : clash k (lower w) = clash k w := by
  induction k generalizing w with
  | nil => simp [clash]
  | cons a as ih =>
    cases w with
    | nil => simp [clash, lower]
    | cons b bs =>
      have := ih bs
      simp only [lower, List.map_cons, clash, lowerChar_idem] at this ⊢
      rw [this]

theorem isAlpha_lowerChar (c : Char) : isAlpha (lowerChar c) = isAlpha c := by
  by_cases h : 'A' ≤ c ∧ c ≤ 'Z'
  · have h1 : 65 ≤ c.toNat ∧ c.toNat ≤ 90 := ⟨h.1, h.2⟩
    have e1 : isAlpha c = true := by simp [isAlpha, h]
    have e2 : lowerChar c = Char.ofNat (c.toNat + 32) := by simp [lowerChar, h]
    have e3 : ∀ m, m < 26 → isAlpha (Char.ofNat (m + 65 + 32)) = true := by decide +kernel
    have h := e3 (c.toNat - 65) (by omega)
    rw [show c.toNat - 65 + 65 = c.toNat by omega] at h
    rw [e1, e2, h]
  · rw [lowerChar, if_neg h]

theorem mem_takeWhile {f : Char → Bool} {s : Str} {c : Char} (h : c ∈ s.takeWhile f) :
    f c = true := by
  induction s with
  | nil => simp at h
  | cons d s ih =>
    rw [List.takeWhile_cons] at h
    split at h
    · rename_i hd
      rcases List.mem_cons.1 h with rfl | h
      · exact hd
      · exact ih h
    · simp at h

theorem alpha_of_lower {w w' : Str} (h : lower w = lower w') (hw : ∀ c ∈ w, isAlpha c = true) :
    ∀ c ∈ w', isAlpha c = true := by
  intro c hc
  have : lowerChar c ∈ lower w := by rw [h]; exact List.mem_map_of_mem hc
  obtain ⟨d, hd, e⟩ := List.mem_map.1 this
  rw [← isAlpha_lowerChar, ← e, isAlpha_lowerChar]
  exact hw d hd

theorem keyword_alpha {w : Str} (h : IsKeyword w) : ∀ c ∈ w, isAlpha c = true := by
  have hk : ∀ k ∈ keywords, ∀ c ∈ k, isAlpha c = true := by decide +kernel
  have hl : ∀ k ∈ keywords, lower k = k := by decide +kernel
  exact alpha_of_lower (w := lower w) (hl _ h) (hk _ h)

theorem keyword_ne {w : Str} (h : IsKeyword w) : w ≠ [] := by
  rintro rfl
  have : ([] : Str) ∉ keywords := by decide +kernel
  exact this h

/-- Keyword `k` is not found in front of a text that starts with the keyword `w ≠ k`. -/
theorem keyword_clash : ∀ k ∈ keywords, ∀ l ∈ keywords, k ≠ l → clash k l = true := by
  decide +kernel

theorem keyword_strip {k w : Str} (hk : k ∈ keywords) (hw : IsKeyword w) (rest : Str) :
    stripPrefixI k (w ++ rest) = if k = lower w then some rest else none := by
  have hl : ∀ k ∈ keywords, lower k = k := by decide +kernel
  split
  · rename_i e
    exact stripPrefixI_eq_some_iff.2 ⟨w, rfl, by rw [e, hl _ hw]⟩
  · rename_i e
    apply stripPrefixI_none_of_clash
    rw [← clash_lower]
    exact keyword_clash k hk _ hw e

/-- tokens that differ in the case of their first word only -/
inductive WordSim : Tok → Tok → Prop
  | keyword {r a b t t' ch} : (r ≠ .misc ∧ r ≠ .EOI ∧ r ≠ .comment) → WordSim (.node r a b t ch) (.node r a b t' ch)
  | misc {a b t t' a' b' w w' ch us} : lower w = lower w' → (∀ c ∈ w, isAlpha c = true) →
      WordSim (.node .misc a b t (.node .misc_instruction a' b' w ch :: us))
        (.node .misc a b t' (.node .misc_instruction a' b' w' ch :: us))

/-- outcomes of the engine that differ in the case of the first word only -/
inductive OutSim : Out → Out → Prop
  | none : OutSim none none
  | some {p s t t'} : WordSim t t' → OutSim (some (p, s, [t])) (some (p, s, [t']))

variable {w w' rest : Str}

theorem kw_istr {k : Str} (hk : k ∈ keywords) (hw : IsKeyword w) (q p) :
    Sem (.istr k) q p (w ++ rest) (if k = lower w then some (p + blen w, rest, []) else none) := by
  have h := keyword_strip hk hw rest
  split
  · rename_i e
    rw [if_pos e] at h
    have := Sem.istr_ok (q := q) (p := p) h
    rw [e, blen_lower] at this
    rw [e]; exact this
  · rename_i e
    rw [if_neg e] at h
    exact .istr_fail h

/-- An instruction rule with keyword `k` on a text that starts with a keyword. -/
theorem kw_rule {k : Str} {r : Rule} {e : PExpr} (hk : k ∈ keywords) (hr : r ≠ .misc ∧ r ≠ .EOI ∧ r ≠ .comment)
    (hl : lower w = lower w') (hw : IsKeyword w) (hs : safe false e = true) (p : Nat) :
    ∃ o o', Sem (.rule .normal r (.seq (.istr k) e)) false p (w ++ rest) o ∧
      Sem (.rule .normal r (.seq (.istr k) e)) false p (w' ++ rest) o' ∧ OutSim o o' := by
  have hw' : IsKeyword w' := by unfold IsKeyword; rw [← hl]; exact hw
  have h1 := kw_istr (rest := rest) hk hw false p
  have h2 := kw_istr (rest := rest) hk hw' false p
  rw [← blen_eq_of_lower hl, ← hl] at h2
  by_cases e1 : k = lower w
  · rw [if_pos e1] at h1 h2
    have h3 := parse_sem hs false (p + blen w) rest
    replace h3 : Sem e (innerQuiet .normal false) _ _ _ := h3
    generalize parse e false (p + blen w) rest = o at h3
    rcases o with _ | ⟨p', s', ts⟩
    · exact ⟨_, _, .rule_fail (.seq_fail2 h1 h3), .rule_fail (.seq_fail2 h2 h3), .none⟩
    · exact ⟨_, _, .rule_ok (.seq_ok h1 h3), .rule_ok (.seq_ok h2 h3), .some (.keyword hr)⟩
  · rw [if_neg e1] at h1 h2
    exact ⟨_, _, .rule_fail (.seq_fail1 h1), .rule_fail (.seq_fail1 h2), .none⟩

theorem OutSim.alt {a b : PExpr} {q p s s'}
    (h1 : ∃ o o', Sem a q p s o ∧ Sem a q p s' o' ∧ OutSim o o')
    (h2 : ∃ o o', Sem b q p s o ∧ Sem b q p s' o' ∧ OutSim o o') :
    ∃ o o', Sem (.alt a b) q p s o ∧ Sem (.alt a b) q p s' o' ∧ OutSim o o' := by
  obtain ⟨o, o', a1, a2, a3⟩ := h1
  cases a3 with
  | some h => exact ⟨_, _, .alt_left a1, .alt_left a2, .some h⟩
  | none =>
    obtain ⟨o, o', b1, b2, b3⟩ := h2
    exact ⟨_, _, .alt_right a1 b1, .alt_right a2 b2, b3⟩

theorem alpha_run {w rest : Str} (hw : ∀ c ∈ w, isAlpha c = true) (hne : w ≠ []) (q : Bool)
    (p : Nat) :
    SemX (G.plus G.ASCII_ALPHA) q p (w ++ rest.takeWhile isAlpha) (rest.dropWhile isAlpha) [] := by
  refine step_alpha.plus_x.2 ⟨by simp [hne], runOf_class.2 ⟨fun c hc => ?_, fun c b e => ?_⟩, rfl⟩
  · rcases List.mem_append.1 hc with hc | hc
    · exact hw c hc
    · exact (mem_takeWhile hc)
  · have := List.head_dropWhile_not isAlpha (w := by rw [e]; simp)
    rw [show (rest.dropWhile isAlpha).head (by rw [e]; simp) = c by simp [e]] at this
    simpa using this

theorem kw_misc (hl : lower w = lower w') (hw : IsKeyword w) (p : Nat) :
    ∃ o o', Sem G.misc false p (w ++ rest) o ∧ Sem G.misc false p (w' ++ rest) o' ∧
      OutSim o o' := by
  have hw' : IsKeyword w' := by unfold IsKeyword; rw [← hl]; exact hw
  have run : ∀ v : Str, IsKeyword v → Sem G.misc_instruction false p (v ++ rest)
      (some (p + blen v + blen (rest.takeWhile isAlpha), rest.dropWhile isAlpha,
        [.node .misc_instruction p (p + blen v + blen (rest.takeWhile isAlpha))
          (v ++ rest.takeWhile isAlpha) []])) := by
    intro v hv
    have h := semX_rule (k := .atomic) (r := .misc_instruction) (q := false) |>.2
      ⟨[], alpha_run (rest := rest) (keyword_alpha hv) (keyword_ne hv) true p, rfl⟩
    unfold SemX at h
    rw [List.append_assoc, List.takeWhile_append_dropWhile, blen_append, ← Nat.add_assoc] at h
    exact h
  have h1 := run w hw
  have h2 := run w' hw'
  rw [← blen_eq_of_lower hl] at h2
  have h3 := parse_sem (e := G.misc_arguments) (by decide +kernel) false
    (p + blen w + blen (rest.takeWhile isAlpha)) (rest.dropWhile isAlpha)
  replace h3 : Sem G.misc_arguments (innerQuiet .normal false) _ _ _ := h3
  generalize parse G.misc_arguments false (p + blen w + blen (rest.takeWhile isAlpha))
    (rest.dropWhile isAlpha) = o at h3
  rcases o with _ | ⟨p', s', ts⟩
  · exact ⟨_, _, .rule_fail (.seq_fail2 h1 h3), .rule_fail (.seq_fail2 h2 h3), .none⟩
  · refine ⟨_, _, .rule_ok (.seq_ok h1 h3), .rule_ok (.seq_ok h2 h3), .some (.misc ?_ ?_)⟩
    · simp only [lower, List.map_append] at hl ⊢
      rw [hl]
    · intro c hc
      rcases List.mem_append.1 hc with hc | hc
      · exact keyword_alpha hw c hc
      · exact (mem_takeWhile hc)

theorem kw_step (hl : lower w = lower w') (hw : IsKeyword w) (p : Nat) :
    ∃ o o', Sem G.step false p (w ++ rest) o ∧ Sem G.step false p (w' ++ rest) o' ∧
      OutSim o o' := by
  have hk : ∀ {k : Str} {r : Rule} {e : PExpr}, k ∈ keywords →
      (r ≠ .misc ∧ r ≠ .EOI ∧ r ≠ .comment) → safe false e = true →
      ∃ o o', Sem (.rule .normal r (.seq (.istr k) e)) false p (w ++ rest) o ∧
        Sem (.rule .normal r (.seq (.istr k) e)) false p (w' ++ rest) o' ∧ OutSim o o' :=
    fun {k r e} h1 h2 h3 => kw_rule (k := k) (r := r) (e := e) (rest := rest) h1 h2 hl hw h3 p
  unfold G.step
  refine OutSim.alt (hk (by decide +kernel) (by decide) (by decide +kernel))
    (OutSim.alt (hk (by decide +kernel) (by decide) (by decide +kernel))
    (OutSim.alt (hk (by decide +kernel) (by decide) (by decide +kernel))
    (OutSim.alt (hk (by decide +kernel) (by decide) (by decide +kernel))
    (OutSim.alt (hk (by decide +kernel) (by decide) (by decide +kernel))
    (OutSim.alt (hk (by decide +kernel) (by decide) (by decide +kernel))
    (OutSim.alt (hk (by decide +kernel) (by decide) (by decide +kernel))
    (OutSim.alt (hk (by decide +kernel) (by decide) (by decide +kernel))
    (kw_misc hl hw p))))))))

/-- tokens of two documents that differ in the case of their first word only -/
theorem kw_docToks (hl : lower w = lower w') (hw : IsKeyword w) (p : Nat) :
    (docToks p (w ++ rest) = none ∧ docToks p (w' ++ rest) = none) ∨
      ∃ t t' us, docToks p (w ++ rest) = some (t :: us) ∧
        docToks p (w' ++ rest) = some (t' :: us) ∧ WordSim t t' := by
  have hw' : IsKeyword w' := by unfold IsKeyword; rw [← hl]; exact hw
  have head : ∀ v : Str, IsKeyword v → ∀ c b, v ++ rest = c :: b → isAlpha c = true := by
    intro v hv c b e
    cases hvv : v with
    | nil => exact absurd hvv (keyword_ne hv)
    | cons d ds =>
      rw [hvv] at e; simp at e
      exact keyword_alpha hv c (by rw [hvv, e.1]; simp)
  have alpha_not : ∀ c, isAlpha c = true → isBlank c = false ∧ c ≠ '#' ∧ c ≠ '\n' ∧ c ≠ '\r' := by
    intro c hc
    refine ⟨?_, ?_, ?_, ?_⟩
    · cases hb : isBlank c with
      | false => rfl
      | true =>
        rcases isBlank_iff.1 hb with rfl | rfl <;> exact absurd hc (by decide +kernel)
    all_goals (rintro rfl; exact absurd hc (by decide +kernel))
  have blank : ∀ v : Str, IsKeyword v → Sem (.star G.ws) false p (v ++ rest)
      (some (p, v ++ rest, [])) := by
    intro v hv
    have := ws_nil (q := false) (p := p) (s' := v ++ rest)
      fun c b e => (alpha_not c (head v hv c b e)).1
    unfold SemX at this; simpa using this
  obtain ⟨o, o', h1, h2, h3⟩ := kw_step (rest := rest) hl hw p
  cases h3 with
  | none =>
    left
    have fail : ∀ v : Str, IsKeyword v → Sem G.step false p (v ++ rest) none →
        docToks p (v ++ rest) = none := by
      intro v hv hs
      obtain ⟨c, b, e⟩ : ∃ c b, v ++ rest = c :: b := by
        cases hvv : v with
        | nil => exact absurd hvv (keyword_ne hv)
        | cons d ds => exact ⟨d, ds ++ rest, rfl⟩
      have hc := alpha_not c (head v hv c b e)
      have hcm : Sem G.comment false p (v ++ rest) none := by
        refine .rule_fail (.seq_fail1 ((lex_str1 '#').none_iff.2 ?_))
        rw [e]; simp [charFn, beq_eq_false_iff_ne.2 hc.2.1]
      have hm : Sem G.meta_step false p (v ++ rest) (some (p, v ++ rest, [] ++ ([] ++ []))) :=
        .seq_ok (blank v hv) (.seq_ok (.opt_none (.alt_right hs hcm)) (blank v hv))
      have hnl : Sem G.NEWLINE false p (v ++ rest) none := by
        refine lex_NEWLINE.none_iff.2 ?_
        have := afterBreak_isNone c b
        rw [isBreak_false.2 hc.2.2] at this
        rw [e]; simpa using this
      have heoi : Sem G.EOI false p (v ++ rest) none := by
        rw [e]; exact .rule_fail .eoi_fail
      unfold docToks
      rw [(parse_eq_iff safe_lines).2
        (.seq_fail2 hm (.seq_fail2 (.star_nil (.seq_fail1 hnl)) heoi))]
      rfl
    exact ⟨fail w hw h1, fail w' hw' h2⟩
  | @some p' s' t t' hsim =>
    have full : ∀ (v : Str) (u : Tok), IsKeyword v →
        Sem G.step false p (v ++ rest) (some (p', s', [u])) →
        docToks p (v ++ rest) =
          (parse (.seq (.star G.ws) (.seq (.star (.seq G.NEWLINE G.meta_step)) G.EOI)) false
            p' s').map fun x => u :: x.2.2 := by
      intro v u hv hs
      have h4 := parse_sem (e := .seq (.star G.ws)
        (.seq (.star (.seq G.NEWLINE G.meta_step)) G.EOI)) (by decide +kernel) false p' s'
      have hopt := Sem.opt_some (Sem.alt_left (b := G.comment) hs)
      unfold docToks
      generalize parse (.seq (.star G.ws) (.seq (.star (.seq G.NEWLINE G.meta_step)) G.EOI)) false
        p' s' = o at h4
      rcases o with _ | ⟨p2, s2, us⟩
      · rcases sem_seq_none.1 h4 with h4 | ⟨p1, s1, t1, h4, h5⟩
        · exact absurd h4 Sem.star_ne_none
        · rw [(parse_eq_iff safe_lines).2
            (.seq_fail2 (.seq_ok (blank v hv) (.seq_ok hopt h4)) h5)]
          rfl
      · obtain ⟨p1, s1, t1, t2, h6, h5, rfl⟩ := sem_seq_some.1 h4
        rw [(parse_eq_iff safe_lines).2
            (.seq_ok (.seq_ok (blank v hv) (.seq_ok hopt h6)) h5)]
        simp
    rw [full w t hw h1, full w' t' hw' h2]
    rcases parse (.seq (.star G.ws) (.seq (.star (.seq G.NEWLINE G.meta_step)) G.EOI)) false
        p' s' with _ | ⟨p2, s2, us⟩
    · exact .inl ⟨rfl, rfl⟩
    · exact .inr ⟨t, t', us, rfl, rfl, hsim⟩

/-! ## records -/

theorem miscFields_word (unq : Unquote) (n n' : SpannedString) (us : List Tok)
    (a : Option BreakableString) :
    (∃ e, miscFields unq us (some n) a = .error e ∧ miscFields unq us (some n') a = .error e) ∨
    (∃ x, miscFields unq us (some n) a = .ok x ∧ miscFields unq us (some n') a = .ok x) ∨
    (∃ b, miscFields unq us (some n) a = .ok (some n, b) ∧
      miscFields unq us (some n') a = .ok (some n', b)) := by
  induction us generalizing a with
  | nil => exact .inr (.inr ⟨a, rfl, rfl⟩)
  | cons u us ih =>
    simp only [miscFields]
    split
    · cases parseString unq u with
      | error e => exact .inl ⟨e, rfl, rfl⟩
      | ok m =>
        simp only [ok_bind]
        cases miscFields unq us (some m) a with
        | error e => exact .inl ⟨e, rfl, rfl⟩
        | ok x => exact .inr (.inl ⟨x, rfl, rfl⟩)
    · cases parseAnyBreakable u with
      | error e => exact .inl ⟨e, rfl, rfl⟩
      | ok m => exact ih (some m)
    · exact .inl ⟨_, rfl, rfl⟩

theorem alpha_not_quote {c : Char} (h : isAlpha c = true) :
    (c == '"' || c == '\'' || c == '`') = false := by
  cases hb : (c == '"' || c == '\'' || c == '`') with
  | false => rfl
  | true =>
    simp only [Bool.or_eq_true, beq_iff_eq] at hb
    rcases hb with (rfl | rfl) | rfl <;> exact absurd h (by decide +kernel)

theorem parseString_alpha {unq : Unquote} {t : Tok} (h : ∀ c ∈ t.text, isAlpha c = true) :
    parseString unq t = .ok { span := t.span, content := t.text } := by
  have : startsWithQuote t.text = false := by
    unfold startsWithQuote
    cases ht : t.text with
    | nil => rfl
    | cons c b => exact alpha_not_quote (h c (by rw [ht]; simp))
  simp [parseString, this]

theorem wordSim_instruction {unq : Unquote} {t t' : Tok} (h : WordSim t t') :
    (∃ e, instructionOf unq t = .error e ∧ instructionOf unq t' = .error e) ∨
    (∃ i j, instructionOf unq t = .ok i ∧ instructionOf unq t' = .ok j ∧
      SameButWordCase i j) := by
  cases h with
  | @keyword r a b t t' ch hr =>
    have e : instructionOf unq (.node r a b t ch) = instructionOf unq (.node r a b t' ch) := by
      cases r <;> rfl
    rw [← e]
    cases instructionOf unq (.node r a b t ch) with
    | error e => exact .inl ⟨e, rfl, rfl⟩
    | ok i => exact .inr ⟨i, i, rfl, rfl, .inl rfl⟩
  | @misc a b t t' a' b' w w' ch us hl hw =>
    have hw' := alpha_of_lower hl hw
    have e1 := parseString_alpha (unq := unq) (t := .node .misc_instruction a' b' w ch) hw
    have e2 := parseString_alpha (unq := unq) (t := .node .misc_instruction a' b' w' ch) hw'
    simp only [instructionOf, miscRecord, Tok.rule, Tok.children, miscFields, e1, e2, ok_bind]
    simp only [Tok.text, Tok.span, Tok.start, Tok.stop]
    rcases miscFields_word unq ⟨⟨a', b'⟩, w⟩ ⟨⟨a', b'⟩, w'⟩ us none with
      ⟨e, g1, g2⟩ | ⟨⟨x, y⟩, g1, g2⟩ | ⟨y, g1, g2⟩
    · rw [g1, g2]; exact .inl ⟨e, rfl, rfl⟩
    · rw [g1, g2]
      simp only [ok_bind]
      cases x with
      | none => exact .inl ⟨_, rfl, rfl⟩
      | some x =>
        cases y with
        | none => exact .inl ⟨_, rfl, rfl⟩
        | some y => exact .inr ⟨_, _, rfl, rfl, .inl rfl⟩
    · rw [g1, g2]
      simp only [ok_bind]
      cases y with
      | none => exact .inl ⟨_, rfl, rfl⟩
      | some y => exact .inr ⟨_, _, rfl, rfl, .inr ⟨_, w', hl.symm, rfl, rfl⟩⟩

theorem wordSim_rule {t t' : Tok} (h : WordSim t t') : t.rule = t'.rule := by
  cases h <;> rfl

theorem wordSim_not {t t' : Tok} (h : WordSim t t') : t.rule ≠ .EOI ∧ t.rule ≠ .comment := by
  cases h with
  | keyword hr => exact ⟨hr.2.1, hr.2.2⟩
  | misc => exact ⟨by simp [Tok.rule], by simp [Tok.rule]⟩

theorem recordLoop_cons_rule {unq : Unquote} {u : Tok} {us : List Tok} {st : LoopState}
    (h1 : u.rule ≠ .EOI) (h2 : u.rule ≠ .comment) : recordLoop unq (u :: us) st =
      (instructionOf unq u >>= fun ins => recordLoop unq us (loopStep st ins)) := by
  rw [recordLoop]
  split
  · exact absurd ‹_› h1
  · exact absurd ‹_› h2
  · rfl

theorem parse_keyword_case (unq : Unquote) (hl : lower w = lower w') (hw : IsKeyword w) :
    SameButFirstWordCase (Dockerfile.parse unq (w ++ rest))
      (Dockerfile.parse unq (w' ++ rest)) := by
  rw [parse_docToks, parse_docToks]
  rcases kw_docToks (rest := rest) hl hw 0 with ⟨h1, h2⟩ | ⟨t, t', us, h1, h2, hs⟩
  · rw [h1, h2]; exact .error
  · rw [h1, h2]
    have n1 := wordSim_not hs
    have n2 := n1; rw [wordSim_rule hs] at n2
    simp only [recordLoop_cons_rule n1.1 n1.2, recordLoop_cons_rule n2.1 n2.2]
    rcases wordSim_instruction (unq := unq) hs with ⟨e, g1, g2⟩ | ⟨i, j, g1, g2, hij⟩
    · rw [g1, g2]; exact .error
    · rw [g1, g2]
      simp only [ok_bind]
      rw [recordLoop_from, recordLoop_from (a := loopStep .init j)]
      cases recordLoop unq us .init with
      | error e => exact .error
      | ok st =>
        simp only [mapped_ok]
        rcases hij with rfl | ⟨m, v, hv, rfl, rfl⟩
        · clear g1 g2
          cases i <;> exact .ok rfl rfl rfl (.inl rfl)
        · exact .ok rfl rfl rfl (.inr ⟨m, v, hv, rfl, rfl⟩)

end Verif
