import Verif.Proof.CostBound

/-!
# Bounding the work of the engine: blanks, continuations, words

The analysis of `Proof/CostBound.lean` loses a factor of the length of the input wherever a
repetition looks ahead.  For the repetitions of the grammar that do so the lookahead is paid for
by what is consumed next; this file has the accounts, rule by rule.
-/

namespace Verif

open G (ws NEWLINE comment comment_line empty_line line_continuation arg_ws_item arg_ws arg_ws_maybe
  any_whitespace)

/-! ## the recursive rules -/

theorem area {c N : Nat} : (c + 1) * N = c * N + N := by rw [Nat.add_mul, Nat.one_mul]

theorem WorkBnd.Holds.ok0 {k kt t kf f b s p' s' ts n}
    (h : WorkBnd.Holds ⟨k, 0, kt, t, kf, f, b⟩ s (some (p', s', ts)) n) :
    n ≤ k * (s.length - s'.length + 1) := by
  have := h.1; simpa using this

theorem WorkBnd.Holds.ok1 {k kt t kf f b s p' s' ts n}
    (h : WorkBnd.Holds ⟨k, 1, kt, t, kf, f, b⟩ s (some (p', s', ts)) n) {N : Nat}
    (hN : s.length + 1 ≤ N) :
    n ≤ k * ((s.length - s'.length) * N + N) := by
  have := h.1
  refine Nat.le_trans this (Nat.mul_le_mul (Nat.le_refl _) ?_)
  rw [Nat.pow_one, ← area]
  exact Nat.mul_le_mul (Nat.le_refl _) hN

theorem WorkBnd.Holds.fail0 {ks sd kt t k b s n}
    (h : WorkBnd.Holds ⟨ks, sd, kt, t, k, 0, b⟩ s none n) : n ≤ k := by
  have := h.1; simpa using this

theorem WorkBnd.Holds.fail1 {ks sd kt t k b s n}
    (h : WorkBnd.Holds ⟨ks, sd, kt, t, k, 1, b⟩ s none n) {N : Nat} (hN : s.length + 1 ≤ N) :
    n ≤ k * N := by
  have := h.1
  refine Nat.le_trans this (Nat.mul_le_mul (Nat.le_refl _) ?_)
  rw [Nat.pow_one]; exact hN

theorem sound_comment_line : Sound comment_line ⟨35, 0, 35, 1, 12, 1, true⟩ :=
  sound_of_bnd noOv_ok (by decide +kernel) (by decide +kernel)
theorem sound_empty_line : Sound empty_line ⟨13, 0, 13, 1, 13, 1, true⟩ :=
  sound_of_bnd noOv_ok (by decide +kernel) (by decide +kernel)
theorem sound_line_continuation : Sound line_continuation ⟨15, 0, 15, 1, 15, 1, true⟩ :=
  sound_of_bnd noOv_ok (by decide +kernel) (by decide +kernel)
theorem sound_any_content : Sound G.any_content ⟨78, 1, 78, 2, 27, 1, true⟩ :=
  sound_of_bnd noOv_ok (by decide +kernel) (by decide +kernel)
theorem sound_escape : Sound G.escape ⟨102, 0, 102, 0, 3, 0, true⟩ :=
  sound_of_bnd noOv_ok (by decide +kernel) (by decide +kernel)

/-- The bound for `any_breakable` behind a recursive reference. -/
def bndBreakable : WorkBnd := ⟨200, 1, 200, 2, 45, 1, true⟩
/-- The bound for `inner` and `single_quoted_inner` behind a recursive reference. -/
def bndInner : WorkBnd := ⟨350, 0, 350, 1, 0, 0, false⟩

theorem any_breakable_bound (n : Nat) : ∀ s : Str, s.length < n → ∀ q p o m,
    SemM (.recur .any_breakable) q p s o m → bndBreakable.Holds s o m.evals := by
  have cl : ∀ {q p s o m}, SemM comment_line q p s o m → _ :=
    fun {q p s o m} h => sound_comment_line q p s o m h
  have ac : ∀ {q p s o m}, SemM G.any_content q p s o m → _ :=
    fun {q p s o m} h => sound_any_content q p s o m h
  have lc : ∀ {q p s o m}, SemM line_continuation q p s o m → _ :=
    fun {q p s o m} h => sound_line_continuation q p s o m h
  have some1 : ∀ {s p' s' ts n} {N : Nat}, s.length + 1 = N →
      n ≤ 200 * ((s.length - s'.length) * N + N) →
      bndBreakable.Holds s (some (p', s', ts)) n := by
    rintro s p' s' ts n N rfl h
    have h : n ≤ 200 * ((s.length - s'.length + 1) * (s.length + 1)) := by
      rw [area (c := s.length - s'.length)]; exact h
    refine ⟨?_, ?_⟩
    · show n ≤ 200 * ((s.length - s'.length + 1) * (s.length + 1) ^ 1)
      rw [Nat.pow_one]; exact h
    · show n ≤ 200 * (s.length + 1) ^ 2
      refine bump h (Nat.le_refl _) ?_
      rw [Nat.pow_succ, Nat.pow_one]
      exact Nat.mul_le_mul (by omega) (Nat.le_refl _)
  have step : ∀ {c1 c2 c N : Nat}, c = c1 + c2 → c * N = c1 * N + c2 * N := by
    rintro c1 c2 c N rfl; exact Nat.add_mul _ _ _
  have pos : ∀ {c N : Nat}, 1 ≤ c → N ≤ c * N := by
    intro c N h; have := Nat.mul_le_mul h (Nat.le_refl N); omega
  induction n with
  | zero => intro s h; omega
  | succ n ih =>
    intro s hn q p o m h
    obtain ⟨m0, h, e0⟩ := h.inv_recur
    have h : SemM (.rule .compound .any_breakable
      (.alt (.seq comment_line (.opt (.recur .any_breakable)))
        (.seq G.any_content (.opt (.seq line_continuation (.recur .any_breakable)))))) q p s o m0
      := h
    obtain ⟨N, hN⟩ : ∃ N, s.length + 1 = N := ⟨_, rfl⟩
    cases o with
    | none =>
      obtain ⟨m1, h, e1⟩ := h.inv_rule_none
      obtain ⟨m2, m3, h1, h2, e2⟩ := h.inv_alt_none
      rcases h1.inv_seq_none with ⟨m4, h1, e3⟩ | ⟨_, _, _, _, _, _, h1', _⟩
      · rcases h2.inv_seq_none with ⟨m5, h2, e4⟩ | ⟨_, _, _, _, _, _, h2', _⟩
        · have a1 := (cl h1).fail1 (Nat.le_of_eq hN)
          have a2 := (ac h2).fail1 (Nat.le_of_eq hN)
          refine ⟨?_, rfl⟩
          simp only [bndBreakable, Nat.pow_one, hN, e0, e1, e2, e3, e4, Meter.around,
            Meter.andThen]
          omega
        · rcases h2'.inv_opt with ⟨_, _, _, h, _⟩ | ⟨_, _, h, _⟩ <;> cases h
      · rcases h1'.inv_opt with ⟨_, _, _, h, _⟩ | ⟨_, _, h, _⟩ <;> cases h
    | some r =>
      obtain ⟨p', s', ts⟩ := r
      refine some1 hN ?_
      obtain ⟨t0, m1, h, e1⟩ := h.inv_rule_some
      rcases h.inv_alt_some with ⟨m2, h, e2⟩ | ⟨m2, m3, h0, h, e2⟩
      · obtain ⟨p1, s1, t1, t2, m3, m4, h1, h2, e3⟩ := h.inv_seq_some
        have a1 := (cl h1).ok0
        have l1 := (h1.sem.consumes _ _ _ rfl).2 (by decide +kernel)
        have l2 := h2.len
        have ps := @pos (s.length - s1.length) N (by omega)
        rcases h2.inv_opt with ⟨_, m8, g2, ⟨⟩, e4⟩ | ⟨m8, g2, ⟨⟩, e4⟩
        · have st := @step (s.length - s1.length) (s1.length - s'.length) (s.length - s'.length) N
            (by omega)
          have a2 := (ih _ (by omega) _ _ _ _ g2).ok1 (N := N) (by omega)
          rw [st]
          simp only [e0, e1, e2, e3, e4, Meter.around, Meter.andThen]
          omega
        · have a2 := (ih _ (by omega) _ _ _ _ g2).fail1 (N := N) (by omega)
          simp only [e0, e1, e2, e3, e4, Meter.around, Meter.andThen]
          omega
      · have a0 : m2.evals ≤ 1 + 12 * N := by
          rcases h0.inv_seq_none with ⟨m4, h1, e3⟩ | ⟨_, _, _, _, _, _, h1', _⟩
          · have a1 := (cl h1).fail1 (Nat.le_of_eq hN)
            simp only [e3, Meter.around]; omega
          · rcases h1'.inv_opt with ⟨_, _, _, h, _⟩ | ⟨_, _, h, _⟩ <;> cases h
        obtain ⟨p1, s1, t1, t2, m5, m4, h1, h2, e3⟩ := h.inv_seq_some
        have a1 := (ac h1).ok1 (Nat.le_of_eq hN)
        have l1 := (h1.sem.consumes _ _ _ rfl).2 (by decide +kernel)
        have l2 := h2.len
        have ps := @pos (s.length - s1.length) N (by omega)
        rcases h2.inv_opt with ⟨_, m8, g2, ⟨⟩, e4⟩ | ⟨m8, g2, ⟨⟩, e4⟩
        · have st := @step (s.length - s1.length) (s1.length - s'.length) (s.length - s'.length) N
            (by omega)
          obtain ⟨p2, s2, t2, t3, m6, m7, h2, h3, e5⟩ := g2.inv_seq_some
          have a2 := (lc h2).ok0
          have l2 := (h2.sem.consumes _ _ _ rfl).2 (by decide +kernel)
          have l3 := h3.len
          have a3 := (ih _ (by omega) _ _ _ _ h3).ok1 (N := N) (by omega)
          have st2 := @step (s1.length - s2.length) (s2.length - s'.length)
            (s1.length - s'.length) N (by omega)
          have ps2 := @pos (s1.length - s2.length) N (by omega)
          rw [st, st2]
          simp only [e0, e1, e2, e3, e4, e5, Meter.around, Meter.andThen]
          omega
        · rcases g2.inv_seq_none with ⟨m6, h2, e5⟩ | ⟨p2, s2, t2, m6, m7, h2, h3, e5⟩
          · have a2 := (lc h2).fail1 (N := N) (by omega)
            simp only [e0, e1, e2, e3, e4, e5, Meter.around, Meter.andThen]
            omega
          · have a2 := (lc h2).ok0
            have l2 := (h2.sem.consumes _ _ _ rfl).2 (by decide +kernel)
            have a3 := (ih _ (by omega) _ _ _ _ h3).fail1 (N := N) (by omega)
            simp only [e0, e1, e2, e3, e4, e5, Meter.around, Meter.andThen]
            omega

theorem inner_bound_aux {ru : Rule} {rr : RecRule} {a : PExpr}
    (hb : G.body rr = .rule .atomic ru (.seq a (.opt (.seq G.escape (.recur rr)))))
    (ha : Sound a ⟨21, 0, 21, 1, 0, 0, false⟩)
    (n : Nat) : ∀ s : Str, s.length < n → ∀ q p o m,
    SemM (.recur rr) q p s o m → bndInner.Holds s o m.evals := by
  have ha : ∀ {q p s o m}, SemM a q p s o m → _ := fun {q p s o m} h => ha q p s o m h
  have es : ∀ {q p s o m}, SemM G.escape q p s o m → _ :=
    fun {q p s o m} h => sound_escape q p s o m h
  have some1 : ∀ {s p' s' ts n}, n ≤ 350 * (s.length - s'.length + 1) →
      bndInner.Holds s (some (p', s', ts)) n := by
    rintro s p' s' ts n h
    refine ⟨?_, ?_⟩
    · show n ≤ 350 * ((s.length - s'.length + 1) * (s.length + 1) ^ 0)
      simpa using h
    · show n ≤ 350 * (s.length + 1) ^ 1
      rw [Nat.pow_one]; omega
  induction n with
  | zero => intro s h; omega
  | succ n ih =>
    intro s hn q p o m h
    obtain ⟨m0, h, e0⟩ := h.inv_recur
    rw [hb] at h
    cases o with
    | none =>
      exfalso
      obtain ⟨m1, h, e1⟩ := h.inv_rule_none
      rcases h.inv_seq_none with ⟨m4, h1, _⟩ | ⟨_, _, _, _, _, _, h1', _⟩
      · exact absurd (ha h1).2 Bool.noConfusion
      · rcases h1'.inv_opt with ⟨_, _, _, h, _⟩ | ⟨_, _, h, _⟩ <;> cases h
    | some r =>
      obtain ⟨p', s', ts⟩ := r
      refine some1 ?_
      obtain ⟨t0, m1, h, e1⟩ := h.inv_rule_some
      obtain ⟨p1, s1, t1, t2, m3, m4, h1, h2, e2⟩ := h.inv_seq_some
      have a1 := (ha h1).ok0
      have l1 := h1.len
      have l2 := h2.len
      rcases h2.inv_opt with ⟨_, m8, g2, ⟨⟩, e3⟩ | ⟨m8, g2, ⟨⟩, e3⟩
      · obtain ⟨p2, s2, t2, t3, m6, m7, h2, h3, e4⟩ := g2.inv_seq_some
        have a2 := (es h2).ok0
        have l2 := (h2.sem.consumes _ _ _ rfl).2 (by decide +kernel)
        have l3 := h3.len
        have a3 := (ih _ (by omega) _ _ _ _ h3).ok0
        simp only [e0, e1, e2, e3, e4, Meter.around, Meter.andThen]
        omega
      · rcases g2.inv_seq_none with ⟨m6, h2, e4⟩ | ⟨p2, s2, t2, m6, m7, h2, h3, e4⟩
        · have a2 := (es h2).fail0
          simp only [e0, e1, e2, e3, e4, Meter.around, Meter.andThen]
          omega
        · have l2 := (h2.sem.consumes _ _ _ rfl).2 (by decide +kernel)
          exact absurd (ih _ (by omega) _ _ _ _ h3).2 Bool.noConfusion

theorem sound_rec_breakable : Sound (.recur .any_breakable) bndBreakable :=
  fun q p s o m h => any_breakable_bound (s.length + 1) s (by omega) q p o m h

theorem sound_rec_inner : Sound (.recur .inner) bndInner := by
  intro q p s o m h
  refine inner_bound_aux rfl ?_ (s.length + 1) s (by omega) q p o m h
  exact sound_of_bnd noOv_ok (by decide +kernel) (by decide +kernel)

theorem sound_rec_single : Sound (.recur .single_quoted_inner) bndInner := by
  intro q p s o m h
  refine inner_bound_aux rfl ?_ (s.length + 1) s (by omega) q p o m h
  exact sound_of_bnd noOv_ok (by decide +kernel) (by decide +kernel)

/-! ## blanks -/

/-- Number of blanks the text starts with. -/
def br : Str → Nat
  | c :: s => if c = ' ' ∨ c = '\t' then br s + 1 else 0
  | [] => 0

theorem br_le : ∀ s : Str, br s ≤ s.length
  | [] => Nat.le_refl _
  | c :: s => by
    have := br_le s
    simp only [br, List.length_cons]; split <;> omega

/-- Number of blanks after the backslash the text starts with. -/
def lk : Str → Nat
  | c :: s => if c = '\\' then br s else 0
  | [] => 0

theorem lk_le : ∀ s : Str, lk s ≤ s.length
  | [] => Nat.le_refl _
  | c :: s => by
    have := br_le s
    simp only [lk, List.length_cons]; split <;> omega

theorem SemM.str1 {c q p s o m} (h : SemM (.str [c]) q p s o m) :
    m.evals = 1 ∧ ((∃ s', s = c :: s' ∧ o = some (p + blen [c], s', [])) ∨
      ((∀ s', s ≠ c :: s') ∧ o = none)) := by
  obtain ⟨g, e, _⟩ := h.inv_leaf rfl
  refine ⟨e, ?_⟩
  cases g with
  | str_ok g => exact .inl ⟨_, stripPrefix_eq_some_iff.1 g, rfl⟩
  | str_fail g =>
    refine .inr ⟨?_, rfl⟩
    rintro s' rfl
    have : stripPrefix [c] (c :: s') = some s' := stripPrefix_eq_some_iff.2 rfl
    rw [this] at g
    cases g

theorem ws_run {q p s o m} (h : SemM ws q p s o m) :
    m.evals ≤ 3 ∧ 1 ≤ m.evals ∧ (o = none → br s = 0) ∧
      ∀ p' s' ts, o = some (p', s', ts) → br s = br s' + 1 ∧ s.length = s'.length + 1 := by
  have h : SemM (.alt (.str [' ']) (.str ['\t'])) q p s o m := h
  cases o with
  | none =>
    obtain ⟨m1, m2, h1, h2, e⟩ := h.inv_alt_none
    obtain ⟨a1, b1⟩ := h1.str1
    obtain ⟨a2, b2⟩ := h2.str1
    subst e
    simp only [Meter.around, Meter.andThen]
    refine ⟨by omega, by omega, fun _ => ?_, by rintro _ _ _ ⟨⟩⟩
    rcases b1 with ⟨_, _, b1⟩ | ⟨b1, _⟩
    · cases b1
    rcases b2 with ⟨_, _, b2⟩ | ⟨b2, _⟩
    · cases b2
    cases s with
    | nil => rfl
    | cons c s =>
      simp only [br]
      rw [if_neg]
      rintro (rfl | rfl)
      · exact b1 _ rfl
      · exact b2 _ rfl
  | some r =>
    rcases h.inv_alt_some with ⟨m1, h1, e⟩ | ⟨m1, m2, h1, h2, e⟩
    · obtain ⟨a1, b1⟩ := h1.str1
      rcases b1 with ⟨s', rfl, b1⟩ | ⟨_, b1⟩
      · subst e
        simp only [Meter.around]
        refine ⟨by omega, by omega, by rintro ⟨⟩, ?_⟩
        rintro _ _ _ ⟨⟩
        cases b1
        simp [br]
      · cases b1
    · obtain ⟨a1, b1⟩ := h1.str1
      obtain ⟨a2, b2⟩ := h2.str1
      rcases b2 with ⟨s', rfl, b2⟩ | ⟨_, b2⟩
      · subst e
        simp only [Meter.around, Meter.andThen]
        refine ⟨by omega, by omega, by rintro ⟨⟩, ?_⟩
        rintro _ _ _ ⟨⟩
        cases b2
        simp [br]
      · cases b2

theorem ws_star_run (n : Nat) : ∀ {q p s o m}, s.length < n → SemM (.star ws) q p s o m →
    ∃ p' s' ts, o = some (p', s', ts) ∧ s.length = s'.length + br s ∧ br s' = 0 ∧
      m.evals ≤ 4 * br s + 4 := by
  induction n with
  | zero => intro q p s o m hn; omega
  | succ n ih =>
    intro q p s o m hn h
    rcases h.inv_star with ⟨m1, h1, e1, e2⟩ | ⟨p1, s1, t1, p2, s2, t2, m1, m2, h1, h2, e1, e2⟩
    · obtain ⟨a, _, b, _⟩ := ws_run h1
      have b := b rfl
      refine ⟨_, _, _, e1, by omega, b, ?_⟩
      simp only [e2, Meter.around]; omega
    · obtain ⟨a, _, _, b⟩ := ws_run h1
      obtain ⟨b1, b2⟩ := b _ _ _ rfl
      obtain ⟨p', s', ts, e3, l, b3, c⟩ := ih (by omega) h2
      cases e3
      refine ⟨_, _, _, e1, by omega, b3, ?_⟩
      simp only [e2, Meter.around, Meter.andThen]; omega

theorem newline_run {q p s o m} (h : SemM NEWLINE q p s o m) : m.evals ≤ 5 := by
  have hb : Sound NEWLINE ⟨5, 0, 5, 0, 5, 0, true⟩ :=
    sound_of_bnd noOv_ok (by decide +kernel) (by decide +kernel)
  have := hb _ _ _ _ _ h
  cases o with
  | none => exact this.fail0
  | some r => obtain ⟨p', s', ts⟩ := r; have := this.2; simpa using this

theorem newline_ok {q p s r m} (h : SemM NEWLINE q p s (some r) m) : br s = 0 := by
  have h : SemM (.alt (.str ['\n']) (.alt (.str ['\r', '\n']) (.str ['\r']))) q p s (some r) m := h
  have two : ∀ {q p s o m}, SemM (.str ['\r', '\n']) q p s (some o) m → ∃ s', s = '\r' :: s' := by
    intro q p s o m h
    obtain ⟨g, _⟩ := h.inv_leaf rfl
    cases g with
    | str_ok g => exact ⟨_, stripPrefix_eq_some_iff.1 g⟩
  rcases h.inv_alt_some with ⟨m1, h, _⟩ | ⟨_, m1, _, h, _⟩
  · rcases h.str1.2 with ⟨s', rfl, _⟩ | ⟨_, h⟩
    · simp [br]
    · cases h
  rcases h.inv_alt_some with ⟨m1, h, _⟩ | ⟨_, m1, _, h, _⟩
  · obtain ⟨s', rfl⟩ := two h; simp [br]
  · rcases h.str1.2 with ⟨s', rfl, _⟩ | ⟨_, h⟩
    · simp [br]
    · cases h

/-! ## continuations -/

theorem lc_fail {q p s m} (h : SemM line_continuation q p s none m) :
    m.evals ≤ 4 * lk s + 13 := by
  have h : SemM (.seq (.str ['\\']) (.seq (.star ws) NEWLINE)) q p s none m := h
  rcases h.inv_seq_none with ⟨m1, h1, e1⟩ | ⟨p1, s1, t1, m1, m2, h1, h2, e1⟩
  · obtain ⟨a, _⟩ := h1.str1
    simp only [e1, Meter.around]; omega
  · obtain ⟨a, b⟩ := h1.str1
    rcases b with ⟨s', e0, b⟩ | ⟨_, b⟩
    · cases b
      subst e0
      rcases h2.inv_seq_none with ⟨m3, h3, e3⟩ | ⟨p3, s3, t3, m3, m4, h3, h4, e3⟩
      · obtain ⟨_, _, _, e, _⟩ := ws_star_run _ (Nat.lt_succ_self _) h3
        cases e
      · obtain ⟨_, _, _, _, _, _, e⟩ := ws_star_run _ (Nat.lt_succ_self _) h3
        have := newline_run h4
        simp only [e1, e3, Meter.around, Meter.andThen, lk, if_true]; omega
    · cases b

theorem lc_ok {q p s p' s' ts m} (h : SemM line_continuation q p s (some (p', s', ts)) m) :
    m.evals ≤ 15 * (s.length - s'.length + 1) ∧ br s = 0 ∧ s'.length < s.length := by
  refine ⟨(sound_line_continuation _ _ _ _ _ h).ok0, ?_,
    (h.sem.consumes _ _ _ rfl).2 (by decide +kernel)⟩
  have h : SemM (.seq (.str ['\\']) (.seq (.star ws) NEWLINE)) q p s _ m := h
  obtain ⟨p1, s1, t1, t2, m1, m2, h1, h2, _⟩ := h.inv_seq_some
  rcases h1.str1.2 with ⟨s', rfl, b⟩ | ⟨_, b⟩
  · simp [br]
  · cases b

theorem comment_line_fail {q p s m} (h : SemM comment_line q p s none m) :
    m.evals ≤ 4 * br s + 9 := by
  have h : SemM (.seq (.star ws) (.seq comment (.opt NEWLINE))) q p s none m := h
  rcases h.inv_seq_none with ⟨m1, h1, e1⟩ | ⟨p1, s1, t1, m1, m2, h1, h2, e1⟩
  · obtain ⟨_, _, _, e, _⟩ := ws_star_run (s.length + 1) (by omega) h1
    cases e
  · obtain ⟨_, _, _, _, _, _, e⟩ := ws_star_run (s.length + 1) (by omega) h1
    rcases h2.inv_seq_none with ⟨m3, h3, e3⟩ | ⟨p3, s3, t3, m3, m4, h3, h4, e3⟩
    · have : m3.evals ≤ 3 := by
        have h3 : SemM (.rule .atomic .comment (.seq (.str ['#']) (.star (.seq (.neg NEWLINE)
          .any)))) q p1 s1 none m3 := h3
        obtain ⟨m5, h5, e5⟩ := h3.inv_rule_none
        rcases h5.inv_seq_none with ⟨m6, h6, e6⟩ | ⟨_, _, _, _, _, _, h7, _⟩
        · have := h6.str1.1
          simp only [e5, e6, Meter.around]; omega
        · exact absurd h7.sem Sem.star_ne_none
      simp only [e1, e3, Meter.around, Meter.andThen]; omega
    · rcases h4.inv_opt with ⟨_, _, _, h, _⟩ | ⟨_, _, h, _⟩ <;> cases h

theorem empty_line_fail {q p s m} (h : SemM empty_line q p s none m) :
    m.evals ≤ 4 * br s + 10 := by
  have h : SemM (.seq (.star ws) NEWLINE) q p s none m := h
  rcases h.inv_seq_none with ⟨m1, h1, e1⟩ | ⟨p1, s1, t1, m1, m2, h1, h2, e1⟩
  · obtain ⟨_, _, _, e, _⟩ := ws_star_run (s.length + 1) (by omega) h1
    cases e
  · obtain ⟨_, _, _, _, _, _, e⟩ := ws_star_run (s.length + 1) (by omega) h1
    have := newline_run h2
    simp only [e1, Meter.around, Meter.andThen]; omega

theorem empty_line_ok {q p s p' s' ts m} (h : SemM empty_line q p s (some (p', s', ts)) m) :
    m.evals ≤ 13 * (s.length - s'.length + 1) ∧ br s < s.length - s'.length := by
  refine ⟨(sound_empty_line _ _ _ _ _ h).ok0, ?_⟩
  have h : SemM (.seq (.star ws) NEWLINE) q p s _ m := h
  obtain ⟨p1, s1, t1, t2, m1, m2, h1, h2, _⟩ := h.inv_seq_some
  obtain ⟨_, _, _, e, l, _⟩ := ws_star_run (s.length + 1) (by omega) h1
  cases e
  have := (h2.sem.consumes _ _ _ rfl).2 (by decide +kernel)
  omega

/-- The lines skipped after a continuation. -/
theorem skipped_run (n : Nat) : ∀ {q p s p' s' ts m}, s.length < n →
    SemM (.star (.alt comment_line empty_line)) q p s (some (p', s', ts)) m →
    s'.length ≤ s.length ∧ m.evals ≤ 80 * (s.length - s'.length) + 8 * br s' + 21 := by
  induction n with
  | zero => intro q p s p' s' ts m hn; omega
  | succ n ih =>
    intro q p s p' s' ts m hn h
    refine ⟨h.len, ?_⟩
    rcases h.inv_star with ⟨m1, h1, e1, e2⟩ | ⟨p1, s1, t1, p2, s2, t2, m1, m2, h1, h2, e1, e2⟩
    · cases e1
      obtain ⟨m3, m4, h3, h4, e3⟩ := h1.inv_alt_none
      have a3 := comment_line_fail h3
      have a4 := empty_line_fail h4
      simp only [e2, e3, Meter.around, Meter.andThen]; omega
    · cases e1
      have l2 := h2.len
      rcases h1.inv_alt_some with ⟨m3, h3, e3⟩ | ⟨m3, m4, h3, h4, e3⟩
      · have a3 := (sound_comment_line _ _ _ _ _ h3).ok0
        have l1 := (h3.sem.consumes _ _ _ rfl).2 (by decide +kernel)
        have i := ih (by omega) h2
        simp only [e2, e3, Meter.around, Meter.andThen]; omega
      · have a3 := comment_line_fail h3
        obtain ⟨a4, b4⟩ := empty_line_ok h4
        have i := ih (by omega) h2
        simp only [e2, e3, Meter.around, Meter.andThen]; omega

theorem item_run {q p s o m} (h : SemM arg_ws_item q p s o m) :
    (o = none → m.evals ≤ 4 * lk s + 18 ∧ br s = 0) ∧
    ∀ p' s' ts, o = some (p', s', ts) → s'.length < s.length ∧
      m.evals + 8 * br s ≤ 200 * (s.length - s'.length) + 8 * br s' ∧ br s ≤ br s' + 1 ∧
      1 ≤ m.evals ∧ br s ≤ br s' + (s.length - s'.length) := by
  have h : SemM (.alt ws (.seq line_continuation (.star (.alt comment_line empty_line)))) q p s o m
    := h
  refine ⟨?_, ?_⟩
  · rintro rfl
    obtain ⟨m1, m2, h1, h2, e1⟩ := h.inv_alt_none
    obtain ⟨a1, _, b1, _⟩ := ws_run h1
    rcases h2.inv_seq_none with ⟨m3, h3, e3⟩ | ⟨_, _, _, _, _, _, h7, _⟩
    · have := lc_fail h3
      refine ⟨?_, b1 rfl⟩
      simp only [e1, e3, Meter.around, Meter.andThen]; omega
    · exact absurd h7.sem Sem.star_ne_none
  · rintro p' s' ts rfl
    rcases h.inv_alt_some with ⟨m1, h1, e1⟩ | ⟨m1, m2, h1, h2, e1⟩
    · obtain ⟨a1, _, _, b1⟩ := ws_run h1
      obtain ⟨b1, l1⟩ := b1 _ _ _ rfl
      simp only [e1, Meter.around]; omega
    · obtain ⟨a1, _, b1, _⟩ := ws_run h1
      have b1 := b1 rfl
      obtain ⟨p1, s1, t1, t2, m3, m4, h3, h4, e3⟩ := h2.inv_seq_some
      obtain ⟨a3, _, l3⟩ := lc_ok h3
      obtain ⟨l4, a4⟩ := skipped_run (s1.length + 1) (by omega) h4
      simp only [e1, e3, Meter.around, Meter.andThen]; omega

theorem items_run (n : Nat) : ∀ {q p s o m}, s.length < n → SemM arg_ws_maybe q p s o m →
    ∃ p' s' ts, o = some (p', s', ts) ∧ s'.length ≤ s.length ∧ br s' = 0 ∧
      m.evals + 8 * br s ≤ 201 * (s.length - s'.length) + 4 * lk s' + 19 ∧ br s ≤ m.evals := by
  induction n with
  | zero => intro q p s o m hn; omega
  | succ n ih =>
    intro q p s o m hn h
    have h : SemM (.star arg_ws_item) q p s o m := h
    rcases h.inv_star with ⟨m1, h1, e1, e2⟩ | ⟨p1, s1, t1, p2, s2, t2, m1, m2, h1, h2, e1, e2⟩
    · obtain ⟨a, b⟩ := (item_run h1).1 rfl
      refine ⟨_, _, _, e1, Nat.le_refl _, b, ?_, by omega⟩
      simp only [e2, Meter.around]; omega
    · obtain ⟨l, a, b, c, d⟩ := (item_run h1).2 _ _ _ rfl
      obtain ⟨p', s', ts, e3, l2, b2, a2, c2⟩ := ih (by omega) h2
      cases e3
      refine ⟨_, _, _, e1, by omega, b2, ?_, ?_⟩
      · simp only [e2, Meter.around, Meter.andThen]; omega
      · simp only [e2, Meter.around, Meter.andThen]; omega

theorem arg_ws_run {q p s o m} (h : SemM arg_ws q p s o m) :
    br s ≤ m.evals ∧ (o = none → m.evals ≤ 4 * lk s + 19 ∧ br s = 0) ∧
    ∀ p' s' ts, o = some (p', s', ts) → s'.length < s.length ∧
      m.evals ≤ 201 * (s.length - s'.length) + 4 * lk s' + 20 := by
  have h : SemM (.seq arg_ws_item arg_ws_maybe) q p s o m := h
  cases o with
  | none =>
    rcases h.inv_seq_none with ⟨m1, h1, e1⟩ | ⟨_, _, _, _, _, _, h7, _⟩
    · obtain ⟨a, b⟩ := (item_run h1).1 rfl
      refine ⟨by omega, fun _ => ⟨?_, b⟩, by rintro _ _ _ ⟨⟩⟩
      simp only [e1, Meter.around]; omega
    · exact absurd h7.sem Sem.star_ne_none
  | some r =>
    obtain ⟨p', s', ts⟩ := r
    obtain ⟨p1, s1, t1, t2, m1, m2, h1, h2, e1⟩ := h.inv_seq_some
    obtain ⟨l, a, b, c, d⟩ := (item_run h1).2 _ _ _ rfl
    obtain ⟨_, _, _, e3, l2, b2, a2, c2⟩ := items_run (s1.length + 1) (by omega) h2
    cases e3
    refine ⟨?_, by rintro ⟨⟩, ?_⟩
    · simp only [e1, Meter.around, Meter.andThen]; omega
    · rintro _ _ _ ⟨⟩
      refine ⟨by omega, ?_⟩
      simp only [e1, Meter.around, Meter.andThen]; omega

/-- A bound that is linear in the length of the input. -/
theorem holds_linear {k kf : Nat} {b : Bool} {s : Str} {p' s' ts} {n : Nat}
    (h : n ≤ k * (s.length + 1)) : WorkBnd.Holds ⟨k, 1, k, 1, kf, 1, b⟩ s (some (p', s', ts)) n := by
  refine ⟨?_, ?_⟩
  · refine bump h (Nat.le_refl _) ?_
    rw [Nat.pow_one, area (c := s.length - s'.length)]; omega
  · show n ≤ k * (s.length + 1) ^ 1
    rw [Nat.pow_one]; exact h

theorem sound_arg_ws_maybe : Sound arg_ws_maybe ⟨201, 1, 201, 1, 0, 1, false⟩ := by
  intro q p s o m h
  obtain ⟨p', s', ts, rfl, l, _, a, _⟩ := items_run (s.length + 1) (by omega) h
  have := lk_le s'
  exact holds_linear (by omega)

theorem sound_arg_ws : Sound arg_ws ⟨201, 1, 201, 1, 19, 1, true⟩ := by
  intro q p s o m h
  obtain ⟨_, a, b⟩ := arg_ws_run h
  cases o with
  | none =>
    have := lk_le s
    refine ⟨?_, rfl⟩
    simp only [Nat.pow_one]; have := (a rfl).1; omega
  | some r =>
    obtain ⟨p', s', ts⟩ := r
    have := b _ _ _ rfl
    have := lk_le s'
    exact holds_linear (by omega)

/-! ## words -/

theorem exists_semM {e : PExpr} (he : safe false e = true) (q : Bool) (p : Nat) (s : Str) :
    ∃ o m, SemM e q p s o m := by
  have h := runFuel_ne_oof (s.length + 2) e q p s he (by omega)
  cases hr : runFuel G.body (s.length + 2) e q p s with
  | oof => exact absurd hr h
  | fail => exact ⟨_, _, semM_of_run (n := s.length + 2) (by rw [hr]; rfl)⟩
  | ok p' s' ts => exact ⟨_, _, semM_of_run (n := s.length + 2) (by rw [hr]; rfl)⟩

theorem gap_meter (q : Bool) (p : Nat) (s : Str) : ∃ o m, SemM arg_ws q p s o m :=
  exists_semM (by decide +kernel) q p s

theorem gap_le {q p s o m} (h : SemM arg_ws q p s o m) : m.evals ≤ 201 * (s.length + 1) := by
  have := sound_arg_ws _ _ _ _ _ h
  cases o with
  | none => have := this.fail1 (Nat.le_refl _); omega
  | some r => obtain ⟨p', s', ts⟩ := r; have := this.2; simpa using this

/-- What `any_whitespace` repeats. -/
def wordItem : PExpr := .seq (.neg (.alt NEWLINE (.alt G.EOI arg_ws))) .any

theorem eoi_run {q p s o m} (h : SemM G.EOI q p s o m) : m.evals = 2 := by
  have h : SemM (.rule .normal .EOI .eoi) q p s o m := h
  cases o with
  | none =>
    obtain ⟨m1, h, e⟩ := h.inv_rule_none
    have := (h.inv_leaf rfl).2.1
    simp only [e, Meter.around]; omega
  | some r =>
    obtain ⟨m1, h, e⟩ := h.inv_rule_some (p1 := r.1) (s1 := r.2.1) (ts := r.2.2)
    obtain ⟨h, e⟩ := e
    have := (h.inv_leaf rfl).2.1
    simp only [e, Meter.around]; omega

/-- One character of a word, or the reason why the word ends. -/
theorem word_item_run {q p s o m q' og mg} (h : SemM wordItem q p s o m)
    (hg : SemM arg_ws q' p s og mg) :
    m.evals ≤ mg.evals + 12 ∧ ∀ p' s' ts, o = some (p', s', ts) →
      s.length = s'.length + 1 ∧ br s = 0 ∧ lk s ≤ br s' ∧ m.evals ≤ 4 * lk s + 31 := by
  have two : ∀ {q o m}, SemM (.alt NEWLINE (.alt G.EOI arg_ws)) q p s o m →
      m.evals ≤ mg.evals + 9 ∧ (o = none → og = none) := by
    intro q o m h
    cases o with
    | none =>
      obtain ⟨m1, m2, h1, h2, e1⟩ := h.inv_alt_none
      obtain ⟨m3, m4, h3, h4, e2⟩ := h2.inv_alt_none
      obtain ⟨es, rfl⟩ := h4.det' hg
      have a1 := newline_run h1
      have a3 := eoi_run h3
      refine ⟨?_, fun _ => ?_⟩
      · simp only [e1, e2, Meter.around, Meter.andThen]; omega
      · cases og with
        | none => rfl
        | some r => cases es
    | some r =>
      refine ⟨?_, by rintro ⟨⟩⟩
      rcases h.inv_alt_some with ⟨m1, h1, e1⟩ | ⟨m1, m2, h1, h2, e1⟩
      · have a1 := newline_run h1
        simp only [e1, Meter.around]; omega
      · have a1 := newline_run h1
        rcases h2.inv_alt_some with ⟨m3, h3, e3⟩ | ⟨m3, m4, h3, h4, e3⟩
        · have a3 := eoi_run h3
          simp only [e1, e3, Meter.around, Meter.andThen]; omega
        · have a3 := eoi_run h3
          obtain ⟨es, rfl⟩ := h4.det' hg
          simp only [e1, e3, Meter.around, Meter.andThen]; omega
  have h : SemM (.seq (.neg (.alt NEWLINE (.alt G.EOI arg_ws))) .any) q p s o m := h
  cases o with
  | none =>
    refine ⟨?_, by rintro _ _ _ ⟨⟩⟩
    rcases h.inv_seq_none with ⟨m1, h1, e1⟩ | ⟨p1, s1, t1, m1, m2, h1, h2, e1⟩
    · rcases h1.inv_neg with ⟨_, _, h, _⟩ | ⟨r, m2, h2, _, e2⟩
      · cases h
      · have := (two h2).1
        simp only [e1, e2, Meter.around]; omega
    · rcases h1.inv_neg with ⟨m3, h3, e2, e3⟩ | ⟨_, _, _, h, _⟩
      · have := (two h3).1
        have := (h2.inv_leaf rfl).2.1
        simp only [e1, e3, Meter.around, Meter.andThen]; omega
      · cases h
  | some r =>
    obtain ⟨p', s', ts⟩ := r
    obtain ⟨p1, s1, t1, t2, m1, m2, h1, h2, e1⟩ := h.inv_seq_some
    rcases h1.inv_neg with ⟨m3, h3, e2, e3⟩ | ⟨_, _, _, h, _⟩
    · cases e2
      obtain ⟨a3, n3⟩ := two h3
      obtain ⟨g2, a2, _⟩ := h2.inv_leaf rfl
      obtain ⟨a4, b4⟩ := (arg_ws_run hg).2.1 (n3 rfl)
      cases g2
      refine ⟨?_, ?_⟩
      · simp only [e1, e3, Meter.around, Meter.andThen]; omega
      · rintro _ _ _ ⟨⟩
        refine ⟨rfl, b4, ?_, ?_⟩
        · simp only [lk]; split <;> omega
        · simp only [e1, e3, Meter.around, Meter.andThen]; omega
    · cases h

/-- The characters of a word: the blanks looked at after a backslash are looked at once more by
whatever comes after the word. -/
theorem word_star_run (n : Nat) : ∀ {q p s p' s' ts m q' og mg}, s.length < n →
    SemM (.star wordItem) q p s (some (p', s', ts)) m → SemM arg_ws q' p' s' og mg →
    m.evals ≤ 45 * (s.length - s'.length) + 5 * mg.evals + 13 := by
  induction n with
  | zero => intro q p s p' s' ts m q' og mg hn; omega
  | succ n ih =>
    intro q p s p' s' ts m q' og mg hn h hg
    rcases h.inv_star with ⟨m1, h1, e1, e2⟩ | ⟨p1, s1, t1, p2, s2, t2, m1, m2, h1, h2, e1, e2⟩
    · cases e1
      have := (word_item_run h1 hg).1
      simp only [e2, Meter.around]; omega
    · cases e1
      obtain ⟨o0, m0, hg0⟩ := gap_meter q p s
      obtain ⟨l1, b1, c1, d1⟩ := (word_item_run h1 hg0).2 _ _ _ rfl
      have l2 := h2.len
      have i := ih (by omega) h2 hg
      by_cases hz : lk s = 0
      · simp only [e2, Meter.around, Meter.andThen]; omega
      · rcases h2.inv_star with ⟨m3, h3, e3, e4⟩ | ⟨p3, s3, t3, _, _, _, m3, _, h3, _, _, _⟩
        · cases e3
          have a3 := (word_item_run h3 hg).1
          have := (arg_ws_run hg).1
          simp only [e2, e4, Meter.around, Meter.andThen]; omega
        · obtain ⟨o5, m5, hg5⟩ := gap_meter q p1 s1
          obtain ⟨_, b3, _⟩ := (word_item_run h3 hg5).2 _ _ _ rfl
          omega

theorem word_meter {q p s p' s' ts m q' og mg} (h : SemM any_whitespace q p s (some (p', s', ts)) m)
    (hg : SemM arg_ws q' p' s' og mg) :
    m.evals ≤ 45 * (s.length - s'.length) + 5 * mg.evals + 13 := by
  have h : SemM (.seq wordItem (.star wordItem)) q p s _ m := h
  obtain ⟨p1, s1, t1, t2, m1, m2, h1, h2, e1⟩ := h.inv_seq_some
  have := word_star_run (s.length + 1) (by omega) (SemM.star_cons h1 h2) hg
  simp only [e1, Meter.around, Meter.andThen] at this ⊢
  omega

theorem word_fail {q p s m q' og mg} (h : SemM any_whitespace q p s none m)
    (hg : SemM arg_ws q' p s og mg) : m.evals ≤ mg.evals + 13 := by
  have h : SemM (.seq wordItem (.star wordItem)) q p s _ m := h
  rcases h.inv_seq_none with ⟨m1, h1, e1⟩ | ⟨_, _, _, _, _, _, h7, _⟩
  · have := (word_item_run h1 hg).1
    simp only [e1, Meter.around]; omega
  · exact absurd h7.sem Sem.star_ne_none

theorem sound_any_whitespace : Sound any_whitespace ⟨1060, 1, 1060, 1, 214, 1, true⟩ := by
  intro q p s o m h
  cases o with
  | none =>
    obtain ⟨o0, m0, hg⟩ := gap_meter q p s
    have := word_fail h hg
    have := gap_le hg
    refine ⟨?_, rfl⟩
    simp only [Nat.pow_one]; omega
  | some r =>
    obtain ⟨p', s', ts⟩ := r
    obtain ⟨o0, m0, hg⟩ := gap_meter q p' s'
    have := word_meter h hg
    have := gap_le hg
    have := h.len
    exact holds_linear (by omega)

/-! ## flags -/

/-- `(arg_ws ~ flag)*`, for the flags of `FROM` and of `COPY`. -/
def flagItem (r1 r2 r3 : Rule) : PExpr :=
  .seq arg_ws (.rule .normal r1 (.seq (.str ['-', '-']) (.seq (.rule .atomic r2 (G.plus G.ASCII_ALPHA))
    (.seq (.str ['=']) (.rule .atomic r3 any_whitespace)))))

theorem sound_flag_name (r : Rule) : Sound (.rule .atomic r (G.plus G.ASCII_ALPHA))
    ⟨12, 0, 12, 1, 5, 0, true⟩ := by
  refine sound_of_bnd noOv_ok ?_ ?_
  · show bnd noOv (.rule .atomic r _) = _
    simp only [bnd, noOv, Option.getD_none]
    decide +kernel
  · simp only [fine, noOv, Option.isSome_none, Bool.false_or]
    decide +kernel

theorem SemM.dashes {q p s o m} (h : SemM (.str ['-', '-']) q p s (some o) m) :
    lk s = 0 ∧ m.evals = 1 := by
  obtain ⟨g, e, _⟩ := h.inv_leaf rfl
  refine ⟨?_, e⟩
  cases g with
  | str_ok g =>
    obtain rfl := stripPrefix_eq_some_iff.1 g
    simp [lk]

theorem flag_stars_run {r1 r2 r3 : Rule} (n : Nat) : ∀ {q p s p' s' ts m q' og mg}, s.length < n →
    SemM (.star (flagItem r1 r2 r3)) q p s (some (p', s', ts)) m → SemM arg_ws q' p s og mg →
    m.evals + 5 * mg.evals ≤ 1500 * (s.length - s'.length) + 1500 * (s'.length + 1) := by
  induction n with
  | zero => intro q p s p' s' ts m q' og mg hn; omega
  | succ n ih =>
    intro q p s p' s' ts m q' og mg hn h hg
    have gl := gap_le hg
    rcases h.inv_star with ⟨m1, h1, e1, e2⟩ | ⟨p1, s1, t1, p2, s2, t2, m1, m2, h1, h2, e1, e2⟩
    · cases e1
      rcases h1.inv_seq_none with ⟨m3, h3, e3⟩ | ⟨p3, s3, t3, m3, m4, h3, h4, e3⟩
      · obtain ⟨_, rfl⟩ := h3.det' hg
        simp only [e2, e3, Meter.around]; omega
      · obtain ⟨_, rfl⟩ := h3.det' hg
        have l3 := h3.len
        have a4 : m4.evals ≤ 240 * (s3.length + 1) := by
          obtain ⟨m5, h5, e5⟩ := h4.inv_rule_none
          rcases h5.inv_seq_none with ⟨m6, h6, e6⟩ | ⟨p6, s6, t6, m6, m7, h6, h7, e6⟩
          · have := (h6.inv_leaf rfl).2.1
            simp only [e5, e6, Meter.around]; omega
          · have a6 := (h6.inv_leaf rfl).2.1
            have l6 := h6.len
            rcases h7.inv_seq_none with ⟨m8, h8, e8⟩ | ⟨p8, s8, t8, m8, m9, h8, h9, e8⟩
            · have := (sound_flag_name _ _ _ _ _ _ h8).fail0
              simp only [e5, e6, e8, Meter.around, Meter.andThen]; omega
            · have a8 := (sound_flag_name _ _ _ _ _ _ h8).ok0
              have l8 := h8.len
              rcases h9.inv_seq_none with ⟨m10, h10, e10⟩ | ⟨p10, s10, t10, m10, m11, h10, h11, e10⟩
              · have := (h10.inv_leaf rfl).2.1
                simp only [e5, e6, e8, e10, Meter.around, Meter.andThen]; omega
              · have := (h10.inv_leaf rfl).2.1
                have l10 := h10.len
                obtain ⟨m12, h12, e12⟩ := h11.inv_rule_none
                obtain ⟨o0, m0, hg0⟩ := gap_meter q p10 s10
                have := word_fail h12 hg0
                have := gap_le hg0
                simp only [e5, e6, e8, e10, e12, Meter.around, Meter.andThen]; omega
        simp only [e2, e3, Meter.around, Meter.andThen]; omega
    · cases e1
      obtain ⟨p3, s3, t3, t4, m3, m4, h3, h4, e3⟩ := h1.inv_seq_some
      have l2 := h2.len
      obtain ⟨_, m5, h5, e5⟩ := h4.inv_rule_some
      obtain ⟨p6, s6, t6, t7, m6, m7, h6, h7, e6⟩ := h5.inv_seq_some
      obtain ⟨z, a6⟩ := h6.dashes
      have l6 := h6.len
      obtain ⟨l3, a3⟩ := (arg_ws_run h3).2.2 _ _ _ rfl
      obtain ⟨p8, s8, t8, t9, m8, m9, h8, h9, e8⟩ := h7.inv_seq_some
      have a8 := (sound_flag_name _ _ _ _ _ _ h8).ok0
      have l8 := h8.len
      obtain ⟨p10, s10, t10, t11, m10, m11, h10, h11, e10⟩ := h9.inv_seq_some
      have a10 := (h10.inv_leaf rfl).2.1
      have l10 := h10.len
      obtain ⟨_, m12, h12, e12⟩ := h11.inv_rule_some
      obtain ⟨o0, m0, hg0⟩ := gap_meter q p1 s1
      have a12 := word_meter h12 hg0
      have l12 := h12.len
      have i := ih (by omega) h2 hg0
      obtain ⟨_, rfl⟩ := h3.det' hg
      simp only [e2, e3, e5, e6, e8, e10, e12, Meter.around, Meter.andThen]; omega

theorem sound_flag_star (r1 r2 r3 : Rule) :
    Sound (.star (flagItem r1 r2 r3)) ⟨1500, 1, 1500, 1, 0, 1, false⟩ := by
  intro q p s o m h
  cases o with
  | none => exact absurd h.sem Sem.star_ne_none
  | some r =>
    obtain ⟨p', s', ts⟩ := r
    obtain ⟨o0, m0, hg⟩ := gap_meter q p s
    have := flag_stars_run (s.length + 1) (by omega) h hg
    have := h.len
    exact holds_linear (by omega)

/-! ## arrays -/

/-- What is known about gaps and recursive references. -/
def ovGap : PExpr → Option WorkBnd := fun e =>
  if e = arg_ws then some ⟨201, 1, 201, 1, 19, 1, true⟩
  else if e = arg_ws_maybe then some ⟨201, 1, 201, 1, 0, 1, false⟩
  else if e = any_whitespace then some ⟨1060, 1, 1060, 1, 214, 1, true⟩
  else if e = .recur .any_breakable then some bndBreakable
  else if e = .recur .inner then some bndInner
  else if e = .recur .single_quoted_inner then some bndInner
  else none

theorem ovGap_ok : ∀ e B, ovGap e = some B → Sound e B := by
  intro e B h
  unfold ovGap at h
  split at h
  · cases h; subst e; exact sound_arg_ws
  split at h
  · cases h; subst e; exact sound_arg_ws_maybe
  split at h
  · cases h; subst e; exact sound_any_whitespace
  split at h
  · cases h; subst e; exact sound_rec_breakable
  split at h
  · cases h; subst e; exact sound_rec_inner
  split at h
  · cases h; subst e; exact sound_rec_single
  · cases h

/-- What `string_array` repeats. -/
def arrayItem : PExpr := .seq arg_ws_maybe (.seq (.str [',']) (.seq arg_ws_maybe G.string))

theorem sound_single : Sound G.single_quoted_string ⟨482, 0, 482, 1, 482, 1, true⟩ :=
  sound_of_bnd ovGap_ok (by decide +kernel) (by decide +kernel)
theorem sound_double : Sound G.double_quoted_string ⟨482, 0, 482, 1, 482, 1, true⟩ :=
  sound_of_bnd ovGap_ok (by decide +kernel) (by decide +kernel)
theorem sound_array_item : Sound arrayItem ⟨1372, 1, 1372, 1, 1372, 1, true⟩ :=
  sound_of_bnd ovGap_ok (by decide +kernel) (by decide +kernel)

/-- A string that is there is read in time proportional to its length. -/
theorem string_run {q p s p' s' ts m} (h : SemM G.string q p s (some (p', s', ts)) m) :
    lk s = 0 ∧ m.evals ≤ 482 * (s.length - s'.length + 1) + 5 := by
  have h : SemM (.rule .compound .string (.alt G.single_quoted_string G.double_quoted_string))
    q p s _ m := h
  obtain ⟨_, m1, h1, e1⟩ := h.inv_rule_some
  have quote : ∀ {c r e q p s p' s' ts m}, c ≠ '\\' →
      SemM (.rule .atomic r (.seq (.str [c]) e)) q p s (some (p', s', ts)) m →
      ∃ s1, s = c :: s1 := by
    intro c r e q p s p' s' ts m hc h
    obtain ⟨_, m1, h1, _⟩ := h.inv_rule_some
    obtain ⟨_, _, _, _, m3, m4, h3, h4, e3⟩ := h1.inv_seq_some
    rcases h3.str1.2 with ⟨s1, e, _⟩ | ⟨_, h⟩
    · exact ⟨_, e⟩
    · cases h
  rcases h1.inv_alt_some with ⟨m2, h2, e2⟩ | ⟨m2, m3, h2, h3, e2⟩
  · have a2 := (sound_single _ _ _ _ _ h2).ok0
    obtain ⟨s1, e⟩ := quote (c := '\'') (by decide) h2
    refine ⟨by rw [e]; simp [lk], ?_⟩
    simp only [e1, e2, Meter.around]; omega
  · have a3 := (sound_double _ _ _ _ _ h3).ok0
    obtain ⟨s1, e⟩ := quote (c := '"') (by decide) h3
    refine ⟨by rw [e]; simp [lk], ?_⟩
    have h2 : SemM (.rule .atomic .single_quoted_string (.seq (.str ['\''])
      (.seq G.single_quoted_inner (.str ['\''])))) _ p s none m2 := h2
    obtain ⟨m4, h4, e4⟩ := h2.inv_rule_none
    rcases h4.inv_seq_none with ⟨m5, h5, e5⟩ | ⟨p5, s5, t5, m5, m6, h5, _, _⟩
    · have := h5.str1.1
      simp only [e1, e2, e4, e5, Meter.around, Meter.andThen]; omega
    · rcases h5.str1.2 with ⟨s2, e', _⟩ | ⟨_, h⟩
      · rw [e] at e'; cases e'
      · cases h

theorem array_star_run (n : Nat) : ∀ {q p s p' s' ts m}, s.length < n →
    SemM (.star arrayItem) q p s (some (p', s', ts)) m →
    m.evals ≤ 1500 * (s.length - s'.length) + 1500 * (s'.length + 1) := by
  induction n with
  | zero => intro q p s p' s' ts m hn; omega
  | succ n ih =>
    intro q p s p' s' ts m hn h
    rcases h.inv_star with ⟨m1, h1, e1, e2⟩ | ⟨p1, s1, t1, p2, s2, t2, m1, m2, h1, h2, e1, e2⟩
    · cases e1
      have a1 := (sound_array_item _ _ _ _ _ h1).fail1 (Nat.le_refl _)
      simp only [e2, Meter.around]; omega
    · cases e1
      have l2 := h2.len
      obtain ⟨p3, s3, t3, t4, m3, m4, h3, h4, e3⟩ := h1.inv_seq_some
      obtain ⟨p5, s5, t5, t6, m5, m6, h5, h6, e5⟩ := h4.inv_seq_some
      obtain ⟨p7, s7, t7, t8, m7, m8, h7, h8, e7⟩ := h6.inv_seq_some
      obtain ⟨_, _, _, g3, l3, _, a3, _⟩ := items_run _ (Nat.lt_succ_self _) h3
      cases g3
      obtain ⟨_, _, _, g7, l7, _, a7, _⟩ := items_run _ (Nat.lt_succ_self _) h7
      cases g7
      obtain ⟨z8, a8⟩ := string_run h8
      have l8 := h8.len
      obtain ⟨a5, b5⟩ := h5.str1
      have z5 : lk s3 = 0 ∧ s5.length < s3.length := by
        rcases b5 with ⟨s', rfl, b⟩ | ⟨_, b⟩
        · cases b; simp [lk]
        · cases b
      have i := ih (by omega) h2
      simp only [e2, e3, e5, e7, Meter.around, Meter.andThen]; omega

theorem sound_array_star : Sound (.star arrayItem) ⟨1500, 1, 1500, 1, 0, 1, false⟩ := by
  intro q p s o m h
  cases o with
  | none => exact absurd h.sem Sem.star_ne_none
  | some r =>
    obtain ⟨p', s', ts⟩ := r
    have a := array_star_run (s.length + 1) (by omega) h
    have l := h.len
    rw [← Nat.mul_add, show s.length - s'.length + (s'.length + 1) = s.length + 1 by omega] at a
    exact holds_linear a

/-! ## the whole grammar -/

/-- Everything known in advance. -/
def ovAll : PExpr → Option WorkBnd := fun e =>
  if e = .star (flagItem .from_flag .from_flag_name .from_flag_value) then
    some ⟨1500, 1, 1500, 1, 0, 1, false⟩
  else if e = .star (flagItem .copy_flag .copy_flag_name .copy_flag_value) then
    some ⟨1500, 1, 1500, 1, 0, 1, false⟩
  else if e = .star arrayItem then some ⟨1500, 1, 1500, 1, 0, 1, false⟩
  else ovGap e

theorem ovAll_ok : ∀ e B, ovAll e = some B → Sound e B := by
  intro e B h
  unfold ovAll at h
  split at h
  · next he => rw [he, ← Option.some.inj h]; exact sound_flag_star _ _ _
  split at h
  · next he => rw [he, ← Option.some.inj h]; exact sound_flag_star _ _ _
  split at h
  · next he => rw [he, ← Option.some.inj h]; exact sound_array_star
  · exact ovGap_ok e B h

end Verif
