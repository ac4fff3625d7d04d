import Verif.Proof.PestRuns

/-!
# Names and bodies

A grammar in which names stand for rules comes out as the expression with the bodies in place of the
names (`Pest.inline`).
-/

namespace Verif
namespace Pest

/-- the recursive references of `Model/Grammar` go to the rules of the grammar -/
def RecOK (g : Grammar) : Prop :=
  ∀ i r, recNames.find? (·.1 = i) = some (i, r) → ∃ n, inline g n [] (.ident i) = some (G.body r)

theorem recNames_find {i : Str} {y : Str × RecRule} (h : recNames.find? (·.1 = i) = some y) :
    recNames.find? (·.1 = i) = some (i, y.2) := by
  have := List.find?_some h
  simp only [decide_eq_true_eq] at this
  rw [h]; subst this; rfl

/-- what `inline` does with the name of a rule that is not inside of itself -/
theorem inline_ident {g : Grammar} {n : Nat} {inside : List Str} {i : Str} {x : PExpr}
    (h : inline g n inside (.ident i) = some x) (hb : builtin i = none) (hi : i ∉ inside) :
    ∃ m r, g.rule? i = some r ∧
      ((r.kind = .silent ∧ inline g m (i :: inside) r.expr = some x) ∨
       (r.kind ≠ .silent ∧ ∃ y z, ruleOf i = some y ∧ inline g m (i :: inside) r.expr = some z ∧
          x = .rule r.kind y z)) := by
  cases n with
  | zero => cases h
  | succ n =>
    simp only [inline, hb, if_neg hi, Option.bind_eq_some_iff] at h
    obtain ⟨r, hr, h⟩ := h
    refine ⟨n, r, hr, ?_⟩
    cases hk : r.kind with
    | silent => rw [hk] at h; exact .inl ⟨rfl, h⟩
    | _ =>
      rw [hk] at h
      simp only [Option.bind_eq_some_iff, Option.map_eq_some_iff] at h
      obtain ⟨y, hy, z, hz, rfl⟩ := h
      exact .inr ⟨by simp, y, z, hy, hz, rfl⟩

theorem inline_inside {g : Grammar} {n : Nat} {inside : List Str} {i : Str} {x : PExpr}
    (h : inline g n inside (.ident i) = some x) (hb : builtin i = none) (hi : i ∈ inside) :
    ∃ r, recNames.find? (·.1 = i) = some (i, r) ∧ x = .recur r := by
  cases n with
  | zero => cases h
  | succ n =>
    simp only [inline, hb, if_pos hi, Option.map_eq_some_iff] at h
    obtain ⟨y, hy, rfl⟩ := h
    exact ⟨y.2, recNames_find hy, rfl⟩

theorem inline_builtin {g : Grammar} {n : Nat} {inside : List Str} {i : Str} {x y : PExpr}
    (h : inline g n inside (.ident i) = some x) (hb : builtin i = some y) : x = y := by
  cases n with
  | zero => cases h
  | succ n => simp only [inline, hb] at h; cases h; rfl

/-- from the grammar to the expression -/
theorem sem_of_runs {g : Grammar} (hg : RecOK g) {e q p s o} (h : Runs g e q p s o) :
    ∀ {n inside x}, inline g n inside e = some x → Sem x q p s o := by
  induction h with
  | builtin hb h => intro n inside x hx; rw [inline_builtin hx hb]; exact h
  | silent hb hr hk _ ih =>
    intro n inside x hx
    rename_i i r q p s o _
    have key : ∀ {n inside x}, i ∉ inside → inline g n inside (.ident i) = some x → Sem x q p s o := by
      intro n inside x hi hx
      obtain ⟨m, r', hr', h⟩ := inline_ident hx hb hi
      rw [hr] at hr'; cases hr'
      rcases h with ⟨_, h⟩ | ⟨hk', _⟩
      · exact ih h
      · exact absurd hk hk'
    by_cases hi : i ∈ inside
    · obtain ⟨r, hr, rfl⟩ := inline_inside hx hb hi
      obtain ⟨m, hm⟩ := hg i r hr
      exact .recur (key (List.not_mem_nil) hm)
    · exact key hi hx
  | rule_ok hb hr hk hx' _ ih =>
    intro n inside x hx
    rename_i i r y q p s p1 s1 t1 _
    have key : ∀ {n inside x}, i ∉ inside → inline g n inside (.ident i) = some x →
        Sem x q p s (some (p1, s1, emitToks r.kind y q p p1 (s.take (s.length - s1.length)) t1)) := by
      intro n inside x hi hx
      obtain ⟨m, r', hr', h⟩ := inline_ident hx hb hi
      rw [hr] at hr'; cases hr'
      rcases h with ⟨hk', _⟩ | ⟨_, y', z, hy, hz, rfl⟩
      · exact absurd hk' hk
      · rw [hx'] at hy; cases hy
        exact .rule_ok (ih hz)
    by_cases hi : i ∈ inside
    · obtain ⟨r, hr, rfl⟩ := inline_inside hx hb hi
      obtain ⟨m, hm⟩ := hg i r hr
      exact .recur (key (List.not_mem_nil) hm)
    · exact key hi hx
  | rule_fail hb hr hk hx' _ ih =>
    intro n inside x hx
    rename_i i r y q p s _
    have key : ∀ {n inside x}, i ∉ inside → inline g n inside (.ident i) = some x →
        Sem x q p s none := by
      intro n inside x hi hx
      obtain ⟨m, r', hr', h⟩ := inline_ident hx hb hi
      rw [hr] at hr'; cases hr'
      rcases h with ⟨hk', _⟩ | ⟨_, y', z, hy, hz, rfl⟩
      · exact absurd hk' hk
      · exact .rule_fail (ih hz)
    by_cases hi : i ∈ inside
    · obtain ⟨r, hr, rfl⟩ := inline_inside hx hb hi
      obtain ⟨m, hm⟩ := hg i r hr
      exact .recur (key (List.not_mem_nil) hm)
    · exact key hi hx
  | str_ok h =>
    intro n inside x hx
    cases n <;> cases hx
    exact .str_ok h
  | str_fail h =>
    intro n inside x hx
    cases n <;> cases hx
    exact .str_fail h
  | insens_ok h =>
    intro n inside x hx
    cases n <;> cases hx
    exact .istr_ok h
  | insens_fail h =>
    intro n inside x hx
    cases n <;> cases hx
    exact .istr_fail h
  | neg_ok _ ih =>
    intro n inside x hx
    cases n with
    | zero => cases hx
    | succ n =>
      simp only [inline, Option.map_eq_some_iff] at hx
      obtain ⟨y, hy, rfl⟩ := hx
      exact .neg_ok (ih hy)
  | neg_fail _ ih =>
    intro n inside x hx
    cases n with
    | zero => cases hx
    | succ n =>
      simp only [inline, Option.map_eq_some_iff] at hx
      obtain ⟨y, hy, rfl⟩ := hx
      exact .neg_fail (ih hy)
  | seq_ok _ _ ih1 ih2 =>
    intro n inside x hx
    cases n with
    | zero => cases hx
    | succ n =>
      simp only [inline, Option.bind_eq_some_iff, Option.map_eq_some_iff] at hx
      obtain ⟨y, hy, z, hz, rfl⟩ := hx
      exact .seq_ok (ih1 hy) (ih2 hz)
  | seq_fail1 _ ih1 =>
    intro n inside x hx
    cases n with
    | zero => cases hx
    | succ n =>
      simp only [inline, Option.bind_eq_some_iff, Option.map_eq_some_iff] at hx
      obtain ⟨y, hy, z, hz, rfl⟩ := hx
      exact .seq_fail1 (ih1 hy)
  | seq_fail2 _ _ ih1 ih2 =>
    intro n inside x hx
    cases n with
    | zero => cases hx
    | succ n =>
      simp only [inline, Option.bind_eq_some_iff, Option.map_eq_some_iff] at hx
      obtain ⟨y, hy, z, hz, rfl⟩ := hx
      exact .seq_fail2 (ih1 hy) (ih2 hz)
  | choice_left _ ih1 =>
    intro n inside x hx
    cases n with
    | zero => cases hx
    | succ n =>
      simp only [inline, Option.bind_eq_some_iff, Option.map_eq_some_iff] at hx
      obtain ⟨y, hy, z, hz, rfl⟩ := hx
      exact .alt_left (ih1 hy)
  | choice_right _ _ ih1 ih2 =>
    intro n inside x hx
    cases n with
    | zero => cases hx
    | succ n =>
      simp only [inline, Option.bind_eq_some_iff, Option.map_eq_some_iff] at hx
      obtain ⟨y, hy, z, hz, rfl⟩ := hx
      exact .alt_right (ih1 hy) (ih2 hz)
  | opt_some _ ih =>
    intro n inside x hx
    cases n with
    | zero => cases hx
    | succ n =>
      simp only [inline, Option.map_eq_some_iff] at hx
      obtain ⟨y, hy, rfl⟩ := hx
      exact .opt_some (ih hy)
  | opt_none _ ih =>
    intro n inside x hx
    cases n with
    | zero => cases hx
    | succ n =>
      simp only [inline, Option.map_eq_some_iff] at hx
      obtain ⟨y, hy, rfl⟩ := hx
      exact .opt_none (ih hy)
  | rep_nil _ ih =>
    intro n inside x hx
    cases n with
    | zero => cases hx
    | succ n =>
      simp only [inline, Option.map_eq_some_iff] at hx
      obtain ⟨y, hy, rfl⟩ := hx
      exact .star_nil (ih hy)
  | rep_cons _ _ ih1 ih2 =>
    intro n inside x hx
    cases n with
    | zero => cases hx
    | succ n =>
      have hx' := hx
      simp only [inline, Option.map_eq_some_iff] at hx
      obtain ⟨y, hy, rfl⟩ := hx
      exact .star_cons (ih1 hy) (ih2 hx')
  | plus | exact_zero | exact_succ | atLeast_zero | atLeast_succ | skip =>
    intro n inside x hx
    cases n <;> cases hx

/-- An expression whose translation is not that of the body of a silent rule. -/
inductive Head (g : Grammar) : Expr → PExpr → Prop
  | builtin {i x} : builtin i = some x → Head g (.ident i) x
  | recur {i r} : recNames.find? (·.1 = i) = some (i, r) → Head g (.ident i) (.recur r)
  | rule {i r y n inside z} : Pest.builtin i = none → g.rule? i = some r → r.kind ≠ .silent →
      ruleOf i = some y → inline g n inside r.expr = some z → Head g (.ident i) (.rule r.kind y z)
  | str {w} : Head g (.str w) (.str w)
  | insens {w} : Head g (.insens w) (.istr w)
  | neg {e x n inside} : inline g n inside e = some x → Head g (.neg e) (.neg x)
  | seq {a b x y n inside} : inline g n inside a = some x → inline g n inside b = some y →
      Head g (.seq a b) (.seq x y)
  | choice {a b x y n inside} : inline g n inside a = some x → inline g n inside b = some y →
      Head g (.choice a b) (.alt x y)
  | opt {e x n inside} : inline g n inside e = some x → Head g (.opt e) (.opt x)
  | rep {e x n inside} : inline g n inside e = some x → Head g (.rep e) (.star x)

theorem head_of_inline {g : Grammar} : ∀ {n inside e x}, inline g n inside e = some x →
    ∃ e', Head g e' x ∧ Imp g e' e
  | 0, _, _, _, h => by cases h
  | n + 1, inside, e, x, h => by
    cases e with
    | str w => cases h; exact ⟨_, .str, fun _ _ _ _ h => h⟩
    | insens w => cases h; exact ⟨_, .insens, fun _ _ _ _ h => h⟩
    | neg e =>
      simp only [inline, Option.map_eq_some_iff] at h
      obtain ⟨y, hy, rfl⟩ := h
      exact ⟨_, .neg hy, fun _ _ _ _ h => h⟩
    | opt e =>
      simp only [inline, Option.map_eq_some_iff] at h
      obtain ⟨y, hy, rfl⟩ := h
      exact ⟨_, .opt hy, fun _ _ _ _ h => h⟩
    | rep e =>
      simp only [inline, Option.map_eq_some_iff] at h
      obtain ⟨y, hy, rfl⟩ := h
      exact ⟨_, .rep hy, fun _ _ _ _ h => h⟩
    | seq a b =>
      simp only [inline, Option.bind_eq_some_iff, Option.map_eq_some_iff] at h
      obtain ⟨y, hy, z, hz, rfl⟩ := h
      exact ⟨_, .seq hy hz, fun _ _ _ _ h => h⟩
    | choice a b =>
      simp only [inline, Option.bind_eq_some_iff, Option.map_eq_some_iff] at h
      obtain ⟨y, hy, z, hz, rfl⟩ := h
      exact ⟨_, .choice hy hz, fun _ _ _ _ h => h⟩
    | ident i =>
      cases hb : builtin i with
      | some y => rw [inline_builtin h hb]; exact ⟨_, .builtin hb, fun _ _ _ _ h => h⟩
      | none =>
        by_cases hi : i ∈ inside
        · obtain ⟨r, hr, rfl⟩ := inline_inside h hb hi
          exact ⟨_, .recur hr, fun _ _ _ _ h => h⟩
        · simp only [inline, hb, if_neg hi, Option.bind_eq_some_iff] at h
          obtain ⟨r, hr, h⟩ := h
          cases hk : r.kind with
          | silent =>
            rw [hk] at h
            obtain ⟨e', he, himp⟩ := head_of_inline (n := n) h
            exact ⟨e', he, fun q p s o h => .silent hb hr hk (himp _ _ _ _ h)⟩
          | _ =>
            have hk' : r.kind ≠ .silent := by rw [hk]; simp
            rw [hk] at h
            simp only [Option.bind_eq_some_iff, Option.map_eq_some_iff] at h
            obtain ⟨y, hy, z, hz, rfl⟩ := h
            rw [← hk]
            exact ⟨_, .rule hb hr hk' hy hz, fun _ _ _ _ h => h⟩
    | _ => cases h

/-- from the expression to the grammar -/
theorem runs_of_head {g : Grammar} (hg : RecOK g) {x q p s o} (h : Sem x q p s o) :
    ∀ {e}, Head g e x → Runs g e q p s o := by
  have up : ∀ {x q p s o}, (∀ {e}, Head g e x → Runs g e q p s o) →
      ∀ {n inside e}, inline g n inside e = some x → Runs g e q p s o := by
    intro x q p s o h n inside e he
    obtain ⟨e', hh, hi⟩ := head_of_inline he
    exact hi _ _ _ _ (h hh)
  induction h with
  | str_ok h => intro e he; cases he with
    | builtin hb => exact .builtin hb (.str_ok h)
    | str => exact .str_ok h
  | str_fail h => intro e he; cases he with
    | builtin hb => exact .builtin hb (.str_fail h)
    | str => exact .str_fail h
  | istr_ok h => intro e he; cases he with
    | builtin hb => exact .builtin hb (.istr_ok h)
    | insens => exact .insens_ok h
  | istr_fail h => intro e he; cases he with
    | builtin hb => exact .builtin hb (.istr_fail h)
    | insens => exact .insens_fail h
  | range_ok h => intro e he; cases he with
    | builtin hb => exact .builtin hb (.range_ok h)
  | range_fail h => intro e he; cases he with
    | builtin hb => exact .builtin hb (.range_fail h)
  | range_nil => intro e he; cases he with
    | builtin hb => exact .builtin hb .range_nil
  | any_ok => intro e he; cases he with
    | builtin hb => exact .builtin hb .any_ok
  | any_nil => intro e he; cases he with
    | builtin hb => exact .builtin hb .any_nil
  | soi_ok => intro e he; cases he with
    | builtin hb => exact .builtin hb .soi_ok
  | soi_fail h => intro e he; cases he with
    | builtin hb => exact .builtin hb (.soi_fail h)
  | eoi_ok => intro e he; cases he with
    | builtin hb => exact .builtin hb .eoi_ok
  | eoi_fail => intro e he; cases he with
    | builtin hb => exact .builtin hb .eoi_fail
  | seq_ok h1 h2 ih1 ih2 => intro e he; cases he with
    | builtin hb => exact .builtin hb (.seq_ok h1 h2)
    | seq ha hb => exact .seq_ok (up ih1 ha) (up ih2 hb)
  | seq_fail1 h1 ih1 => intro e he; cases he with
    | builtin hb => exact .builtin hb (.seq_fail1 h1)
    | seq ha hb => exact .seq_fail1 (up ih1 ha)
  | seq_fail2 h1 h2 ih1 ih2 => intro e he; cases he with
    | builtin hb => exact .builtin hb (.seq_fail2 h1 h2)
    | seq ha hb => exact .seq_fail2 (up ih1 ha) (up ih2 hb)
  | alt_left h1 ih1 => intro e he; cases he with
    | builtin hb => exact .builtin hb (.alt_left h1)
    | choice ha hb => exact .choice_left (up ih1 ha)
  | alt_right h1 h2 ih1 ih2 => intro e he; cases he with
    | builtin hb => exact .builtin hb (.alt_right h1 h2)
    | choice ha hb => exact .choice_right (up ih1 ha) (up ih2 hb)
  | star_nil h ih => intro e he; cases he with
    | builtin hb => exact .builtin hb (.star_nil h)
    | rep ha => exact .rep_nil (up ih ha)
  | star_cons h1 h2 ih1 ih2 => intro e he; cases he with
    | builtin hb => exact .builtin hb (.star_cons h1 h2)
    | rep ha => exact .rep_cons (up ih1 ha) (ih2 (.rep ha))
  | opt_some h ih => intro e he; cases he with
    | builtin hb => exact .builtin hb (.opt_some h)
    | opt ha => exact .opt_some (up ih ha)
  | opt_none h ih => intro e he; cases he with
    | builtin hb => exact .builtin hb (.opt_none h)
    | opt ha => exact .opt_none (up ih ha)
  | neg_ok h ih => intro e he; cases he with
    | builtin hb => exact .builtin hb (.neg_ok h)
    | neg ha => exact .neg_ok (up ih ha)
  | neg_fail h ih => intro e he; cases he with
    | builtin hb => exact .builtin hb (.neg_fail h)
    | neg ha => exact .neg_fail (up ih ha)
  | rule_ok h ih => intro e he; cases he with
    | builtin hb => exact .builtin hb (.rule_ok h)
    | rule hb hr hk hy hz => exact .rule_ok hb hr hk hy (up ih hz)
  | rule_fail h ih => intro e he; cases he with
    | builtin hb => exact .builtin hb (.rule_fail h)
    | rule hb hr hk hy hz => exact .rule_fail hb hr hk hy (up ih hz)
  | recur h ih => intro e he; cases he with
    | builtin hb => exact .builtin hb (.recur h)
    | recur hr =>
      obtain ⟨n, hn⟩ := hg _ _ hr
      exact up ih hn

/-- The expression made from a grammar comes out as the grammar says. -/
theorem runs_iff_sem {g : Grammar} (hg : RecOK g) {n inside e x} (hx : inline g n inside e = some x)
    {q p s o} : Runs g e q p s o ↔ Sem x q p s o := by
  constructor
  · intro h; exact sem_of_runs hg h hx
  · intro h
    obtain ⟨e', hh, hi⟩ := head_of_inline hx
    exact hi _ _ _ _ (runs_of_head hg h hh)

end Pest
end Verif
