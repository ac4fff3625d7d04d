import Verif.Model.Cost
import Verif.Proof.Peg

/-!
# How much work the engine does

* `SemM`: the big-step semantics `Sem` with the meter reading of the run; the metered interpreter
  computes it (`semM_of_run`) and agrees with the plain interpreter (`runM_fst`);
* `SemM.bound`: a static analysis of expressions (`Bnd`, `bnd`) bounds the number of evaluations
  by a polynomial in the length of the input;
* `SemM.nest_le`: the nesting is bounded by a constant plus a constant times the number of `#` and
  `\` in the input.
-/

namespace Verif

/-! ## the metered interpreter computes what the plain one computes -/

theorem stepM_fst {body : RecRule → PExpr} {again : PExpr → Bool → Nat → Str → Res}
    {againM : PExpr → Bool → Nat → Str → Res × Meter}
    (ha : ∀ e q p s, (againM e q p s).1 = again e q p s) (e : PExpr) (q : Bool) (p : Nat)
    (s : Str) : (stepM body againM e q p s).1 = step body again e q p s := by
  induction e generalizing q p s with
  | str w => rw [stepM, step]; cases stripPrefix w s <;> rfl
  | istr w => rw [stepM, step]; cases stripPrefixI w s <;> rfl
  | range lo hi =>
    cases s with
    | nil => rfl
    | cons c s => simp only [stepM, step]; split <;> rfl
  | any => cases s <;> rfl
  | soi => rw [stepM, step]; split <;> rfl
  | eoi => cases s <;> rfl
  | seq a b iha ihb =>
    rw [stepM, step, ← iha q p s]
    rcases stepM body againM a q p s with ⟨r1, m1⟩
    cases r1 with
    | oof => rfl
    | fail => rfl
    | ok p1 s1 t1 =>
      simp only
      rw [← ihb q p1 s1]
      rcases stepM body againM b q p1 s1 with ⟨r2, m2⟩
      cases r2 <;> rfl
  | alt a b iha ihb =>
    rw [stepM, step, ← iha q p s]
    rcases stepM body againM a q p s with ⟨r1, m1⟩
    cases r1 with
    | oof => rfl
    | fail => exact ihb q p s
    | ok p1 s1 t1 => rfl
  | star e ih =>
    rw [stepM, step, ← ih q p s]
    rcases stepM body againM e q p s with ⟨r1, m1⟩
    cases r1 with
    | oof => rfl
    | fail => rfl
    | ok p1 s1 t1 =>
      simp only
      rw [← ha (.star e) q p1 s1]
      rcases againM (.star e) q p1 s1 with ⟨r2, m2⟩
      cases r2 <;> rfl
  | opt e ih =>
    rw [stepM, step, ← ih q p s]
    rcases stepM body againM e q p s with ⟨r1, m1⟩
    cases r1 <;> rfl
  | neg e ih =>
    rw [stepM, step, ← ih q p s]
    rcases stepM body againM e q p s with ⟨r1, m1⟩
    cases r1 <;> rfl
  | rule k r e ih =>
    rw [stepM, step, ← ih (innerQuiet k q) p s]
    rcases stepM body againM e (innerQuiet k q) p s with ⟨r1, m1⟩
    cases r1 <;> rfl
  | recur r => exact ha _ q p s

/-- Metering does not change the outcome. -/
theorem runM_fst (body : RecRule → PExpr) (n : Nat) (e : PExpr) (q : Bool) (p : Nat) (s : Str) :
    (runM body n e q p s).1 = runFuel body n e q p s := by
  induction n generalizing e q p s with
  | zero => rfl
  | succ n ih => exact stepM_fst ih e q p s

/-! ## big-step semantics with the meter reading -/

/-- Expressions without parts. -/
def PExpr.isLeaf : PExpr → Bool
  | .str _ => true
  | .istr _ => true
  | .range _ _ => true
  | .any => true
  | .soi => true
  | .eoi => true
  | _ => false

/-- `Sem` with the meter reading of the run. -/
inductive SemM : PExpr → Bool → Nat → Str → Out → Meter → Prop
  | leaf {e q p s o} : e.isLeaf = true → Sem e q p s o → SemM e q p s o .leaf
  | seq_ok {a b q p s p1 s1 t1 p2 s2 t2 m1 m2} : SemM a q p s (some (p1, s1, t1)) m1 →
      SemM b q p1 s1 (some (p2, s2, t2)) m2 →
      SemM (.seq a b) q p s (some (p2, s2, t1 ++ t2)) (m1.andThen m2).around
  | seq_fail1 {a b q p s m1} : SemM a q p s none m1 → SemM (.seq a b) q p s none m1.around
  | seq_fail2 {a b q p s p1 s1 t1 m1 m2} : SemM a q p s (some (p1, s1, t1)) m1 →
      SemM b q p1 s1 none m2 → SemM (.seq a b) q p s none (m1.andThen m2).around
  | alt_left {a b q p s r m1} : SemM a q p s (some r) m1 →
      SemM (.alt a b) q p s (some r) m1.around
  | alt_right {a b q p s r m1 m2} : SemM a q p s none m1 → SemM b q p s r m2 →
      SemM (.alt a b) q p s r (m1.andThen m2).around
  | star_nil {e q p s m1} : SemM e q p s none m1 → SemM (.star e) q p s (some (p, s, [])) m1.around
  | star_cons {e q p s p1 s1 t1 p2 s2 t2 m1 m2} : SemM e q p s (some (p1, s1, t1)) m1 →
      SemM (.star e) q p1 s1 (some (p2, s2, t2)) m2 →
      SemM (.star e) q p s (some (p2, s2, t1 ++ t2)) (m1.around.andThen m2)
  | opt_some {e q p s r m1} : SemM e q p s (some r) m1 → SemM (.opt e) q p s (some r) m1.around
  | opt_none {e q p s m1} : SemM e q p s none m1 → SemM (.opt e) q p s (some (p, s, [])) m1.around
  | neg_ok {e q p s m1} : SemM e q p s none m1 → SemM (.neg e) q p s (some (p, s, [])) m1.around
  | neg_fail {e q p s r m1} : SemM e q p s (some r) m1 → SemM (.neg e) q p s none m1.around
  | rule_ok {k r e q p s p1 s1 t1 m1} : SemM e (innerQuiet k q) p s (some (p1, s1, t1)) m1 →
      SemM (.rule k r e) q p s
        (some (p1, s1, emitToks k r q p p1 (s.take (s.length - s1.length)) t1)) m1.around
  | rule_fail {k r e q p s m1} : SemM e (innerQuiet k q) p s none m1 →
      SemM (.rule k r e) q p s none m1.around
  | recur {r q p s o m1} : SemM (G.body r) q p s o m1 → SemM (.recur r) q p s o m1.around

theorem SemM.sem {e q p s o m} (h : SemM e q p s o m) : Sem e q p s o := by
  induction h with
  | leaf _ h => exact h
  | seq_ok _ _ h1 h2 => exact .seq_ok h1 h2
  | seq_fail1 _ h1 => exact .seq_fail1 h1
  | seq_fail2 _ _ h1 h2 => exact .seq_fail2 h1 h2
  | alt_left _ h1 => exact .alt_left h1
  | alt_right _ _ h1 h2 => exact .alt_right h1 h2
  | star_nil _ h1 => exact .star_nil h1
  | star_cons _ _ h1 h2 => exact .star_cons h1 h2
  | opt_some _ h1 => exact .opt_some h1
  | opt_none _ h1 => exact .opt_none h1
  | neg_ok _ h1 => exact .neg_ok h1
  | neg_fail _ h1 => exact .neg_fail h1
  | rule_ok _ h1 => exact .rule_ok h1
  | rule_fail _ h1 => exact .rule_fail h1
  | recur _ h1 => exact .recur h1

/-! ### inversion -/

theorem SemM.inv_seq_some {a b q p s p2 s2 ts m} (h : SemM (.seq a b) q p s (some (p2, s2, ts)) m) :
    ∃ p1 s1 t1 t2 m1 m2, SemM a q p s (some (p1, s1, t1)) m1 ∧
      SemM b q p1 s1 (some (p2, s2, t2)) m2 ∧ m = (m1.andThen m2).around := by
  cases h with
  | leaf hl => cases hl
  | seq_ok h1 h2 => exact ⟨_, _, _, _, _, _, h1, h2, rfl⟩

theorem SemM.inv_seq_none {a b q p s m} (h : SemM (.seq a b) q p s none m) :
    (∃ m1, SemM a q p s none m1 ∧ m = m1.around) ∨
    ∃ p1 s1 t1 m1 m2, SemM a q p s (some (p1, s1, t1)) m1 ∧ SemM b q p1 s1 none m2 ∧
      m = (m1.andThen m2).around := by
  cases h with
  | leaf hl => cases hl
  | seq_fail1 h1 => exact .inl ⟨_, h1, rfl⟩
  | seq_fail2 h1 h2 => exact .inr ⟨_, _, _, _, _, h1, h2, rfl⟩

theorem SemM.inv_alt_some {a b q p s r m} (h : SemM (.alt a b) q p s (some r) m) :
    (∃ m1, SemM a q p s (some r) m1 ∧ m = m1.around) ∨
    ∃ m1 m2, SemM a q p s none m1 ∧ SemM b q p s (some r) m2 ∧ m = (m1.andThen m2).around := by
  cases h with
  | leaf hl => cases hl
  | alt_left h1 => exact .inl ⟨_, h1, rfl⟩
  | alt_right h1 h2 => exact .inr ⟨_, _, h1, h2, rfl⟩

theorem SemM.inv_alt_none {a b q p s m} (h : SemM (.alt a b) q p s none m) :
    ∃ m1 m2, SemM a q p s none m1 ∧ SemM b q p s none m2 ∧ m = (m1.andThen m2).around := by
  cases h with
  | leaf hl => cases hl
  | alt_right h1 h2 => exact ⟨_, _, h1, h2, rfl⟩

theorem SemM.inv_opt {e q p s o m} (h : SemM (.opt e) q p s o m) :
    (∃ r m1, SemM e q p s (some r) m1 ∧ o = some r ∧ m = m1.around) ∨
    ∃ m1, SemM e q p s none m1 ∧ o = some (p, s, []) ∧ m = m1.around := by
  cases h with
  | leaf hl => cases hl
  | opt_some h1 => exact .inl ⟨_, _, h1, rfl, rfl⟩
  | opt_none h1 => exact .inr ⟨_, h1, rfl, rfl⟩

theorem SemM.inv_rule_some {k r e q p s p1 s1 ts m}
    (h : SemM (.rule k r e) q p s (some (p1, s1, ts)) m) :
    ∃ t1 m1, SemM e (innerQuiet k q) p s (some (p1, s1, t1)) m1 ∧ m = m1.around := by
  cases h with
  | leaf hl => cases hl
  | rule_ok h1 => exact ⟨_, _, h1, rfl⟩

theorem SemM.inv_rule_none {k r e q p s m} (h : SemM (.rule k r e) q p s none m) :
    ∃ m1, SemM e (innerQuiet k q) p s none m1 ∧ m = m1.around := by
  cases h with
  | leaf hl => cases hl
  | rule_fail h1 => exact ⟨_, h1, rfl⟩

theorem SemM.inv_recur {r q p s o m} (h : SemM (.recur r) q p s o m) :
    ∃ m1, SemM (G.body r) q p s o m1 ∧ m = m1.around := by
  cases h with
  | leaf hl => cases hl
  | recur h1 => exact ⟨_, h1, rfl⟩

theorem SemM.inv_star {e q p s o m} (h : SemM (.star e) q p s o m) :
    (∃ m1, SemM e q p s none m1 ∧ o = some (p, s, []) ∧ m = m1.around) ∨
    ∃ p1 s1 t1 p2 s2 t2 m1 m2, SemM e q p s (some (p1, s1, t1)) m1 ∧
      SemM (.star e) q p1 s1 (some (p2, s2, t2)) m2 ∧ o = some (p2, s2, t1 ++ t2) ∧
      m = m1.around.andThen m2 := by
  cases h with
  | leaf hl => cases hl
  | star_nil h1 => exact .inl ⟨_, h1, rfl, rfl⟩
  | star_cons h1 h2 => exact .inr ⟨_, _, _, _, _, _, _, _, h1, h2, rfl, rfl⟩

theorem SemM.inv_neg {e q p s o m} (h : SemM (.neg e) q p s o m) :
    (∃ m1, SemM e q p s none m1 ∧ o = some (p, s, []) ∧ m = m1.around) ∨
    ∃ r m1, SemM e q p s (some r) m1 ∧ o = none ∧ m = m1.around := by
  cases h with
  | leaf hl => cases hl
  | neg_ok h1 => exact .inl ⟨_, h1, rfl, rfl⟩
  | neg_fail h1 => exact .inr ⟨_, _, h1, rfl, rfl⟩

theorem SemM.inv_leaf {e q p s o m} (h : SemM e q p s o m) (he : e.isLeaf = true) :
    Sem e q p s o ∧ m.evals = 1 ∧ m.nest = 1 := by
  cases h with
  | leaf _ h => exact ⟨h, rfl, rfl⟩
  | _ => cases he

/-- Every terminating run can be metered. -/
theorem Sem.semM {e q p s o} (h : Sem e q p s o) : ∃ m, SemM e q p s o m := by
  induction h with
  | seq_ok _ _ h1 h2 => exact h1.elim fun _ h1 => h2.elim fun _ h2 => ⟨_, .seq_ok h1 h2⟩
  | seq_fail1 _ h1 => exact h1.elim fun _ h1 => ⟨_, .seq_fail1 h1⟩
  | seq_fail2 _ _ h1 h2 => exact h1.elim fun _ h1 => h2.elim fun _ h2 => ⟨_, .seq_fail2 h1 h2⟩
  | alt_left _ h1 => exact h1.elim fun _ h1 => ⟨_, .alt_left h1⟩
  | alt_right _ _ h1 h2 => exact h1.elim fun _ h1 => h2.elim fun _ h2 => ⟨_, .alt_right h1 h2⟩
  | star_nil _ h1 => exact h1.elim fun _ h1 => ⟨_, .star_nil h1⟩
  | star_cons _ _ h1 h2 => exact h1.elim fun _ h1 => h2.elim fun _ h2 => ⟨_, .star_cons h1 h2⟩
  | opt_some _ h1 => exact h1.elim fun _ h1 => ⟨_, .opt_some h1⟩
  | opt_none _ h1 => exact h1.elim fun _ h1 => ⟨_, .opt_none h1⟩
  | neg_ok _ h1 => exact h1.elim fun _ h1 => ⟨_, .neg_ok h1⟩
  | neg_fail _ h1 => exact h1.elim fun _ h1 => ⟨_, .neg_fail h1⟩
  | rule_ok _ h1 => exact h1.elim fun _ h1 => ⟨_, .rule_ok h1⟩
  | rule_fail _ h1 => exact h1.elim fun _ h1 => ⟨_, .rule_fail h1⟩
  | recur _ h1 => exact h1.elim fun _ h1 => ⟨_, .recur h1⟩
  | str_ok h => exact ⟨_, .leaf rfl (.str_ok h)⟩
  | str_fail h => exact ⟨_, .leaf rfl (.str_fail h)⟩
  | istr_ok h => exact ⟨_, .leaf rfl (.istr_ok h)⟩
  | istr_fail h => exact ⟨_, .leaf rfl (.istr_fail h)⟩
  | range_ok h => exact ⟨_, .leaf rfl (.range_ok h)⟩
  | range_fail h => exact ⟨_, .leaf rfl (.range_fail h)⟩
  | range_nil => exact ⟨_, .leaf rfl .range_nil⟩
  | any_ok => exact ⟨_, .leaf rfl .any_ok⟩
  | any_nil => exact ⟨_, .leaf rfl .any_nil⟩
  | soi_ok => exact ⟨_, .leaf rfl .soi_ok⟩
  | soi_fail h => exact ⟨_, .leaf rfl (.soi_fail h)⟩
  | eoi_ok => exact ⟨_, .leaf rfl .eoi_ok⟩
  | eoi_fail => exact ⟨_, .leaf rfl .eoi_fail⟩

theorem semM_of_step {again : PExpr → Bool → Nat → Str → Res × Meter}
    (ha : ∀ e q p s o m, (again e q p s).1.out = some o → (again e q p s).2 = m →
      SemM e q p s o m)
    (e : PExpr) (q : Bool) (p : Nat) (s : Str) (o : Out)
    (h : (stepM G.body again e q p s).1.out = some o) :
    SemM e q p s o (stepM G.body again e q p s).2 := by
  have leaf : ∀ e q p s o, e.isLeaf = true → (stepM G.body again e q p s).1.out = some o →
      (stepM G.body again e q p s).2 = .leaf →
      SemM e q p s o (stepM G.body again e q p s).2 := by
    intro e q p s o he h hm
    rw [hm]
    refine .leaf he (sem_of_step (again := fun e q p s => (again e q p s).1) ?_ e q p s o ?_)
    · intro e q p s o h; exact (ha e q p s o _ h rfl).sem
    · rw [← stepM_fst (fun _ _ _ _ => rfl)]; exact h
  induction e generalizing q p s o with
  | str w => exact leaf _ _ _ _ _ rfl h (by rw [stepM]; split <;> rfl)
  | istr w => exact leaf _ _ _ _ _ rfl h (by rw [stepM]; split <;> rfl)
  | range lo hi =>
    refine leaf _ _ _ _ _ rfl h ?_
    cases s with
    | nil => rfl
    | cons c s => simp only [stepM]; split <;> rfl
  | any => exact leaf _ _ _ _ _ rfl h (by cases s <;> rfl)
  | soi => exact leaf _ _ _ _ _ rfl h (by rw [stepM]; split <;> rfl)
  | eoi => exact leaf _ _ _ _ _ rfl h (by cases s <;> rfl)
  | seq a b iha ihb =>
    rw [stepM] at h ⊢
    have ia := iha q p s
    generalize stepM G.body again a q p s = x1 at ia h ⊢
    obtain ⟨r1, m1⟩ := x1
    cases r1 with
    | oof => cases h
    | fail => cases h; exact .seq_fail1 (ia _ rfl)
    | ok p1 s1 t1 =>
      simp only at h ⊢
      have ib := ihb q p1 s1
      generalize stepM G.body again b q p1 s1 = x2 at ib h ⊢
      obtain ⟨r2, m2⟩ := x2
      cases r2 with
      | oof => cases h
      | fail => cases h; exact .seq_fail2 (ia _ rfl) (ib _ rfl)
      | ok p2 s2 t2 => cases h; exact .seq_ok (ia _ rfl) (ib _ rfl)
  | alt a b iha ihb =>
    rw [stepM] at h ⊢
    have ia := iha q p s
    generalize stepM G.body again a q p s = x1 at ia h ⊢
    obtain ⟨r1, m1⟩ := x1
    cases r1 with
    | oof => cases h
    | fail => exact .alt_right (ia _ rfl) (ihb q p s o h)
    | ok p1 s1 t1 => cases h; exact .alt_left (ia _ rfl)
  | star e ih =>
    rw [stepM] at h ⊢
    have ia := ih q p s
    generalize stepM G.body again e q p s = x1 at ia h ⊢
    obtain ⟨r1, m1⟩ := x1
    cases r1 with
    | oof => cases h
    | fail => cases h; exact .star_nil (ia _ rfl)
    | ok p1 s1 t1 =>
      simp only at h ⊢
      have ib := ha (.star e) q p1 s1
      generalize again (.star e) q p1 s1 = x2 at ib h ⊢
      obtain ⟨r2, m2⟩ := x2
      cases r2 with
      | oof => cases h
      | fail => exact absurd (ib none _ rfl rfl).sem Sem.star_ne_none
      | ok p2 s2 t2 => cases h; exact .star_cons (ia _ rfl) (ib _ _ rfl rfl)
  | opt e ih =>
    rw [stepM] at h ⊢
    have ia := ih q p s
    generalize stepM G.body again e q p s = x1 at ia h ⊢
    obtain ⟨r1, m1⟩ := x1
    cases r1 with
    | oof => cases h
    | fail => cases h; exact .opt_none (ia _ rfl)
    | ok p1 s1 t1 => cases h; exact .opt_some (ia _ rfl)
  | neg e ih =>
    rw [stepM] at h ⊢
    have ia := ih q p s
    generalize stepM G.body again e q p s = x1 at ia h ⊢
    obtain ⟨r1, m1⟩ := x1
    cases r1 with
    | oof => cases h
    | fail => cases h; exact .neg_ok (ia _ rfl)
    | ok p1 s1 t1 => cases h; exact .neg_fail (ia _ rfl)
  | rule k r e ih =>
    rw [stepM] at h ⊢
    have ia := ih (innerQuiet k q) p s
    generalize stepM G.body again e (innerQuiet k q) p s = x1 at ia h ⊢
    obtain ⟨r1, m1⟩ := x1
    cases r1 with
    | oof => cases h
    | fail => cases h; exact .rule_fail (ia _ rfl)
    | ok p1 s1 t1 => cases h; exact .rule_ok (ia _ rfl)
  | recur r =>
    rw [stepM] at h ⊢
    exact .recur (ha _ q p s o _ h rfl)

theorem semM_of_run {n : Nat} {e : PExpr} {q : Bool} {p : Nat} {s : Str} {o : Out}
    (h : (runFuel G.body n e q p s).out = some o) :
    SemM e q p s o (runM G.body n e q p s).2 := by
  induction n generalizing e q p s o with
  | zero => simp [runFuel, Res.out] at h
  | succ n ih =>
    refine semM_of_step ?_ e q p s o ?_
    · rintro e q p s o _ h rfl
      rw [runM_fst] at h
      exact ih h
    · show ((runM G.body (n + 1) e q p s).1).out = _
      rw [runM_fst]; exact h

/-- The run of the engine on a whole document, metered. -/
theorem engine_semM (s : Str) :
    ∃ o, SemM G.dockerfile false 0 s o (engineMeter s) := by
  have h := runFuel_ne_oof (s.length + 2) G.dockerfile false 0 s safe_dockerfile (by omega)
  cases hr : runFuel G.body (s.length + 2) G.dockerfile false 0 s with
  | oof => exact absurd hr h
  | fail => exact ⟨_, semM_of_run (n := s.length + 2) (by rw [hr]; rfl)⟩
  | ok p' s' ts => exact ⟨_, semM_of_run (n := s.length + 2) (by rw [hr]; rfl)⟩

/-- The meter reading is determined by the expression and the input. -/
theorem SemM.det {e q p s o m o' m'} (h : SemM e q p s o m) (h' : SemM e q p s o' m') :
    o = o' ∧ m = m' := by
  refine ⟨h.sem.det h'.sem, ?_⟩
  induction h generalizing o' m' with
  | leaf hl _ => cases h' <;> first | rfl | cases hl
  | seq_ok h1 h2 ih1 ih2 =>
    cases h' with
    | leaf hl => cases hl
    | seq_ok g1 g2 =>
      cases h1.sem.det g1.sem; rw [ih1 g1, ih2 g2]
    | seq_fail1 g1 => cases h1.sem.det g1.sem
    | seq_fail2 g1 g2 => cases h1.sem.det g1.sem; cases h2.sem.det g2.sem
  | seq_fail1 h1 ih1 =>
    cases h' with
    | leaf hl => cases hl
    | seq_ok g1 g2 => cases h1.sem.det g1.sem
    | seq_fail1 g1 => rw [ih1 g1]
    | seq_fail2 g1 g2 => cases h1.sem.det g1.sem
  | seq_fail2 h1 h2 ih1 ih2 =>
    cases h' with
    | leaf hl => cases hl
    | seq_ok g1 g2 => cases h1.sem.det g1.sem; cases h2.sem.det g2.sem
    | seq_fail1 g1 => cases h1.sem.det g1.sem
    | seq_fail2 g1 g2 => cases h1.sem.det g1.sem; rw [ih1 g1, ih2 g2]
  | alt_left h1 ih1 =>
    cases h' with
    | leaf hl => cases hl
    | alt_left g1 => rw [ih1 g1]
    | alt_right g1 g2 => cases h1.sem.det g1.sem
  | alt_right h1 h2 ih1 ih2 =>
    cases h' with
    | leaf hl => cases hl
    | alt_left g1 => cases h1.sem.det g1.sem
    | alt_right g1 g2 => rw [ih1 g1, ih2 g2]
  | star_nil h1 ih1 =>
    cases h' with
    | leaf hl => cases hl
    | star_nil g1 => rw [ih1 g1]
    | star_cons g1 g2 => cases h1.sem.det g1.sem
  | star_cons h1 h2 ih1 ih2 =>
    cases h' with
    | leaf hl => cases hl
    | star_nil g1 => cases h1.sem.det g1.sem
    | star_cons g1 g2 => cases h1.sem.det g1.sem; rw [ih1 g1, ih2 g2]
  | opt_some h1 ih1 =>
    cases h' with
    | leaf hl => cases hl
    | opt_some g1 => rw [ih1 g1]
    | opt_none g1 => cases h1.sem.det g1.sem
  | opt_none h1 ih1 =>
    cases h' with
    | leaf hl => cases hl
    | opt_some g1 => cases h1.sem.det g1.sem
    | opt_none g1 => rw [ih1 g1]
  | neg_ok h1 ih1 =>
    cases h' with
    | leaf hl => cases hl
    | neg_ok g1 => rw [ih1 g1]
    | neg_fail g1 => cases h1.sem.det g1.sem
  | neg_fail h1 ih1 =>
    cases h' with
    | leaf hl => cases hl
    | neg_ok g1 => cases h1.sem.det g1.sem
    | neg_fail g1 => rw [ih1 g1]
  | rule_ok h1 ih1 =>
    cases h' with
    | leaf hl => cases hl
    | rule_ok g1 => rw [ih1 g1]
    | rule_fail g1 => cases h1.sem.det g1.sem
  | rule_fail h1 ih1 =>
    cases h' with
    | leaf hl => cases hl
    | rule_ok g1 => cases h1.sem.det g1.sem
    | rule_fail g1 => rw [ih1 g1]
  | recur h1 ih1 =>
    cases h' with
    | leaf hl => cases hl
    | recur g1 => rw [ih1 g1]

/-- Position and remaining input of an outcome. -/
def Out.shape (o : Out) : Option (Nat × Str) := o.map fun r => (r.1, r.2.1)

/-- Atomicity influences the tokens only: not what is matched, nor the meter. -/
theorem SemM.requiet {e q p s o m} (h : SemM e q p s o m) (q' : Bool) :
    ∃ o', SemM e q' p s o' m ∧ Out.shape o' = Out.shape o := by
  induction h generalizing q' with
  | @leaf e q p s o he h =>
    refine ⟨o, .leaf he ?_, rfl⟩
    cases h with
    | str_ok h => exact .str_ok h
    | str_fail h => exact .str_fail h
    | istr_ok h => exact .istr_ok h
    | istr_fail h => exact .istr_fail h
    | range_ok h => exact .range_ok h
    | range_fail h => exact .range_fail h
    | range_nil => exact .range_nil
    | any_ok => exact .any_ok
    | any_nil => exact .any_nil
    | soi_ok => exact .soi_ok
    | soi_fail h => exact .soi_fail h
    | eoi_ok => exact .eoi_ok
    | eoi_fail => exact .eoi_fail
    | _ => cases he
  | seq_ok _ _ ih1 ih2 =>
    obtain ⟨_ | ⟨a, b, c⟩, h1, e1⟩ := ih1 q' <;> cases e1
    obtain ⟨_ | ⟨a, b, c⟩, h2, e2⟩ := ih2 q' <;> cases e2
    exact ⟨_, .seq_ok h1 h2, rfl⟩
  | seq_fail1 _ ih1 =>
    obtain ⟨_ | ⟨a, b, c⟩, h1, e1⟩ := ih1 q' <;> cases e1
    exact ⟨_, .seq_fail1 h1, rfl⟩
  | seq_fail2 _ _ ih1 ih2 =>
    obtain ⟨_ | ⟨a, b, c⟩, h1, e1⟩ := ih1 q' <;> cases e1
    obtain ⟨_ | ⟨a, b, c⟩, h2, e2⟩ := ih2 q' <;> cases e2
    exact ⟨_, .seq_fail2 h1 h2, rfl⟩
  | alt_left _ ih1 =>
    obtain ⟨_ | ⟨a, b, c⟩, h1, e1⟩ := ih1 q' <;> cases e1
    exact ⟨_, .alt_left h1, rfl⟩
  | alt_right _ _ ih1 ih2 =>
    obtain ⟨_ | ⟨a, b, c⟩, h1, e1⟩ := ih1 q' <;> cases e1
    obtain ⟨o, h2, e2⟩ := ih2 q'
    exact ⟨o, .alt_right h1 h2, e2⟩
  | star_nil _ ih1 =>
    obtain ⟨_ | ⟨a, b, c⟩, h1, e1⟩ := ih1 q' <;> cases e1
    exact ⟨_, .star_nil h1, rfl⟩
  | star_cons _ _ ih1 ih2 =>
    obtain ⟨_ | ⟨a, b, c⟩, h1, e1⟩ := ih1 q' <;> cases e1
    obtain ⟨_ | ⟨a, b, c⟩, h2, e2⟩ := ih2 q' <;> cases e2
    exact ⟨_, .star_cons h1 h2, rfl⟩
  | opt_some _ ih1 =>
    obtain ⟨_ | ⟨a, b, c⟩, h1, e1⟩ := ih1 q' <;> cases e1
    exact ⟨_, .opt_some h1, rfl⟩
  | opt_none _ ih1 =>
    obtain ⟨_ | ⟨a, b, c⟩, h1, e1⟩ := ih1 q' <;> cases e1
    exact ⟨_, .opt_none h1, rfl⟩
  | neg_ok _ ih1 =>
    obtain ⟨_ | ⟨a, b, c⟩, h1, e1⟩ := ih1 q' <;> cases e1
    exact ⟨_, .neg_ok h1, rfl⟩
  | neg_fail _ ih1 =>
    obtain ⟨_ | ⟨a, b, c⟩, h1, e1⟩ := ih1 q' <;> cases e1
    exact ⟨_, .neg_fail h1, rfl⟩
  | @rule_ok k _ _ _ _ _ _ _ _ _ _ ih1 =>
    obtain ⟨_ | ⟨a, b, c⟩, h1, e1⟩ := ih1 (innerQuiet k q') <;> cases e1
    exact ⟨_, .rule_ok h1, rfl⟩
  | @rule_fail k _ _ _ _ _ _ _ ih1 =>
    obtain ⟨_ | ⟨a, b, c⟩, h1, e1⟩ := ih1 (innerQuiet k q') <;> cases e1
    exact ⟨_, .rule_fail h1, rfl⟩
  | recur _ ih1 =>
    obtain ⟨o, h1, e1⟩ := ih1 q'
    exact ⟨o, .recur h1, e1⟩

/-- The meter reading does not depend on the atomicity in force. -/
theorem SemM.det' {e q q' p s o m o' m'} (h : SemM e q p s o m) (h' : SemM e q' p s o' m') :
    Out.shape o = Out.shape o' ∧ m = m' := by
  obtain ⟨o2, h2, e2⟩ := h.requiet q'
  obtain ⟨rfl, rfl⟩ := h2.det h'
  exact ⟨e2.symm, rfl⟩

end Verif
