import Verif.Model.PestRuns

/-!
# The optimiser does not change what a grammar means

`Eqv a b`: in every grammar, `a` and `b` come out the same. Every pass but the last turns an
expression into an equivalent one.
-/

namespace Verif
namespace Pest

theorem Runs.det {g : Grammar} {e q p s o o'} (h : Runs g e q p s o) :
    Runs g e q p s o' → o = o' := by
  induction h generalizing o' with
  | str_ok h1 => intro h; cases h with
    | str_ok h2 => rw [h1] at h2; cases h2; rfl
    | str_fail h2 => rw [h1] at h2; cases h2
  | str_fail h1 => intro h; cases h with
    | str_ok h2 => rw [h1] at h2; cases h2
    | str_fail h2 => rfl
  | insens_ok h1 => intro h; cases h with
    | insens_ok h2 => rw [h1] at h2; cases h2; rfl
    | insens_fail h2 => rw [h1] at h2; cases h2
  | insens_fail h1 => intro h; cases h with
    | insens_ok h2 => rw [h1] at h2; cases h2
    | insens_fail h2 => rfl
  | builtin hb h1 => intro h; cases h with
    | builtin hb' h2 => rw [hb] at hb'; cases hb'; exact h1.det h2
    | silent hb' => rw [hb] at hb'; cases hb'
    | rule_ok hb' => rw [hb] at hb'; cases hb'
    | rule_fail hb' => rw [hb] at hb'; cases hb'
  | silent hb hr hk _ ih => intro h; cases h with
    | builtin hb' => rw [hb] at hb'; cases hb'
    | silent _ hr' _ h2 => rw [hr] at hr'; cases hr'; exact ih h2
    | rule_ok _ hr' hk' => rw [hr] at hr'; cases hr'; exact absurd hk hk'
    | rule_fail _ hr' hk' => rw [hr] at hr'; cases hr'; exact absurd hk hk'
  | rule_ok hb hr hk hx _ ih => intro h; cases h with
    | builtin hb' => rw [hb] at hb'; cases hb'
    | silent _ hr' hk' => rw [hr] at hr'; cases hr'; exact absurd hk' hk
    | rule_ok _ hr' _ hx' h2 => rw [hr] at hr'; cases hr'; rw [hx] at hx'; cases hx'; cases ih h2; rfl
    | rule_fail _ hr' _ _ h2 => rw [hr] at hr'; cases hr'; cases ih h2
  | rule_fail hb hr hk hx _ ih => intro h; cases h with
    | builtin hb' => rw [hb] at hb'; cases hb'
    | silent _ hr' hk' => rw [hr] at hr'; cases hr'; exact absurd hk' hk
    | rule_ok _ hr' _ _ h2 => rw [hr] at hr'; cases hr'; cases ih h2
    | rule_fail => rfl
  | neg_ok _ ih => intro h; cases h with
    | neg_ok => rfl
    | neg_fail h2 => cases ih h2
  | neg_fail _ ih => intro h; cases h with
    | neg_ok h2 => cases ih h2
    | neg_fail h2 => rfl
  | seq_ok _ _ ih1 ih2 => intro h; cases h with
    | seq_ok h1 h2 => cases ih1 h1; cases ih2 h2; rfl
    | seq_fail1 h1 => cases ih1 h1
    | seq_fail2 h1 h2 => cases ih1 h1; cases ih2 h2
  | seq_fail1 _ ih1 => intro h; cases h with
    | seq_ok h1 h2 => cases ih1 h1
    | seq_fail1 h1 => rfl
    | seq_fail2 h1 h2 => rfl
  | seq_fail2 _ _ ih1 ih2 => intro h; cases h with
    | seq_ok h1 h2 => cases ih1 h1; cases ih2 h2
    | seq_fail1 h1 => rfl
    | seq_fail2 h1 h2 => rfl
  | choice_left _ ih => intro h; cases h with
    | choice_left h1 => exact ih h1
    | choice_right h1 h2 => cases ih h1
  | choice_right _ _ ih1 ih2 => intro h; cases h with
    | choice_left h1 => cases ih1 h1
    | choice_right h1 h2 => exact ih2 h2
  | opt_some _ ih => intro h; cases h with
    | opt_some h => exact ih h
    | opt_none h => cases ih h
  | opt_none _ ih => intro h; cases h with
    | opt_some h => cases ih h
    | opt_none h => rfl
  | rep_nil _ ih => intro h; cases h with
    | rep_nil => rfl
    | rep_cons h1 => cases ih h1
  | rep_cons _ _ ih1 ih2 => intro h; cases h with
    | rep_nil h1 => cases ih1 h1
    | rep_cons h1 h2 => cases ih1 h1; cases ih2 h2; rfl
  | plus _ ih => intro h; cases h with | plus h => exact ih h
  | exact_zero => intro h; cases h; rfl
  | exact_succ _ ih => intro h; cases h with | exact_succ h => exact ih h
  | atLeast_zero _ ih => intro h; cases h with | atLeast_zero h => exact ih h
  | atLeast_succ _ ih => intro h; cases h with | atLeast_succ h => exact ih h
  | skip => intro h; cases h; rfl

/-- `a` comes out as `b` does -/
def Imp (g : Grammar) (a b : Expr) : Prop := ∀ q p s o, Runs g a q p s o → Runs g b q p s o
def Eqv (a b : Expr) : Prop := ∀ g q p s o, Runs g a q p s o ↔ Runs g b q p s o

theorem Eqv.rfl {a} : Eqv a a := fun _ _ _ _ _ => Iff.rfl
theorem Eqv.symm {a b} (h : Eqv a b) : Eqv b a := fun g q p s o => (h g q p s o).symm
theorem Eqv.trans {a b c} (h : Eqv a b) (h' : Eqv b c) : Eqv a c :=
  fun g q p s o => (h g q p s o).trans (h' g q p s o)
theorem Eqv.imp {a b} (h : Eqv a b) (g : Grammar) : Imp g a b := fun q p s o => (h g q p s o).1
theorem eqv_of_imp {a b} (h : ∀ g, Imp g a b) (h' : ∀ g, Imp g b a) : Eqv a b :=
  fun g q p s o => ⟨h g q p s o, h' g q p s o⟩

/-! ## inside of an expression -/

section
variable {g : Grammar} {a a' b b' : Expr}

theorem Imp.neg (h : Imp g a a') : Imp g (.neg a) (.neg a') := by
  intro q p s o r
  cases r with
  | neg_ok r => exact .neg_ok (h _ _ _ _ r)
  | neg_fail r => exact .neg_fail (h _ _ _ _ r)

theorem Imp.seq (h : Imp g a a') (h' : Imp g b b') : Imp g (.seq a b) (.seq a' b') := by
  intro q p s o r
  cases r with
  | seq_ok r1 r2 => exact .seq_ok (h _ _ _ _ r1) (h' _ _ _ _ r2)
  | seq_fail1 r1 => exact .seq_fail1 (h _ _ _ _ r1)
  | seq_fail2 r1 r2 => exact .seq_fail2 (h _ _ _ _ r1) (h' _ _ _ _ r2)

theorem Imp.choice (h : Imp g a a') (h' : Imp g b b') : Imp g (.choice a b) (.choice a' b') := by
  intro q p s o r
  cases r with
  | choice_left r1 => exact .choice_left (h _ _ _ _ r1)
  | choice_right r1 r2 => exact .choice_right (h _ _ _ _ r1) (h' _ _ _ _ r2)

theorem Imp.opt (h : Imp g a a') : Imp g (.opt a) (.opt a') := by
  intro q p s o r
  cases r with
  | opt_some r => exact .opt_some (h _ _ _ _ r)
  | opt_none r => exact .opt_none (h _ _ _ _ r)

theorem Imp.rep (h : Imp g a a') : Imp g (.rep a) (.rep a') := by
  intro q p s o r
  generalize he : Expr.rep a = e at r
  induction r with
  | rep_nil r => cases he; exact .rep_nil (h _ _ _ _ r)
  | rep_cons r1 _ _ ih => cases he; exact .rep_cons (h _ _ _ _ r1) (ih rfl)
  | _ => cases he

theorem Imp.plus (h : Imp g a a') : Imp g (.plus a) (.plus a') := by
  intro q p s o r
  cases r with | plus r => exact .plus (h.seq h.rep _ _ _ _ r)

theorem Imp.exact (h : Imp g a a') : ∀ n, Imp g (.exact a n) (.exact a' n)
  | 0 => by intro q p s o r; cases r; exact .exact_zero
  | n + 1 => by
    intro q p s o r
    cases r with | exact_succ r => exact .exact_succ (h.seq (h.exact n) _ _ _ _ r)

theorem Imp.atLeast (h : Imp g a a') : ∀ n, Imp g (.atLeast a n) (.atLeast a' n)
  | 0 => by
    intro q p s o r
    cases r with | atLeast_zero r => exact .atLeast_zero (h.rep _ _ _ _ r)
  | n + 1 => by
    intro q p s o r
    cases r with | atLeast_succ r => exact .atLeast_succ (h.seq (h.atLeast n) _ _ _ _ r)
end

section
variable {a a' b b' : Expr}
theorem Eqv.neg (h : Eqv a a') : Eqv (.neg a) (.neg a') :=
  eqv_of_imp (fun g => (h.imp g).neg) (fun g => (h.symm.imp g).neg)
theorem Eqv.seq (h : Eqv a a') (h' : Eqv b b') : Eqv (.seq a b) (.seq a' b') :=
  eqv_of_imp (fun g => (h.imp g).seq (h'.imp g)) (fun g => (h.symm.imp g).seq (h'.symm.imp g))
theorem Eqv.choice (h : Eqv a a') (h' : Eqv b b') : Eqv (.choice a b) (.choice a' b') :=
  eqv_of_imp (fun g => (h.imp g).choice (h'.imp g)) (fun g => (h.symm.imp g).choice (h'.symm.imp g))
theorem Eqv.opt (h : Eqv a a') : Eqv (.opt a) (.opt a') :=
  eqv_of_imp (fun g => (h.imp g).opt) (fun g => (h.symm.imp g).opt)
theorem Eqv.rep (h : Eqv a a') : Eqv (.rep a) (.rep a') :=
  eqv_of_imp (fun g => (h.imp g).rep) (fun g => (h.symm.imp g).rep)
theorem Eqv.plus (h : Eqv a a') : Eqv (.plus a) (.plus a') :=
  eqv_of_imp (fun g => (h.imp g).plus) (fun g => (h.symm.imp g).plus)
theorem Eqv.exact (h : Eqv a a') (n : Nat) : Eqv (.exact a n) (.exact a' n) :=
  eqv_of_imp (fun g => (h.imp g).exact n) (fun g => (h.symm.imp g).exact n)
theorem Eqv.atLeast (h : Eqv a a') (n : Nat) : Eqv (.atLeast a n) (.atLeast a' n) :=
  eqv_of_imp (fun g => (h.imp g).atLeast n) (fun g => (h.symm.imp g).atLeast n)
end

theorem mapTop_eqv {f : Expr → Expr} (hf : ∀ e, Eqv (f e) e) : ∀ n e, Eqv (mapTop f n e) e
  | 0, _ => .rfl
  | n + 1, e => by
    refine Eqv.trans ?_ (hf e)
    unfold mapTop
    split <;> rename_i h <;> try rw [h]
    · exact (mapTop_eqv hf n _).neg
    · exact (mapTop_eqv hf n _).seq (mapTop_eqv hf n _)
    · exact (mapTop_eqv hf n _).choice (mapTop_eqv hf n _)
    · exact (mapTop_eqv hf n _).opt
    · exact (mapTop_eqv hf n _).rep
    · exact (mapTop_eqv hf n _).plus
    · exact (mapTop_eqv hf n _).exact _
    · exact (mapTop_eqv hf n _).atLeast _
    · exact .rfl

theorem mapBottom_eqv {f : Expr → Expr} (hf : ∀ e, Eqv (f e) e) (e : Expr) :
    Eqv (mapBottom f e) e := by
  induction e with
  | neg e ih => exact (hf _).trans ih.neg
  | seq a b iha ihb => exact (hf _).trans (iha.seq ihb)
  | choice a b iha ihb => exact (hf _).trans (iha.choice ihb)
  | opt e ih => exact (hf _).trans ih.opt
  | rep e ih => exact (hf _).trans ih.rep
  | plus e ih => exact (hf _).trans ih.plus
  | exact e n ih => exact (hf _).trans (ih.exact n)
  | atLeast e n ih => exact (hf _).trans (ih.atLeast n)
  | _ => exact hf _

/-! ## the steps -/

theorem seq_assoc_eqv (a b c : Expr) : Eqv (.seq a (.seq b c)) (.seq (.seq a b) c) := by
  refine eqv_of_imp (fun g q p s o r => ?_) (fun g q p s o r => ?_)
  · cases r with
    | seq_ok r1 r2 => cases r2 with
      | seq_ok r2 r3 => rw [← List.append_assoc]; exact .seq_ok (.seq_ok r1 r2) r3
    | seq_fail1 r1 => exact .seq_fail1 (.seq_fail1 r1)
    | seq_fail2 r1 r2 => cases r2 with
      | seq_fail1 r2 => exact .seq_fail1 (.seq_fail2 r1 r2)
      | seq_fail2 r2 r3 => exact .seq_fail2 (.seq_ok r1 r2) r3
  · cases r with
    | seq_ok r1 r2 => cases r1 with
      | seq_ok r0 r1 => rw [List.append_assoc]; exact .seq_ok r0 (.seq_ok r1 r2)
    | seq_fail1 r1 => cases r1 with
      | seq_fail1 r1 => exact .seq_fail1 r1
      | seq_fail2 r1 r2 => exact .seq_fail2 r1 (.seq_fail1 r2)
    | seq_fail2 r1 r2 => cases r1 with
      | seq_ok r0 r1 => exact .seq_fail2 r0 (.seq_fail2 r1 r2)

theorem choice_assoc_eqv (a b c : Expr) : Eqv (.choice a (.choice b c)) (.choice (.choice a b) c) := by
  refine eqv_of_imp (fun g q p s o r => ?_) (fun g q p s o r => ?_)
  · cases r with
    | choice_left r1 => exact .choice_left (.choice_left r1)
    | choice_right r1 r2 => cases r2 with
      | choice_left r2 => exact .choice_left (.choice_right r1 r2)
      | choice_right r2 r3 => exact .choice_right (.choice_right r1 r2) r3
  · cases r with
    | choice_left r1 => cases r1 with
      | choice_left r1 => exact .choice_left r1
      | choice_right r1 r2 => exact .choice_right r1 (.choice_left r2)
    | choice_right r1 r2 => cases r1 with
      | choice_right r0 r1 => exact .choice_right r0 (.choice_right r1 r2)

theorem rotateSeq_eqv (a r : Expr) : Eqv (rotateSeq a r) (.seq a r) := by
  induction a generalizing r with
  | seq a b iha _ => exact (iha _).trans (seq_assoc_eqv a b r)
  | _ => exact .rfl

theorem rotateChoice_eqv (a r : Expr) : Eqv (rotateChoice a r) (.choice a r) := by
  induction a generalizing r with
  | choice a b iha _ => exact (iha _).trans (choice_assoc_eqv a b r)
  | _ => exact .rfl

theorem rotateStep_eqv (e : Expr) : Eqv (rotateStep e) e := by
  cases e with
  | seq a b => exact rotateSeq_eqv a b
  | choice a b => exact rotateChoice_eqv a b
  | _ => exact .rfl

theorem seq_empty_eqv (a : Expr) : Eqv (.seq a (.str [])) a := by
  refine eqv_of_imp (fun g q p s o r => ?_) (fun g q p s o r => ?_)
  · cases r with
    | seq_ok r1 r2 => cases r2 with
      | str_ok h => cases h; rw [List.append_nil]; exact r1
    | seq_fail1 r1 => exact r1
    | seq_fail2 r1 r2 => cases r2 with
      | str_fail h => cases h
  · rcases o with _ | ⟨p1, s1, t1⟩
    · exact .seq_fail1 r
    · have := Runs.seq_ok r (Runs.str_ok (g := g) (w := []) (q := q) (p := p1) (s := s1) (s' := s1) rfl)
      rw [List.append_nil] at this
      exact this

theorem times_eqv (e : Expr) : ∀ n, Eqv (times e n) (.exact e n)
  | 0 => by
    refine eqv_of_imp (fun g q p s o r => ?_) (fun g q p s o r => ?_)
    · cases r with
      | str_ok h => cases h; exact .exact_zero
      | str_fail h => cases h
    · cases r; exact .str_ok (w := []) rfl
  | 1 => by
    have hz := times_eqv e 0
    refine (seq_empty_eqv e).symm.trans ((Eqv.seq .rfl hz).trans ?_)
    refine eqv_of_imp (fun g q p s o r => .exact_succ r) (fun g q p s o r => ?_)
    cases r with | exact_succ r => exact r
  | n + 2 => by
    refine (Eqv.seq .rfl (times_eqv e (n + 1))).trans ?_
    refine eqv_of_imp (fun g q p s o r => .exact_succ r) (fun g q p s o r => ?_)
    cases r with | exact_succ r => exact r

theorem timesThen_eqv (e : Expr) : ∀ n, Eqv (timesThen e n) (.atLeast e n)
  | 0 => by
    refine eqv_of_imp (fun g q p s o r => .atLeast_zero r) (fun g q p s o r => ?_)
    cases r with | atLeast_zero r => exact r
  | n + 1 => by
    refine (Eqv.seq .rfl (timesThen_eqv e n)).trans ?_
    refine eqv_of_imp (fun g q p s o r => .atLeast_succ r) (fun g q p s o r => ?_)
    cases r with | atLeast_succ r => exact r

theorem unrollStep_eqv (e : Expr) : Eqv (unrollStep e) e := by
  cases e with
  | plus e =>
    refine eqv_of_imp (fun g q p s o r => .plus r) (fun g q p s o r => ?_)
    cases r with | plus r => exact r
  | exact e n => exact times_eqv e n
  | atLeast e n => exact timesThen_eqv e n
  | _ => exact .rfl

theorem stripPrefix_concat (a b s : Str) :
    stripPrefix (a ++ b) s = (stripPrefix a s).bind (stripPrefix b) := by
  induction a generalizing s with
  | nil => rfl
  | cons c a ih =>
    cases s with
    | nil => rfl
    | cons d s =>
      simp only [List.cons_append, stripPrefix]
      split
      · exact ih s
      · rfl

theorem stripPrefixI_concat (a b s : Str) :
    stripPrefixI (a ++ b) s = (stripPrefixI a s).bind (stripPrefixI b) := by
  induction a generalizing s with
  | nil => rfl
  | cons c a ih =>
    cases s with
    | nil => rfl
    | cons d s =>
      simp only [List.cons_append, stripPrefixI]
      split
      · exact ih s
      · rfl

theorem concatStep_eqv (e : Expr) : Eqv (concatStep e) e := by
  unfold concatStep
  split
  · rename_i a b
    refine eqv_of_imp (fun g q p s o r => ?_) (fun g q p s o r => ?_)
    · cases r with
      | str_ok h =>
        rw [stripPrefix_concat] at h
        cases h1 : stripPrefix a s with
        | none => rw [h1] at h; cases h
        | some s1 =>
          rw [h1] at h
          rw [blen_append, ← Nat.add_assoc]
          exact .seq_ok (t1 := []) (.str_ok h1) (.str_ok h)
      | str_fail h =>
        rw [stripPrefix_concat] at h
        cases h1 : stripPrefix a s with
        | none => exact .seq_fail1 (.str_fail h1)
        | some s1 => rw [h1] at h; exact .seq_fail2 (.str_ok h1) (.str_fail h)
    · cases r with
      | seq_ok r1 r2 =>
        cases r1 with | str_ok h1 =>
        cases r2 with | str_ok h2 =>
        rw [Nat.add_assoc, ← blen_append]
        exact .str_ok (by rw [stripPrefix_concat, h1]; exact h2)
      | seq_fail1 r1 =>
        cases r1 with | str_fail h1 =>
        exact .str_fail (by rw [stripPrefix_concat, h1]; rfl)
      | seq_fail2 r1 r2 =>
        cases r1 with | str_ok h1 =>
        cases r2 with | str_fail h2 =>
        exact .str_fail (by rw [stripPrefix_concat, h1]; exact h2)
  · rename_i a b
    refine eqv_of_imp (fun g q p s o r => ?_) (fun g q p s o r => ?_)
    · cases r with
      | insens_ok h =>
        rw [stripPrefixI_concat] at h
        cases h1 : stripPrefixI a s with
        | none => rw [h1] at h; cases h
        | some s1 =>
          rw [h1] at h
          rw [blen_append, ← Nat.add_assoc]
          exact .seq_ok (t1 := []) (.insens_ok h1) (.insens_ok h)
      | insens_fail h =>
        rw [stripPrefixI_concat] at h
        cases h1 : stripPrefixI a s with
        | none => exact .seq_fail1 (.insens_fail h1)
        | some s1 => rw [h1] at h; exact .seq_fail2 (.insens_ok h1) (.insens_fail h)
    · cases r with
      | seq_ok r1 r2 =>
        cases r1 with | insens_ok h1 =>
        cases r2 with | insens_ok h2 =>
        rw [Nat.add_assoc, ← blen_append]
        exact .insens_ok (by rw [stripPrefixI_concat, h1]; exact h2)
      | seq_fail1 r1 =>
        cases r1 with | insens_fail h1 =>
        exact .insens_fail (by rw [stripPrefixI_concat, h1]; rfl)
      | seq_fail2 r1 r2 =>
        cases r1 with | insens_ok h1 =>
        cases r2 with | insens_fail h2 =>
        exact .insens_fail (by rw [stripPrefixI_concat, h1]; exact h2)
  · exact .rfl

theorem factorStep_eqv (e : Expr) : Eqv (factorStep e) e := by
  unfold factorStep
  split
  · rename_i a b c d
    split
    · rename_i h; subst h
      refine eqv_of_imp (fun g q p s o r => ?_) (fun g q p s o r => ?_)
      · cases r with
        | seq_ok r1 r2 => cases r2 with
          | choice_left r2 => exact .choice_left (.seq_ok r1 r2)
          | choice_right r2 r3 => exact .choice_right (.seq_fail2 r1 r2) (.seq_ok r1 r3)
        | seq_fail1 r1 => exact .choice_right (.seq_fail1 r1) (.seq_fail1 r1)
        | seq_fail2 r1 r2 => cases r2 with
          | choice_right r2 r3 => exact .choice_right (.seq_fail2 r1 r2) (.seq_fail2 r1 r3)
      · cases r with
        | choice_left r => cases r with
          | seq_ok r1 r2 => exact .seq_ok r1 (.choice_left r2)
        | choice_right r r' => cases r with
          | seq_fail1 r1 => cases r' with
            | seq_ok r2 => cases r1.det r2
            | seq_fail1 => exact .seq_fail1 r1
            | seq_fail2 r2 => cases r1.det r2
          | seq_fail2 r1 r2 => cases r' with
            | seq_ok r3 r4 => cases r1.det r3; exact .seq_ok r1 (.choice_right r2 r4)
            | seq_fail1 r3 => cases r1.det r3
            | seq_fail2 r3 r4 => cases r1.det r3; exact .seq_fail2 r1 (.choice_right r2 r4)
    · exact .rfl
  · rename_i a b c _
    split
    · rename_i h; subst h
      refine eqv_of_imp (fun g q p s o r => ?_) (fun g q p s o r => ?_)
      · cases r with
        | seq_ok r1 r2 => cases r2 with
          | opt_some r2 => exact .choice_left (.seq_ok r1 r2)
          | opt_none r2 => rw [List.append_nil]; exact .choice_right (.seq_fail2 r1 r2) r1
        | seq_fail1 r1 => exact .choice_right (.seq_fail1 r1) r1
        | seq_fail2 r1 r2 => cases r2
      · cases r with
        | choice_left r => cases r with
          | seq_ok r1 r2 => exact .seq_ok r1 (.opt_some r2)
        | choice_right r r' => cases r with
          | seq_fail1 r1 => cases r1.det r'; exact .seq_fail1 r1
          | seq_fail2 r1 r2 =>
            cases r1.det r'
            have := Runs.seq_ok r1 (Runs.opt_none r2)
            rw [List.append_nil] at this
            exact this
    · exact .rfl
  · rename_i a c d _
    split
    · rename_i h; subst h
      refine eqv_of_imp (fun g q p s o r => ?_) (fun g q p s o r => ?_)
      · rcases o with _ | o
        · exact .choice_right r (.seq_fail1 r)
        · exact .choice_left r
      · cases r with
        | choice_left r => exact r
        | choice_right r r' => cases r' with
          | seq_ok r1 => cases r.det r1
          | seq_fail1 => exact r
          | seq_fail2 r1 => cases r.det r1
    · exact .rfl
  · exact .rfl

/-! ### skipping -/

/-- a choice of texts fails where none of them begins -/
theorem choices_runs {g : Grammar} {e : Expr} {ws : List Str} (h : choices e = some ws) (q : Bool)
    (p : Nat) (s : Str) :
    (ws.any (fun w => (stripPrefix w s).isSome) = true → ∃ r, Runs g e q p s (some r)) ∧
    (ws.any (fun w => (stripPrefix w s).isSome) = false → Runs g e q p s none) := by
  induction e generalizing ws with
  | str w =>
    cases h
    simp only [List.any_cons, List.any_nil, Bool.or_false]
    cases hw : stripPrefix w s with
    | none => exact ⟨nofun, fun _ => .str_fail hw⟩
    | some s' => exact ⟨fun _ => ⟨_, .str_ok hw⟩, nofun⟩
  | choice a b _ ihb =>
    cases a with
    | str w =>
      simp only [choices, Option.map_eq_some_iff] at h
      obtain ⟨ws, h, rfl⟩ := h
      have ih := ihb h
      simp only [List.any_cons]
      cases hw : stripPrefix w s with
      | none =>
        simp only [Option.isSome_none, Bool.false_or]
        refine ⟨fun hs => ?_, fun hs => .choice_right (.str_fail hw) (ih.2 hs)⟩
        obtain ⟨r, hr⟩ := ih.1 hs
        exact ⟨_, .choice_right (.str_fail hw) hr⟩
      | some s' => exact ⟨fun _ => ⟨_, .choice_left (.str_ok hw)⟩, fun h => by cases h⟩
    | _ => cases h
  | _ => cases h

theorem builtin_any : builtin c!"ANY" = some .any := rfl

theorem skip_runs {g : Grammar} {e : Expr} {ws : List Str} (h : choices e = some ws) (q : Bool)
    (s : Str) : ∀ p, Runs g (.rep (.seq (.neg e) (.ident c!"ANY"))) q p s
      (some ((skipTo ws p s).1, (skipTo ws p s).2, [])) := by
  induction s with
  | nil =>
    intro p
    refine .rep_nil ?_
    have := choices_runs (g := g) h q p []
    cases hs : ws.any (fun w => (stripPrefix w []).isSome) with
    | true => obtain ⟨r, hr⟩ := this.1 hs; exact .seq_fail1 (.neg_fail hr)
    | false => exact .seq_fail2 (.neg_ok (this.2 hs)) (.builtin builtin_any .any_nil)
  | cons c s ih =>
    intro p
    have hc := choices_runs (g := g) h q p (c :: s)
    unfold skipTo
    split
    · rename_i hs
      obtain ⟨r, hr⟩ := hc.1 hs
      exact .rep_nil (.seq_fail1 (.neg_fail hr))
    · rename_i hs
      exact .rep_cons (t1 := []) (.seq_ok (t1 := []) (.neg_ok (hc.2 (Bool.not_eq_true _ ▸ hs))) (.builtin builtin_any .any_ok)) (ih _)

theorem skipStep_eqv (e : Expr) : Eqv (skipStep e) e := by
  unfold skipStep
  split
  · split
    · rename_i h; subst h
      split
      · rename_i ws h
        refine eqv_of_imp (fun g q p s o r => ?_) (fun g q p s o r => ?_)
        · cases r; exact skip_runs h q s p
        · cases r.det (skip_runs h q s p); exact .skip
      · exact .rfl
    · exact .rfl
  · exact .rfl

/-! ## the passes -/

theorem Pass.eqv (x : Pass) (hx : x ≠ .list) (k : Kind) (e : Expr) : Eqv (x.run k e) e := by
  cases x with
  | rotate => exact mapTop_eqv rotateStep_eqv _ e
  | skip =>
    simp only [Pass.run]; split
    · exact mapTop_eqv skipStep_eqv _ e
    · exact .rfl
  | unroll => exact mapBottom_eqv unrollStep_eqv e
  | concatenate =>
    simp only [Pass.run]; split
    · exact mapBottom_eqv concatStep_eqv e
    · exact .rfl
  | factorize => exact mapTop_eqv factorStep_eqv _ e
  | list => exact absurd rfl hx

theorem rule?_map {f : Kind → Expr → Expr} {g : Grammar} {i : Str} :
    (g.map f).rule? i = (g.rule? i).map fun r => { r with expr := f r.kind r.expr } := by
  induction g with
  | nil => rfl
  | cons r g ih =>
    simp only [Grammar.map, Grammar.rule?, List.map_cons, List.find?_cons]
    cases decide (r.name = i)
    · exact ih
    · rfl

/-- A grammar means the same when the bodies of its rules are replaced by equivalent ones. -/
theorem runs_map {f : Kind → Expr → Expr} (hf : ∀ k e, Eqv (f k e) e) {g : Grammar} {e q p s o} :
    Runs (g.map f) e q p s o ↔ Runs g e q p s o := by
  constructor
  · intro h
    induction h with
    | silent hb hr hk _ ih =>
      rw [rule?_map, Option.map_eq_some_iff] at hr
      obtain ⟨r, hr, rfl⟩ := hr
      exact .silent hb hr hk ((hf _ _ _ _ _ _ _).1 ih)
    | rule_ok hb hr hk hx _ ih =>
      rw [rule?_map, Option.map_eq_some_iff] at hr
      obtain ⟨r, hr, rfl⟩ := hr
      exact .rule_ok (r := r) hb hr hk hx ((hf _ _ _ _ _ _ _).1 ih)
    | rule_fail hb hr hk hx _ ih =>
      rw [rule?_map, Option.map_eq_some_iff] at hr
      obtain ⟨r, hr, rfl⟩ := hr
      exact .rule_fail (r := r) hb hr hk hx ((hf _ _ _ _ _ _ _).1 ih)
    | str_ok h => exact .str_ok h
    | str_fail h => exact .str_fail h
    | insens_ok h => exact .insens_ok h
    | insens_fail h => exact .insens_fail h
    | builtin hb h => exact .builtin hb h
    | neg_ok _ ih => exact .neg_ok ih
    | neg_fail _ ih => exact .neg_fail ih
    | seq_ok _ _ ih1 ih2 => exact .seq_ok ih1 ih2
    | seq_fail1 _ ih => exact .seq_fail1 ih
    | seq_fail2 _ _ ih1 ih2 => exact .seq_fail2 ih1 ih2
    | choice_left _ ih => exact .choice_left ih
    | choice_right _ _ ih1 ih2 => exact .choice_right ih1 ih2
    | opt_some _ ih => exact .opt_some ih
    | opt_none _ ih => exact .opt_none ih
    | rep_nil _ ih => exact .rep_nil ih
    | rep_cons _ _ ih1 ih2 => exact .rep_cons ih1 ih2
    | plus _ ih => exact .plus ih
    | exact_zero => exact .exact_zero
    | exact_succ _ ih => exact .exact_succ ih
    | atLeast_zero _ ih => exact .atLeast_zero ih
    | atLeast_succ _ ih => exact .atLeast_succ ih
    | skip => exact .skip
  · intro h
    induction h with
    | silent hb hr hk _ ih =>
      exact Runs.silent (g := Grammar.map f g) (r := RuleDef.mk _ _ (f _ _)) hb
        (by rw [rule?_map, hr]; rfl) hk ((hf _ _ _ _ _ _ _).2 ih)
    | rule_ok hb hr hk hx _ ih =>
      exact Runs.rule_ok (g := Grammar.map f g) (r := RuleDef.mk _ _ (f _ _)) hb
        (by rw [rule?_map, hr]; rfl) hk hx ((hf _ _ _ _ _ _ _).2 ih)
    | rule_fail hb hr hk hx _ ih =>
      exact Runs.rule_fail (g := Grammar.map f g) (r := RuleDef.mk _ _ (f _ _)) hb
        (by rw [rule?_map, hr]; rfl) hk hx ((hf _ _ _ _ _ _ _).2 ih)
    | str_ok h => exact .str_ok h
    | str_fail h => exact .str_fail h
    | insens_ok h => exact .insens_ok h
    | insens_fail h => exact .insens_fail h
    | builtin hb h => exact .builtin hb h
    | neg_ok _ ih => exact .neg_ok ih
    | neg_fail _ ih => exact .neg_fail ih
    | seq_ok _ _ ih1 ih2 => exact .seq_ok ih1 ih2
    | seq_fail1 _ ih => exact .seq_fail1 ih
    | seq_fail2 _ _ ih1 ih2 => exact .seq_fail2 ih1 ih2
    | choice_left _ ih => exact .choice_left ih
    | choice_right _ _ ih1 ih2 => exact .choice_right ih1 ih2
    | opt_some _ ih => exact .opt_some ih
    | opt_none _ ih => exact .opt_none ih
    | rep_nil _ ih => exact .rep_nil ih
    | rep_cons _ _ ih1 ih2 => exact .rep_cons ih1 ih2
    | plus _ ih => exact .plus ih
    | exact_zero => exact .exact_zero
    | exact_succ _ ih => exact .exact_succ ih
    | atLeast_zero _ ih => exact .atLeast_zero ih
    | atLeast_succ _ ih => exact .atLeast_succ ih
    | skip => exact .skip

theorem runs_passes {xs : List Pass} (hx : Pass.list ∉ xs) {g : Grammar} {e q p s o} :
    Runs (g.passes xs) e q p s o ↔ Runs g e q p s o := by
  induction xs generalizing g with
  | nil => exact Iff.rfl
  | cons x xs ih =>
    simp only [List.mem_cons, not_or] at hx
    refine (ih hx.2 (g := g.map x.run)).trans (runs_map ?_)
    exact Pass.eqv x (fun h => hx.1 h.symm)

end Pest
end Verif
