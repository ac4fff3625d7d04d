import Verif.Proof.Cost
import Verif.Spec.Cost

/-!
# Bounding the nesting of the engine

The recursive references of the grammar are reached only after a backslash or a hash has been
consumed (`guarded`), so that the nesting is bounded by the nesting of the expressions as they are
written (`dpt`) times the number of backslashes and hashes.
-/

namespace Verif
open Spec

/-- The nesting of an expression as it is written, up to recursive references. -/
def dpt : PExpr → Nat
  | .seq a b => max (dpt a) (dpt b) + 1
  | .alt a b => max (dpt a) (dpt b) + 1
  | .star e => dpt e + 1
  | .opt e => dpt e + 1
  | .neg e => dpt e + 1
  | .rule _ _ e => dpt e + 1
  | .recur _ => 0
  | _ => 1

/-- A success consumes a backslash or a hash. -/
def takesMark : PExpr → Bool
  | .str w => decide (1 ≤ marks w)
  | .seq a b => takesMark a || takesMark b
  | .alt a b => takesMark a && takesMark b
  | .rule _ _ e => takesMark e
  | _ => false

/-- Recursive references are reached only after a backslash or a hash; `g` says that one has been
consumed already. -/
def guarded (g : Bool) : PExpr → Bool
  | .seq a b => guarded g a && guarded (g || takesMark a) b
  | .alt a b => guarded g a && guarded g b
  | .star e => guarded g e
  | .opt e => guarded g e
  | .neg e => guarded g e
  | .rule _ _ e => guarded g e
  | .recur _ => g
  | _ => true

theorem marks_append (a b : Str) : marks (a ++ b) = marks a + marks b := by
  induction a with
  | nil => simp [marks]
  | cons c a ih => simp only [List.cons_append, marks, ih]; omega

theorem marks_suffix {s s' : Str} (h : s' <:+ s) : marks s' ≤ marks s := by
  obtain ⟨w, rfl⟩ := h
  rw [marks_append]; omega

theorem Sem.suffix {e q p s o} (h : Sem e q p s o) : ∀ p' s' ts, o = some (p', s', ts) →
    s' <:+ s := by
  intro p' s' ts e
  obtain ⟨w, h, _⟩ := h.forest _ _ _ e
  exact ⟨w, h.symm⟩

theorem Sem.takes {e q p s o} (h : Sem e q p s o) (he : takesMark e = true) :
    ∀ p' s' ts, o = some (p', s', ts) → marks s' + 1 ≤ marks s := by
  induction h with
  | str_ok h =>
    rintro _ _ _ ⟨⟩
    have := stripPrefix_eq_some_iff.1 h
    subst this
    have : 1 ≤ marks _ := of_decide_eq_true he
    rw [marks_append]; omega
  | seq_ok h1 h2 ih1 ih2 =>
    rintro _ _ _ ⟨⟩
    have l1 := marks_suffix (h1.suffix _ _ _ rfl)
    have l2 := marks_suffix (h2.suffix _ _ _ rfl)
    rcases Bool.or_eq_true_iff.1 he with he | he
    · have := ih1 he _ _ _ rfl; omega
    · have := ih2 he _ _ _ rfl; omega
  | alt_left _ ih =>
    intro _ _ _ e
    exact ih (Bool.and_eq_true_iff.1 he).1 _ _ _ e
  | alt_right _ _ _ ih =>
    intro _ _ _ e
    exact ih (Bool.and_eq_true_iff.1 he).2 _ _ _ e
  | rule_ok _ ih =>
    rintro _ _ _ ⟨⟩
    exact ih he _ _ _ rfl
  | _ => first | (rintro _ _ _ ⟨⟩; cases he) | (rintro _ _ _ ⟨⟩) | cases he

/-- The nesting that each backslash or hash may add. -/
def nestStep : Nat :=
  max (dpt G.any_breakable) (max (dpt G.inner) (dpt G.single_quoted_inner)) + 1

theorem SemM.nest_le {e q p s o m} (h : SemM e q p s o m) : ∀ (g : Bool) (H : Nat),
    marks s + (if g then 1 else 0) ≤ H → guarded g e = true →
    m.nest ≤ dpt e + nestStep * H := by
  induction h with
  | @leaf e q p s o he h =>
    intro g H _ _
    cases e <;> first | (simp only [Meter.leaf, dpt]; omega) | cases he
  | @seq_ok a b q p s p1 s1 t1 p2 s2 t2 m1 m2 h1 h2 ih1 ih2 =>
    intro g H hH hg
    obtain ⟨g1, g2⟩ := Bool.and_eq_true_iff.1 hg
    have i1 := ih1 g H hH g1
    have l1 := marks_suffix (h1.sem.suffix _ _ _ rfl)
    have i2 := ih2 _ H (by
      cases g with
      | true => simp at hH ⊢; omega
      | false =>
        cases ht : takesMark a with
        | false => simp at hH ⊢; omega
        | true => have := h1.sem.takes ht _ _ _ rfl; simp at hH ⊢; omega) g2
    simp only [Meter.around, Meter.andThen, dpt]; omega
  | seq_fail1 _ ih =>
    intro g H hH hg
    have := ih g H hH (Bool.and_eq_true_iff.1 hg).1
    simp only [Meter.around, dpt]; omega
  | @seq_fail2 a b q p s p1 s1 t1 m1 m2 h1 h2 ih1 ih2 =>
    intro g H hH hg
    obtain ⟨g1, g2⟩ := Bool.and_eq_true_iff.1 hg
    have i1 := ih1 g H hH g1
    have l1 := marks_suffix (h1.sem.suffix _ _ _ rfl)
    have i2 := ih2 _ H (by
      cases g with
      | true => simp at hH ⊢; omega
      | false =>
        cases ht : takesMark a with
        | false => simp at hH ⊢; omega
        | true => have := h1.sem.takes ht _ _ _ rfl; simp at hH ⊢; omega) g2
    simp only [Meter.around, Meter.andThen, dpt]; omega
  | alt_left _ ih =>
    intro g H hH hg
    have := ih g H hH (Bool.and_eq_true_iff.1 hg).1
    simp only [Meter.around, dpt]; omega
  | alt_right _ _ ih1 ih2 =>
    intro g H hH hg
    have := ih1 g H hH (Bool.and_eq_true_iff.1 hg).1
    have := ih2 g H hH (Bool.and_eq_true_iff.1 hg).2
    simp only [Meter.around, Meter.andThen, dpt]; omega
  | star_cons h1 h2 ih1 ih2 =>
    intro g H hH hg
    have l1 := marks_suffix (h1.sem.suffix _ _ _ rfl)
    have := ih1 g H hH hg
    have := ih2 g H (by omega) hg
    simp only [Meter.around, Meter.andThen, dpt] at this ⊢; omega
  | @recur r q p s o m1 h ih =>
    intro g H hH hg
    have hg : g = true := hg
    subst hg
    have i := ih false (marks s) (by simp) (by cases r <;> decide +kernel)
    have : dpt (G.body r) + 1 ≤ nestStep := by cases r <;> decide +kernel
    have hm : nestStep * (marks s + 1) ≤ nestStep * H :=
      Nat.mul_le_mul (Nat.le_refl _) (by simpa using hH)
    rw [Nat.mul_add, Nat.mul_one] at hm
    simp only [Meter.around, dpt]; omega
  | _ h1 ih =>
    intro g H hH hg
    have := ih g H hH hg
    simp only [Meter.around, dpt]; omega

theorem guarded_dockerfile : guarded false G.dockerfile = true := by decide +kernel

theorem engine_nest (s : Str) :
    (engineMeter s).nest ≤ dpt G.dockerfile + nestStep * marks s := by
  obtain ⟨o, h⟩ := engine_semM s
  exact h.nest_le false _ (Nat.le_refl _) guarded_dockerfile

end Verif
