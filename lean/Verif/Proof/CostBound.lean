import Verif.Proof.Cost

/-!
# Bounding the work of the engine: a static analysis

`WorkBnd` is a bound on the work of an expression in terms of the length of the input and of what is
consumed; `bnd` computes one from the parts of an expression, except where a better one is known
(`ov`); `SemM.bound` is its soundness.  The entries of `ov` used in the end are proved by hand in
`Proof/CostGap.lean`.
-/

namespace Verif

deriving instance DecidableEq for PExpr

/-- A bound on the work of an expression.  On an input of length `n`, with `N = n + 1`: a
successful run that consumes `c` characters makes at most `ks * ((c + 1) * N ^ s)` and at most
`kt * N ^ t` evaluations, a failing one at most `kf * N ^ f`; `fails = false` means that the
expression cannot fail. -/
structure WorkBnd where
  ks : Nat
  s : Nat
  kt : Nat
  t : Nat
  kf : Nat
  f : Nat
  fails : Bool
  deriving DecidableEq, Repr

/-- The statement of a bound about one run. -/
def WorkBnd.Holds (B : WorkBnd) (s : Str) (o : Out) (n : Nat) : Prop :=
  match o with
  | some (_, s', _) =>
    n ≤ B.ks * ((s.length - s'.length + 1) * (s.length + 1) ^ B.s) ∧
      n ≤ B.kt * (s.length + 1) ^ B.t
  | none => n ≤ B.kf * (s.length + 1) ^ B.f ∧ B.fails = true

/-- The bound is right for all runs of the expression. -/
def Sound (e : PExpr) (B : WorkBnd) : Prop :=
  ∀ q p s o m, SemM e q p s o m → B.Holds s o m.evals

namespace WorkBnd

def leaf : WorkBnd := ⟨1, 0, 1, 0, 1, 0, true⟩

def seq (A B : WorkBnd) : WorkBnd :=
  ⟨1 + A.ks + B.ks, max A.s B.s, 1 + A.kt + B.kt, max A.t B.t,
    max (if A.fails then 1 + A.kf else 0) (if B.fails then 1 + A.kt + B.kf else 0),
    max (if A.fails then A.f else 0) (if B.fails then max A.t B.f else 0),
    A.fails || B.fails⟩

def alt (A B : WorkBnd) : WorkBnd :=
  ⟨max (1 + A.ks) (if A.fails then 1 + A.kf + B.ks else 0),
    max A.s (if A.fails then max A.f B.s else 0),
    max (1 + A.kt) (if A.fails then 1 + A.kf + B.kt else 0),
    max A.t (if A.fails then max A.f B.t else 0),
    if A.fails && B.fails then 1 + A.kf + B.kf else 0,
    if A.fails && B.fails then max A.f B.f else 0,
    A.fails && B.fails⟩

def star (A : WorkBnd) : WorkBnd :=
  let k := max (1 + 2 * A.ks) (if A.fails then 1 + A.kf else 0)
  let s := max A.s (if A.fails then A.f else 0)
  ⟨k, s, k, s + 1, 0, 0, false⟩

def opt (A : WorkBnd) : WorkBnd :=
  ⟨max (1 + A.ks) (if A.fails then 1 + A.kf else 0), max A.s (if A.fails then A.f else 0),
    max (1 + A.kt) (if A.fails then 1 + A.kf else 0), max A.t (if A.fails then A.f else 0),
    0, 0, false⟩

def neg (A : WorkBnd) : WorkBnd :=
  ⟨if A.fails then 1 + A.kf else 0, if A.fails then A.f else 0,
    if A.fails then 1 + A.kf else 0, if A.fails then A.f else 0, 1 + A.kt, A.t, true⟩

def rule (A : WorkBnd) : WorkBnd :=
  ⟨1 + A.ks, A.s, 1 + A.kt, A.t, if A.fails then 1 + A.kf else 0, A.f, A.fails⟩

end WorkBnd

/-- The analysis.  `ov` gives bounds known in advance for some expressions. -/
def bnd (ov : PExpr → Option WorkBnd) : PExpr → WorkBnd
  | .seq a b => (ov (.seq a b)).getD ((bnd ov a).seq (bnd ov b))
  | .alt a b => (ov (.alt a b)).getD ((bnd ov a).alt (bnd ov b))
  | .star e => (ov (.star e)).getD (bnd ov e).star
  | .opt e => (ov (.opt e)).getD (bnd ov e).opt
  | .neg e => (ov (.neg e)).getD (bnd ov e).neg
  | .rule k r e => (ov (.rule k r e)).getD (bnd ov e).rule
  | .recur r => (ov (.recur r)).getD .leaf
  | _ => .leaf

/-- What the analysis needs: repetitions repeat something that consumes input, and recursive
references are among the known expressions. -/
def fine (ov : PExpr → Option WorkBnd) : PExpr → Bool
  | .seq a b => (ov (.seq a b)).isSome || (fine ov a && fine ov b)
  | .alt a b => (ov (.alt a b)).isSome || (fine ov a && fine ov b)
  | .star e => (ov (.star e)).isSome || (fine ov e && consumes e)
  | .opt e => (ov (.opt e)).isSome || fine ov e
  | .neg e => (ov (.neg e)).isSome || fine ov e
  | .rule k r e => (ov (.rule k r e)).isSome || fine ov e
  | .recur r => (ov (.recur r)).isSome
  | _ => true

/-! ## arithmetic -/

theorem pow_mono_deg {N a b : Nat} (hN : 1 ≤ N) (h : a ≤ b) : N ^ a ≤ N ^ b :=
  Nat.pow_le_pow_right hN h

theorem one_le_pow {N a : Nat} (hN : 1 ≤ N) : 1 ≤ N ^ a := Nat.one_le_pow _ _ hN

theorem one_le_area {c n a : Nat} : 1 ≤ (c + 1) * (n + 1) ^ a :=
  Nat.mul_pos (by omega) (one_le_pow (by omega))

theorem one_le_pow' {n a : Nat} : 1 ≤ (n + 1) ^ a := one_le_pow (by omega)

/-- `k * X ≤ k' * X'` from `k ≤ k'`, `X ≤ X'`, in the form used below. -/
theorem bump {n k k' X X' : Nat} (h : n ≤ k * X) (hk : k ≤ k') (hX : X ≤ X') : n ≤ k' * X' :=
  Nat.le_trans h (Nat.mul_le_mul hk hX)

theorem bump1 {n k k' X : Nat} (h : n ≤ k * X) (hk : 1 + k ≤ k') (hX : 1 ≤ X) :
    n + 1 ≤ k' * X := by
  refine Nat.le_trans ?_ (Nat.mul_le_mul hk (Nat.le_refl X))
  rw [Nat.add_mul, Nat.one_mul]; omega

theorem bump2 {n m k l k' X : Nat} (h : n ≤ k * X) (h' : m ≤ l * X) (hk : 1 + k + l ≤ k')
    (hX : 1 ≤ X) : n + m + 1 ≤ k' * X := by
  refine Nat.le_trans ?_ (Nat.mul_le_mul hk (Nat.le_refl X))
  rw [Nat.add_mul, Nat.add_mul, Nat.one_mul]; omega

theorem mul_pow_mono {c c' N N' a b : Nat} (hc : c ≤ c') (hN : 1 ≤ N') (hN' : N ≤ N')
    (h : a ≤ b) : c * N ^ a ≤ c' * N' ^ b :=
  Nat.mul_le_mul hc (Nat.le_trans (Nat.pow_le_pow_left hN' a) (pow_mono_deg hN h))

theorem pow_mono2 {N N' a b : Nat} (hN : 1 ≤ N') (hN' : N ≤ N') (h : a ≤ b) : N ^ a ≤ N' ^ b :=
  Nat.le_trans (Nat.pow_le_pow_left hN' a) (pow_mono_deg hN h)

theorem pow_area {c n a b : Nat} (h : a ≤ b) : (n + 1) ^ a ≤ (c + 1) * (n + 1) ^ b := by
  have := Nat.mul_le_mul (show 1 ≤ c + 1 by omega) (pow_mono_deg (show 1 ≤ n + 1 by omega) h)
  rw [Nat.one_mul] at this; exact this

/-! ## soundness -/

theorem SemM.len {e q p s p' s' ts m} (h : SemM e q p s (some (p', s', ts)) m) :
    s'.length ≤ s.length := (h.sem.consumes _ _ _ rfl).1

theorem SemM.bound {ov : PExpr → Option WorkBnd} (hov : ∀ e B, ov e = some B → Sound e B)
    {e q p s o m} (h : SemM e q p s o m) (hl : fine ov e = true) :
    (bnd ov e).Holds s o m.evals := by
  induction h with
  | @leaf e q p s o he hs =>
    cases hs with
    | str_ok h => refine ⟨?_, ?_⟩ <;> simp only [bnd, WorkBnd.leaf, Nat.pow_zero, Meter.leaf] <;> omega
    | istr_ok h => refine ⟨?_, ?_⟩ <;> simp only [bnd, WorkBnd.leaf, Nat.pow_zero, Meter.leaf] <;> omega
    | range_ok h => refine ⟨?_, ?_⟩ <;> simp [bnd, WorkBnd.leaf, Meter.leaf]
    | any_ok => refine ⟨?_, ?_⟩ <;> simp [bnd, WorkBnd.leaf, Meter.leaf]
    | soi_ok => refine ⟨?_, ?_⟩ <;> simp [bnd, WorkBnd.leaf, Meter.leaf]
    | eoi_ok => refine ⟨?_, ?_⟩ <;> simp [bnd, WorkBnd.leaf, Meter.leaf]
    | str_fail | istr_fail | range_fail | range_nil | any_nil | soi_fail | eoi_fail =>
      refine ⟨?_, rfl⟩; simp [bnd, WorkBnd.leaf, Meter.leaf]
    | _ => cases he
  | @seq_ok a b q p s p1 s1 t1 p2 s2 t2 m1 m2 h1 h2 ih1 ih2 =>
    simp only [bnd, fine] at hl ⊢
    cases ho : ov (.seq a b) with
    | some B => exact hov _ _ ho _ _ _ _ _ (.seq_ok h1 h2)
    | none =>
    simp only [ho, Option.isSome_none, Bool.false_or, Bool.and_eq_true] at hl
    simp only [Option.getD_none]
    have i1 := ih1 hl.1
    have i2 := ih2 hl.2
    have l1 := h1.len
    have l2 := h2.len
    refine ⟨?_, ?_⟩
    · refine bump2 (bump i1.1 (Nat.le_refl _) ?_) (bump i2.1 (Nat.le_refl _) ?_)
        (Nat.le_refl _) one_le_area
      · exact mul_pow_mono (by omega) (by omega) (by omega) (Nat.le_max_left _ _)
      · exact mul_pow_mono (by omega) (by omega) (by omega) (Nat.le_max_right _ _)
    · refine bump2 (bump i1.2 (Nat.le_refl _) ?_) (bump i2.2 (Nat.le_refl _) ?_)
        (Nat.le_refl _) one_le_pow'
      · exact pow_mono_deg (by omega) (Nat.le_max_left _ _)
      · exact pow_mono2 (by omega) (by omega) (Nat.le_max_right _ _)
  | @seq_fail1 a b q p s m1 h1 ih1 =>
    simp only [bnd, fine] at hl ⊢
    cases ho : ov (.seq a b) with
    | some B => exact hov _ _ ho _ _ _ _ _ (.seq_fail1 h1)
    | none =>
    simp only [ho, Option.isSome_none, Bool.false_or, Bool.and_eq_true] at hl
    simp only [Option.getD_none]
    have i1 := ih1 hl.1
    have hf := i1.2
    refine ⟨bump1 (bump i1.1 (Nat.le_refl _) (pow_mono_deg (by omega) ?_)) ?_ one_le_pow', ?_⟩
    · simp only [WorkBnd.seq, hf, if_true]; exact Nat.le_max_left _ _
    · simp only [WorkBnd.seq, hf, if_true]; exact Nat.le_max_left _ _
    · simp only [WorkBnd.seq, hf, Bool.true_or]
  | @seq_fail2 a b q p s p1 s1 t1 m1 m2 h1 h2 ih1 ih2 =>
    simp only [bnd, fine] at hl ⊢
    cases ho : ov (.seq a b) with
    | some B => exact hov _ _ ho _ _ _ _ _ (.seq_fail2 h1 h2)
    | none =>
    simp only [ho, Option.isSome_none, Bool.false_or, Bool.and_eq_true] at hl
    simp only [Option.getD_none]
    have i1 := (ih1 hl.1).2
    have i2 := ih2 hl.2
    have l1 := h1.len
    have hf := i2.2
    refine ⟨bump2 (bump i1 (Nat.le_refl _) (pow_mono_deg (by omega) ?_))
      (bump i2.1 (Nat.le_refl _) (pow_mono2 (by omega) (by omega) ?_)) ?_ one_le_pow', ?_⟩
    · simp only [WorkBnd.seq, hf, if_true]; omega
    · simp only [WorkBnd.seq, hf, if_true]; omega
    · simp only [WorkBnd.seq, hf, if_true]; omega
    · simp only [WorkBnd.seq, hf, Bool.or_true]
  | @alt_left a b q p s r m1 h1 ih1 =>
    simp only [bnd, fine] at hl ⊢
    cases ho : ov (.alt a b) with
    | some B => exact hov _ _ ho _ _ _ _ _ (.alt_left h1)
    | none =>
    simp only [ho, Option.isSome_none, Bool.false_or, Bool.and_eq_true] at hl
    simp only [Option.getD_none]
    obtain ⟨p', s', ts⟩ := r
    have i1 := ih1 hl.1
    refine ⟨bump1 (bump i1.1 (Nat.le_refl _) (mul_pow_mono (Nat.le_refl _) (by omega)
      (Nat.le_refl _) ?_)) ?_ one_le_area,
      bump1 (bump i1.2 (Nat.le_refl _) (pow_mono_deg (by omega) ?_)) ?_ one_le_pow'⟩ <;>
    · simp only [WorkBnd.alt]; omega
  | @alt_right a b q p s r m1 m2 h1 h2 ih1 ih2 =>
    simp only [bnd, fine] at hl ⊢
    cases ho : ov (.alt a b) with
    | some B => exact hov _ _ ho _ _ _ _ _ (.alt_right h1 h2)
    | none =>
    simp only [ho, Option.isSome_none, Bool.false_or, Bool.and_eq_true] at hl
    simp only [Option.getD_none]
    have i1 := ih1 hl.1
    have i2 := ih2 hl.2
    have hf := i1.2
    cases r with
    | some r =>
      obtain ⟨p', s', ts⟩ := r
      refine ⟨bump2 (bump i1.1 (Nat.le_refl _) (pow_area ?_))
        (bump i2.1 (Nat.le_refl _) (mul_pow_mono (Nat.le_refl _) (by omega)
        (Nat.le_refl _) ?_)) ?_ one_le_area,
        bump2 (bump i1.1 (Nat.le_refl _) (pow_mono_deg (by omega) ?_))
        (bump i2.2 (Nat.le_refl _) (pow_mono_deg (by omega) ?_)) ?_ one_le_pow'⟩ <;>
      · simp only [WorkBnd.alt, hf, if_true]; omega
    | none =>
      have hf2 := i2.2
      refine ⟨bump2 (bump i1.1 (Nat.le_refl _) (pow_mono_deg (by omega) ?_))
        (bump i2.1 (Nat.le_refl _) (pow_mono_deg (by omega) ?_)) ?_ one_le_pow', ?_⟩
      · simp only [WorkBnd.alt, hf, hf2, Bool.and_self, if_true]; omega
      · simp only [WorkBnd.alt, hf, hf2, Bool.and_self, if_true]; omega
      · simp only [WorkBnd.alt, hf, hf2, Bool.and_self, if_true]; omega
      · simp only [WorkBnd.alt, hf, hf2, Bool.and_self]
  | @star_nil e q p s m1 h1 ih1 =>
    simp only [bnd, fine] at hl ⊢
    cases ho : ov (.star e) with
    | some B => exact hov _ _ ho _ _ _ _ _ (.star_nil h1)
    | none =>
    simp only [ho, Option.isSome_none, Bool.false_or, Bool.and_eq_true] at hl
    simp only [Option.getD_none]
    have i1 := ih1 hl.1
    have hf := i1.2
    refine ⟨bump1 (bump i1.1 (Nat.le_refl _) (pow_area ?_)) ?_ one_le_area,
      bump1 (bump i1.1 (Nat.le_refl _) (pow_mono_deg (by omega) ?_)) ?_ one_le_pow'⟩ <;>
    · simp only [WorkBnd.star, hf, if_true]; omega
  | @star_cons e q p s p1 s1 t1 p2 s2 t2 m1 m2 h1 h2 ih1 ih2 =>
    have i2 := ih2 hl
    simp only [bnd, fine] at hl i2 ⊢
    cases ho : ov (.star e) with
    | some B => exact hov _ _ ho _ _ _ _ _ (.star_cons h1 h2)
    | none =>
    simp only [ho, Option.isSome_none, Bool.false_or, Bool.and_eq_true] at hl
    simp only [ho, Option.getD_none] at i2 ⊢
    have i1 := (ih1 hl.1).1
    have l1 := (h1.sem.consumes _ _ _ rfl).2 hl.2
    have l2 := h2.len
    have hS : (bnd ov e).s ≤ (bnd ov e).star.s := by simp only [WorkBnd.star]; omega
    have hk : 1 + 2 * (bnd ov e).ks ≤ (bnd ov e).star.ks := by simp only [WorkBnd.star]; omega
    have hT : (bnd ov e).star.t = (bnd ov e).star.s + 1 := rfl
    have hK : (bnd ov e).star.kt = (bnd ov e).star.ks := rfl
    have main : m1.evals + 1 + m2.evals ≤ (bnd ov e).star.ks *
        ((s.length - s2.length + 1) * (s.length + 1) ^ (bnd ov e).star.s) := by
      have i2 := i2.1
      generalize (bnd ov e).star.s = S at *
      generalize (bnd ov e).star.ks = K at *
      generalize (bnd ov e).ks = k at *
      generalize hc1 : s.length - s1.length = c1 at *
      generalize hc2 : s1.length - s2.length = c2 at *
      have hc : s.length - s2.length = c1 + c2 := by omega
      rw [hc]
      generalize hX : (s.length + 1) ^ S = X
      have hX1 : 1 ≤ X := by rw [← hX]; exact one_le_pow'
      have a1 : m1.evals ≤ k * ((c1 + 1) * X) := by
        refine bump i1 (Nat.le_refl _) ?_
        rw [← hX]; exact mul_pow_mono (Nat.le_refl _) (by omega) (Nat.le_refl _) hS
      have a2 : m2.evals ≤ K * ((c2 + 1) * X) := by
        refine bump i2 (Nat.le_refl _) ?_
        rw [← hX]; exact mul_pow_mono (Nat.le_refl _) (by omega) (by omega) (Nat.le_refl _)
      have a3 : m1.evals + 1 ≤ K * (c1 * X) := by
        refine Nat.le_trans ?_ (Nat.mul_le_mul hk (Nat.le_refl _))
        have hc1X : X ≤ c1 * X := by
          have := Nat.mul_le_mul (show 1 ≤ c1 by omega) (Nat.le_refl X); omega
        have e1 : k * ((c1 + 1) * X) = k * (c1 * X) + k * X := by
          rw [Nat.add_mul, Nat.one_mul, Nat.mul_add]
        have e2 : (1 + 2 * k) * (c1 * X) = c1 * X + 2 * (k * (c1 * X)) := by
          rw [Nat.add_mul, Nat.one_mul, Nat.mul_assoc]
        have e3 : k * X ≤ k * (c1 * X) := Nat.mul_le_mul (Nat.le_refl _) hc1X
        omega
      have e4 : K * ((c1 + c2 + 1) * X) = K * (c1 * X) + K * ((c2 + 1) * X) := by
        rw [← Nat.mul_add, ← Nat.add_mul, Nat.add_assoc]
      omega
    refine ⟨main, ?_⟩
    rw [hT, hK]
    refine Nat.le_trans main (Nat.mul_le_mul (Nat.le_refl _) ?_)
    rw [Nat.pow_succ, Nat.mul_comm]
    exact Nat.mul_le_mul (Nat.le_refl _) (by omega)
  | @opt_some e q p s r m1 h1 ih1 =>
    simp only [bnd, fine] at hl ⊢
    cases ho : ov (.opt e) with
    | some B => exact hov _ _ ho _ _ _ _ _ (.opt_some h1)
    | none =>
    simp only [ho, Option.isSome_none, Bool.false_or] at hl
    simp only [Option.getD_none]
    obtain ⟨p', s', ts⟩ := r
    have i1 := ih1 hl
    refine ⟨bump1 (bump i1.1 (Nat.le_refl _) (mul_pow_mono (Nat.le_refl _) (by omega)
      (Nat.le_refl _) ?_)) ?_ one_le_area,
      bump1 (bump i1.2 (Nat.le_refl _) (pow_mono_deg (by omega) ?_)) ?_ one_le_pow'⟩ <;>
    · simp only [WorkBnd.opt]; omega
  | @opt_none e q p s m1 h1 ih1 =>
    simp only [bnd, fine] at hl ⊢
    cases ho : ov (.opt e) with
    | some B => exact hov _ _ ho _ _ _ _ _ (.opt_none h1)
    | none =>
    simp only [ho, Option.isSome_none, Bool.false_or] at hl
    simp only [Option.getD_none]
    have i1 := ih1 hl
    have hf := i1.2
    refine ⟨bump1 (bump i1.1 (Nat.le_refl _) (pow_area ?_)) ?_ one_le_area,
      bump1 (bump i1.1 (Nat.le_refl _) (pow_mono_deg (by omega) ?_)) ?_ one_le_pow'⟩ <;>
    · simp only [WorkBnd.opt, hf, if_true]; omega
  | @neg_ok e q p s m1 h1 ih1 =>
    simp only [bnd, fine] at hl ⊢
    cases ho : ov (.neg e) with
    | some B => exact hov _ _ ho _ _ _ _ _ (.neg_ok h1)
    | none =>
    simp only [ho, Option.isSome_none, Bool.false_or] at hl
    simp only [Option.getD_none]
    have i1 := ih1 hl
    have hf := i1.2
    refine ⟨bump1 (bump i1.1 (Nat.le_refl _) (pow_area ?_)) ?_ one_le_area,
      bump1 (bump i1.1 (Nat.le_refl _) (pow_mono_deg (by omega) ?_)) ?_ one_le_pow'⟩ <;>
    · simp only [WorkBnd.neg, hf, if_true]; omega
  | @neg_fail e q p s r m1 h1 ih1 =>
    simp only [bnd, fine] at hl ⊢
    cases ho : ov (.neg e) with
    | some B => exact hov _ _ ho _ _ _ _ _ (.neg_fail h1)
    | none =>
    simp only [ho, Option.isSome_none, Bool.false_or] at hl
    simp only [Option.getD_none]
    obtain ⟨p', s', ts⟩ := r
    exact ⟨bump1 (ih1 hl).2 (Nat.le_refl _) one_le_pow', rfl⟩
  | @rule_ok k r e q p s p1 s1 t1 m1 h1 ih1 =>
    simp only [bnd, fine] at hl ⊢
    cases ho : ov (.rule k r e) with
    | some B => exact hov _ _ ho _ _ _ _ _ (.rule_ok h1)
    | none =>
    simp only [ho, Option.isSome_none, Bool.false_or] at hl
    simp only [Option.getD_none]
    have i1 := ih1 hl
    exact ⟨bump1 i1.1 (Nat.le_refl _) one_le_area, bump1 i1.2 (Nat.le_refl _) one_le_pow'⟩
  | @rule_fail k r e q p s m1 h1 ih1 =>
    simp only [bnd, fine] at hl ⊢
    cases ho : ov (.rule k r e) with
    | some B => exact hov _ _ ho _ _ _ _ _ (.rule_fail h1)
    | none =>
    simp only [ho, Option.isSome_none, Bool.false_or] at hl
    simp only [Option.getD_none]
    have i1 := ih1 hl
    have hf := i1.2
    refine ⟨bump1 i1.1 ?_ one_le_pow', hf⟩
    simp only [WorkBnd.rule, hf, if_true]; omega
  | @recur r q p s o m1 h1 ih1 =>
    simp only [bnd, fine] at hl ⊢
    cases ho : ov (.recur r) with
    | some B => exact hov _ _ ho _ _ _ _ _ (.recur h1)
    | none => rw [ho] at hl; cases hl

/-- The analysis in one piece: if it says `B` for `e`, then `B` is right for `e`. -/
theorem sound_of_bnd {ov : PExpr → Option WorkBnd} (hov : ∀ e B, ov e = some B → Sound e B)
    {e : PExpr} {B : WorkBnd} (h : bnd ov e = B) (hl : fine ov e = true) : Sound e B := by
  intro q p s o m hm; rw [← h]; exact hm.bound hov hl

/-- Nothing known in advance. -/
def noOv : PExpr → Option WorkBnd := fun _ => none

theorem noOv_ok : ∀ e B, noOv e = some B → Sound e B := by intro e B h; cases h

end Verif
