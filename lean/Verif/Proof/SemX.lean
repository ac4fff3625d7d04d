import Verif.Proof.Lex

/-!
# Runs with the consumed text made explicit

`SemX e q p x s' ts`: at position `p`, on the input `x ++ s'`, the expression consumes exactly
`x` and emits `ts`.
-/

namespace Verif

open Spec

def SemX (e : PExpr) (q : Bool) (p : Nat) (x s' : Str) (ts : List Tok) : Prop :=
  Sem e q p (x ++ s') (some (p + blen x, s', ts))

theorem Sem.x {e q p s p' s' ts} (h : Sem e q p s (some (p', s', ts))) :
    ∃ x, s = x ++ s' ∧ p' = p + blen x ∧ SemX e q p x s' ts := by
  obtain ⟨x, rfl, rfl, f⟩ := h.forest _ _ _ rfl
  exact ⟨x, rfl, rfl, h⟩

theorem SemX.of {e q p x s' p' ts} (h : Sem e q p (x ++ s') (some (p', s', ts))) :
    SemX e q p x s' ts := by
  obtain ⟨y, hy, rfl, h'⟩ := h.x
  have := List.append_cancel_right hy
  subst this; exact h'

theorem SemX.forest {e q p x s' ts} (h : SemX e q p x s' ts) : Forest p x ts := by
  obtain ⟨y, hy, _, f⟩ := Sem.forest h _ _ _ rfl
  have := List.append_cancel_right hy
  subst this; exact f

theorem SemX.nonempty {e q p x s' ts} (h : SemX e q p x s' ts) (hc : consumes e = true) :
    x ≠ [] := by
  have := (Sem.consumes h _ _ _ rfl).2 hc
  intro h0; rw [h0] at this; simp at this

theorem SemX.shape {e q p x s' ts} (h : SemX e q p x s' ts) : Shape e q ts :=
  Sem.shape h _ _ _ rfl

theorem semX_seq {a b q p x s' ts} : SemX (.seq a b) q p x s' ts ↔
    ∃ x1 x2 t1 t2, x = x1 ++ x2 ∧ ts = t1 ++ t2 ∧ SemX a q p x1 (x2 ++ s') t1 ∧
      SemX b q (p + blen x1) x2 s' t2 := by
  unfold SemX
  rw [sem_seq_some]
  constructor
  · rintro ⟨p1, s1, t1, t2, h1, h2, rfl⟩
    obtain ⟨x1, e1, rfl, f1⟩ := h1.forest _ _ _ rfl
    obtain ⟨x2, rfl, e3, f2⟩ := h2.forest _ _ _ rfl
    rw [← List.append_assoc] at e1
    have := List.append_cancel_right e1
    subst this
    refine ⟨x1, x2, t1, t2, rfl, rfl, ?_, ?_⟩
    · rw [List.append_assoc] at h1; exact h1
    · rw [← e3]; exact h2
  · rintro ⟨x1, x2, t1, t2, rfl, rfl, h1, h2⟩
    refine ⟨p + blen x1, x2 ++ s', t1, t2, ?_, ?_, rfl⟩
    · rw [List.append_assoc]; exact h1
    · rw [blen_append, ← Nat.add_assoc]; exact h2

theorem semX_str {w q p x s' ts} : SemX (.str w) q p x s' ts ↔ x = w ∧ ts = [] := by
  unfold SemX
  rw [sem_str_some]
  constructor
  · rintro ⟨h1, _, h3⟩; exact ⟨List.append_cancel_right h1, h3⟩
  · rintro ⟨rfl, rfl⟩; exact ⟨rfl, rfl, rfl⟩

theorem semX_istr {w q p x s' ts} : SemX (.istr w) q p x s' ts ↔ lower x = lower w ∧ ts = [] := by
  constructor
  · intro h
    obtain ⟨hs, ht⟩ : stripPrefixI w (x ++ s') = some s' ∧ ts = [] := by
      have h : Sem (.istr w) q p (x ++ s') _ := h
      generalize hs : x ++ s' = s at h
      generalize p + blen x = p' at h
      cases h with
      | istr_ok h' => exact ⟨h', rfl⟩
    obtain ⟨y, hy, hl⟩ := stripPrefixI_eq_some_iff.1 hs
    have := List.append_cancel_right hy
    subst this; exact ⟨by first | exact hl | exact hl.symm, ht⟩
  · rintro ⟨h, rfl⟩
    have : stripPrefixI w (x ++ s') = some s' :=
      stripPrefixI_eq_some_iff.2 ⟨x, rfl, by first | exact h | exact h.symm⟩
    have := Sem.istr_ok (q := q) (p := p) this
    unfold SemX; rw [blen_eq_of_lower h]; exact this

theorem semX_alt {a b q p x s' ts} : SemX (.alt a b) q p x s' ts ↔
    SemX a q p x s' ts ∨ (Sem a q p (x ++ s') none ∧ SemX b q p x s' ts) := sem_alt_some

theorem semX_opt {e q p x s' ts} : SemX (.opt e) q p x s' ts ↔
    SemX e q p x s' ts ∨ (x = [] ∧ ts = [] ∧ Sem e q p s' none) := by
  unfold SemX
  rw [sem_opt_some]
  constructor
  · rintro (h | ⟨h1, h2, h3, h4⟩)
    · exact .inl h
    · have hx : x = [] := by
        have := congrArg List.length h3
        simp only [List.length_append] at this
        exact List.eq_nil_of_length_eq_zero (by omega)
      subst hx; exact .inr ⟨rfl, h4, h1⟩
  · rintro (h | ⟨rfl, rfl, h⟩)
    · exact .inl h
    · exact .inr ⟨h, rfl, rfl, rfl⟩

theorem semX_neg {e q p x s' ts} : SemX (.neg e) q p x s' ts ↔
    x = [] ∧ ts = [] ∧ Sem e q p s' none := by
  unfold SemX
  rw [sem_neg_some]
  constructor
  · rintro ⟨h1, h2, h3, h4⟩
    have hx : x = [] := by
      have := congrArg List.length h3
      simp only [List.length_append] at this
      exact List.eq_nil_of_length_eq_zero (by omega)
    subst hx; exact ⟨rfl, h4, h1⟩
  · rintro ⟨rfl, rfl, h⟩; exact ⟨h, rfl, rfl, rfl⟩

theorem semX_rule {k r e q p x s' ts} : SemX (.rule k r e) q p x s' ts ↔
    ∃ t1, SemX e (innerQuiet k q) p x s' t1 ∧ ts = emitToks k r q p (p + blen x) x t1 := by
  unfold SemX
  rw [sem_rule_some, take_append_sub]

theorem semX_recur {r q p x s' ts} : SemX (.recur r) q p x s' ts ↔ SemX (G.body r) q p x s' ts :=
  sem_recur

theorem semX_star {e q p x s' ts} : SemX (.star e) q p x s' ts ↔
    (x = [] ∧ ts = [] ∧ Sem e q p s' none) ∨
    ∃ x1 x2 t1 t2, x = x1 ++ x2 ∧ ts = t1 ++ t2 ∧ SemX e q p x1 (x2 ++ s') t1 ∧
      SemX (.star e) q (p + blen x1) x2 s' t2 := by
  constructor
  · intro h
    replace h : Sem (.star e) q p (x ++ s') (some (p + blen x, s', ts)) := h
    generalize hs : x ++ s' = s at h
    generalize hp : p + blen x = p' at h
    cases h with
    | star_nil h =>
      have hx : x = [] := by simpa using hs
      exact .inl ⟨hx, rfl, h⟩
    | star_cons h1 h2 =>
      obtain ⟨x1, rfl, rfl, g1⟩ := h1.x
      obtain ⟨x2, rfl, e2, g2⟩ := h2.x
      rw [← List.append_assoc] at hs
      exact .inr ⟨x1, x2, _, _, List.append_cancel_right hs, rfl, g1, g2⟩
  · rintro (⟨rfl, rfl, h⟩ | ⟨x1, x2, t1, t2, rfl, rfl, h1, h2⟩)
    · exact Sem.star_nil h
    · have := Sem.star_cons h1 h2
      unfold SemX
      rw [List.append_assoc, blen_append, ← Nat.add_assoc]; exact this

theorem SemX.star_nil {e q p s'} (h : Sem e q p s' none) : SemX (.star e) q p [] s' [] :=
  Sem.star_nil h

theorem SemX.star_cons {e q p x1 x2 s' t1 t2} (h1 : SemX e q p x1 (x2 ++ s') t1)
    (h2 : SemX (.star e) q (p + blen x1) x2 s' t2) :
    SemX (.star e) q p (x1 ++ x2) s' (t1 ++ t2) :=
  semX_star.2 (.inr ⟨x1, x2, t1, t2, rfl, rfl, h1, h2⟩)

theorem SemX.seq {a b q p x1 x2 s' t1 t2} (h1 : SemX a q p x1 (x2 ++ s') t1)
    (h2 : SemX b q (p + blen x1) x2 s' t2) : SemX (.seq a b) q p (x1 ++ x2) s' (t1 ++ t2) :=
  semX_seq.2 ⟨x1, x2, t1, t2, rfl, rfl, h1, h2⟩

/-- `e*` is a chain of runs of `e`, after which `e` fails. -/
theorem semX_star_induction {e : PExpr} {q : Bool} {s' : Str}
    (P : Nat → Str → List Tok → Prop)
    (hnil : ∀ p, Sem e q p s' none → P p [] [])
    (hcons : ∀ p x1 x2 t1 t2, SemX e q p x1 (x2 ++ s') t1 →
      SemX (.star e) q (p + blen x1) x2 s' t2 → P (p + blen x1) x2 t2 → P p (x1 ++ x2) (t1 ++ t2))
    {p : Nat} {x : Str} {ts : List Tok} (h : SemX (.star e) q p x s' ts) : P p x ts := by
  replace h : Sem (.star e) q p (x ++ s') (some (p + blen x, s', ts)) := h
  generalize hs : x ++ s' = s at h
  generalize hp : p + blen x = p' at h
  generalize he : PExpr.star e = e' at h
  generalize ho : some (p', s', ts) = o at h
  induction h generalizing x ts p' with
  | star_nil h ih =>
    cases he; cases ho
    have hx : x = [] := by simpa using hs
    subst hx; exact hnil _ h
  | star_cons h1 h2 ih1 ih2 =>
    cases he; cases ho
    obtain ⟨x1, rfl, rfl, g1⟩ := h1.x
    obtain ⟨x2, rfl, e2, g2⟩ := h2.x
    rw [← List.append_assoc] at hs
    have := List.append_cancel_right hs
    subst this
    exact hcons _ _ _ _ _ g1 g2 (ih2 hnil hcons rfl _ e2.symm rfl rfl)
  | _ => cases he

/-! ## lexical expressions -/

theorem Lex.x {e g} (h : Lex e g) {q p x s' ts} :
    SemX e q p x s' ts ↔ g (x ++ s') = some s' ∧ ts = [] := by
  constructor
  · exact fun hx => h.ok_inv hx
  · rintro ⟨hg, rfl⟩; exact h.run hg

theorem CharStep.x {e f} (h : CharStep e f) {q p x s' ts} :
    SemX e q p x s' ts ↔ ∃ c, x = [c] ∧ f c s' = true ∧ ts = [] := by
  rw [Lex.x h]
  constructor
  · rintro ⟨hg, rfl⟩
    cases hx : x ++ s' with
    | nil => rw [hx] at hg; simp [charFn] at hg
    | cons c cs =>
      rw [hx] at hg; simp only [charFn] at hg
      cases hf : f c cs with
      | false => rw [hf] at hg; simp at hg
      | true =>
        rw [hf] at hg; simp only [cond_true, Option.some.injEq] at hg
        subst hg
        have : x = [c] := List.append_cancel_right (bs := cs) (by simpa using hx)
        exact ⟨c, this, hf, rfl⟩
  · rintro ⟨c, rfl, hf, rfl⟩
    simp [charFn, hf]

/-- every character of `x` (followed by `s'`) satisfies `f`, and the run of such characters ends
with `x` -/
def RunOf (f : Char → Str → Bool) (x s' : Str) : Prop :=
  (∀ a c b, x = a ++ c :: b → f c (b ++ s') = true) ∧ ∀ c b, s' = c :: b → f c b = false

theorem CharStep.star_x {e f} (h : CharStep e f) {q p x s' ts} :
    SemX (.star e) q p x s' ts ↔ RunOf f x s' ∧ ts = [] := by
  rw [Lex.x h.star]
  simp only [Option.some.injEq]
  constructor
  · rintro ⟨hg, rfl⟩
    have h1 : takeBy f (x ++ s') = x := by
      have := takeBy_skipBy f (x ++ s')
      rw [hg] at this
      exact List.append_cancel_right this
    refine ⟨⟨fun a c b e => ?_, fun c b e => ?_⟩, rfl⟩
    · have := takeBy_all (h1.trans e)
      rw [hg] at this; exact this
    · rw [e] at hg; exact skipBy_head hg
  · rintro ⟨⟨h1, h2⟩, rfl⟩
    exact ⟨(takeBy_append h1 h2).1, rfl⟩

theorem CharStep.plus_x {e f} (h : CharStep e f) {q p x s' ts} :
    SemX (G.plus e) q p x s' ts ↔ x ≠ [] ∧ RunOf f x s' ∧ ts = [] := by
  unfold G.plus
  rw [semX_seq]
  constructor
  · rintro ⟨x1, x2, t1, t2, rfl, rfl, h1, h2⟩
    obtain ⟨c, rfl, hf, rfl⟩ := h.x.1 h1
    obtain ⟨⟨g1, g2⟩, rfl⟩ := h.star_x.1 h2
    refine ⟨by simp, ⟨fun a d b e => ?_, g2⟩, rfl⟩
    cases a with
    | nil =>
      simp only [List.nil_append, List.cons_append, List.cons.injEq] at e
      rw [← e.1, ← e.2]; exact hf
    | cons a0 a =>
      simp only [List.nil_append, List.cons_append, List.cons.injEq] at e
      exact g1 a d b e.2
  · rintro ⟨hx, ⟨g1, g2⟩, rfl⟩
    cases x with
    | nil => exact absurd rfl hx
    | cons c x =>
      refine ⟨[c], x, [], [], rfl, rfl, h.x.2 ⟨c, rfl, ?_, rfl⟩, h.star_x.2 ⟨⟨?_, g2⟩, rfl⟩⟩
      · exact g1 [] c x rfl
      · intro a d b e; exact g1 (c :: a) d b (by rw [e]; rfl)

theorem CharStep.plus_none {e f} (h : CharStep e f) {q p s} :
    Sem (G.plus e) q p s none ↔ ∀ c b, s = c :: b → f c b = false := by
  rw [Lex.none_iff h.plus]
  cases s with
  | nil => simp [charFn]
  | cons c cs =>
    simp only [charFn, List.cons.injEq, and_imp]
    cases hf : f c cs with
    | true => simp only [cond_true, Option.map_some, reduceCtorEq, false_iff]
              intro h; have := h c cs rfl rfl; rw [hf] at this; cases this
    | false => simp only [cond_false, Option.map_none, true_iff]
               rintro _ _ rfl rfl; exact hf

/-- `RunOf` for a class of characters -/
theorem runOf_class {f : Char → Bool} {x s' : Str} :
    RunOf (fun c _ => f c) x s' ↔
      (∀ c ∈ x, f c = true) ∧ ∀ c b, s' = c :: b → f c = false := by
  unfold RunOf
  constructor
  · rintro ⟨h1, h2⟩
    refine ⟨fun c hc => ?_, h2⟩
    obtain ⟨a, b, rfl⟩ := List.append_of_mem hc
    exact h1 a c b rfl
  · rintro ⟨h1, h2⟩
    exact ⟨fun a c b e => h1 c (by rw [e]; simp), h2⟩

/-! ## made tokens -/

theorem made_iff {k r e} {t : Tok} : Made k r e t ↔
    t.rule = r ∧ t.stop = t.start + blen t.text ∧
      ∃ s', SemX e (innerQuiet k false) t.start t.text s' t.children := by
  constructor
  · intro h
    refine ⟨h.1, h.forest.1, ?_⟩
    obtain ⟨_, s', hs⟩ := h
    exact ⟨s', SemX.of hs⟩
  · rintro ⟨h1, h2, s', h3⟩
    refine ⟨h1, s', ?_⟩
    rw [h2]; exact h3

end Verif
