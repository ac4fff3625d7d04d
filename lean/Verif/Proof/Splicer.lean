import Verif.Model.Splicer
import Verif.Spec.Splice
import Verif.Proof.Str

/-! Helper lemmas for the splicer properties. -/

namespace Verif
open Spec

theorem simul_append (es : List Edit) (p : Nat) (a b : Str) :
    simul es p (a ++ b) = simul es p a ++ simul es (p + blen a) b := by
  induction a generalizing p with
  | nil => simp [simul]
  | cons c cs ih => simp [simul, ih, Nat.add_assoc]

theorem simul_congr (es es' : List Edit) (p : Nat) (a : Str)
    (h : ∀ q, p ≤ q → q < p + blen a → inserted es q = inserted es' q ∧ covered es q = covered es' q) :
    simul es p a = simul es' p a := by
  induction a generalizing p with
  | nil => simp [simul]
  | cons c cs ih =>
    have hc := utf8Size_pos c
    obtain ⟨h1, h2⟩ := h p (Nat.le_refl _) (by simp; omega)
    have h3 := ih (p + c.utf8Size) (by intro q a b; exact h q (by omega) (by simp; omega))
    simp [simul, h1, h2, h3]

theorem inserted_nil_of (es : List Edit) (q : Nat) (h : ∀ e ∈ es, e.1.start ≠ q) :
    inserted es q = [] := by
  unfold inserted
  have : es.find? (fun e => e.1.start == q) = none := by
    rw [List.find?_eq_none]
    intro e he
    simpa using h e he
  rw [this]

theorem simul_untouched (es : List Edit) (p : Nat) (a : Str)
    (h : ∀ e ∈ es, e.1.start < e.1.stop ∧ (e.1.stop ≤ p ∨ p + blen a ≤ e.1.start)) :
    simul es p a = a := by
  induction a generalizing p with
  | nil => simp [simul]
  | cons c cs ih =>
    have hc := utf8Size_pos c
    have h3 := ih (p + c.utf8Size) (by
      intro e he
      have := h e he
      simp at this
      omega)
    have hi : inserted es p = [] := by
      apply inserted_nil_of
      intro e he
      have := h e he
      simp at this
      omega
    have hcov : covered es p = false := by
      unfold covered
      rw [List.any_eq_false]
      intro e he
      have := h e he
      simp at this ⊢
      omega
    simp [simul, hi, hcov, h3]

/-- adding an edit to the visible ones -/
def upd (es : List Edit) (f : Edit) : List Edit :=
  es.filter (fun e => !decide (Within e.1 f.1)) ++ [f]

theorem effective_concat (es : List Edit) (f : Edit) :
    effective (es ++ [f]) = upd (effective es) f := by
  simp [effective, upd]

theorem mem_upd {es : List Edit} {f e : Edit} :
    e ∈ upd es f ↔ (e ∈ es ∧ ¬ Within e.1 f.1) ∨ e = f := by
  simp [upd]

/-- what is required of a new edit `f` with respect to the visible edits -/
def Compat (es : List Edit) (f : Edit) : Prop := ∀ e ∈ es, Disjoint e.1 f.1 ∨ Within e.1 f.1

def NonemptyEdits (es : List Edit) : Prop := ∀ e ∈ es, e.1.start < e.1.stop

theorem find?_filter_eq {α : Type} (l : List α) (p q : α → Bool)
    (h : ∀ x ∈ l, p x = true → q x = true) : (l.filter q).find? p = l.find? p := by
  induction l with
  | nil => rfl
  | cons x xs ih =>
    have ih := ih (fun y hy => h y (List.mem_cons_of_mem _ hy))
    by_cases hq : q x = true
    · simp [List.filter_cons, hq, List.find?_cons, ih]
    · have hp : p x = false := by
        cases hx : p x with
        | false => rfl
        | true => exact absurd (h x (List.mem_cons_self) hx) hq
      simp [List.filter_cons, hq, List.find?_cons, ih, hp]

theorem inserted_upd_outside (es : List Edit) (f : Edit) (q : Nat) (hne : NonemptyEdits es)
    (hf : f.1.start < f.1.stop) (hq : q < f.1.start ∨ f.1.stop ≤ q) :
    inserted (upd es f) q = inserted es q := by
  unfold inserted upd
  rw [List.find?_append, find?_filter_eq]
  · have : [f].find? (fun e => e.1.start == q) = none := by
      simp; omega
    simp [this]
  · intro e he h
    have := hne e he
    simp only [beq_iff_eq] at h
    have hw : ¬ Within e.1 f.1 := by simp only [Within]; omega
    simp [hw]

theorem any_filter_eq {α : Type} (l : List α) (p q : α → Bool)
    (h : ∀ x ∈ l, p x = true → q x = true) : (l.filter q).any p = l.any p := by
  induction l with
  | nil => rfl
  | cons x xs ih =>
    have ih := ih (fun y hy => h y (List.mem_cons_of_mem _ hy))
    by_cases hq : q x = true
    · simp [List.filter_cons, hq, ih]
    · have hp : p x = false := by
        cases hx : p x with
        | false => rfl
        | true => exact absurd (h x (List.mem_cons_self) hx) hq
      simp [List.filter_cons, hq, ih, hp]

theorem covered_upd_outside (es : List Edit) (f : Edit) (q : Nat)
    (hq : q < f.1.start ∨ f.1.stop ≤ q) :
    covered (upd es f) q = covered es q := by
  unfold covered upd
  rw [List.any_append, any_filter_eq]
  · have : [f].any (fun e => decide (e.1.start ≤ q) && decide (q < e.1.stop)) = false := by
      simp; omega
    simp [this]
  · intro e he h
    simp only [Bool.and_eq_true, decide_eq_true_eq] at h
    have hw : ¬ Within e.1 f.1 := by simp only [Within]; omega
    simp [hw]

theorem simul_upd_before (es : List Edit) (f : Edit) (p : Nat) (a : Str) (hne : NonemptyEdits es)
    (hf : f.1.start < f.1.stop) (h : p + blen a ≤ f.1.start ∨ f.1.stop ≤ p) :
    simul (upd es f) p a = simul es p a := by
  apply simul_congr
  intro q h1 h2
  exact ⟨inserted_upd_outside es f q hne hf (by omega), covered_upd_outside es f q (by omega)⟩

theorem simul_upd_inside_aux (es : List Edit) (f : Edit) (p : Nat) (b : Str)
    (hne : NonemptyEdits es) (hc : Compat es f)
    (h1 : f.1.start < p) (h2 : p + blen b = f.1.stop) : simul (upd es f) p b = [] := by
  induction b generalizing p with
  | nil => simp [simul]
  | cons c cs ih =>
    have hcc := utf8Size_pos c
    simp at h2
    have h3 := ih (p + c.utf8Size) (by omega) (by omega)
    have hi : inserted (upd es f) p = [] := by
      apply inserted_nil_of
      intro e he
      rw [mem_upd] at he
      rcases he with ⟨he, hw⟩ | rfl
      · have g1 := hne e he
        rcases hc e he with hd | hd
        · simp [Disjoint] at hd; omega
        · exact absurd hd hw
      · omega
    have hcov : covered (upd es f) p = true := by
      simp [covered, upd]; right; omega
    simp [simul, hi, hcov, h3]

theorem simul_upd_inside (es : List Edit) (f : Edit) (b : Str)
    (hne : NonemptyEdits es) (hc : Compat es f) (hb : b ≠ [])
    (h2 : f.1.start + blen b = f.1.stop) : simul (upd es f) f.1.start b = f.2 := by
  cases b with
  | nil => exact absurd rfl hb
  | cons c cs =>
    have hcc := utf8Size_pos c
    simp at h2
    have h3 := simul_upd_inside_aux es f (f.1.start + c.utf8Size) cs hne hc (by omega) (by omega)
    have hi : inserted (upd es f) f.1.start = f.2 := by
      unfold inserted upd
      rw [List.find?_append]
      have : (es.filter (fun e => !decide (Within e.1 f.1))).find? (fun e => e.1.start == f.1.start)
          = none := by
        rw [List.find?_eq_none]
        intro e he
        simp at he
        have g1 := hne e he.1
        rcases hc e he.1 with hd | hd
        · simp [Disjoint] at hd; simp; omega
        · exact absurd hd he.2
      simp [this]
    have hcov : covered (upd es f) f.1.start = true := by
      simp [covered, upd]; right; omega
    simp [simul, hi, hcov, h3]

/-! ### current positions -/

/-- prefix of `s` of byte length `x` -/
def pre (s : Str) (x : Nat) : Str := ((splitAtByte s x).map Prod.fst).getD []

theorem pre_append (a b : Str) : pre (a ++ b) (blen a) = a := by
  simp [pre, splitAtByte_append]

/-- `x` is a character boundary of `s` -/
def Bnd (s : Str) (x : Nat) : Prop := ∃ a b, s = a ++ b ∧ x = blen a

theorem bnd_le {s : Str} {x y : Nat} (hx : Bnd s x) (hy : Bnd s y) (h : x ≤ y) :
    ∃ a b c, s = a ++ b ++ c ∧ x = blen a ∧ y = blen a + blen b := by
  obtain ⟨a, b, e1, rfl⟩ := hx
  obtain ⟨a', b', e2, rfl⟩ := hy
  rw [e1] at e2
  rcases List.append_eq_append_iff.mp e2 with ⟨m, h1, h2⟩ | ⟨m, h1, h2⟩
  · exact ⟨a, m, b', by rw [e1, h2]; simp, rfl, by rw [h1]; simp⟩
  · subst h1
    simp at h
    have : m = [] := blen_eq_zero.mp (by omega)
    subst this
    exact ⟨a', [], b, by simpa using e1, by simp, by simp⟩

theorem Spec.SliceOf.bnd {s : Str} {sp : Span} {t : Str} (h : SliceOf s sp t) :
    Bnd s sp.start ∧ Bnd s sp.stop ∧ sp.start ≤ sp.stop := by
  obtain ⟨a, c, e, h1, h2⟩ := h
  exact ⟨⟨a, t ++ c, by rw [e]; simp, h1⟩, ⟨a ++ t, c, e, by simp [h2]⟩, by omega⟩

/-- current position of the original boundary `x` -/
def cur (es : List Edit) (s : Str) (x : Nat) : Nat := blen (simul es 0 (pre s x))

theorem cur_eq (es : List Edit) (a b : Str) : cur es (a ++ b) (blen a) = blen (simul es 0 a) := by
  simp [cur, pre_append]

theorem cur_mono (es : List Edit) {s : Str} {x y : Nat} (hx : Bnd s x) (hy : Bnd s y) (h : x ≤ y) :
    cur es s x ≤ cur es s y := by
  obtain ⟨a, b, c, rfl, rfl, rfl⟩ := bnd_le hx hy h
  have h1 := cur_eq es a (b ++ c)
  have h2 := cur_eq es (a ++ b) c
  rw [← List.append_assoc] at h1
  rw [h1, ← blen_append, h2, simul_append, blen_append]
  omega

theorem cur_upd_before (es : List Edit) (f : Edit) {s : Str} {x : Nat} (hne : NonemptyEdits es)
    (hf : f.1.start < f.1.stop) (hx : Bnd s x) (h : x ≤ f.1.start) :
    cur (upd es f) s x = cur es s x := by
  obtain ⟨a, b, rfl, rfl⟩ := hx
  rw [cur_eq, cur_eq, simul_upd_before es f 0 a hne hf (by omega)]

theorem cur_upd_after (es : List Edit) (f : Edit) {s : Str} {x : Nat} (hne : NonemptyEdits es)
    (hc : Compat es f) (hf : f.1.start < f.1.stop) (hi : Bnd s f.1.start) (hj : Bnd s f.1.stop)
    (hx : Bnd s x) (h : f.1.stop ≤ x) :
    cur (upd es f) s x + (cur es s f.1.stop - cur es s f.1.start) = cur es s x + blen f.2 := by
  obtain ⟨a, b, c, e, h1, h2⟩ := bnd_le hi hj (by omega)
  obtain ⟨a', d, c', e', h1', h2'⟩ := bnd_le hj hx h
  have hb : b ≠ [] := by rintro rfl; simp at h2; omega
  rw [e] at e'
  rw [List.append_assoc a'] at e'
  obtain ⟨e1, e2⟩ := append_inj_blen e' (by simp; omega)
  subst e2
  rw [e, h2', h2]
  have g0 := cur_eq es a (b ++ (d ++ c'))
  rw [← List.append_assoc] at g0
  have g1 := cur_eq es (a ++ b) (d ++ c')
  have g2 := cur_eq es (a ++ b ++ d) c'
  have g3 := cur_eq (upd es f) (a ++ b ++ d) c'
  rw [List.append_assoc (a ++ b)] at g2 g3
  have hb1 : blen a' = blen (a ++ b) := by simp; omega
  rw [hb1, ← blen_append, ← blen_append, h1, g0, g1, g2, g3]
  simp only [simul_append]
  rw [simul_upd_before es f 0 a hne hf (by omega)]
  have k1 : 0 + blen a = f.1.start := by omega
  rw [k1, simul_upd_inside es f b hne hc hb (by omega)]
  have k2 : 0 + blen (a ++ b) = f.1.stop := by simp; omega
  rw [k2, simul_upd_before es f f.1.stop d hne hf (by omega)]
  simp only [blen_append]
  omega

theorem asUsize_natCast (n : Nat) : asUsize (n : Int) = n := by
  unfold asUsize
  split <;> omega

theorem adjustOffsets_nil (sp : Span) : sp.adjustOffsets [] = sp := by
  cases sp with
  | mk a b =>
    show Span.mk (if (a : Int) < 0 then 0 else (a : Int).toNat)
      (if (b : Int) < 0 then 0 else (b : Int).toNat) = _
    rw [if_neg (by omega), if_neg (by omega)]
    simp

/-! ### histories -/

theorem snocInd {α : Type} {P : List α → Prop} (nil : P [])
    (snoc : ∀ l a, P l → P (l ++ [a])) (l : List α) : P l := by
  have h : ∀ m : List α, P m.reverse := by
    intro m
    induction m with
    | nil => exact nil
    | cons x xs ih => rw [List.reverse_cons]; exact snoc _ _ ih
  simpa using h l.reverse

/-- a history of edits, each on a region whose current text is not empty -/
inductive Hist (s : Str) : List Edit → List SpliceOffset → Prop
  | nil : Hist s [] []
  | snoc (es : List Edit) (os : List SpliceOffset) (f : Edit) (h : Hist s es os)
      (hi : Bnd s f.1.start) (hj : Bnd s f.1.stop) (hf : f.1.start < f.1.stop)
      (hc : ∀ e ∈ es, Disjoint e.1 f.1 ∨ Within e.1 f.1)
      (hvis : cur (effective es) s f.1.start < cur (effective es) s f.1.stop) :
      Hist s (es ++ [f]) (os ++ [⟨cur (effective es) s f.1.start,
        (blen f.2 : Int) - (cur (effective es) s f.1.stop - cur (effective es) s f.1.start : Nat)⟩])

theorem effective_subset (es : List Edit) : ∀ e ∈ effective es, e ∈ es := by
  induction es using snocInd with
  | nil => simp [effective]
  | snoc es f ih =>
    intro e he
    rw [effective_concat, mem_upd] at he
    rcases he with ⟨he, -⟩ | rfl
    · exact List.mem_append_left _ (ih e he)
    · simp

theorem Hist.nonempty {s : Str} {es : List Edit} {os : List SpliceOffset} (h : Hist s es os) :
    ∀ e ∈ es, e.1.start < e.1.stop := by
  induction h with
  | nil => simp
  | snoc es os f h hi hj hf hc hvis ih =>
    intro e he
    simp at he
    rcases he with he | rfl
    · exact ih e he
    · exact hf

theorem Hist.nonempty_eff {s : Str} {es : List Edit} {os : List SpliceOffset} (h : Hist s es os) :
    NonemptyEdits (effective es) := fun e he => h.nonempty e (effective_subset es e he)

theorem adjust_hist {s : Str} {es : List Edit} {os : List SpliceOffset} (h : Hist s es os)
    (f : Span) (hi : Bnd s f.start) (hj : Bnd s f.stop) (hf : f.start < f.stop)
    (hc : ∀ e ∈ es, Disjoint e.1 f ∨ Within e.1 f) :
    os.foldl Span.adjustStep ((f.start : Int), (f.stop : Int)) =
      ((cur (effective es) s f.start : Int), (cur (effective es) s f.stop : Int)) := by
  induction h with
  | nil =>
    obtain ⟨a, b, e1, h1⟩ := hi
    obtain ⟨a', b', e2, h2⟩ := hj
    have k1 : cur [] s f.start = f.start := by
      rw [e1, h1, cur_eq, simul_untouched]; simp
    have k2 : cur [] s f.stop = f.stop := by
      rw [e2, h2, cur_eq, simul_untouched]; simp
    simp [effective, k1, k2]
  | snoc es os e h hi' hj' he hce hvis ih =>
    have hne := h.nonempty_eff
    have hcomp : Compat (effective es) e := fun x hx => hce x (effective_subset es x hx)
    rw [List.foldl_append, ih (fun x hx => hc x (List.mem_append_left _ hx)), effective_concat]
    have hrel := hc e (by simp)
    simp only [List.foldl_cons, List.foldl_nil, Span.adjustStep, asUsize_natCast]
    rcases hrel with hd | hw
    · rcases hd with hd | hd
      · -- e before f
        have m1 := cur_mono (effective es) hj' hi hd
        have a1 := cur_upd_after (effective es) e hne hcomp he hi' hj' hi hd
        have a2 := cur_upd_after (effective es) e hne hcomp he hi' hj' hj (by omega)
        rw [if_pos (by omega)]
        simp only [Prod.mk.injEq]
        omega
      · -- e after f
        have m1 := cur_mono (effective es) hi hj (by omega)
        have m2 := cur_mono (effective es) hj hi' hd
        rw [if_neg (by omega), if_neg (by omega)]
        rw [cur_upd_before (effective es) e hne he hi (by omega),
          cur_upd_before (effective es) e hne he hj (by omega)]
    · -- e inside f
      obtain ⟨w1, w2⟩ := hw
      have m1 := cur_mono (effective es) hi hi' w1
      have m2 := cur_mono (effective es) hj' hj w2
      have a2 := cur_upd_after (effective es) e hne hcomp he hi' hj' hj w2
      rw [if_neg (by omega), if_pos (by omega)]
      rw [cur_upd_before (effective es) e hne he hi w1]
      refine Prod.ext rfl ?_
      show (_ : Int) = _
      omega

/-- One splice after a history. -/
theorem splice_hist {s : Str} {es : List Edit} {os : List SpliceOffset} (h : Hist s es os)
    (f : Edit) (hv : ValidSpan s f.1) (hf : f.1.start < f.1.stop)
    (hc : ∀ e ∈ es, Disjoint e.1 f.1 ∨ Within e.1 f.1) :
    (Splicer.mk (simul (effective es) 0 s) os).splice f.1 f.2 =
      some ⟨simul (effective (es ++ [f])) 0 s,
        os ++ [⟨cur (effective es) s f.1.start,
        (blen f.2 : Int) - (cur (effective es) s f.1.stop - cur (effective es) s f.1.start : Nat)⟩]⟩ := by
  obtain ⟨t, ht⟩ := hv
  obtain ⟨hi, hj, -⟩ := ht.bnd
  have hadj := adjust_hist h f.1 hi hj hf hc
  have hle := cur_mono (effective es) hi hj (by omega)
  have hne := h.nonempty_eff
  have hcomp : Compat (effective es) f := fun x hx => hc x (effective_subset es x hx)
  have hadj' : f.1.adjustOffsets os =
      ⟨cur (effective es) s f.1.start, cur (effective es) s f.1.stop⟩ := by
    simp only [Span.adjustOffsets, hadj]
    congr 1
  obtain ⟨a, c, e, h1, h2⟩ := ht
  have htne : t ≠ [] := by rintro rfl; simp at h2; omega
  have g0 := cur_eq (effective es) a (t ++ c)
  rw [← List.append_assoc, ← e, ← h1] at g0
  have g1 := cur_eq (effective es) (a ++ t) c
  rw [← e, blen_append, ← h2] at g1
  have hcont : simul (effective es) 0 s =
      simul (effective es) 0 a ++ (simul (effective es) f.1.start t ++ simul (effective es) f.1.stop c) := by
    rw [e, simul_append, simul_append]
    simp [← h1, h2]
  have g2 : cur (effective es) s f.1.stop =
      blen (simul (effective es) 0 a) + blen (simul (effective es) f.1.start t) := by
    rw [g1, simul_append]; simp [← h1]
  have hnew : simul (effective (es ++ [f])) 0 s =
      simul (effective es) 0 a ++ f.2 ++ simul (effective es) f.1.stop c := by
    rw [effective_concat, e, simul_append, simul_append]
    rw [simul_upd_before _ f 0 a hne hf (by omega)]
    have k1 : 0 + blen a = f.1.start := by omega
    rw [k1, simul_upd_inside _ f t hne hcomp htne (by omega)]
    have k2 : 0 + blen (a ++ t) = f.1.stop := by simp; omega
    rw [k2, simul_upd_before _ f f.1.stop c hne hf (by omega)]
  have hsub : cur (effective es) s f.1.stop - cur (effective es) s f.1.start =
      blen (simul (effective es) f.1.start t) := by omega
  unfold Splicer.splice
  simp only [hadj']
  rw [if_neg (by omega), hsub]
  rw [hnew]
  simp only [hcont, g0, splitAtByte_append]

/-- Two edits, the first made earlier: disjoint, or the later span encloses the earlier one, whose
replacement is still visible text. -/
def HistRel (e f : Edit) : Prop := Disjoint e.1 f.1 ∨ (Within e.1 f.1 ∧ e.2 ≠ [])

/-- a visible edit with non-empty replacement inside `f` makes the region of `f` non-empty; so does
the absence of edits inside `f` -/
theorem visible {s : Str} {es : List Edit} {os : List SpliceOffset} (h : Hist s es os)
    (f : Edit) (hv : ValidSpan s f.1) (hf : f.1.start < f.1.stop)
    (hc : ∀ e ∈ es, HistRel e f)
    (hin : ∀ e ∈ effective es, Bnd s e.1.start ∧ Bnd s e.1.stop)
    (hpair : (effective es).Pairwise (fun a b => Disjoint a.1 b.1)) :
    cur (effective es) s f.1.start < cur (effective es) s f.1.stop := by
  have hne := h.nonempty_eff
  obtain ⟨t, ht⟩ := hv
  obtain ⟨hi, hj, -⟩ := ht.bnd
  by_cases hex : ∃ e ∈ effective es, Within e.1 f.1
  · obtain ⟨e, he, hw⟩ := hex
    have hne2 : e.2 ≠ [] := by
      rcases hc e (effective_subset es e he) with hd | hd
      · have := hne e he
        simp [Disjoint, Within] at hd hw; omega
      · exact hd.2
    obtain ⟨b1, b2⟩ := hin e he
    have hen := hne e he
    obtain ⟨a, b, c, e1, e2, e3⟩ := bnd_le b1 b2 (by omega)
    have m1 := cur_mono (effective es) hi b1 hw.1
    have m2 := cur_mono (effective es) b2 hj hw.2
    have g0 := cur_eq (effective es) a (b ++ c)
    rw [← List.append_assoc, ← e1, ← e2] at g0
    have g1 := cur_eq (effective es) (a ++ b) c
    rw [← e1, blen_append, ← e3, simul_append, blen_append] at g1
    have hb : 0 < blen (simul (effective es) (0 + blen a) b) := by
      cases b with
      | nil => simp at e3; omega
      | cons x xs =>
        apply blen_pos
        have : inserted (effective es) (0 + blen a) = e.2 := by
          have hu : ∀ e' ∈ effective es, e'.1.start = e.1.start → e' = e := by
            intro e' he' hs
            apply Classical.byContradiction
            intro hneq
            have := hne e' he'
            rcases List.mem_iff_append.mp he with ⟨l1, l2, hl⟩
            rw [hl] at hpair he'
            rw [List.pairwise_append] at hpair
            obtain ⟨p1, p2, p3⟩ := hpair
            rw [List.pairwise_cons] at p2
            simp at he'
            rcases he' with he' | he' | he'
            · have := p3 e' he' e (by simp)
              simp [Disjoint] at this; omega
            · exact hneq he'
            · have := p2.1 e' he'
              simp [Disjoint] at this; omega
          unfold inserted
          cases hfnd : (effective es).find? (fun e => e.1.start == 0 + blen a) with
          | none =>
            rw [List.find?_eq_none] at hfnd
            have := hfnd e he
            simp at this; omega
          | some e' =>
            have k1 := List.find?_some hfnd
            have k2 := List.mem_of_find?_eq_some hfnd
            simp at k1
            rw [hu e' k2 (by omega)]
        rw [simul, this]
        simp [hne2]
    omega
  · have hall : ∀ e ∈ effective es, Disjoint e.1 f.1 := by
      intro e he
      rcases hc e (effective_subset es e he) with hd | hd
      · exact hd
      · exact absurd ⟨e, he, hd.1⟩ hex
    obtain ⟨a, c, e, h1, h2⟩ := ht
    have g0 := cur_eq (effective es) a (t ++ c)
    rw [← List.append_assoc, ← e, ← h1] at g0
    have g1 := cur_eq (effective es) (a ++ t) c
    rw [← e, blen_append, ← h2, simul_append, blen_append] at g1
    rw [simul_untouched (effective es) (0 + blen a) t] at g1
    · omega
    · intro e he
      have := hne e he
      have hd := hall e he
      simp [Disjoint] at hd
      omega

theorem eff_pairwise (es : List Edit) (h : es.Pairwise (fun e f => Disjoint e.1 f.1 ∨ Within e.1 f.1)) :
    (effective es).Pairwise (fun a b => Disjoint a.1 b.1) := by
  induction es using snocInd with
  | nil => simp [effective]
  | snoc es f ih =>
    rw [List.pairwise_append] at h
    obtain ⟨h1, -, h3⟩ := h
    rw [effective_concat]
    unfold upd
    rw [List.pairwise_append]
    refine ⟨(ih h1).filter _, by simp, ?_⟩
    intro a ha b hb
    simp at ha hb
    subst hb
    rcases h3 a (effective_subset es a ha.1) b (by simp) with hd | hd
    · exact hd
    · exact absurd hd ha.2

/-- Histories in which every enclosed edit has a non-empty replacement. -/
theorem hist_of_rel {s : Str} (es : List Edit) (hv : ∀ e ∈ es, ValidSpan s e.1 ∧ e.1.start < e.1.stop)
    (hp : es.Pairwise HistRel) :
    ∃ os, Hist s es os ∧ (Splicer.fromStr s).spliceAll es = some ⟨simul (effective es) 0 s, os⟩ := by
  induction es using snocInd with
  | nil =>
    refine ⟨[], .nil, ?_⟩
    have : simul (effective []) 0 s = s := simul_untouched _ _ _ (by simp [effective])
    simp [Splicer.spliceAll, Splicer.fromStr, this]
  | snoc es f ih =>
    rw [List.pairwise_append] at hp
    obtain ⟨p1, -, p3⟩ := hp
    obtain ⟨os, hh, hs⟩ := ih (fun e he => hv e (by simp [he])) p1
    obtain ⟨v1, v2⟩ := hv f (by simp)
    have hrel : ∀ e ∈ es, HistRel e f := fun e he => p3 e he f (by simp)
    have hc : ∀ e ∈ es, Disjoint e.1 f.1 ∨ Within e.1 f.1 := by
      intro e he
      rcases hrel e he with h | h
      · exact Or.inl h
      · exact Or.inr h.1
    have hsp := splice_hist hh f v1 v2 hc
    obtain ⟨t, ht⟩ := v1
    obtain ⟨b1, b2, -⟩ := ht.bnd
    have hpe : es.Pairwise (fun e f => Disjoint e.1 f.1 ∨ Within e.1 f.1) :=
      p1.imp (fun h => by rcases h with h | h; exact Or.inl h; exact Or.inr h.1)
    have hvis := visible hh f ⟨t, ht⟩ v2 hrel (by
      intro e he
      obtain ⟨⟨t', ht'⟩, -⟩ := hv e (by simp [effective_subset es e he])
      exact ⟨ht'.bnd.1, ht'.bnd.2.1⟩) (eff_pairwise es hpe)
    refine ⟨_, Hist.snoc es os f hh b1 b2 v2 hc hvis, ?_⟩
    have happ : ∀ (l : List Edit) (sp sp' : Splicer), sp.spliceAll l = some sp' →
        sp.spliceAll (l ++ [f]) = sp'.splice f.1 f.2 := by
      intro l
      induction l with
      | nil =>
        intro sp sp' h
        simp [Splicer.spliceAll] at h
        subst h
        simp [Splicer.spliceAll]
        cases sp.splice f.1 f.2 <;> rfl
      | cons x xs ihx =>
        intro sp sp' h
        simp only [Splicer.spliceAll, List.cons_append] at h ⊢
        cases hx : sp.splice x.1 x.2 with
        | none => rw [hx] at h; cases h
        | some sp1 => rw [hx] at h; exact ihx sp1 sp' h
    rw [happ es _ _ hs, hsp]

theorem spliceAll_concat (l : List Edit) (f : Edit) (sp : Splicer) :
    sp.spliceAll (l ++ [f]) = (sp.spliceAll l).bind (fun sp' => sp'.splice f.1 f.2) := by
  induction l generalizing sp with
  | nil =>
    simp [Splicer.spliceAll]
    cases sp.splice f.1 f.2 <;> rfl
  | cons x xs ih =>
    simp only [Splicer.spliceAll, List.cons_append]
    cases hx : sp.splice x.1 x.2 with
    | none => simp
    | some sp1 => exact ih sp1

/-- A history followed by one more edit, for which enclosed edits may have been deletions. -/
theorem hist_then {s : Str} (es : List Edit) (f : Edit)
    (hv : ∀ e ∈ es ++ [f], ValidSpan s e.1 ∧ e.1.start < e.1.stop)
    (hp : es.Pairwise HistRel) (hf : ∀ e ∈ es, Disjoint e.1 f.1 ∨ Within e.1 f.1) :
    ∃ sp, (Splicer.fromStr s).spliceAll (es ++ [f]) = some sp ∧
      sp.content = simul (effective (es ++ [f])) 0 s := by
  obtain ⟨os, h1, h2⟩ := hist_of_rel es (fun e he => hv e (List.mem_append_left _ he)) hp
  obtain ⟨v1, v2⟩ := hv f (by simp)
  have := splice_hist h1 f v1 v2 hf
  rw [spliceAll_concat, h2]
  exact ⟨_, this, rfl⟩

theorem inserted_of_mem {es : List Edit} {e : Edit} (hne : NonemptyEdits es)
    (hpair : es.Pairwise (fun a b => Disjoint a.1 b.1)) (he : e ∈ es) :
    inserted es e.1.start = e.2 := by
  have hu : ∀ e' ∈ es, e'.1.start = e.1.start → e' = e := by
    intro e' he' hs
    apply Classical.byContradiction
    intro hneq
    have g1 := hne e' he'
    have g2 := hne e he
    rcases List.mem_iff_append.mp he with ⟨l1, l2, hl⟩
    rw [hl] at hpair he'
    rw [List.pairwise_append] at hpair
    obtain ⟨p1, p2, p3⟩ := hpair
    rw [List.pairwise_cons] at p2
    simp at he'
    rcases he' with he' | he' | he'
    · have := p3 e' he' e (by simp)
      simp [Disjoint] at this; omega
    · exact hneq he'
    · have := p2.1 e' he'
      simp [Disjoint] at this; omega
  unfold inserted
  cases hfnd : es.find? (fun x => x.1.start == e.1.start) with
  | none =>
    rw [List.find?_eq_none] at hfnd
    have := hfnd e he
    simp at this
  | some e' =>
    have k1 := List.find?_some hfnd
    have k2 := List.mem_of_find?_eq_some hfnd
    simp at k1
    rw [hu e' k2 k1]

theorem simul_perm {es es' : List Edit} (hne : NonemptyEdits es)
    (hpair : es.Pairwise (fun a b => Disjoint a.1 b.1)) (hp : es.Perm es') (p : Nat) (s : Str) :
    simul es p s = simul es' p s := by
  have hsym : ∀ {x y : Edit}, Disjoint x.1 y.1 → Disjoint y.1 x.1 := by
    intro x y h
    rcases h with h | h
    · exact Or.inr h
    · exact Or.inl h
  have hpair' : es'.Pairwise (fun a b => Disjoint a.1 b.1) := (hp.pairwise_iff hsym).mp hpair
  have hne' : NonemptyEdits es' := fun e he => hne e (hp.mem_iff.mpr he)
  apply simul_congr
  intro q _ _
  constructor
  · by_cases hex : ∃ e ∈ es, e.1.start = q
    · obtain ⟨e, he, rfl⟩ := hex
      rw [inserted_of_mem hne hpair he, inserted_of_mem hne' hpair' (hp.mem_iff.mp he)]
    · rw [inserted_nil_of es q (fun e he h => hex ⟨e, he, h⟩),
        inserted_nil_of es' q (fun e he h => hex ⟨e, hp.mem_iff.mpr he, h⟩)]
  · unfold covered
    exact hp.any_eq

theorem effective_of_disjoint (es : List Edit) (hne : NonemptyEdits es)
    (hpair : es.Pairwise (fun a b => Disjoint a.1 b.1)) : effective es = es := by
  induction es using snocInd with
  | nil => rfl
  | snoc es f ih =>
    rw [List.pairwise_append] at hpair
    obtain ⟨p1, -, p3⟩ := hpair
    rw [effective_concat, ih (fun e he => hne e (List.mem_append_left _ he)) p1]
    unfold upd
    congr 1
    rw [List.filter_eq_self]
    intro e he
    have g1 := hne e (List.mem_append_left _ he)
    have g2 := hne f (by simp)
    have g3 := p3 e he f (by simp)
    have hw : ¬ Within e.1 f.1 := by
      simp only [Within, Disjoint] at g3 ⊢; omega
    simp [hw]

theorem effective_outer (es : List Edit) (f : Edit) (h : ∀ e ∈ es, Within e.1 f.1) :
    effective (es ++ [f]) = [f] := by
  rw [effective_concat]
  unfold upd
  have : (effective es).filter (fun e => !decide (Within e.1 f.1)) = [] := by
    rw [List.filter_eq_nil_iff]
    intro e he
    simp [h e (effective_subset es e he)]
  rw [this]; rfl

theorem simul_single (a t c r : Str) (ht : t ≠ []) :
    simul [(⟨blen a, blen a + blen t⟩, r)] 0 (a ++ t ++ c) = a ++ r ++ c := by
  have hb := blen_pos ht
  let f : Edit := (⟨blen a, blen a + blen t⟩, r)
  have hu : ([f] : List Edit) = upd [] f := rfl
  have hne : NonemptyEdits [] := by intro e he; cases he
  have hc : Compat [] f := by intro e he; cases he
  have hnil : ∀ p x, simul [] p x = x := fun p x => simul_untouched [] p x (by simp)
  show simul [f] 0 _ = _
  rw [hu, simul_append, simul_append]
  rw [simul_upd_before [] f 0 a hne (by simp [f]; omega) (by simp [f])]
  rw [show 0 + blen a = f.1.start by simp [f]]
  rw [simul_upd_inside [] f t hne hc ht rfl]
  rw [simul_upd_before [] f _ c hne (by simp [f]; omega) (by simp [f])]
  rw [hnil, hnil]

/-! ### `relative_span` -/

theorem relLoop_plain (start i : Nat) (m rest : List UInt8) (lines off : Nat)
    (hm : (10 : UInt8) ∉ m) (h : i + m.length = start) :
    relLoop start i (m ++ rest) lines off = (lines, off) := by
  induction m generalizing i with
  | nil =>
    simp at h
    cases rest <;> simp [relLoop, h]
  | cons c cs ih =>
    simp at h hm
    have hc : ¬ c = 10 := fun h => hm.1 h.symm
    simp only [List.cons_append, relLoop]
    rw [if_neg (by omega), if_neg hc]
    exact ih (i + 1) hm.2 (by omega)

theorem relLoop_line (start i : Nat) (x rest : List UInt8) (lines off : Nat)
    (h : i + x.length + 1 ≤ start) :
    relLoop start i (x ++ 10 :: rest) lines off =
      relLoop start (i + x.length + 1) rest (lines + x.count 10 + 1) (i + x.length + 1) := by
  induction x generalizing i lines off with
  | nil =>
    simp at h
    simp only [List.nil_append, relLoop]
    rw [if_neg (by omega)]
    simp
  | cons c cs ih =>
    simp at h
    simp only [List.cons_append, relLoop]
    rw [if_neg (by omega)]
    have e1 : i + (c :: cs).length + 1 = (i + 1) + cs.length + 1 := by simp; omega
    by_cases hc : c = 10
    · rw [if_pos hc, ih (i + 1) _ _ (by omega), e1]
      have e2 : lines + 1 + cs.count 10 + 1 = lines + (c :: cs).count 10 + 1 := by
        subst hc; simp; omega
      rw [e2]
    · rw [if_neg hc, ih (i + 1) _ _ (by omega), e1]
      have e2 : (c :: cs).count 10 = cs.count 10 := by simp [hc]
      rw [e2]

theorem relLoop_off_le (start i : Nat) (bs : List UInt8) (lines off : Nat)
    (hi : i ≤ start) (ho : off ≤ start) : (relLoop start i bs lines off).2 ≤ start := by
  induction bs generalizing i lines off with
  | nil => simpa [relLoop]
  | cons c cs ih =>
    simp only [relLoop]
    split
    · exact ho
    · split
      · exact ih _ _ _ (by omega) (by omega)
      · exact ih _ _ _ (by omega) ho

theorem bytes_append (a b : Str) : bytes (a ++ b) = bytes a ++ bytes b := by simp [bytes]

theorem bytes_length (a : Str) : (bytes a).length = blen a := by
  induction a with
  | nil => rfl
  | cons c cs ih =>
    simp only [bytes] at ih
    simp [bytes, ih, String.length_utf8EncodeChar]

theorem newline_mem_encode (c : Char) : (10 : UInt8) ∈ String.utf8EncodeChar c ↔ c = '\n' := by
  have key : ∀ n : Nat, (10 : UInt8) = UInt8.ofNat n ↔ n % 256 = 10 := by
    intro n
    rw [← UInt8.toNat_inj]
    simp
    omega
  have hc : c = '\n' ↔ c.val.toNat = 10 := by
    rw [← Char.val_inj, ← UInt32.toNat_inj]
    rfl
  rw [hc]
  have hlt := c.val.toNat_lt
  unfold String.utf8EncodeChar
  dsimp only
  split
  · simp only [List.mem_cons, List.not_mem_nil, or_false, key]; omega
  · split
    · simp only [List.mem_cons, List.not_mem_nil, or_false, key]; omega
    · split
      · simp only [List.mem_cons, List.not_mem_nil, or_false, key]; omega
      · simp only [List.mem_cons, List.not_mem_nil, or_false, key]; omega

end Verif
