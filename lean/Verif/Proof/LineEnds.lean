import Verif.Spec.LineEnds
import Verif.Proof.Peg

/-!
# The grammar does not tell line ends apart

`relined_sem`: a run of the grammar on a text without carriage returns is repeated, token by token,
on the text with other line ends.  `good` is a static check of a grammar expression; the grammar of
Dockerfiles passes it.
-/

namespace Verif
open Spec

/-! ## texts -/

theorem reline_nil (w : Str) : reline w [] = [] := rfl

theorem reline_append (w a b : Str) : reline w (a ++ b) = reline w a ++ reline w b := by
  simp [reline]

theorem reline_cons {w : Str} {c : Char} (h : c ≠ '\n') (s : Str) :
    reline w (c :: s) = c :: reline w s := by
  simp [reline, h]

theorem reline_lf (w s : Str) : reline w ('\n' :: s) = w ++ reline w s := by
  simp [reline]

theorem reline_same {w s : Str} (h : '\n' ∉ s) : reline w s = s := by
  induction s with
  | nil => rfl
  | cons c s ih =>
    simp only [List.mem_cons, not_or] at h
    rw [reline_cons (Ne.symm h.1), ih h.2]

theorem end_head {w : Str} (hw : OtherEnd w) : ∃ r, w = '\r' :: r := by
  rcases hw with rfl | rfl
  · exact ⟨_, rfl⟩
  · exact ⟨_, rfl⟩

theorem reline_head {w : Str} (hw : OtherEnd w) {s : Str} (hr : '\r' ∉ s) (c : Char)
    (hc : c ≠ '\n' ∧ c ≠ '\r') :
    (∀ r, s = c :: r → reline w s = c :: reline w r) ∧
    ((∀ r, s ≠ c :: r) → ∀ r, reline w s ≠ c :: r) := by
  constructor
  · rintro r rfl; exact reline_cons hc.1 r
  · intro h r e
    cases s with
    | nil => simp [reline_nil] at e
    | cons d s =>
      by_cases hd : d = '\n'
      · subst hd
        obtain ⟨r', rfl⟩ := end_head hw
        rw [reline_lf] at e
        simp only [List.cons_append, List.cons.injEq] at e
        exact hc.2 e.1.symm
      · rw [reline_cons hd] at e
        simp only [List.cons.injEq] at e
        exact h s (by rw [e.1])

theorem strip_reline {w : Str} (hw : OtherEnd w) {x : Str}
    (hx : x.all (fun c => c != '\n' && c != '\r') = true) :
    ∀ {s : Str}, '\r' ∉ s → stripPrefix x (reline w s) = (stripPrefix x s).map (reline w) := by
  induction x with
  | nil => intro s _; simp [stripPrefix]
  | cons c x ih =>
    intro s hr
    simp only [List.all_cons, Bool.and_eq_true, bne_iff_ne, ne_eq] at hx
    cases s with
    | nil => simp [reline_nil, stripPrefix]
    | cons d s =>
      simp only [List.mem_cons, not_or] at hr
      by_cases hd : d = '\n'
      · subst hd
        obtain ⟨r', rfl⟩ := end_head hw
        rw [reline_lf]
        simp [stripPrefix, hx.1.1, hx.1.2]
      · rw [reline_cons hd]
        simp only [stripPrefix]
        split
        · exact ih (by simpa using hx.2) hr.2
        · rfl

theorem stripI_reline {w : Str} (hw : OtherEnd w) {x : Str}
    (hx : (lower x).all (fun c => c != '\n' && c != '\r') = true) :
    ∀ {s : Str}, '\r' ∉ s → stripPrefixI x (reline w s) = (stripPrefixI x s).map (reline w) := by
  induction x with
  | nil => intro s _; simp [stripPrefixI]
  | cons c x ih =>
    intro s hr
    simp only [lower, List.map_cons, List.all_cons, Bool.and_eq_true, bne_iff_ne, ne_eq] at hx
    have l1 : lowerChar '\n' = '\n' := by decide
    have l2 : lowerChar '\r' = '\r' := by decide
    cases s with
    | nil => simp [reline_nil, stripPrefixI]
    | cons d s =>
      simp only [List.mem_cons, not_or] at hr
      by_cases hd : d = '\n'
      · subst hd
        obtain ⟨r', rfl⟩ := end_head hw
        rw [reline_lf]
        simp [stripPrefixI, l1, l2, hx.1.1, hx.1.2]
      · rw [reline_cons hd]
        simp only [stripPrefixI]
        split
        · exact ih (by simpa [lower] using hx.2) hr.2
        · rfl

/-! ## the static check -/

/-- `NEWLINE` -/
def isNewline : PExpr → Bool
  | .alt (.str a) (.alt (.str b) (.str c)) => a == ['\n'] && b == ['\r', '\n'] && c == ['\r']
  | _ => false

/-- a choice of characters other than the line ends -/
def oneChar : PExpr → Bool
  | .str [c] => c != '\n' && c != '\r'
  | .alt a b => oneChar a && oneChar b
  | _ => false

/-- `!(choice of characters) ~ ANY` -/
def wide : PExpr → Bool
  | .seq (.neg e) .any => oneChar e
  | _ => false

/-- matches every text that starts with a line feed -/
def hitsLf : PExpr → Bool
  | .str w => w == ['\n']
  | .alt a _ => hitsLf a
  | _ => false

/-- after a success of the expression, the rest does not start with a line feed, if it is so
before (`g`) -/
def keeps (g : Bool) : PExpr → Bool
  | .neg e => g || hitsLf e
  | _ => false

/-- the expression treats all line ends alike; `g`: on texts that do not start with a line feed -/
def good : Bool → PExpr → Bool
  | _, .str w => w.all fun c => c != '\n' && c != '\r'
  | _, .istr w => (lower w).all fun c => c != '\n' && c != '\r'
  | _, .range lo _ => decide ('\r' < lo)
  | g, .any => g
  | _, .soi => true
  | _, .eoi => true
  | g, .seq a b => good g a && good (keeps g a) b
  | g, .alt a b => isNewline (.alt a b) || (good g a && good g b)
  | _, .star e => wide e || good false e
  | g, .opt e => good g e
  | g, .neg e => good g e
  | g, .rule _ _ e => good g e
  | _, .recur _ => true

theorem good_dockerfile : good false G.dockerfile = true := by decide +kernel

theorem good_body (r : RecRule) : good false (G.body r) = true := by
  cases r <;> decide +kernel

theorem isNewline_eq {e : PExpr} (h : isNewline e = true) : e = G.NEWLINE := by
  unfold isNewline at h
  split at h
  · simp only [Bool.and_eq_true, beq_iff_eq] at h
    obtain ⟨⟨rfl, rfl⟩, rfl⟩ := h
    rfl
  · cases h

theorem wide_eq {e : PExpr} (h : wide e = true) :
    ∃ c, e = .seq (.neg c) .any ∧ oneChar c = true := by
  unfold wide at h
  split at h
  · exact ⟨_, rfl, h⟩
  · cases h

theorem hits_lf {e : PExpr} (h : hitsLf e = true) {q p s} : ¬ Sem e q p ('\n' :: s) none := by
  induction e with
  | str w =>
    simp only [hitsLf, beq_iff_eq] at h
    subst h
    intro hs; cases hs with | str_fail h => simp [stripPrefix] at h
  | alt a b iha _ => intro hs; exact iha h (sem_alt_none.1 hs).1
  | _ => cases h

/-! ## choices of characters -/

/-- the characters of a choice -/
def charsOf : PExpr → Str
  | .str w => w
  | .alt a b => charsOf a ++ charsOf b
  | _ => []

theorem oneChar_sem {e : PExpr} (h : oneChar e = true) (q : Bool) (p : Nat) (d : Char) (s : Str) :
    (d ∈ charsOf e → Sem e q p (d :: s) (some (p + d.utf8Size, s, []))) ∧
    (d ∉ charsOf e → Sem e q p (d :: s) none) := by
  induction e with
  | str w =>
    unfold oneChar at h
    split at h
    · rename_i c e'
      cases e'
      constructor
      · intro hd
        simp only [charsOf, List.mem_singleton] at hd
        subst hd
        have := @Sem.str_ok [d] q p (d :: s) s (by simp [stripPrefix])
        simpa [blen] using this
      · intro hd
        simp only [charsOf, List.mem_singleton] at hd
        exact .str_fail (by simp [stripPrefix, Ne.symm hd])
    · rename_i e'; cases e'
    · cases h
  | alt a b iha ihb =>
    simp only [oneChar, Bool.and_eq_true] at h
    obtain ⟨a1, a2⟩ := iha h.1
    obtain ⟨b1, b2⟩ := ihb h.2
    constructor
    · intro hd
      by_cases ha : d ∈ charsOf a
      · exact .alt_left (a1 ha)
      · exact .alt_right (a2 ha) (b1 (by simpa [charsOf, ha] using hd))
    · intro hd
      simp only [charsOf, List.mem_append, not_or] at hd
      exact .alt_right (a2 hd.1) (b2 hd.2)
  | _ => cases h

theorem oneChar_nil {e : PExpr} (h : oneChar e = true) (q : Bool) (p : Nat) :
    Sem e q p [] none := by
  induction e with
  | str w =>
    unfold oneChar at h
    split at h
    · rename_i c e'; cases e'; exact .str_fail (by simp [stripPrefix])
    · rename_i e'; cases e'
    · cases h
  | alt a b iha ihb =>
    simp only [oneChar, Bool.and_eq_true] at h
    exact .alt_right (iha h.1) (ihb h.2)
  | _ => cases h

theorem oneChar_ends {e : PExpr} (h : oneChar e = true) :
    '\n' ∉ charsOf e ∧ '\r' ∉ charsOf e := by
  induction e with
  | str w =>
    unfold oneChar at h
    split at h
    · rename_i c e'
      cases e'
      simp only [Bool.and_eq_true, bne_iff_ne, ne_eq] at h
      simp only [charsOf, List.mem_singleton]
      exact ⟨fun e => h.1 e.symm, fun e => h.2 e.symm⟩
    · rename_i e'; cases e'
    · cases h
  | alt a b iha ihb =>
    simp only [oneChar, Bool.and_eq_true] at h
    have := iha h.1
    have := ihb h.2
    simp_all [charsOf]
  | _ => cases h

theorem wide_some {e : PExpr} (h : oneChar e = true) {q : Bool} {p : Nat} {d : Char} {s : Str}
    (hd : d ∉ charsOf e) :
    Sem (.seq (.neg e) .any) q p (d :: s) (some (p + d.utf8Size, s, [])) := by
  have := Sem.seq_ok (.neg_ok ((oneChar_sem h q p d s).2 hd)) (Sem.any_ok (q := q) (p := p) (c := d)
    (s := s))
  simpa using this

theorem wide_none {e : PExpr} (h : oneChar e = true) {q : Bool} {p : Nat} {d : Char} {s : Str}
    (hd : d ∈ charsOf e) : Sem (.seq (.neg e) .any) q p (d :: s) none :=
  .seq_fail1 (.neg_fail ((oneChar_sem h q p d s).1 hd))

theorem wide_nil {e : PExpr} (h : oneChar e = true) {q : Bool} {p : Nat} :
    Sem (.seq (.neg e) .any) q p [] none := by
  have := Sem.seq_fail2 (.neg_ok (oneChar_nil h q p)) (Sem.any_nil (q := q) (p := p))
  exact this

/-! ## tokens -/

/-- Two forests of tokens of the same shape. -/
inductive Twins (rel : Rule → Nat → Nat → Str → Nat → Nat → Str → Prop) :
    List Tok → List Tok → Prop
  | nil : Twins rel [] []
  | cons {r a b x a' b' x' ch ch' ts ts'} : rel r a b x a' b' x' → Twins rel ch ch' →
      Twins rel ts ts' → Twins rel (.node r a b x ch :: ts) (.node r a' b' x' ch' :: ts')

theorem Twins.append {rel ts ts' us us'} (h : Twins rel ts ts') (h' : Twins rel us us') :
    Twins rel (ts ++ us) (ts' ++ us') := by
  induction h with
  | nil => exact h'
  | cons h1 h2 _ _ ih => exact .cons h1 h2 ih

/-- a token of `v`, and the token of `reline w v` for it -/
def Relined (w v : Str) (_ : Rule) (a b : Nat) (x : Str) (a' b' : Nat) (x' : Str) : Prop :=
  ∃ u z, v = u ++ x ++ z ∧ a = blen u ∧ b = blen (u ++ x) ∧ a' = blen (reline w u) ∧
    b' = blen (reline w (u ++ x)) ∧ x' = reline w x

/-- outcomes that correspond -/
def SameOut (w v : Str) : Out → Out → Prop
  | none, o => o = none
  | some (p, s, ts), o => ∃ u ts', v = u ++ s ∧ p = blen u ∧
      o = some (blen (reline w u), reline w s, ts') ∧ Twins (Relined w v) ts ts'

theorem newline_lf {q p s} : Sem G.NEWLINE q p ('\n' :: s) (some (p + 1, s, [])) :=
  .alt_left (.str_ok (w := ['\n']) (by simp [stripPrefix]))

theorem newline_end {w : Str} (hw : OtherEnd w) {q p s} (hs : ∀ r, s ≠ '\n' :: r) :
    Sem G.NEWLINE q p (w ++ s) (some (p + blen w, s, [])) := by
  rcases hw with rfl | rfl
  · exact .alt_right (.str_fail (by simp [stripPrefix]))
      (.alt_left (.str_ok (w := ['\r', '\n']) (by simp [stripPrefix])))
  · refine .alt_right (.str_fail (by simp [stripPrefix]))
      (.alt_right (.str_fail ?_) (.str_ok (w := ['\r']) (by simp [stripPrefix])))
    cases s with
    | nil => simp [stripPrefix]
    | cons c s =>
      have : '\n' ≠ c := fun e => hs s (by rw [e])
      simp [stripPrefix, this]

theorem newline_none {q p s} (h1 : ∀ r, s ≠ '\n' :: r) (h2 : ∀ r, s ≠ '\r' :: r) :
    Sem G.NEWLINE q p s none := by
  have strip : ∀ c x, (∀ r, s ≠ c :: r) → stripPrefix (c :: x) s = none := by
    intro c x h
    cases s with
    | nil => rfl
    | cons d s =>
      have : c ≠ d := fun e => h s (by rw [e])
      simp [stripPrefix, this]
  exact .alt_right (.str_fail (strip _ _ h1)) (.alt_right (.str_fail (strip _ _ h2))
    (.str_fail (strip _ _ h2)))

theorem reline_starts {w : Str} (hw : OtherEnd w) {s : Str} : ∀ r, reline w s ≠ '\n' :: r := by
  intro r e
  cases s with
  | nil => simp [reline_nil] at e
  | cons d s =>
    by_cases hd : d = '\n'
    · subst hd
      obtain ⟨r', rfl⟩ := end_head hw
      rw [reline_lf] at e
      simp at e
    · rw [reline_cons hd] at e
      simp only [List.cons.injEq] at e
      exact hd e.1

/-- the run of the grammar on the text with other line ends -/
theorem relined_sem {w : Str} (hw : OtherEnd w) {v : Str} (hr : '\r' ∉ v) {e : PExpr} {q : Bool}
    {p : Nat} {s : Str} {o : Out} (h : Sem e q p s o) :
    ∀ u, v = u ++ s → p = blen u → ∀ g, good g e = true → (g = true → ∀ r, s ≠ '\n' :: r) →
      ∃ o', Sem e q (blen (reline w u)) (reline w s) o' ∧ SameOut w v o o' := by
  have one : ∀ {u s : Str}, v = u ++ s → '\r' ∉ s := by
    rintro u s rfl; simp at hr; exact hr.2
  -- one character other than a line feed
  have step : ∀ {u s : Str} {c : Char}, v = u ++ c :: s → c ≠ '\n' →
      SameOut w v (some (blen u + c.utf8Size, s, []))
        (some (blen (reline w u) + c.utf8Size, reline w s, [])) := by
    intro u s c e hc
    refine ⟨u ++ [c], [], by simp [e], by simp, ?_, .nil⟩
    rw [reline_append, reline_cons hc, reline_nil]
    simp
  induction h with
  | @str_ok x q p s s' h =>
    rintro u e rfl g hg _
    have hg : x.all (fun c => c != '\n' && c != '\r') = true := hg
    have hx : '\n' ∉ x := by
      intro hm; have := List.all_eq_true.1 hg _ hm; simp at this
    have := strip_reline hw hg (one e)
    rw [h] at this
    have e' := stripPrefix_eq_some_iff.1 h
    subst e'
    refine ⟨_, .str_ok this, u ++ x, [], by simp [e], by simp, ?_, .nil⟩
    rw [reline_append, reline_same hx, blen_append]
  | @str_fail x q p s h =>
    rintro u e rfl g hg _
    have := strip_reline hw hg (one e)
    rw [h] at this
    exact ⟨_, .str_fail this, rfl⟩
  | @istr_ok x q p s s' h =>
    rintro u e rfl g hg _
    have hg : (lower x).all (fun c => c != '\n' && c != '\r') = true := hg
    have := stripI_reline hw hg (one e)
    rw [h] at this
    obtain ⟨y, hy, hl⟩ := stripPrefixI_eq_some_iff.1 h
    have hl' : lower y = lower x := by first | exact hl | exact hl.symm | exact hy | exact hy.symm
    have hy' : s = y ++ s' := by first | exact hy | exact hl
    subst hy'
    have hx : '\n' ∉ y := by
      intro hm
      have hm' : lowerChar '\n' ∈ lower y := List.mem_map_of_mem hm
      rw [hl'] at hm'
      have := List.all_eq_true.1 hg _ hm'
      have l1 : lowerChar '\n' = '\n' := by decide
      rw [l1] at this
      simp at this
    have hb := blen_eq_of_lower hl'
    refine ⟨_, .istr_ok this, u ++ y, [], by simp [e], by simp [hb], ?_, .nil⟩
    rw [reline_append, reline_same hx, blen_append, hb]
  | @istr_fail x q p s h =>
    rintro u e rfl g hg _
    have := stripI_reline hw hg (one e)
    rw [h] at this
    exact ⟨_, .istr_fail this, rfl⟩
  | @range_ok lo hi q p c s h =>
    rintro u e rfl g hg _
    have hg : '\r' < lo := by simpa [good] using hg
    have hc : c ≠ '\n' := by
      rintro rfl
      exact absurd (Std.lt_of_lt_of_le hg h.1) (by decide)
    rw [reline_cons hc]
    exact ⟨_, .range_ok h, step e hc⟩
  | @range_fail lo hi q p c s h =>
    rintro u e rfl g hg _
    have hg : '\r' < lo := by simpa [good] using hg
    by_cases hc : c = '\n'
    · subst hc
      obtain ⟨r', rfl⟩ := end_head hw
      rw [reline_lf]
      refine ⟨_, .range_fail ?_, rfl⟩
      intro h'
      exact absurd (Std.lt_of_lt_of_le hg h'.1) (by decide)
    · rw [reline_cons hc]
      exact ⟨_, .range_fail h, rfl⟩
  | range_nil =>
    rintro u e rfl g hg _
    exact ⟨_, .range_nil, rfl⟩
  | @any_ok q p c s =>
    rintro u e rfl g hg hh
    have hc : c ≠ '\n' := by
      rintro rfl
      exact hh hg s rfl
    rw [reline_cons hc]
    exact ⟨_, .any_ok, step e hc⟩
  | any_nil =>
    rintro u e rfl g hg _
    exact ⟨_, .any_nil, rfl⟩
  | @soi_ok q s =>
    intro u e hp g hg _
    have : u = [] := by
      cases u with
      | nil => rfl
      | cons c u => have := blen_pos (s := c :: u) (by simp); omega
    subst this
    exact ⟨_, .soi_ok, [], [], e, rfl, rfl, .nil⟩
  | @soi_fail q p s h =>
    rintro u e rfl g hg _
    refine ⟨_, .soi_fail ?_, rfl⟩
    have hu : u ≠ [] := by rintro rfl; exact h rfl
    have : reline w u ≠ [] := by
      cases u with
      | nil => exact absurd rfl hu
      | cons c u =>
        by_cases hc : c = '\n'
        · subst hc
          obtain ⟨r', rfl⟩ := end_head hw
          rw [reline_lf]; simp
        · rw [reline_cons hc]; simp
    have := blen_pos this
    omega
  | eoi_ok =>
    rintro u e rfl g hg _
    exact ⟨_, .eoi_ok, u, [], e, rfl, rfl, .nil⟩
  | @eoi_fail q p c s =>
    rintro u e rfl g hg _
    by_cases hc : c = '\n'
    · subst hc
      obtain ⟨r', rfl⟩ := end_head hw
      rw [reline_lf]
      exact ⟨_, .eoi_fail, rfl⟩
    · rw [reline_cons hc]
      exact ⟨_, .eoi_fail, rfl⟩
  | @seq_ok a b q p s p1 s1 t1 p2 s2 t2 h1 h2 ih1 ih2 =>
    rintro u e rfl g hg hh
    simp only [good, Bool.and_eq_true] at hg
    obtain ⟨o1, m1, u1, t1', e1, rfl, rfl, tw1⟩ := ih1 u e rfl g hg.1 hh
    obtain ⟨o2, m2, u2, t2', e2, rfl, rfl, tw2⟩ := ih2 u1 e1 rfl _ hg.2 (by
      intro hk
      unfold keeps at hk
      split at hk
      · rename_i x
        obtain ⟨hx, _, rfl, _⟩ := sem_neg_some.1 h1
        simp only [Bool.or_eq_true] at hk
        rcases hk with hk | hk
        · exact hh hk
        · rintro r rfl
          exact hits_lf hk hx
      · cases hk)
    exact ⟨_, .seq_ok m1 m2, u2, _, e2, rfl, rfl, tw1.append tw2⟩
  | @seq_fail1 a b q p s h1 ih1 =>
    rintro u e rfl g hg hh
    simp only [good, Bool.and_eq_true] at hg
    obtain ⟨o1, m1, rfl⟩ := ih1 u e rfl g hg.1 hh
    exact ⟨_, .seq_fail1 m1, rfl⟩
  | @seq_fail2 a b q p s p1 s1 t1 h1 h2 ih1 ih2 =>
    rintro u e rfl g hg hh
    simp only [good, Bool.and_eq_true] at hg
    obtain ⟨o1, m1, u1, t1', e1, rfl, rfl, tw1⟩ := ih1 u e rfl g hg.1 hh
    obtain ⟨o2, m2, rfl⟩ := ih2 u1 e1 rfl _ hg.2 (by
      intro hk
      unfold keeps at hk
      split at hk
      · rename_i x
        obtain ⟨hx, _, rfl, _⟩ := sem_neg_some.1 h1
        simp only [Bool.or_eq_true] at hk
        rcases hk with hk | hk
        · exact hh hk
        · rintro r rfl
          exact hits_lf hk hx
      · cases hk)
    exact ⟨_, .seq_fail2 m1 m2, rfl⟩
  | @alt_left a b q p s r h1 ih1 =>
    rintro u e rfl g hg hh
    simp only [good, Bool.or_eq_true, Bool.and_eq_true] at hg
    rcases hg with hn | hg
    · have hn := isNewline_eq hn
      rw [hn]
      cases hn
      cases h1 with
      | str_ok hs =>
        have e' := stripPrefix_eq_some_iff.1 hs
        subst e'
        rw [show ['\n'] ++ _ = '\n' :: _ from rfl, reline_lf]
        refine ⟨_, newline_end hw (reline_starts hw), u ++ ['\n'], [], by simp [e], by simp, ?_, .nil⟩
        rw [reline_append, reline_lf, reline_nil]
        simp
    · obtain ⟨o1, m1, u1, t1', e1, e2, rfl, tw1⟩ := ih1 u e rfl g hg.1 hh
      exact ⟨_, .alt_left m1, u1, t1', e1, e2, rfl, tw1⟩
  | @alt_right a b q p s r h1 h2 ih1 ih2 =>
    rintro u e rfl g hg hh
    simp only [good, Bool.or_eq_true, Bool.and_eq_true] at hg
    rcases hg with hn | hg
    · have hn := isNewline_eq hn
      rw [hn]
      cases hn
      have hn1 : ∀ r, s ≠ '\n' :: r := by
        rintro r rfl
        cases h1 with | str_fail h => simp [stripPrefix] at h
      have hn2 : ∀ r, s ≠ '\r' :: r := by
        rintro r rfl
        exact one e (by simp)
      have hd := (Sem.alt_right h1 h2).det (newline_none hn1 hn2)
      subst hd
      refine ⟨_, newline_none (reline_starts hw) ?_, rfl⟩
      intro r e'
      cases s with
      | nil => simp [reline_nil] at e'
      | cons c s =>
        rw [reline_cons (fun ec => hn1 s (by rw [ec]))] at e'
        simp only [List.cons.injEq] at e'
        exact hn2 s (by rw [e'.1])
    · obtain ⟨o1, m1, rfl⟩ := ih1 u e rfl g hg.1 hh
      obtain ⟨o2, m2, so⟩ := ih2 u e rfl g hg.2 hh
      exact ⟨_, .alt_right m1 m2, so⟩
  | @star_nil e q p s h1 ih1 =>
    rintro u e rfl g hg hh
    simp only [good, Bool.or_eq_true] at hg
    have fin : ∀ {e : PExpr}, Sem e q (blen (reline w u)) (reline w s) none →
        ∃ o', Sem (.star e) q (blen (reline w u)) (reline w s) o' ∧
          SameOut w v (some (blen u, s, [])) o' := fun m =>
      ⟨_, .star_nil m, u, [], e, rfl, rfl, .nil⟩
    rcases hg with hwd | hg
    · obtain ⟨c, rfl, hc⟩ := wide_eq hwd
      apply fin
      cases s with
      | nil => exact wide_nil hc
      | cons d s =>
        have hd : d ∈ charsOf c := by
          false_or_by_contra
          rename_i hd
          have := h1.det (wide_some hc hd)
          cases this
        rw [reline_cons (fun e => (oneChar_ends hc).1 (e ▸ hd))]
        exact wide_none hc hd
    · obtain ⟨o1, m1, rfl⟩ := ih1 u e rfl false hg (by simp)
      exact fin m1
  | @star_cons e q p s p1 s1 t1 p2 s2 t2 h1 h2 ih1 ih2 =>
    rintro u e rfl g hg hh
    have hg' := hg
    simp only [good, Bool.or_eq_true] at hg
    rcases hg with hwd | hg
    · obtain ⟨c, rfl, hc⟩ := wide_eq hwd
      cases s with
      | nil =>
        have := h1.det (wide_nil hc)
        cases this
      | cons d s =>
        have hd : d ∉ charsOf c := by
          intro hd
          have := h1.det (wide_none hc hd)
          cases this
        have := h1.det (wide_some hc hd)
        cases this
        have e1 : v = (u ++ [d]) ++ s1 := by simp [e]
        obtain ⟨o2, m2, u2, t2', e2, rfl, rfl, tw2⟩ := ih2 (u ++ [d]) e1 (by simp) false hg'
          (by simp)
        refine ⟨some (blen (reline w u2), reline w s2, t2'), ?_, u2, t2', e2, rfl, rfl, tw2⟩
        rw [reline_append] at m2
        by_cases hd' : d = '\n'
        · subst hd'
          rw [reline_lf, reline_nil] at m2
          rw [reline_lf]
          rcases hw with rfl | rfl
          · have b1 : blen (reline ['\r', '\n'] u ++ (['\r', '\n'] ++ [])) =
                blen (reline ['\r', '\n'] u) + '\r'.utf8Size + '\n'.utf8Size := by
              simp [Nat.add_assoc]
            rw [b1] at m2
            exact .star_cons (wide_some hc (oneChar_ends hc).2)
              (.star_cons (wide_some hc (oneChar_ends hc).1) m2)
          · have b1 : blen (reline ['\r'] u ++ (['\r'] ++ [])) =
                blen (reline ['\r'] u) + '\r'.utf8Size := by
              simp
            rw [b1] at m2
            exact .star_cons (wide_some hc (oneChar_ends hc).2) m2
        · rw [reline_cons hd', reline_nil] at m2
          rw [reline_cons hd']
          have b1 : blen (reline w u ++ [d]) = blen (reline w u) + d.utf8Size := by simp
          rw [b1] at m2
          exact .star_cons (wide_some hc hd) m2
    · obtain ⟨o1, m1, u1, t1', e1, rfl, rfl, tw1⟩ := ih1 u e rfl false hg (by simp)
      obtain ⟨o2, m2, u2, t2', e2, rfl, rfl, tw2⟩ := ih2 u1 e1 rfl false hg' (by simp)
      exact ⟨_, .star_cons m1 m2, u2, _, e2, rfl, rfl, tw1.append tw2⟩
  | @opt_some e q p s r h1 ih1 =>
    rintro u e rfl g hg hh
    obtain ⟨o1, m1, u1, t1', e1, e2, rfl, tw1⟩ := ih1 u e rfl g hg hh
    exact ⟨_, .opt_some m1, u1, t1', e1, e2, rfl, tw1⟩
  | @opt_none e q p s h1 ih1 =>
    rintro u e rfl g hg hh
    obtain ⟨o1, m1, rfl⟩ := ih1 u e rfl g hg hh
    exact ⟨_, .opt_none m1, u, [], e, rfl, rfl, .nil⟩
  | @neg_ok e q p s h1 ih1 =>
    rintro u e rfl g hg hh
    obtain ⟨o1, m1, rfl⟩ := ih1 u e rfl g hg hh
    exact ⟨_, .neg_ok m1, u, [], e, rfl, rfl, .nil⟩
  | @neg_fail e q p s r h1 ih1 =>
    rintro u e rfl g hg hh
    obtain ⟨o1, m1, u1, t1', e1, e2, rfl, tw1⟩ := ih1 u e rfl g hg hh
    exact ⟨_, .neg_fail m1, rfl⟩
  | @rule_ok k r e q p s p1 s1 t1 h1 ih1 =>
    rintro u e rfl g hg hh
    obtain ⟨o1, m1, u1, t1', e1, rfl, rfl, tw1⟩ := ih1 u e rfl g hg hh
    obtain ⟨x, rfl, hx, _⟩ := h1.forest _ _ _ rfl
    have hu : u1 = u ++ x := by
      have : (u ++ x) ++ s1 = u1 ++ s1 := by rw [← e1, e]; simp
      exact (List.append_cancel_right this).symm
    subst hu
    have m := Sem.rule_ok (k := k) (r := r) m1
    refine ⟨_, m, u ++ x, _, e1, rfl, rfl, ?_⟩
    rw [reline_append w x s1, take_append_sub, take_append_sub]
    have node : Twins (Relined w v) [.node r (blen u) (blen (u ++ x)) x t1]
        [.node r (blen (reline w u)) (blen (reline w (u ++ x))) (reline w x) t1'] :=
      .cons ⟨u, s1, by simp [e], rfl, rfl, rfl, rfl, rfl⟩ tw1 .nil
    cases k with
    | normal => cases q with
      | true => exact tw1
      | false => exact node
    | silent => exact tw1
    | atomic => cases q with
      | true => exact tw1
      | false => exact node
    | compound => exact node
  | @rule_fail k r e q p s h1 ih1 =>
    rintro u e rfl g hg hh
    obtain ⟨o1, m1, rfl⟩ := ih1 u e rfl g hg hh
    exact ⟨_, .rule_fail m1, rfl⟩
  | @recur r q p s o h1 ih1 =>
    rintro u e rfl g hg hh
    obtain ⟨o1, m1, so⟩ := ih1 u e rfl false (good_body r) (by simp)
    exact ⟨_, .recur m1, so⟩

end Verif
