import Verif.Spec.AnyEnds
import Verif.Proof.LineEnds

/-!
# The grammar does not tell mixed line ends apart

A text is cut into characters and line ends (`Piece`); `lo` is the text with line feeds, `hi` the text
as it is.  `mixed_sem`: a run of the grammar on `lo` is repeated, token by token, on `hi`.
-/

namespace Verif
open Spec

/-! ## texts -/

/-- a character, or a line end -/
inductive Piece
  | chr (c : Char)
  | brk (n : Str)

/-- the piece, with a line feed for a line end -/
def Piece.lo : Piece → Char
  | .chr c => c
  | .brk _ => '\n'

/-- the piece as it is written -/
def Piece.hi : Piece → Str
  | .chr c => [c]
  | .brk n => n

def lo (S : List Piece) : Str := S.map Piece.lo
def hi (S : List Piece) : Str := S.flatMap Piece.hi

/-- characters are no line ends, and each line end is as long as it can be -/
def Fit : List Piece → Prop
  | [] => True
  | .chr c :: S => (c ≠ '\n' ∧ c ≠ '\r') ∧ Fit S
  | .brk n :: S => (n = ['\n'] ∨ n = ['\r', '\n'] ∨ (n = ['\r'] ∧ ∀ r, hi S ≠ '\n' :: r)) ∧ Fit S

theorem lo_append (A B : List Piece) : lo (A ++ B) = lo A ++ lo B := by simp [lo]
theorem hi_append (A B : List Piece) : hi (A ++ B) = hi A ++ hi B := by simp [hi]
theorem lo_chr (c : Char) (S : List Piece) : lo (.chr c :: S) = c :: lo S := rfl
theorem lo_brk (n : Str) (S : List Piece) : lo (.brk n :: S) = '\n' :: lo S := rfl
theorem hi_chr (c : Char) (S : List Piece) : hi (.chr c :: S) = c :: hi S := rfl
theorem hi_brk (n : Str) (S : List Piece) : hi (.brk n :: S) = n ++ hi S := rfl

theorem Fit.right {A B : List Piece} (h : Fit (A ++ B)) : Fit B := by
  induction A with
  | nil => exact h
  | cons x A ih => cases x <;> exact ih h.2

theorem lo_split {S : List Piece} {a b : Str} (h : lo S = a ++ b) :
    ∃ A B, S = A ++ B ∧ lo A = a ∧ lo B = b := by
  unfold lo at h
  obtain ⟨A, B, h1, h2, h3⟩ := List.map_eq_append_iff.1 h
  exact ⟨A, B, h1, h2, h3⟩

/-- the line end starts with a character of a line end -/
theorem brk_head {n : Str} {S : List Piece} (h : Fit (.brk n :: S)) :
    ∃ c r, n = c :: r ∧ (c = '\n' ∨ c = '\r') := by
  rcases h.1 with rfl | rfl | ⟨rfl, _⟩
  · exact ⟨_, _, rfl, .inl rfl⟩
  · exact ⟨_, _, rfl, .inr rfl⟩
  · exact ⟨_, _, rfl, .inr rfl⟩

/-- pieces whose text has no line feed are characters -/
theorem hi_same {S : List Piece} (h : '\n' ∉ lo S) : hi S = lo S := by
  induction S with
  | nil => rfl
  | cons x S ih =>
    cases x with
    | chr c =>
      rw [lo_chr] at h ⊢
      rw [hi_chr, ih (fun hm => h (List.mem_cons_of_mem _ hm))]
    | brk n => exact absurd (by rw [lo_brk]; simp) h

theorem strip_mixed {x : Str} (hx : x.all (fun c => c != '\n' && c != '\r') = true) :
    ∀ {S : List Piece}, Fit S →
      (∀ s', stripPrefix x (lo S) = some s' → ∃ A B, S = A ++ B ∧ lo A = x ∧ hi A = x ∧ s' = lo B ∧
        stripPrefix x (hi S) = some (hi B)) ∧
      (stripPrefix x (lo S) = none → stripPrefix x (hi S) = none) := by
  induction x with
  | nil =>
    intro S _
    refine ⟨?_, by simp [stripPrefix]⟩
    intro s' h
    simp only [stripPrefix, Option.some.injEq] at h
    exact ⟨[], S, rfl, rfl, rfl, h.symm, rfl⟩
  | cons c x ih =>
    intro S hS
    simp only [List.all_cons, Bool.and_eq_true, bne_iff_ne, ne_eq] at hx
    cases S with
    | nil => exact ⟨fun s' h => by simp [lo, stripPrefix] at h, fun _ => rfl⟩
    | cons y S =>
      cases y with
      | chr d =>
        rw [lo_chr, hi_chr]
        simp only [stripPrefix]
        split
        · rename_i e
          have e : c = d := by simpa using e
          subst e
          obtain ⟨i1, i2⟩ := ih (by simpa using hx.2) hS.2
          refine ⟨?_, i2⟩
          intro s' h
          obtain ⟨A, B, rfl, h1, h2, h3, h4⟩ := i1 s' h
          exact ⟨.chr c :: A, B, rfl, by rw [lo_chr, h1], by rw [hi_chr, h2], h3, h4⟩
        · exact ⟨fun s' h => (by cases h), fun _ => rfl⟩
      | brk n =>
        obtain ⟨d, r, rfl, hd⟩ := brk_head hS
        have : c ≠ d := by
          rcases hd with rfl | rfl
          · exact hx.1.1
          · exact hx.1.2
        rw [lo_brk, hi_brk]
        refine ⟨fun s' h => ?_, fun _ => ?_⟩
        · simp [stripPrefix, hx.1.1] at h
        · simp [stripPrefix, this]

theorem stripI_mixed {x : Str} (hx : (lower x).all (fun c => c != '\n' && c != '\r') = true) :
    ∀ {S : List Piece}, Fit S →
      (∀ s', stripPrefixI x (lo S) = some s' → ∃ A B, S = A ++ B ∧ hi A = lo A ∧
        blen (lo A) = blen x ∧ s' = lo B ∧ stripPrefixI x (hi S) = some (hi B)) ∧
      (stripPrefixI x (lo S) = none → stripPrefixI x (hi S) = none) := by
  have l1 : lowerChar '\n' = '\n' := by decide
  have l2 : lowerChar '\r' = '\r' := by decide
  have key : ∀ {x : Str}, (lower x).all (fun c => c != '\n' && c != '\r') = true →
    ∀ {S : List Piece}, Fit S →
      (∀ s', stripPrefixI x (lo S) = some s' → ∃ A B, S = A ++ B ∧ hi A = lo A ∧
        s' = lo B ∧ stripPrefixI x (hi S) = some (hi B)) ∧
      (stripPrefixI x (lo S) = none → stripPrefixI x (hi S) = none) := by
    intro x
    induction x with
    | nil =>
      intro _ S _
      refine ⟨?_, by simp [stripPrefixI]⟩
      intro s' h
      simp only [stripPrefixI, Option.some.injEq] at h
      exact ⟨[], S, rfl, rfl, h.symm, rfl⟩
    | cons c x ih =>
      intro hx S hS
      simp only [lower, List.map_cons, List.all_cons, Bool.and_eq_true, bne_iff_ne, ne_eq] at hx
      cases S with
      | nil => exact ⟨fun s' h => by simp [lo, stripPrefixI] at h, fun _ => rfl⟩
      | cons y S =>
        cases y with
        | chr d =>
          rw [lo_chr, hi_chr]
          simp only [stripPrefixI]
          split
          · obtain ⟨i1, i2⟩ := ih (by simpa [lower] using hx.2) hS.2
            refine ⟨?_, i2⟩
            intro s' h
            obtain ⟨A, B, rfl, h1, h3, h4⟩ := i1 s' h
            exact ⟨.chr d :: A, B, rfl, by rw [lo_chr, hi_chr, h1], h3, h4⟩
          · exact ⟨fun s' h => (by cases h), fun _ => rfl⟩
        | brk n =>
          obtain ⟨d, r, rfl, hd⟩ := brk_head hS
          have : lowerChar c ≠ lowerChar d := by
            rcases hd with rfl | rfl
            · rw [l1]; exact hx.1.1
            · rw [l2]; exact hx.1.2
          rw [lo_brk, hi_brk]
          refine ⟨fun s' h => ?_, fun _ => ?_⟩
          · simp [stripPrefixI, l1, hx.1.1] at h
          · simp [stripPrefixI, this]
  intro S hS
  refine ⟨?_, (key hx hS).2⟩
  intro s' h
  obtain ⟨A, B, e, h1, h2, h3⟩ := (key hx hS).1 s' h
  refine ⟨A, B, e, h1, ?_, h2, h3⟩
  obtain ⟨y, hy, hl⟩ := stripPrefixI_eq_some_iff.1 h
  have hl' : lower y = lower x := by first | exact hl | exact hl.symm | exact hy | exact hy.symm
  have hy' : lo S = y ++ s' := by first | exact hy | exact hl
  rw [e, lo_append, h2] at hy'
  rw [List.append_cancel_right hy']
  exact blen_eq_of_lower hl'

/-! ## tokens -/

/-- a token of `lo V`, and the token of `hi V` for it -/
def Mixed (V : List Piece) (_ : Rule) (a b : Nat) (x : Str) (a' b' : Nat) (x' : Str) : Prop :=
  ∃ U X Z, V = U ++ X ++ Z ∧ a = blen (lo U) ∧ b = blen (lo (U ++ X)) ∧ x = lo X ∧
    a' = blen (hi U) ∧ b' = blen (hi (U ++ X)) ∧ x' = hi X

/-- outcomes that correspond -/
def MixedOut (V : List Piece) : Out → Out → Prop
  | none, o => o = none
  | some (p, s, ts), o => ∃ U S ts', V = U ++ S ∧ p = blen (lo U) ∧ s = lo S ∧
      o = some (blen (hi U), hi S, ts') ∧ Twins (Mixed V) ts ts'

theorem newline_brk {n : Str} {S : List Piece} (h : Fit (.brk n :: S)) {q p} :
    Sem G.NEWLINE q p (n ++ hi S) (some (p + blen n, hi S, [])) := by
  rcases h.1 with rfl | rfl | ⟨rfl, hs⟩
  · exact newline_lf
  · exact .alt_right (.str_fail (by simp [stripPrefix]))
      (.alt_left (.str_ok (w := ['\r', '\n']) (by simp [stripPrefix])))
  · exact newline_end (.inr rfl) hs

theorem lo_no_cr {S : List Piece} (h : Fit S) : '\r' ∉ lo S := by
  induction S with
  | nil => simp [lo]
  | cons x S ih =>
    cases x with
    | chr c => rw [lo_chr]; simp only [List.mem_cons, not_or]; exact ⟨Ne.symm h.1.2, ih h.2⟩
    | brk n => rw [lo_brk]; simp only [List.mem_cons, not_or]; exact ⟨by decide, ih h.2⟩

theorem hi_start {S : List Piece} (h : Fit S) (hl : ∀ r, lo S ≠ '\n' :: r) :
    (∀ r, hi S ≠ '\n' :: r) ∧ ∀ r, hi S ≠ '\r' :: r := by
  cases S with
  | nil => simp [hi]
  | cons x S =>
    cases x with
    | chr c =>
      rw [hi_chr]
      constructor <;> · intro r e; simp only [List.cons.injEq] at e; first | exact h.1.1 e.1 | exact h.1.2 e.1
    | brk n => exact absurd (lo_brk n S) (hl _)

/-- the run of the grammar on the text as it is -/
theorem mixed_sem {V : List Piece} (hV : Fit V) {e : PExpr} {q : Bool}
    {p : Nat} {s : Str} {o : Out} (h : Sem e q p s o) :
    ∀ U S, V = U ++ S → s = lo S → p = blen (lo U) → ∀ g, good g e = true →
      (g = true → ∀ r, s ≠ '\n' :: r) →
      ∃ o', Sem e q (blen (hi U)) (hi S) o' ∧ MixedOut V o o' := by
  have fit : ∀ {U S : List Piece}, V = U ++ S → Fit S := by
    rintro U S rfl; exact hV.right
  -- one character other than a line feed
  have step : ∀ {U S : List Piece} {c : Char}, V = U ++ .chr c :: S →
      MixedOut V (some (blen (lo U) + c.utf8Size, lo S, []))
        (some (blen (hi U) + c.utf8Size, hi S, [])) := by
    intro U S c e
    refine ⟨U ++ [.chr c], S, [], by simp [e], ?_, rfl, ?_, .nil⟩
    · rw [lo_append, blen_append]; simp [lo, Piece.lo]
    · rw [hi_append, blen_append]; simp [hi, Piece.hi]
  -- the first piece
  have first : ∀ {c : Char} {s : Str} {S : List Piece}, c :: s = lo S →
      (∃ S', S = .chr c :: S' ∧ s = lo S') ∨ (∃ n S', S = .brk n :: S' ∧ c = '\n' ∧ s = lo S') := by
    intro c s S e
    cases S with
    | nil => cases e
    | cons x S =>
      cases x with
      | chr d => rw [lo_chr] at e; cases e; exact .inl ⟨S, rfl, rfl⟩
      | brk n => rw [lo_brk] at e; cases e; exact .inr ⟨n, S, rfl, rfl, rfl⟩
  have none' : ∀ {S : List Piece}, [] = lo S → S = [] := by
    intro S e
    cases S with
    | nil => rfl
    | cons x S => cases e
  induction h with
  | @str_ok x q p s s' h =>
    rintro U S e rfl rfl g hg _
    obtain ⟨A, B, rfl, h1, h2, rfl, h3⟩ := (strip_mixed hg (fit e)).1 s' h
    refine ⟨_, .str_ok h3, U ++ A, B, [], by simp [e], ?_, rfl, ?_, .nil⟩
    · rw [lo_append, blen_append, h1]
    · rw [hi_append, blen_append, h2]
  | @str_fail x q p s h =>
    rintro U S e rfl rfl g hg _
    exact ⟨_, .str_fail ((strip_mixed hg (fit e)).2 h), rfl⟩
  | @istr_ok x q p s s' h =>
    rintro U S e rfl rfl g hg _
    obtain ⟨A, B, rfl, h1, h2, rfl, h3⟩ := (stripI_mixed hg (fit e)).1 s' h
    refine ⟨_, .istr_ok h3, U ++ A, B, [], by simp [e], ?_, rfl, ?_, .nil⟩
    · rw [lo_append, blen_append, h2]
    · rw [hi_append, blen_append, h1, h2]
  | @istr_fail x q p s h =>
    rintro U S e rfl rfl g hg _
    exact ⟨_, .istr_fail ((stripI_mixed hg (fit e)).2 h), rfl⟩
  | @range_ok l k q p c s h =>
    rintro U S e es rfl g hg _
    have hg : '\r' < l := by simpa [good] using hg
    rcases first es with ⟨S, rfl, rfl⟩ | ⟨n, S, rfl, rfl, rfl⟩
    · exact ⟨_, .range_ok h, step e⟩
    · exact absurd (Std.lt_of_lt_of_le hg h.1) (by decide)
  | @range_fail l k q p c s h =>
    rintro U S e es rfl g hg _
    have hg : '\r' < l := by simpa [good] using hg
    rcases first es with ⟨S, rfl, rfl⟩ | ⟨n, S, rfl, rfl, rfl⟩
    · exact ⟨_, .range_fail h, rfl⟩
    · obtain ⟨d, r, rfl, hd⟩ := brk_head (fit e)
      rw [hi_brk]
      refine ⟨_, .range_fail ?_, rfl⟩
      intro h'
      rcases hd with rfl | rfl
      · exact absurd (Std.lt_of_lt_of_le hg h'.1) (by decide)
      · exact absurd (Std.lt_of_lt_of_le hg h'.1) (by decide)
  | range_nil =>
    rintro U S e es rfl g hg _
    cases none' es
    exact ⟨_, .range_nil, rfl⟩
  | @any_ok q p c s =>
    rintro U S e es rfl g hg hh
    rcases first es with ⟨S, rfl, rfl⟩ | ⟨n, S, rfl, rfl, rfl⟩
    · exact ⟨_, .any_ok, step e⟩
    · exact absurd rfl (hh hg _)
  | any_nil =>
    rintro U S e es rfl g hg _
    cases none' es
    exact ⟨_, .any_nil, rfl⟩
  | @soi_ok q s =>
    rintro U S e rfl hp g hg _
    have : U = [] := by
      cases U with
      | nil => rfl
      | cons c U => have := blen_pos (s := lo (c :: U)) (by simp [lo]); omega
    subst this
    exact ⟨_, .soi_ok, [], S, [], e, rfl, rfl, rfl, .nil⟩
  | @soi_fail q p s h =>
    rintro U S e rfl rfl g hg _
    refine ⟨_, .soi_fail ?_, rfl⟩
    cases U with
    | nil => exact absurd rfl h
    | cons x U =>
      have hf : Fit (x :: (U ++ S)) := by rw [e] at hV; exact hV
      have : hi (x :: U) ≠ [] := by
        cases x with
        | chr c => rw [hi_chr]; simp
        | brk n =>
          obtain ⟨c, r, rfl, _⟩ := brk_head hf
          rw [hi_brk]; simp
      have := blen_pos this
      omega
  | eoi_ok =>
    rintro U S e es rfl g hg _
    cases none' es
    exact ⟨_, .eoi_ok, U, [], [], e, rfl, rfl, rfl, .nil⟩
  | @eoi_fail q p c s =>
    rintro U S e es rfl g hg _
    rcases first es with ⟨S, rfl, rfl⟩ | ⟨n, S, rfl, rfl, rfl⟩
    · exact ⟨_, .eoi_fail, rfl⟩
    · obtain ⟨d, r, rfl, hd⟩ := brk_head (fit e)
      rw [hi_brk]
      exact ⟨_, .eoi_fail, rfl⟩
  | @seq_ok a b q p s p1 s1 t1 p2 s2 t2 h1 h2 ih1 ih2 =>
    rintro U S e es rfl g hg hh
    simp only [good, Bool.and_eq_true] at hg
    obtain ⟨o1, m1, U1, S1, t1', e1, rfl, es1, rfl, tw1⟩ := ih1 U S e es rfl g hg.1 hh
    obtain ⟨o2, m2, U2, S2, t2', e2, rfl, es2, rfl, tw2⟩ := ih2 U1 S1 e1 es1 rfl _ hg.2 (by
      intro hk
      unfold keeps at hk
      split at hk
      · rename_i x
        obtain ⟨hx, _, rfl, _⟩ := sem_neg_some.1 h1
        simp only [Bool.or_eq_true] at hk
        rcases hk with hk | hk
        · exact hh hk
        · rintro r rfl
          exact hits_lf hk hx
      · cases hk)
    exact ⟨_, .seq_ok m1 m2, U2, S2, _, e2, rfl, es2, rfl, tw1.append tw2⟩
  | @seq_fail1 a b q p s h1 ih1 =>
    rintro U S e es rfl g hg hh
    simp only [good, Bool.and_eq_true] at hg
    obtain ⟨o1, m1, rfl⟩ := ih1 U S e es rfl g hg.1 hh
    exact ⟨_, .seq_fail1 m1, rfl⟩
  | @seq_fail2 a b q p s p1 s1 t1 h1 h2 ih1 ih2 =>
    rintro U S e es rfl g hg hh
    simp only [good, Bool.and_eq_true] at hg
    obtain ⟨o1, m1, U1, S1, t1', e1, rfl, es1, rfl, tw1⟩ := ih1 U S e es rfl g hg.1 hh
    obtain ⟨o2, m2, rfl⟩ := ih2 U1 S1 e1 es1 rfl _ hg.2 (by
      intro hk
      unfold keeps at hk
      split at hk
      · rename_i x
        obtain ⟨hx, _, rfl, _⟩ := sem_neg_some.1 h1
        simp only [Bool.or_eq_true] at hk
        rcases hk with hk | hk
        · exact hh hk
        · rintro r rfl
          exact hits_lf hk hx
      · cases hk)
    exact ⟨_, .seq_fail2 m1 m2, rfl⟩
  | @alt_left a b q p s r h1 ih1 =>
    rintro U S e es rfl g hg hh
    simp only [good, Bool.or_eq_true, Bool.and_eq_true] at hg
    rcases hg with hn | hg
    · have hn := isNewline_eq hn
      rw [hn]
      cases hn
      cases h1 with
      | str_ok hs =>
        have e' := stripPrefix_eq_some_iff.1 hs
        subst e'
        rcases first es with ⟨S, rfl, rfl⟩ | ⟨n, S, rfl, -, rfl⟩
        · exact absurd rfl (fit e).1.1
        · refine ⟨_, newline_brk (fit e), U ++ [.brk n], S, [], by simp [e], ?_, rfl, ?_, .nil⟩
          · rw [lo_append, blen_append]; simp [lo, Piece.lo]
          · rw [hi_append, blen_append]; simp [hi, Piece.hi]
    · obtain ⟨o1, m1, U1, S1, t1', e1, e2, es1, rfl, tw1⟩ := ih1 U S e es rfl g hg.1 hh
      exact ⟨_, .alt_left m1, U1, S1, t1', e1, e2, es1, rfl, tw1⟩
  | @alt_right a b q p s r h1 h2 ih1 ih2 =>
    rintro U S e es rfl g hg hh
    simp only [good, Bool.or_eq_true, Bool.and_eq_true] at hg
    rcases hg with hn | hg
    · have hn := isNewline_eq hn
      rw [hn]
      cases hn
      have hn1 : ∀ r, s ≠ '\n' :: r := by
        rintro r rfl
        cases h1 with | str_fail h => simp [stripPrefix] at h
      have hn2 : ∀ r, s ≠ '\r' :: r := by
        rintro r rfl
        exact lo_no_cr (fit e) (by rw [← es]; simp)
      have hd := (Sem.alt_right h1 h2).det (newline_none hn1 hn2)
      subst hd
      rw [es] at hn1
      obtain ⟨k1, k2⟩ := hi_start (fit e) hn1
      exact ⟨_, newline_none k1 k2, rfl⟩
    · obtain ⟨o1, m1, rfl⟩ := ih1 U S e es rfl g hg.1 hh
      obtain ⟨o2, m2, so⟩ := ih2 U S e es rfl g hg.2 hh
      exact ⟨_, .alt_right m1 m2, so⟩
  | @star_nil x q p s h1 ih1 =>
    rintro U S e es rfl g hg hh
    simp only [good, Bool.or_eq_true] at hg
    have fin : ∀ {x : PExpr}, Sem x q (blen (hi U)) (hi S) none →
        ∃ o', Sem (.star x) q (blen (hi U)) (hi S) o' ∧
          MixedOut V (some (blen (lo U), s, [])) o' := fun m =>
      ⟨_, .star_nil m, U, S, [], e, rfl, es, rfl, .nil⟩
    rcases hg with hwd | hg
    · obtain ⟨c, rfl, hc⟩ := wide_eq hwd
      apply fin
      cases s with
      | nil => cases none' es; exact wide_nil hc
      | cons d s =>
        have hd : d ∈ charsOf c := by
          false_or_by_contra
          rename_i hd
          have := h1.det (wide_some hc hd)
          cases this
        rcases first es with ⟨S, rfl, rfl⟩ | ⟨n, S, rfl, rfl, rfl⟩
        · exact wide_none hc hd
        · exact absurd hd (oneChar_ends hc).1
    · obtain ⟨o1, m1, rfl⟩ := ih1 U S e es rfl false hg (by simp)
      exact fin m1
  | @star_cons x q p s p1 s1 t1 p2 s2 t2 h1 h2 ih1 ih2 =>
    rintro U S e es rfl g hg hh
    have hg' := hg
    simp only [good, Bool.or_eq_true] at hg
    rcases hg with hwd | hg
    · obtain ⟨c, rfl, hc⟩ := wide_eq hwd
      cases s with
      | nil =>
        have := h1.det (wide_nil hc)
        cases this
      | cons d s =>
        have hd : d ∉ charsOf c := by
          intro hd
          have := h1.det (wide_none hc hd)
          cases this
        have := h1.det (wide_some hc hd)
        cases this
        rcases first es with ⟨S, rfl, rfl⟩ | ⟨n, S, rfl, rfl, rfl⟩
        · have e1 : V = (U ++ [.chr d]) ++ S := by simp [e]
          obtain ⟨o2, m2, U2, S2, t2', e2, rfl, es2, rfl, tw2⟩ := ih2 (U ++ [.chr d]) S e1 rfl
            (by rw [lo_append, blen_append]; simp [lo, Piece.lo]) false hg' (by simp)
          refine ⟨_, .star_cons (wide_some hc hd) ?_, U2, S2, t2', e2, rfl, es2, rfl, tw2⟩
          have b : blen (hi (U ++ [.chr d])) = blen (hi U) + d.utf8Size := by
            rw [hi_append, blen_append]; simp [hi, Piece.hi]
          rw [b] at m2
          exact m2
        · have e1 : V = (U ++ [.brk n]) ++ S := by simp [e]
          obtain ⟨o2, m2, U2, S2, t2', e2, rfl, es2, rfl, tw2⟩ := ih2 (U ++ [.brk n]) S e1 rfl
            (by rw [lo_append, blen_append]; simp [lo, Piece.lo]) false hg' (by simp)
          refine ⟨some (blen (hi U2), hi S2, t2'), ?_, U2, S2, t2', e2, rfl, es2, rfl, tw2⟩
          have b : blen (hi (U ++ [.brk n])) = blen (hi U) + blen n := by
            rw [hi_append, blen_append]; simp [hi, Piece.hi]
          rw [b] at m2
          rw [hi_brk]
          have lf := (oneChar_ends hc).1
          have cr := (oneChar_ends hc).2
          rcases (fit e).1 with rfl | rfl | ⟨rfl, _⟩
          · exact .star_cons (wide_some hc lf) m2
          · have b1 : blen (hi U) + blen ['\r', '\n'] =
                blen (hi U) + '\r'.utf8Size + '\n'.utf8Size := by simp [Nat.add_assoc]
            rw [b1] at m2
            exact .star_cons (wide_some hc cr) (.star_cons (wide_some hc lf) m2)
          · exact .star_cons (wide_some hc cr) m2
    · obtain ⟨o1, m1, U1, S1, t1', e1, rfl, es1, rfl, tw1⟩ := ih1 U S e es rfl false hg (by simp)
      obtain ⟨o2, m2, U2, S2, t2', e2, rfl, es2, rfl, tw2⟩ := ih2 U1 S1 e1 es1 rfl false hg' (by simp)
      exact ⟨_, .star_cons m1 m2, U2, S2, _, e2, rfl, es2, rfl, tw1.append tw2⟩
  | @opt_some x q p s r h1 ih1 =>
    rintro U S e es rfl g hg hh
    obtain ⟨o1, m1, U1, S1, t1', e1, e2, es1, rfl, tw1⟩ := ih1 U S e es rfl g hg hh
    exact ⟨_, .opt_some m1, U1, S1, t1', e1, e2, es1, rfl, tw1⟩
  | @opt_none x q p s h1 ih1 =>
    rintro U S e es rfl g hg hh
    obtain ⟨o1, m1, rfl⟩ := ih1 U S e es rfl g hg hh
    exact ⟨_, .opt_none m1, U, S, [], e, rfl, es, rfl, .nil⟩
  | @neg_ok x q p s h1 ih1 =>
    rintro U S e es rfl g hg hh
    obtain ⟨o1, m1, rfl⟩ := ih1 U S e es rfl g hg hh
    exact ⟨_, .neg_ok m1, U, S, [], e, rfl, es, rfl, .nil⟩
  | @neg_fail x q p s r h1 ih1 =>
    rintro U S e es rfl g hg hh
    obtain ⟨o1, m1, U1, S1, t1', e1, e2, es1, rfl, tw1⟩ := ih1 U S e es rfl g hg hh
    exact ⟨_, .neg_fail m1, rfl⟩
  | @rule_ok k r x q p s p1 s1 t1 h1 ih1 =>
    rintro U S e es rfl g hg hh
    obtain ⟨o1, m1, U1, S1, t1', e1, rfl, rfl, rfl, tw1⟩ := ih1 U S e es rfl g hg hh
    obtain ⟨y, rfl, hy, _⟩ := h1.forest _ _ _ rfl
    obtain ⟨X, S2, rfl, rfl, e3⟩ := lo_split es.symm
    have hl : (U ++ X).length = U1.length := by
      have l1 := congrArg List.length e
      have l2 := congrArg List.length e1
      have l3 := congrArg List.length e3
      simp only [lo, List.length_map, List.length_append] at l1 l2 l3 ⊢
      omega
    have he : (U ++ X) ++ S2 = U1 ++ S1 := by rw [← e1, e]; simp
    obtain ⟨rfl, rfl⟩ := List.append_inj he hl
    have m := Sem.rule_ok (k := k) (r := r) m1
    refine ⟨_, m, U ++ X, S2, _, e1, rfl, rfl, rfl, ?_⟩
    rw [hi_append X S2, take_append_sub, take_append_sub]
    have node : Twins (Mixed V) [.node r (blen (lo U)) (blen (lo (U ++ X))) (lo X) t1]
        [.node r (blen (hi U)) (blen (hi (U ++ X))) (hi X) t1'] :=
      .cons ⟨U, X, S2, by simp [e], rfl, rfl, rfl, rfl, rfl, rfl⟩ tw1 .nil
    cases k with
    | normal => cases q with
      | true => exact tw1
      | false => exact node
    | silent => exact tw1
    | atomic => cases q with
      | true => exact tw1
      | false => exact node
    | compound => exact node
  | @rule_fail k r x q p s h1 ih1 =>
    rintro U S e es rfl g hg hh
    obtain ⟨o1, m1, rfl⟩ := ih1 U S e es rfl g hg hh
    exact ⟨_, .rule_fail m1, rfl⟩
  | @recur r q p s o h1 ih1 =>
    rintro U S e es rfl g hg hh
    obtain ⟨o1, m1, so⟩ := ih1 U S e es rfl false (good_body r) (by simp)
    exact ⟨_, .recur m1, so⟩

end Verif
