import Verif.Proof.AnyEnds
import Verif.Proof.LineEndsDoc

/-! # Documents with mixed line ends -/

namespace Verif
open Spec

/-! ## equations -/

theorem unixEnds_chr {c : Char} (h : c ≠ '\r') (s : Str) : unixEnds (c :: s) = c :: unixEnds s := by
  rw [unixEnds]
  · rintro s' rfl; exact absurd rfl h
  · exact h

theorem unixEnds_cr {s : Str} (h : ∀ r, s ≠ '\n' :: r) : unixEnds ('\r' :: s) = '\n' :: unixEnds s := by
  rw [unixEnds]
  exact h

theorem toUnix_zero (t : Str) : toUnix t 0 = 0 := by
  unfold toUnix; split <;> simp

theorem fromUnix_zero (t : Str) : fromUnix t 0 = 0 := by
  unfold fromUnix; split <;> simp

theorem toUnix_chr {c : Char} {s : Str} (h : c = '\r' → ∀ r, s ≠ '\n' :: r) (n : Nat) :
    toUnix (c :: s) (c.utf8Size + n) = c.utf8Size + toUnix s n := by
  have := Char.utf8Size_pos c
  rw [toUnix]
  · rw [if_neg (by omega), Nat.add_sub_cancel_left]
  · rintro s' rfl rfl; exact h rfl _ rfl

theorem fromUnix_chr {c : Char} {s : Str} (h : c = '\r' → ∀ r, s ≠ '\n' :: r) (n : Nat) :
    fromUnix (c :: s) (c.utf8Size + n) = c.utf8Size + fromUnix s n := by
  have := Char.utf8Size_pos c
  rw [fromUnix]
  · rw [if_neg (by omega), Nat.add_sub_cancel_left]
  · rintro s' rfl rfl; exact h rfl _ rfl

theorem toUnix_pair (s : Str) (n : Nat) :
    toUnix ('\r' :: '\n' :: s) (2 + n) = 1 + toUnix s n := by
  rw [toUnix, if_neg (by omega), Nat.add_sub_cancel_left]

theorem fromUnix_pair (s : Str) (n : Nat) :
    fromUnix ('\r' :: '\n' :: s) (1 + n) = 2 + fromUnix s n := by
  rw [fromUnix, if_neg (by omega), Nat.add_sub_cancel_left]

/-! ## the pieces of a text -/

theorem unixEnds_hi {V : List Piece} (h : Fit V) : unixEnds (hi V) = lo V := by
  induction V with
  | nil => rfl
  | cons x V ih =>
    cases x with
    | chr c => rw [hi_chr, lo_chr, unixEnds_chr h.1.2, ih h.2]
    | brk n =>
      rw [hi_brk, lo_brk, ← ih h.2]
      rcases h.1 with rfl | rfl | ⟨rfl, hs⟩
      · exact unixEnds_chr (by decide) _
      · rfl
      · exact unixEnds_cr hs

theorem exists_pieces : ∀ n (t : Str), t.length ≤ n → ∃ V, Fit V ∧ hi V = t := by
  intro n
  induction n with
  | zero => intro t h; cases t with
    | nil => exact ⟨[], trivial, rfl⟩
    | cons c t => simp at h
  | succ n ih =>
    intro t h
    cases t with
    | nil => exact ⟨[], trivial, rfl⟩
    | cons c t =>
      simp only [List.length_cons] at h
      obtain ⟨V, hV, rfl⟩ := ih t (by omega)
      by_cases hn : c = '\n'
      · subst hn; exact ⟨.brk ['\n'] :: V, ⟨.inl rfl, hV⟩, rfl⟩
      · by_cases hr : c = '\r'
        · subst hr
          by_cases hs : ∃ r, hi V = '\n' :: r
          · obtain ⟨r, hs⟩ := hs
            rw [hs] at h ⊢
            simp only [List.length_cons] at h
            obtain ⟨W, hW, rfl⟩ := ih r (by omega)
            exact ⟨.brk ['\r', '\n'] :: W, ⟨.inr (.inl rfl), hW⟩, rfl⟩
          · exact ⟨.brk ['\r'] :: V, ⟨.inr (.inr ⟨rfl, fun r e => hs ⟨r, e⟩⟩), hV⟩, rfl⟩
        · exact ⟨.chr c :: V, ⟨⟨hn, hr⟩, hV⟩, rfl⟩

theorem pieces_of (t : Str) : ∃ V, Fit V ∧ hi V = t := exists_pieces _ t (Nat.le_refl _)

theorem unix_positions {U Z : List Piece} (h : Fit (U ++ Z)) :
    toUnix (hi (U ++ Z)) (blen (hi U)) = blen (lo U) ∧
    fromUnix (hi (U ++ Z)) (blen (lo U)) = blen (hi U) := by
  have one : ('\n' : Char).utf8Size = 1 := by decide
  have one' : ('\r' : Char).utf8Size = 1 := by decide
  induction U with
  | nil => exact ⟨toUnix_zero _, fromUnix_zero _⟩
  | cons x U ih =>
    rw [List.cons_append] at h ⊢
    cases x with
    | chr c =>
      obtain ⟨i1, i2⟩ := ih h.2
      rw [hi_chr, hi_chr, lo_chr, blen_cons, blen_cons, toUnix_chr (fun e => absurd e h.1.2), i1,
        fromUnix_chr (fun e => absurd e h.1.2), i2]
      exact ⟨rfl, rfl⟩
    | brk n =>
      obtain ⟨i1, i2⟩ := ih h.2
      rw [hi_brk, hi_brk, lo_brk, blen_cons, one]
      rcases h.1 with rfl | rfl | ⟨rfl, hs⟩
      · have t1 := toUnix_chr (c := '\n') (s := hi (U ++ Z)) (fun e => absurd e (by decide)) (blen (hi U))
        have t2 := fromUnix_chr (c := '\n') (s := hi (U ++ Z)) (fun e => absurd e (by decide)) (blen (lo U))
        rw [one, i1] at t1
        rw [one, i2] at t2
        exact ⟨t1, t2⟩
      · have t1 := toUnix_pair (hi (U ++ Z)) (blen (hi U))
        have t2 := fromUnix_pair (hi (U ++ Z)) (blen (lo U))
        rw [i1] at t1
        rw [i2] at t2
        have b : blen (['\r', '\n'] ++ hi U) = 2 + blen (hi U) := by rw [blen_append]; rfl
        rw [b]
        exact ⟨t1, t2⟩
      · have t1 := toUnix_chr (c := '\r') (s := hi (U ++ Z)) (fun _ => hs) (blen (hi U))
        have t2 := fromUnix_chr (c := '\r') (s := hi (U ++ Z)) (fun _ => hs) (blen (lo U))
        rw [one', i1] at t1
        rw [one', i2] at t2
        exact ⟨t1, t2⟩

theorem fit_append {A B : List Piece} (hA : Fit A) (hB : Fit B) (h : CutBetween (hi A) (hi B)) :
    Fit (A ++ B) := by
  induction A with
  | nil => exact hB
  | cons x A ih =>
    cases x with
    | chr c =>
      refine ⟨hA.1, ih hA.2 ?_⟩
      rintro ⟨⟨x, hx⟩, hy⟩
      exact h ⟨⟨c :: x, by rw [hi_chr, hx]; rfl⟩, hy⟩
    | brk n =>
      refine ⟨?_, ih hA.2 ?_⟩
      · rcases hA.1 with e | e | ⟨rfl, hs⟩
        · exact .inl e
        · exact .inr (.inl e)
        · refine .inr (.inr ⟨rfl, ?_⟩)
          intro r e
          rw [show A.append B = A ++ B from rfl, hi_append] at e
          cases hn : hi A with
          | nil =>
            rw [hn] at e
            exact h ⟨⟨[], by rw [hi_brk, hn]; rfl⟩, r, e⟩
          | cons c y =>
            rw [hn] at e
            simp only [List.cons_append, List.cons.injEq] at e
            exact hs y (by rw [hn, e.1])
      · rintro ⟨⟨x, hx⟩, hy⟩
        exact h ⟨⟨n ++ x, by rw [hi_brk, hx, List.append_assoc]⟩, hy⟩

/-- pieces whose text is on one line are characters -/
theorem lo_same {X Z : List Piece} (hX : Fit (X ++ Z)) (hx : ∀ c ∈ hi X, c ≠ '\n' ∧ c ≠ '\r') :
    hi X = lo X := by
  induction X with
  | nil => rfl
  | cons y X ih =>
    cases y with
    | chr c =>
      rw [hi_chr, lo_chr, ih hX.2 (fun c hc => hx c (by rw [hi_chr]; exact List.mem_cons_of_mem _ hc))]
    | brk n =>
      obtain ⟨c, k, rfl, hc⟩ := brk_head (S := X ++ Z) hX
      have := hx c (by rw [hi_brk]; simp)
      rcases hc with rfl | rfl
      · exact absurd rfl this.1
      · exact absurd rfl this.2

/-! ## tokens -/

theorem mixed_there {V : List Piece} (hV : Fit V) {ts ts'} (h : Twins (Mixed V) ts ts')
    (hd : Deep OneLine ts) : Alikes (fromUnix (hi V)) ts ts' := by
  induction h with
  | nil => exact .nil
  | @cons r a b x a' b' x' ch ch' ts ts' h1 h2 h3 ih1 ih2 =>
    cases hd with
    | cons d1 d2 d3 =>
      obtain ⟨U, X, Z, hv, rfl, rfl, rfl, rfl, rfl, rfl⟩ := h1
      have e1 : fromUnix (hi V) (blen (lo U)) = blen (hi U) := by
        rw [hv, List.append_assoc] at hV ⊢; exact (unix_positions hV).2
      have e2 : fromUnix (hi V) (blen (lo (U ++ X))) = blen (hi (U ++ X)) := by
        rw [hv] at hV ⊢; exact (unix_positions hV).2
      rw [← e1, ← e2]
      exact .cons (fun hr => hi_same fun hm => (d1 hr _ hm).1 rfl) (fun hr => ih1 (d2 hr)) (ih2 d3)

theorem mixed_back {V : List Piece} (hV : Fit V) {ts ts'} (h : Twins (Mixed V) ts ts')
    (hd : Deep OneLine ts') : Alikes (toUnix (hi V)) ts' ts := by
  induction h with
  | nil => exact .nil
  | @cons r a b x a' b' x' ch ch' ts ts' h1 h2 h3 ih1 ih2 =>
    cases hd with
    | cons d1 d2 d3 =>
      obtain ⟨U, X, Z, hv, rfl, rfl, rfl, rfl, rfl, rfl⟩ := h1
      have e1 : toUnix (hi V) (blen (hi U)) = blen (lo U) := by
        have hV := hV
        rw [hv, List.append_assoc] at hV ⊢; exact (unix_positions hV).1
      have e2 : toUnix (hi V) (blen (hi (U ++ X))) = blen (lo (U ++ X)) := by
        have hV := hV
        rw [hv] at hV ⊢; exact (unix_positions hV).1
      have plain : readRule r = true → hi X = lo X := fun hr =>
        lo_same (by rw [hv, List.append_assoc] at hV; exact hV.right) (d1 hr)
      rw [← e1, ← e2]
      exact .cons (fun hr => (plain hr).symm) (fun hr => ih1 (d2 hr)) (ih2 d3)

theorem mixed_oneLine {V : List Piece} (hV : Fit V) {ts ts'} (h : Twins (Mixed V) ts ts')
    (hd : Deep OneLine ts') : Deep OneLine ts := by
  induction h with
  | nil => exact .nil
  | @cons r a b x a' b' x' ch ch' ts ts' h1 h2 h3 ih1 ih2 =>
    cases hd with
    | cons d1 d2 d3 =>
      obtain ⟨U, X, Z, hv, rfl, rfl, rfl, rfl, rfl, rfl⟩ := h1
      refine .cons (fun hr => ?_) (fun hr => ih1 (d2 hr)) (ih2 d3)
      rw [← lo_same (by rw [hv, List.append_assoc] at hV; exact hV.right) (d1 hr)]
      exact d1 hr

/-- the texts of tokens are the texts at their positions -/
theorem mixed_slices {V : List Piece} {ts ts'} (h : Twins (Mixed V) ts ts') :
    Deep (fun _ a b x => SliceOf (lo V) ⟨a, b⟩ x) ts ∧
    Deep (fun _ a b x => SliceOf (hi V) ⟨a, b⟩ x) ts' := by
  induction h with
  | nil => exact ⟨.nil, .nil⟩
  | cons h1 h2 h3 ih1 ih2 =>
    obtain ⟨U, X, Z, hv, rfl, rfl, rfl, rfl, rfl, rfl⟩ := h1
    refine ⟨.cons ⟨lo U, lo Z, ?_, rfl, ?_⟩ (fun _ => ih1.1) ih2.1,
      .cons ⟨hi U, hi Z, ?_, rfl, ?_⟩ (fun _ => ih1.2) ih2.2⟩
    · rw [hv, lo_append, lo_append]
    · rw [lo_append, blen_append]
    · rw [hv, hi_append, hi_append]
    · rw [hi_append, blen_append]

/-- the two runs of the grammar -/
theorem mixed_parse {V : List Piece} (hV : Fit V) :
    (parse G.dockerfile false 0 (lo V) = none ∧ parse G.dockerfile false 0 (hi V) = none) ∨
    ∃ p s1 ts p' s1' ts', parse G.dockerfile false 0 (lo V) = some (p, s1, ts) ∧
      parse G.dockerfile false 0 (hi V) = some (p', s1', ts') ∧ Twins (Mixed V) ts ts' := by
  obtain ⟨o', h1, h2⟩ := mixed_sem hV (parse_sem safe_dockerfile false 0 (lo V)) [] V rfl rfl rfl false
    good_dockerfile (by simp)
  have e := (parse_eq_iff safe_dockerfile).2 h1
  cases hp : parse G.dockerfile false 0 (lo V) with
  | none => rw [hp] at h2; exact .inl ⟨rfl, by rw [← show o' = none from h2]; exact e⟩
  | some o =>
    obtain ⟨p, s1, ts⟩ := o
    rw [hp] at h2
    obtain ⟨U, S, ts', _, _, _, rfl, ht⟩ := h2
    exact .inr ⟨p, s1, ts, _, _, ts', rfl, e, ht⟩

end Verif
