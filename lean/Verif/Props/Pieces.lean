import Verif.Spec.Pieces
import Verif.Props.Resolve
import Verif.Props.Respell

/-!
# C95: dollar signs, and the parts of an image
-/

namespace Verif
open Spec

theorem Spec.Separate.tail {s t y : Str} (h : Separate (s ++ y) t) : Separate y t := by
  rcases h with h | h | ⟨u, c, h, h1⟩ | h
  · exact .inl (List.append_eq_nil_iff.1 h).2
  · exact .inr (.inl h)
  · cases y using snocInd with
    | nil => exact .inl rfl
    | snoc y x =>
      rw [← List.append_assoc] at h
      obtain ⟨-, e⟩ := List.append_inj' h rfl
      cases e
      exact .inr (.inr (.inl ⟨y, c, rfl, h1⟩))
  · exact .inr (.inr (.inr h))

/-- A reference at the front of `s ++ t` lies in `s`, if `s` is not empty. -/
theorem refAt_separate {s t n r : Str} (h : Separate s t) (hs : s ≠ []) :
    RefAt (s ++ t) n r ↔ ∃ r0, RefAt s n r0 ∧ r = r0 ++ t := by
  have last : ∀ {x : Str} {c : Char}, s = x ++ [c] → WordChar c ∨ c = '$' ∨ c = '{' →
      t = [] ∨ ∃ c v, t = c :: v ∧ ¬ WordChar c ∧ c ≠ '{' ∧ c ≠ '}' := by
    intro x c e hc
    rcases h with h | h | ⟨u, c', h, h1, h2, h3⟩ | h
    · exact absurd h hs
    · exact .inl h
    · rw [e] at h
      obtain ⟨-, e'⟩ := List.append_inj' h rfl
      cases e'
      rcases hc with hc | hc | hc
      · exact absurd hc h1
      · exact absurd hc h2
      · exact absurd hc h3
    · exact .inr h
  constructor
  · rintro ⟨h0, hw, ⟨e, hr⟩ | e⟩
    · cases s with
      | nil => exact absurd rfl hs
      | cons x s =>
        obtain ⟨rfl, e'⟩ := List.cons_eq_cons.1 e
        rcases List.append_eq_append_iff.1 e' with ⟨y, rfl, rfl⟩ | ⟨y, rfl, rfl⟩
        · cases y with
          | nil =>
            rw [List.append_nil] at *
            exact ⟨[], ⟨h0, hw, .inl ⟨by rw [List.append_nil], fun _ _ e => by cases e⟩⟩, rfl⟩
          | cons y ys =>
            exfalso
            have hy : WordChar y := hw y (by simp)
            have : ∃ x c, '$' :: s = x ++ [c] ∧ (WordChar c ∨ c = '$' ∨ c = '{') := by
              cases s using snocInd with
              | nil => exact ⟨[], '$', rfl, .inr (.inl rfl)⟩
              | snoc s z => exact ⟨'$' :: s, z, rfl, .inl (hw z (by simp))⟩
            obtain ⟨x, c, e1, e2⟩ := this
            rcases last e1 e2 with h1 | ⟨c, v, h1, h2, -⟩
            · cases h1
            · cases h1
              exact h2 hy
        · refine ⟨y, ⟨h0, hw, .inl ⟨rfl, fun c cs e => ?_⟩⟩, rfl⟩
          subst e
          exact hr c _ rfl
    · cases s with
      | nil => exact absurd rfl hs
      | cons x s =>
        obtain ⟨rfl, e'⟩ := List.cons_eq_cons.1 e
        have e2 : s ++ t = ('{' :: (n ++ ['}'])) ++ r := Eq.trans e' (by simp)
        rcases List.append_eq_append_iff.1 e2 with ⟨y, e1, rfl⟩ | ⟨y, rfl, rfl⟩
        · cases y with
          | nil =>
            rw [List.append_nil] at e1
            subst e1
            exact ⟨[], ⟨h0, hw, .inr (by simp)⟩, rfl⟩
          | cons y ys =>
            exfalso
            have hy : WordChar y ∨ y = '{' ∨ y = '}' := by
              have : y ∈ '{' :: (n ++ ['}']) := by rw [e1]; simp
              simp only [List.mem_cons, List.mem_append, List.not_mem_nil, or_false] at this
              rcases this with h | h | h
              · exact .inr (.inl h)
              · exact .inl (hw y h)
              · exact .inr (.inr h)
            have : ∃ x c, '$' :: s = x ++ [c] ∧ (WordChar c ∨ c = '$' ∨ c = '{') := by
              cases s using snocInd with
              | nil => exact ⟨[], '$', rfl, .inr (.inl rfl)⟩
              | snoc s z =>
                refine ⟨'$' :: s, z, rfl, ?_⟩
                have e2 : ('{' :: n) ++ ['}'] = s ++ (z :: y :: ys) := by simpa using e1
                have e3 : z ∈ '{' :: n := by
                  rcases List.append_eq_append_iff.1 e2 with ⟨w, e4, e5⟩ | ⟨w, e4, e5⟩
                  · have := congrArg List.length e5
                    simp at this
                    omega
                  · cases w with
                    | nil =>
                      have := congrArg List.length e5
                      simp at this
                    | cons w ws =>
                      obtain ⟨rfl, -⟩ := List.cons_eq_cons.1 e5
                      rw [e4]
                      simp
                rcases List.mem_cons.1 e3 with h | h
                · exact .inr (.inr h)
                · exact .inl (hw z h)
            obtain ⟨x, c, e1, e2⟩ := this
            rcases last e1 e2 with h1 | ⟨c, v, h1, h2, h3, h4⟩
            · cases h1
            · cases h1
              rcases hy with h | h | h
              · exact h2 h
              · exact h3 h
              · exact h4 h
        · exact ⟨y, ⟨h0, hw, .inr (by simp)⟩, rfl⟩
  · rintro ⟨r0, ⟨h0, hw, ⟨rfl, hr⟩ | rfl⟩, rfl⟩
    · refine ⟨h0, hw, .inl ⟨by simp, fun c cs e => ?_⟩⟩
      cases r0 with
      | cons x xs =>
        obtain ⟨rfl, -⟩ := List.cons_eq_cons.1 e
        exact hr _ _ rfl
      | nil =>
        cases n using snocInd with
        | nil => exact absurd rfl h0
        | snoc n z =>
          rcases last (x := '$' :: n) (c := z) (by simp) (.inl (hw z (by simp))) with h1 | ⟨c', v, h1, h2, -⟩
          · rw [h1] at e
            cases e
          · rw [h1] at e
            cases e
            exact h2
    · exact ⟨h0, hw, .inr (by simp)⟩

/-- C95 (pieces): if no reference lies across the place, the pieces are expanded separately. -/
theorem C95_pieces {vars : VarMap} {d : Nat} {s t : Str} (h : Separate s t) (u : Str) :
    Expands vars d (s ++ t) u ↔ ∃ a b, Expands vars d s a ∧ Expands vars d t b ∧ u = a ++ b := by
  induction hl : s.length using Nat.strongRecOn generalizing s u with
  | _ k ih =>
    cases s with
    | nil =>
      rw [List.nil_append]
      constructor
      · exact fun hu => ⟨[], u, .nil _, hu, rfl⟩
      · rintro ⟨a, b, h1, h2, rfl⟩
        rw [expands_nil_iff] at h1
        subst h1
        exact h2
    | cons c cs =>
      rcases ref_cases c cs with ⟨n, r, h1, -⟩ | ⟨h1, -⟩
      · have h2 := (refAt_separate (r := r ++ t) h (by simp)).2 ⟨r, h1, rfl⟩
        obtain ⟨src, -, e⟩ := h1.split
        have hr : Separate r t := by rw [e] at h; exact h.tail
        simp only [expands_ref_iff h1, expands_ref_iff h2, ih _ (by rw [← hl]; exact h1.length_lt) hr _ rfl]
        constructor
        · rintro ⟨d', v, e, w, rfl, hv, he, ⟨a, b, ha, hb, rfl⟩, rfl⟩
          exact ⟨_, b, ⟨d', v, e, a, rfl, hv, he, ha, rfl⟩, hb, by simp⟩
        · rintro ⟨_, b, ⟨d', v, e, a, rfl, hv, he, ha, rfl⟩, hb, rfl⟩
          exact ⟨d', v, e, _, rfl, hv, he, ⟨a, b, ha, hb, rfl⟩, by simp⟩
      · have h2 : ∀ n r, ¬ RefAt (c :: (cs ++ t)) n r := fun n r hr => by
          obtain ⟨r0, h3, -⟩ := (refAt_separate h (by simp)).1 hr
          exact h1 _ _ h3
        have hr : Separate cs t := Separate.tail (s := [c]) h
        rw [List.cons_append]
        simp only [expands_lit_iff h1, expands_lit_iff h2, ih _ (by rw [← hl]; simp) hr _ rfl]
        constructor
        · rintro ⟨_, ⟨a, b, ha, hb, rfl⟩, rfl⟩
          exact ⟨_, b, ⟨a, ha, rfl⟩, hb, rfl⟩
        · rintro ⟨_, b, ⟨a, ha, rfl⟩, hb, rfl⟩
          exact ⟨_, ⟨a, b, ha, hb, rfl⟩, rfl⟩

/-- C95 (pieces): and the references are those of the pieces. -/
theorem C95_references {s t : Str} (h : Separate s t) (n : Str) :
    References (s ++ t) n ↔ References s n ∨ References t n := by
  induction hl : s.length using Nat.strongRecOn generalizing s with
  | _ k ih =>
    cases s with
    | nil => simp [references_nil]
    | cons c cs =>
      rcases ref_cases c cs with ⟨m, r, h1, -⟩ | ⟨h1, -⟩
      · have h2 := (refAt_separate (r := r ++ t) h (by simp)).2 ⟨r, h1, rfl⟩
        obtain ⟨src, -, e⟩ := h1.split
        have hr : Separate r t := by rw [e] at h; exact h.tail
        rw [references_ref_iff h1, references_ref_iff h2, ih _ (by rw [← hl]; exact h1.length_lt) hr rfl, or_assoc]
      · have h2 : ∀ n r, ¬ RefAt (c :: (cs ++ t)) n r := fun n r hr => by
          obtain ⟨r0, h3, -⟩ := (refAt_separate h (by simp)).1 hr
          exact h1 _ _ h3
        rw [List.cons_append, references_lit_iff h1, references_lit_iff h2,
          ih _ (by rw [← hl]; simp) (Separate.tail (s := [c]) h) rfl]

/-- a character other than the dollar sign is never the start of a reference -/
theorem noRef_char {c : Char} {s : Str} (h : c ≠ '$') : ∀ n r, ¬ RefAt (c :: s) n r := by
  rintro n r ⟨-, -, ⟨e, -⟩ | e⟩ <;> exact h (List.cons_eq_cons.1 e).1

/-- C95 (escapes): nothing in front of a reference protects it, no backslash and no other dollar sign. -/
theorem C95_escape {vars : VarMap} {d : Nat} {c : Char} {s : Str} (h : c ≠ '$' ∨ ∃ r, s = '$' :: r) (u : Str) :
    Expands vars d (c :: s) u ↔ ∃ t, Expands vars d s t ∧ u = c :: t := by
  apply expands_lit_iff
  rcases h with h | ⟨r, rfl⟩
  · exact noRef_char h
  · rintro n r' ⟨h0, hw, ⟨e, -⟩ | e⟩
    · obtain ⟨-, e⟩ := List.cons_eq_cons.1 e
      cases n with
      | nil => exact h0 rfl
      | cons x n =>
        obtain ⟨rfl, -⟩ := List.cons_eq_cons.1 e
        exact word_noDollar (hw _ List.mem_cons_self) rfl
    · obtain ⟨-, e⟩ := List.cons_eq_cons.1 e
      exact absurd (List.cons_eq_cons.1 e).1 (by decide)

/-- C95 (defaults): a dollar sign, a brace and a name are no reference if no closing brace follows, as in
`${name:-default}`; the text stays as it is, and what comes after the name is expanded. -/
theorem C95_default {vars : VarMap} {d : Nat} {n s : Str} (hn : ∀ c ∈ n, WordChar c)
    (hs : ∀ c r, s = c :: r → ¬ WordChar c ∧ c ≠ '}') (u : Str) :
    (Expands vars d ('$' :: '{' :: (n ++ s)) u ↔ ∃ t, Expands vars d s t ∧ u = '$' :: '{' :: (n ++ t)) ∧
    ∀ m, References ('$' :: '{' :: (n ++ s)) m ↔ References s m := by
  have h1 : ∀ m r, ¬ RefAt ('$' :: '{' :: (n ++ s)) m r := by
    rintro m r ⟨h0, hw, ⟨e, -⟩ | e⟩
    · obtain ⟨-, e⟩ := List.cons_eq_cons.1 e
      cases m with
      | nil => exact h0 rfl
      | cons x m =>
        obtain ⟨rfl, -⟩ := List.cons_eq_cons.1 e
        exact not_word_brace (hw _ List.mem_cons_self)
    · obtain ⟨-, e⟩ := List.cons_eq_cons.1 e
      obtain ⟨-, e⟩ := List.cons_eq_cons.1 e
      have e1 := spanWord_unique n s hn fun c cs e => (hs c cs e).1
      have e2 := spanWord_unique m ('}' :: r) hw fun c cs e => by
        cases e
        exact not_word_close
      rw [e, e2] at e1
      cases e1
      exact (hs _ _ rfl).2 rfl
  have h2 := noRef_char (c := '{') (s := n ++ s) (by decide)
  have h3 : ∀ (n : Str), (∀ c ∈ n, WordChar c) → ∀ u,
      (Expands vars d (n ++ s) u ↔ ∃ t, Expands vars d s t ∧ u = n ++ t) ∧ ∀ m, References (n ++ s) m ↔ References s m := by
    intro n
    induction n with
    | nil => intro _ u; simp
    | cons c n ih =>
      intro hw u
      have h4 := noRef_char (s := n ++ s) (word_noDollar (hw c List.mem_cons_self))
      have ih := ih fun x hx => hw x (List.mem_cons_of_mem _ hx)
      rw [List.cons_append]
      refine ⟨?_, fun m => by rw [references_lit_iff h4, (ih []).2]⟩
      rw [expands_lit_iff h4]
      constructor
      · rintro ⟨t, ht, rfl⟩
        obtain ⟨t', ht', rfl⟩ := ((ih t).1).1 ht
        exact ⟨t', ht', rfl⟩
      · rintro ⟨t, ht, rfl⟩
        exact ⟨_, ((ih _).1).2 ⟨t, ht, rfl⟩, rfl⟩
  have h3 := h3 n hn
  refine ⟨?_, fun m => by rw [references_lit_iff h1, references_lit_iff h2, (h3 []).2]⟩
  rw [expands_lit_iff h1]
  constructor
  · rintro ⟨t, ht, rfl⟩
    obtain ⟨t1, ht1, rfl⟩ := (expands_lit_iff h2 t).1 ht
    obtain ⟨t2, ht2, rfl⟩ := ((h3 t1).1).1 ht1
    exact ⟨t2, ht2, rfl⟩
  · rintro ⟨t, ht, rfl⟩
    exact ⟨_, (expands_lit_iff h2 _).2 ⟨_, ((h3 _).1).2 ⟨t, ht, rfl⟩, rfl⟩, rfl⟩

/-- a separator is between the pieces -/
theorem expands_sep {vars : VarMap} {d : Nat} {s t : Str} {c : Char} (hc : ¬ WordChar c ∧ c ≠ '{' ∧ c ≠ '}' ∧ c ≠ '$')
    (u : Str) : Expands vars d (s ++ c :: t) u ↔ ∃ a b, Expands vars d s a ∧ Expands vars d t b ∧ u = a ++ c :: b := by
  rw [C95_pieces (.inr (.inr (.inr ⟨c, t, rfl, hc.1, hc.2.1, hc.2.2.1⟩)))]
  constructor
  · rintro ⟨a, b, h1, h2, rfl⟩
    obtain ⟨b', h3, rfl⟩ := (expands_lit_iff (noRef_char hc.2.2.2) _).1 h2
    exact ⟨a, b', h1, h3, rfl⟩
  · rintro ⟨a, b, h1, h2, rfl⟩
    exact ⟨a, _, h1, (expands_lit_iff (noRef_char hc.2.2.2) _).2 ⟨b, h2, rfl⟩, rfl⟩

theorem not_word_slash : ¬ WordChar '/' := by rw [← isWordChar_iff]; decide
theorem not_word_colon : ¬ WordChar ':' := by rw [← isWordChar_iff]; decide
theorem not_word_at : ¬ WordChar '@' := by rw [← isWordChar_iff]; decide

theorem expands_body {vars : VarMap} {d : Nat} {i : Str} {t h : Option Str} (hx : t = none ∨ h = none) (u : Str) :
    Expands vars d (i ++ suffixText t h) u ↔ ∃ i' t' h', Expands vars d i i' ∧ ExpandsOpt vars d t t' ∧
      ExpandsOpt vars d h h' ∧ u = i' ++ suffixText t' h' := by
  cases t with
  | some t =>
    obtain rfl : h = none := by simpa using hx
    rw [suffixText, expands_sep ⟨not_word_colon, by decide, by decide, by decide⟩]
    constructor
    · rintro ⟨a, b, h1, h2, rfl⟩
      exact ⟨a, some b, none, h1, h2, trivial, rfl⟩
    · rintro ⟨a, _ | b, _ | h', h1, h2, h3, rfl⟩
      · exact absurd h2 id
      · exact absurd h2 id
      · exact ⟨a, b, h1, h2, rfl⟩
      · exact absurd h3 id
  | none =>
    cases h with
    | some h =>
      rw [suffixText, expands_sep ⟨not_word_at, by decide, by decide, by decide⟩]
      constructor
      · rintro ⟨a, b, h1, h2, rfl⟩
        exact ⟨a, none, some b, h1, trivial, h2, rfl⟩
      · rintro ⟨a, _ | b, _ | h', h1, h2, h3, rfl⟩
        · exact absurd h3 id
        · exact ⟨a, h', h1, h3, rfl⟩
        · exact absurd h2 id
        · exact absurd h2 id
    | none =>
      rw [suffixText, List.append_nil]
      constructor
      · exact fun h1 => ⟨u, none, none, h1, trivial, trivial, by simp [suffixText]⟩
      · rintro ⟨a, _ | b, _ | h', h1, h2, h3, rfl⟩
        · rwa [suffixText, List.append_nil]
        · exact absurd h3 id
        · exact absurd h2 id
        · exact absurd h2 id

theorem display_parts (r : ImageRef) : r.display =
    (match r.registry with | some h => h ++ '/' :: (r.image ++ suffixText r.tag r.hash) | none => r.image ++ suffixText r.tag r.hash) := by
  obtain ⟨_ | _, i, _ | _, _ | _⟩ := r <;> simp [ImageRef.display, suffixText]

/-- C95 (parts): the parts of an image are expanded separately: the text of the resolved image is that of the
expanded parts, and there is none exactly if one of the parts cannot be expanded. -/
theorem C95_parts {vars : VarMap} {d : Nat} {r : ImageRef} (hx : r.tag = none ∨ r.hash = none) (u : Str) :
    Expands vars d r.display u ↔ ∃ p, ExpandsParts vars d r p ∧ u = p.display := by
  obtain ⟨reg, i, t, h⟩ := r
  rw [display_parts]
  cases reg with
  | none =>
    rw [expands_body hx]
    constructor
    · rintro ⟨i', t', h', h1, h2, h3, rfl⟩
      exact ⟨⟨none, i', t', h'⟩, ⟨trivial, h1, h2, h3⟩, by rw [display_parts]⟩
    · rintro ⟨⟨_ | reg', i', t', h'⟩, ⟨h0, h1, h2, h3⟩, rfl⟩
      · exact ⟨i', t', h', h1, h2, h3, by rw [display_parts]⟩
      · exact absurd h0 id
  | some reg =>
    simp only
    rw [expands_sep ⟨not_word_slash, by decide, by decide, by decide⟩]
    constructor
    · rintro ⟨a, b, h0, hb, rfl⟩
      obtain ⟨i', t', h', h1, h2, h3, rfl⟩ := (expands_body hx b).1 hb
      exact ⟨⟨some a, i', t', h'⟩, ⟨h0, h1, h2, h3⟩, by rw [display_parts]⟩
    · rintro ⟨⟨_ | a, i', t', h'⟩, ⟨h0, h1, h2, h3⟩, rfl⟩
      · exact absurd h0 id
      · exact ⟨a, _, h0, (expands_body hx _).2 ⟨i', t', h', h1, h2, h3, rfl⟩, by rw [display_parts]⟩

/-- C95 (images): An image of a document resolves exactly if its parts can be expanded, and the result is the image with
the expanded parts, if these are the parts of an image (no new separators; see C20). -/
theorem C95_image (s : Str) (d : Dockerfile) :
    ((ImageRef.parse s).resolveVars d = some none ↔
      ¬ ∃ p, ExpandsParts (argVars d.global_args) 16 (ImageRef.parse s) p) ∧
    ∀ p, ExpandsParts (argVars d.global_args) 16 (ImageRef.parse s) p →
      (ImageRef.parse s).resolveVars d = some (some (ImageRef.parse p.display)) ∧
      ((ImageRef.parse s).resolveVars d = some (some p) ↔ WellFormed p) := by
  have hx := (C20_parse_wellFormed s).exclusive
  obtain ⟨o, h1, h2⟩ := C30_resolve_vars (ImageRef.parse s) d
  have h3 : ∀ p, ExpandsParts (argVars d.global_args) 16 (ImageRef.parse s) p →
      o = some (ImageRef.parse p.display) := fun p hp => (h2 _).2 ⟨_, (C95_parts hx _).2 ⟨p, hp, rfl⟩, rfl⟩
  rw [h1]
  refine ⟨⟨?_, ?_⟩, fun p hp => ⟨by rw [h3 p hp], ?_⟩⟩
  · rintro h ⟨p, hp⟩
    rw [h3 p hp] at h
    cases h
  · intro h
    cases o with
    | none => rfl
    | some r' =>
      obtain ⟨t, ht, -⟩ := (h2 r').1 rfl
      obtain ⟨p, hp, -⟩ := (C95_parts hx _).1 ht
      exact absurd ⟨p, hp⟩ h
  · rw [h3 p hp, ← C20_iff]
    exact ⟨fun h => Option.some.inj (Option.some.inj h), fun h => by rw [h]⟩

/-! ## examples -/

/- The places between the parts of an image, and after a closing brace, are such places. -/
example : Separate c!"a$b" c!":$c" ∧ Separate c!"${b}" c!"c" :=
  ⟨.inr (.inr (.inr ⟨':', c!"$c", rfl, not_word_colon, by decide, by decide⟩)),
   .inr (.inr (.inl ⟨c!"${b", '}', rfl, not_word_close, by decide, by decide⟩))⟩

/- Between `$b` and `c` there is none: the two pieces refer to `b` and to nothing, the whole to `bc`. -/
example : ¬ (References (c!"$b" ++ c!"c") c!"b" ↔ References c!"$b" c!"b" ∨ References c!"c" c!"b") := by
  have h1 : RefAt c!"$bc" c!"bc" [] := (matchVar_iff _ _ _).1 (by decide)
  have h2 : RefAt c!"$b" c!"b" [] := (matchVar_iff _ _ _).1 (by decide)
  intro h
  have := h.2 (.inl (.here _ _ _ h2))
  rcases (references_ref_iff h1 _).1 this with h | h
  · exact absurd h (by decide)
  · exact references_nil _ h

def resolvedTo (s : Str) : Option (List (Option (Option ImageRef))) :=
  (Dockerfile.parse Enquote.unquote s).toOption.map fun d => d.instructions.filterMap fun
    | .from f => some (f.image_parsed.resolveVars d)
    | _ => none

theorem expands_of {vars : VarMap} {d : Nat} {s t : Str} {used : List Str} (h : substitute vars d s [] = some (some t, used)) :
    Expands vars d s t := by
  obtain ⟨r, used', h1, h2⟩ := C27_substitute_is_expansion vars d s []
  rw [h] at h1
  cases h1
  exact (h2 t).1 rfl

/- The hypothesis of `C95_image`, for an image with all kinds of references. -/
example : ExpandsParts (argVars [⟨⟨0, 7⟩, ⟨⟨4, 5⟩, c!"r"⟩, some ⟨⟨6, 7⟩, c!"h"⟩⟩, ⟨⟨8, 16⟩, ⟨⟨12, 13⟩, c!"t"⟩, some ⟨⟨14, 16⟩, c!"1$r"⟩⟩])
    16 (ImageRef.parse c!"${r}.io/a/$t:v$t") ⟨some c!"h.io", c!"a/1h", some c!"v1h", none⟩ :=
  ⟨expands_of (used := [c!"r"]) (by decide +kernel), expands_of (used := [c!"r", c!"t"]) (by decide +kernel),
   expands_of (used := [c!"r", c!"t"]) (by decide +kernel), trivial⟩

/- The parts are expanded separately; new separators make other parts. -/
example : resolvedTo c!"ARG r=h\nARG t=1\nARG u=b:2\nFROM ${r}.io/a/$t:v$t\nFROM a/$u\nFROM a:$x\n" =
    some [some (some ⟨some c!"h.io", c!"a/1", some c!"v1", none⟩), some (some ⟨none, c!"a/b", some c!"2", none⟩),
      some none] := by decide +kernel

/-- C95 (defaults, images): An image with a default for its tag, which docker supports, is not resolved: whether the
variable is defined or not, it stays as it is. -/
theorem C95_default_tag {i n w : Str} (hi : '$' ∉ i) (hn : ∀ c ∈ n, WordChar c) (hw : '$' ∉ w) (d : Dockerfile) :
    (ImageRef.parse (i ++ c!":${" ++ n ++ c!":-" ++ w ++ c!"}")).resolveVars d =
      some (some (ImageRef.parse (i ++ c!":${" ++ n ++ c!":-" ++ w ++ c!"}"))) := by
  apply C30_no_refs
  intro m hm
  have e : i ++ c!":${" ++ n ++ c!":-" ++ w ++ c!"}" = i ++ ':' :: ('$' :: '{' :: (n ++ (':' :: '-' :: (w ++ ['}'])))) := by
    simp
  rw [e, C95_references (.inr (.inr (.inr ⟨':', _, rfl, not_word_colon, by decide, by decide⟩))),
    references_lit_iff (noRef_char (by decide)),
    (C95_default (vars := fun _ => none) (d := 0) hn (by intro c r h; cases h; exact ⟨not_word_colon, by decide⟩) []).2] at hm
  rcases hm with hm | hm
  · exact noDollar_noRef hi _ hm
  · exact noDollar_noRef (by simp [hw]) _ hm

example : resolvedTo c!"ARG tag=1\nARG x=\\$tag\nFROM alpine:${tag:-3.12}\nFROM alpine:$$tag\nFROM $x" =
    some [some (some ⟨none, c!"alpine", some c!"${tag:-3.12}", none⟩), some (some ⟨none, c!"alpine", some c!"$1", none⟩),
      some (some ⟨none, c!"\\1", none, none⟩)] := by decide +kernel

end Verif
