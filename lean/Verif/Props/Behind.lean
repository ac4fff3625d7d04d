import Verif.Spec.Behind
import Verif.Props.Probes

/-! # C110: two lines decide whether a text can be put behind all lines -/

namespace Verif
open Spec

theorem body_drop {q : Char} {s : Str} (h : QuotedBody q s) :
    ∀ {u v : Str}, s = u ++ v → u.getLast? ≠ some '\\' → QuotedBody q v := by
  have last : ∀ {c : Char} {u : Str}, (c :: u).getLast? ≠ some '\\' → u.getLast? ≠ some '\\' := by
    intro c u h
    cases u with
    | nil => simp
    | cons d u => rwa [List.getLast?_cons_cons] at h
  induction h with
  | nil =>
    intro u v e _
    cases u with
    | nil => have e : [] = v := e; exact e ▸ .nil
    | cons => cases e
  | chr h1 h2 h3 h4 h5 ih =>
    intro u v e hu
    cases u with
    | nil => have e : _ = v := e; exact e ▸ .chr h1 h2 h3 h4 h5
    | cons c u =>
      obtain ⟨rfl, e1⟩ := List.cons.inj e
      exact ih e1 (last hu)
  | escaped h1 h2 ih =>
    intro u v e hu
    cases u with
    | nil => have e : _ = v := e; exact e ▸ .escaped h1 h2
    | cons c u =>
      obtain ⟨rfl, e1⟩ := List.cons.inj e
      cases u with
      | nil => exact absurd rfl hu
      | cons c' u =>
        have e2 : _ :: _ = c' :: (u ++ v) := e1
        obtain ⟨g1, g2⟩ := List.cons.inj e2
        subst g1
        exact ih g2 (last (last hu))
  | backslash h1 h2 h3 h4 ih =>
    intro u v e hu
    cases u with
    | nil => have e : _ = v := e; exact e ▸ .backslash h1 h2 h3 h4
    | cons c u =>
      obtain ⟨rfl, e1⟩ := List.cons.inj e
      exact ih e1 (last hu)

/-- a quoted text either ends in front of `b`, or `b` closes it -/
theorem quotedText_closes {v r x b : Str} (h : QuotedText v) (e : v ++ r = x ++ b) (hx : Src.BreakEnd x) :
    (∃ y, x = v ++ y ∧ r = y ++ b ∧ Src.BreakEnd y) ∨ ClosesQuotes b := by
  rcases Src.quotedText_cross h e hx with h1 | -
  · exact .inl h1
  obtain ⟨q, u, rfl, hq, hu⟩ := h
  have hlast : x.getLast? ≠ some '\\' := by
    obtain ⟨a, c, rfl, rfl | rfl⟩ := hx <;> simp
  cases x with
  | nil => exact absurd rfl hx.ne
  | cons c x =>
    have e0 : q :: (u ++ (q :: r)) = c :: (x ++ b) := by simpa using e
    obtain ⟨rfl, e'⟩ := List.cons.inj e0
    have hx' : x.getLast? ≠ some '\\' := by
      cases x with
      | nil => simp
      | cons d x => rwa [List.getLast?_cons_cons] at hlast
    rcases List.append_eq_append_iff.1 e' with ⟨w, e1, e2⟩ | ⟨w, e1, e2⟩
    · cases w with
      | nil =>
        have e1 : x = u := by simpa using e1
        have e2 : q :: r = b := by simpa using e2
        subst e1 e2
        exact .inr ⟨q, [], r, rfl, hq, .nil⟩
      | cons d w =>
        obtain ⟨rfl, e2'⟩ := List.cons.inj e2
        refine .inl ⟨w, by simp [e1], e2', ?_⟩
        have hw : w ≠ [] := by
          rintro rfl
          obtain ⟨a, c, e3, hc⟩ := hx
          have : (q :: x).getLast? = some c := by rw [e3]; simp
          rw [e1, ← List.cons_append, List.getLast?_concat] at this
          cases this
          rcases hq with rfl | rfl <;> exact absurd hc (by decide)
        exact Src.BreakEnd.right (a := q :: (u ++ [q])) (by simpa [e1] using hx) hw
    · exact .inr ⟨q, w, r, e2, hq, body_drop hu e1 hx'⟩

namespace Src

section
variable {b : Str} (sw : Swap true b [] [])
include sw

theorem elems_closes {T : Str} (es : List Elem) : ∀ {x : Str}, ElemsFit es T → elemsText es ++ T = x ++ b → Seam x b [] →
    (∃ y, x = elemsText es ++ y ∧ T = y ++ b ∧ Seam y b [] ∧ ElemsFit es y) ∨
    (∃ es', elemsText es' ++ T = x ∧ ElemsFit es' T) ∨ ClosesQuotes b := by
  induction es with
  | nil => intro x _ e hx; exact .inl ⟨x, rfl, e, hx, trivial⟩
  | cons el es ih =>
    obtain ⟨g1, g2, v⟩ := el
    intro x h e hx
    obtain ⟨⟨h1, h2, h3⟩, h4⟩ := h
    simp only at h1 h2 h3
    have comma : ∀ {t : Str}, ¬ (true = true ∧ Bare (',' :: t)) := not_bare_char (by unfold IsAlpha; decide) (by decide)
    have e : g1 ++ ',' :: (g2 ++ (v ++ (elemsText es ++ T))) = x ++ b := by
      simpa [elemsText, Elem.text] using e
    rcases space_cross sw h1 comma e hx with ⟨y, rfl, e1, hy, s1⟩ | ⟨g', e1, s1⟩
    · obtain ⟨y1, rfl, e2, hy1⟩ := hy.char e1 (by decide)
      rcases space_cross sw h2 (not_bare_quoted h3) e2 hy1 with ⟨y2, rfl, e3, hy2, s2⟩ | ⟨g', e3, s2⟩
      · rcases quotedText_closes h3 e3 hy2.brk with ⟨y3, rfl, e4, hy3⟩ | h5
        · rcases ih h4 e4 (hy2.right hy3.ne) with ⟨y4, rfl, e5, h5, h6⟩ | ⟨es', e5, h5⟩ | h5
          · refine .inl ⟨y4, by simp [elemsText, Elem.text], e5, h5, ⟨?_, ?_, h3⟩, h6⟩
            · simpa using s1
            · simpa using s2
          · refine .inr (.inl ⟨⟨g1, g2, v⟩ :: es', by rw [← e5]; simp [elemsText, Elem.text], ⟨?_, ?_, h3⟩, h5⟩)
            · simpa [← e5] using s1
            · simpa [← e5] using s2
          · exact .inr (.inr h5)
        · exact .inr (.inr h5)
      · subst e3
        exact .inr (.inl ⟨⟨g1, g', v⟩ :: es, by simp [elemsText, Elem.text], ⟨by simpa using s1, s2, h3⟩, h4⟩)
    · subst e1
      exact .inr (.inl ⟨⟨g', g2, v⟩ :: es, by simp [elemsText, Elem.text], ⟨s1, h2, h3⟩, h4⟩)

/-- an array that ends behind `x` has a string that `b` closes -/
theorem array_closes {x : Str} (hx : Seam x b []) (hn : ¬ BeginsArray x) (h : BeginsArray (x ++ b)) : ClosesQuotes b := by
  obtain ⟨a, r, e, ha⟩ := h
  have close : ∀ {t : Str}, ¬ (true = true ∧ Bare (']' :: t)) := not_bare_char (by unfold IsAlpha; decide) (by decide)
  cases a with
  | empty g =>
    exfalso
    obtain ⟨y, rfl, e1, hy⟩ := hx.char (c := '[') (b := g ++ ']' :: r) (by simpa [Array.text] using e.symm) (by decide)
    rcases space_cross sw ha close e1 hy with ⟨y', rfl, e2, hy', s⟩ | ⟨g', e2, s⟩
    · obtain ⟨y'', rfl, -, -⟩ := hy'.char e2 (by decide)
      exact hn ⟨.empty g, y'', by simp [Array.text], s⟩
    · exact hn ⟨.empty g', r, by simpa [Array.text] using e2.symm, s⟩
  | full g v es c g' =>
    obtain ⟨h1, h2, h3, h4⟩ := ha
    obtain ⟨y, rfl, e1, hy⟩ := hx.char (c := '[') (b := g ++ (v ++ (elemsText es ++ (Array.tail c g' ++ r))))
      (by simpa [Array.text] using e.symm) (by decide)
    rcases space_cross sw h1 (not_bare_quoted h2) e1 hy with ⟨y1, rfl, e2, hy1, s1⟩ | ⟨g1, e2, s1⟩
    · rcases quotedText_closes h2 e2 hy1.brk with ⟨y2, rfl, e3, hy2⟩ | h5
      · rcases elems_closes sw es h3 e3 (hy1.right hy2.ne) with ⟨y3, rfl, e4, hy3, h5⟩ | ⟨es', e4, h5⟩ | h5
        · exfalso
          obtain ⟨y4, rfl, e5, hy4⟩ : ∃ y4, y3 = (if c then [','] else []) ++ y4 ∧ g' ++ ']' :: r = y4 ++ b ∧ Seam y4 b [] := by
            cases c with
            | false => exact ⟨y3, rfl, by simpa [Array.tail] using e4, hy3⟩
            | true =>
              obtain ⟨y4, rfl, e5, h6⟩ := hy3.char (c := ',') (b := g' ++ ']' :: r) (by simpa [Array.tail] using e4) (by decide)
              exact ⟨y4, by simp, e5, h6⟩
          rcases space_cross sw h4 close e5 hy4 with ⟨y5, rfl, e6, hy5, s2⟩ | ⟨g2, e6, s2⟩
          · obtain ⟨y6, rfl, -, -⟩ := hy5.char e6 (by decide)
            exact hn ⟨.full g v es c g', y6, by simp [Array.text, Array.tail],
              by simpa [Array.tail] using s1, h2, by simpa [Array.tail] using h5, s2⟩
          · subst e6
            exact hn ⟨.full g v es c g2, r, by simp [Array.text, Array.tail],
              by simpa [Array.tail] using s1, h2, by simpa [Array.tail] using h5, s2⟩
        · exact absurd ⟨.full g v es' c g', r, by simp [Array.text, ← e4], by simpa [← e4] using s1, h2, h5, h4⟩ hn
        · exact h5
      · exact h5
    · exact absurd ⟨.full g1 v es c g', r, by simpa [Array.text] using e2.symm, s1, h2, h3, h4⟩ hn

end
end Src

theorem quoted_closes {x b : Str} (hx : Src.BreakEnd x) (hn : ¬ BeginsQuoted x) (h : BeginsQuoted (x ++ b)) : ClosesQuotes b := by
  obtain ⟨v, r, e, hv⟩ := h
  rcases quotedText_closes hv e.symm hx with ⟨y, rfl, -, -⟩ | h
  · exact absurd ⟨v, y, rfl, hv⟩ hn
  · exact h

theorem opener_parse (unq : Unquote) {q : Char} (hq : q = '"' ∨ q = '\'') :
    Dockerfile.parse unq (opener q) = .ok (documentOf (opener q) (openerIs q)) := by
  rcases hq with rfl | rfl <;> rfl

theorem spot_seam {unq : Unquote} {a z : Str} {d : Dockerfile} (h : Dockerfile.parse unq a = .ok d) (ha : LineStart a z)
    (hl : ∀ i ∈ d.instructions, i.span.stop < blen a) {i : Instruction} {p : Nat} (hi : i ∈ d.instructions)
    (hp : ∃ sp ∈ spansOf i, sp.start = p) {x y : Str} (e : a = x ++ y) (ex : blen x = p) : Src.Seam y z [] := by
  obtain ⟨sp, hsp, rfl⟩ := hp
  have h1 := C04_span_bounds unq a d h i hi sp hsp
  have h2 := (C06_fields_within unq a d h i hi sp hsp).2
  have h3 := hl i hi
  have hy : y ≠ [] := by
    rintro rfl
    rw [e, List.append_nil] at h3
    omega
  have hb : Src.BreakEnd a := by
    rcases ha with ha | ⟨s, n, rfl, hn⟩
    · exact absurd (List.append_eq_nil_iff.1 (e.symm.trans ha)).2 hy
    · exact (Src.break_end hn).pre _
  rw [e] at hb
  exact ⟨hb.right hy, fun u eu => lineStart_noCR ha (x ++ u) (by rw [e, eu]; simp), fun _ _ _ e => by cases e⟩

/-- what does not close quotes closes nothing but the arguments of keywords -/
theorem undisturbed_behind {unq : Unquote} {a z : Str} {d d' : Dockerfile} (h : Dockerfile.parse unq a = .ok d) (ha : LineStart a z)
    (hl : ∀ i ∈ d.instructions, i.span.stop < blen a)
    (hk : ∀ i ∈ d.instructions, ∀ k ∈ wordSpots i, IsKeyword k.1 → StaysFalse (Src.Begins (lower k.1)) a z k.2)
    (hz : Dockerfile.parse unq z = .ok d') (hc : ¬ ClosesQuotes z) : Undisturbed a z d := by
  intro i hi
  refine ⟨?_, ?_, hk i hi⟩
  · intro p hp x y e ex hn hb
    exact hc (quoted_closes (spot_seam h ha hl hi (quoteSpots_span hp) e ex).brk hn hb)
  · intro p hp x y e ex hn hb
    have sw : Src.Swap true z [] [] := Src.lines_swap (unq := unq) (by rw [List.append_nil]; exact hz) (parse_nothing unq)
    exact hc (Src.array_closes sw (spot_seam h ha hl hi (arraySpots_span hp) e ex) hn hb)

theorem opener_disturbed {q : Char} {z : Str} (hq : q = '"' ∨ q = '\'') (h : ∃ v r, z = v ++ q :: r ∧ QuotedBody q v) :
    ¬ Undisturbed (opener q) z (documentOf (opener q) (openerIs q)) := by
  obtain ⟨v, r, rfl, hv⟩ := h
  intro hu
  have h1 := (hu (.env ⟨⟨0, 8⟩, [⟨⟨4, 8⟩, ⟨⟨4, 5⟩, ['a']⟩, ⟨⟨6, 8⟩, [.string ⟨⟨6, 8⟩, [q, 'b']⟩]⟩⟩]⟩) (by exact List.mem_cons_self)).1
  refine h1 6 (by simp [quoteSpots]) ['E', 'N', 'V', ' ', 'a', '='] [q, 'b', '\n'] rfl (by decide) ?_ ?_
  · rintro ⟨t, r', e, q', b, rfl, -, -⟩
    have e : q :: ['b', '\n'] = q' :: (b ++ q' :: r') := by simpa using e
    obtain ⟨rfl, e⟩ := List.cons.inj e
    have : q ∈ ['b', '\n'] := by rw [e]; simp
    rcases hq with rfl | rfl <;> revert this <;> decide
  · refine ⟨q :: (('b' :: '\n' :: v) ++ [q]), r, by simp, q, _, rfl, hq, ?_⟩
    rcases hq with rfl | rfl <;>
      exact .chr (by decide) (by decide) (by decide) (by decide) (.chr (by decide) (by decide) (by decide) (by decide) hv)

/-- C110: An accepted text can be put behind all accepted lines (without keywords taken for unknown instructions) exactly if it does not close quotes. -/
theorem C110_behind {unq : Unquote} {z : Str} {d' : Dockerfile} (hz : Dockerfile.parse unq z = .ok d') :
    GoesBehind unq z d'.instructions ↔ ¬ ClosesQuotes z := by
  constructor
  · rintro hg ⟨q, v, r, e, hq, hv⟩
    have hs : LineStart (opener q) z := .inr ⟨['E', 'N', 'V', ' ', 'a', '=', q, 'b'], ['\n'], rfl, .inl rfl⟩
    have hl : ∀ i ∈ (documentOf (opener q) (openerIs q)).instructions, i.span.stop < blen (opener q) := by
      rcases hq with rfl | rfl <;> decide
    refine opener_disturbed hq ⟨v, r, e, hv⟩ ((C107_join (opener_parse unq hq) hz hs hl).1 (hg _ _ (opener_parse unq hq) hs hl ?_))
    intro m hm
    have hm : Instruction.misc m ∈ openerIs q := hm
    simp [openerIs] at hm
  · exact fun hc a d h ha hl hk => (C107_join h hz ha hl).2 (undisturbed_behind h ha hl (fun i hi k hk' hw => by
      cases i with
      | misc m => rw [List.mem_singleton.1 hk'] at hw; exact absurd hw (hk m hi)
      | _ => cases hk') hz hc)

/-- C110: … and exactly if it can be put behind the two lines `ENV a="b` and `ENV a='b`. -/
theorem C110_openers {unq : Unquote} {z : Str} {d' : Dockerfile} (hz : Dockerfile.parse unq z = .ok d') :
    GoesBehind unq z d'.instructions ↔
      ReadTogether unq c!"ENV a=\"b\n" z (openerIs '"') d'.instructions ∧ ReadTogether unq c!"ENV a='b\n" z (openerIs '\'') d'.instructions := by
  have hs : ∀ q, LineStart (opener q) z := fun q => .inr ⟨['E', 'N', 'V', ' ', 'a', '=', q, 'b'], ['\n'], rfl, .inl rfl⟩
  have hl : ∀ {q}, q = '"' ∨ q = '\'' → ∀ i ∈ (documentOf (opener q) (openerIs q)).instructions, i.span.stop < blen (opener q) := by
    rintro q (rfl | rfl) <;> decide
  have hk : ∀ q m, .misc m ∈ (documentOf (opener q) (openerIs q)).instructions → ¬ IsKeyword m.instruction.content := by
    intro q m hm
    have hm : Instruction.misc m ∈ openerIs q := hm
    simp [openerIs] at hm
  constructor
  · exact fun hg => ⟨hg _ _ (opener_parse unq (q := '"') (.inl rfl)) (hs _) (hl (.inl rfl)) (hk _),
      hg _ _ (opener_parse unq (q := '\'') (.inr rfl)) (hs _) (hl (.inr rfl)) (hk _)⟩
  · rintro ⟨h1, h2⟩
    refine (C110_behind hz).2 ?_
    rintro ⟨q, v, r, e, hq, hv⟩
    refine opener_disturbed hq ⟨v, r, e, hv⟩ ((C107_join (opener_parse unq hq) hz (hs q) (hl hq)).1 ?_)
    rcases hq with rfl | rfl
    · exact h1
    · exact h2

theorem finds_iff {q : Char} (hq : q = '"' ∨ q = '\'') (z : Str) : finds q z = true ↔ ∃ v r, z = v ++ q :: r ∧ QuotedBody q v := by
  have hb : q ≠ '\\' := by rcases hq with rfl | rfl <;> decide
  have hq3 : q = '"' ∨ q = '\'' ∨ q = '\\' := hq.imp id .inl
  have hc : q ≠ '\x00' ∧ q ≠ '\x1F' := by rcases hq with rfl | rfl <;> decide
  fun_induction finds q z with
  | case1 => simp
  | case2 =>
    refine ⟨fun h => (by cases h), ?_⟩
    rintro ⟨v, r, e, hv⟩
    cases v with
    | nil => exact absurd (List.cons.inj e).1.symm hb
    | cons c v => exact absurd (List.cons.inj e).2 (by simp)
  | case3 c t h ih =>
    refine Iff.trans ih ⟨?_, ?_⟩
    · rintro ⟨v, r, rfl, hv⟩
      exact ⟨'\\' :: c :: v, r, rfl, .escaped h hv⟩
    · rintro ⟨v, r, e, hv⟩
      cases hv with
      | nil => exact absurd (List.cons.inj e).1.symm hb
      | chr h1 h2 => exact absurd (List.cons.inj e).1.symm h2
      | escaped h1 h2 =>
        obtain ⟨-, e2⟩ := List.cons.inj (List.cons.inj e).2
        exact ⟨_, r, e2, h2⟩
      | backslash h1 h2 h3 =>
        obtain ⟨e1, -⟩ := List.cons.inj (List.cons.inj e).2
        subst e1
        exact absurd h (by simp [h1, h2, h3])
  | case4 c t h ih =>
    refine Iff.trans ih ⟨?_, ?_⟩
    · rintro ⟨v, r, e, hv⟩
      cases v with
      | nil => exact absurd ((List.cons.inj e).1 ▸ hq3) h
      | cons c' v =>
        obtain ⟨rfl, e2⟩ := List.cons.inj e
        exact ⟨'\\' :: c :: v, r, by rw [e2]; rfl, .backslash (fun g => h (.inl g)) (fun g => h (.inr (.inl g))) (fun g => h (.inr (.inr g))) hv⟩
    · rintro ⟨v, r, e, hv⟩
      cases hv with
      | nil => exact absurd (List.cons.inj e).1.symm hb
      | chr h1 h2 => exact absurd (List.cons.inj e).1.symm h2
      | escaped h1 h2 =>
        obtain ⟨e1, -⟩ := List.cons.inj (List.cons.inj e).2
        exact absurd (e1 ▸ h1) h
      | backslash h1 h2 h3 h4 => exact ⟨_, r, (List.cons.inj e).2, h4⟩
  | case5 t => exact ⟨fun _ => ⟨[], t, rfl, .nil⟩, fun _ => rfl⟩
  | case6 c t h1 h2 h3 h4 =>
    refine ⟨fun h => (by cases h), ?_⟩
    rintro ⟨v, r, e, hv⟩
    cases hv with
    | nil => exact absurd (List.cons.inj e).1 h3
    | chr _ _ g1 g2 =>
      obtain ⟨rfl, -⟩ := List.cons.inj e
      exact absurd h4 (by simp [g1, g2])
    | escaped => exact absurd (List.cons.inj e).1 (fun g => h2 _ _ g (List.cons.inj e).2)
    | backslash => exact absurd (List.cons.inj e).1 (fun g => h2 _ _ g (List.cons.inj e).2)
  | case7 c t h1 h2 h3 h4 ih =>
    refine Iff.trans ih ⟨?_, ?_⟩
    · rintro ⟨v, r, rfl, hv⟩
      refine ⟨c :: v, r, rfl, .chr h3 ?_ (fun g => h4 (.inl g)) (fun g => h4 (.inr g)) hv⟩
      rintro rfl
      cases v with
      | nil => exact h2 _ _ rfl rfl
      | cons d v => exact h2 _ _ rfl rfl
    · rintro ⟨v, r, e, hv⟩
      cases hv with
      | nil => exact absurd (List.cons.inj e).1 h3
      | chr _ _ _ _ g => exact ⟨_, r, (List.cons.inj e).2, g⟩
      | escaped => exact absurd (List.cons.inj e).1 (fun g => h2 _ _ g (List.cons.inj e).2)
      | backslash => exact absurd (List.cons.inj e).1 (fun g => h2 _ _ g (List.cons.inj e).2)

/-- C110: Whether a text closes quotes is found by looking at its characters from the left. -/
theorem C110_finds (z : Str) : ClosesQuotes z ↔ finds '"' z = true ∨ finds '\'' z = true := by
  rw [finds_iff (.inl rfl), finds_iff (.inr rfl)]
  constructor
  · rintro ⟨q, v, r, e, rfl | rfl, hv⟩
    · exact .inl ⟨v, r, e, hv⟩
    · exact .inr ⟨v, r, e, hv⟩
  · rintro (⟨v, r, e, hv⟩ | ⟨v, r, e, hv⟩)
    · exact ⟨_, v, r, e, .inl rfl, hv⟩
    · exact ⟨_, v, r, e, .inr rfl, hv⟩

/-- a document with quotes that can be put behind all lines: a control character comes first -/
def hiddenZ : Str := c!"#\x1F\nENV a=\"b\"\n"

example : ∃ d', Dockerfile.parse Enquote.unquote hiddenZ = .ok d' ∧ GoesBehind Enquote.unquote hiddenZ d'.instructions :=
  ⟨documentOf hiddenZ [.env ⟨⟨3, 12⟩, [⟨⟨7, 12⟩, ⟨⟨7, 8⟩, c!"a"⟩, ⟨⟨9, 12⟩, [.string ⟨⟨9, 12⟩, c!"b"⟩]⟩⟩]⟩], by decide +kernel,
    (C110_behind (by decide +kernel)).2 (by rw [C110_finds]; decide +kernel)⟩

/-- one with quotes in a comment only, which cannot; an apostrophe is enough -/
def quoteZ : Str := c!"# don't\nX a\n"

example : ∃ d', Dockerfile.parse Enquote.unquote quoteZ = .ok d' ∧ ¬ GoesBehind Enquote.unquote quoteZ d'.instructions :=
  ⟨documentOf quoteZ [.misc ⟨⟨8, 11⟩, ⟨⟨8, 9⟩, c!"X"⟩, ⟨⟨9, 11⟩, [.string ⟨⟨9, 11⟩, c!" a"⟩]⟩⟩], by decide +kernel,
    fun h => (C110_behind (by decide +kernel)).1 h (by rw [C110_finds]; decide +kernel)⟩

/-- a text without quotes and with an escaped one -/
example : ¬ ClosesQuotes c!"X a\nX \\\"b\n" := by rw [C110_finds]; decide +kernel

/-- a `COPY` with one path and a comment behind a continued line: it is taken for an unknown instruction -/
def copyA : Str := c!"COPY a \\\n#\n\n"
def copyDoc : Dockerfile := documentOf copyA
  [.misc ⟨⟨0, 11⟩, ⟨⟨0, 4⟩, c!"COPY"⟩, ⟨⟨4, 11⟩, [.string ⟨⟨4, 7⟩, c!" a "⟩, .comment ⟨⟨9, 10⟩, c!"#"⟩]⟩⟩]

/-- C110: the condition about keywords is needed.  There are no quotes, but the text behind becomes a path of the `COPY`. -/
theorem C110_needed :
    Dockerfile.parse Enquote.unquote copyA = .ok copyDoc ∧
    Dockerfile.parse Enquote.unquote c!"X a\n" = .ok (documentOf c!"X a\n" [.misc ⟨⟨0, 3⟩, ⟨⟨0, 1⟩, c!"X"⟩, ⟨⟨1, 3⟩, [.string ⟨⟨1, 3⟩, c!" a"⟩]⟩⟩]) ∧
    ¬ ClosesQuotes c!"X a\n" ∧ (∀ i ∈ copyDoc.instructions, i.span.stop < blen copyA) ∧
    Dockerfile.parse Enquote.unquote (copyA ++ c!"X a\n") = .ok (documentOf (copyA ++ c!"X a\n")
      [.copy ⟨⟨0, 15⟩, [], [⟨⟨5, 6⟩, c!"a"⟩, ⟨⟨12, 13⟩, c!"X"⟩], ⟨⟨14, 15⟩, c!"a"⟩⟩]) := by
  refine ⟨by decide +kernel, by decide +kernel, by rw [C110_finds]; decide +kernel, by decide +kernel, by decide +kernel⟩

end Verif
