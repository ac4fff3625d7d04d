import Verif.Proof.JoinDoc

/-!
# Cutting a text after a line break
-/

namespace Verif
namespace Src
open Spec

section
variable {z : Str}

theorem word_less {w r : Str} (h : Word w (r ++ z)) (hr : BreakEnd r) : Word w r :=
  ⟨h.1, fun a b e hb hw => h.2.1 a b e hb (by rw [← List.append_assoc]; exact wordEnd_add hw (hr.pre b).ne),
    h.2.2.cut (hr.no z)⟩

theorem value_less {v : Value} {r : Str} (h : v.Fits (r ++ z)) (hr : BreakEnd r) : v.Fits r := by
  cases v with
  | quoted t => exact h
  | bare t => exact ⟨NoQuoted.cut (z := z) (by simpa using h.1), word_less h.2 hr⟩

theorem flags_less {fs : List Flag} {r : Str} (h : FlagsFit fs (r ++ z)) (hr : BreakEnd r) : FlagsFit fs r := by
  induction fs with
  | nil => trivial
  | cons f fs ih =>
    refine ⟨⟨Gap.cut (z := z) (by simpa using h.1.1), h.1.2.1, h.1.2.2.1, ?_⟩, ih h.2⟩
    exact word_less (z := z) (by simpa using h.1.2.2.2) (hr.pre _)

theorem args_less {fs : List Arg} {r : Str} (h : ArgsFit fs (r ++ z)) (hr : BreakEnd r) : ArgsFit fs r := by
  induction fs with
  | nil => trivial
  | cons f fs ih =>
    exact ⟨⟨Gap.cut (z := z) (by simpa using h.1.1), word_less (z := z) (by simpa using h.1.2) (hr.pre _)⟩, ih h.2⟩

theorem pairs_less {F : Pair → Str → Prop} {fs : List Pair} {r : Str}
    (hF : ∀ f r, F f (r ++ z) → BreakEnd r → F f r) (h : PairsFit F fs (r ++ z)) (hr : BreakEnd r) :
    PairsFit F fs r := by
  induction fs with
  | nil => trivial
  | cons f fs ih => exact ⟨hF _ _ (by simpa using h.1) (hr.pre _), ih h.2⟩

theorem label_less {f : Pair} {r : Str} (h : f.FitsLabel (r ++ z)) (hr : BreakEnd r) : f.FitsLabel r :=
  ⟨Gap.cut (z := z) (by simpa using h.1), Value.cutName (z := z) (by simpa using h.2.1), value_less h.2.2 hr⟩

theorem env_less {f : Pair} {r : Str} (h : f.FitsEnv (r ++ z)) (hr : BreakEnd r) : f.FitsEnv r :=
  ⟨Gap.cut (z := z) (by simpa using h.1), h.2.1, value_less h.2.2 hr⟩

theorem word_noBreak {w r : Str} (h : Word w r) : ¬ BreakEnd w := by
  rintro ⟨a, c, rfl, hc⟩
  refine h.2.1 a [c] rfl (by simp) (.inl fun d t e => ?_)
  obtain ⟨rfl, -⟩ := List.cons.inj e
  exact hc

/-- after a word at the end of a line there is something -/
theorem BreakEnd.afterWord {x w r : Str} (h : BreakEnd (x ++ (w ++ r))) (hw : Word w r) : BreakEnd r := by
  refine BreakEnd.right (a := x ++ w) (by simpa using h) ?_
  rintro rfl
  rw [List.append_nil] at h
  exact word_noBreak hw (h.right hw.1)

theorem startsFlag_more {u : Str} (h : StartsFlag u) (hu : BreakEnd u) : StartsFlag (u ++ z) := by
  obtain ⟨n, v, r, rfl, h1, h2, h3⟩ := h
  refine ⟨n, v, r ++ z, by simp, h1, h2, word_add h3 ?_⟩
  exact BreakEnd.afterWord (x := '-' :: '-' :: (n ++ ['='])) (by simpa using hu) h3

theorem begins_more {k u : Str} (h : Begins k u) (hu : BreakEnd u) : Begins k (u ++ z) := by
  unfold Begins at h ⊢
  split
  · rename_i hk
    rw [if_pos hk] at h
    obtain ⟨fs, g, c, r, rfl, h1, h2, h3, h4⟩ := h
    have hr1 : BreakEnd (g ++ c :: r) := hu.right (by simp)
    have hr2 : BreakEnd (c :: r) := hr1.right (by simp)
    refine ⟨fs, g, c, r ++ z, by simp, ?_, ?_, h3, ?_⟩
    · simpa using flags_add (z := z) h1 hr1
    · simpa using gap_add (z := z) h2 hr2
    · intro h; exact h4 (startsFlag_less (z := z) (by simpa using h) hr2)
  rename_i hk1
  rw [if_neg hk1] at h
  split
  · rename_i hk
    rw [if_pos hk] at h
    obtain ⟨g, c, r, rfl, h1, h2⟩ := h
    refine ⟨g, c, r ++ z, by simp, ?_, h2⟩
    simpa using gap_add (z := z) h1 (hu.right (by simp))
  rename_i hk2
  rw [if_neg hk2] at h
  split
  · rename_i hk
    rw [if_pos hk] at h
    obtain ⟨fs, a, b, r, rfl, h1, h2, h3, h4⟩ := h
    have hr : BreakEnd r := by
      refine BreakEnd.afterWord (x := flagsText fs ++ (a.text ++ b.gap)) ?_ h3.2
      simpa [Arg.text] using hu
    refine ⟨fs, a, b, r ++ z, by simp, ?_, ?_, ?_, ?_⟩
    · simpa using flags_add (z := z) h1 ((hr.pre b.text).pre a.text)
    · refine ⟨?_, ?_⟩
      · simpa using gap_add (z := z) h2.1 ((hr.pre b.text).pre a.value)
      · simpa using word_add (z := z) h2.2 (hr.pre b.text)
    · refine ⟨?_, word_add h3.2 hr⟩
      simpa using gap_add (z := z) h3.1 (hr.pre b.value)
    · intro h; exact h4 (startsFlag_less (z := z) (by simpa using h) ((hr.pre b.text).pre a.value))
  rename_i hk3
  rw [if_neg hk3] at h
  split
  · rename_i hk
    rw [if_pos hk] at h
    exact h.ext
  rename_i hk4
  rw [if_neg hk4] at h
  obtain ⟨g, r, rfl, h1, h2⟩ := h
  have hr : r ≠ [] := by
    rintro rfl
    exact h2 fun c b e => by cases e
  refine ⟨g, r ++ z, by simp, gap_add h1 (hu.right hr), fun h => h2 h.cut⟩

/-- An item in front of a line break after which the text is cut. -/
theorem item_less {i : Item} {r : Str} (h : i.Fits (r ++ z)) (hr : BreakEnd r) : i.Fits r := by
  cases i with
  | blank => trivial
  | comment t => exact ⟨h.1, h.2.cut⟩
  | «from» kw fs g i a =>
    obtain ⟨h1, h2, h3, h4, h5, h6⟩ := h
    refine ⟨h1, flags_less (z := z) (by simpa using h2) (((hr.pre _).pre _).pre _),
      Gap.cut (z := z) (by simpa using h3), h4, h5, fun x hx => ?_⟩
    obtain ⟨h7, h8, h9, h10, h11⟩ := h6 x hx
    exact ⟨Gap.cut (z := z) (by simpa using h7), h8, Gap.cut (z := z) (by simpa using h9), h10, h11⟩
  | arg kw g n v =>
    obtain ⟨h1, h2, h3, h4⟩ := h
    exact ⟨h1, Gap.cut (z := z) (by simpa using h2), h3, fun x hx => value_less (h4 x hx) hr⟩
  | label kw ps t =>
    obtain ⟨h1, h2, h3, h4, h5⟩ := h
    exact ⟨h1, pairs_less (fun f r h hr => label_less (z := z) h hr) (by simpa using h2) (hr.pre t), h3.cut _ rfl, h4, h5.cut⟩
  | label1 kw g n g' v =>
    obtain ⟨h1, h2, h3, h4, h5⟩ := h
    exact ⟨h1, Gap.cut (z := z) (by simpa using h2), Value.cutName (z := z) (by simpa using h3),
      Gap.cut (z := z) (by simpa using h4), value_less h5 hr⟩
  | shell k kw g s =>
    obtain ⟨h1, h2, h3, h4⟩ := h
    exact ⟨h1, Gap.cut (z := z) (by simpa using h2), shell_upto h3,
      noArray_cut (z := z) (by simpa using h4) ((hr.pre s.text).no z)⟩
  | exec k kw g a =>
    obtain ⟨h1, h2, h3⟩ := h
    exact ⟨h1, Gap.cut (z := z) (by simpa using h2), array_upto h3⟩
  | copy kw fs ss d =>
    obtain ⟨h1, h2, h3, h4, h5⟩ := h
    refine ⟨h1, flags_less (z := z) (by simpa using h2) (hr.pre _), h3, args_less h4 hr, ?_⟩
    rintro f b rfl hf
    refine h5 f b rfl ?_
    have := startsFlag_more (z := z) hf ((hr.pre _).pre _)
    simpa using this
  | env kw ps t =>
    obtain ⟨h1, h2, h3, h4, h5⟩ := h
    exact ⟨h1, pairs_less (fun f r h hr => env_less (z := z) h hr) (by simpa using h2) (hr.pre t), h3.cut _ rfl, h4, h5.cut⟩
  | env1 kw g n g' s =>
    obtain ⟨h1, h2, h3, h4, h5, h6, h7⟩ := h
    exact ⟨h1, Gap.cut (z := z) (by simpa using h2), h3, h4, Gap.cut (z := z) (by simpa using h5), shell_upto h6,
      NoQuoted.cut (z := z) (by simpa using h7)⟩
  | env1q kw g n g' v =>
    obtain ⟨h1, h2, h3, h4, h5, h6⟩ := h
    exact ⟨h1, Gap.cut (z := z) (by simpa using h2), h3, h4, Gap.cut (z := z) (by simpa using h5), h6⟩
  | misc w a =>
    obtain ⟨h1, h2, h3, h4, h5⟩ := h
    refine ⟨h1, h2, shell_upto h3, h4, fun hk hb => h5 hk ?_⟩
    have := begins_more (z := z) hb (hr.pre _)
    simpa using this

/-- Lines in front of a line break after which the text is cut. -/
theorem pre_less (ps : List (Line × Str)) (h : PreFits ps z) : PreFits ps [] := by
  induction ps with
  | nil => trivial
  | cons a ps ih =>
    obtain ⟨l, n⟩ := a
    obtain ⟨h1, h2, h3⟩ := h
    have hn : BreakEnd (n ++ preText ps) := by
      rcases preText_end h3 with e | e
      · rw [e, List.append_nil]; exact break_end h2
      · exact e.pre _
    refine ⟨⟨h1.1, ?_, h1.2.2⟩, ?_, ih h3⟩
    · exact item_less (z := z) (by simpa using h1.2.1) (by simpa using hn.pre l.trail)
    · exact LineBreak.cut (z := z) (by simpa using h2)

/-- lines that end with a line break are a document -/
theorem pre_doc {unq : Unquote} (ps : List (Line × Str)) (h : PreFits ps []) (p : Nat) :
    ∃ l ms, docText l ms = preText ps ∧ DocFits l ms ∧ evalDoc unq p l ms = evalPre unq p ps := by
  have hb : DocFits ⟨[], .blank, []⟩ [] := ⟨(fun _ h => by cases h), trivial, (fun _ h => by cases h)⟩
  obtain ⟨l', ms', h1, h2, h3⟩ := pre_glue (unq := unq) hb ps p (by simpa [docText, Line.text, Item.text] using h)
  refine ⟨l', ms', by simpa [docText, Line.text, Item.text] using h1, h2, ?_⟩
  rw [h3]
  cases evalPre unq p ps with
  | error e => rfl
  | ok is => simp [evalDoc, Item.eval, ok_bind, pure, Except.pure]

end

/-- a line break in the text of a line is inside an instruction -/
theorem line_noBreak {l : Line} {r : Str} (hf : l.Fits r) {a b : Str} (e : l.text = a ++ b) (ha : BreakEnd a)
    {unq : Unquote} {p : Nat} {o : Option Instruction} (he : l.item.eval unq (p + blen l.indent) = .ok o) :
    ∃ x, o = some x ∧ x.span.start < p + blen a ∧ p + blen a ≤ x.span.stop := by
  have e : l.indent ++ (l.item.text ++ l.trail) = a ++ b := e
  obtain ⟨a', rfl, e, hne⟩ : ∃ a', a = l.indent ++ a' ∧ l.item.text ++ l.trail = a' ++ b ∧ a' ≠ [] := by
    rcases List.append_eq_append_iff.1 e with ⟨x, rfl, e2⟩ | ⟨x, e1, -⟩
    · refine ⟨x, rfl, e2, ?_⟩
      rintro rfl
      rw [List.append_nil] at ha
      exact blanks_noBreak hf.1 ha
    · exact absurd ha (blanks_noBreak (b := a) fun c hc => hf.1 c (by rw [e1]; simp [hc]))
  have ha' := ha.right hne
  obtain ⟨c, e1⟩ : ∃ c, l.item.text = a' ++ c := by
    rcases List.append_eq_append_iff.1 e with ⟨x, rfl, e2⟩ | ⟨x, e1, -⟩
    · by_cases hx : x = []
      · subst hx; exact ⟨[], by simp⟩
      · refine absurd (ha'.right hx) (blanks_noBreak fun c hc => hf.2.2 c (by rw [e2]; simp [hc]))
    · exact ⟨x, e1⟩
  cases o with
  | none =>
    exfalso
    rcases item_none he with hl | ⟨t, hl⟩
    · rw [hl] at e1
      exact hne (List.append_eq_nil_iff.1 e1.symm).1
    · have h3 := hf.2.1
      rw [hl] at h3 e1
      obtain ⟨t', rfl, h5⟩ := h3.1
      obtain ⟨u, d, rfl, hd⟩ := ha'
      have hm : d ∈ '#' :: t' := by
        have : d ∈ u ++ [d] ++ c := by simp
        rw [← e1] at this
        exact this
      rcases List.mem_cons.1 hm with rfl | hm
      · revert hd; decide
      · exact hd.elim (h5 d hm).1 (h5 d hm).2
  | some x =>
    refine ⟨x, rfl, ?_⟩
    rw [(item_at he).1]
    have := blen_pos hne
    simp only [e1, blen_append]
    omega

/-- A document cut after a line break that is not inside an instruction. -/
theorem doc_split {unq : Unquote} (ms : List (Str × Line)) : ∀ (l : Line) (p : Nat) (is : List Instruction) (A z : Str),
    DocFits l ms → evalDoc unq p l ms = .ok is → docText l ms = A ++ z → BreakEnd A →
    (∀ a, A = a ++ ['\r'] → ∀ t, z ≠ '\n' :: t) →
    (∀ x ∈ is, x.span.stop < p + blen A ∨ p + blen A ≤ x.span.start) →
    ∃ ps l' ms' js ks, preText ps = A ∧ docText l' ms' = z ∧ PreFits ps z ∧ DocFits l' ms' ∧ is = js ++ ks ∧
      evalPre unq p ps = .ok js ∧ evalDoc unq (p + blen A) l' ms' = .ok ks := by
  induction ms with
  | nil =>
    intro l p is A z hf he e hA _ hs
    obtain ⟨o, h1, h2⟩ := bind_some he
    obtain ⟨x, rfl, h3, h4⟩ := line_noBreak hf e hA h1
    cases h2
    rcases hs x (by simp) with h | h <;> omega
  | cons m ms ih =>
    obtain ⟨n, m⟩ := m
    intro l p is A z hf he e hA hcr hs
    obtain ⟨o, h1, he⟩ := bind_some he
    obtain ⟨js, h2, h3⟩ := bind_some he
    cases h3
    have e : l.text ++ (n ++ docText m ms) = A ++ z := e
    rcases List.append_eq_append_iff.1 e with ⟨x, rfl, e2⟩ | ⟨x, e1, -⟩
    · -- the break is after the line
      by_cases hx : x = []
      · subst hx
        exfalso
        rw [List.append_nil] at hA hs
        obtain ⟨y, rfl, h3, h4⟩ := line_noBreak (a := l.text) (b := []) hf.1 (by simp) hA h1
        rcases hs y (by simp) with h | h <;> omega
      obtain ⟨x', rfl, e3⟩ : ∃ x', x = n ++ x' ∧ docText m ms = x' ++ z := by
        rcases List.append_eq_append_iff.1 e2 with ⟨y, rfl, e4⟩ | ⟨y, e4, e5⟩
        · exact ⟨y, rfl, e4⟩
        · by_cases hy : y = []
          · subst hy
            exact ⟨[], by simpa using e4.symm, by simpa using e5.symm⟩
          · exfalso
            rcases hf.2.1 with rfl | rfl | ⟨rfl, -⟩
            · cases x with
              | nil => exact hx rfl
              | cons c x =>
                obtain ⟨-, e4⟩ := List.cons.inj e4
                exact hy (List.append_eq_nil_iff.1 e4.symm).2
            · cases x with
              | nil => exact hx rfl
              | cons c x =>
                obtain ⟨rfl, e4⟩ := List.cons.inj e4
                cases x with
                | nil =>
                  cases e4
                  exact hcr l.text rfl _ e5
                | cons d x =>
                  have e6 : ['\n'] = d :: (x ++ y) := (List.cons.inj e4).2
                  exact hy (List.append_eq_nil_iff.1 (List.cons.inj e6).2.symm).2
            · cases x with
              | nil => exact hx rfl
              | cons c x =>
                obtain ⟨-, e4⟩ := List.cons.inj e4
                exact hy (List.append_eq_nil_iff.1 e4.symm).2
      have hlen : ∀ q, q + blen (l.text ++ (n ++ x')) = q + blen l.text + blen n + blen x' := by
        intro q; simp only [blen_append]; omega
      by_cases hx' : x' = []
      · subst hx'
        have e3 : docText m ms = z := e3
        refine ⟨[(l, n)], m, ms, o.toList, js, by simp [preText], e3, ?_, hf.2.2, rfl, ?_, ?_⟩
        · exact ⟨by simpa [preText, e3] using hf.1, by simpa [preText, e3] using hf.2.1, trivial⟩
        · show (l.item.eval unq (p + blen l.indent) >>= _) = _
          rw [h1]
          simp [evalPre, ok_bind, pure, Except.pure]
        · rw [hlen]
          exact h2
      · obtain ⟨ps, l', ms', js', ks, g1, g2, g3, g4, rfl, g6, g7⟩ := ih m _ js x' z hf.2.2 h2 e3
          ((hA.right hx).right hx') (by
            rintro a rfl t
            exact hcr (l.text ++ (n ++ a)) (by simp) t) (by
            intro y hy
            have := hs y (by simp [hy])
            rw [hlen] at this
            exact this)
        refine ⟨(l, n) :: ps, l', ms', o.toList ++ js', ks, by simp [preText, g1], g2, ⟨?_, ?_, g3⟩, g4, by simp, ?_, ?_⟩
        · simpa [g1, ← e3] using hf.1
        · simpa [g1, ← e3] using hf.2.1
        · show (l.item.eval unq (p + blen l.indent) >>= fun i => evalPre unq (p + blen l.text + blen n) ps >>= _) = _
          rw [h1, g6]
          rfl
        · rw [hlen]
          exact g7
    · exfalso
      obtain ⟨y, rfl, h3, h4⟩ := line_noBreak hf.1 e1 hA h1
      rcases hs y (by simp) with h | h <;> omega

end Src
end Verif
