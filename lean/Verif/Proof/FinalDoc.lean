import Verif.Proof.FinalBreak

/-!
# A line feed after the end of a document: documents
-/

namespace Verif
namespace Src
open Spec

theorem blanks_no_lf {w x : Str} (hw : Blanks w) : w ≠ x ++ ['\n'] := by
  rintro rfl
  have := hw '\n' (by simp)
  simp at this

theorem chars_no_lf {w x : Str} (hw : ∀ c ∈ w, c ≠ '\n') : w ≠ x ++ ['\n'] := by
  rintro rfl
  exact hw '\n' (by simp) rfl

theorem comment_chars {t : Str} (h : CommentText t) : ∀ c ∈ t, c ≠ '\n' := by
  obtain ⟨b, rfl, hb⟩ := h
  intro c hc
  rcases List.mem_cons.1 hc with rfl | hc
  · decide
  · exact (hb c hc).1

theorem quoted_no_lf {t x : Str} (h : QuotedText t) : t ≠ x ++ ['\n'] := by
  obtain ⟨q, b, rfl, hq, -⟩ := h
  intro e
  obtain ⟨-, e5⟩ := List.append_inj' (show (q :: b) ++ [q] = x ++ ['\n'] by simpa using e) rfl
  obtain rfl := (List.cons.inj e5).1
  rcases hq with hc | hc <;> exact absurd hc (by decide)

theorem value_no_lf {v : Value} {r x : Str} (h : v.Fits r) : v.text ≠ x ++ ['\n'] := by
  cases v with
  | quoted t => exact quoted_no_lf h
  | bare t => exact chars_no_lf (word_chars h.2)

theorem value_ne {v : Value} {r : Str} (h : v.Fits r) : v.text ≠ [] := by
  cases v with
  | quoted t => exact quoted_ne h
  | bare t => exact h.2.1

/-- line breaks that end with a line feed -/
theorem break_unfinal {n r x : Str} (h : LineBreak n r) (e : n = x ++ ['\n']) :
    x = [] ∨ (x = ['\r'] ∧ LineBreak x []) := by
  rcases h with rfl | rfl | ⟨rfl, -⟩
  · exact .inl (List.append_inj' (s₁ := []) (t₁ := ['\n']) e rfl).1.symm
  · have := (List.append_inj' (s₁ := ['\r']) (t₁ := ['\n']) e rfl).1
    exact .inr ⟨this.symm, .inr (.inr ⟨this.symm, fun _ h => by cases h⟩)⟩
  · have := (List.append_inj' (s₁ := []) (t₁ := ['\r']) e rfl).2
    exact absurd (List.cons.inj this).1 (by decide)

theorem break_ne {n r : Str} (h : LineBreak n r) : n ≠ [] := by
  rcases h with rfl | rfl | ⟨rfl, -⟩ <;> simp

theorem skip_unfinal {l r : Str} (h : SkipLines l r) : ∀ x, r = [] → l = x ++ ['\n'] →
    ∃ l' g, x = l' ++ g ∧ SkipLines l' g ∧ Blanks g := by
  induction h with
  | nil _ => intro x _ e; exact absurd e.symm (by simp)
  | @blank w n l r hw hn hl ih =>
    rintro x rfl e
    by_cases hne : l = []
    · subst hne
      obtain ⟨y, rfl, e2⟩ := ends_lf (a := w) (b := n) (by simpa using e.symm) (break_ne hn)
      rcases break_unfinal hn e2 with rfl | ⟨-, h⟩
      · exact ⟨[], w, by simp, .nil (notSkippable_blanks hw), hw⟩
      · refine ⟨w ++ y, [], by simp, ?_, blanks_nil'⟩
        have := SkipLines.blank (l := []) (r := []) hw h (.nil (notSkippable_blanks blanks_nil'))
        simpa using this
    · obtain ⟨y, rfl, rfl⟩ := ends_lf (a := w ++ n) (b := l) (by simpa using e.symm) hne
      obtain ⟨l', g, rfl, h1, h2⟩ := ih y rfl rfl
      exact ⟨w ++ (n ++ l'), g, by simp, .blank hw (LineBreak.cut (z := ['\n']) (by simpa using hn)) h1, h2⟩
  | @comment w t n l r hw ht hn hl ih =>
    rintro x rfl e
    by_cases hne : l = []
    · subst hne
      obtain ⟨y, rfl, e2⟩ := ends_lf (a := w ++ t) (b := n) (by simpa using e.symm) (break_ne hn)
      rcases break_unfinal hn e2 with rfl | ⟨-, h⟩
      · exact ⟨w ++ t, [], by simp, .lastComment hw ht, blanks_nil'⟩
      · refine ⟨w ++ (t ++ y), [], by simp, ?_, blanks_nil'⟩
        have := SkipLines.comment (l := []) (r := []) hw ht h (.nil (notSkippable_blanks blanks_nil'))
        simpa using this
    · obtain ⟨y, rfl, rfl⟩ := ends_lf (a := w ++ (t ++ n)) (b := l) (by simpa using e.symm) hne
      obtain ⟨l', g, rfl, h1, h2⟩ := ih y rfl rfl
      exact ⟨w ++ (t ++ (n ++ l')), g, by simp, .comment hw ht (LineBreak.cut (z := ['\n']) (by simpa using hn)) h1, h2⟩
  | @lastComment w t hw ht =>
    intro x _ e
    obtain ⟨b, rfl, -⟩ := id ht
    obtain ⟨y, -, e2⟩ := ends_lf (a := w) e.symm (by simp)
    exact absurd e2 (chars_no_lf (comment_chars ht))

theorem space_blanks {g : Str} (h : Blanks g) : Space g [] := by
  induction g with
  | nil => exact .nil notStartsSpace_nil
  | cons c g ih => exact .blank (h c List.mem_cons_self) (ih fun d hd => h d (List.mem_cons_of_mem _ hd))

theorem space_unfinal {g r : Str} (h : Space g r) : ∀ x, r = [] → g = x ++ ['\n'] → ¬ Open x ['\n'] → Space x [] := by
  induction h with
  | nil _ => intro x _ e; exact absurd e.symm (by simp)
  | @blank c g r hc hg ih =>
    rintro x rfl e ho
    obtain ⟨y, rfl, rfl⟩ := ends_cons (a := []) e.symm (by rcases hc with rfl | rfl <;> decide)
    exact .blank hc (ih y rfl rfl (notOpen_cons ho))
  | @continuation w n l g r hw hn hl hg ih =>
    rintro x rfl e ho
    rw [List.append_nil] at hn hl
    by_cases hg' : g = []
    · subst hg'
      rw [List.append_nil] at hn
      by_cases hl' : l = []
      · subst hl'
        obtain ⟨y, rfl, e2⟩ := ends_lf (a := '\\' :: w) (b := n) (by simpa using e.symm) (break_ne hn)
        rcases break_unfinal hn e2 with rfl | ⟨-, h⟩
        · exact absurd ⟨⟨[], w, by simp, hw⟩, [], ['\n'], [], rfl, blanks_nil', break_lf _⟩ ho
        · have := Space.continuation (l := []) (g := []) (r := []) hw h (.nil (notSkippable_blanks blanks_nil'))
            (.nil notStartsSpace_nil)
          simpa using this
      · obtain ⟨y, rfl, rfl⟩ := ends_lf (a := '\\' :: (w ++ n)) (b := l) (by simpa using e.symm) hl'
        obtain ⟨l', g', rfl, h1, h2⟩ := skip_unfinal hl y rfl rfl
        have := Space.continuation (r := []) (n := n) hw (LineBreak.cut (z := ['\n']) (by simpa using hn))
          (by simpa using h1) (space_blanks h2)
        simpa using this
    · obtain ⟨y, rfl, rfl⟩ := ends_lf (a := '\\' :: (w ++ (n ++ l))) (b := g) (by simpa using e.symm) hg'
      have h1 := ih y rfl rfl (notOpen_suffix ho)
      have := Space.continuation (r := []) (n := n) hw (LineBreak.cut (z := ['\n']) (by simpa using hn))
          (SkipLines.cut (z := ['\n']) hl _ (by simp)) h1
      simpa using this

theorem shell_unfinal {s : Shell} : ∀ {x : Str}, s.Fits [] → s.text = x ++ ['\n'] → ∃ s' : Shell, s'.Fits [] ∧ s'.text = x := by
  induction s with
  | last t => intro x h e; exact absurd e (chars_no_lf fun c hc => (h.1.2.1 c hc).1)
  | lastComment w t n =>
    intro x h e
    obtain ⟨b, rfl, -⟩ := id h.2.1
    by_cases hn : n = []
    · subst hn
      obtain ⟨y, -, e2⟩ := ends_lf (a := w) (b := '#' :: b) (by simpa [Shell.text] using e.symm) (by simp)
      exact absurd e2 (chars_no_lf (comment_chars h.2.1))
    · obtain ⟨y, rfl, e2⟩ := ends_lf (a := w ++ '#' :: b) (b := n) (by simpa [Shell.text] using e.symm) hn
      rcases h.2.2 with ⟨h', -⟩ | ⟨h', -⟩
      · exact absurd h' hn
      · rcases break_unfinal h' e2 with rfl | ⟨-, h''⟩
        · exact ⟨.lastComment w ('#' :: b) [], ⟨h.1, h.2.1, .inl ⟨rfl, rfl⟩⟩, by simp [Shell.text]⟩
        · exact ⟨.lastComment w ('#' :: b) y, ⟨h.1, h.2.1, .inr ⟨h'', eol_nil⟩⟩, by simp [Shell.text]⟩
  | more t w n s ih =>
    intro x h e
    obtain ⟨h1, h2, h3, h4⟩ := h
    obtain ⟨y, rfl, e2⟩ := ends_lf (a := t ++ '\\' :: (w ++ n)) (b := s.text) (by simpa [Shell.text] using e.symm) (shell_ne h4)
    obtain ⟨s', h5, rfl⟩ := ih h4 e2
    exact ⟨.more t w n s', ⟨piece_cut (z := ['\n']) (by simpa [e2] using h1), h2,
      LineBreak.cut (z := ['\n']) (by simpa [e2] using h3), h5⟩, by simp [Shell.text]⟩
  | comment w t n s ih =>
    intro x h e
    obtain ⟨h1, h2, h3, h4⟩ := h
    obtain ⟨y, rfl, e2⟩ := ends_lf (a := w ++ (t ++ n)) (b := s.text) (by simpa [Shell.text] using e.symm) (shell_ne h4)
    obtain ⟨s', h5, rfl⟩ := ih h4 e2
    exact ⟨.comment w t n s', ⟨h1, h2, LineBreak.cut (z := ['\n']) (by simpa [e2] using h3), h5⟩, by simp [Shell.text]⟩

theorem pairs_end {F : Pair → Str → Prop} (hF : ∀ f y, F f y → f.value.Fits y) {ps : List Pair} {y : Str}
    (h : PairsFit F ps y) (hp : ps ≠ []) : ∃ a v r, pairsText ps = a ++ v ∧ v ≠ [] ∧ (∃ w : Value, w.text = v ∧ w.Fits r) := by
  induction ps with
  | nil => exact absurd rfl hp
  | cons f fs ih =>
    by_cases hfs : fs = []
    · subst hfs
      refine ⟨f.gap ++ (f.name.text ++ ['=']), f.value.text, _, by simp [pairsText, Pair.text, Pair.body],
        value_ne (hF _ _ h.1), f.value, rfl, hF _ _ h.1⟩
    · obtain ⟨a, v, r, e, h1, h2⟩ := ih h.2 hfs
      exact ⟨f.text ++ a, v, r, by simp [pairsText] at e ⊢; simp [e], h1, h2⟩

/-- An item whose end is the final line feed, without it. -/
theorem item_unfinal {i : Item} {x : Str} (h : i.Fits []) (e : i.text = x ++ ['\n']) (ho : ¬ Open x ['\n']) :
    ∃ i' : Item, i'.Fits [] ∧ i'.text = x := by
  cases i with
  | blank => exact absurd e.symm (by simp [Item.text])
  | comment t => exact absurd e (chars_no_lf (comment_chars h.1))
  | «from» kw fs g i a =>
    obtain ⟨h1, h2, h3, h4, h5, h6⟩ := h
    exfalso
    cases a with
    | none =>
      obtain ⟨y, -, e2⟩ := ends_lf (a := kw ++ (flagsText fs ++ g)) (b := i) (by simpa [Item.text, aliasText] using e.symm) h4
      refine chars_no_lf (fun c hc => ?_) e2
      rintro rfl
      have := h5 _ hc
      revert this; unfold IsImageChar IsAlpha IsDigit; decide
    | some a =>
      obtain ⟨-, -, -, h7, h8⟩ := h6 a rfl
      obtain ⟨y, -, e2⟩ := ends_lf (a := kw ++ (flagsText fs ++ (g ++ (i ++ (a.gap ++ (a.kw ++ a.gap')))))) (b := a.name)
        (by simpa [Item.text, aliasText, AliasText.text] using e.symm) h7
      refine chars_no_lf (fun c hc => ?_) e2
      rintro rfl
      have := h8 _ hc
      revert this; unfold IsIdent IsAlpha IsDigit; decide
  | arg kw g n v =>
    obtain ⟨h1, h2, ⟨c, b, rfl, h3, h3'⟩, h4⟩ := h
    exfalso
    cases v with
    | none =>
      obtain ⟨y, -, e2⟩ := ends_lf (a := kw ++ g) (b := c :: b) (by simpa [Item.text, valueText] using e.symm) (by simp)
      refine chars_no_lf (fun d hd => ?_) e2
      rintro rfl
      rcases List.mem_cons.1 hd with rfl | hd
      · revert h3; unfold IsAlpha; decide
      · have := h3' _ hd
        revert this; unfold IsWord IsAlpha IsDigit; decide
    | some v =>
      obtain ⟨y, -, e2⟩ := ends_lf (a := kw ++ (g ++ (c :: b ++ ['=']))) (b := v.text)
        (by simpa [Item.text, valueText] using e.symm) (value_ne (h4 v rfl))
      exact value_no_lf (h4 v rfl) e2
  | label kw ps t =>
    obtain ⟨h1, h2, h3, h4, h5⟩ := h
    by_cases ht : t = []
    · subst ht
      have hp : ps ≠ [] := h4.resolve_right (by simp)
      obtain ⟨a, v, r, e1, h6, w, rfl, h7⟩ := pairs_end (fun f y h => h.2.2) h2 hp
      obtain ⟨y, -, e2⟩ := ends_lf (a := kw ++ a) (b := w.text) (by simpa [Item.text, e1] using e.symm) h6
      exact absurd e2 (value_no_lf h7)
    · obtain ⟨y, rfl, rfl⟩ := ends_lf (a := kw ++ pairsText ps) (b := t) (by simpa [Item.text] using e.symm) ht
      have ho1 : ¬ Open (pairsText ps ++ y) ['\n'] := notOpen_suffix (u := kw) (by simpa using ho)
      refine ⟨.label kw ps y, ⟨h1, ?_, space_unfinal h3 y rfl rfl (notOpen_suffix ho1), ?_, eol_nil⟩, by simp [Item.text]⟩
      · rw [List.append_nil] at h2 ⊢
        exact pairs_cut (fun f r h ho => label_cut zend_lf h ho) h2 ho1
      · rcases h4 with h4 | -
        · exact .inl h4
        · refine .inr ?_
          rintro rfl
          cases h3 with
          | blank hc => simp at hc
  | label1 kw g n g' v =>
    obtain ⟨h1, h2, h3, h4, h5⟩ := h
    obtain ⟨y, -, e2⟩ := ends_lf (a := kw ++ (g ++ (n.text ++ g'))) (b := v.text)
        (by simpa [Item.text] using e.symm) (value_ne h5)
    exact absurd e2 (value_no_lf h5)
  | shell k kw g s =>
    obtain ⟨h1, h2, h3, h4⟩ := h
    obtain ⟨y, rfl, e2⟩ := ends_lf (a := kw ++ g) (b := s.text) (by simpa [Item.text] using e.symm) (shell_ne h3)
    obtain ⟨s', h5, rfl⟩ := shell_unfinal h3 e2
    refine ⟨.shell k kw g s', ⟨h1, Gap.cut (z := ['\n']) (by simpa [e2] using h2), h5, ?_⟩, by simp [Item.text]⟩
    rw [List.append_nil]
    exact noArray_cut (z := ['\n']) (by simpa [e2] using h4) (notOpen_suffix ho)
  | exec k kw g a =>
    exfalso
    have : ∃ b, a.text = b ++ [']'] := by
      cases a with
      | empty g => exact ⟨'[' :: g, by simp [Array.text]⟩
      | full g v es c g' =>
        exact ⟨'[' :: (g ++ (v ++ (elemsText es ++ ((if c then [','] else []) ++ g')))),
          by simp [Array.text, Array.tail]⟩
    obtain ⟨b, eb⟩ := this
    obtain ⟨-, e5⟩ := List.append_inj' (show (kw ++ (g ++ b)) ++ [']'] = x ++ ['\n'] by simpa [Item.text, eb] using e) rfl
    exact absurd (List.cons.inj e5).1 (by decide)
  | copy kw fs ss d =>
    obtain ⟨h1, h2, h3, h4, h5⟩ := h
    have hd : ∃ r, Word d.value r := by
      clear h2 h3 h5 e
      induction ss with
      | nil => exact ⟨_, h4.1.2⟩
      | cons f fs ih => exact ih h4.2
    obtain ⟨r, hd⟩ := hd
    obtain ⟨y, -, e2⟩ := ends_lf (a := kw ++ (flagsText fs ++ (argsText ss ++ d.gap))) (b := d.value)
        (by simpa [Item.text, Arg.text] using e.symm) hd.1
    exact absurd e2 (chars_no_lf (word_chars hd))
  | env kw ps t =>
    obtain ⟨h1, h2, h3, h4, h5⟩ := h
    by_cases ht : t = []
    · subst ht
      have hp : ps ≠ [] := h4.resolve_right (by simp)
      obtain ⟨a, v, r, e1, h6, w, rfl, h7⟩ := pairs_end (fun f y h => h.2.2) h2 hp
      obtain ⟨y, -, e2⟩ := ends_lf (a := kw ++ a) (b := w.text) (by simpa [Item.text, e1] using e.symm) h6
      exact absurd e2 (value_no_lf h7)
    · obtain ⟨y, rfl, rfl⟩ := ends_lf (a := kw ++ pairsText ps) (b := t) (by simpa [Item.text] using e.symm) ht
      have ho1 : ¬ Open (pairsText ps ++ y) ['\n'] := notOpen_suffix (u := kw) (by simpa using ho)
      refine ⟨.env kw ps y, ⟨h1, ?_, space_unfinal h3 y rfl rfl (notOpen_suffix ho1), ?_, eol_nil⟩, by simp [Item.text]⟩
      · rw [List.append_nil] at h2 ⊢
        exact pairs_cut (fun f r h ho => env_cut zend_lf h ho) h2 ho1
      · rcases h4 with h4 | -
        · exact .inl h4
        · refine .inr ?_
          rintro rfl
          cases h3 with
          | blank hc => simp at hc
  | env1 kw g n g' s =>
    obtain ⟨h1, h2, h3, h4, h5, h6, h7⟩ := h
    obtain ⟨y, rfl, e2⟩ := ends_lf (a := kw ++ (g ++ (n ++ g'))) (b := s.text) (by simpa [Item.text] using e.symm) (shell_ne h6)
    obtain ⟨s', h8, rfl⟩ := shell_unfinal h6 e2
    exact ⟨.env1 kw g n g' s', ⟨h1, Gap.cut (z := ['\n']) (by simpa [e2] using h2), h3, h4,
      Gap.cut (z := ['\n']) (by simpa [e2] using h5), h8, NoQuoted.cut (z := ['\n']) (by simpa [e2] using h7)⟩,
      by simp [Item.text]⟩
  | env1q kw g n g' v =>
    obtain ⟨h1, h2, h3, h4, h5, h6⟩ := h
    obtain ⟨y, -, e2⟩ := ends_lf (a := kw ++ (g ++ (n ++ g'))) (b := v)
        (by simpa [Item.text] using e.symm) (quoted_ne h6)
    exact absurd e2 (quoted_no_lf h6)
  | misc w a =>
    obtain ⟨h1, h2, h3, h4, h5⟩ := h
    obtain ⟨y, rfl, e2⟩ := ends_lf (a := w) (b := a.text) (by simpa [Item.text] using e.symm) (shell_ne h3)
    obtain ⟨s', h6, rfl⟩ := shell_unfinal h3 e2
    refine ⟨.misc w s', ⟨h1, h2, h6, fun c b e' => ?_, fun hk hb => h5 hk ?_⟩, rfl⟩
    · exact h4 c (b ++ ['\n']) (by rw [e2, e']; rfl)
    · have := begins_ext (z := ['\n']) zend_lf hb (notOpen_suffix (u := w) (by simpa using ho))
      simpa [e2] using this

/-! ## documents -/

theorem item_empty {i : Item} {r : Str} (h : i.Fits r) (e : i.text = []) : i = .blank := by
  by_cases hi : i.IsInstr
  · exact absurd (show Blanks i.text by rw [e]; exact blanks_nil') (item_notBlanks h hi)
  · cases i with
    | blank => rfl
    | comment t =>
      obtain ⟨b, rfl, -⟩ := h.1
      cases e
    | _ => exact absurd rfl hi

theorem doc_empty {unq : Unquote} {l : Line} {ms : List (Str × Line)} (h : DocFits l ms) (e : docText l ms = []) (p : Nat) :
    ms = [] ∧ evalDoc unq p l ms = .ok [] := by
  cases ms with
  | nil =>
    refine ⟨rfl, ?_⟩
    have e1 : l.item.text = [] := by
      have := e
      simp only [docText, Line.text, List.append_eq_nil_iff] at this
      exact this.2.1
    show (l.item.eval unq (p + blen l.indent) >>= _) = _
    rw [item_empty h.2.1 e1]
    rfl
  | cons m ms =>
    obtain ⟨n, m⟩ := m
    simp only [docText, List.append_eq_nil_iff] at e
    exact absurd e.2.1 (break_ne h.2.1)

/-- the same instructions, up to the spans of the last, which ends one byte later -/
def SameUpToEnd (is is' : List Instruction) (e : Nat) : Prop :=
  is' = is ∨ ∃ pre x y, is = pre ++ [x] ∧ is' = pre ++ [y] ∧ (y.remap (fun _ => 0) = x.remap (fun _ => 0) ∧
    Other x ∧ Other y) ∧ x.span.stop = e ∧ y.span = ⟨x.span.start, e + 1⟩

/-- the same instructions or the same error -/
def SameResult (x y : Result (List Instruction)) (e : Nat) : Prop :=
  (∃ f, x = .error f ∧ y = .error f) ∨ ∃ is is', x = .ok is ∧ y = .ok is' ∧ SameUpToEnd is is' e

theorem SameResult.refl (x : Result (List Instruction)) (e : Nat) : SameResult x x e := by
  cases x with
  | error f => exact .inl ⟨f, rfl, rfl⟩
  | ok is => exact .inr ⟨is, is, rfl, rfl, .inl rfl⟩

theorem doc_final (ms : List (Str × Line)) : ∀ (l : Line), DocFits l ms → ¬ Open (docText l ms) ['\n'] →
    ∃ l' ms', DocFits l' ms' ∧ docText l' ms' = docText l ms ++ ['\n'] ∧
      ∀ unq p, SameResult (evalDoc unq p l ms) (evalDoc unq p l' ms') (p + blen (docText l ms)) := by
  induction ms with
  | nil =>
    intro l h ho
    have ho1 : ¬ Open (l.item.text ++ (l.trail ++ [])) ['\n'] :=
      notOpen_suffix (u := l.indent) (by simpa [docText, Line.text] using ho)
    rcases item_final h.2.1 ho1 with h1 | ⟨e, i', e1, h1, h2⟩
    · refine ⟨l, [(['\n'], ⟨[], .blank, []⟩)], ⟨⟨h.1, by simpa [docText, Line.text, Item.text] using h1, h.2.2⟩, break_lf _,
        blanks_nil', trivial, blanks_nil'⟩, by simp [docText, Line.text, Item.text], fun unq p => ?_⟩
      show SameResult (l.item.eval unq (p + blen l.indent) >>= _) (l.item.eval unq (p + blen l.indent) >>= _) _
      cases l.item.eval unq (p + blen l.indent) with
      | error f => exact .inl ⟨f, rfl, rfl⟩
      | ok o =>
        refine .inr ⟨o.toList, o.toList ++ [], rfl, rfl, .inl (by simp)⟩
    · have e2 : l.trail = [] := (List.append_eq_nil_iff.1 e).1
      refine ⟨⟨l.indent, i', []⟩, [], ⟨h.1, h1, blanks_nil'⟩, by simp [docText, Line.text, e1, e2], fun unq p => ?_⟩
      show SameResult (l.item.eval unq (p + blen l.indent) >>= _) (i'.eval unq (p + blen l.indent) >>= _) _
      rcases h2 unq (p + blen l.indent) with ⟨f, h3, h4⟩ | ⟨x, y, h3, h4, h5⟩
      · rw [h3, h4]; exact .inl ⟨f, rfl, rfl⟩
      · refine .inr ⟨[x], [y], by rw [h3]; rfl, by rw [h4]; rfl, .inr ⟨[], x, y, rfl, rfl, h5, ?_, ?_⟩⟩
        · rw [(item_at h3).1]
          simp [docText, Line.text, e2, blen_append]; omega
        · rw [(item_at h3).1, (item_at h4).1, e1]
          simp [docText, Line.text, e2, blen_append, show Char.utf8Size '\n' = 1 from rfl]; omega
  | cons m ms ih =>
    obtain ⟨n, m⟩ := m
    intro l h ho
    have ho1 : ¬ Open (l.item.text ++ (l.trail ++ (n ++ docText m ms))) ['\n'] :=
      notOpen_suffix (u := l.indent) (by simpa [docText, Line.text] using ho)
    have hne := break_ne h.2.1
    have h1 : l.item.Fits ((l.trail ++ (n ++ docText m ms)) ++ ['\n']) := by
      rcases item_final h.1.2.1 ho1 with h1 | ⟨e, -⟩
      · exact h1
      · simp [hne] at e
    rcases break_final h.2.1 with h2 | ⟨e, h2⟩
    · obtain ⟨m', ms', h3, h4, h5⟩ := ih m h.2.2 (notOpen_suffix (u := l.text ++ n) (by simpa [docText] using ho))
      refine ⟨l, (n, m') :: ms', ⟨⟨h.1.1, by simpa [h4] using h1, h.1.2.2⟩, by simpa [h4] using h2, h3⟩,
        by simp [docText, h4], fun unq p => ?_⟩
      show SameResult (l.item.eval unq (p + blen l.indent) >>= fun i => evalDoc unq (p + blen l.text + blen n) m ms >>= _)
        (l.item.eval unq (p + blen l.indent) >>= fun i => evalDoc unq (p + blen l.text + blen n) m' ms' >>= _) _
      cases l.item.eval unq (p + blen l.indent) with
      | error f => exact .inl ⟨f, rfl, rfl⟩
      | ok o =>
        rcases h5 unq (p + blen l.text + blen n) with ⟨f, h6, h7⟩ | ⟨is, is', h6, h7, h8⟩
        · exact .inl ⟨f, by rw [h6]; rfl, by rw [h7]; rfl⟩
        · refine .inr ⟨o.toList ++ is, o.toList ++ is', by rw [h6]; rfl, by rw [h7]; rfl, ?_⟩
          rcases h8 with rfl | ⟨pre, x, y, rfl, rfl, h9, h10, h11⟩
          · exact .inl rfl
          · have e : p + blen (docText l ((n, m) :: ms)) = p + blen l.text + blen n + blen (docText m ms) := by
              simp only [docText, blen_append]; omega
            rw [e]
            exact .inr ⟨o.toList ++ pre, x, y, by simp, by simp, h9, h10, h11⟩
    · refine ⟨l, (n ++ ['\n'], m) :: ms, ⟨⟨h.1.1, by simpa [e] using h1, h.1.2.2⟩, by rw [e]; exact h2, h.2.2⟩,
        by simp [docText, e], fun unq p => ?_⟩
      show SameResult (l.item.eval unq (p + blen l.indent) >>= fun i => evalDoc unq (p + blen l.text + blen n) m ms >>= _)
        (l.item.eval unq (p + blen l.indent) >>= fun i => evalDoc unq (p + blen l.text + blen (n ++ ['\n'])) m ms >>= _) _
      rw [(doc_empty h.2.2 e _).2, (doc_empty h.2.2 e _).2]
      exact .refl _ _

theorem doc_unfinal (ms : List (Str × Line)) : ∀ (l : Line) (s : Str), DocFits l ms → docText l ms = s ++ ['\n'] →
    ¬ Open s ['\n'] → ∃ l' ms', DocFits l' ms' ∧ docText l' ms' = s := by
  induction ms with
  | nil =>
    intro l s h e ho
    by_cases ht : l.trail = []
    · by_cases hi : l.item.text = []
      · exact absurd (by simpa [docText, Line.text, ht, hi] using e) (blanks_no_lf h.1)
      · obtain ⟨y, rfl, e2⟩ := ends_lf (a := l.indent) (b := l.item.text) (by simpa [docText, Line.text, ht] using e.symm) hi
        obtain ⟨i', h1, rfl⟩ := item_unfinal (by simpa [ht] using h.2.1) e2 (notOpen_suffix ho)
        exact ⟨⟨l.indent, i', []⟩, [], ⟨h.1, h1, blanks_nil'⟩, by simp [docText, Line.text]⟩
    · obtain ⟨y, -, e2⟩ := ends_lf (a := l.indent ++ l.item.text) (b := l.trail)
        (by simpa [docText, Line.text] using e.symm) ht
      exact absurd e2 (blanks_no_lf h.2.2)
  | cons m ms ih =>
    obtain ⟨n, m⟩ := m
    intro l s h e ho
    by_cases hd : docText m ms = []
    · obtain ⟨rfl, -⟩ := doc_empty (unq := fun s => .ok s) h.2.2 hd 0
      obtain ⟨y, rfl, e2⟩ := ends_lf (u := s) (a := l.text) (b := n) (by
        have e := e.symm
        rw [show docText l [(n, m)] = l.text ++ (n ++ docText m []) from rfl, hd, List.append_nil] at e
        exact e) (break_ne h.2.1)
      have h1 : l.item.Fits ((l.trail ++ y) ++ ['\n']) := by simpa [hd, e2] using h.1.2.1
      have h2 := item_upto zend_lf h1 (notOpen_suffix (u := l.indent) (by simpa [Line.text] using ho))
      rcases break_unfinal h.2.1 e2 with rfl | ⟨-, h3⟩
      · exact ⟨l, [], ⟨h.1.1, h2, h.1.2.2⟩, by simp [docText]⟩
      · exact ⟨l, [(y, m)], ⟨⟨h.1.1, by simpa [hd] using h2, h.1.2.2⟩, by simpa [hd] using h3, h.2.2⟩,
          by simp only [docText] at hd ⊢; simp [hd]⟩
    · obtain ⟨y, rfl, e2⟩ := ends_lf (a := l.text ++ n) (b := docText m ms) (by simpa [docText] using e.symm) hd
      obtain ⟨m', ms', h1, rfl⟩ := ih m y h.2.2 e2 (notOpen_suffix ho)
      have h2 : l.item.Fits ((l.trail ++ (n ++ docText m' ms')) ++ ['\n']) := by simpa [e2] using h.1.2.1
      have h3 := item_upto zend_lf h2 (notOpen_suffix (u := l.indent) (by simpa [Line.text] using ho))
      exact ⟨l, (n, m') :: ms', ⟨⟨h.1.1, h3, h.1.2.2⟩, LineBreak.cut (z := ['\n']) (by simpa [e2] using h.2.1), h1⟩,
        by simp [docText]⟩

end Src
end Verif
