import Verif.Proof.CutItem

/-!
# The end of an instruction does not cut a line continuation
-/

namespace Verif
namespace Src
open Spec

section
variable {z : Str}

theorem open_pre {P y : Str} (h : Open (P ++ y) z) : Open y z ∨ Blanks y := by
  obtain ⟨⟨a, w, e, hw⟩, h⟩ := h
  rcases List.append_eq_append_iff.1 e with ⟨x, rfl, e2⟩ | ⟨x, rfl, e2⟩
  · exact .inl ⟨⟨x, w, e2, hw⟩, h⟩
  · cases x with
    | nil => exact .inl ⟨⟨[], w, e2.symm, hw⟩, h⟩
    | cons c x =>
      obtain ⟨-, rfl⟩ := List.cons.inj e2
      exact .inr hw.right

theorem notOpen_pre {P y : Str} (h : ¬ Open y z) (hy : ¬ Blanks y) : ¬ Open (P ++ y) z := fun h' =>
  (open_pre h').elim h hy

/-- the last character is neither a blank nor a backslash -/
def LastPlain (x : Str) : Prop := ∃ a c, x = a ++ [c] ∧ c ≠ ' ' ∧ c ≠ '\t' ∧ c ≠ '\\'

theorem LastPlain.pre {x : Str} (P : Str) (h : LastPlain x) : LastPlain (P ++ x) := by
  obtain ⟨a, c, rfl, h⟩ := h
  exact ⟨P ++ a, c, by simp, h⟩

theorem LastPlain.notBlanks {x : Str} (h : LastPlain x) : ¬ Blanks x := by
  obtain ⟨a, c, rfl, h1, h2, -⟩ := h
  intro hb
  exact (hb c (by simp)).elim h1 h2

/-- a plain character closes -/
theorem notOpen_plain {P x y : Str} (h : LastPlain x) (hy : ¬ Open y z) : ¬ Open (P ++ (x ++ y)) z := by
  obtain ⟨a, c, rfl, h1, h2, h3⟩ := h
  intro ho
  have ho : Open ((P ++ a) ++ (c :: y)) z := by simpa using ho
  rcases open_pre ho with h | h
  · obtain ⟨⟨b, w, e, hw⟩, h⟩ := h
    cases b with
    | nil => exact h3 (List.cons.inj e).1
    | cons d b => exact hy ⟨⟨b, w, (List.cons.inj e).2, hw⟩, h⟩
  · exact (h c List.mem_cons_self).elim h1 h2

theorem notOpen_nil : ¬ Open [] z := by
  rintro ⟨⟨a, w, e, -⟩, -⟩
  cases a <;> cases e

theorem LastPlain.notOpen {x : Str} (h : LastPlain x) : ¬ Open x z := by
  have := notOpen_plain (z := z) (P := []) h notOpen_nil
  simpa using this

theorem notOpen_shift {x w : Str} (hw : Blanks w) (h : ¬ Open x (w ++ z)) : ¬ Open (x ++ w) z := by
  rintro ⟨⟨a, v, e, hv⟩, u, n, t, rfl, hu, hn⟩
  refine h ?_
  rcases List.append_eq_append_iff.1 e with ⟨y, rfl, e2⟩ | ⟨y, rfl, e2⟩
  · have := hw '\\' (by rw [e2]; simp)
    simp at this
  · cases y with
    | nil =>
      rw [List.nil_append] at e2
      subst e2
      have := hw '\\' (by simp)
      simp at this
    | cons c y =>
      obtain ⟨rfl, rfl⟩ := List.cons.inj e2
      exact ⟨⟨a, y, rfl, hv.left⟩, w ++ u, n, t, by simp, hw.app hu, hn⟩

theorem over_plain {P : Char → Prop} (hP : ∀ c, P c → c ≠ ' ' ∧ c ≠ '\t' ∧ c ≠ '\\') {t : Str} (ht : t ≠ [])
    (h : ∀ c ∈ t, P c) : LastPlain t := by
  refine ⟨t.dropLast, t.getLast ht, (List.dropLast_concat_getLast ht).symm, hP _ (h _ (List.getLast_mem ht))⟩

theorem alpha_lp {c : Char} (h : IsAlpha c) : c ≠ ' ' ∧ c ≠ '\t' ∧ c ≠ '\\' := by
  refine ⟨?_, ?_, ?_⟩ <;> rintro rfl <;> exact nalpha (by decide) h

theorem digit_lp {c : Char} (h : IsDigit c) : c ≠ ' ' ∧ c ≠ '\t' ∧ c ≠ '\\' := by
  refine ⟨?_, ?_, ?_⟩ <;> rintro rfl <;> revert h <;> unfold IsDigit <;> decide

theorem word_lp {c : Char} (h : IsWord c) : c ≠ ' ' ∧ c ≠ '\t' ∧ c ≠ '\\' := by
  rcases h with h | h | rfl
  · exact alpha_lp h
  · exact digit_lp h
  · decide

theorem ident_lp {c : Char} (h : IsIdent c) : c ≠ ' ' ∧ c ≠ '\t' ∧ c ≠ '\\' := by
  rcases h with h | h | rfl | rfl
  · exact alpha_lp h
  · exact digit_lp h
  · decide
  · decide

theorem image_lp {c : Char} (h : IsImageChar c) : c ≠ ' ' ∧ c ≠ '\t' ∧ c ≠ '\\' := by
  rcases h with h | h | rfl | rfl | rfl | rfl | rfl | rfl | rfl | rfl | rfl
  · exact alpha_lp h
  · exact digit_lp h
  all_goals decide

theorem quoted_lp {t : Str} (h : QuotedText t) : LastPlain t := by
  obtain ⟨q, b, rfl, hq, -⟩ := h
  refine ⟨q :: b, q, by simp, ?_⟩
  rcases hq with rfl | rfl <;> decide

theorem keyword_lp {kw k : Str} (h : lower kw = k) (hk : k ≠ []) (ha : ∀ c ∈ k, isAlpha c = true) : LastPlain kw := by
  subst h
  refine over_plain (P := IsAlpha) (fun c => alpha_lp) (by rintro rfl; exact hk rfl) fun c hc => ?_
  have := ha (lowerChar c) (List.mem_map.2 ⟨c, hc, rfl⟩)
  rw [isAlpha_lowerChar] at this
  exact isAlpha_iff.1 this

theorem word_notOpen {w : Str} (h : Word w z) : ¬ Open w z := by
  rintro ⟨⟨a, v, rfl, hv⟩, u, n, t, rfl, hu, hn⟩
  exact h.2.1 a ('\\' :: v) rfl (by simp) (.inr (.inr ⟨v ++ u, n, t, by simp, hv.app hu, hn⟩))

theorem word_notBlanks {w : Str} (h : Word w z) : ¬ Blanks w := by
  intro hb
  cases w with
  | nil => exact h.1 rfl
  | cons c w => exact h.2.1 [] (c :: w) rfl (by simp) (.inr (.inl ⟨c, w ++ z, rfl, hb c List.mem_cons_self⟩))

theorem value_notOpen {v : Value} (h : v.Fits z) : ¬ Open v.text z ∧ ¬ Blanks v.text := by
  cases v with
  | quoted t => exact ⟨(quoted_lp h).notOpen, (quoted_lp h).notBlanks⟩
  | bare t => exact ⟨word_notOpen h.2, word_notBlanks h.2⟩

theorem notBlanks_pre {P y : Str} (h : ¬ Blanks y) : ¬ Blanks (P ++ y) := fun h' => h h'.right

theorem pairs_notOpen {F : Pair → Str → Prop} (hF : ∀ f y, F f y → f.value.Fits y) {ps : List Pair} {y : Str}
    (h : PairsFit F ps y) (hp : ps ≠ []) : ¬ Open (pairsText ps) y ∧ ¬ Blanks (pairsText ps) := by
  induction ps with
  | nil => exact absurd rfl hp
  | cons f fs ih =>
    by_cases hfs : fs = []
    · subst hfs
      obtain ⟨h1, h2⟩ := value_notOpen (hF _ _ h.1)
      have e : pairsText [f] = (f.gap ++ f.name.text ++ ['=']) ++ f.value.text := by
        simp [pairsText, Pair.text, Pair.body]
      rw [e]
      exact ⟨notOpen_pre h1 h2, notBlanks_pre h2⟩
    · obtain ⟨h1, h2⟩ := ih h.2 hfs
      have e : pairsText (f :: fs) = f.text ++ pairsText fs := by simp [pairsText]
      rw [e]
      exact ⟨notOpen_pre h1 h2, notBlanks_pre h2⟩

theorem args_notOpen {ss : List Arg} {d : Arg} {y : Str} (h : ArgsFit (ss ++ [d]) y) :
    ¬ Open (argsText (ss ++ [d])) y ∧ ¬ Blanks (argsText (ss ++ [d])) := by
  induction ss with
  | nil =>
    have hw : Word d.value y := by simpa [argsText] using h.1.2
    have e : argsText ([] ++ [d]) = d.gap ++ d.value := by simp [argsText, Arg.text]
    rw [e]
    exact ⟨notOpen_pre (word_notOpen hw) (word_notBlanks hw), notBlanks_pre (word_notBlanks hw)⟩
  | cons f fs ih =>
    obtain ⟨h1, h2⟩ := ih h.2
    have e : argsText (f :: fs ++ [d]) = f.text ++ argsText (fs ++ [d]) := by simp [argsText]
    rw [e]
    exact ⟨notOpen_pre h1 h2, notBlanks_pre h2⟩

theorem break_lp {n r : Str} (h : LineBreak n r) : LastPlain n := by
  rcases h with rfl | rfl | ⟨rfl, -⟩
  · exact ⟨[], '\n', rfl, by decide⟩
  · exact ⟨['\r'], '\n', rfl, by decide⟩
  · exact ⟨[], '\r', rfl, by decide⟩

theorem skip_last {l r : Str} (h : SkipLines l r) : l = [] ∨ r = [] ∨ LastPlain l := by
  induction h with
  | nil => exact .inl rfl
  | @blank w n l r hw hn _ ih =>
    rcases ih with rfl | h | h
    · exact .inr (.inr (by simpa using (break_lp hn).pre w))
    · exact .inr (.inl h)
    · exact .inr (.inr ((h.pre n).pre w))
  | @comment w t n l r hw ht hn _ ih =>
    rcases ih with rfl | h | h
    · exact .inr (.inr (by simpa using ((break_lp hn).pre t).pre w))
    · exact .inr (.inl h)
    · exact .inr (.inr (((h.pre n).pre t).pre w))
  | lastComment => exact .inr (.inl rfl)

theorem open_ne {x : Str} (h : Open x z) : z ≠ [] := by
  obtain ⟨-, w, n, t, rfl, -, hn⟩ := h
  rcases hn with rfl | rfl | ⟨rfl, -⟩ <;> simp

/-- space in front of `z` does not leave anything open -/
theorem space_notOpen {t : Str} (h : Space t z) : ¬ Open t z := by
  induction h with
  | nil => exact notOpen_nil
  | @blank c g r hc _ ih =>
    rintro ⟨⟨a, v, e, hv⟩, h⟩
    cases a with
    | nil =>
      obtain ⟨rfl, -⟩ := List.cons.inj e
      simp at hc
    | cons d a => exact ih ⟨⟨a, v, (List.cons.inj e).2, hv⟩, h⟩
  | @continuation w n l g r hw hn hl _ ih =>
    intro ho
    have hr := open_ne ho
    have hlp : LastPlain (n ++ l) := by
      rcases skip_last hl with rfl | h | h
      · simpa using break_lp hn
      · exact absurd (List.append_eq_nil_iff.1 h).2 hr
      · exact h.pre n
    exact notOpen_plain (P := '\\' :: w) hlp ih (by simpa using ho)

theorem space_app_notOpen {x t : Str} (h : Space t z) (hx : ¬ Open x (t ++ z)) : ¬ Open (x ++ t) z := by
  by_cases hb : Blanks t
  · exact notOpen_shift hb hx
  · exact notOpen_pre (space_notOpen h) hb

theorem shell_notOpen {s : Shell} (h : s.Fits z) : ¬ Open s.text z := by
  induction s with
  | last t =>
    rintro ⟨⟨a, v, rfl, hv⟩, u, n, t, rfl, hu, hn⟩
    exact h.1.2.2.1 a ('\\' :: v) rfl (by simp) ⟨v ++ u, n, t, by simp, hv.app hu, hn⟩
  | lastComment w t n =>
    rcases h.2.2 with ⟨-, h⟩ | ⟨h, -⟩
    · exact fun ho => open_ne ho h
    · exact (((break_lp h).pre t).pre w).notOpen
  | more t w n s ih =>
    have := notOpen_plain (P := t ++ '\\' :: w) (break_lp h.2.2.1) (ih h.2.2.2)
    simpa [Shell.text] using this
  | comment w t n s ih =>
    have := notOpen_plain (P := w ++ t) (break_lp h.2.2.1) (ih h.2.2.2)
    simpa [Shell.text] using this

theorem shell_ne {s : Shell} (h : s.Fits z) : s.text ≠ [] := by
  cases s with
  | last t => exact h.1.1
  | lastComment w t n =>
    obtain ⟨b, rfl, -⟩ := h.2.1
    simp [Shell.text]
  | more t w n s => simp [Shell.text]
  | comment w t n s =>
    obtain ⟨b, rfl, -⟩ := h.2.1
    simp [Shell.text]

theorem array_lp (a : Array) : LastPlain a.text := by
  cases a with
  | empty g => exact ⟨'[' :: g, ']', by simp [Array.text], by decide⟩
  | full g v es c g' =>
    exact ⟨'[' :: (g ++ (v ++ (elemsText es ++ ((if c then [','] else []) ++ g')))), ']',
      by simp [Array.text, Array.tail], by decide⟩

/-- what follows space is not all blanks -/
theorem gap_notBlanks {g x : Str} (h : Space g (x ++ z)) (hx : x ≠ []) : ¬ Blanks x := by
  intro hb
  cases x with
  | nil => exact hx rfl
  | cons c x => exact h.nospace (.inl ⟨c, x ++ z, rfl, hb c List.mem_cons_self⟩)

/-- The end of an instruction does not cut a line continuation. -/
theorem item_notOpen {i : Item} (h : i.Fits z) (hi : i.IsInstr) : ¬ Open i.text z := by
  cases i with
  | blank => cases hi
  | comment t => cases hi
  | «from» kw fs g i a =>
    obtain ⟨h1, h2, h3, h4, h5, h6⟩ := h
    refine LastPlain.notOpen (LastPlain.pre _ (LastPlain.pre _ (LastPlain.pre _ ?_)))
    cases a with
    | none => simpa [aliasText] using over_plain (fun c => image_lp) h4 h5
    | some a =>
      obtain ⟨-, -, -, h7, h8⟩ := h6 a rfl
      exact LastPlain.pre _ (LastPlain.pre _ (LastPlain.pre _ (LastPlain.pre _ (over_plain (fun c => ident_lp) h7 h8))))
  | arg kw g n v =>
    obtain ⟨h1, h2, ⟨c, b, rfl, h3, h3'⟩, h4⟩ := h
    cases v with
    | none =>
      refine LastPlain.notOpen (LastPlain.pre _ (LastPlain.pre _ ?_))
      rw [valueText, List.append_nil]
      refine over_plain (P := IsWord) (fun c => word_lp) (by simp) fun d hd => ?_
      rcases List.mem_cons.1 hd with rfl | hd
      · exact .inl h3
      · exact h3' d hd
    | some v =>
      obtain ⟨h5, h6⟩ := value_notOpen (h4 v rfl)
      have := notOpen_pre (P := kw ++ (g ++ (c :: b ++ ['=']))) h5 h6
      simpa [Item.text, valueText] using this
  | label kw ps t =>
    obtain ⟨h1, h2, h3, h4, h5⟩ := h
    have : ¬ Open (kw ++ pairsText ps) (t ++ z) := by
      by_cases hp : ps = []
      · subst hp
        simpa [pairsText] using (keyword_lp h1 (by decide) (by decide)).notOpen
      · obtain ⟨h6, h7⟩ := pairs_notOpen (fun f y h => h.2.2) h2 hp
        exact notOpen_pre h6 h7
    simpa [Item.text] using space_app_notOpen h3 this
  | label1 kw g n g' v =>
    obtain ⟨h1, h2, h3, h4, h5⟩ := h
    obtain ⟨h6, h7⟩ := value_notOpen h5
    have := notOpen_pre (P := kw ++ (g ++ (n.text ++ g'))) h6 h7
    simpa [Item.text] using this
  | shell k kw g s =>
    obtain ⟨h1, h2, h3, h4⟩ := h
    have := notOpen_pre (P := kw ++ g) (shell_notOpen h3) (gap_notBlanks h2.2 (shell_ne h3))
    simpa [Item.text] using this
  | exec k kw g a => exact LastPlain.notOpen (LastPlain.pre _ (LastPlain.pre _ (array_lp a)))
  | copy kw fs ss d =>
    obtain ⟨h1, h2, h3, h4, h5⟩ := h
    obtain ⟨h6, h7⟩ := args_notOpen h4
    have := notOpen_pre (P := kw ++ flagsText fs) h6 h7
    simpa [Item.text, argsText] using this
  | env kw ps t =>
    obtain ⟨h1, h2, h3, h4, h5⟩ := h
    have : ¬ Open (kw ++ pairsText ps) (t ++ z) := by
      by_cases hp : ps = []
      · subst hp
        simpa [pairsText] using (keyword_lp h1 (by decide) (by decide)).notOpen
      · obtain ⟨h6, h7⟩ := pairs_notOpen (fun f y h => h.2.2) h2 hp
        exact notOpen_pre h6 h7
    simpa [Item.text] using space_app_notOpen h3 this
  | env1 kw g n g' s =>
    obtain ⟨h1, h2, h3, h4, h5, h6, h7⟩ := h
    have := notOpen_pre (P := kw ++ (g ++ (n ++ g'))) (shell_notOpen h6) (gap_notBlanks h5.2 (shell_ne h6))
    simpa [Item.text] using this
  | env1q kw g n g' v =>
    obtain ⟨h1, h2, h3, h4, h5, h6⟩ := h
    exact LastPlain.notOpen (LastPlain.pre _ (LastPlain.pre _ (LastPlain.pre _ (LastPlain.pre _ (quoted_lp h6)))))
  | misc w a =>
    obtain ⟨h1, h2, h3, h4, h5⟩ := h
    have := notOpen_plain (P := []) (over_plain (fun c => alpha_lp) h1 h2) (shell_notOpen h3)
    simpa [Item.text] using this

end
end Src
end Verif
