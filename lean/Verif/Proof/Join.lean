import Verif.Proof.CutDoc
import Verif.Spec.Join

/-!
# Adding text after the end of a document: items
-/

namespace Verif
namespace Src
open Spec

/-- the last character is the end of a line -/
def BreakEnd (x : Str) : Prop := ∃ a c, x = a ++ [c] ∧ (c = '\n' ∨ c = '\r')

theorem BreakEnd.lp {x : Str} (h : BreakEnd x) : LastPlain x := by
  obtain ⟨a, c, rfl, hc⟩ := h
  exact ⟨a, c, rfl, by rcases hc with rfl | rfl <;> decide⟩

theorem BreakEnd.pre {x : Str} (P : Str) (h : BreakEnd x) : BreakEnd (P ++ x) := by
  obtain ⟨a, c, rfl, hc⟩ := h
  exact ⟨P ++ a, c, by simp, hc⟩

theorem BreakEnd.ne {x : Str} (h : BreakEnd x) : x ≠ [] := by
  obtain ⟨a, c, rfl, hc⟩ := h
  simp

theorem BreakEnd.no {x : Str} (h : BreakEnd x) (z : Str) : ¬ Open x z := h.lp.notOpen

/-- a text without line breaks in front lies in front of the last line break -/
theorem BreakEnd.before {u z a b : Str} (h : BreakEnd u) (e : u ++ z = a ++ b)
    (ha : ∀ c ∈ a, ¬ (c = '\n' ∨ c = '\r')) : ∃ u', u = a ++ u' ∧ b = u' ++ z ∧ BreakEnd u' := by
  obtain ⟨v, c, rfl, hc⟩ := h
  rw [List.append_assoc] at e
  rcases List.append_eq_append_iff.1 e with ⟨x, rfl, e2⟩ | ⟨x, rfl, e2⟩
  · cases x with
    | nil => exact ⟨[c], by simp, e2.symm, [], c, rfl, hc⟩
    | cons d x =>
      obtain ⟨rfl, -⟩ := List.cons.inj e2
      exact absurd hc (ha c (by simp))
  · exact ⟨x ++ [c], by simp, by simpa using e2, x, c, rfl, hc⟩

section
variable {z : Str}

theorem wordEnd_add {x : Str} (h : WordEnd x) (hx : x ≠ []) : WordEnd (x ++ z) := by
  rcases h with h | h
  · exact .inl (h.ext hx)
  · exact .inr h.ext

theorem word_add {w r : Str} (h : Word w r) (hr : BreakEnd r) : Word w (r ++ z) := by
  refine ⟨h.1, fun a b e hb hw => h.2.1 a b e hb ?_, wordEnd_add h.2.2 hr.ne⟩
  rw [← List.append_assoc] at hw
  exact hw.cut ((hr.pre b).no z)

theorem gap_add {g r : Str} (h : Gap g r) (hr : BreakEnd r) : Gap g (r ++ z) := h.ext hr.ne (hr.no z)

theorem space_add {g r : Str} (h : Space g r) (hr : BreakEnd r) : Space g (r ++ z) := h.ext hr.ne (hr.no z)

theorem flag_add {f : Flag} {r : Str} (h : f.Fits r) (hr : BreakEnd r) : f.Fits (r ++ z) :=
  ⟨by simpa using gap_add (z := z) h.1 (hr.pre _), h.2.1, h.2.2.1, word_add h.2.2.2 hr⟩

theorem flags_add {fs : List Flag} {r : Str} (h : FlagsFit fs r) (hr : BreakEnd r) : FlagsFit fs (r ++ z) := by
  induction fs with
  | nil => trivial
  | cons f fs ih => exact ⟨by simpa using flag_add (z := z) h.1 (hr.pre _), ih h.2⟩

theorem args_add {fs : List Arg} {r : Str} (h : ArgsFit fs r) (hr : BreakEnd r) : ArgsFit fs (r ++ z) := by
  induction fs with
  | nil => trivial
  | cons f fs ih =>
    refine ⟨⟨?_, ?_⟩, ih h.2⟩
    · simpa using gap_add (z := z) h.1.1 ((hr.pre (argsText fs)).pre f.value)
    · simpa using word_add (z := z) h.1.2 (hr.pre (argsText fs))

theorem startsFlag_less {u : Str} (h : StartsFlag (u ++ z)) (hu : BreakEnd u) : StartsFlag u := by
  obtain ⟨n, v, r, e, h1, h2, h3⟩ := h
  obtain ⟨u', rfl, rfl, hu'⟩ := hu.before (a := '-' :: '-' :: (n ++ '=' :: v)) (b := r) (by simpa using e)
    (flagBody_chars h2 h3)
  refine ⟨n, v, u', by simp, h1, h2, h3.1, fun a b e hb hw => ?_, h3.2.2.cut (hu'.no z)⟩
  exact h3.2.1 a b e hb (by rw [← List.append_assoc]; exact wordEnd_add hw (hu'.pre b).ne)

theorem piece_add {t r : Str} (h : Shell.Piece t r) (hr : BreakEnd r) : Shell.Piece t (r ++ z) := by
  refine ⟨h.1, h.2.1, fun a b e hb hc => ?_, fun w u hw e => ?_⟩
  · rw [← List.append_assoc] at hc
    exact h.2.2.1 a b e hb (hc.cut (hr.pre b).ne ((hr.pre b).no z))
  · obtain ⟨u', e', -, -⟩ := (hr.pre t).before (a := w ++ ['#']) (b := u) (by simpa using e) (by
      intro c hc
      rcases List.mem_append.1 hc with hc | hc
      · rcases hw c hc with rfl | rfl <;> decide
      · rw [List.mem_singleton.1 hc]; decide)
    exact h.2.2.2 w u' hw (by simpa using e')

theorem break_add {n r : Str} (h : LineBreak n r) (hr : BreakEnd r) : LineBreak n (r ++ z) := h.extNil hr.ne

theorem shell_add {s : Shell} {r : Str} (h : s.Fits r) (hr : BreakEnd r) : s.Fits (r ++ z) := by
  induction s with
  | last t => exact ⟨piece_add h.1 hr, h.2.ext hr.ne⟩
  | lastComment w t n =>
    refine ⟨h.1, h.2.1, .inr ?_⟩
    rcases h.2.2 with ⟨-, rfl⟩ | h
    · exact absurd rfl hr.ne
    · exact ⟨break_add h.1 hr, h.2.ext hr.ne⟩
  | more t w n s ih =>
    refine ⟨?_, h.2.1, ?_, ih h.2.2.2⟩
    · have := piece_add (z := z) h.1 ((((hr.pre s.text).pre n).pre w).pre ['\\'])
      simpa using this
    · simpa using break_add (z := z) h.2.2.1 (hr.pre s.text)
  | comment w t n s ih =>
    exact ⟨h.1, h.2.1, by simpa using break_add (z := z) h.2.2.1 (hr.pre s.text), ih h.2.2.2⟩

theorem array_add {a : Array} {r : Str} (h : a.Fits r) (hr : BreakEnd r) : a.Fits (r ++ z) :=
  array_ext h ((hr.pre a.text).no z)

theorem nameWord_add {t r : Str} (h : NameWord t r) (hr : r ≠ []) : NameWord t (r ++ z) := by
  refine ⟨h.1, h.2.1, fun c b e => ?_⟩
  cases r with
  | nil => exact absurd rfl hr
  | cons d r =>
    obtain ⟨rfl, -⟩ := List.cons.inj e
    exact h.2.2 d r rfl

/-- at the spots in `x ++ r` where quotes are looked for, nothing changes with `z` -/
def QuotesStay (x z : Str) (p : Nat) (spots : List Nat) : Prop :=
  ∀ a b, x = a ++ b → p + blen a ∈ spots → NoQuoted b → NoQuoted (b ++ z)

theorem value_add {v : Value} {r : Str} (h : v.Fits r) (hr : BreakEnd r)
    (hq : NoQuoted (v.text ++ r) → NoQuoted (v.text ++ r ++ z)) : v.Fits (r ++ z) := by
  cases v with
  | quoted t => exact h
  | bare t => exact ⟨by simpa [Value.text] using hq h.1, word_add h.2 hr⟩

theorem name_add {v : Value} {r : Str} (h : v.FitsName r) (hr : r ≠ [])
    (hq : NoQuoted (v.text ++ r) → NoQuoted (v.text ++ r ++ z)) : v.FitsName (r ++ z) := by
  cases v with
  | quoted t => exact h
  | bare t => exact ⟨by simpa [Value.text] using hq h.1, nameWord_add h.2 hr⟩

theorem QuotesStay.tail {x y : Str} {p : Nat} {s s' : List Nat} (h : QuotesStay (x ++ y) z p s)
    (hs : ∀ q ∈ s', q ∈ s) : QuotesStay y z (p + blen x) s' := by
  rintro a b rfl hm hn
  exact h (x ++ a) b (by simp) (by rw [blen_append, ← Nat.add_assoc]; exact hs _ hm) hn

theorem QuotesStay.at {x y : Str} {p : Nat} {s : List Nat} (h : QuotesStay (x ++ y) z p s)
    (hs : p + blen x ∈ s) : NoQuoted y → NoQuoted (y ++ z) := h x y rfl hs

theorem labels_add {unq : Unquote} {ps : List Pair} {r : Str} : ∀ {p : Nat} {xs : List Label},
    PairsFit Pair.FitsLabel ps r → BreakEnd r → evalPairs (Pair.evalLabel unq) p ps = .ok xs →
    QuotesStay (pairsText ps ++ r) z p (xs.flatMap fun l => [l.name.span.start, l.value.span.start]) →
    PairsFit Pair.FitsLabel ps (r ++ z) := by
  induction ps with
  | nil => intros; trivial
  | cons f fs ih =>
    intro p xs h hr he hq
    obtain ⟨x, e1, he⟩ := bind_some he
    obtain ⟨ys, e2, he⟩ := bind_some he
    cases he
    obtain ⟨nn, -, e1⟩ := bind_some e1
    obtain ⟨vv, -, e1⟩ := bind_some e1
    cases e1
    have hr' : BreakEnd (pairsText fs ++ r) := hr.pre _
    refine ⟨⟨?_, ?_, ?_⟩, ih h.2 hr e2 ?_⟩
    · simpa using gap_add (z := z) h.1.1 (hr'.pre f.body)
    · have := name_add (z := z) h.1.2.1 (by simp) (by
        have := QuotesStay.at (x := f.gap) (y := f.name.text ++ '=' :: (f.value.text ++ (pairsText fs ++ r)))
          (by simpa [pairsText, Pair.text, Pair.body] using hq)
          (by simp [Pair.nameSpan])
        simpa using this)
      simpa using this
    · have := value_add (z := z) h.1.2.2 hr' (by
        have := QuotesStay.at (x := f.gap ++ (f.name.text ++ ['='])) (y := f.value.text ++ (pairsText fs ++ r))
          (by simpa [pairsText, Pair.text, Pair.body] using hq)
          (by simp [Pair.valueSpan, Pair.nameSpan, show Char.utf8Size '=' = 1 from rfl]; try omega)
        simpa using this)
      simpa using this
    · exact QuotesStay.tail (x := f.text) (by simpa [pairsText] using hq) (by
        intro q hq
        exact List.mem_cons_of_mem _ (List.mem_cons_of_mem _ hq))

theorem envs_add {unq : Unquote} {ps : List Pair} {r : Str} : ∀ {p : Nat} {xs : List EnvVar},
    PairsFit Pair.FitsEnv ps r → BreakEnd r → evalPairs (Pair.evalEnv unq) p ps = .ok xs →
    QuotesStay (pairsText ps ++ r) z p (xs.map (·.value.span.start)) →
    PairsFit Pair.FitsEnv ps (r ++ z) := by
  induction ps with
  | nil => intros; trivial
  | cons f fs ih =>
    intro p xs h hr he hq
    obtain ⟨x, e1, he⟩ := bind_some he
    obtain ⟨ys, e2, he⟩ := bind_some he
    cases he
    obtain ⟨vv, -, e1⟩ := bind_some e1
    cases e1
    have hr' : BreakEnd (pairsText fs ++ r) := hr.pre _
    refine ⟨⟨?_, h.1.2.1, ?_⟩, ih h.2 hr e2 ?_⟩
    · simpa using gap_add (z := z) h.1.1 (hr'.pre f.body)
    · have := value_add (z := z) h.1.2.2 hr' (by
        have := QuotesStay.at (x := f.gap ++ (f.name.text ++ ['='])) (y := f.value.text ++ (pairsText fs ++ r))
          (by simpa [pairsText, Pair.text, Pair.body] using hq)
          (by simp [Pair.valueSpan, Pair.nameSpan, show Char.utf8Size '=' = 1 from rfl]; try omega)
        simpa using this)
      simpa using this
    · exact QuotesStay.tail (x := f.text) (by simpa [pairsText] using hq) (by
        intro q hq
        exact List.mem_cons_of_mem _ hq)

/-- An item with more text after the end. -/
theorem item_add {unq : Unquote} {i : Item} {r : Str} (h : i.Fits r) (hr : BreakEnd r) {p : Nat} {o : Option Instruction}
    (he : i.eval unq p = .ok o)
    (hq : ∀ x, o = some x → QuotesStay (i.text ++ r) z p (quoteSpots x))
    (ha : ∀ x, o = some x → ∀ a b, i.text ++ r = a ++ b → p + blen a ∈ arraySpots x → NoArray b → NoArray (b ++ z))
    (hw : ∀ x, o = some x → ∀ a b k, i.text ++ r = a ++ b → (k, p + blen a) ∈ wordSpots x → IsKeyword k →
      ¬ Begins (lower k) b → ¬ Begins (lower k) (b ++ z)) :
    i.Fits (r ++ z) := by
  cases i with
  | blank => trivial
  | comment t => exact ⟨h.1, h.2.ext hr.ne⟩
  | «from» kw fs g i a =>
    obtain ⟨h1, h2, h3, h4, h5, h6⟩ := h
    have hr1 := (hr.pre (aliasText a)).pre i
    refine ⟨h1, by simpa using flags_add (z := z) h2 (hr1.pre g), by simpa using gap_add (z := z) h3 hr1, h4, h5, ?_⟩
    intro x hx
    obtain ⟨h7, h8, h9, h10, h11⟩ := h6 x hx
    refine ⟨by simpa using gap_add (z := z) h7 (((hr.pre x.name).pre x.gap').pre x.kw), h8,
      by simpa using gap_add (z := z) h9 (hr.pre x.name), h10, h11⟩
  | arg kw g n v =>
    obtain ⟨h1, h2, h3, h4⟩ := h
    refine ⟨h1, by simpa using gap_add (z := z) h2 ((hr.pre (valueText v)).pre n), h3, ?_⟩
    rintro x rfl
    obtain ⟨c, -, he⟩ := bind_some he
    cases he
    refine value_add (h4 x rfl) hr ?_
    have := QuotesStay.at (x := kw ++ (g ++ (n ++ ['=']))) (y := x.text ++ r)
      (by simpa [Item.text, valueText] using hq _ rfl) (by simp [quoteSpots, show Char.utf8Size '=' = 1 from rfl]; try omega)
    simpa using this
  | label kw ps t =>
    obtain ⟨h1, h2, h3, h4, h5⟩ := h
    obtain ⟨xs, e1, he⟩ := bind_some he
    cases he
    refine ⟨h1, ?_, space_add h3 hr, h4, h5.ext hr.ne⟩
    have := labels_add (z := z) h2 (hr.pre t) e1
      (QuotesStay.tail (x := kw) (by simpa [Item.text, quoteSpots] using hq _ rfl) fun q h => h)
    simpa using this
  | label1 kw g n g' v =>
    obtain ⟨h1, h2, h3, h4, h5⟩ := h
    obtain ⟨c, -, he⟩ := bind_some he
    obtain ⟨d, -, he⟩ := bind_some he
    cases he
    have hr1 := hr.pre v.text
    refine ⟨h1, by simpa using gap_add (z := z) h2 ((hr1.pre g').pre n.text), ?_, by simpa using gap_add (z := z) h4 hr1, ?_⟩
    · have := name_add (z := z) h3 (hr1.pre g').ne (by
        have := QuotesStay.at (x := kw ++ g) (y := n.text ++ (g' ++ (v.text ++ r)))
          (by simpa [Item.text] using hq _ rfl) (by simp [quoteSpots]; omega)
        simpa using this)
      simpa using this
    · refine value_add h5 hr ?_
      have := QuotesStay.at (x := kw ++ (g ++ (n.text ++ g'))) (y := v.text ++ r)
          (by simpa [Item.text] using hq _ rfl) (by simp [quoteSpots]; omega)
      simpa using this
  | shell k kw g s =>
    obtain ⟨h1, h2, h3, h4⟩ := h
    simp only [Item.eval] at he
    split at he
    · cases he
    · cases he
      refine ⟨h1, by simpa using gap_add (z := z) h2 (hr.pre s.text), shell_add h3 hr, ?_⟩
      have := ha _ rfl (kw ++ g) (s.text ++ r) (by simp [Item.text])
        (by cases k <;> simp [arraySpots, ExecKind.instr, Shell.string] <;> omega) h4
      simpa using this
  | exec k kw g a =>
    obtain ⟨h1, h2, h3⟩ := h
    exact ⟨h1, by simpa using gap_add (z := z) h2 (hr.pre a.text), array_add h3 hr⟩
  | copy kw fs ss d =>
    obtain ⟨h1, h2, h3, h4, h5⟩ := h
    refine ⟨h1, by simpa using flags_add (z := z) h2 (hr.pre _), h3, args_add h4 hr, ?_⟩
    rintro f b rfl hf
    refine h5 f b rfl (startsFlag_less (z := z) (by simpa using hf) ((hr.pre _).pre _))
  | env kw ps t =>
    obtain ⟨h1, h2, h3, h4, h5⟩ := h
    obtain ⟨xs, e1, he⟩ := bind_some he
    cases he
    refine ⟨h1, ?_, space_add h3 hr, h4, h5.ext hr.ne⟩
    have := envs_add (z := z) h2 (hr.pre t) e1
      (QuotesStay.tail (x := kw) (by simpa [Item.text, quoteSpots] using hq _ rfl) fun q h => h)
    simpa using this
  | env1 kw g n g' s =>
    obtain ⟨h1, h2, h3, h4, h5, h6, h7⟩ := h
    cases he
    have hr1 := hr.pre s.text
    refine ⟨h1, by simpa using gap_add (z := z) h2 ((hr1.pre g').pre n), h3, h4, by simpa using gap_add (z := z) h5 hr1,
      shell_add h6 hr, ?_⟩
    have := QuotesStay.at (x := kw ++ (g ++ (n ++ g'))) (y := s.text ++ r)
      (by simpa [Item.text] using hq _ rfl) (by simp [quoteSpots, Shell.string]; omega) h7
    simpa using this
  | env1q kw g n g' v =>
    obtain ⟨h1, h2, h3, h4, h5, h6⟩ := h
    have hr1 := hr.pre v
    exact ⟨h1, by simpa using gap_add (z := z) h2 ((hr1.pre g').pre n), h3, h4, by simpa using gap_add (z := z) h5 hr1, h6⟩
  | misc w a =>
    obtain ⟨h1, h2, h3, h4, h5⟩ := h
    cases he
    refine ⟨h1, h2, shell_add h3 hr, h4, fun hk => ?_⟩
    have := hw _ rfl w (a.text ++ r) w (by simp [Item.text]) (by simp [wordSpots, Shell.string]) hk (h5 hk)
    simpa using this

end
end Src
end Verif
