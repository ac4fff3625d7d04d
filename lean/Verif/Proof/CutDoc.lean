import Verif.Proof.CutOpen

/-!
# Cutting a text at the end of a line: documents
-/

namespace Verif
namespace Src
open Spec

theorem bind_some {α β : Type} {x : Result α} {k : α → Result β} {b : β} (h : x >>= k = .ok b) :
    ∃ a, x = .ok a ∧ k a = .ok b := by
  cases x with
  | error e => cases h
  | ok a => exact ⟨a, rfl, h⟩

/-- the span of an instruction is where its text is -/
theorem item_at {unq : Unquote} {i : Item} {p : Nat} {x : Instruction} (h : i.eval unq p = .ok (some x)) :
    x.span = ⟨p, p + blen i.text⟩ ∧ i.IsInstr := by
  cases i with
  | blank => cases h
  | comment t => cases h
  | «from» kw fs g i a =>
    obtain ⟨_, -, h⟩ := bind_some h
    obtain ⟨_, -, h⟩ := bind_some h
    cases h
    exact ⟨rfl, rfl⟩
  | arg kw g n v =>
    cases v with
    | none => cases h; exact ⟨rfl, rfl⟩
    | some v =>
      obtain ⟨_, -, h⟩ := bind_some h
      cases h
      exact ⟨rfl, rfl⟩
  | label kw ps t =>
    obtain ⟨_, -, h⟩ := bind_some h
    cases h
    exact ⟨rfl, rfl⟩
  | label1 kw g n g' v =>
    obtain ⟨_, -, h⟩ := bind_some h
    obtain ⟨_, -, h⟩ := bind_some h
    cases h
    exact ⟨rfl, rfl⟩
  | shell k kw g s =>
    simp only [Item.eval] at h
    split at h
    · cases h
    · cases h
      cases k <;> exact ⟨rfl, rfl⟩
  | exec k kw g a =>
    simp only [Item.eval] at h
    split at h
    · cases h
    · obtain ⟨_, -, h⟩ := bind_some h
      cases h
      cases k <;> exact ⟨rfl, rfl⟩
  | copy kw fs ss d =>
    obtain ⟨_, -, h⟩ := bind_some h
    obtain ⟨_, -, h⟩ := bind_some h
    obtain ⟨_, -, h⟩ := bind_some h
    cases h
    exact ⟨rfl, rfl⟩
  | env kw ps t =>
    obtain ⟨_, -, h⟩ := bind_some h
    cases h
    exact ⟨rfl, rfl⟩
  | env1 kw g n g' s => cases h; exact ⟨rfl, rfl⟩
  | env1q kw g n g' v =>
    obtain ⟨_, -, h⟩ := bind_some h
    cases h
    exact ⟨rfl, rfl⟩
  | misc w a => cases h; exact ⟨rfl, rfl⟩

theorem lp_left {x : Str} (y : Str) (h : LastPlain x) : ¬ Blanks (x ++ y) := fun h' => h.notBlanks h'.left

theorem item_notBlanks {i : Item} {r : Str} (h : i.Fits r) (hi : i.IsInstr) : ¬ Blanks i.text := by
  cases i with
  | blank => cases hi
  | comment t => cases hi
  | «from» kw fs g i a => exact lp_left _ (keyword_lp h.1 (by decide) (by decide))
  | arg kw g n v => exact lp_left _ (keyword_lp h.1 (by decide) (by decide))
  | label kw ps t => exact lp_left _ (keyword_lp h.1 (by decide) (by decide))
  | label1 kw g n g' v => exact lp_left _ (keyword_lp h.1 (by decide) (by decide))
  | shell k kw g s => exact lp_left _ (keyword_lp h.1 (by cases k <;> decide) (by cases k <;> decide))
  | exec k kw g a => exact lp_left _ (keyword_lp h.1 (by cases k <;> decide) (by cases k <;> decide))
  | copy kw fs ss d => exact lp_left _ (keyword_lp h.1 (by decide) (by decide))
  | env kw ps t => exact lp_left _ (keyword_lp h.1 (by decide) (by decide))
  | env1 kw g n g' s => exact lp_left _ (keyword_lp h.1 (by decide) (by decide))
  | env1q kw g n g' v => exact lp_left _ (keyword_lp h.1 (by decide) (by decide))
  | misc w a => exact lp_left _ (over_plain (fun c => alpha_lp) h.1 h.2.1)

/-- The document from an instruction on. -/
theorem doc_from {unq : Unquote} (ms : List (Str × Line)) : ∀ (l : Line) (p : Nat) (pre : List Instruction)
    (x : Instruction) (post : List Instruction), DocFits l ms → evalDoc unq p l ms = .ok (pre ++ x :: post) →
    ∃ a l' ms', docText l ms = a ++ docText l' ms' ∧ DocFits l' ms' ∧ l'.indent = [] ∧
      evalDoc unq (p + blen a) l' ms' = .ok (x :: post) ∧ x.span.start = p + blen a := by
  induction ms with
  | nil =>
    intro l p pre x post hf he
    obtain ⟨o, h1, h2⟩ := bind_some he
    cases o with
    | none => cases pre <;> cases h2
    | some y =>
      cases pre with
      | cons _ pre => cases pre <;> cases h2
      | nil =>
        cases h2
        refine ⟨l.indent, { l with indent := [] }, [], rfl, ⟨fun _ h => (by cases h), hf.2⟩, rfl, ?_, ?_⟩
        · show ((l.item.eval unq (p + blen l.indent + blen [])) >>= _) = _
          simp only [blen_nil, Nat.add_zero, h1]
          rfl
        · rw [(item_at h1).1]
  | cons m ms ih =>
    obtain ⟨n, m⟩ := m
    intro l p pre x post hf he
    obtain ⟨o, h1, he⟩ := bind_some he
    obtain ⟨is, h2, h3⟩ := bind_some he
    have next : ∀ pre', is = pre' ++ x :: post → ∃ a l' ms', docText l ((n, m) :: ms) = a ++ docText l' ms' ∧
        DocFits l' ms' ∧ l'.indent = [] ∧ evalDoc unq (p + blen a) l' ms' = .ok (x :: post) ∧
        x.span.start = p + blen a := by
      rintro pre' rfl
      obtain ⟨a, l', ms', e1, e2, e3, e4, e5⟩ := ih m _ pre' x post hf.2.2 h2
      have e : p + blen (l.text ++ (n ++ a)) = p + blen l.text + blen n + blen a := by
        simp only [blen_append]; omega
      exact ⟨l.text ++ (n ++ a), l', ms', by simp [docText, e1], e2, e3, by rw [e]; exact e4, by rw [e]; exact e5⟩
    cases o with
    | none =>
      cases h3
      exact next pre rfl
    | some y =>
      cases pre with
      | cons y' pre =>
        refine next pre ?_
        have h3 := Except.ok.inj h3
        exact (List.cons.inj h3).2
      | nil =>
        have h3 := Except.ok.inj h3
        obtain ⟨rfl, rfl⟩ := List.cons.inj h3
        refine ⟨l.indent, { l with indent := [] }, (n, m) :: ms, ?_, ⟨⟨fun _ h => (by cases h), hf.1.2⟩, hf.2⟩, rfl, ?_, ?_⟩
        · simp [docText, Line.text]
        · have e : p + blen l.indent + blen (Line.text { l with indent := [] }) = p + blen l.text := by
            simp only [Line.text, blen_append, List.nil_append]; omega
          show ((l.item.eval unq (p + blen l.indent + blen [])) >>= fun i =>
            evalDoc unq (p + blen l.indent + blen (Line.text { l with indent := [] }) + blen n) m ms >>= _) = _
          rw [e, blen_nil, Nat.add_zero, h1, h2]
          rfl
        · rw [(item_at h1).1]

theorem zend_rest {w r : Str} (hw : Blanks w) (hr : Eol r) : ZEnd (w ++ r) := by
  intro c t e
  cases w with
  | nil => exact (hr c t e).elim (fun h => .inr (.inr (.inl h))) fun h => .inr (.inr (.inr h))
  | cons d w =>
    obtain ⟨rfl, -⟩ := List.cons.inj e
    exact (hw d List.mem_cons_self).elim .inl fun h => .inr (.inl h)

theorem eol_break {n r : Str} (h : LineBreak n r) : Eol (n ++ r) := by
  intro c b e
  rcases h with rfl | rfl | ⟨rfl, -⟩
  · exact .inl (List.cons.inj e).1.symm
  · exact .inr (List.cons.inj e).1.symm
  · exact .inr (List.cons.inj e).1.symm

/-- the line of an instruction, up to its end -/
theorem line_upto {unq : Unquote} {l : Line} {r : Str} {p : Nat} {x : Instruction} (hf : l.Fits r) (hr : Eol r)
    (h1 : l.item.eval unq (p + blen l.indent) = .ok (some x)) :
    DocFits { l with trail := [] } [] ∧ evalDoc unq p { l with trail := [] } [] = .ok [x] ∧
      x.span.stop = p + blen (docText { l with trail := [] } []) ∧
      ¬ Open (docText { l with trail := [] } []) (l.trail ++ r) ∧
      ¬ Blanks (docText { l with trail := [] } []) ∧ ZEnd (l.trail ++ r) := by
  obtain ⟨h2, h3⟩ := item_at h1
  have hz := zend_rest hf.2.2 hr
  have ho := item_notOpen hf.2.1 h3
  have hb := item_notBlanks hf.2.1 h3
  have et : docText { l with trail := [] } [] = l.indent ++ l.item.text := by simp [docText, Line.text]
  refine ⟨⟨hf.1, item_upto (z := l.trail ++ r) hz hf.2.1 (by simpa using ho), fun _ h => (by cases h)⟩, ?_, ?_, ?_, ?_, hz⟩
  · show (l.item.eval unq (p + blen l.indent) >>= _) = _
    rw [h1]
    rfl
  · rw [h2, et, blen_append, ← Nat.add_assoc]
  · rw [et]; exact notOpen_pre ho hb
  · rw [et]; exact notBlanks_pre hb

/-- The document up to an instruction. -/
theorem doc_upto {unq : Unquote} (ms : List (Str × Line)) : ∀ (l : Line) (p : Nat) (pre : List Instruction)
    (x : Instruction) (post : List Instruction), DocFits l ms → evalDoc unq p l ms = .ok (pre ++ x :: post) →
    ∃ l' ms' z, docText l ms = docText l' ms' ++ z ∧ DocFits l' ms' ∧ l'.indent = l.indent ∧
      evalDoc unq p l' ms' = .ok (pre ++ [x]) ∧ x.span.stop = p + blen (docText l' ms') ∧
      ¬ Open (docText l' ms') z ∧ ¬ Blanks (docText l' ms') ∧ ZEnd z := by
  induction ms with
  | nil =>
    intro l p pre x post hf he
    obtain ⟨o, h1, h2⟩ := bind_some he
    cases o with
    | none => cases pre <;> cases h2
    | some y =>
      cases pre with
      | cons _ pre => cases pre <;> cases h2
      | nil =>
        cases h2
        obtain ⟨e1, e2, e3, e4, e5, e6⟩ := line_upto hf (fun c b e => by cases e) h1
        exact ⟨_, _, l.trail ++ [], by simp [docText, Line.text], e1, rfl, e2, e3, e4, e5, e6⟩
  | cons m ms ih =>
    obtain ⟨n, m⟩ := m
    intro l p pre x post hf he
    obtain ⟨o, h1, he⟩ := bind_some he
    obtain ⟨is, h2, h3⟩ := bind_some he
    have next : ∀ pre', is = pre' ++ x :: post → pre = o.toList ++ pre' →
      ∃ l' ms' z, docText l ((n, m) :: ms) = docText l' ms' ++ z ∧ DocFits l' ms' ∧ l'.indent = l.indent ∧
        evalDoc unq p l' ms' = .ok (pre ++ [x]) ∧ x.span.stop = p + blen (docText l' ms') ∧
        ¬ Open (docText l' ms') z ∧ ¬ Blanks (docText l' ms') ∧ ZEnd z := by
      rintro pre' rfl rfl
      obtain ⟨m', ms', z, e1, e2, -, e4, e5, e6, e7, e8⟩ := ih m _ pre' x post hf.2.2 h2
      have ho : ¬ Open (l.text ++ (n ++ docText m' ms')) z := notOpen_pre (notOpen_pre e6 e7) (notBlanks_pre e7)
      refine ⟨l, (n, m') :: ms', z, by simp [docText, e1], ⟨⟨hf.1.1, ?_, hf.1.2.2⟩, ?_, e2⟩, rfl, ?_, ?_, ho,
        notBlanks_pre (notBlanks_pre e7), e8⟩
      · refine item_upto (z := z) e8 (by simpa [e1] using hf.1.2.1) ?_
        exact notOpen_suffix (u := l.indent) (by simpa [Line.text] using ho)
      · exact LineBreak.cut (z := z) (by simpa [e1] using hf.2.1)
      · show (l.item.eval unq (p + blen l.indent) >>= fun i => evalDoc unq (p + blen l.text + blen n) m' ms' >>= _) = _
        rw [h1, e4]
        simp [ok_bind, pure, Except.pure]
      · rw [e5]
        simp only [docText, blen_append]
        omega
    cases o with
    | none =>
      cases h3
      exact next pre rfl rfl
    | some y =>
      cases pre with
      | cons y' pre =>
        have h3 := Except.ok.inj h3
        obtain ⟨rfl, h4⟩ := List.cons.inj h3
        exact next pre h4 rfl
      | nil =>
        have h3 := Except.ok.inj h3
        obtain ⟨rfl, rfl⟩ := List.cons.inj h3
        obtain ⟨e1, e2, e3, e4, e5, e6⟩ := line_upto hf.1 (eol_break hf.2.1) h1
        exact ⟨_, _, l.trail ++ (n ++ docText m ms), by simp [docText, Line.text], e1, rfl, e2, e3, e4, e5, e6⟩

/-- moving a document -/
theorem doc_move {unq : Unquote} {m : Nat → Nat} (ms : List (Str × Line)) : ∀ (l : Line) (p p' : Nat),
    Tr m p p' (blen (docText l ms)) →
    evalDoc unq p' l ms = (evalDoc unq p l ms).map (List.map (·.remap m)) := by
  induction ms with
  | nil =>
    intro l p p' h
    refine bind_mapped (item_move (m := m) unq l.item ?_) fun o => by cases o <;> rfl
    refine h.sub ?_ ?_ ?_ <;> (try simp only [docText, Line.text, blen_append]) <;> omega
  | cons m ms ih =>
    obtain ⟨n, k⟩ := m
    intro l p p' h
    refine bind_mapped (item_move (m := m) unq l.item ?_) fun o => ?_
    · refine h.sub ?_ ?_ ?_ <;> (try simp only [docText, Line.text, blen_append]) <;> omega
    · refine bind_mapped (ih k _ _ ?_) fun is => by cases o <;> simp [pure, Except.pure, Except.map]
      refine h.sub ?_ ?_ ?_ <;> (try simp only [docText, blen_append]) <;> omega

/-! ## numbers of stages -/

theorem numberStages_split (pre : List Instruction) : ∀ (n : Nat) (is post : List Instruction),
    numberStages n is = pre ++ post →
    ∃ is1 is2 k, is = is1 ++ is2 ∧ numberStages n is1 = pre ∧ numberStages k is2 = post := by
  induction pre with
  | nil => intro n is post h; exact ⟨[], is, n, rfl, rfl, h⟩
  | cons x pre ih =>
    intro n is post h
    cases is with
    | nil => cases h
    | cons i is =>
      cases i
      case «from» f =>
        obtain ⟨rfl, h'⟩ := List.cons.inj h
        obtain ⟨is1, is2, k, rfl, h1, h2⟩ := ih _ _ _ h'
        exact ⟨.from f :: is1, is2, k, rfl, by simp [numberStages, h1], h2⟩
      all_goals
        obtain ⟨rfl, h'⟩ := List.cons.inj h
        obtain ⟨is1, is2, k, rfl, h1, h2⟩ := ih _ _ _ h'
        exact ⟨_ :: is1, is2, k, rfl, by simp [numberStages, h1], h2⟩

theorem numberStages_twice (is : List Instruction) : ∀ n k,
    numberStages n (numberStages k is) = numberStages n is := by
  induction is with
  | nil => intro n k; rfl
  | cons i is ih =>
    intro n k
    cases i <;> simp [numberStages, ih]

theorem globalArgs_numbered (is : List Instruction) : ∀ k, globalArgs (numberStages k is) = globalArgs is := by
  induction is with
  | nil => intro k; rfl
  | cons i is ih =>
    intro k
    cases i <;> simp [numberStages, globalArgs, ih]

theorem numbered_span {is : List Instruction} {x : Instruction} : ∀ {k}, (numberStages k is).head? = some x →
    ∃ y, is.head? = some y ∧ y.span = x.span := by
  intro k h
  cases is with
  | nil => cases h
  | cons i is =>
    cases i <;> cases h <;> exact ⟨_, rfl, rfl⟩

theorem numbered_last {is : List Instruction} : ∀ {k} {x : Instruction}, (numberStages k is).getLast? = some x →
    ∃ y, is.getLast? = some y ∧ y.span = x.span := by
  induction is with
  | nil => intro k x h; cases h
  | cons i is ih =>
    intro k x h
    have hne : ∀ k, is ≠ [] → numberStages k is ≠ [] := by
      intro k h'
      cases is with
      | nil => exact absurd rfl h'
      | cons j is => cases j <;> simp [numberStages]
    by_cases his : is = []
    · subst his
      cases i <;> cases h <;> exact ⟨_, rfl, rfl⟩
    · have hl : ∀ (a : Instruction) k, (a :: numberStages k is).getLast? = (numberStages k is).getLast? := by
        intro a k
        have := hne k his
        cases hn : numberStages k is with
        | nil => exact absurd hn this
        | cons b t => rfl
      have hl' : (i :: is).getLast? = is.getLast? := by
        cases is with
        | nil => exact absurd rfl his
        | cons b t => rfl
      rw [hl']
      cases i <;> (simp only [numberStages] at h; rw [hl] at h; exact ih h)

/-- Consecutive instructions of a document stand alone. -/
theorem parse_excerpt {unq : Unquote} {l : Line} {ms : List (Str × Line)} (hf : DocFits l ms) {is : List Instruction}
    (he : evalDoc unq 0 l ms = .ok is) {pre mid post : List Instruction} (e : numberStages 0 is = pre ++ (mid ++ post))
    {x y : Instruction} (hx : mid.head? = some x) (hy : mid.getLast? = some y) :
    ∃ t, SliceOf (docText l ms) ⟨x.span.start, y.span.stop⟩ t ∧
      Dockerfile.parse unq t = .ok (documentOf t (mid.map (·.remap (· - x.span.start)))) := by
  obtain ⟨is1, is2, k, rfl, -, e2⟩ := numberStages_split _ _ _ _ e
  obtain ⟨is3, is4, k', rfl, rfl, -⟩ := numberStages_split _ _ _ _ e2
  obtain ⟨x', hx', hxs⟩ := numbered_span hx
  obtain ⟨y', hy', hys⟩ := numbered_last hy
  have ex : is3 = x' :: is3.tail := by
    cases is3 with
    | nil => cases hx'
    | cons a t => cases hx'; rfl
  obtain ⟨a, l1, ms1, h1, h2, h3, h4, h5⟩ := doc_from ms l 0 is1 x' (is3.tail ++ is4) hf (by
    rw [he, ex]; simp)
  have ey : is3 = is3.dropLast ++ [y'] := by
    cases hn : is3 with
    | nil => rw [hn] at hy'; cases hy'
    | cons b t =>
      have hne : b :: t ≠ [] := by simp
      rw [hn, List.getLast?_eq_some_getLast hne] at hy'
      rw [← Option.some.inj hy']
      exact (List.dropLast_concat_getLast hne).symm
  obtain ⟨l2, ms2, z, g1, g2, g3, g4, g5, -, -, -⟩ := doc_upto ms1 l1 _ is3.dropLast y' is4 h2 (by
    rw [h4]
    refine congrArg Except.ok ?_
    rw [← List.cons_append, ← ex]
    conv => lhs; rw [ey]
    simp)
  rw [← ey] at g4
  have hstart : x.span.start = blen a := by rw [← hxs, h5]; omega
  refine ⟨docText l2 ms2, ⟨a, z, by rw [h1, g1]; simp, hstart, by rw [← hys]; simpa using g5⟩, ?_⟩
  rw [parse_fits g2, doc_move (m := (· - x.span.start)) ms2 l2 (0 + blen a) 0 (by intro k _; simp only [hstart]; omega), g4]
  refine congrArg Except.ok ?_
  simp only [documentOf, globalArgs_remap, numberStages_remap, globalArgs_numbered, numberStages_twice]

end Src
end Verif
