import Verif.Proof.Alike

/-!
# Lines that look alike: cutting texts, and well-formedness
-/

namespace Verif
namespace Src
open Spec

local notation "A" => AlikeText

theorem hA (x y : Str) (h : A x y) : A x y := h

/-! ## cutting a text -/

theorem Each.cut {α : Type} {R : α → α → Prop} {tx : α → Str}
    (hR : ∀ a z, A (tx a) z → ∃ b, R a b ∧ tx b = z) {l : List α} {z : Str} (h : A (l.flatMap tx) z) :
    ∃ m, Each R l m ∧ m.flatMap tx = z := by
  induction l generalizing z with
  | nil => rw [h.eq_nil]; exact ⟨[], .nil, rfl⟩
  | cons a l ih =>
    rw [List.flatMap_cons] at h
    obtain ⟨x, y, rfl, h1, h2⟩ := h.cut
    obtain ⟨b, h3, rfl⟩ := hR a x h1
    obtain ⟨m, h4, rfl⟩ := ih h2
    exact ⟨b :: m, .cons h3 h4, by rw [List.flatMap_cons]⟩

theorem flag_cut (f : Flag) (z : Str) (h : A f.text z) : ∃ f', FlagR A f f' ∧ f'.text = z := by
  obtain ⟨g, z1, rfl, h1, h⟩ := AlikeText.cut h
  obtain ⟨z2, rfl, h2⟩ := h.cutk (by decide)
  obtain ⟨z3, rfl, h3⟩ := h2.cutk (by decide)
  obtain ⟨n, z4, rfl, h4, h5⟩ := h3.cut
  obtain ⟨v, rfl, h6⟩ := h5.cutk (by decide)
  exact ⟨⟨g, n, v⟩, ⟨h1, h4, h6⟩, rfl⟩

theorem arg_cut (f : Arg) (z : Str) (h : A f.text z) : ∃ f', ArgR A f f' ∧ f'.text = z := by
  obtain ⟨g, v, rfl, h1, h2⟩ := AlikeText.cut h
  exact ⟨⟨g, v⟩, ⟨h1, h2⟩, rfl⟩

theorem value_cut (v : Value) (z : Str) (h : A v.text z) : ∃ v', ValueR A v v' ∧ v'.text = z := by
  cases v with
  | quoted t => exact ⟨.quoted z, .quoted h, rfl⟩
  | bare t => exact ⟨.bare z, .bare h, rfl⟩

theorem pair_cut (f : Pair) (z : Str) (h : A f.text z) : ∃ f', PairR A f f' ∧ f'.text = z := by
  obtain ⟨g, z1, rfl, h1, h2⟩ := AlikeText.cut h
  obtain ⟨n, z2, rfl, h3, h4⟩ := AlikeText.cut h2
  obtain ⟨v, rfl, h5⟩ := h4.cutk (by decide)
  obtain ⟨n', h6, rfl⟩ := value_cut _ _ h3
  obtain ⟨v', h7, rfl⟩ := value_cut _ _ h5
  exact ⟨⟨g, n', v'⟩, ⟨h1, h6, h7⟩, rfl⟩

theorem shell_cut (s : Shell) (z : Str) (h : A s.text z) : ∃ s', ShellR A s s' ∧ s'.text = z := by
  induction s generalizing z with
  | last t => exact ⟨.last z, .last h, rfl⟩
  | lastComment w t n =>
    obtain ⟨w', z1, rfl, h1, h2⟩ := AlikeText.cut h
    obtain ⟨t', n', rfl, h3, h4⟩ := AlikeText.cut h2
    exact ⟨.lastComment w' t' n', .lastComment h1 h3 h4, rfl⟩
  | more t w n s ih =>
    obtain ⟨t', z1, rfl, h1, h2⟩ := AlikeText.cut h
    obtain ⟨z2, rfl, h3⟩ := h2.cutk (by decide)
    obtain ⟨w', z3, rfl, h4, h5⟩ := h3.cut
    obtain ⟨n', z4, rfl, h6, h7⟩ := h5.cut
    obtain ⟨s', h8, rfl⟩ := ih _ h7
    exact ⟨.more t' w' n' s', .more h1 h4 h6 h8, rfl⟩
  | comment w t n s ih =>
    obtain ⟨w', z1, rfl, h1, h2⟩ := AlikeText.cut h
    obtain ⟨t', z2, rfl, h3, h4⟩ := h2.cut
    obtain ⟨n', z3, rfl, h5, h6⟩ := h4.cut
    obtain ⟨s', h8, rfl⟩ := ih _ h6
    exact ⟨.comment w' t' n' s', .comment h1 h3 h5 h8, rfl⟩

theorem elem_cut (e : Elem) (z : Str) (h : A e.text z) : ∃ e', ElemR A e e' ∧ e'.text = z := by
  obtain ⟨b, z1, rfl, h1, h2⟩ := AlikeText.cut h
  obtain ⟨z2, rfl, h3⟩ := h2.cutk (by decide)
  obtain ⟨a, v, rfl, h4, h5⟩ := h3.cut
  exact ⟨⟨b, a, v⟩, ⟨h1, h4, h5⟩, rfl⟩

theorem tail_cut (c : Bool) (k z : Str) (h : A (Array.tail c k) z) : ∃ k', A k k' ∧ Array.tail c k' = z := by
  obtain ⟨z1, z2, rfl, h1, h2⟩ := AlikeText.cut h
  obtain ⟨k', z3, rfl, h3, h4⟩ := h2.cut
  refine ⟨k', h3, ?_⟩
  rw [h1.special (by cases c <;> decide), h4.special (by decide)]
  rfl

theorem array_cut (a : Array) (z : Str) (h : A a.text z) : ∃ a', ArrayR A a a' ∧ a'.text = z := by
  cases a with
  | empty g =>
    obtain ⟨z1, rfl, h1⟩ := AlikeText.cutk h (by decide)
    obtain ⟨g', z2, rfl, h2, h3⟩ := h1.cut
    exact ⟨.empty g', .empty h2, by rw [h3.special (by decide)]; rfl⟩
  | full g v es c k =>
    obtain ⟨z1, rfl, h1⟩ := AlikeText.cutk h (by decide)
    obtain ⟨g', z2, rfl, h2, h3⟩ := h1.cut
    obtain ⟨v', z3, rfl, h4, h5⟩ := h3.cut
    obtain ⟨z4, z5, rfl, h6, h7⟩ := h5.cut
    obtain ⟨es', h8, rfl⟩ := Each.cut elem_cut h6
    obtain ⟨k', h9, rfl⟩ := tail_cut _ _ _ h7
    exact ⟨.full g' v' es' c k', .full h2 h4 h8 h9, rfl⟩

theorem alias_cut (a : Option AliasText) (z : Str) (h : A (aliasText a) z) :
    ∃ a', AliasR A a a' ∧ aliasText a' = z := by
  cases a with
  | none => rw [h.eq_nil]; exact ⟨none, .none, rfl⟩
  | some a =>
    obtain ⟨g, z1, rfl, h1, h2⟩ := AlikeText.cut h
    obtain ⟨k, z2, rfl, h3, h4⟩ := h2.cut
    obtain ⟨g', n, rfl, h5, h6⟩ := h4.cut
    exact ⟨some ⟨g, k, g', n⟩, .some h1 h3 h5 h6, rfl⟩

theorem opt_cut (v : Option Value) (z : Str) (h : A (valueText v) z) :
    ∃ v', OptR A v v' ∧ valueText v' = z := by
  cases v with
  | none => rw [h.eq_nil]; exact ⟨none, .none, rfl⟩
  | some v =>
    obtain ⟨z1, rfl, h1⟩ := AlikeText.cutk h (by decide)
    obtain ⟨v', h2, rfl⟩ := value_cut _ _ h1
    exact ⟨some v', .some h2, rfl⟩

theorem item_cut (i : Item) (z : Str) (h : A i.text z) : ∃ i', ItemR A i i' ∧ i'.text = z := by
  cases i with
  | blank => rw [AlikeText.eq_nil h]; exact ⟨.blank, .blank, rfl⟩
  | comment t => exact ⟨.comment z, .comment h, rfl⟩
  | «from» kw fs g i a =>
    obtain ⟨kw', z1, rfl, h1, h2⟩ := AlikeText.cut h
    obtain ⟨z2, z3, rfl, h3, h4⟩ := h2.cut
    obtain ⟨g', z4, rfl, h5, h6⟩ := h4.cut
    obtain ⟨i', z5, rfl, h7, h8⟩ := h6.cut
    obtain ⟨fs', h9, rfl⟩ := Each.cut flag_cut h3
    obtain ⟨a', h10, rfl⟩ := alias_cut _ _ h8
    exact ⟨.from kw' fs' g' i' a', .from h1 h9 h5 h7 h10, rfl⟩
  | arg kw g n v =>
    obtain ⟨kw', z1, rfl, h1, h2⟩ := AlikeText.cut h
    obtain ⟨g', z3, rfl, h3, h4⟩ := h2.cut
    obtain ⟨n', z4, rfl, h5, h6⟩ := h4.cut
    obtain ⟨v', h7, rfl⟩ := opt_cut _ _ h6
    exact ⟨.arg kw' g' n' v', .arg h1 h3 h5 h7, rfl⟩
  | label kw ps t =>
    obtain ⟨kw', z1, rfl, h1, h2⟩ := AlikeText.cut h
    obtain ⟨z2, t', rfl, h3, h4⟩ := h2.cut
    obtain ⟨ps', h5, rfl⟩ := Each.cut pair_cut h3
    exact ⟨.label kw' ps' t', .label h1 h5 h4, rfl⟩
  | label1 kw g n k v =>
    obtain ⟨kw', z1, rfl, h1, h2⟩ := AlikeText.cut h
    obtain ⟨g', z3, rfl, h3, h4⟩ := h2.cut
    obtain ⟨z4, z5, rfl, h5, h6⟩ := h4.cut
    obtain ⟨k', z6, rfl, h7, h8⟩ := h6.cut
    obtain ⟨n', h9, rfl⟩ := value_cut _ _ h5
    obtain ⟨v', h10, rfl⟩ := value_cut _ _ h8
    exact ⟨.label1 kw' g' n' k' v', .label1 h1 h3 h9 h7 h10, rfl⟩
  | shell k kw g s =>
    obtain ⟨kw', z1, rfl, h1, h2⟩ := AlikeText.cut h
    obtain ⟨g', z3, rfl, h3, h4⟩ := h2.cut
    obtain ⟨s', h5, rfl⟩ := shell_cut _ _ h4
    exact ⟨.shell k kw' g' s', .shell h1 h3 h5, rfl⟩
  | exec k kw g a =>
    obtain ⟨kw', z1, rfl, h1, h2⟩ := AlikeText.cut h
    obtain ⟨g', z3, rfl, h3, h4⟩ := h2.cut
    obtain ⟨a', h5, rfl⟩ := array_cut _ _ h4
    exact ⟨.exec k kw' g' a', .exec h1 h3 h5, rfl⟩
  | copy kw fs ss d =>
    obtain ⟨kw', z1, rfl, h1, h2⟩ := AlikeText.cut h
    obtain ⟨z2, z3, rfl, h3, h4⟩ := h2.cut
    obtain ⟨z4, z5, rfl, h5, h6⟩ := h4.cut
    obtain ⟨fs', h7, rfl⟩ := Each.cut flag_cut h3
    obtain ⟨ss', h8, rfl⟩ := Each.cut arg_cut h5
    obtain ⟨d', h9, rfl⟩ := arg_cut _ _ h6
    exact ⟨.copy kw' fs' ss' d', .copy h1 h7 h8 h9, rfl⟩
  | env kw ps t =>
    obtain ⟨kw', z1, rfl, h1, h2⟩ := AlikeText.cut h
    obtain ⟨z2, t', rfl, h3, h4⟩ := h2.cut
    obtain ⟨ps', h5, rfl⟩ := Each.cut pair_cut h3
    exact ⟨.env kw' ps' t', .env h1 h5 h4, rfl⟩
  | env1 kw g n k s =>
    obtain ⟨kw', z1, rfl, h1, h2⟩ := AlikeText.cut h
    obtain ⟨g', z3, rfl, h3, h4⟩ := h2.cut
    obtain ⟨n', z5, rfl, h5, h6⟩ := h4.cut
    obtain ⟨k', z6, rfl, h7, h8⟩ := h6.cut
    obtain ⟨s', h10, rfl⟩ := shell_cut _ _ h8
    exact ⟨.env1 kw' g' n' k' s', .env1 h1 h3 h5 h7 h10, rfl⟩
  | env1q kw g n k v =>
    obtain ⟨kw', z1, rfl, h1, h2⟩ := AlikeText.cut h
    obtain ⟨g', z3, rfl, h3, h4⟩ := h2.cut
    obtain ⟨n', z5, rfl, h5, h6⟩ := h4.cut
    obtain ⟨k', v', rfl, h7, h8⟩ := h6.cut
    exact ⟨.env1q kw' g' n' k' v', .env1q h1 h3 h5 h7 h8, rfl⟩
  | misc w s =>
    obtain ⟨w', z1, rfl, h1, h2⟩ := AlikeText.cut h
    obtain ⟨s', h3, rfl⟩ := shell_cut _ _ h2
    exact ⟨.misc w' s', .misc h1 h3, rfl⟩

theorem line_cut (l : Line) (z : Str) (h : A l.text z) : ∃ l', LineR A l l' ∧ l'.text = z := by
  obtain ⟨w, z1, rfl, h1, h2⟩ := AlikeText.cut h
  obtain ⟨z2, t, rfl, h3, h4⟩ := h2.cut
  obtain ⟨i, h5, rfl⟩ := item_cut _ _ h3
  exact ⟨⟨w, i, t⟩, ⟨h1, h5, h4⟩, rfl⟩

theorem doc_cut (ms : List (Str × Line)) : ∀ (l : Line) (z : Str), A (docText l ms) z →
    ∃ l' ms', LineR A l l' ∧ LinesR A ms ms' ∧ docText l' ms' = z := by
  induction ms with
  | nil =>
    intro l z h
    obtain ⟨l', h1, rfl⟩ := line_cut l z h
    exact ⟨l', [], h1, .nil, rfl⟩
  | cons m ms ih =>
    obtain ⟨n, m⟩ := m
    intro l z h
    obtain ⟨z1, z2, rfl, h1, h2⟩ := AlikeText.cut h
    obtain ⟨n', z3, rfl, h3, h4⟩ := h2.cut
    obtain ⟨l', h5, rfl⟩ := line_cut l z1 h1
    obtain ⟨m', ms', h6, h7, rfl⟩ := ih m z3 h4
    exact ⟨l', (n', m') :: ms', h5, .cons h3 h6 h7, rfl⟩

/-! ## well-formedness -/

theorem flag_fits {f f' : Flag} {r r' : Str} (h : FlagR A f f') (hr : A r r') (hf : f.Fits r) : f'.Fits r' := by
  obtain ⟨h1, h2, h3, h4⟩ := hf
  exact ⟨h.gap.gap ((h.body hA).append hr) h1, h.name.ne h2, h.name.alphas h3, h.value.word hr h4⟩

theorem flags_fit {fs fs' : List Flag} {r r' : Str} (h : Each (FlagR A) fs fs') (hr : A r r')
    (hf : FlagsFit fs r) : FlagsFit fs' r' := by
  induction h with
  | nil => trivial
  | cons h1 h2 ih => exact ⟨flag_fits h1 ((flagsR_text hA h2).append hr) hf.1, ih hf.2⟩

theorem arg_fits {f f' : Arg} {r r' : Str} (h : ArgR A f f') (hr : A r r') (hf : f.Fits r) : f'.Fits r' :=
  ⟨h.gap.gap (AlikeText.append h.value hr) hf.1, h.value.word hr hf.2⟩

theorem args_fit {fs fs' : List Arg} {r r' : Str} (h : Each (ArgR A) fs fs') (hr : A r r')
    (hf : ArgsFit fs r) : ArgsFit fs' r' := by
  induction h with
  | nil => trivial
  | cons h1 h2 ih => exact ⟨arg_fits h1 ((argsR_text hA h2).append hr) hf.1, ih hf.2⟩

theorem value_fits {v v' : Value} {r r' : Str} (h : ValueR A v v') (hr : A r r') (hv : v.Fits r) : v'.Fits r' := by
  cases h with
  | quoted h => exact AlikeText.quoted h hv
  | bare h => exact ⟨AlikeText.noQuoted (AlikeText.append h hr) hv.1, AlikeText.word h hr hv.2⟩

theorem value_fitsName {v v' : Value} {r r' : Str} (h : ValueR A v v') (hr : A r r') (hv : v.FitsName r) :
    v'.FitsName r' := by
  cases h with
  | quoted h => exact AlikeText.quoted h hv
  | bare h => exact ⟨AlikeText.noQuoted (AlikeText.append h hr) hv.1, AlikeText.nameWord h hr hv.2⟩

theorem label_fits {f f' : Pair} {r r' : Str} (h : PairR A f f') (hr : A r r') (hf : f.FitsLabel r) :
    f'.FitsLabel r' := by
  obtain ⟨h1, h2, h3⟩ := hf
  exact ⟨h.gap.gap ((h.body hA).append hr) h1,
    value_fitsName h.name (.cons (.inl rfl) ((h.value.text hA).append hr)) h2, value_fits h.value hr h3⟩

theorem env_fits {f f' : Pair} {r r' : Str} (h : PairR A f f') (hr : A r r') (hf : f.FitsEnv r) :
    f'.FitsEnv r' := by
  obtain ⟨h1, ⟨n, h2, h3, h4⟩, h5⟩ := hf
  refine ⟨h.gap.gap ((h.body hA).append hr) h1, ?_, value_fits h.value hr h5⟩
  have := h.name
  rw [h2] at this
  generalize f'.name = n' at this
  cases this with
  | bare hn => exact ⟨_, rfl, AlikeText.ne hn h3, AlikeText.words hn h4⟩

theorem pairs_fit {F : Pair → Str → Prop}
    (hF : ∀ {f f' : Pair} {r r' : Str}, PairR A f f' → A r r' → F f r → F f' r')
    {fs fs' : List Pair} {r r' : Str} (h : Each (PairR A) fs fs') (hr : A r r')
    (hf : PairsFit F fs r) : PairsFit F fs' r' := by
  induction h with
  | nil => trivial
  | cons h1 h2 ih => exact ⟨hF h1 ((pairsR_text hA h2).append hr) hf.1, ih hf.2⟩

theorem piece_fits {t t' r r' : Str} (h : A t t') (hr : A r r') (ht : Shell.Piece t r) : Shell.Piece t' r' := by
  obtain ⟨h1, h2, h3, h4⟩ := ht
  refine ⟨h.ne h1, h.noBreak h2, fun a b e hb hc => ?_, fun w u hw e => ?_⟩
  · subst e
    obtain ⟨a0, b0, rfl, h5, h6⟩ := h.symm.cut
    exact h3 a0 b0 rfl (h6.ne hb) ((h6.append hr.symm).continuation hc)
  · have := (h.append hr).symm
    rw [e] at this
    obtain ⟨w', z, e', h5, h6⟩ := this.cut
    obtain ⟨u', rfl, -⟩ := h6.cutk (by decide)
    rw [h5.blanks hw] at e'
    exact h4 w u' hw e'

theorem shell_fits {s s' : Shell} {r r' : Str} (h : ShellR A s s') (hr : A r r') (hs : s.Fits r) : s'.Fits r' := by
  induction h with
  | last h => exact ⟨piece_fits h hr hs.1, hr.eol hs.2⟩
  | lastComment h1 h2 h3 =>
    obtain ⟨g1, g2, g3⟩ := hs
    refine ⟨by rw [h1.blanks g1]; exact g1, AlikeText.comment h2 g2, ?_⟩
    rcases g3 with ⟨rfl, rfl⟩ | ⟨g3, g4⟩
    · exact .inl ⟨h3.eq_nil, hr.eq_nil⟩
    · exact .inr ⟨h3.lineBreak hr g3, hr.eol g4⟩
  | more h1 h2 h3 h4 ih =>
    obtain ⟨g1, g2, g3, g4⟩ := hs
    have := (h4.text hA).append hr
    exact ⟨piece_fits h1 (.cons (.inl rfl) (h2.append (h3.append this))) g1,
      by rw [h2.blanks g2]; exact g2, h3.lineBreak this g3, ih g4⟩
  | comment h1 h2 h3 h4 ih =>
    obtain ⟨g1, g2, g3, g4⟩ := hs
    have := (h4.text hA).append hr
    exact ⟨by rw [h1.blanks g1]; exact g1, AlikeText.comment h2 g2, h3.lineBreak this g3, ih g4⟩

theorem elem_fits {e e' : Elem} {r r' : Str} (h : ElemR A e e') (hr : A r r') (he : e.Fits r) : e'.Fits r' := by
  obtain ⟨h1, h2, h3⟩ := he
  exact ⟨AlikeText.space h1 h.before (.cons (.inl rfl) (h.after.append (AlikeText.append h.value hr))),
    AlikeText.space h2 h.after (AlikeText.append h.value hr), AlikeText.quoted h.value h3⟩

theorem elems_fit {fs fs' : List Elem} {r r' : Str} (h : Each (ElemR A) fs fs') (hr : A r r')
    (hf : ElemsFit fs r) : ElemsFit fs' r' := by
  induction h with
  | nil => trivial
  | cons h1 h2 ih => exact ⟨elem_fits h1 ((elemsR_text hA h2).append hr) hf.1, ih hf.2⟩

theorem array_fits {a a' : Array} {r r' : Str} (h : ArrayR A a a') (hr : A r r') (ha : a.Fits r) : a'.Fits r' := by
  cases h with
  | empty h => exact AlikeText.space ha h (.cons (.inl rfl) hr)
  | @full g g' v v' es es' c k k' h1 h2 h3 h4 =>
    obtain ⟨g1, g2, g3, g4⟩ := ha
    have ht := (tail_A c h4).append hr
    exact ⟨AlikeText.space g1 h1 (AlikeText.append h2 ((elemsR_text hA h3).append ht)),
      AlikeText.quoted h2 g2, elems_fit h3 ht g3, AlikeText.space g4 h4 (.cons (.inl rfl) hr)⟩

theorem AlikeText.noArray {x y : Str} (h : A x y) (hx : NoArray x) : NoArray y := by
  rintro a r rfl ha
  obtain ⟨z, r', rfl, h1, h2⟩ := h.symm.cut
  obtain ⟨a', h3, rfl⟩ := array_cut _ _ h1
  exact hx a' r' rfl (array_fits h3 h2 ha)

theorem alias_fits {a a' : AliasText} {r r' : Str} (h : AliasR A (some a) (some a')) (hr : A r r')
    (ha : AliasFits a r) : AliasFits a' r' := by
  cases h with
  | some h1 h2 h3 h4 =>
    obtain ⟨g1, g2, g3, g4, g5⟩ := ha
    exact ⟨h1.gap (h2.append (h3.append (AlikeText.append h4 hr))) g1, h2.keyword g2 (by decide),
      h3.gap (AlikeText.append h4 hr) g3, AlikeText.ne h4 g4,
      AlikeText.all (fun _ _ h => h.ident) h4 g5⟩

theorem AlikeText.begins {k x y : Str} (h : A x y) (hx : Begins k x) : Begins k y := by
  by_cases k1 : k = c!"from"
  · subst k1
    obtain ⟨fs, g, c, r, rfl, h1, h2, h3, h4⟩ : ∃ fs g c r, x = flagsText fs ++ (g ++ c :: r) ∧
      FlagsFit fs (g ++ c :: r) ∧ Gap g (c :: r) ∧ IsImageChar c ∧ ¬ StartsFlag (c :: r) := hx
    obtain ⟨z1, z2, rfl, h5, h6⟩ := h.cut
    obtain ⟨fs', h7, rfl⟩ := Each.cut flag_cut h5
    obtain ⟨g', z3, rfl, h8, h9⟩ := h6.cut
    obtain ⟨d, r', rfl, h10, h11⟩ := h9.cutc
    show ∃ fs g c r, _ = flagsText fs ++ (g ++ c :: r) ∧
      FlagsFit fs (g ++ c :: r) ∧ Gap g (c :: r) ∧ IsImageChar c ∧ ¬ StartsFlag (c :: r)
    exact ⟨fs', g', d, r', rfl, flags_fit h7 h6 h1, h8.gap h9 h2, h10.image h3,
      fun h => h4 (h9.symm.startsFlag h)⟩
  by_cases k2 : k = c!"arg"
  · subst k2
    obtain ⟨g, c, r, rfl, h1, h2⟩ : ∃ g c r, x = g ++ c :: r ∧ Gap g (c :: r) ∧ IsAlpha c := hx
    obtain ⟨g', z1, rfl, h3, h4⟩ := h.cut
    obtain ⟨d, r', rfl, h5, h6⟩ := h4.cutc
    show ∃ g c r, _ = g ++ c :: r ∧ Gap g (c :: r) ∧ IsAlpha c
    exact ⟨g', d, r', rfl, h3.gap h4 h1, (h5.alpha h2).1⟩
  by_cases k3 : k = c!"copy"
  · subst k3
    obtain ⟨fs, a, b, r, rfl, h1, h2, h3, h4⟩ : ∃ fs a b r, x = flagsText fs ++ (a.text ++ (b.text ++ r)) ∧
      FlagsFit fs (a.text ++ (b.text ++ r)) ∧ Arg.Fits a (b.text ++ r) ∧ Arg.Fits b r ∧
      ¬ StartsFlag (a.value ++ (b.text ++ r)) := hx
    obtain ⟨z1, z2, rfl, h5, h6⟩ := h.cut
    obtain ⟨z3, z4, rfl, h7, h8⟩ := h6.cut
    obtain ⟨z5, r', rfl, h9, h10⟩ := h8.cut
    obtain ⟨fs', h11, rfl⟩ := Each.cut flag_cut h5
    obtain ⟨a', h12, rfl⟩ := arg_cut _ _ h7
    obtain ⟨b', h13, rfl⟩ := arg_cut _ _ h9
    show ∃ fs a b r, _ = flagsText fs ++ (a.text ++ (b.text ++ r)) ∧
      FlagsFit fs (a.text ++ (b.text ++ r)) ∧ Arg.Fits a (b.text ++ r) ∧ Arg.Fits b r ∧
      ¬ StartsFlag (a.value ++ (b.text ++ r))
    exact ⟨fs', a', b', r', rfl, flags_fit h11 h6 h1, arg_fits h12 h8 h2, arg_fits h13 h10 h3,
      fun h => h4 ((AlikeText.append h12.value h8).symm.startsFlag h)⟩
  unfold Begins at hx ⊢
  rw [if_neg k1, if_neg k2, if_neg k3] at hx ⊢
  by_cases k4 : k = c!"label" ∨ k = c!"env"
  · rw [if_pos k4] at hx ⊢
    exact h.startsSpace hx
  · rw [if_neg k4] at hx ⊢
    obtain ⟨g, r, rfl, h1, h2⟩ := hx
    obtain ⟨g', r', rfl, h3, h4⟩ := h.cut
    exact ⟨g', r', rfl, h3.gap h4 h1, fun h => h2 (h4.symm.eol h)⟩

theorem ExecKind.keyword_alpha (k : ExecKind) : ∀ c ∈ k.keyword, isAlpha c = true := by
  cases k <;> decide

theorem item_fits {i i' : Item} {r r' : Str} (h : ItemR A i i') (hr : A r r') (hi : i.Fits r) : i'.Fits r' := by
  cases h with
  | blank => trivial
  | comment h => exact ⟨h.comment hi.1, hr.eol hi.2⟩
  | «from» h1 h2 h3 h4 h5 =>
    obtain ⟨g1, g2, g3, g4, g5, g6⟩ := hi
    have ha := (h5.text hA).append hr
    have hb := AlikeText.append h4 ha
    refine ⟨h1.keyword g1 (by decide), flags_fit h2 (h3.append hb) g2, h3.gap hb g3, AlikeText.ne h4 g4,
      AlikeText.all (fun _ _ h => h.image) h4 g5, ?_⟩
    rintro x rfl
    cases h5 with
    | some k1 k2 k3 k4 => exact alias_fits (.some k1 k2 k3 k4) hr (g6 _ rfl)
  | arg h1 h2 h3 h4 =>
    obtain ⟨g1, g2, ⟨c, b, rfl, g3, g4⟩, g5⟩ := hi
    refine ⟨h1.keyword g1 (by decide), h2.gap (AlikeText.append h3 ((h4.text hA).append hr)) g2, ?_, ?_⟩
    · obtain ⟨d, b', rfl, k1, k2⟩ := AlikeText.cutc h3
      exact ⟨d, b', rfl, (k1.alpha g3).1, k2.words g4⟩
    · rintro x rfl
      cases h4 with
      | some h => exact value_fits h hr (g5 _ rfl)
  | label h1 h2 h3 =>
    obtain ⟨g1, g2, g3, g4, g5⟩ := hi
    refine ⟨h1.keyword g1 (by decide), pairs_fit label_fits h2 (h3.append hr) g2, AlikeText.space g3 h3 hr, ?_,
      hr.eol g5⟩
    rcases g4 with g4 | g4
    · cases h2 with
      | nil => exact absurd rfl g4
      | cons _ _ => exact .inl nofun
    · exact .inr (h3.ne g4)
  | label1 h1 h2 h3 h4 h5 =>
    obtain ⟨g1, g2, g3, g4, g5⟩ := hi
    have ha := (h5.text hA).append hr
    exact ⟨h1.keyword g1 (by decide), h2.gap ((h3.text hA).append (h4.append ha)) g2,
      value_fitsName h3 (h4.append ha) g3, h4.gap ha g4, value_fits h5 hr g5⟩
  | @shell k kw kw' g g' s s' h1 h2 h3 =>
    obtain ⟨g1, g2, g3, g4⟩ := hi
    have ha := (h3.text hA).append hr
    exact ⟨h1.keyword g1 (ExecKind.keyword_alpha _), h2.gap ha g2, shell_fits h3 hr g3, ha.noArray g4⟩
  | exec h1 h2 h3 =>
    obtain ⟨g1, g2, g3⟩ := hi
    exact ⟨h1.keyword g1 (ExecKind.keyword_alpha _), h2.gap ((h3.text hA).append hr) g2, array_fits h3 hr g3⟩
  | copy h1 h2 h3 h4 =>
    obtain ⟨g1, g2, g3, g4, g5⟩ := hi
    have ha := h3.append (.cons h4 .nil)
    refine ⟨h1.keyword g1 (by decide), flags_fit h2 ((argsR_text hA ha).append hr) g2, ?_, args_fit ha hr g4, ?_⟩
    · cases h3 with
      | nil => exact absurd rfl g3
      | cons _ _ => nofun
    · rintro f b rfl hs
      cases h3 with
      | cons k1 k2 =>
        refine g5 _ _ rfl (AlikeText.startsFlag (AlikeText.symm ?_) hs)
        exact AlikeText.append k1.value ((argsR_text hA (k2.append (.cons h4 .nil))).append hr)
  | env h1 h2 h3 =>
    obtain ⟨g1, g2, g3, g4, g5⟩ := hi
    refine ⟨h1.keyword g1 (by decide), pairs_fit env_fits h2 (h3.append hr) g2, AlikeText.space g3 h3 hr, ?_,
      hr.eol g5⟩
    rcases g4 with g4 | g4
    · cases h2 with
      | nil => exact absurd rfl g4
      | cons _ _ => exact .inl nofun
    · exact .inr (h3.ne g4)
  | env1 h1 h2 h3 h4 h5 =>
    obtain ⟨g1, g2, g3, g4, g5, g6, g7⟩ := hi
    have ha := (h5.text hA).append hr
    exact ⟨h1.keyword g1 (by decide), h2.gap (AlikeText.append h3 (h4.append ha)) g2, AlikeText.ne h3 g3,
      AlikeText.words h3 g4, h4.gap ha g5, shell_fits h5 hr g6, ha.noQuoted g7⟩
  | env1q h1 h2 h3 h4 h5 =>
    obtain ⟨g1, g2, g3, g4, g5, g6⟩ := hi
    have ha := AlikeText.append h5 hr
    exact ⟨h1.keyword g1 (by decide), h2.gap (AlikeText.append h3 (h4.append ha)) g2, AlikeText.ne h3 g3,
      AlikeText.words h3 g4, h4.gap ha g5, AlikeText.quoted h5 g6⟩
  | misc h1 h2 =>
    obtain ⟨g1, g2, g3, g4, g5⟩ := hi
    have hl := AlikeText.lower h1 fun c hc => by
      obtain ⟨d, hd, rfl⟩ := List.mem_map.1 hc
      refine isAlpha_iff.1 ?_
      rw [isAlpha_lowerChar]
      exact isAlpha_iff.2 (g2 d hd)
    refine ⟨AlikeText.ne h1 g1, AlikeText.alphas h1 g2, shell_fits h2 hr g3, fun c b e hc => ?_, fun hk hb => ?_⟩
    · have := (h2.text hA).symm
      rw [e] at this
      obtain ⟨d, b', e', k1, -⟩ := this.cutc
      exact g4 d b' e' (k1.alpha hc).1
    · unfold IsKeyword at hk g5
      rw [hl] at hk hb
      exact g5 hk (((h2.text hA).append hr).symm.begins hb)

theorem line_fits {l l' : Line} {r r' : Str} (h : LineR A l l') (hr : A r r') (hl : l.Fits r) : l'.Fits r' := by
  obtain ⟨h1, h2, h3⟩ := hl
  exact ⟨by rw [h.indent.blanks h1]; exact h1, item_fits h.item (h.trail.append hr) h2,
    by rw [h.trail.blanks h3]; exact h3⟩

theorem doc_fits {ms ms' : List (Str × Line)} (h : LinesR A ms ms') {l l' : Line} (hl : LineR A l l')
    (hf : DocFits l ms) : DocFits l' ms' := by
  induction h generalizing l l' with
  | nil => exact line_fits hl .nil hf
  | cons h1 h2 h3 ih =>
    obtain ⟨g1, g2, g3⟩ := hf
    have := docR_text hA h3 h2
    exact ⟨line_fits hl (h1.append this) g1, h1.lineBreak this g2, ih h2 g3⟩

/-- Texts that look alike are cut into lines in the same way. -/
theorem fits_alike {l : Line} {ms : List (Str × Line)} (hf : DocFits l ms) {s : Str} (h : A (docText l ms) s) :
    ∃ l' ms', LineR A l l' ∧ LinesR A ms ms' ∧ docText l' ms' = s ∧ DocFits l' ms' := by
  obtain ⟨l', ms', h1, h2, h3⟩ := doc_cut ms l s h
  exact ⟨l', ms', h1, h2, h3, doc_fits h2 h1 hf⟩

end Src
end Verif
