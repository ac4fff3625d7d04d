import Verif.Proof.EditItem

/-!
# Lines with new texts are well-formed
-/

namespace Verif
namespace Src
open Spec

variable {unq : Unquote} {new : Span → Option Str}

theorem put_cases {k p t} (h : FieldOK unq new k p t) :
    put new p t = t ∨ (Like t (put new p t) ∧ k.Ok unq (put new p t)) := by
  unfold put
  cases hn : new ⟨p, p + blen t⟩ with
  | none => exact .inl rfl
  | some t' => exact .inr (h t' hn)

theorem plain_ne {c : Char} (h : Plain c) : ¬ (c = '\n' ∨ c = '\r') ∧ ¬ (c = ' ' ∨ c = '\t') ∧ c ≠ '\\' ∧
    c ≠ '=' ∧ c ≠ '#' := by
  refine ⟨fun e => nplain_break e h, fun e => nplain_blank e h, ?_, ?_, ?_⟩ <;> rintro rfl <;>
    exact nplain (by decide) h

theorem plain_wordEnd {c : Char} {t : Str} (h : Plain c) : ¬ WordEnd (c :: t) := by
  obtain ⟨h1, h2, h3, -⟩ := plain_ne h
  rintro (h | ⟨d, t, e', hd⟩ | ⟨w', n, t, e', -⟩)
  · exact h1 (h c _ rfl)
  · obtain ⟨rfl, -⟩ := List.cons.inj e'
    exact h2 hd
  · obtain ⟨rfl, -⟩ := List.cons.inj e'
    exact h3 rfl

theorem like_ne {t t' : Str} (h : Like t t') (ht : t ≠ []) : t' ≠ [] := by
  rintro rfl
  exact ht h.symm.empty

/-- the rest of the text from a character on that is not plain -/
theorem like_rest {t t' r r' : Str} (h : Like t t') (hr : Like r r') {E : Str → Prop}
    (hE : ∀ {x x'}, Like x x' → E x → E x') (hp : ∀ c x, Plain c → ¬ E (c :: x))
    (ht : ∀ a b, t = a ++ b → b ≠ [] → ¬ E (b ++ r)) : ∀ a b, t' = a ++ b → b ≠ [] → ¬ E (b ++ r') := by
  intro a b e hb he
  cases b with
  | nil => exact hb rfl
  | cons c b =>
    by_cases hc : Plain c
    · exact hp c _ hc he
    · subst e
      obtain ⟨y, z, e1, -, h2⟩ := h.symm.cut (y := a) (z := c :: b) fun d _ e => by
        obtain ⟨rfl, -⟩ := List.cons.inj e
        exact hc
      exact ht y z e1 (like_ne h2 (by simp)) (hE (h2.append hr.symm) he)

theorem word_like {t t' r r' : Str} (hw : Word t r) (h : Like t t') (hr : Like r r') : Word t' r' :=
  ⟨like_ne h hw.1, like_rest h hr (fun h => h.wordEnd) (fun _ _ h => plain_wordEnd h) hw.2.1, hr.wordEnd hw.2.2⟩

theorem word_put {k p t r r'} (hw : Word t r) (h : FieldOK unq new k p t) (hx : Like r r') :
    Word (put new p t) r' := word_like hw h.x hx

theorem name_put {k p t r r'} (hw : NameWord t r) (h : FieldOK unq new k p t) (hx : Like r r') :
    NameWord (put new p t) r' :=
  ⟨like_ne h.x hw.1, h.x.all (fun _ hc he => endsName_nplain he hc) hw.2.1, (hw.exch hx).2.2⟩

theorem quoted_put {k p t} (hw : QuotedText t) (h : FieldOK unq new k p t) : QuotedText (put new p t) :=
  quoted_swap h.x hw

theorem over_put {P : Char → Prop} {k : Kind} (hP : ∀ t', k.Ok unq t' → Over P t') {p t}
    (h : FieldOK unq new k p t) (h1 : t ≠ []) (h2 : ∀ c ∈ t, P c) :
    put new p t ≠ [] ∧ ∀ c ∈ put new p t, P c := by
  rcases put_cases h with e | ⟨-, h3⟩
  · rw [e]; exact ⟨h1, h2⟩
  · exact hP _ h3

theorem Value.Fits.put {k p r r'} {v : Value} (hv : v.Fits r) (h : FieldOK unq new k p v.text) (hx : Like r r') :
    (v.put new p).Fits r' := by
  cases v with
  | quoted t => exact quoted_put hv h
  | bare t => exact ⟨hv.1.exch (h.x.append hx), word_put hv.2 h hx⟩

theorem Value.FitsName.put {k p r r'} {v : Value} (hv : v.FitsName r) (h : FieldOK unq new k p v.text)
    (hx : Like r r') : (v.put new p).FitsName r' := by
  cases v with
  | quoted t => exact quoted_put hv h
  | bare t => exact ⟨hv.1.exch (h.x.append hx), name_put hv.2 h hx⟩

theorem flag_ok {p} {f : Flag} (h : SegOK unq new p f.segs) :
    FieldOK unq new .alpha (p + blen f.gap + 2) f.name ∧
    FieldOK unq new .value (p + blen f.gap + 2 + blen f.name + 1) f.value := by
  have h1 := h.fix.fix.fld
  exact ⟨h1.1, h1.2.fix.fld.1⟩

theorem flag_ex {p} {f : Flag} (h : SegOK unq new p f.segs) : Like f.body (f.put new p).body := by
  obtain ⟨h1, h2⟩ := flag_ok h
  exact .same _ (.same _ (h1.x.append (.same _ h2.x)))

theorem Flag.Fits.put {p r r'} {f : Flag} (hf : f.Fits r) (h : SegOK unq new p f.segs) (hx : Like r r') :
    (f.put new p).Fits r' := by
  obtain ⟨h1, h2⟩ := flag_ok h
  obtain ⟨h3, h4, h5, h6⟩ := hf
  obtain ⟨h7, h8⟩ := over_put (P := IsAlpha) (k := .alpha) (unq := unq) (fun _ h => h) h1 h4 h5
  exact ⟨h3.exch ((flag_ex h).append hx), h7, h8, word_put h6 h2 hx⟩

theorem flags_ok {p} {f : Flag} {fs : List Flag} (h : SegOK unq new p (flagsSegs (f :: fs))) :
    SegOK unq new p f.segs ∧ SegOK unq new (p + blen f.text) (flagsSegs fs) := by
  rw [show flagsSegs (f :: fs) = f.segs ++ flagsSegs fs by simp [flagsSegs]] at h
  have := h.append
  rwa [show segText f.segs = f.text by simp [Flag.segs, Flag.text, Flag.body]] at this

theorem flags_ex {p} {fs : List Flag} (h : SegOK unq new p (flagsSegs fs)) :
    Like (flagsText fs) (flagsText (flagsPut new p fs)) := by
  have := h.x
  rwa [flags_put, flags_text, flags_text] at this

theorem FlagsFit.put {fs : List Flag} : ∀ {p r r'}, FlagsFit fs r → SegOK unq new p (flagsSegs fs) → Like r r' →
    FlagsFit (flagsPut new p fs) r' := by
  induction fs with
  | nil => intros; trivial
  | cons f fs ih =>
    intro p r r' hf h hx
    obtain ⟨h1, h2⟩ := flags_ok h
    exact ⟨hf.1.put h1 ((flags_ex h2).append hx), ih hf.2 h2 hx⟩

theorem Arg.Fits.put {p r r'} {f : Arg} (hf : f.Fits r) (h : SegOK unq new p f.segs) (hx : Like r r') :
    (f.put new p).Fits r' := by
  have h1 := h.fix.fld.1
  exact ⟨Gap.exch hf.1 (h1.x.append hx), word_put hf.2 h1 hx⟩

theorem args_ok {p} {f : Arg} {fs : List Arg} (h : SegOK unq new p (argsSegs (f :: fs))) :
    SegOK unq new p f.segs ∧ SegOK unq new (p + blen f.text) (argsSegs fs) := by
  rw [show argsSegs (f :: fs) = f.segs ++ argsSegs fs by simp [argsSegs]] at h
  have := h.append
  rwa [arg_text] at this

theorem args_ex {p} {fs : List Arg} (h : SegOK unq new p (argsSegs fs)) :
    Like (argsText fs) (argsText (argsPut new p fs)) := by
  have := h.x
  rwa [args_put, args_text, args_text] at this

theorem ArgsFit.put {fs : List Arg} : ∀ {p r r'}, ArgsFit fs r → SegOK unq new p (argsSegs fs) → Like r r' →
    ArgsFit (argsPut new p fs) r' := by
  induction fs with
  | nil => intros; trivial
  | cons f fs ih =>
    intro p r r' hf h hx
    obtain ⟨h1, h2⟩ := args_ok h
    exact ⟨Arg.Fits.put hf.1 h1 ((args_ex h2).append hx), ih hf.2 h2 hx⟩

theorem argsPut_append (fs gs : List Arg) : ∀ p,
    argsPut new p (fs ++ gs) = argsPut new p fs ++ argsPut new (p + blen (argsText fs)) gs := by
  induction fs with
  | nil => intro p; rfl
  | cons f fs ih =>
    intro p
    rw [List.cons_append, argsPut, ih, argsPut, argsText_cons, blen_append, ← Nat.add_assoc]
    rfl

/-! ## pairs -/

theorem pair_ok {k kv p} {f : Pair} (h : SegOK unq new p (f.segs k kv)) :
    FieldOK unq new k (p + blen f.gap) f.name.text ∧
    FieldOK unq new kv (p + blen f.gap + blen f.name.text + 1) f.value.text := by
  have h1 := h.fix.fld
  exact ⟨h1.1, h1.2.fix.fld.1⟩

theorem pair_ex {k kv p} {f : Pair} (h : SegOK unq new p (f.segs k kv)) : Like f.body (f.put new p).body := by
  obtain ⟨h1, h2⟩ := pair_ok h
  unfold Pair.body Pair.put
  simp only [Value.put_text]
  exact h1.x.append (.same _ h2.x)

theorem Pair.FitsLabel.put {p r r'} {f : Pair} (hf : f.FitsLabel r) (h : SegOK unq new p (f.segs .label .label))
    (hx : Like r r') : (f.put new p).FitsLabel r' := by
  obtain ⟨h1, h2⟩ := pair_ok h
  refine ⟨Gap.exch hf.1 ((pair_ex h).append hx), hf.2.1.put h1 (.same _ ?_), hf.2.2.put h2 hx⟩
  show Like _ ((f.value.put new _).text ++ r')
  rw [Value.put_text]
  exact h2.x.append hx

theorem Pair.FitsEnv.put {p r r'} {f : Pair} (hf : f.FitsEnv r) (h : SegOK unq new p (f.segs .word .env))
    (hx : Like r r') : (f.put new p).FitsEnv r' := by
  obtain ⟨h1, h2⟩ := pair_ok h
  refine ⟨Gap.exch hf.1 ((pair_ex h).append hx), ?_, hf.2.2.put h2 hx⟩
  obtain ⟨n, e, h3, h4⟩ := hf.2.1
  rw [e] at h1
  obtain ⟨h5, h6⟩ := over_put (P := IsWord) (k := .word) (unq := unq) (fun _ h => h) h1 h3 h4
  exact ⟨_, by simp only [Pair.put, e, Value.put]; rfl, h5, h6⟩

theorem pairs_ok {k kv p} {f : Pair} {fs : List Pair} (h : SegOK unq new p (pairsSegs k kv (f :: fs))) :
    SegOK unq new p (f.segs k kv) ∧ SegOK unq new (p + blen f.text) (pairsSegs k kv fs) := by
  rw [show pairsSegs k kv (f :: fs) = f.segs k kv ++ pairsSegs k kv fs by simp [pairsSegs]] at h
  have := h.append
  rwa [pair_text] at this

theorem pairs_ex {k kv p} {fs : List Pair} (h : SegOK unq new p (pairsSegs k kv fs)) :
    Like (pairsText fs) (pairsText (pairsPut new p fs)) := by
  have := h.x
  rwa [pairs_put, pairs_text, pairs_text] at this

theorem PairsFit.put {F : Pair → Str → Prop} {k kv : Kind}
    (hF : ∀ f p r r', F f r → SegOK unq new p (f.segs k kv) → Like r r' → F (f.put new p) r')
    {fs : List Pair} : ∀ {p r r'}, PairsFit F fs r → SegOK unq new p (pairsSegs k kv fs) → Like r r' →
    PairsFit F (pairsPut new p fs) r' := by
  induction fs with
  | nil => intros; trivial
  | cons f fs ih =>
    intro p r r' hf h hx
    obtain ⟨h1, h2⟩ := pairs_ok h
    exact ⟨hF _ _ _ _ hf.1 h1 ((pairs_ex h2).append hx), ih hf.2 h2 hx⟩

/-! ## shell text -/

theorem shell_ex {k c p} {s : Shell} (h : SegOK unq new p (s.segs k c)) : Like s.text (s.put new p).text := by
  have := h.x
  rwa [shell_put, shell_text, shell_text] at this

theorem piece_put {k p t r r'} (hp : Shell.Piece t r) (h : FieldOK unq new k p t) (hx : Like r r') :
    Shell.Piece (put new p t) r' := by
  obtain ⟨h1, h2, h3, h4⟩ := hp
  refine ⟨like_ne h.x h1, h.x.all (P := fun c => c ≠ '\n' ∧ c ≠ '\r') (fun c hc =>
    ⟨fun e => nplain_break (.inl e) hc, fun e => nplain_break (.inr e) hc⟩) h2,
    like_rest h.x hx (fun h => h.continuation) (fun c x hc => ?_) h3, fun w u hw e => ?_⟩
  · rintro ⟨w, n, t', e, -⟩
    obtain ⟨rfl, -⟩ := List.cons.inj e
    exact (plain_ne hc).2.2.1 rfl
  · have := (h.x.append hx).symm
    rw [e] at this
    obtain ⟨z, e1, h5⟩ := this.strip (blanks_nplain hw)
    obtain ⟨z', rfl, -⟩ := h5.cons (nplain (by decide))
    exact h4 w z' hw e1

theorem Shell.Fits.put {k c} {s : Shell} : ∀ {p r r'}, s.Fits r → SegOK unq new p (s.segs k c) → Like r r' →
    (s.put new p).Fits r' := by
  induction s with
  | last t =>
    intro p r r' hs h hx
    exact ⟨piece_put hs.1 h.fld.1 hx, hx.eol hs.2⟩
  | lastComment w t n =>
    intro p r r' hs h hx
    have h1 : FieldOK unq new c (p + blen w) t := h.fix.fld.1
    obtain ⟨h2, h3, h4⟩ := Shell.Fits.exch (s := .lastComment w t n) hs hx
    exact ⟨h2, comment_X h1.x h3, h4⟩
  | more t w n s ih =>
    intro p r r' hs h hx
    obtain ⟨h1, h2⟩ := h.fld
    have h3 : SegOK unq new (p + blen t + 1 + blen w + blen n) (s.segs k c) := h2.fix.fix.fix
    obtain ⟨h4, h5, h6, h7⟩ := hs
    have hx' := (shell_ex h3).append hx
    exact ⟨piece_put h4 h1 (((hx'.pre n).pre w).pre ['\\']), h5, hx'.lineBreak h6, ih h7 h3 hx⟩
  | comment w t n s ih =>
    intro p r r' hs h hx
    obtain ⟨h1, h2⟩ := h.fix.fld
    have h3 : SegOK unq new (p + blen w + blen t + blen n) (s.segs k c) := h2.fix
    obtain ⟨h4, h5, h6, h7⟩ := hs
    have hx' := (shell_ex h3).append hx
    exact ⟨h4, comment_X h1.x h5, hx'.lineBreak h6, ih h7 h3 hx⟩

theorem shell_put_same {P : Prop} (hP : ¬ P) {s : Shell} : ∀ {p}, SegOK unq new p (s.segs (.text P) (.text P)) →
    s.put new p = s := by
  have hput : ∀ {p t}, FieldOK unq new (.text P) p t → Src.put new p t = t := by
    intro p t h
    rcases put_cases h with e | ⟨-, h1⟩
    · exact e
    · exact absurd h1 hP
  induction s with
  | last t => intro p h; rw [Shell.put, hput h.fld.1]
  | lastComment w t n => intro p h; rw [Shell.put, hput h.fix.fld.1]
  | more t w n s ih =>
    intro p h
    rw [Shell.put, hput h.fld.1, ih (p := p + blen t + 1 + blen w + blen n) h.fld.2.fix.fix.fix]
  | comment w t n s ih =>
    intro p h
    rw [Shell.put, hput h.fix.fld.1, ih (p := p + blen w + blen t + blen n) h.fix.fld.2.fix]

/-! ## arrays -/

theorem elems_segs_ok {p} {f : Elem} {fs : List Elem} (h : SegOK unq new p (elemsSegs (f :: fs))) :
    SegOK unq new p f.segs ∧ SegOK unq new (p + blen f.text) (elemsSegs fs) := by
  rw [show elemsSegs (f :: fs) = f.segs ++ elemsSegs fs by simp [elemsSegs]] at h
  have := h.append
  rwa [show segText f.segs = f.text by simp [Elem.segs, Elem.text]] at this

theorem elems_ex {p} {fs : List Elem} (h : SegOK unq new p (elemsSegs fs)) :
    Like (elemsText fs) (elemsText (elemsPut new p fs)) := by
  have := h.x
  rwa [elems_put, elems_text, elems_text] at this

theorem Elem.Fits.put {p r r'} {e : Elem} (he : e.Fits r) (h : SegOK unq new p e.segs) (hx : Like r r') :
    (e.put new p).Fits r' := by
  have h1 : FieldOK unq new .value (p + blen e.before + 1 + blen e.after) e.value := h.fix.fix.fix.fld.1
  obtain ⟨h2, h3, h4⟩ := he
  have hx' := h1.x.append hx
  exact ⟨h2.exch (.same _ (hx'.pre _)), h3.exch hx', quoted_put h4 h1⟩

theorem ElemsFit.put {fs : List Elem} : ∀ {p r r'}, ElemsFit fs r → SegOK unq new p (elemsSegs fs) → Like r r' →
    ElemsFit (elemsPut new p fs) r' := by
  induction fs with
  | nil => intros; trivial
  | cons f fs ih =>
    intro p r r' hf h hx
    obtain ⟨h1, h2⟩ := elems_segs_ok h
    exact ⟨Elem.Fits.put hf.1 h1 ((elems_ex h2).append hx), ih hf.2 h2 hx⟩

theorem array_ex {p} {a : Array} (h : SegOK unq new p a.segs) : Like a.text (a.put new p).text := by
  have := h.x
  rwa [array_put, array_text, array_text] at this

theorem Array.Fits.put {p r r'} {a : Array} (ha : a.Fits r) (h : SegOK unq new p a.segs) (hx : Like r r') :
    (a.put new p).Fits r' := by
  cases a with
  | empty g => exact Array.Fits.exch (a := .empty g) ha hx
  | full g v es c g' =>
    obtain ⟨h1, h2⟩ := (h.fix.fix).fld
    have h1 : FieldOK unq new .value (p + 1 + blen g) v := h1
    have h2 : SegOK unq new (p + 1 + blen g + blen v) (elemsSegs es) := h2.append.1
    obtain ⟨h3, h4, h5, h6⟩ := ha
    exact ⟨h3.exch (h1.x.append ((elems_ex h2).append (hx.pre _))), quoted_put h4 h1,
      ElemsFit.put h5 h2 (hx.pre _), h6.exch (hx.pre [']'])⟩

/-! ## the first argument of `COPY` is no flag -/

theorem Word.unique {w r w' r' : Str} (h : Word w r) (h' : Word w' r') (e : w ++ r = w' ++ r') :
    w = w' ∧ r = r' := by
  rcases List.append_eq_append_iff.1 e with ⟨k, h1, h2⟩ | ⟨k, h1, h2⟩
  · cases k with
    | nil => exact ⟨by simpa using h1.symm, by simpa using h2⟩
    | cons c k => exact absurd (h2 ▸ h.2.2) (h'.2.1 w (c :: k) h1 (by simp))
  · cases k with
    | nil => exact ⟨by simpa using h1, by simpa using h2.symm⟩
    | cons c k => exact absurd (h2 ▸ h'.2.2) (h.2.1 w' (c :: k) h1 (by simp))

theorem startsFlag_word {w r : Str} (hw : Word w r) : StartsFlag (w ++ r) ↔
    ∃ n v, w = '-' :: '-' :: (n ++ '=' :: v) ∧ n ≠ [] ∧ (∀ c ∈ n, IsAlpha c) ∧ v ≠ [] := by
  constructor
  · rintro ⟨n, v, s, e, h1, h2, h3⟩
    have h4 : Word (('-' :: '-' :: (n ++ ['='])) ++ v) s := by
      refine Word.append (fun c hc => ?_) h3
      simp only [List.mem_cons, List.mem_append, List.not_mem_nil, or_false] at hc
      rcases hc with rfl | rfl | hc | rfl
      · decide
      · decide
      · refine ⟨(alpha_plain' (h2 c hc)).1, (alpha_plain' (h2 c hc)).2, ?_⟩
        rintro rfl
        exact nalpha (by decide) (h2 _ hc)
      · decide
    obtain ⟨rfl, rfl⟩ := hw.unique h4 (by simpa using e)
    exact ⟨n, v, by simp, h1, h2, h3.1⟩
  · rintro ⟨n, v, rfl, h1, h2, h3⟩
    exact ⟨n, v, r, by simp, h1, h2, h3, fun a b e hb => hw.2.1 ('-' :: '-' :: (n ++ '=' :: a)) b
      (by simp [e]) hb, hw.2.2⟩

theorem startsFlag_put {p t r r'} (hw : Word t r) (h : FieldOK unq new .path p t) (hx : Like r r')
    (hn : ¬ StartsFlag (t ++ r)) : ¬ StartsFlag (put new p t ++ r') := by
  rw [startsFlag_word (word_put hw h hx)]
  rcases put_cases h with e | ⟨-, h1⟩
  · rw [e, ← startsFlag_word hw]; exact hn
  · exact h1.2

theorem Shell.BlankWord.head {s : Shell} (h : s.BlankWord) :
    ∃ c x, s.text = c :: x ∧ (c = ' ' ∨ c = '\t') := by
  obtain ⟨t, b, c, u, h1, rfl, h2, h3, -⟩ := h
  obtain ⟨d, b, rfl⟩ := List.exists_cons_of_ne_nil h2
  cases s with
  | last t => cases h1; exact ⟨d, _, rfl, h3 d (by simp)⟩
  | more t w n s => cases h1; exact ⟨d, _, rfl, h3 d (by simp)⟩
  | lastComment => cases h1
  | comment => cases h1

/-! ## items -/

theorem alias_put_fits {p r r'} {a : AliasText} (ha : AliasFits a r)
    (h : SegOK unq new p (aliasSegs (some a))) (hx : Like r r') : AliasFits (aliasPut new p a) r' := by
  have h1 : FieldOK unq new .ident (p + blen a.gap + blen a.kw + blen a.gap') a.name := h.fix.fix.fix.fld.1
  obtain ⟨h2, h3, h4, h5, h6⟩ := ha
  have hx' := h1.x.append hx
  obtain ⟨h7, h8⟩ := over_put (P := IsIdent) (k := .ident) (unq := unq) (fun _ h => h) h1 h5 h6
  exact ⟨Gap.exch h2 ((hx'.pre _).pre _), h3, Gap.exch h4 hx', h7, h8⟩

theorem alias_ex {p} {a : Option AliasText} (h : SegOK unq new p (aliasSegs a)) :
    Like (aliasText a) (aliasText (a.map (aliasPut new p))) := by
  cases a with
  | none => exact .nil
  | some a =>
    have h1 : FieldOK unq new .ident (p + blen a.gap + blen a.kw + blen a.gap') a.name := h.fix.fix.fix.fld.1
    exact ((h1.x.pre _).pre _).pre _

theorem value_ex {p} {v : Option Value} (h : SegOK unq new p (valueSegs v)) :
    Like (valueText v) (valueText (v.map (Value.put new (p + 1)))) := by
  cases v with
  | none => exact .nil
  | some v =>
    have h1 : FieldOK unq new .value (p + 1) v.text := h.fix.fld.1
    simp only [valueText, Option.map_some, Value.put_text]
    exact .same _ h1.x

/-- what follows, unchanged or with texts exchanged in later lines -/
def Later (r r' : Str) : Prop := r = r' ∨ Spot Broken r r'

theorem Later.x {r r' : Str} (h : Later r r') : Like r r' := by
  rcases h with rfl | h
  · exact .refl _
  · exact h.x

theorem Later.pre {r r' : Str} (u : Str) (h : Later r r') : Later (u ++ r) (u ++ r') := by
  rcases h with rfl | h
  · exact .inl rfl
  · exact .inr (h.pre u)

theorem item_put_fits {p r r'} {i : Item} (hi : i.Fits r) (h : SegOK unq new (p + blen i.kw) i.rest)
    (hl : Later r r') : (i.put new p).Fits r' := by
  have hx := hl.x
  cases i with
  | blank => trivial
  | comment t => exact ⟨hi.1, hx.eol hi.2⟩
  | «from» kw fs g i a =>
    obtain ⟨h1, h2⟩ := h.append
    rw [flags_text] at h2
    obtain ⟨h3, h4⟩ := h2.fix.fld
    obtain ⟨k1, k2, k3, k4, k5, k6⟩ := hi
    have hx' := h3.x.append ((alias_ex h4).append hx)
    obtain ⟨k7, k8⟩ := over_put (P := IsImageChar) (k := .image) (unq := unq) (fun _ h => h.1) h3 k4 k5
    refine ⟨k1, k2.put h1 (hx'.pre _), k3.exch hx', k7, k8, fun x e => ?_⟩
    cases a with
    | none => cases e
    | some a =>
      cases e
      exact alias_put_fits (k6 a rfl) h4 hx
  | arg kw g n v =>
    obtain ⟨h1, h2⟩ := h.fix.fld
    obtain ⟨k1, k2, k3, k4⟩ := hi
    refine ⟨k1, k2.exch (h1.x.append ((value_ex h2).append hx)), ?_, fun x e => ?_⟩
    · rcases put_cases h1 with e | ⟨-, h3⟩
      · rw [show p + blen kw + blen g = p + blen (Item.arg kw g n v).kw + blen g from rfl, e]; exact k3
      · exact h3
    · cases v with
      | none => cases e
      | some v =>
        cases e
        exact (k4 v rfl).put (show FieldOK unq new .value _ _ from h2.fix.fld.1) hx
  | label kw ps t =>
    obtain ⟨h1, h2⟩ := h.append
    obtain ⟨k1, k2, k3, k4, k5⟩ := hi
    refine ⟨k1, PairsFit.put (fun _ _ _ _ h1 h2 h3 => h1.put h2 h3) k2 h1 (hx.pre t), k3.exch hx, ?_, hx.eol k5⟩
    cases ps with
    | nil => exact k4
    | cons f fs => exact .inl (by simp [pairsPut])
  | label1 kw g n g' v =>
    obtain ⟨h1, h2⟩ := h.fix.fld
    have h3 : FieldOK unq new .label (p + blen kw + blen g + blen n.text + blen g') v.text := h2.fix.fld.1
    have h1 : FieldOK unq new .label (p + blen kw + blen g) n.text := h1
    obtain ⟨k1, k2, k3, k4, k5⟩ := hi
    have hx' : Like (v.text ++ r) ((v.put new (p + blen kw + blen g + blen n.text + blen g')).text ++ r') := by
      rw [Value.put_text]; exact h3.x.append hx
    refine ⟨k1, k2.exch ?_, k3.put h1 (hx'.pre g'), k4.exch hx', k5.put h3 hx⟩
    rw [Value.put_text]
    exact h1.x.append (hx'.pre g')
  | shell k kw g s =>
    have h1 : SegOK unq new (p + blen kw + blen g) (s.segs (.text True) (.text True)) := h.fix
    obtain ⟨k1, k2, k3, k4⟩ := hi
    have hx' := (shell_ex h1).append hx
    exact ⟨k1, k2.exch hx', k3.put h1 hx, NoArray.exch k4 hx'⟩
  | exec k kw g a =>
    have h1 : SegOK unq new (p + blen kw + blen g) a.segs := h.fix
    obtain ⟨k1, k2, k3⟩ := hi
    exact ⟨k1, k2.exch ((array_ex h1).append hx), k3.put h1 hx⟩
  | copy kw fs ss d =>
    obtain ⟨h1, h2⟩ := h.append
    rw [flags_text] at h2
    have h2 : SegOK unq new (p + blen kw + blen (flagsText fs)) (argsSegs (ss ++ [d])) := by
      simpa [argsSegs, Item.kw] using h2
    obtain ⟨k1, k2, k3, k4, k5⟩ := hi
    have e : argsPut new (p + blen kw + blen (flagsText fs)) ss ++
        [d.put new (p + blen kw + blen (flagsText fs) + blen (argsText ss))] =
        argsPut new (p + blen kw + blen (flagsText fs)) (ss ++ [d]) := by
      rw [argsPut_append]; rfl
    refine ⟨k1, k2.put h1 ?_, ?_, ?_, ?_⟩
    · show Like _ (argsText (_ ++ [_]) ++ r')
      rw [e]
      exact (args_ex h2).append hx
    · cases ss with
      | nil => exact absurd rfl k3
      | cons f b => simp [argsPut]
    · rw [e]
      exact ArgsFit.put k4 h2 hx
    · intro f b e1
      cases ss with
      | nil => exact absurd rfl k3
      | cons f0 b0 =>
        obtain ⟨rfl, rfl⟩ := List.cons.inj e1
        rw [List.cons_append] at h2 k4
        obtain ⟨h3, h4⟩ := args_ok h2
        have hx' := (args_ex h4).append hx
        have := startsFlag_put k4.1.2 h3.fix.fld.1 hx' (k5 f0 b0 rfl)
        have e2 : argsPut new (p + blen kw + blen (flagsText fs) + blen f0.text) b0 ++
            [d.put new (p + blen kw + blen (flagsText fs) + blen (argsText (f0 :: b0)))] =
            argsPut new (p + blen kw + blen (flagsText fs) + blen f0.text) (b0 ++ [d]) := by
          rw [argsPut_append, argsText_cons, blen_append, ← Nat.add_assoc]; rfl
        rw [e2]
        exact this
  | env kw ps t =>
    obtain ⟨h1, h2⟩ := h.append
    obtain ⟨k1, k2, k3, k4, k5⟩ := hi
    refine ⟨k1, PairsFit.put (fun _ _ _ _ h1 h2 h3 => h1.put h2 h3) k2 h1 (hx.pre t), k3.exch hx, ?_, hx.eol k5⟩
    cases ps with
    | nil => exact k4
    | cons f fs => exact .inl (by simp [pairsPut])
  | env1 kw g n g' s =>
    obtain ⟨h1, h2⟩ := h.fix.fld
    have h3 : SegOK unq new (p + blen kw + blen g + blen n + blen g') (s.segs s.envKind (.text True)) := h2.fix
    have h1 : FieldOK unq new .word (p + blen kw + blen g) n := h1
    obtain ⟨k1, k2, k3, k4, k5, k6, k7⟩ := hi
    have hx' := (shell_ex h3).append hx
    obtain ⟨k8, k9⟩ := over_put (P := IsWord) (k := .word) (unq := unq) (fun _ h => h) h1 k3 k4
    exact ⟨k1, k2.exch (h1.x.append (hx'.pre _)), k8, k9, k5.exch hx', k6.put h3 hx, k7.exch hx'⟩
  | env1q kw g n g' v =>
    obtain ⟨h1, h2⟩ := h.fix.fld
    have h3 : FieldOK unq new .env (p + blen kw + blen g + blen n + blen g') v := h2.fix.fld.1
    have h1 : FieldOK unq new .word (p + blen kw + blen g) n := h1
    obtain ⟨k1, k2, k3, k4, k5, k6⟩ := hi
    have hx' := h3.x.append hx
    obtain ⟨k8, k9⟩ := over_put (P := IsWord) (k := .word) (unq := unq) (fun _ h => h) h1 k3 k4
    exact ⟨k1, k2.exch (h1.x.append (hx'.pre _)), k8, k9, k5.exch hx', quoted_put k6 h3⟩
  | misc w a =>
    have h1 : SegOK unq new (p + blen w) (a.segs (.text (¬ IsKeyword w ∧ a.BlankWord))
      (.text (¬ IsKeyword w ∧ a.BlankWord))) := h
    obtain ⟨k1, k2, k3, k4, k5⟩ := hi
    by_cases hP : ¬ IsKeyword w ∧ a.BlankWord
    · refine ⟨k1, k2, k3.put h1 hx, fun c b e => ?_, fun hk => absurd hk hP.1⟩
      obtain ⟨d, x, e1, hd⟩ := hP.2.head
      have := shell_ex h1
      rw [e1] at this
      obtain ⟨z, e2, -⟩ := this.cons (nplain_blank hd)
      rw [e2] at e
      obtain ⟨rfl, -⟩ := List.cons.inj e
      rcases hd with rfl | rfl <;> exact nalpha (by decide)
    · show (Item.misc w (a.put new (p + blen w))).Fits r'
      rw [shell_put_same hP h1]
      refine ⟨k1, k2, k3.exch hx, k4, fun hk hb => k5 hk ?_⟩
      rcases hl with rfl | hl
      · exact hb
      · exact begins_spot (hl.lead a.text).symm hb

end Src
end Verif
