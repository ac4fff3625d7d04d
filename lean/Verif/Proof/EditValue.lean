import Verif.Proof.EditDoc

/-!
# The values of lines with new texts
-/

namespace Verif
namespace Src
open Spec

variable {unq : Unquote} {es : List Edit} {m : Nat → Nat}

theorem bind_split {α β : Type} {x : Result α} {k : α → Result β} {y : β} (h : (x >>= k) = .ok y) :
    ∃ a, x = .ok a ∧ k a = .ok y := by
  cases x with
  | error e => cases h
  | ok a => exact ⟨a, rfl, h⟩

theorem newStr_eq (f : Str → Str) (s : SpannedString) : newStr es f s =
    match newImage es s.span with
    | some t => ⟨s.span, f t⟩
    | none => s := by
  unfold newStr newImage
  cases es.find? fun e => e.1 == s.span <;> rfl

/-- A text and its content: `ev` reads a text, `f` says what the new text stands for. -/
theorem field_str {ev : Str → Result Str} {f : Str → Str} {k : Kind} {q q' z z' : Nat} {t c : Str}
    (h : FieldOK unq (newImage es) k q t)
    (hev : ∀ t', Like t t' → k.Ok unq t' → ev t' = .ok (f t')) (hc : ev t = .ok c)
    (hz : z = q + blen t) (h1 : m q = q') (h2 : m z = z') :
    ∃ c', ev (put (newImage es) q t) = .ok c' ∧
      (newStr es f ⟨⟨q, z⟩, c⟩).remap m = ⟨⟨q', z'⟩, c'⟩ := by
  subst hz h1 h2
  rw [newStr_eq]
  unfold put
  cases hn : newImage es ⟨q, q + blen t⟩ with
  | none => exact ⟨c, hc, rfl⟩
  | some t' => exact ⟨f t', hev t' (h t' hn).1 (h t' hn).2, rfl⟩

/-- A text that stands for itself. -/
theorem field_raw {k : Kind} {q q' z z' : Nat} {t : Str}
    (h : FieldOK unq (newImage es) k q t) (hz : z = q + blen t) (h1 : m q = q') (h2 : m z = z') :
    (newStr es id ⟨⟨q, z⟩, t⟩).remap m = ⟨⟨q', z'⟩, put (newImage es) q t⟩ := by
  obtain ⟨c', h3, h4⟩ := field_str (ev := Except.ok) (f := id) h (fun _ _ _ => rfl) rfl hz h1 h2
  cases h3
  exact h4

theorem readable {t : Str} (h : Readable unq t) : read unq t = .ok (contentOf unq t) := by
  obtain ⟨c, h⟩ := h
  rw [contentOf, h]

/-! ## flags and arguments -/

theorem flag_moves {new} {f : Flag} {p p'} (h : Moves m new p p' f.segs) :
    m (p + blen f.gap) = p' + blen f.gap ∧
    m (p + blen f.gap + 2) = p' + blen f.gap + 2 ∧
    m (p + blen f.gap + 2 + blen f.name) = p' + blen f.gap + 2 + blen (f.put new p).name ∧
    m (p + blen f.gap + 2 + blen f.name + 1) = p' + blen f.gap + 2 + blen (f.put new p).name + 1 ∧
    m (p + blen f.gap + 2 + blen f.name + 1 + blen f.value) =
      p' + blen f.gap + 2 + blen (f.put new p).name + 1 + blen (f.put new p).value :=
  ⟨h.2.1 0 (Nat.zero_le _), h.2.2.1, h.2.2.2.1 0 (Nat.zero_le _), h.2.2.2.2.1, h.2.2.2.2.2⟩

theorem flag_value {f : Flag} {p p' x} (hok : SegOK unq (newImage es) p f.segs)
    (hm : Moves m (newImage es) p p' f.segs) (he : f.eval unq p = .ok x) :
    (f.put (newImage es) p).eval unq p' = .ok ((newFlag es unq x).remap m) := by
  obtain ⟨k1, k2⟩ := flag_ok hok
  obtain ⟨h1, h2, h3, h4, h5⟩ := flag_moves hm
  obtain ⟨c, hc, e⟩ := bind_split he
  cases e
  have hb := flag_body_blen f
  have hb' := flag_body_blen (f.put (newImage es) p)
  have h6 : m (p + blen f.gap + blen f.body) = p' + blen f.gap + blen (f.put (newImage es) p).body := by
    rw [hb, hb', ← Nat.add_assoc, ← Nat.add_assoc, ← Nat.add_assoc, h5]; omega
  obtain ⟨c', e1, e2⟩ := field_str (ev := read unq) (f := contentOf unq) (z := p + blen f.gap + blen f.body)
    k2 (fun _ _ h => readable h) hc (by omega) h4 h6
  have e3 := field_raw k1 rfl h2 h3
  unfold Flag.eval
  rw [show (f.put (newImage es) p).value = put (newImage es) (p + blen f.gap + 2 + blen f.name + 1) f.value from rfl,
    e1]
  refine congrArg Except.ok ?_
  simp only [Flag.remap, newFlag]
  rw [e2, e3]
  congr 1
  rw [Span.remap, h1, h6]
  rfl

theorem flags_value {fs : List Flag} : ∀ {p p' xs}, SegOK unq (newImage es) p (flagsSegs fs) →
    Moves m (newImage es) p p' (flagsSegs fs) → evalFlags unq p fs = .ok xs →
    evalFlags unq p' (flagsPut (newImage es) p fs) = .ok (xs.map fun x => (newFlag es unq x).remap m) := by
  induction fs with
  | nil => intro p p' xs _ _ he; cases he; rfl
  | cons f fs ih =>
    intro p p' xs hok hm he
    obtain ⟨k1, k2⟩ := flags_ok hok
    rw [show flagsSegs (f :: fs) = f.segs ++ flagsSegs fs by simp [flagsSegs]] at hm
    obtain ⟨h1, h2⟩ := hm.append
    have e : ∀ x : Flag, segText x.segs = x.text := fun x => by simp [Flag.segs, Flag.text, Flag.body]
    rw [show segPut (newImage es) p f.segs = (f.put (newImage es) p).segs from rfl, e, e] at h2
    obtain ⟨x, hx, e1⟩ := bind_split he
    obtain ⟨ys, hy, e2⟩ := bind_split e1
    cases e2
    rw [flagsPut, evalFlags, flag_value k1 h1 hx]
    have := ih k2 h2 hy
    show (evalFlags unq _ _ >>= _) = _
    rw [this]
    rfl

theorem arg_value {f : Arg} {p p' x} (hok : SegOK unq (newImage es) p f.segs)
    (hm : Moves m (newImage es) p p' f.segs) (he : f.eval unq p = .ok x) :
    (f.put (newImage es) p).eval unq p' = .ok ((newStr es (contentOf unq) x).remap m) := by
  obtain ⟨c, hc, e⟩ := bind_split he
  cases e
  obtain ⟨c', e1, e2⟩ := field_str (ev := read unq) (f := contentOf unq) (show FieldOK _ _ .path _ _ from hok.fix.fld.1)
    (fun _ _ h => readable h.1) hc rfl hm.2.1 hm.2.2
  unfold Arg.eval
  rw [show (f.put (newImage es) p).value = put (newImage es) (p + blen f.gap) f.value from rfl, e1, e2]
  rfl

theorem args_value {fs : List Arg} : ∀ {p p' xs}, SegOK unq (newImage es) p (argsSegs fs) →
    Moves m (newImage es) p p' (argsSegs fs) → evalArgs unq p fs = .ok xs →
    evalArgs unq p' (argsPut (newImage es) p fs) =
      .ok (xs.map fun x => (newStr es (contentOf unq) x).remap m) := by
  induction fs with
  | nil => intro p p' xs _ _ he; cases he; rfl
  | cons f fs ih =>
    intro p p' xs hok hm he
    obtain ⟨k1, k2⟩ := args_ok hok
    rw [show argsSegs (f :: fs) = f.segs ++ argsSegs fs by simp [argsSegs]] at hm
    obtain ⟨h1, h2⟩ := hm.append
    rw [show segPut (newImage es) p f.segs = (f.put (newImage es) p).segs from rfl, arg_text, arg_text] at h2
    obtain ⟨x, hx, e1⟩ := bind_split he
    obtain ⟨ys, hy, e2⟩ := bind_split e1
    cases e2
    rw [argsPut, evalArgs, arg_value k1 h1 hx]
    have := ih k2 h2 hy
    show (evalArgs unq _ _ >>= _) = _
    rw [this]
    rfl

/-! ## pairs -/

theorem joinLines_id {t : Str} (h : '\n' ∉ t) : joinLines t = t := by
  induction t with
  | nil => rfl
  | cons c t ih =>
    have ih := ih fun h' => h (by simp [h'])
    cases t with
    | nil => unfold joinLines; split <;> simp_all
    | cons d t =>
      have hd : d ≠ '\n' := by rintro rfl; exact h (by simp)
      rw [joinLines, ih]
      rintro t' rfl
      intro e
      exact hd (List.cons.inj e).1

/-- the text of a bare name or value -/
def Value.Tame (r : Str) : Value → Prop
  | quoted t => QuotedText t
  | bare t => '\n' ∉ t ∧ NoQuoted (t ++ r)

theorem Value.Fits.tame {v : Value} {r : Str} (h : v.Fits r) : v.Tame r := by
  cases v with
  | quoted t => exact h
  | bare t =>
    refine ⟨fun hc => ?_, h.1⟩
    obtain ⟨a, b, rfl⟩ := List.append_of_mem hc
    refine h.2.2.1 a ('\n' :: b) rfl (by simp) (.inl fun c x e => ?_)
    obtain ⟨rfl, -⟩ := List.cons.inj e
    exact .inl rfl

theorem Value.FitsName.tame {v : Value} {r : Str} (h : v.FitsName r) : v.Tame r := by
  cases v with
  | quoted t => exact h
  | bare t => exact ⟨fun hc => h.2.2.1 _ hc (.inr (.inr (.inl rfl))), h.1⟩

theorem joinLines_quote {q : Char} (hq : q = '"' ∨ q = '\'') (t : Str) :
    joinLines (q :: t) = q :: joinLines t := by
  rcases hq with rfl | rfl <;> simp [joinLines]

theorem label_read {v : Value} {r : Str} (hv : v.Tame r) {p p' z z' c}
    (hok : FieldOK unq (newImage es) .label p v.text) (hc : v.readLabel unq = .ok c)
    (hz : z = p + blen v.text) (h1 : m p = p') (h2 : m z = z') :
    ∃ c', (v.put (newImage es) p).readLabel unq = .ok c' ∧
      (newStr es (fun t => contentOf unq (joinLines t)) ⟨⟨p, z⟩, c⟩).remap m = ⟨⟨p', z'⟩, c'⟩ := by
  cases v with
  | quoted t =>
    refine field_str (ev := fun t => unquoted unq (joinLines t)) hok (fun t' hl h => ?_) hc hz h1 h2
    have := readable h
    obtain ⟨q, b, rfl, hq, -⟩ := quoted_swap hl hv
    rw [joinLines_quote hq, read, if_pos (by rcases hq with rfl | rfl <;> simp), ← joinLines_quote hq] at this
    exact this
  | bare t =>
    refine field_str (ev := read unq) hok (fun t' hl h => ?_) hc hz h1 h2
    have e : joinLines t' = t' := joinLines_id fun hc =>
      hl.all (P := fun c => c ≠ '\n') (fun c hc e => nplain_break (.inl e) hc)
        (fun c hc e => hv.1 (e ▸ hc)) '\n' hc rfl
    have h : Readable unq (joinLines t') := h
    show read unq t' = .ok (contentOf unq (joinLines t'))
    rw [e] at h ⊢
    exact readable h

theorem env_content {t t' r : Str} (hn : NoQuoted (t ++ r)) (hl : Like t t') : t' = envContent unq t' := by
  unfold envContent
  rw [if_neg fun h => hn t r rfl (quoted_swap hl.symm h)]

theorem env_read {v : Value} {r : Str} (hv : v.Tame r) {p p' z z' c}
    (hok : FieldOK unq (newImage es) .env p v.text) (hc : v.readEnv unq = .ok c)
    (hz : z = p + blen v.text) (h1 : m p = p') (h2 : m z = z') :
    ∃ c', (v.put (newImage es) p).readEnv unq = .ok c' ∧
      (newStr es (envContent unq) ⟨⟨p, z⟩, c⟩).remap m = ⟨⟨p', z'⟩, c'⟩ := by
  cases v with
  | quoted t =>
    refine field_str (ev := unquoted unq) hok (fun t' hl h => ?_) hc hz h1 h2
    have hq := quoted_swap hl hv
    rw [← read_quoted hq, envContent, if_pos hq]
    exact readable (h hq)
  | bare t =>
    exact field_str (ev := Except.ok) hok (fun t' hl h => congrArg _ (env_content hv.2 hl)) hc hz h1 h2

theorem pair_moves {new k v} {f : Pair} {p p'} (h : Moves m new p p' (f.segs k v)) :
    m (p + blen f.gap) = p' + blen f.gap ∧
    m (p + blen f.gap + blen f.name.text) = p' + blen f.gap + blen (f.put new p).name.text ∧
    m (p + blen f.gap + blen f.name.text + 1) = p' + blen f.gap + blen (f.put new p).name.text + 1 ∧
    m (p + blen f.gap + blen f.body) = p' + blen f.gap + blen (f.put new p).body := by
  have h1 : m (p + blen f.gap + blen f.name.text) = p' + blen f.gap +
    blen (put new (p + blen f.gap) f.name.text) := h.2.2.1 0 (Nat.zero_le _)
  have h2 : m (p + blen f.gap + blen f.name.text + 1) = p' + blen f.gap +
    blen (put new (p + blen f.gap) f.name.text) + 1 := h.2.2.2.1
  have h3 : m (p + blen f.gap + blen f.name.text + 1 + blen f.value.text) = p' + blen f.gap +
    blen (put new (p + blen f.gap) f.name.text) + 1 +
    blen (put new (p + blen f.gap + blen f.name.text + 1) f.value.text) := h.2.2.2.2
  have hb := pair_body_blen f
  have hb' := pair_body_blen (f.put new p)
  rw [hb, hb', ← Nat.add_assoc, ← Nat.add_assoc, h3]
  simp only [Pair.put, Value.put_text]
  refine ⟨h.2.1, h1, h2, by omega⟩

theorem label_value {f : Pair} {p p' x r} (hf : f.FitsLabel r)
    (hok : SegOK unq (newImage es) p (f.segs .label .label))
    (hm : Moves m (newImage es) p p' (f.segs .label .label)) (he : f.evalLabel unq p = .ok x) :
    (f.put (newImage es) p).evalLabel unq p' = .ok (({ x with
      name := newStr es (fun t => contentOf unq (joinLines t)) x.name
      value := newStr es (fun t => contentOf unq (joinLines t)) x.value } : Label).remap m) := by
  obtain ⟨k1, k2⟩ := pair_ok hok
  obtain ⟨h1, h2, h3, h4⟩ := pair_moves hm
  obtain ⟨c, hc, e⟩ := bind_split he
  obtain ⟨d, hd, e⟩ := bind_split e
  cases e
  have hb := pair_body_blen f
  obtain ⟨c', e1, e2⟩ := label_read hf.2.1.tame k1 hc rfl h1 h2
  obtain ⟨d', e3, e4⟩ := label_read hf.2.2.tame k2 hd (z := p + blen f.gap + blen f.body) (by omega) h3 h4
  unfold Pair.evalLabel
  rw [show (f.put (newImage es) p).name = f.name.put (newImage es) (p + blen f.gap) from rfl, e1,
    show (f.put (newImage es) p).value = f.value.put (newImage es) (p + blen f.gap + blen f.name.text + 1) from rfl,
    e3]
  refine congrArg Except.ok ?_
  simp only [Label.remap, Pair.nameSpan, Pair.valueSpan]
  rw [e2, e4]
  congr 1
  rw [Span.remap, h1, h4]
  rfl

theorem env_value {f : Pair} {p p' x r} (hf : f.FitsEnv r)
    (hok : SegOK unq (newImage es) p (f.segs .word .env))
    (hm : Moves m (newImage es) p p' (f.segs .word .env)) (he : f.evalEnv unq p = .ok x) :
    (f.put (newImage es) p).evalEnv unq p' = .ok ((newVar es unq x).remap m) := by
  obtain ⟨k1, k2⟩ := pair_ok hok
  obtain ⟨h1, h2, h3, h4⟩ := pair_moves hm
  obtain ⟨d, hd, e⟩ := bind_split he
  cases e
  have hb := pair_body_blen f
  have e2 := field_raw k1 rfl h1 h2
  obtain ⟨d', e3, e4⟩ := env_read hf.2.2.tame k2 hd (z := p + blen f.gap + blen f.body) (by omega) h3 h4
  unfold Pair.evalEnv
  rw [show (f.put (newImage es) p).value = f.value.put (newImage es) (p + blen f.gap + blen f.name.text + 1) from rfl,
    e3]
  refine congrArg Except.ok ?_
  simp only [EnvVar.remap, newVar, newBreakable, BreakableString.remap, List.length_cons, List.length_nil,
    if_true, Nat.zero_add, List.map_cons, List.map_nil, newComponent, BreakableStringComponent.remap,
    Pair.nameSpan, Pair.valueSpan]
  rw [e2, e4]
  congr 1
  · rw [Span.remap, h1, h4]; rfl
  · congr 1
    simp [Pair.put]
  · congr 1
    rw [Span.remap, h3, h4]
    rfl

theorem pairs_value {α : Type} {F : Pair → Str → Prop} {ev : Nat → Pair → Result α} {g : α → α} {k v : Kind}
    (hev : ∀ f r p p' x, F f r → SegOK unq (newImage es) p (f.segs k v) →
      Moves m (newImage es) p p' (f.segs k v) → ev p f = .ok x → ev p' (f.put (newImage es) p) = .ok (g x))
    {fs : List Pair} {r : Str} : ∀ {p p' xs}, PairsFit F fs r → SegOK unq (newImage es) p (pairsSegs k v fs) →
    Moves m (newImage es) p p' (pairsSegs k v fs) → evalPairs ev p fs = .ok xs →
    evalPairs ev p' (pairsPut (newImage es) p fs) = .ok (xs.map g) := by
  induction fs with
  | nil => intro p p' xs _ _ _ he; cases he; rfl
  | cons f fs ih =>
    intro p p' xs hf hok hm he
    obtain ⟨k1, k2⟩ := pairs_ok hok
    rw [show pairsSegs k v (f :: fs) = f.segs k v ++ pairsSegs k v fs by simp [pairsSegs]] at hm
    obtain ⟨h1, h2⟩ := hm.append
    have e : segPut (newImage es) p (f.segs k v) = (f.put (newImage es) p).segs k v := by
      simp [Pair.segs, segPut, Pair.put, Nat.add_assoc, show '='.utf8Size = 1 from rfl]
    rw [e, pair_text, pair_text] at h2
    obtain ⟨x, hx, e1⟩ := bind_split he
    obtain ⟨ys, hy, e2⟩ := bind_split e1
    cases e2
    rw [pairsPut, evalPairs, hev _ _ _ _ _ hf.1 k1 h1 hx]
    have := ih hf.2 k2 h2 hy
    show (evalPairs ev _ _ >>= _) = _
    rw [this]
    rfl

/-! ## shell text -/

theorem shell_moves {k c new} {s : Shell} {p p'} (h : Moves m new p p' (s.segs k c)) :
    m p = p' ∧ m (p + blen s.text) = p' + blen (s.put new p).text := by
  have := h.stop
  rw [shell_put, shell_text, shell_text] at this
  exact ⟨h.start, this⟩

theorem shell_value {k c} {s : Shell} : ∀ {p p'}, SegOK unq (newImage es) p (s.segs k c) →
    Moves m (newImage es) p p' (s.segs k c) →
    (s.put (newImage es) p).components p' = (s.components p).map fun x => (newComponent es id x).remap m := by
  have hcom : ∀ {q q' t z'}, FieldOK unq (newImage es) c q t → m q = q' → m (q + blen t) = z' →
      (newComponent es id (.comment ⟨⟨q, q + blen t⟩, t⟩)).remap m =
        .comment ⟨⟨q', z'⟩, put (newImage es) q t⟩ := by
    intro q q' t z' h h1 h2
    have := field_raw h rfl h1 h2
    simp only [newComponent, BreakableStringComponent.remap, SpannedComment.remap]
    simp only [SpannedString.remap, SpannedString.mk.injEq] at this
    rw [this.1, this.2]
  induction s with
  | last t =>
    intro p p' h hm
    have := field_raw h.fld.1 rfl hm.1 hm.2
    simp only [Shell.put, Shell.components, List.map_cons, List.map_nil, newComponent,
      BreakableStringComponent.remap]
    rw [this]
  | lastComment w t n =>
    intro p p' h hm
    have := hcom h.fix.fld.1 hm.2.1 (hm.2.2.1 0 (Nat.zero_le _))
    simp only [Shell.put, Shell.components, List.map_cons, List.map_nil]
    rw [this]
    rfl
  | more t w n s ih =>
    intro p p' h hm
    obtain ⟨h1, h2⟩ := h.fld
    have h3 : SegOK unq (newImage es) (p + blen t + 1 + blen w + blen n) (s.segs k c) := h2.fix.fix.fix
    have := field_raw h1 rfl hm.1 (hm.2.1 0 (Nat.zero_le _))
    simp only [Shell.put, Shell.components, List.map_cons, newComponent, BreakableStringComponent.remap]
    rw [this, ih h3 (p' := p' + blen (put (newImage es) p t) + 1 + blen w + blen n) hm.2.2.2.2]
    rfl
  | comment w t n s ih =>
    intro p p' h hm
    obtain ⟨h1, h2⟩ := h.fix.fld
    have h3 : SegOK unq (newImage es) (p + blen w + blen t + blen n) (s.segs k c) := h2.fix
    have := hcom h1 hm.2.1 (hm.2.2.1 0 (Nat.zero_le _))
    simp only [Shell.put, Shell.components, List.map_cons]
    rw [this, ih h3 (p' := p' + blen w + blen (put (newImage es) (p + blen w) t) + blen n) hm.2.2.2]
    rfl

theorem shell_string {k c} {s : Shell} {p p'} (h : SegOK unq (newImage es) p (s.segs k c))
    (hm : Moves m (newImage es) p p' (s.segs k c)) :
    (s.put (newImage es) p).string p' = (newBreakable es id (s.string p)).remap m := by
  obtain ⟨h1, h2⟩ := shell_moves hm
  simp only [Shell.string, newBreakable, BreakableString.remap, List.map_map, Span.remap, h1, h2]
  rw [shell_value h hm]
  rfl

theorem components_length {s : Shell} {p} : s.components p ≠ [] := by cases s <;> simp [Shell.components]

/-- the value of a variable -/
theorem shell_env {s : Shell} {p p' r} (hn : NoQuoted (s.text ++ r))
    (h : SegOK unq (newImage es) p (s.segs s.envKind (.text True)))
    (hm : Moves m (newImage es) p p' (s.segs s.envKind (.text True))) :
    (s.put (newImage es) p).string p' =
      (newBreakable es (if (s.string p).components.length = 1 then envContent unq else id) (s.string p)).remap m := by
  cases s with
  | last t =>
    obtain ⟨c', e1, e2⟩ := field_str (ev := Except.ok) (f := envContent unq) h.fld.1
      (fun t' hl h => congrArg _ (env_content hn hl)) rfl rfl hm.1 hm.2
    cases e1
    have h1 : m p = p' := hm.1
    have h2 : m (p + blen t) = p' + blen (put (newImage es) p t) := hm.2
    simp only [Shell.string, Shell.put, Shell.components, Shell.text, newBreakable, BreakableString.remap, List.length_cons,
      List.length_nil, if_true, Nat.zero_add, List.map_cons, List.map_nil, newComponent,
      BreakableStringComponent.remap, Span.remap, h1, h2]
    rw [e2]
  | lastComment w t n =>
    rw [shell_string h hm]
    rfl
  | more t w n s =>
    rw [shell_string h hm, if_neg]
    have := List.length_pos_iff.2 (components_length (s := s) (p := p + blen t + 1 + blen w + blen n))
    simp only [Shell.string, Shell.components, List.length_cons]
    omega
  | comment w t n s =>
    rw [shell_string h hm, if_neg]
    have := List.length_pos_iff.2 (components_length (s := s) (p := p + blen w + blen t + blen n))
    simp only [Shell.string, Shell.components, List.length_cons]
    omega

/-! ## arrays -/

theorem quoted_field {q q' z' t c} (hq : QuotedText t) (h : FieldOK unq (newImage es) .value q t)
    (hc : unquoted unq t = .ok c) (h1 : m q = q') (h2 : m (q + blen t) = z') :
    ∃ c', unquoted unq (put (newImage es) q t) = .ok c' ∧
      (newStr es (contentOf unq) ⟨⟨q, q + blen t⟩, c⟩).remap m = ⟨⟨q', z'⟩, c'⟩ :=
  field_str (ev := unquoted unq) h (fun t' hl h => by
    rw [← read_quoted (quoted_swap hl hq)]
    exact readable h) hc rfl h1 h2

theorem elem_value {e : Elem} {p p' x r} (hf : e.Fits r) (hok : SegOK unq (newImage es) p e.segs)
    (hm : Moves m (newImage es) p p' e.segs) (he : e.eval unq p = .ok x) :
    (e.put (newImage es) p).eval unq p' = .ok ((newStr es (contentOf unq) x).remap m) := by
  obtain ⟨c, hc, e0⟩ := bind_split he
  cases e0
  have h1 : m (p + blen e.before + 1 + blen e.after) = p' + blen e.before + 1 + blen e.after := hm.2.2.2.1
  have h2 : m (p + blen e.before + 1 + blen e.after + blen e.value) = p' + blen e.before + 1 + blen e.after +
    blen (put (newImage es) (p + blen e.before + 1 + blen e.after) e.value) := hm.2.2.2.2
  have h3 : FieldOK unq (newImage es) .value (p + blen e.before + 1 + blen e.after) e.value := hok.fix.fix.fix.fld.1
  obtain ⟨c', e1, e2⟩ := quoted_field hf.2.2 h3 hc h1 h2
  unfold Elem.eval
  rw [show (e.put (newImage es) p).value = put (newImage es) (p + blen e.before + 1 + blen e.after) e.value from rfl,
    e1, e2]
  rfl

theorem elems_value {fs : List Elem} {r} : ∀ {p p' xs}, ElemsFit fs r → SegOK unq (newImage es) p (elemsSegs fs) →
    Moves m (newImage es) p p' (elemsSegs fs) → evalElems unq p fs = .ok xs →
    evalElems unq p' (elemsPut (newImage es) p fs) =
      .ok (xs.map fun x => (newStr es (contentOf unq) x).remap m) := by
  induction fs with
  | nil => intro p p' xs _ _ _ he; cases he; rfl
  | cons f fs ih =>
    intro p p' xs hf hok hm he
    obtain ⟨k1, k2⟩ := elems_segs_ok hok
    rw [show elemsSegs (f :: fs) = f.segs ++ elemsSegs fs by simp [elemsSegs]] at hm
    obtain ⟨h1, h2⟩ := hm.append
    have e : ∀ x : Elem, segText x.segs = x.text := fun x => by simp [Elem.segs, Elem.text]
    rw [show segPut (newImage es) p f.segs = (f.put (newImage es) p).segs from rfl, e, e] at h2
    obtain ⟨x, hx, e1⟩ := bind_split he
    obtain ⟨ys, hy, e2⟩ := bind_split e1
    cases e2
    rw [elemsPut, evalElems, elem_value hf.1 k1 h1 hx]
    have := ih hf.2 k2 h2 hy
    show (evalElems unq _ _ >>= _) = _
    rw [this]
    rfl

theorem array_value {a : Array} {p p' xs r} (hf : a.Fits r) (hok : SegOK unq (newImage es) p a.segs)
    (hm : Moves m (newImage es) p p' a.segs) (he : a.eval unq p = .ok xs) :
    (a.put (newImage es) p).eval unq p' = .ok (xs.map fun x => (newStr es (contentOf unq) x).remap m) := by
  cases a with
  | empty g => cases he; rfl
  | full g v fs c g' =>
    obtain ⟨k1, k2⟩ := (hok.fix.fix).fld
    have k1 : FieldOK unq (newImage es) .value (p + 1 + blen g) v := k1
    have k2 : SegOK unq (newImage es) (p + 1 + blen g + blen v) (elemsSegs fs) := k2.append.1
    have h1 : m (p + 1 + blen g) = p' + 1 + blen g := hm.2.2.1
    have h2 : Moves m (newImage es) (p + 1 + blen g + blen v)
      (p' + 1 + blen g + blen (put (newImage es) (p + 1 + blen g) v)) (elemsSegs fs) := (hm.2.2.2).append.1
    obtain ⟨x, hx, e1⟩ := bind_split he
    obtain ⟨ys, hy, e2⟩ := bind_split e1
    cases e2
    obtain ⟨c', e1, e2⟩ := quoted_field hf.2.1 k1 hx h1 h2.start
    have := elems_value hf.2.2.1 k2 h2 hy
    unfold Array.put Array.eval
    simp only
    rw [e1]
    show (evalElems unq _ _ >>= _) = _
    rw [this, List.map_cons, e2]
    rfl

end Src
end Verif
