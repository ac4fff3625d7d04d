import Verif.Proof.Splicer

/-! # Splicer properties (C21-C24, C26) -/

namespace Verif
open Spec

/-! ## C21: a single splice -/

/-- C21 (result): on a fresh splicer over `s`, splicing the span at which `s` reads `t` replaces
exactly that text. -/
theorem C21_single_splice (s : Str) (sp : Span) (r a t c : Str) (hs : s = a ++ t ++ c)
    (h1 : sp.start = blen a) (h2 : sp.stop = blen a + blen t) :
    ((Splicer.fromStr s).splice sp r).map Splicer.content = some (a ++ r ++ c) := by
  subst hs
  have e1 := adjustOffsets_nil sp
  simp only [Splicer.splice, Splicer.fromStr, e1]
  rw [if_neg (by omega)]
  have e2 : sp.stop - sp.start = blen t := by omega
  rw [e2, h1, List.append_assoc]
  simp only [splitAtByte_append]
  rfl

example : c!"aéb" = c!"a" ++ c!"é" ++ c!"b" ∧ (Span.mk 1 3).start = blen c!"a" ∧
    (Span.mk 1 3).stop = blen c!"a" + blen c!"é" := by decide +kernel

/-- C21 (panic): on a fresh splicer, `splice` panics exactly when the span is not a valid range of
the text: start after end, a bound past the end, or a bound inside a character. -/
theorem C21_panic_iff (s : Str) (sp : Span) (r : Str) :
    (Splicer.fromStr s).splice sp r = none ↔
      ¬ (sp.start ≤ sp.stop ∧
          (∃ a b, s = a ++ b ∧ blen a = sp.start) ∧ (∃ a b, s = a ++ b ∧ blen a = sp.stop)) := by
  constructor
  · rintro h ⟨hle, ⟨a, b, e1, h1⟩, ⟨a', b', e2, h2⟩⟩
    obtain ⟨x, y, z, e, hx, hy⟩ := bnd_le (s := s) ⟨a, b, e1, h1.symm⟩ ⟨a', b', e2, h2.symm⟩ hle
    have := C21_single_splice s sp r x y z e hx hy
    rw [h] at this
    cases this
  · intro h
    apply Option.eq_none_iff_forall_not_mem.mpr
    intro x hx
    apply h
    have e1 := adjustOffsets_nil sp
    simp only [Splicer.splice, Splicer.fromStr, e1] at hx
    by_cases hlt : sp.stop < sp.start
    · rw [if_pos hlt] at hx; cases hx
    · rw [if_neg hlt] at hx
      cases h1 : splitAtByte s sp.start with
      | none => rw [h1] at hx; cases hx
      | some ab =>
        obtain ⟨a, b⟩ := ab
        rw [h1] at hx
        cases h2 : splitAtByte b (sp.stop - sp.start) with
        | none => simp only [h2] at hx; cases hx
        | some cd =>
          obtain ⟨c, d⟩ := cd
          obtain ⟨g1, g2⟩ := splitAtByte_some h1
          obtain ⟨g3, g4⟩ := splitAtByte_some h2
          refine ⟨by omega, ⟨a, b, g1, g2.symm⟩, ⟨a ++ c, d, by rw [g1, g3]; simp, by simp; omega⟩⟩

/- a multi-byte text: `é` has two bytes -/
example : ((Splicer.fromStr c!"aéb").splice ⟨1, 3⟩ c!"xyz").map Splicer.content = some c!"axyzb" := by
  decide +kernel
example : (Splicer.fromStr c!"aéb").splice ⟨1, 2⟩ c!"xyz" = none := by decide +kernel
example : (Splicer.fromStr c!"aéb").splice ⟨3, 1⟩ c!"xyz" = none := by decide +kernel
example : (Splicer.fromStr c!"aéb").splice ⟨3, 9⟩ c!"xyz" = none := by decide +kernel

/-! ## C22: disjoint spans -/

/-- C22: splicing pairwise disjoint non-empty spans of the original document in the given order
(hence in any order, since the hypothesis is symmetric) does not panic and yields the simultaneous
replacement of all of them. -/
theorem C22_disjoint_splices (s : Str) (es : List Edit)
    (hv : ∀ e ∈ es, ValidSpan s e.1 ∧ e.1.start < e.1.stop)
    (hd : es.Pairwise (fun e f => Disjoint e.1 f.1)) :
    ∃ sp, (Splicer.fromStr s).spliceAll es = some sp ∧ sp.content = simul es 0 s := by
  obtain ⟨os, -, h2⟩ := hist_of_rel es hv (hd.imp (fun h => Or.inl h))
  rw [effective_of_disjoint es (fun e he => (hv e he).2) hd] at h2
  exact ⟨_, h2, rfl⟩

example : ∃ sp, (Splicer.fromStr c!"abcdefgh").spliceAll
      [(⟨3, 5⟩, c!""), (⟨0, 1⟩, c!"XYZ"), (⟨5, 6⟩, c!"éé")] = some sp ∧
    sp.content = simul [(⟨3, 5⟩, c!""), (⟨0, 1⟩, c!"XYZ"), (⟨5, 6⟩, c!"éé")] 0 c!"abcdefgh" :=
  C22_disjoint_splices _ _ (by
    intro e he
    simp only [List.mem_cons, List.not_mem_nil, or_false] at he
    rcases he with rfl | rfl | rfl
    · exact ⟨⟨c!"de", c!"abc", c!"fgh", rfl, rfl, rfl⟩, by decide⟩
    · exact ⟨⟨c!"a", c!"", c!"bcdefgh", rfl, rfl, rfl⟩, by decide⟩
    · exact ⟨⟨c!"f", c!"abcde", c!"gh", rfl, rfl, rfl⟩, by decide⟩)
    (by simp [Disjoint])

/-- C22 (order independence): two orders of the same disjoint edits give the same text. -/
theorem C22_order_independent (s : Str) (es es' : List Edit) (hp : es.Perm es')
    (hv : ∀ e ∈ es, ValidSpan s e.1 ∧ e.1.start < e.1.stop)
    (hd : es.Pairwise (fun e f => Disjoint e.1 f.1)) :
    ∃ sp sp', (Splicer.fromStr s).spliceAll es = some sp ∧
      (Splicer.fromStr s).spliceAll es' = some sp' ∧
      sp.content = sp'.content ∧ sp.content = simul es 0 s := by
  have hsym : ∀ {x y : Edit}, Disjoint x.1 y.1 → Disjoint y.1 x.1 := fun h => h.symm
  obtain ⟨sp, h1, h2⟩ := C22_disjoint_splices s es hv hd
  obtain ⟨sp', h3, h4⟩ := C22_disjoint_splices s es' (fun e he => hv e (hp.mem_iff.mpr he))
    ((hp.pairwise_iff hsym).mp hd)
  refine ⟨sp, sp', h1, h3, ?_, h2⟩
  rw [h2, h4]
  exact simul_perm (fun e he => (hv e he).2) hd hp 0 s

/- three adjacent or separated spans; growing, deleting and shrinking; out of order -/
example : ((Splicer.fromStr c!"abcdefgh").spliceAll
    [(⟨3, 5⟩, c!""), (⟨0, 1⟩, c!"XYZ"), (⟨5, 6⟩, c!"éé")]).map Splicer.content =
    some (simul [(⟨3, 5⟩, c!""), (⟨0, 1⟩, c!"XYZ"), (⟨5, 6⟩, c!"éé")] 0 c!"abcdefgh") := by
  decide +kernel
example : simul [(⟨3, 5⟩, c!""), (⟨0, 1⟩, c!"XYZ"), (⟨5, 6⟩, c!"éé")] 0 c!"abcdefgh"
    = c!"XYZbcéégh" := by decide +kernel

/-- Why C22 asks for non-empty spans: an insertion at `1..1` is overwritten by a later splice of
`1..2`. -/
theorem C22_empty_span_overwritten :
    ((Splicer.fromStr c!"abc").spliceAll [(⟨1, 1⟩, c!"XX"), (⟨1, 2⟩, c!"y")]).map Splicer.content
      = some c!"ayc" := by decide +kernel

/-! ## C23: the same span again -/

/-- C23 (full statement, false of the code): splicing the same non-empty span again and again
leaves the text with the span replaced by the last replacement. -/
def C23_statement : Prop :=
  ∀ (a t c : Str) (rs : List Str) (r : Str), t ≠ [] →
    ((Splicer.fromStr (a ++ t ++ c)).spliceAll
      ((rs ++ [r]).map fun x => (⟨blen a, blen a + blen t⟩, x))).map Splicer.content
      = some (a ++ r ++ c)

/-- C23 fails: after the span has been emptied and refilled, the next replacement no longer covers
the refilled text ("b" replaced by "", then "xyz", then "Q" gives "aQxyzc"). -/
theorem C23_negation : ¬ C23_statement := by
  intro h
  have := h c!"a" c!"b" c!"c" [c!"", c!"xyz"] c!"Q" (by decide)
  revert this
  decide +kernel

/-- C23 for histories in which no replacement but the last is empty (missing: the histories with
an empty replacement in the middle, where the claim is false). -/
theorem C23_same_span_partial (a t c : Str) (rs : List Str) (r : Str) (ht : t ≠ [])
    (hrs : ∀ x ∈ rs, x ≠ []) :
    ((Splicer.fromStr (a ++ t ++ c)).spliceAll
      ((rs ++ [r]).map fun x => (⟨blen a, blen a + blen t⟩, x))).map Splicer.content
      = some (a ++ r ++ c) := by
  have hb := blen_pos ht
  have hw : ∀ sp : Span, Within sp sp := fun sp => ⟨Nat.le_refl _, Nat.le_refl _⟩
  rw [List.map_append]
  obtain ⟨sp, h1, h2⟩ := hist_then (s := a ++ t ++ c)
    (rs.map fun x => ((⟨blen a, blen a + blen t⟩ : Span), x)) (⟨blen a, blen a + blen t⟩, r)
    (by
      intro e he
      have : e.1 = ⟨blen a, blen a + blen t⟩ := by
        simp at he
        rcases he with ⟨x, -, rfl⟩ | rfl <;> rfl
      rw [this]
      exact ⟨⟨t, a, c, rfl, rfl, rfl⟩, by simp; omega⟩)
    (by
      rw [List.pairwise_map]
      induction rs with
      | nil => exact .nil
      | cons x xs ih =>
        refine .cons (fun y _ => Or.inr ⟨hw _, hrs x (by simp)⟩)
          (ih (fun y hy => hrs y (by simp [hy]))))
    (by
      intro e he
      simp at he
      obtain ⟨x, -, rfl⟩ := he
      exact Or.inr (hw _))
  rw [effective_outer _ _ (by
      intro e he
      simp at he
      obtain ⟨x, -, rfl⟩ := he
      exact hw _), simul_single a t c r ht] at h2
  rw [List.map_cons, List.map_nil, h1]
  simp [h2]

example : ((Splicer.fromStr c!"abc").spliceAll
    [(⟨1, 2⟩, c!"xyz"), (⟨1, 2⟩, c!"é"), (⟨1, 2⟩, c!"")]).map Splicer.content = some c!"ac" := by
  decide +kernel

/-! ## C24: enclosing spans -/

/-- C24: after splicing any pairwise disjoint non-empty spans inside an outer span, splicing the
outer span replaces the whole edited region and leaves the text outside untouched. -/
theorem C24_enclosing_after_inner (a t c : Str) (es : List Edit) (r : Str) (ht : t ≠ [])
    (hv : ∀ e ∈ es, ValidSpan (a ++ t ++ c) e.1 ∧ e.1.start < e.1.stop)
    (hin : ∀ e ∈ es, blen a ≤ e.1.start ∧ e.1.stop ≤ blen a + blen t)
    (hd : es.Pairwise (fun e f => Disjoint e.1 f.1)) :
    ((Splicer.fromStr (a ++ t ++ c)).spliceAll (es ++ [(⟨blen a, blen a + blen t⟩, r)])).map
      Splicer.content = some (a ++ r ++ c) := by
  have hb := blen_pos ht
  obtain ⟨sp, h1, h2⟩ := hist_then (s := a ++ t ++ c) es (⟨blen a, blen a + blen t⟩, r)
    (by
      intro e he
      simp at he
      rcases he with he | rfl
      · exact hv e he
      · exact ⟨⟨t, a, c, rfl, rfl, rfl⟩, by simp; omega⟩)
    (hd.imp (fun h => Or.inl h)) (fun e he => Or.inr (hin e he))
  rw [effective_outer es (⟨blen a, blen a + blen t⟩, r) hin, simul_single a t c r ht] at h2
  rw [h1]
  simp [h2]

example : ((Splicer.fromStr (c!"01" ++ c!"2345" ++ c!"6789")).spliceAll
      ([(⟨4, 5⟩, c!"looooooong"), (⟨2, 3⟩, c!"")] ++ [(⟨blen c!"01", blen c!"01" + blen c!"2345"⟩, c!"R")])).map
    Splicer.content = some (c!"01" ++ c!"R" ++ c!"6789") :=
  C24_enclosing_after_inner _ _ _ _ _ (by simp) (by
    intro e he
    simp only [List.mem_cons, List.not_mem_nil, or_false] at he
    rcases he with rfl | rfl
    · exact ⟨⟨c!"4", c!"0123", c!"56789", rfl, rfl, rfl⟩, by decide⟩
    · exact ⟨⟨c!"2", c!"01", c!"3456789", rfl, rfl, rfl⟩, by decide⟩)
    (by decide) (by simp [Disjoint])

/-- C24 (general history): any sequence of splices of non-empty spans of the original document in
which every later span is disjoint from, or encloses, every earlier one (enclosed replacements
being non-empty, except for what the last splice encloses) yields the simultaneous replacement by
the edits not enclosed by a later one. -/
theorem C24_inner_first_history (s : Str) (es : List Edit) (f : Edit)
    (hv : ∀ e ∈ es ++ [f], ValidSpan s e.1 ∧ e.1.start < e.1.stop)
    (hd : es.Pairwise (fun e g => Disjoint e.1 g.1 ∨ (Within e.1 g.1 ∧ e.2 ≠ [])))
    (hf : ∀ e ∈ es, Disjoint e.1 f.1 ∨ Within e.1 f.1) :
    ∃ sp, (Splicer.fromStr s).spliceAll (es ++ [f]) = some sp ∧
      sp.content = simul (effective (es ++ [f])) 0 s :=
  hist_then es f hv hd hf

/- inner spans emptied and grown, then the outer one -/
example : ((Splicer.fromStr c!"0123456789").spliceAll
    [(⟨4, 5⟩, c!"looooooong"), (⟨2, 3⟩, c!""), (⟨2, 6⟩, c!"R")]).map Splicer.content
    = some c!"01R6789" := by decide +kernel
/- nested history with an edit outside -/
example : ((Splicer.fromStr c!"0123456789").spliceAll
    [(⟨4, 5⟩, c!"abc"), (⟨8, 9⟩, c!""), (⟨3, 6⟩, c!"de"), (⟨0, 7⟩, c!"R")]).map Splicer.content
    = some c!"R79" := by decide +kernel

/-- The other order, outer span first, is not supported: it can panic ... -/
theorem C24_outer_first_panics :
    (Splicer.fromStr c!"0123456789").spliceAll [(⟨4, 8⟩, c!""), (⟨4, 6⟩, c!"x")] = none := by
  decide +kernel

/-- ... or overwrite text outside the outer span (here "23"). -/
theorem C24_outer_first_corrupts :
    ((Splicer.fromStr c!"0123456789").spliceAll [(⟨4, 8⟩, c!"R"), (⟨5, 7⟩, c!"x")]).map
      Splicer.content ≠ some c!"0123R89" ∧
    ((Splicer.fromStr c!"0123456789").spliceAll [(⟨4, 8⟩, c!"R"), (⟨5, 7⟩, c!"x")]).map
      Splicer.content = some c!"01xR89" := by decide +kernel

/-! ## C26: `relative_span` -/

/-- C26 (no panic): `relative_span` never panics on a span with `start ≤ end`, whatever the
document. -/
theorem C26_relative_span_total (d : Dockerfile) (sp : Span) (h : sp.start ≤ sp.stop) :
    ∃ r, sp.relativeSpan d = some r := by
  have := relLoop_off_le sp.start 0 (bytes d.content) 0 0 (Nat.zero_le _) (Nat.zero_le _)
  unfold Span.relativeSpan
  generalize relLoop sp.start 0 (bytes d.content) 0 0 = x at this
  obtain ⟨l, o⟩ := x
  simp only at this ⊢
  rw [if_neg (by omega), if_neg (by omega)]
  exact ⟨_, rfl⟩

/- the span may be outside of the document -/
example : ∃ r, (Span.mk 40 50).relativeSpan ⟨c!"FROM é\nRUN x\n", [], []⟩ = some r :=
  C26_relative_span_total _ _ (by decide)

/-- C26 (bytes): write the document's bytes before `start` as `l ++ m` where `l` is empty or ends
with a newline byte and `m` (the part of the line before `start`) has none.  Then the line number
is the number of newline bytes in `l`, the relative start is the length of `m`, and the length of
the span is preserved. -/
theorem C26_relative_span_bytes (d : Dockerfile) (sp : Span) (l m rest : List UInt8)
    (hb : bytes d.content = l ++ m ++ rest) (hl : l = [] ∨ ∃ x, l = x ++ [10])
    (hm : (10 : UInt8) ∉ m) (hs : sp.start = l.length + m.length) (h : sp.start ≤ sp.stop) :
    sp.relativeSpan d =
      some (l.count 10, ⟨m.length, m.length + (sp.stop - sp.start)⟩) := by
  have key : relLoop sp.start 0 (bytes d.content) 0 0 = (l.count 10, l.length) := by
    rw [hb]
    rcases hl with rfl | ⟨x, rfl⟩
    · simp only [List.nil_append]
      rw [relLoop_plain sp.start 0 m rest 0 0 hm (by simp at hs; omega)]
      rfl
    · have e : (x ++ [10]) ++ m ++ rest = x ++ 10 :: (m ++ rest) := by simp
      simp at hs
      rw [e, relLoop_line sp.start 0 x (m ++ rest) 0 0 (by omega),
        relLoop_plain sp.start _ m rest _ _ hm (by omega)]
      simp
  unfold Span.relativeSpan
  rw [key]
  simp only
  have e1 : sp.start - l.length = m.length := by omega
  rw [if_neg (by omega), if_neg (by omega), e1]

/- a start inside a character -/
example : (Span.mk 6 9).relativeSpan ⟨c!"FROM é\nRUN x\n", [], []⟩ = some (0, ⟨6, 9⟩) :=
  C26_relative_span_bytes _ _ [] (bytes c!"FROM é" |>.take 6) (bytes c!"FROM é\nRUN x\n" |>.drop 6)
    (by decide +kernel) (.inl rfl) (by decide +kernel) (by decide +kernel) (by decide)

/-- C26 (characters): the same for a start on a character boundary, in terms of the text. -/
theorem C26_relative_span (d : Dockerfile) (sp : Span) (l m rest : Str)
    (hb : d.content = l ++ m ++ rest) (hl : l = [] ∨ ∃ x, l = x ++ ['\n'])
    (hm : '\n' ∉ m) (hs : sp.start = blen l + blen m) (h : sp.start ≤ sp.stop) :
    sp.relativeSpan d = some (l.count '\n', ⟨blen m, blen m + (sp.stop - sp.start)⟩) := by
  have hcount : ∀ x : Str, (bytes x).count 10 = x.count '\n' := by
    intro x
    induction x with
    | nil => rfl
    | cons c cs ih =>
      have hcons : bytes (c :: cs) = String.utf8EncodeChar c ++ bytes cs := by simp [bytes]
      rw [hcons, List.count_append, ih]
      by_cases hc : c = '\n'
      · subst hc
        have : (String.utf8EncodeChar '\n').count 10 = 1 := by decide
        rw [this]
        simp
        omega
      · have : (String.utf8EncodeChar c).count 10 = 0 := by
          rw [List.count_eq_zero]
          intro hmem
          exact hc ((newline_mem_encode c).mp hmem)
        rw [this]
        simp [hc]
  have := C26_relative_span_bytes d sp (bytes l) (bytes m) (bytes rest)
    (by rw [hb, bytes_append, bytes_append])
    (by
      rcases hl with rfl | ⟨x, rfl⟩
      · left; rfl
      · right; exact ⟨bytes x, by rw [bytes_append]; rfl⟩)
    (by
      intro hmem
      rw [← List.count_pos_iff, hcount, List.count_pos_iff] at hmem
      exact hm hmem)
    (by rw [bytes_length, bytes_length]; exact hs) h
  rw [this, hcount, bytes_length]

example : (Span.mk 9 11).relativeSpan ⟨c!"FROM é\nRUN x\n", [], []⟩ = some (1, ⟨1, 3⟩) :=
  C26_relative_span _ _ c!"FROM é\n" c!"R" c!"UN x\n" rfl (.inr ⟨c!"FROM é", rfl⟩) (by decide) rfl
    (by decide)

/-- C26 (coverage): every character boundary of a document splits the text before it as required
by `C26_relative_span`. -/
theorem C26_lines_exist (pre : Str) :
    ∃ l m, pre = l ++ m ∧ (l = [] ∨ ∃ x, l = x ++ ['\n']) ∧ '\n' ∉ m := by
  induction pre using snocInd with
  | nil => exact ⟨[], [], rfl, Or.inl rfl, by simp⟩
  | snoc p c ih =>
    obtain ⟨l, m, h1, h2, h3⟩ := ih
    by_cases hc : c = '\n'
    · subst hc
      exact ⟨p ++ ['\n'], [], by simp, Or.inr ⟨p, rfl⟩, by simp⟩
    · refine ⟨l, m ++ [c], by rw [h1]; simp, h2, ?_⟩
      simp only [List.mem_append, List.mem_singleton, not_or]
      exact ⟨h3, fun h => hc h.symm⟩

example : (Span.mk 9 11).relativeSpan ⟨c!"FROM é\nRUN x\n", [], []⟩ = some (1, ⟨1, 3⟩) := by
  decide +kernel

end Verif
