import Verif.Proof.Faults
import Verif.Props.Split

/-! # The first thing that is wrong (C72) -/

namespace Verif
open Spec

/-- C72: A text of the right form is rejected if and only if one of its checks fails, and the error is
that of the first check, in the order of the text, that fails. -/
theorem C72_checks {unq : Unquote} {l : Src.Line} {ms : List (Str × Src.Line)} (h : Src.DocFits l ms) {f : Fault} :
    Dockerfile.parse unq (Src.docText l ms) = .error f ↔
      ∃ e, f = .err e ∧ Src.firstFault unq (Src.docChecks l ms) = some e := by
  rw [C51_fits h]
  have ht := Src.tells_doc (unq := unq) ms l 0
  cases hd : Src.evalDoc unq 0 l ms with
  | ok is =>
    rw [hd] at ht
    have ht : Src.firstFault unq (Src.docChecks l ms) = none := ht
    rw [ht]
    constructor
    · intro h; cases h
    · rintro ⟨_, _, h⟩; cases h
  | error e =>
    rw [hd] at ht
    obtain ⟨x, rfl, ht⟩ := ht
    rw [ht]
    constructor
    · intro h; cases h; exact ⟨x, rfl, rfl⟩
    · rintro ⟨e, rfl, h⟩; cases h; rfl

/-- C72: it is accepted if and only if no check fails. -/
theorem C72_accepted {unq : Unquote} {l : Src.Line} {ms : List (Str × Src.Line)} (h : Src.DocFits l ms) :
    (∃ d, Dockerfile.parse unq (Src.docText l ms) = .ok d) ↔ ∀ c ∈ Src.docChecks l ms, c.fault unq = none := by
  have hc : (∀ c ∈ Src.docChecks l ms, c.fault unq = none) ↔ Src.firstFault unq (Src.docChecks l ms) = none := by
    simp [Src.firstFault]
  rw [hc]
  cases hp : Dockerfile.parse unq (Src.docText l ms) with
  | ok d =>
    refine ⟨fun _ => ?_, fun _ => ⟨d, rfl⟩⟩
    cases hf : Src.firstFault unq (Src.docChecks l ms) with
    | none => rfl
    | some e =>
      have := (C72_checks (unq := unq) h).2 ⟨e, rfl, hf⟩
      rw [hp] at this
      cases this
  | error f =>
    obtain ⟨e, -, he⟩ := (C72_checks h).1 hp
    rw [he]
    simp

theorem pre_lineStart {z : Str} (ps : List (Src.Line × Str)) (hz : Src.PreFits ps z) : LineStart (Src.preText ps) z := by
  induction ps with
  | nil => exact .inl rfl
  | cons a ps ih =>
    obtain ⟨l, n⟩ := a
    rcases ih hz.2.2 with h | ⟨s, k, h1, h2⟩
    · have h3 := hz.2.1
      rw [h] at h3
      exact .inr ⟨l.text, n, by simp [Src.preText, h], h3⟩
    · exact .inr ⟨l.text ++ (n ++ s), k, by simp [Src.preText, h1], h2⟩

/-- C72: If a text is rejected, but not because of its form, then there is a line that is to blame: the text
before it is accepted; the line by itself, with its line break, is rejected with the same error, and so is
the text from that line on. -/
theorem C72_line {unq : Unquote} {s : Str} {f : Fault} (h : Dockerfile.parse unq s = .error f)
    (hf : f ≠ .err .parseError) :
    ∃ (a : Str) (l : Src.Line) (n b : Str) (d1 : Dockerfile) (e : Error), s = a ++ (l.text ++ (n ++ b)) ∧ LineStart a (l.text ++ (n ++ b)) ∧
      Dockerfile.parse unq a = .ok d1 ∧ (∀ i ∈ d1.instructions, i.span.stop < blen a) ∧
      ((n = [] ∧ b = []) ∨ LineBreak n b) ∧ l.Fits (n ++ b) ∧
      f = .err e ∧ Src.firstFault unq l.item.checks = some e ∧
      Dockerfile.parse unq (l.text ++ n) = .error f ∧ Dockerfile.parse unq (l.text ++ (n ++ b)) = .error f := by
  have hn : ¬ ¬ ∃ l ms, Src.DocFits l ms ∧ Src.docText l ms = s := by
    rw [← C51_syntax_error (unq := unq), h]
    intro e
    cases e
    exact hf rfl
  obtain ⟨l, ms, hd, rfl⟩ := Classical.not_not.1 hn
  have he : Src.evalDoc unq 0 l ms = .error f := by
    rw [C51_fits hd] at h
    cases he : Src.evalDoc unq 0 l ms with
    | ok is => rw [he] at h; cases h
    | error e => rw [he] at h; cases h; rfl
  obtain ⟨ps, l', ms', js, g1, g2, g3, g4, g5⟩ := Src.doc_first ms l 0 hd he
  have ht := Src.tells_item (unq := unq) l'.item (0 + blen (Src.preText ps) + blen l'.indent)
  rw [g5] at ht
  obtain ⟨e, rfl, ht⟩ := ht
  obtain ⟨m, ms1, k1, k2, k3⟩ := Src.pre_doc (unq := unq) ps (Src.pre_less ps g2) 0
  have p1 := Src.parse_fits (unq := unq) k2
  rw [k1, k3, g4] at p1
  have hrest : Dockerfile.parse unq (Src.docText l' ms') = .error (.err e) :=
    (C72_checks g3).2 ⟨e, rfl, by rw [Src.docChecks, Src.firstFault_append, ht]; rfl⟩
  have hsp : ∀ i ∈ (documentOf (Src.preText ps) js).instructions, i.span.stop < blen (Src.preText ps) := by
    intro i hi
    obtain ⟨x, hx, e⟩ := of_numbered hi
    have := Src.pre_spans ps 0 js g2 g4 x hx
    rw [← e]
    omega
  have hls := pre_lineStart ps g2
  cases ms' with
  | nil =>
    refine ⟨Src.preText ps, l', [], [], _, e, ?_, ?_, p1, hsp, .inl ⟨rfl, rfl⟩, g3, rfl, ht, ?_, ?_⟩
    · simpa [Src.docText] using g1
    · simpa [Src.docText] using hls
    · simpa [Src.docText] using hrest
    · simpa [Src.docText] using hrest
  | cons x ms' =>
    obtain ⟨n, m'⟩ := x
    refine ⟨Src.preText ps, l', n, Src.docText m' ms', _, e, g1, hls, p1, hsp, .inr g3.2.1, g3.1, rfl, ht, ?_, hrest⟩
    have hp : Src.PreFits [(l', n)] (Src.docText m' ms') := ⟨by simpa [Src.preText] using g3.1,
      by simpa [Src.preText] using g3.2.1, trivial⟩
    obtain ⟨m, ms1, k1, k2, k3⟩ := Src.pre_doc (unq := unq) _ (Src.pre_less _ hp) 0
    have p2 := Src.parse_fits (unq := unq) k2
    have k1 : Src.docText m ms1 = l'.text ++ n := by simpa [Src.preText] using k1
    rw [k1, k3] at p2
    rw [p2]
    have h5 := Src.tells_item (unq := unq) l'.item (0 + blen l'.indent)
    cases h6 : l'.item.eval unq (0 + blen l'.indent) with
    | ok o =>
      rw [h6] at h5
      have h5 : Src.firstFault unq l'.item.checks = none := h5
      rw [ht] at h5
      cases h5
    | error f =>
      rw [h6] at h5
      obtain ⟨e', rfl, h5⟩ := h5
      rw [ht] at h5
      cases h5
      simp only [Src.evalPre, h6]
      rfl

section
open Src

theorem infix_left {u a : Str} (b : Str) (h : u <:+: a) : u <:+: a ++ b := h.trans (List.prefix_append a b).isInfix
theorem infix_right {u b : Str} (a : Str) (h : u <:+: b) : u <:+: a ++ b := h.trans (List.suffix_append a b).isInfix
theorem infix_cons {u b : Str} (c : Char) (h : u <:+: b) : u <:+: c :: b := infix_right [c] h

/-- what is unquoted for the text `w`: part of it, in quotes -/
def QuotedPart (w t : Str) : Prop :=
  ∃ c u, (c = '"' ∨ c = '\'' ∨ c = '`') ∧ c :: u <:+: w ∧ (t = c :: u ∨ t = joinLines (c :: u))

theorem QuotedPart.up {w w' t : Str} (h : QuotedPart w t) (hw : w <:+: w') : QuotedPart w' t := by
  obtain ⟨c, u, h1, h2, h3⟩ := h
  exact ⟨c, u, h1, h2.trans hw, h3⟩

theorem wordChecks_part {w t : Str} (h : Check.unquote t ∈ wordChecks w) : QuotedPart w t := by
  cases w with
  | nil => cases h
  | cons c w =>
    simp only [wordChecks] at h
    by_cases hc : c = '"' ∨ c = '\'' ∨ c = '`'
    · rw [if_pos hc] at h
      cases List.mem_singleton.1 h
      exact ⟨c, w, hc, List.infix_refl _, .inl rfl⟩
    · rw [if_neg hc] at h; cases h

theorem quoted_part {v : Str} (h : QuotedText v) : QuotedPart v v ∧ QuotedPart v (joinLines v) := by
  obtain ⟨q, b, rfl, hq, -⟩ := h
  have hq : q = '"' ∨ q = '\'' ∨ q = '`' := hq.imp id .inl
  exact ⟨⟨q, _, hq, List.infix_refl _, .inl rfl⟩, ⟨q, _, hq, List.infix_refl _, .inr rfl⟩⟩

theorem label_part {v : Value} {t : Str} (hq : ∀ w, v = .quoted w → QuotedText w)
    (h : Check.unquote t ∈ v.labelChecks) : QuotedPart v.text t := by
  cases v with
  | quoted w => cases List.mem_singleton.1 h; exact (quoted_part (hq w rfl)).2
  | bare w => exact wordChecks_part h

theorem env_part {v : Value} {t : Str} (hq : ∀ w, v = .quoted w → QuotedText w)
    (h : Check.unquote t ∈ v.envChecks) : QuotedPart v.text t := by
  cases v with
  | quoted w => cases List.mem_singleton.1 h; exact (quoted_part (hq _ rfl)).1
  | bare w => cases h

theorem infix_flatMap {α : Type} {f : α → Str} {x : α} {xs : List α} (h : x ∈ xs) : f x <:+: xs.flatMap f := by
  obtain ⟨as, bs, rfl⟩ := List.append_of_mem h
  rw [List.flatMap_append, List.flatMap_cons]
  exact infix_right _ (infix_left _ (List.infix_refl _))

theorem flags_part {fs : List Src.Flag} {t : Str} (h : Check.unquote t ∈ fs.flatMap (wordChecks ·.value)) :
    QuotedPart (flagsText fs) t := by
  obtain ⟨f, hf, h⟩ := List.mem_flatMap.1 h
  refine (wordChecks_part h).up (List.IsInfix.trans ?_ (infix_flatMap (f := Src.Flag.text) hf))
  exact infix_right _ (infix_cons _ (infix_cons _ (infix_right _ (infix_cons _ (List.infix_refl _)))))

theorem args_part {fs : List Arg} {t : Str} (h : Check.unquote t ∈ fs.flatMap (wordChecks ·.value)) :
    QuotedPart (argsText fs) t := by
  obtain ⟨f, hf, h⟩ := List.mem_flatMap.1 h
  exact (wordChecks_part h).up (List.IsInfix.trans (infix_right _ (List.infix_refl _)) (infix_flatMap (f := Arg.text) hf))

theorem pairs_fit {F : Pair → Str → Prop} {fs : List Pair} {r : Str} (h : PairsFit F fs r) :
    ∀ f ∈ fs, ∃ r', F f r' := by
  induction fs with
  | nil => intro f hf; cases hf
  | cons f fs ih =>
    intro g hg
    rcases List.mem_cons.1 hg with rfl | hg
    · exact ⟨_, h.1⟩
    · exact ih h.2 g hg

theorem elems_fit {fs : List Elem} {r : Str} (h : ElemsFit fs r) : ∀ f ∈ fs, ∃ r', f.Fits r' := by
  induction fs with
  | nil => intro f hf; cases hf
  | cons f fs ih =>
    intro g hg
    rcases List.mem_cons.1 hg with rfl | hg
    · exact ⟨_, h.1⟩
    · exact ih h.2 g hg

theorem array_part {a : Src.Array} {r t : Str} (hf : a.Fits r) (h : Check.unquote t ∈ a.checks) : QuotedPart a.text t := by
  cases a with
  | empty g => cases h
  | full g v es c g' =>
    obtain ⟨-, h2, h3, -⟩ := hf
    rcases List.mem_cons.1 h with h | h
    · cases h
      exact (quoted_part h2).1.up (infix_cons _ (infix_right _ (infix_left _ (List.infix_refl _))))
    · obtain ⟨e, he, h⟩ := List.mem_map.1 h
      cases h
      obtain ⟨_, h4⟩ := elems_fit h3 e he
      refine (quoted_part h4.2.2).1.up (infix_cons _ (infix_right _ (infix_right _ (infix_left _ ?_))))
      refine List.IsInfix.trans ?_ (infix_flatMap (f := Elem.text) he)
      exact infix_right _ (infix_cons _ (infix_right _ (List.infix_refl _)))

/-- C72: what is unquoted is a part of the line that starts with a quote, or for labels such a part
without its pairs of backslash and newline. -/
theorem C72_quoted {i : Src.Item} {r t : Str} (hf : i.Fits r) (h : Check.unquote t ∈ i.checks) :
    QuotedPart i.text t := by
  have self : ∀ w : Str, w <:+: w := List.infix_refl
  have nofit : ∀ (v : Value) (r : Str), v.Fits r → ∀ w, v = .quoted w → QuotedText w := by
    rintro v r h w rfl; exact h
  have noname : ∀ (v : Value) (r : Str), v.FitsName r → ∀ w, v = .quoted w → QuotedText w := by
    rintro v r h w rfl; exact h
  cases i with
  | blank => cases h
  | comment _ => cases h
  | «from» kw fs g i a =>
    rcases List.mem_append.1 h with h | h
    · exact (flags_part h).up (infix_right _ (infix_left _ (self _)))
    · cases List.mem_singleton.1 h
  | arg kw g n v =>
    cases v with
    | none => cases h
    | some v => exact (wordChecks_part h).up (infix_right _ (infix_right _ (infix_right _ (infix_cons _ (self _)))))
  | label kw ps u =>
    obtain ⟨f, hm, h⟩ := List.mem_flatMap.1 h
    obtain ⟨_, h1⟩ := pairs_fit hf.2.1 f hm
    have hb : f.body <:+: kw ++ (pairsText ps ++ u) :=
      infix_right _ (infix_left _ (List.IsInfix.trans (infix_right _ (self _)) (infix_flatMap (f := Pair.text) hm)))
    rcases List.mem_append.1 h with h | h
    · exact (label_part (noname _ _ h1.2.1) h).up (List.IsInfix.trans (infix_left _ (self _)) hb)
    · exact (label_part (nofit _ _ h1.2.2) h).up (List.IsInfix.trans (infix_right _ (infix_cons _ (self _))) hb)
  | label1 kw g n g' v =>
    obtain ⟨-, -, h3, -, h5⟩ := hf
    rcases List.mem_append.1 h with h | h
    · exact (label_part (noname _ _ h3) h).up (infix_right _ (infix_right _ (infix_left _ (self _))))
    · exact (label_part (nofit _ _ h5) h).up (infix_right _ (infix_right _ (infix_right _ (infix_right _ (self _)))))
  | shell k kw g s => cases List.mem_singleton.1 h
  | exec k kw g a =>
    rcases List.mem_cons.1 h with h | h
    · cases h
    · exact (array_part hf.2.2 h).up (infix_right _ (infix_right _ (self _)))
  | copy kw fs ss d =>
    rcases List.mem_append.1 h with h | h
    · exact (flags_part h).up (infix_right _ (infix_left _ (self _)))
    · rcases List.mem_append.1 h with h | h
      · exact (args_part h).up (infix_right _ (infix_right _ (infix_left _ (self _))))
      · exact (wordChecks_part h).up (infix_right _ (infix_right _ (infix_right _ (infix_right _ (self _)))))
  | env kw ps u =>
    obtain ⟨f, hm, h⟩ := List.mem_flatMap.1 h
    obtain ⟨_, h1⟩ := pairs_fit hf.2.1 f hm
    have hb : f.body <:+: kw ++ (pairsText ps ++ u) :=
      infix_right _ (infix_left _ (List.IsInfix.trans (infix_right _ (self _)) (infix_flatMap (f := Pair.text) hm)))
    exact (env_part (nofit _ _ h1.2.2) h).up (List.IsInfix.trans (infix_right _ (infix_cons _ (self _))) hb)
  | env1 kw g n g' s => cases h
  | env1q kw g n g' v =>
    cases List.mem_singleton.1 h
    exact (quoted_part hf.2.2.2.2.2).1.up (infix_right _ (infix_right _ (infix_right _ (infix_right _ (self _)))))
  | misc w a => cases h

end

/- The third line is to blame, although the fourth has an error of another kind. -/
example : Dockerfile.parse Enquote.unquote c!"FROM a\n# b\nLABEL x=\"\\q\" y=z\nFROM c@d\n" =
      .error (.err (.unescape .unrecognizedEscape)) ∧
    (Dockerfile.parse Enquote.unquote c!"FROM a\n# b\n").toOption.map (·.instructions.length) = some 1 ∧
    Dockerfile.parse Enquote.unquote c!"LABEL x=\"\\q\" y=z\n" = .error (.err (.unescape .unrecognizedEscape)) ∧
    Dockerfile.parse Enquote.unquote c!"FROM c@d\n" = .error (.err (.generic .digestInvalid)) := by
  decide +kernel

example : ∃ (a : Str) (l : Src.Line) (n b : Str) (d1 : Dockerfile) (e : Error),
    c!"FROM a\n# b\nLABEL x=\"\\q\" y=z\nFROM c@d\n" = a ++ (l.text ++ (n ++ b)) ∧ LineStart a (l.text ++ (n ++ b)) ∧
      Dockerfile.parse Enquote.unquote a = .ok d1 ∧ (∀ i ∈ d1.instructions, i.span.stop < blen a) ∧
      ((n = [] ∧ b = []) ∨ LineBreak n b) ∧ l.Fits (n ++ b) ∧
      Fault.err (.unescape .unrecognizedEscape) = .err e ∧ Src.firstFault Enquote.unquote l.item.checks = some e ∧
      Dockerfile.parse Enquote.unquote (l.text ++ n) = .error (.err (.unescape .unrecognizedEscape)) ∧
      Dockerfile.parse Enquote.unquote (l.text ++ (n ++ b)) = .error (.err (.unescape .unrecognizedEscape)) :=
  C72_line (by decide +kernel) (by decide)

/- Its checks: the value of `x` is read, the name and the value of `y` stand for themselves. -/
example : (Src.Item.label c!"LABEL" [⟨c!" ", .bare c!"x", .quoted c!"\"\\q\""⟩, ⟨c!" ", .bare c!"y", .bare c!"z"⟩] []).checks =
    [.unquote c!"\"\\q\""] := rfl

/- Within a line, too, the first error counts: flags come before sources, and a comment before everything. -/
example : Dockerfile.parse Enquote.unquote c!"COPY --from=\"\\x0 \"\\q b" = .error (.err (.unescape .unmatchedQuotes)) ∧
    Dockerfile.parse Enquote.unquote c!"RUN \\\n#\n [\"\\q\"]" = .error (.err (.generic (.unexpectedToken .comment))) ∧
    Dockerfile.parse Enquote.unquote c!"RUN [\"a\", \"\\q\", \"\\xg\"]" = .error (.err (.unescape .unrecognizedEscape)) := by
  decide +kernel

/- The form comes first: a later syntax error is reported, not the earlier fault. -/
example : Dockerfile.parse Enquote.unquote c!"LABEL x=\"\\q\"\n-\n" = .error (.err .parseError) := by
  decide +kernel

end Verif
