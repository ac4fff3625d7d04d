import Verif.Proof.SrcDoc

/-! # The accepted texts and their meaning, exactly (C51) -/

namespace Verif
open Spec

/-- C51, first half: a text that can be cut into lines that fit is parsed to what these lines say,
or fails with the first error that these lines give. -/
theorem C51_fits {unq : Unquote} {l : Src.Line} {ms : List (Str × Src.Line)}
    (h : Src.DocFits l ms) :
    Dockerfile.parse unq (Src.docText l ms) =
      (Src.evalDoc unq 0 l ms).map (documentOf (Src.docText l ms)) :=
  Src.parse_fits h

/-- C51, second half: any other text is a syntax error. -/
theorem C51_unfit {unq : Unquote} {s : Str}
    (h : ¬ ∃ l ms, Src.DocFits l ms ∧ Src.docText l ms = s) :
    Dockerfile.parse unq s = .error (.err .parseError) :=
  Src.parse_unfit fun l ms e hf => h ⟨l, ms, hf, e⟩

/-- C51: the syntax errors are exactly the texts that cannot be cut into lines that fit. -/
theorem C51_syntax_error {unq : Unquote} {s : Str} :
    Dockerfile.parse unq s = .error (.err .parseError) ↔
      ¬ ∃ l ms, Src.DocFits l ms ∧ Src.docText l ms = s := by
  constructor
  · rintro h ⟨l, ms, hf, rfl⟩
    obtain ⟨ts, h1, -⟩ := Src.doc_reads (unq := unq) hf 0
    rw [parse_error_iff.1 h] at h1
    cases h1
  · exact C51_unfit

/-- C51: the accepted texts and what is made of them. -/
theorem C51_accepted {unq : Unquote} {s : Str} {d : Dockerfile} :
    Dockerfile.parse unq s = .ok d ↔
      ∃ l ms is, Src.DocFits l ms ∧ Src.docText l ms = s ∧ Src.evalDoc unq 0 l ms = .ok is ∧
        d = documentOf s is := by
  constructor
  · intro h
    have hn : ¬ ¬ ∃ l ms, Src.DocFits l ms ∧ Src.docText l ms = s := by
      rw [← C51_syntax_error (unq := unq), h]; simp
    obtain ⟨l, ms, hf, rfl⟩ := Classical.not_not.1 hn
    rw [C51_fits hf] at h
    cases he : Src.evalDoc unq 0 l ms with
    | error e => rw [he] at h; cases h
    | ok is => rw [he] at h; cases h; exact ⟨l, ms, is, hf, rfl, he, rfl⟩
  · rintro ⟨l, ms, is, hf, rfl, he, rfl⟩
    rw [C51_fits hf, he]; rfl

/-- C51: it does not matter how a text is cut into lines that fit. -/
theorem C51_unambiguous {unq : Unquote} {l l' : Src.Line} {ms ms' : List (Str × Src.Line)}
    (h : Src.DocFits l ms) (h' : Src.DocFits l' ms') (e : Src.docText l ms = Src.docText l' ms') :
    (Src.evalDoc unq 0 l ms).map (documentOf (Src.docText l ms)) =
      (Src.evalDoc unq 0 l' ms').map (documentOf (Src.docText l ms)) := by
  rw [← C51_fits h, e, C51_fits h']

/-! ## examples -/

/-- a document with a comment in a continuation, made of lines that fit -/
example : ∃ l ms, Src.DocFits l ms ∧ Src.docText l ms =
    c!"# syntax\nfrom \\\n  # which\n  a:1 as b\nARG x=\"y\nz\"\n\nRUN [\"a\", 'b',]  \ncopy --from=b a b\nlabel a=b \\\n c='d'" := by
  have : ∀ s : Str, docToks 0 s ≠ none → ∃ l ms, Src.DocFits l ms ∧ Src.docText l ms = s :=
    fun s h => by obtain ⟨l, ms, e, hf⟩ := Src.doc_inv h; exact ⟨l, ms, hf, e⟩
  exact this _ (by decide +kernel)

/-- a text that is not -/
example : ¬ ∃ l ms, Src.DocFits l ms ∧ Src.docText l ms = c!"FROM a AS" := by
  rw [← C51_syntax_error (unq := fun _ => .ok [])]
  decide +kernel

/-- one line, by hand -/
example : Src.DocFits ⟨[' '], .from c!"FroM" [] c!" \\ \n\t#c\n" c!"a:b" none, [' ']⟩ [] := by
  have hb : ∀ c, c = ' ' ∨ c = '\t' → Blanks [c] := fun c h d hd => by
    rw [List.mem_singleton.1 hd]; exact h
  have hs : Src.Space [] c!"a:b " := .nil (Src.not_starts_plain (by decide))
  have hl : Src.SkipLines c!"\t#c\n" c!"a:b " :=
    .comment (w := ['\t']) (t := c!"#c") (n := ['\n']) (l := []) (hb _ (.inr rfl)) ⟨c!"c", rfl, by decide⟩
      (.inl rfl) (.nil (by
        rintro ⟨w, v, e, hw, h⟩
        cases w with
        | nil =>
          rcases h with ⟨t, rfl⟩ | ⟨n, t, rfl, hn⟩
          · cases e
          · rcases hn with rfl | rfl | ⟨rfl, -⟩ <;> cases e
        | cons c w =>
          obtain ⟨rfl, -⟩ := List.cons.inj e
          exact absurd (hw 'a' (by simp)) (by decide)))
  have hg : Src.Space c!" \\ \n\t#c\n" c!"a:b " :=
    .blank (.inl rfl) (.continuation (w := [' ']) (n := ['\n']) (l := c!"\t#c\n") (g := [])
      (hb _ (.inl rfl)) (.inl rfl) hl hs)
  exact ⟨hb _ (.inl rfl), ⟨rfl, trivial, ⟨by decide, hg⟩, by decide,
    fun c hc => isImageChar_iff.1 (by revert c; decide), by intro x hx; cases hx⟩, hb _ (.inl rfl)⟩

end Verif
