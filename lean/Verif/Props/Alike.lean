import Verif.Proof.AlikeLeaf
import Verif.Props.Source
import Verif.Model.Enquote

/-! # Texts that look alike (C34, C56) -/

namespace Verif
open Spec

theorem numberStages_leaves (is : List Instruction) : ∀ n,
    (numberStages n is).flatMap Src.leaves = is.flatMap Src.leaves := by
  induction is with
  | nil => intro n; rfl
  | cons i is ih =>
    intro n
    cases i <;> simp only [numberStages, List.flatMap_cons, ih] <;> rfl

theorem numberStages_skeleton (is : List Instruction) : ∀ n,
    (numberStages n is).map Src.skeleton = numberStages n (is.map Src.skeleton) := by
  induction is with
  | nil => intro n; rfl
  | cons i is ih =>
    intro n
    cases i <;> simp only [numberStages, List.map_cons, ih] <;> rfl

theorem globalArgs_skeleton (is : List Instruction) :
    (globalArgs is).map Src.argSkel = globalArgs (is.map Src.skeleton) := by
  induction is with
  | nil => rfl
  | cons i is ih =>
    cases i <;> first
      | rfl
      | exact ih
      | exact congrArg (_ :: ·) ih

/-! ## C34: case outside of the texts -/

/-- C34, anywhere in a document: changing the case of letters (or digits, or characters without a
role) outside of the texts that the instructions show does not change the instructions.  This covers
the keywords, `AS` and the comments. -/
theorem C34_anywhere {unq : Unquote} {s s' : Str} {d : Dockerfile} (hd : Dockerfile.parse unq s = .ok d)
    (hs : Src.AlikeText s s') (ha : Src.Agree s s' (d.instructions.flatMap Src.leaves)) :
    Dockerfile.parse unq s' = .ok { d with content := s' } := by
  obtain ⟨l, ms, is, hf, rfl, he, rfl⟩ := C51_accepted.1 hd
  obtain ⟨l', ms', h1, h2, rfl, hf'⟩ := Src.fits_alike hf hs
  refine C51_accepted.2 ⟨l', ms', is, hf', rfl, ?_, rfl⟩
  have ha : Src.Agree (Src.docText l ms) (Src.docText l' ms') (is.flatMap Src.leaves) := by
    rw [← numberStages_leaves is 0]; exact ha
  exact Src.doc_leaf h2 h1 ⟨[], [], by rw [List.append_nil]; rfl, rfl⟩ ⟨[], [], by rw [List.append_nil]; rfl, rfl⟩
    he ha

/-- the keywords, `AS` and a comment -/
example : Src.AlikeText c!"FROM a AS b\nRUN x # y\n# z1" c!"from a as b\nrun x # y\n# Z2" ∧
    (Dockerfile.parse Enquote.unquote c!"FROM a AS b\nRUN x # y\n# z1").mapped
      (fun d => d.instructions.flatMap Src.leaves) = .ok [⟨5, 6⟩, ⟨10, 11⟩, ⟨16, 21⟩] ∧
    (Dockerfile.parse Enquote.unquote c!"FROM a AS b\nRUN x # y\n# z1").mapped (·.instructions) =
      (Dockerfile.parse Enquote.unquote c!"from a as b\nrun x # y\n# Z2").mapped (·.instructions) := by
  refine ⟨?_, by decide +kernel, by decide +kernel⟩
  repeat' first
    | exact .nil
    | refine .cons (by unfold Src.Alike Src.Neutral IsAlpha IsDigit; decide +kernel) ?_

/-! ## C56: what the structure depends on -/

/-- C56: whether a text is a syntax error does not depend on the case of letters, on which digits are
used, and on characters without a role. -/
theorem C56_syntax {unq : Unquote} {s s' : Str} (hs : Src.AlikeText s s') :
    Dockerfile.parse unq s = .error (.err .parseError) ↔
      Dockerfile.parse unq s' = .error (.err .parseError) := by
  have main : ∀ {s s' : Str}, Src.AlikeText s s' → (∃ l ms, Src.DocFits l ms ∧ Src.docText l ms = s) →
      ∃ l ms, Src.DocFits l ms ∧ Src.docText l ms = s' := by
    rintro s s' hs ⟨l, ms, hf, rfl⟩
    obtain ⟨l', ms', -, -, h3, h4⟩ := Src.fits_alike hf hs
    exact ⟨l', ms', h4, h3⟩
  rw [C51_syntax_error, C51_syntax_error]
  exact ⟨fun h h' => h (main hs.symm h'), fun h h' => h (main hs h')⟩

/-- C56: neither do the kinds, the number and the order of instructions, their parts, and all spans,
unless a text cannot be read. -/
theorem C56_skeleton {unq : Unquote} {s s' : Str} {d : Dockerfile} (hd : Dockerfile.parse unq s = .ok d)
    (hs : Src.AlikeText s s') :
    (∃ d', Dockerfile.parse unq s' = .ok d' ∧
      d'.instructions.map Src.skeleton = d.instructions.map Src.skeleton ∧
      d'.global_args.map Src.argSkel = d.global_args.map Src.argSkel) ∨
    ∃ e, Dockerfile.parse unq s' = .error e ∧ Src.TextFault e := by
  obtain ⟨l, ms, is, hf, rfl, he, rfl⟩ := C51_accepted.1 hd
  obtain ⟨l', ms', h1, h2, rfl, hf'⟩ := Src.fits_alike hf hs
  rw [C51_fits hf']
  rcases Src.doc_near (unq := unq) h2 h1 0 is he with ⟨js, he', h⟩ | ⟨e, he', h⟩
  · refine .inl ⟨_, by rw [he']; rfl, ?_, ?_⟩
    · simp only [documentOf, numberStages_skeleton, h]
    · simp only [documentOf, globalArgs_skeleton, h]
  · exact .inr ⟨e, by rw [he']; rfl, h⟩

example : (Dockerfile.parse Enquote.unquote c!"FROM Ab:1.0\nrun [\"é\", \"b\"]").mapped
      (fun d => d.instructions.map Src.skeleton) =
    (Dockerfile.parse Enquote.unquote c!"from aB:7.3\nRuN [\"ö\", \"B\"]").mapped
      (fun d => d.instructions.map Src.skeleton) := by decide +kernel

/-- the last case of `C56_skeleton`: a neutral character and a backquote -/
example : (∃ d, Dockerfile.parse Enquote.unquote c!"ARG a=*" = .ok d) ∧ Src.AlikeText c!"ARG a=*" c!"ARG a=`" ∧
    ∃ e, (Dockerfile.parse Enquote.unquote c!"ARG a=`").mapped (·.instructions) = .error e ∧
      Src.TextFault e := by
  have h : Src.AlikeText c!"ARG a=*" c!"ARG a=`" := by
    repeat' first
      | exact .nil
      | refine .cons (by unfold Src.Alike Src.Neutral IsAlpha IsDigit; decide +kernel) ?_
  have e1 : (Dockerfile.parse Enquote.unquote c!"ARG a=*").mapped (·.instructions.length) = .ok 1 := by
    decide +kernel
  refine ⟨?_, h, .err (.unescape .notEnoughChars), by decide +kernel, .inr ⟨_, rfl⟩⟩
  cases e : Dockerfile.parse Enquote.unquote c!"ARG a=*" with
  | ok d => exact ⟨d, rfl⟩
  | error e' => rw [e] at e1; cases e1

/-- special characters matter -/
example : (Dockerfile.parse Enquote.unquote c!"FROM a.b").mapped (fun d => d.instructions.map Src.skeleton) ≠
    (Dockerfile.parse Enquote.unquote c!"FROM a#b").mapped (fun d => d.instructions.map Src.skeleton) := by
  decide +kernel

end Verif
