import Verif.Proof.Keyword
import Verif.Model.Enquote

/-! # Where a text is, and the case of keywords (C33, C34) -/

namespace Verif
open Spec

/-! ## C33: blank and comment lines -/

/-- C33: a blank line or a comment line in front of a document only moves the spans. -/
theorem C33_blank_or_comment_line (unq : Unquote) (l n s : Str)
    (hl : Blanks l ∨ ∃ w t, l = w ++ t ∧ Blanks w ∧ CommentText t) (hn : LineBreak n s) :
    Dockerfile.parse unq (l ++ n ++ s) =
      match Dockerfile.parse unq s with
      | .ok d => .ok (prefixed (l ++ n) d)
      | .error e => .error e := by
  have key : ∃ ts, Line 0 l ts ∧ recordLoop unq ts .init = .ok .init := by
    rcases hl with hl | ⟨w, t, rfl, hw, ht⟩
    · exact ⟨[], line_blank hl, rfl⟩
    · exact ⟨_, line_comment hw ht, rfl⟩
  obtain ⟨ts, h1, h2⟩ := key
  rw [parse_line_cons (h1.at hn) hn h2]
  cases hs : Dockerfile.parse unq s with
  | error e => rfl
  | ok d =>
    have hc := (parse_ok_inv hs).1
    have hr : ∀ i : Instruction, i.renumber 0 = i := by intro i; cases i <;> rfl
    simp [prefixed, hc, LoopState.init, hr, blen_append]

example : Dockerfile.parse Enquote.unquote c!"  # it's a \\\nFROM a AS b\nRUN \\\n x" =
    match Dockerfile.parse Enquote.unquote c!"FROM a AS b\nRUN \\\n x" with
    | .ok d => .ok (prefixed c!"  # it's a \\\n" d)
    | .error e => .error e :=
  C33_blank_or_comment_line _ c!"  # it's a \\" c!"\n" _
    (.inr ⟨c!"  ", c!"# it's a \\", rfl, by simp [Blanks], _, rfl, by decide +kernel⟩) (.inl rfl)

example : (Dockerfile.parse Enquote.unquote c!" \t\nFROM a\n").mapped (·.instructions) =
    .ok [.from { span := ⟨3, 9⟩, flags := [], image := ⟨⟨8, 9⟩, c!"a"⟩,
                 image_parsed := ⟨none, c!"a", none, none⟩, index := 0, alias := none }] := by
  decide +kernel

/-! ## C34: case of keywords -/

/-- C34: the case of the keyword at the start of a text does not matter, except that it shows in
the first word of an instruction that is not recognised as one of its kind (`misc`). -/
theorem C34_keyword_case (unq : Unquote) (w w' rest : Str) (hw : IsKeyword w)
    (hc : lower w = lower w') :
    SameButFirstWordCase (Dockerfile.parse unq (w ++ rest)) (Dockerfile.parse unq (w' ++ rest)) :=
  parse_keyword_case unq hc hw

example : IsKeyword c!"EntryPoint" ∧ lower c!"EntryPoint" = lower c!"eNTRYpOINT" := by
  unfold IsKeyword; decide +kernel

/-- C34: equal results whenever the instruction is recognised. -/
theorem C34_recognised (unq : Unquote) (w w' rest : Str) (hw : IsKeyword w)
    (hc : lower w = lower w') (d : Dockerfile) (hd : Dockerfile.parse unq (w ++ rest) = .ok d)
    (hm : ∀ m is, d.instructions ≠ .misc m :: is) :
    Dockerfile.parse unq (w' ++ rest) = .ok { d with content := w' ++ rest } := by
  have h := C34_keyword_case unq w w' rest hw hc
  rw [hd] at h
  generalize hp : Dockerfile.parse unq (w' ++ rest) = x at h
  cases h with
  | @ok _ d' i j is h1 h2 h3 h4 =>
    have hc' := (parse_ok_inv hp).1
    rcases h4 with rfl | ⟨m, v, -, rfl, -⟩
    · cases d; cases d'; simp_all
    · exact absurd h2 (hm m is)

example : IsKeyword c!"eNtRyPoInT" := by unfold IsKeyword; decide +kernel

example : (Dockerfile.parse Enquote.unquote c!"cOPy a b").mapped (·.instructions) =
    (Dockerfile.parse Enquote.unquote c!"COPY a b").mapped (·.instructions) := by decide +kernel

/- a malformed `COPY` is a `misc` instruction, which keeps the word as it is written -/
example : (Dockerfile.parse Enquote.unquote c!"cOPy a").mapped (·.instructions) ≠
    (Dockerfile.parse Enquote.unquote c!"COPY a").mapped (·.instructions) := by decide +kernel

end Verif
