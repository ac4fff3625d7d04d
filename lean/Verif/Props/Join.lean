import Verif.Proof.JoinDoc
import Verif.Props.Edit

/-! # Joining documents (C60) -/

namespace Verif
open Spec

theorem numberStages_app_left (is js : List Instruction) : ∀ n k,
    numberStages n (numberStages k is ++ js) = numberStages n (is ++ js) := by
  induction is with
  | nil => intro n k; rfl
  | cons i is ih => intro n k; cases i <;> simp [numberStages, ih]

theorem numberStages_app_right (is js : List Instruction) : ∀ n k,
    numberStages n (is ++ numberStages k js) = numberStages n (is ++ js) := by
  induction is with
  | nil => intro n k; exact Src.numberStages_twice js n k
  | cons i is ih => intro n k; cases i <;> simp [numberStages, ih]

theorem globalArgs_app_left (is js : List Instruction) : ∀ k,
    globalArgs (numberStages k is ++ js) = globalArgs (is ++ js) := by
  induction is with
  | nil => intro k; rfl
  | cons i is ih => intro k; cases i <;> simp [numberStages, globalArgs, ih]

theorem globalArgs_app_right (is js : List Instruction) : ∀ k,
    globalArgs (is ++ numberStages k js) = globalArgs (is ++ js) := by
  induction is with
  | nil => intro k; exact Src.globalArgs_numbered js k
  | cons i is ih => intro k; cases i <;> simp [globalArgs, ih]

/-- an instruction before the stages were numbered -/
theorem mem_numbered {x : Instruction} {is : List Instruction} : ∀ n, x ∈ is →
    (∃ f, x = .from f ∧ ∃ k, Instruction.from { f with index := k } ∈ numberStages n is) ∨ x ∈ numberStages n is := by
  induction is with
  | nil => intro n h; cases h
  | cons i is ih =>
    intro n h
    rcases List.mem_cons.1 h with rfl | h
    · cases x
      case «from» f => exact .inl ⟨f, rfl, n, by simp [numberStages]⟩
      all_goals exact .inr (by simp [numberStages])
    · have : ∀ k, (∀ j ∈ numberStages k is, j ∈ numberStages n (i :: is)) →
          (∃ f, x = .from f ∧ ∃ k, Instruction.from { f with index := k } ∈ numberStages n (i :: is)) ∨
            x ∈ numberStages n (i :: is) := by
        intro k hk
        rcases ih k h with ⟨f, e, k', h'⟩ | h'
        · exact .inl ⟨f, e, k', hk _ h'⟩
        · exact .inr (hk _ h')
      cases i
      case «from» f => exact this (n + 1) fun j hj => by simp [numberStages, hj]
      all_goals exact this n fun j hj => by simp [numberStages, hj]

/-- C60: The text `s ++ n` is a document that ends with a line break `n` outside of its instructions,
and nothing it left open is closed in `z`.  With `z` after it, the instructions are those of the
document, followed by those of `z`, moved.  If `z` is rejected, so is the joined text, with the same
error. -/
theorem C60_join {unq : Unquote} {s n z : Str} {d : Dockerfile} (h : Dockerfile.parse unq (s ++ n) = .ok d)
    (hn : LineBreak n z) (hs : ∀ i ∈ d.instructions, i.span.stop ≤ blen s) (hu : Undisturbed (s ++ n) z d) :
    Dockerfile.parse unq (s ++ n ++ z) = (Dockerfile.parse unq z).map fun d' =>
      documentOf (s ++ n ++ z) (d.instructions ++ d'.instructions.map (·.remap (· + blen (s ++ n)))) := by
  obtain ⟨l, ms, is, hf, e, he, rfl⟩ := C51_accepted.1 h
  have hb : Src.BreakEnd (s ++ n) := (Src.break_end hn).pre _
  have hlt : blen s < blen (s ++ n) := by
    have := blen_pos (Src.break_end hn).ne
    rw [blen_append]; omega
  obtain ⟨ps, e1, e2, e3⟩ := Src.doc_pre ms l 0 is hf he (.inr (by rw [e]; exact hb)) (fun x hx => by
    rw [e, Nat.zero_add]
    rcases mem_numbered 0 hx with ⟨f, rfl, k, hk⟩ | hk
    · have := hs (.from { f with index := k }) hk
      exact Nat.lt_of_le_of_lt this hlt
    · exact Nat.lt_of_le_of_lt (hs _ hk) hlt)
  rw [e] at e1
  have hp : Src.PreFits ps z := by
    refine Src.pre_add ps [] is e2 e3 ?_ ?_
    · intro a ha t
      rw [List.nil_append, e1] at ha
      rcases hn with rfl | rfl | ⟨rfl, hn⟩
      · exact absurd (List.append_inj_right' ha rfl) (by decide)
      · have : s ++ ['\r'] ++ ['\n'] = a ++ ['\r'] := by simpa using ha
        exact absurd (List.append_inj_right' this rfl) (by decide)
      · exact hn t
    · intro x hx
      rw [List.nil_append, e1]
      rcases mem_numbered 0 hx with ⟨f, rfl, -⟩ | hk
      · refine ⟨?_, ?_, ?_⟩ <;> intro p hp <;> cases hp
      · exact hu x hk
  by_cases hz : ∃ p, docToks p z ≠ none
  · obtain ⟨p, hz⟩ := hz
    obtain ⟨l2, ms2, rfl, hf2⟩ := Src.doc_inv hz
    obtain ⟨l', ms', g1, g2, g3⟩ := Src.pre_glue (unq := unq) hf2 ps 0 hp
    rw [e1] at g1 g3
    have := Src.parse_fits (unq := unq) g2
    rw [g1] at this
    rw [this, g3, e3, Src.parse_fits hf2, Nat.zero_add,
      Src.doc_move (m := (· + blen (s ++ n))) ms2 l2 0 _ (by intro k _; simp only []; omega)]
    simp only [ok_bind]
    cases Src.evalDoc unq 0 l2 ms2 with
    | error e => rfl
    | ok js =>
      refine congrArg Except.ok ?_
      simp only [documentOf, ← Src.numberStages_remap, numberStages_app_left, numberStages_app_right,
        globalArgs_app_left, globalArgs_app_right]
  · have hz : ∀ p, docToks p z = none := fun p => Classical.byContradiction fun h => hz ⟨p, h⟩
    have := Src.pre_none hz ps 0 hp
    rw [e1] at this
    rw [parse_docToks, this, parse_docToks, hz]
    rfl

/-- nothing opened at `b` can be closed in `z`: no quote there, or closed before, or no quotes in `z` -/
def QuoteSafe (z b : Str) : Prop :=
  (∃ c t, b = c :: t ∧ c ≠ '"' ∧ c ≠ '\'') ∨ BeginsQuoted b ∨ ('"' ∉ z ∧ '\'' ∉ z)

/-- the same for brackets -/
def ArraySafe (z b : Str) : Prop := (∃ c t, b = c :: t ∧ c ≠ '[') ∨ ']' ∉ z

theorem QuoteSafe.stays {z b : Str} (h : QuoteSafe z b) (hb : ¬ BeginsQuoted b) : ¬ BeginsQuoted (b ++ z) := by
  rintro ⟨t, r, e, q, u, rfl, hq, hu⟩
  rcases h with ⟨c, t, rfl, hc⟩ | h | h
  · obtain ⟨rfl, -⟩ := List.cons.inj e
    exact hq.elim hc.1 hc.2
  · exact hb h
  · have e : b ++ z = (q :: u) ++ (q :: r) := by simpa using e
    rcases List.append_eq_append_iff.1 e with ⟨x, e1, e2⟩ | ⟨x, e1, e2⟩
    · have : q ∈ z := by rw [e2]; simp
      rcases hq with rfl | rfl
      · exact h.1 this
      · exact h.2 this
    · cases x with
      | nil =>
        have : q ∈ z := by rw [← show q :: r = z from e2]; simp
        rcases hq with rfl | rfl
        · exact h.1 this
        · exact h.2 this
      | cons c x =>
        obtain ⟨rfl, -⟩ := List.cons.inj e2
        exact hb ⟨q :: (u ++ [q]), x, by simp [e1], q, u, rfl, hq, hu⟩

theorem array_last (a : Src.Array) : ∃ u, a.text = u ++ [']'] := by
  cases a with
  | empty g => exact ⟨'[' :: g, by simp [Src.Array.text]⟩
  | full g v es c g' =>
    exact ⟨'[' :: (g ++ (v ++ (Src.elemsText es ++ ((if c then [','] else []) ++ g')))), by
      simp [Src.Array.text, Src.Array.tail]⟩

theorem ArraySafe.stays {z b : Str} (h : ArraySafe z b) (hb : ¬ BeginsArray b) : ¬ BeginsArray (b ++ z) := by
  rintro ⟨a, r, e, ha⟩
  rcases h with ⟨c, t, rfl, hc⟩ | h
  · cases a <;> exact hc (List.cons.inj e).1
  · rcases List.append_eq_append_iff.1 e with ⟨x, e1, e2⟩ | ⟨x, e1, e2⟩
    · obtain ⟨u, hu⟩ := array_last a
      by_cases hx : x = []
      · subst hx
        rw [List.append_nil] at e1
        rw [List.nil_append] at e2
        subst e2
        exact hb ⟨a, [], by simp [e1], Src.array_upto (z := z) (by simpa using ha)⟩
      · have : ']' ∈ x := by
          have h1 : (b ++ x).getLast? = some ']' := by rw [← e1, hu]; simp
          rw [List.getLast?_append, List.getLast?_eq_some_getLast hx] at h1
          have := List.getLast_mem hx
          rw [Option.some.inj h1] at this
          exact this
        exact h (by rw [e2]; simp [this])
    · subst e2
      exact hb ⟨a, x, e1, Src.array_upto (z := z) ha⟩

/-- C60, with conditions that are easy to check: wherever the parser looked for a quoted text there
is none, or a closed one, or no quotes are added; shell commands do not start with a bracket, or
no closing bracket is added; and no keyword was taken for an unknown word. -/
theorem C60_plain {unq : Unquote} {s n z : Str} {d : Dockerfile} (h : Dockerfile.parse unq (s ++ n) = .ok d)
    (hn : LineBreak n z) (hs : ∀ i ∈ d.instructions, i.span.stop ≤ blen s)
    (hq : ∀ i ∈ d.instructions, ∀ p ∈ quoteSpots i, ∀ a b, s ++ n = a ++ b → blen a = p → QuoteSafe z b)
    (ha : ∀ i ∈ d.instructions, ∀ p ∈ arraySpots i, ∀ a b, s ++ n = a ++ b → blen a = p → ArraySafe z b)
    (hw : ∀ i ∈ d.instructions, ∀ k ∈ wordSpots i, ¬ IsKeyword k.1) :
    Dockerfile.parse unq (s ++ n ++ z) = (Dockerfile.parse unq z).map fun d' =>
      documentOf (s ++ n ++ z) (d.instructions ++ d'.instructions.map (·.remap (· + blen (s ++ n)))) := by
  refine C60_join h hn hs fun i hi => ⟨?_, ?_, ?_⟩
  · intro p hp a b e1 e2 h
    exact (hq i hi p hp a b e1 e2).stays h
  · intro p hp a b e1 e2 h
    exact (ha i hi p hp a b e1 e2).stays h
  · intro k hk hk'
    exact absurd hk' (hw i hi k hk)

/- Two documents; the first ends with a comment, the second starts with blanks.  The stages are
numbered anew and the global arguments end at the first `FROM`. -/
def joinA : Str := c!"ARG v=1\nFROM a AS b\nENV x=\"1 2\" y=z\nRUN [\"p\"]\nRUN q \\\n  r\n# end\n"
def joinB : Str := c!"  ARG w='2'\nFROM b\nLABEL k=\"v\"\n"

def joinADoc : Dockerfile :=
  { content := joinA
    global_args := [⟨⟨0, 7⟩, ⟨⟨4, 5⟩, c!"v"⟩, some ⟨⟨6, 7⟩, c!"1"⟩⟩]
    instructions := [
      .arg ⟨⟨0, 7⟩, ⟨⟨4, 5⟩, c!"v"⟩, some ⟨⟨6, 7⟩, c!"1"⟩⟩,
      .from ⟨⟨8, 19⟩, [], ⟨⟨13, 14⟩, c!"a"⟩, ⟨none, c!"a", none, none⟩, 0, some ⟨⟨18, 19⟩, c!"b"⟩⟩,
      .env ⟨⟨20, 35⟩, [⟨⟨24, 31⟩, ⟨⟨24, 25⟩, c!"x"⟩, ⟨⟨26, 31⟩, [.string ⟨⟨26, 31⟩, c!"1 2"⟩]⟩⟩,
        ⟨⟨32, 35⟩, ⟨⟨32, 33⟩, c!"y"⟩, ⟨⟨34, 35⟩, [.string ⟨⟨34, 35⟩, c!"z"⟩]⟩⟩]⟩,
      .run ⟨⟨36, 45⟩, .exec ⟨⟨40, 45⟩, [⟨⟨41, 44⟩, c!"p"⟩]⟩⟩,
      .run ⟨⟨46, 57⟩, .shell ⟨⟨50, 57⟩, [.string ⟨⟨50, 52⟩, c!"q "⟩, .string ⟨⟨54, 57⟩, c!"  r"⟩]⟩⟩] }

theorem joinA_parse : Dockerfile.parse Enquote.unquote joinA = .ok joinADoc := by decide +kernel

example : Dockerfile.parse Enquote.unquote (joinA ++ joinB) =
    (Dockerfile.parse Enquote.unquote joinB).map fun d' =>
      documentOf (joinA ++ joinB) (joinADoc.instructions ++ d'.instructions.map (·.remap (· + blen joinA))) := by
  refine C60_plain (s := joinA.dropLast) (n := ['\n']) joinA_parse (.inl rfl) (by decide +kernel) ?_ ?_ ?_
  · intro i hi p hp a b e1 e2
    have h : ∀ i ∈ joinADoc.instructions, ∀ p ∈ quoteSpots i, p = 6 ∨ p = 26 ∨ p = 34 := by decide +kernel
    have e1 : joinA = a ++ b := e1
    rcases h i hi p hp with rfl | rfl | rfl
    · obtain rfl := (append_inj_blen (show joinA.take 6 ++ joinA.drop 6 = a ++ b from e1) e2.symm).2
      exact .inl ⟨'1', _, rfl, by decide, by decide⟩
    · obtain rfl := (append_inj_blen (show joinA.take 26 ++ joinA.drop 26 = a ++ b from e1) e2.symm).2
      exact .inr (.inl ⟨c!"\"1 2\"", joinA.drop 31, rfl, '"', c!"1 2", rfl, .inl rfl,
        .chr (by decide) (by decide) (by decide) (by decide)
          (.chr (by decide) (by decide) (by decide) (by decide)
            (.chr (by decide) (by decide) (by decide) (by decide) .nil))⟩)
    · obtain rfl := (append_inj_blen (show joinA.take 34 ++ joinA.drop 34 = a ++ b from e1) e2.symm).2
      exact .inl ⟨'z', _, rfl, by decide, by decide⟩
  · intro i hi p hp a b e1 e2
    exact .inr (by decide)
  · have h : ∀ i ∈ joinADoc.instructions, wordSpots i = [] := by decide +kernel
    intro i hi k hk
    rw [h i hi] at hk
    cases hk

/- The same, computed. -/
example : (Dockerfile.parse Enquote.unquote (joinA ++ joinB)).toOption.map (fun d => (d.global_args.length,
      d.instructions.map (·.span), d.instructions.filterMap fun | .from f => some f.index | _ => none)) =
    some (1, [⟨0, 7⟩, ⟨8, 19⟩, ⟨20, 35⟩, ⟨36, 45⟩, ⟨46, 57⟩, ⟨66, 75⟩, ⟨76, 82⟩, ⟨83, 94⟩], [0, 1]) := by decide +kernel

/-! The conditions are needed. -/

/-- C60: a quote that is not closed in the first document may be closed in the second. -/
theorem C60_quotes :
    (Dockerfile.parse Enquote.unquote c!"ENV a=\"b\n").toOption.map (·.instructions.length) = some 1 ∧
    (Dockerfile.parse Enquote.unquote c!"ENV c=\"d\n").toOption.map (·.instructions.length) = some 1 ∧
    Dockerfile.parse Enquote.unquote c!"ENV a=\"b\nENV c=\"d\n" = .error (.err .parseError) := by
  decide +kernel

/-- C60: the same with the elements of an array. -/
theorem C60_array :
    (Dockerfile.parse Enquote.unquote c!"RUN [\"a\n").toOption.map (·.instructions.length) = some 1 ∧
    (Dockerfile.parse Enquote.unquote c!"B \"]\n").toOption.map (·.instructions.length) = some 1 ∧
    (Dockerfile.parse Enquote.unquote c!"RUN [\"a\nB \"]\n").toOption.map (·.instructions) =
      some [.run ⟨⟨0, 12⟩, .exec ⟨⟨4, 12⟩, [⟨⟨5, 11⟩, c!"a\nB "⟩]⟩⟩] := by
  decide +kernel

/-- C60: a keyword that lacks its arguments may find them in the second document.  (A comment and a
blank line are skipped in continued words, not in the arguments of an unknown word.) -/
theorem C60_word :
    (Dockerfile.parse Enquote.unquote c!"COPY a \\\n# c\n\n").toOption.map (·.instructions.map (·.span)) =
      some [⟨0, 13⟩] ∧
    (Dockerfile.parse Enquote.unquote c!"B c\n").toOption.map (·.instructions.map (·.span)) = some [⟨0, 3⟩] ∧
    (Dockerfile.parse Enquote.unquote c!"COPY a \\\n# c\n\nB c\n").toOption.map (·.instructions) =
      some [.copy ⟨⟨0, 17⟩, [], [⟨⟨5, 6⟩, c!"a"⟩, ⟨⟨14, 15⟩, c!"B"⟩], ⟨⟨16, 17⟩, c!"c"⟩⟩] := by
  decide +kernel

/-- C60: a line break that is part of an instruction does not end it. -/
theorem C60_inside :
    (Dockerfile.parse Enquote.unquote c!"RUN a \\\n# c\n").toOption.map (·.instructions.map (·.span)) =
      some [⟨0, 12⟩] ∧
    (Dockerfile.parse Enquote.unquote c!"RUN a \\\n# c\nB c\n").toOption.map (·.instructions.map (·.span)) =
      some [⟨0, 15⟩] := by
  decide +kernel

end Verif
