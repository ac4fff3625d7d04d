import Verif.Props.Malformed
import Verif.Props.Lines
import Verif.Props.Shift
import Verif.Props.Print
import Verif.Props.Escape

/-!
# Parts of the Dockerfile format that the parser does not know (C89)

Parser directives are comments, a byte order mark and a lone word are syntax errors, and the array form of `COPY`
is not understood.
-/

namespace Verif
open Spec

/-! ## parser directives -/

/-- `u` are blank lines and comment lines in front of `s` -/
inductive Spec.IdleLines : Str → Str → Prop
  | nil {s} : IdleLines [] s
  | blank {w n u s} : Blanks w → LineBreak n (u ++ s) → IdleLines u s → IdleLines (w ++ n ++ u) s
  | comment {w t n u s} : Blanks w → CommentText t → LineBreak n (u ++ s) → IdleLines u s →
      IdleLines (w ++ t ++ n ++ u) s

theorem prefixed_nil (d : Dockerfile) : prefixed [] d = d := by
  have h2 : ∀ i : ArgInstruction, i.shift 0 = i := fun i => by
    have := Instruction.shift_zero (.arg i)
    simpa [Instruction.shift] using this
  have h1 := Instruction.shift_zero
  cases d
  simp [prefixed, blen, h1, h2]

theorem prefixed_prefixed (a b : Str) (d : Dockerfile) : prefixed a (prefixed b d) = prefixed (a ++ b) d := by
  have h2 : ∀ i : ArgInstruction, (i.shift (blen b)).shift (blen a) = i.shift (blen (a ++ b)) := fun i => by
    have := Instruction.shift_shift (blen b) (blen a) (.arg i)
    simpa [Instruction.shift, blen_append, Nat.add_comm] using this
  have h1 : ∀ i : Instruction, (i.shift (blen b)).shift (blen a) = i.shift (blen (a ++ b)) := fun i => by
    rw [Instruction.shift_shift, blen_append, Nat.add_comm]
  simp [prefixed, h1, h2]

/-- C89: Whatever the blank lines and the comment lines at the beginning say, the rest is read as without them. -/
theorem C89_directives {unq : Unquote} {u s : Str} (h : IdleLines u s) :
    Dockerfile.parse unq (u ++ s) = (Dockerfile.parse unq s).map (prefixed u) := by
  have step : ∀ {l n u s : Str}, (Blanks l ∨ ∃ w t, l = w ++ t ∧ Blanks w ∧ CommentText t) → LineBreak n (u ++ s) →
      Dockerfile.parse unq (u ++ s) = (Dockerfile.parse unq s).map (prefixed u) →
      Dockerfile.parse unq (l ++ n ++ u ++ s) = (Dockerfile.parse unq s).map (prefixed (l ++ n ++ u)) := by
    intro l n u s hl hn ih
    rw [List.append_assoc (l ++ n), C33_blank_or_comment_line unq l n (u ++ s) hl hn, ih]
    cases Dockerfile.parse unq s with
    | error e => rfl
    | ok d => simp [Except.map, prefixed_prefixed]
  induction h with
  | nil =>
    rw [List.nil_append]
    cases Dockerfile.parse unq _ with
    | error e => rfl
    | ok d => simp [Except.map, prefixed_nil]
  | blank h1 h2 _ ih => exact step (.inl h1) h2 ih
  | comment h1 h2 h3 _ ih => exact step (.inr ⟨_, _, rfl, h1, h2⟩) h3 ih

/-- C89: Two sets of directives of the same size in front of the same text: the instructions are the same, with the
same spans. -/
theorem C89_same {unq : Unquote} {u v s : Str} (hu : IdleLines u s) (hv : IdleLines v s) (hl : blen u = blen v) :
    (Dockerfile.parse unq (u ++ s)).map (fun d => (d.instructions, d.global_args)) =
      (Dockerfile.parse unq (v ++ s)).map (fun d => (d.instructions, d.global_args)) := by
  rw [C89_directives hu, C89_directives hv]
  cases Dockerfile.parse unq s with
  | error e => rfl
  | ok d => simp [Except.map, prefixed, hl]

/-- a directive in front of a text -/
example : IdleLines (c!"# escape=`" ++ ['\n'] ++ []) c!"FROM a" :=
  .comment (w := []) (fun c h => by cases h) ⟨c!" escape=`", rfl, by decide⟩ (.inl rfl) .nil

/-- The directive says that a backtick continues a line.  The second line is read as an instruction of its own. -/
example : (match Dockerfile.parse Enquote.unquote c!"# escape=`\nFROM a\nRUN b `\nCMD c" with
    | .ok d => d.instructions.map (·.span)
    | .error _ => []) = [⟨11, 17⟩, ⟨18, 25⟩, ⟨26, 31⟩] := by
  decide +kernel

/-- and a backslash still continues it -/
example : (match Dockerfile.parse Enquote.unquote c!"# escape=`\nFROM a\nRUN b \\\nCMD c" with
    | .ok d => d.instructions.map (·.span)
    | .error _ => []) = [⟨11, 17⟩, ⟨18, 31⟩] := by
  decide +kernel

/-! ## lines that are rejected -/

/-- C89: After well-formed lines, `ps`, a line that starts with a character that is neither a letter nor a hash is a
syntax error. -/
theorem C89_start {unq : Unquote} {ps : List (Src.Line × Str)} {w t : Str} {c : Char} (hps : Src.PreFits ps (w ++ c :: t))
    (hw : Blanks w) (h1 : c ≠ ' ' ∧ c ≠ '\t' ∧ c ≠ '\n' ∧ c ≠ '\r' ∧ c ≠ '#') (h2 : ¬ IsAlpha c) :
    Dockerfile.parse unq (Src.preText ps ++ (w ++ c :: t)) = .error (.err .parseError) :=
  (C81_document unq _).2 ⟨ps, _, rfl, hps, w, _, rfl, hw, .start h1.1 h1.2.1 h1.2.2.1 h1.2.2.2.1 h1.2.2.2.2 h2⟩

/-- C89: A text with a byte order mark at its beginning is a syntax error, whatever comes after it. -/
theorem C89_byte_order_mark (unq : Unquote) (t : Str) :
    Dockerfile.parse unq ('\uFEFF' :: t) = .error (.err .parseError) :=
  C89_start (ps := []) (w := []) trivial (fun c h => by cases h) (by decide)
    (fun h => absurd h (by unfold IsAlpha; decide))

/-- C89: After well-formed lines, a word that is alone in its line, as at the end of a here-document, is a syntax
error, even if it is a keyword. -/
theorem C89_lone_word {unq : Unquote} {ps : List (Src.Line × Str)} {w x r : Str} (hps : Src.PreFits ps (w ++ (x ++ r)))
    (hw : Blanks w) (h1 : x ≠ []) (h2 : ∀ c ∈ x, IsAlpha c) (hr : Src.Eol r) :
    Dockerfile.parse unq (Src.preText ps ++ (w ++ (x ++ r))) = .error (.err .parseError) :=
  (C81_document unq _).2 ⟨ps, _, rfl, hps, w, _, rfl, hw, .word h1 h2 hr⟩

theorem parseLines_error {unq : Unquote} {y : Str} (h : Dockerfile.parse unq y = .error (.err .parseError)) :
    ∀ (ys : List Str) (x : Str), y ∈ x :: ys → parseLines unq x ys = .error (.err .parseError) := by
  intro ys
  induction ys with
  | nil =>
    intro x hy
    obtain rfl : y = x := by simpa using hy
    exact h
  | cons z ys ih =>
    intro x hy
    rw [parseLines]
    rcases List.mem_cons.1 hy with rfl | hy
    · rw [h]
      cases parseLines unq z ys with
      | ok d => rfl
      | error e => unfold joinResults; split <;> simp_all
    · rw [ih z hy]
      cases Dockerfile.parse unq x with
      | ok d => rfl
      | error e => simp [joinResults]

/-- C89: A here-document: the line `RUN <<word`, lines `ys` that can stand for themselves, and the word alone in its
line.  The text is rejected. -/
theorem C89_heredoc (unq : Unquote) {word : Str} {ys zs : List Str} (h0 : word ≠ []) (h1 : ∀ c ∈ word, IsAlpha c)
    (hy : ∀ y ∈ ys ++ zs, PlainLine y) :
    Dockerfile.parse unq (unlines (c!"RUN <<" ++ word) (ys ++ word :: zs)) = .error (.err .parseError) := by
  have hp : ∀ u : Str, (∀ c ∈ u, c ≠ '\\' ∧ c ≠ '#' ∧ c ≠ '"' ∧ c ≠ '\'' ∧ c ≠ '\n' ∧ c ≠ '\r') → PlainLine (u ++ word) := by
    intro u hu
    refine .inr (.inr fun c hc => ?_)
    rcases List.mem_append.1 hc with hc | hc
    · exact hu c hc
    · have h2 := h1 c hc
      refine ⟨?_, ?_, ?_, ?_, ?_, ?_⟩ <;> (rintro rfl; exact absurd h2 (by unfold IsAlpha; decide))
  rw [C48_line_by_line unq _ _ fun y hy' => ?_]
  · refine parseLines_error (y := word) ?_ _ _ (by simp)
    have := C89_lone_word (unq := unq) (ps := []) (w := []) (x := word) (r := []) trivial (fun c h => by cases h) h0 h1
      (fun c b e => by cases e)
    simpa [Src.preText] using this
  · have hy' := List.dropLast_subset _ hy'
    rcases List.mem_cons.1 hy' with rfl | hy'
    · exact hp _ (by decide)
    · rcases List.mem_append.1 hy' with h | h
      · exact hy y (List.mem_append_left _ h)
      · rcases List.mem_cons.1 h with rfl | h
        · exact hp [] (fun c h => by cases h)
        · exact hy y (List.mem_append_right _ h)

example : Dockerfile.parse Enquote.unquote c!"RUN <<EOF\necho a b\nEOF\n" = .error (.err .parseError) :=
  C89_heredoc Enquote.unquote (word := c!"EOF") (ys := [c!"echo a b"]) (zs := [[]]) (by decide)
    (fun c h => isAlpha_iff.1 ((by decide : ∀ c ∈ c!"EOF", isAlpha c = true) c h))
    (fun y hy => by
      rcases List.mem_cons.1 hy with rfl | hy
      · exact .inr (.inr (by decide))
      · obtain rfl : y = [] := by simpa using hy
        exact .inl .nil)

/-- a byte order mark in the second line, and a keyword alone -/
example : Dockerfile.parse Enquote.unquote c!"FROM a\n\uFEFFRUN b" = .error (.err .parseError) ∧
    Dockerfile.parse Enquote.unquote c!"FROM a\n RUN\n" = .error (.err .parseError) := by
  have hl : ∀ z, Src.PreFits [(⟨[], .from c!"FROM" [] [' '] c!"a" none, []⟩, ['\n'])] z := fun z => by
    refine ⟨⟨.nil, ⟨by decide, trivial, ⟨by decide, .blank (.inl rfl) (.nil ?_)⟩, by decide, ?_, fun x e => by cases e⟩, .nil⟩,
      .inl rfl, trivial⟩
    · rintro (⟨c, t, e, h⟩ | ⟨w, n, t, e, -⟩) <;> cases e
      exact absurd h (by decide)
    · intro c h
      obtain rfl : c = 'a' := by simpa using h
      unfold IsImageChar IsAlpha IsDigit; decide
  exact ⟨C89_start (ps := [_]) (w := []) (hl _) .nil (by decide) (fun h => absurd h (by unfold IsAlpha; decide)),
    C89_lone_word (ps := [_]) (w := [' ']) (x := c!"RUN") (r := ['\n']) (hl _) (by unfold Blanks; decide) (by decide)
      (fun c h => isAlpha_iff.1 ((by decide : ∀ c ∈ c!"RUN", isAlpha c = true) c h)) (fun c b e => by cases e; exact .inl rfl)⟩

/-! ## the array form of `COPY` -/

theorem src_word {w r : Str} (h : WordText w) (hr : EndsWord r) : Src.Word w r :=
  Src.word_iff.2 ⟨h.1, word_run h hr⟩

theorem src_gap {w r : Str} (h : Src.Word w r) : Src.Gap [' '] (w ++ r) :=
  ⟨by simp, .blank (.inl rfl) (.nil fun hs => h.2.1 [] w rfl h.1 (.inr hs))⟩

/-- white space -/
def spaceChar (c : Char) : Bool := c = ' ' ∨ c = '\t' ∨ c = '\n' ∨ c = '\r'

theorem gap_count {g r : Str} (h : Src.Gap g r) : 1 ≤ g.countP spaceChar := by
  obtain ⟨hne, hs⟩ := h
  cases hs with
  | nil => exact absurd rfl hne
  | blank hc => rcases hc with rfl | rfl <;> simp [spaceChar]
  | continuation hw hn =>
    rcases hn with rfl | rfl | ⟨rfl, -⟩ <;> simp [List.countP_append, spaceChar] <;> omega

theorem word_count {w : Str} (h : NoSpace w) : w.countP spaceChar = 0 := by
  rw [List.countP_eq_zero]
  intro c hc
  have := h c hc
  simp [spaceChar, this]

/-- `COPY` with only one argument does not start as it should. -/
theorem copy_begins {w : Str} (h : NoSpace w) : ¬ Src.Begins c!"copy" (' ' :: w) := by
  intro hb
  unfold Src.Begins at hb
  rw [if_neg (by decide), if_neg (by decide), if_pos rfl] at hb
  obtain ⟨fs, a, b, r, e, -, ha, hb, -⟩ := hb
  have h1 := gap_count ha.1
  have h2 := gap_count hb.1
  have h3 : (' ' :: w).countP spaceChar = 1 := by
    rw [List.countP_cons, word_count h]; rfl
  rw [e] at h3
  simp only [Src.Arg.text, List.countP_append] at h3
  omega

/-- C89: `COPY` with a single argument, as in `COPY ["a","b"]`, is taken for an unknown instruction. -/
theorem C89_copy_one_word {unq : Unquote} {w : Str} (h : NoSpace w) (hc : ∀ r, w ≠ '#' :: r) :
    ∃ b : BreakableString, Dockerfile.parse unq (c!"COPY " ++ w) = .ok (oneInstruction (c!"COPY " ++ w)
        (.misc { span := ⟨0, blen (c!"COPY " ++ w)⟩, instruction := ⟨⟨0, 4⟩, c!"COPY"⟩, arguments := b })) ∧
      b.span = ⟨4, blen (c!"COPY " ++ w)⟩ ∧ b.display = ' ' :: w := by
  have hns : ∀ c ∈ ' ' :: w, c ≠ '\n' ∧ c ≠ '\r' := by
    intro c hc
    rcases List.mem_cons.1 hc with rfl | hc
    · decide
    · exact (h c hc).2.2
  have hfit : Src.DocFits ⟨[], .misc c!"COPY" (.last (' ' :: w)), []⟩ [] := by
    refine ⟨.nil, ⟨by decide, fun c h => isAlpha_iff.1 ((by decide : ∀ c ∈ c!"COPY", isAlpha c = true) c h), ⟨?_, ?_⟩, ?_, ?_⟩, .nil⟩
    · refine ⟨by simp, hns, fun a b e _ => ?_, fun u v hu => ?_⟩
      · rintro ⟨u, n, t, e2, -, hn⟩
        have h2 : ∀ c ∈ n, c ≠ '\n' ∧ c ≠ '\r' := fun c hc => hns c (by
          rw [e, List.mem_append]
          replace e2 : b ++ [] = _ := e2
          exact .inr (by rw [List.append_nil] at e2; rw [e2]; simp [hc]))
        rcases hn with rfl | rfl | ⟨rfl, -⟩
        · exact (h2 '\n' (by simp)).1 rfl
        · exact (h2 '\n' (by simp)).1 rfl
        · exact (h2 '\r' (by simp)).2 rfl
      · intro e
        replace e : ' ' :: w ++ [] = _ := e
        rw [List.append_nil] at e
        rcases u with _ | ⟨d, u⟩
        · cases e
        · injection e with _ e
          rcases u with _ | ⟨d, u⟩
          · exact hc _ e
          · have h3 := h d (by rw [e]; simp)
            rcases hu d (by simp) with h4 | h4
            · exact h3.1 h4
            · exact h3.2.1 h4
    · exact fun c b e => by cases e
    · intro c b e h'
      cases e
      exact absurd h' (by unfold IsAlpha; decide)
    · intro _
      rw [show lower c!"COPY" = c!"copy" by decide, Src.Shell.text, List.append_nil, List.append_nil]
      exact copy_begins h
  have ht : Src.docText ⟨[], .misc c!"COPY" (.last (' ' :: w)), []⟩ [] = c!"COPY " ++ w := by
    simp [Src.docText, Src.Line.text, Src.Item.text, Src.Shell.text]
  have := C51_fits (unq := unq) hfit
  rw [ht] at this
  have hi : Src.Item.eval unq (0 + blen []) (.misc c!"COPY" (.last (' ' :: w))) = .ok (some
      (.misc { span := ⟨0, blen (c!"COPY " ++ w)⟩, instruction := ⟨⟨0, 4⟩, c!"COPY"⟩
               arguments := Src.Shell.string 4 (.last (' ' :: w)) })) := by
    rw [show 0 + blen [] = 0 from rfl]
    simp only [Src.Item.eval, Src.Item.text, Src.Shell.text, Nat.zero_add]
    rfl
  refine ⟨Src.Shell.string 4 (.last (' ' :: w)), ?_, ?_, ?_⟩
  · rw [this, Src.evalDoc, hi]; rfl
  · simp only [Src.Shell.string, Src.Shell.text, Span.mk.injEq, true_and]
    rw [show c!"COPY " ++ w = c!"COPY" ++ ' ' :: w from rfl, blen_append]; rfl
  · simp [Src.Shell.string, Src.Shell.components, BreakableString.display]

theorem argsText_ends (ws : List Str) : EndsWord (Src.argsText (ws.map (⟨[' '], ·⟩))) := by
  cases ws with
  | nil => exact fun c b e => by cases e
  | cons w ws =>
    intro c b e
    cases e
    simp [startsArgWs, isBlank]

theorem args_fit : ∀ {ws : List Str}, (∀ w ∈ ws, WordText w) → Src.ArgsFit (ws.map (⟨[' '], ·⟩)) [] := by
  intro ws
  induction ws with
  | nil => exact fun _ => trivial
  | cons w ws ih =>
    intro h
    have hw := src_word (h w (by simp)) (argsText_ends ws)
    refine ⟨⟨?_, ?_⟩, ih fun x hx => h x (by simp [hx])⟩
    · rw [List.append_nil]; exact src_gap hw
    · rw [List.append_nil]; exact hw

theorem read_plain' {unq : Unquote} {w : Str} (h : ¬ StartsQuoted w) : Src.read unq w = .ok w := by
  obtain _ | ⟨c, r⟩ := w
  · rfl
  · exact if_neg fun hc => h ⟨c, r, rfl, hc⟩

theorem evalArgs_plain {unq : Unquote} : ∀ {ws : List Str} (p : Nat), (∀ w ∈ ws, ¬ StartsQuoted w) →
    ∃ xs, Src.evalArgs unq p (ws.map (⟨[' '], ·⟩)) = .ok xs := by
  intro ws
  induction ws with
  | nil => exact fun _ _ => ⟨[], rfl⟩
  | cons w ws ih =>
    intro p h
    obtain ⟨xs, hx⟩ := ih (p + blen (Src.Arg.text ⟨[' '], w⟩)) fun x hx => h x (by simp [hx])
    simp only [List.map_cons, Src.evalArgs, Src.Arg.eval, read_plain' (h w (by simp)), hx]
    exact ⟨_, rfl⟩

/-- C89: `COPY` with a last argument that starts with a quote and ends with something else, as in `COPY ["a", "b"]`,
is an error. -/
theorem C89_copy_array {ws : List Str} {q : Char} {v : Str} (hne : ws ≠ []) (hws : ∀ w ∈ ws, PlainWord w)
    (hf : ∀ w r, ws = w :: r → ∀ t, w ≠ '-' :: t) (hq : q = '"' ∨ q = '\'') (hv : WordText (q :: v))
    (hv' : v ≠ []) (hl : v.getLast? ≠ some q) :
    Dockerfile.parse Enquote.unquote (copyLine [] ws (q :: v)) = .error (.err (.unescape .unmatchedQuotes)) := by
  have hfit : Src.DocFits ⟨[], .copy c!"COPY" [] (ws.map (⟨[' '], ·⟩)) ⟨[' '], q :: v⟩, []⟩ [] := by
    refine ⟨.nil, ⟨by decide, trivial, by simpa using hne, ?_, ?_⟩, .nil⟩
    · have := args_fit (ws := ws ++ [q :: v]) (fun w hw => by
        rcases List.mem_append.1 hw with hw | hw
        · exact (hws w hw).1
        · obtain rfl : w = q :: v := by simpa using hw
          exact hv)
      simpa using this
    · intro f b e
      obtain _ | ⟨w, ws⟩ := ws
      · cases e
      · injection e with e1 e2
        subst e1
        rintro ⟨n, u, r, e3, -⟩
        have h1 := (hws w (by simp)).1.1
        obtain _ | ⟨c, t⟩ := w
        · exact h1 rfl
        · injection e3 with e3
          exact hf _ _ rfl t (by rw [e3])
  have ht : Src.docText ⟨[], .copy c!"COPY" [] (ws.map (⟨[' '], ·⟩)) ⟨[' '], q :: v⟩, []⟩ [] = copyLine [] ws (q :: v) := by
    have : Src.argsText (ws.map (⟨[' '], ·⟩)) = plainWords ws := by
      simp [Src.argsText, plainWords, Src.Arg.text, List.flatMap_map]
    simp [Src.docText, Src.Line.text, Src.Item.text, Src.flagsText, copyLine, plainFlags, this, Src.Arg.text]
  have h := C51_fits (unq := Enquote.unquote) hfit
  rw [ht] at h
  rw [h]
  obtain ⟨xs, hx⟩ := evalArgs_plain (unq := Enquote.unquote) (ws := ws) 4 fun w hw => (hws w hw).2
  have hr : Src.read Enquote.unquote (q :: v) = .error (.err (.unescape .unmatchedQuotes)) := by
    obtain _ | ⟨c, t⟩ := v
    · exact absurd rfl hv'
    · have : q = '"' ∨ q = '\'' ∨ q = '`' := by rcases hq with h | h <;> simp [h]
      simp [Src.read, this, Src.unquoted, Enquote.unquote, hl]
  have hi : Src.Item.eval Enquote.unquote (0 + blen []) (.copy c!"COPY" [] (ws.map (⟨[' '], ·⟩)) ⟨[' '], q :: v⟩) =
      .error (.err (.unescape .unmatchedQuotes)) := by
    simp only [Src.Item.eval, Src.evalFlags, Src.Arg.eval, hr]
    rw [show 0 + blen [] + blen c!"COPY" + blen (Src.flagsText []) = 4 from rfl, hx]
    rfl
  rw [Src.evalDoc, hi]; rfl

/-- the two ways to write the array -/
example : ∃ b : BreakableString, Dockerfile.parse Enquote.unquote (c!"COPY " ++ c!"[\"a\",\"b\"]") =
    .ok (oneInstruction (c!"COPY " ++ c!"[\"a\",\"b\"]")
      (.misc { span := ⟨0, blen (c!"COPY " ++ c!"[\"a\",\"b\"]")⟩, instruction := ⟨⟨0, 4⟩, c!"COPY"⟩, arguments := b })) ∧
    b.span = ⟨4, blen (c!"COPY " ++ c!"[\"a\",\"b\"]")⟩ ∧ b.display = ' ' :: c!"[\"a\",\"b\"]" :=
  C89_copy_one_word (by unfold NoSpace; decide) (fun r e => by cases e)

example : Dockerfile.parse Enquote.unquote c!"COPY [\"a\", \"b\"]" = .error (.err (.unescape .unmatchedQuotes)) :=
  C89_copy_array (ws := [c!"[\"a\","]) (q := '"') (v := c!"b\"]") (by decide)
    (fun w hw => by
      obtain rfl : w = c!"[\"a\"," := by simpa using hw
      exact ⟨⟨by decide, by unfold NoSpace; decide, by decide⟩, fun ⟨c, r, e, hc⟩ => by
        cases e; exact absurd hc (by unfold QuoteChar; decide)⟩)
    (fun w r e t e' => by cases e; cases e') (.inl rfl) ⟨by decide, by unfold NoSpace; decide, by decide⟩ (by decide) (by decide)

end Verif
