import Verif.Proof.LogicalDoc
import Verif.Props.Source

/-!
# A reader that works line by line (C88)

`/repo/src/util.rs:177-204`: formatted text is "on a single line with line continuations removed", as Docker reads it.
`Spec/Logical` is a reader that works line by line and knows nothing of instructions.  Documents whose items are tidy
(texts in quotes have a backslash before each line break; shell text does not begin with a comment, nor end with one or
with a blank line) are cut alike by both, and the words are the same.  Other documents are not: see the witnesses.
-/

namespace Verif
open Spec Logical

/-- C88: the logical lines are the lines of the document, and each of them on a single line has exactly the words of
the item. -/
theorem C88_lines {l : Src.Line} {ms : List (Str × Src.Line)} (h : Src.DocFits l ms)
    (ht : ∀ m ∈ linesOf l ms, itemTidy m.item) : AreLines (groups false (rows (Src.docText l ms))) l ms :=
  doc_lines h ht

/-- C88: the logical lines other than blank lines and comments are one by one the instructions; shell text is
formatted as it is read on a single line. -/
theorem C88_instructions {unq : Unquote} {l : Src.Line} {ms : List (Str × Src.Line)} {d : Dockerfile}
    (h : Src.DocFits l ms) (ht : ∀ m ∈ linesOf l ms, itemTidy m.item)
    (hp : Dockerfile.parse unq (Src.docText l ms) = .ok d) :
    Placed 0 (groups false (rows (Src.docText l ms))) d.instructions := by
  rw [C51_fits h] at hp
  cases he : Src.evalDoc unq 0 l ms with
  | error e => rw [he] at hp; cases hp
  | ok is =>
    rw [he] at hp
    cases hp
    exact placed_number 0 (doc_placed h (C88_lines h ht) he)

/-- C88: there are as many instructions as logical lines. -/
theorem C88_count {gs : List (List Row)} : ∀ {p : Nat} {is : List Instruction}, Placed p gs is →
    is.length = (gs.filter fun g => !isNoise g).length := by
  induction gs with
  | nil =>
    intro p is h
    have : is = [] := h
    subst this
    rfl
  | cons g gs ih =>
    intro p is h
    unfold Placed at h
    split at h
    · rename_i hn
      rw [ih h, List.filter_cons_of_neg (by simp [hn])]
    · rename_i hn
      obtain ⟨i, is', rfl, -, h2⟩ := h
      rw [List.filter_cons_of_pos (by simpa using hn), List.length_cons, List.length_cons, ih h2]

/-! ## plain documents -/

namespace Logical

theorem not_quoted {t : Str} (h : Ordinary t) : ¬ QuotedText t := by
  rintro ⟨q, b, rfl, hq, -⟩
  have := h q (by simp)
  rcases hq with rfl | rfl
  · exact this.2.1 rfl
  · exact this.2.2.1 rfl

theorem Ordinary.left {a b : Str} (h : Ordinary (a ++ b)) : Ordinary a := fun c hc => h c (by simp [hc])
theorem Ordinary.right {a b : Str} (h : Ordinary (a ++ b)) : Ordinary b := fun c hc => h c (by simp [hc])
theorem Ordinary.tail {c : Char} {b : Str} (h : Ordinary (c :: b)) : Ordinary b := fun d hd => h d (by simp [hd])

theorem value_one {v : Src.Value} {R : Str} (h : v.Fits R) (ho : Ordinary v.text) : OneLine v.text := by
  cases v with
  | quoted t => exact absurd h (not_quoted ho)
  | bare t => exact word_one h.2

theorem name_one {v : Src.Value} {R : Str} (h : v.FitsName R) (ho : Ordinary v.text) : OneLine v.text := by
  cases v with
  | quoted t => exact absurd h (not_quoted ho)
  | bare t =>
    exact fun c hc => ⟨fun e => h.2.2.1 c hc (by subst e; simp [Src.EndsName]), fun e => h.2.2.1 c hc (by subst e; simp [Src.EndsName])⟩

theorem shell_ordinary {s : Src.Shell} {R : Str} (h : s.Fits R) (ho : Ordinary s.text) : shellTidy s := by
  cases s with
  | last t => trivial
  | lastComment w t n =>
    obtain ⟨b, rfl, -⟩ := h.2.1
    exact (ho '#' (by simp [Src.Shell.text])).2.2.2 rfl
  | more t w n s => exact absurd rfl (ho '\\' (by simp [Src.Shell.text])).1
  | comment w t n s =>
    obtain ⟨b, rfl, -⟩ := h.2.1
    exact (ho '#' (by simp [Src.Shell.text])).2.2.2 rfl

theorem pairs_ordinary {F : Src.Pair → Str → Prop} (hF : ∀ p R, F p R → Ordinary p.body → OneLine p.body) {R : Str} :
    ∀ {ps : List Src.Pair}, Src.PairsFit F ps R → Ordinary (Src.pairsText ps) → ∀ p ∈ ps, carried p.body = true := by
  intro ps
  induction ps with
  | nil => intro _ _ p hp; cases hp
  | cons q ps ih =>
    intro h ho p hp
    have ho' : Ordinary ((q.gap ++ q.body) ++ Src.pairsText ps) := ho
    rcases List.mem_cons.1 hp with rfl | hp
    · exact (hF _ _ h.1 ho'.left.right).carried
    · exact ih h.2 ho'.right p hp

theorem item_ordinary {i : Src.Item} {R : Str} (h : i.Fits R) (ho : Ordinary i.text) : itemTidy i := by
  cases i with
  | blank => trivial
  | comment t => trivial
  | «from» kw fs g im a => trivial
  | copy kw fs ss d => trivial
  | arg kw g n v =>
    obtain ⟨-, -, ⟨c, b, rfl, hc, hb⟩, h4⟩ := h
    have ho' : Ordinary (Src.valueText v) := (Ordinary.right (Ordinary.right (Ordinary.right ho)))
    refine OneLine.carried (OneLine.append ?_ ?_)
    · exact (over_word word_plain (w := c :: b) (by simp) (fun d hd => by
        rcases List.mem_cons.1 hd with rfl | hd
        · exact .inl hc
        · exact hb d hd)).2.1
    · cases v with
      | none => exact fun c hc => by cases hc
      | some v => exact .cons (by decide) (by decide) (value_one (h4 v rfl) ho'.tail)
  | label kw ps t =>
    refine pairs_ordinary ?_ h.2.1 (Ordinary.left (Ordinary.right ho))
    intro p R h ho
    exact OneLine.append (name_one h.2.1 ho.left) (.cons (by decide) (by decide) (value_one h.2.2 ho.right.tail))
  | label1 kw g n g' v =>
    obtain ⟨-, -, h3, -, h5⟩ := h
    have h1 : Ordinary (n.text ++ (g' ++ v.text)) := Ordinary.right (Ordinary.right ho)
    exact ⟨(name_one h3 h1.left).carried, (value_one h5 h1.right.right).carried⟩
  | shell k kw g s => exact shell_ordinary h.2.2.1 (Ordinary.right (Ordinary.right ho))
  | exec k kw g a =>
    have ha : Ordinary a.text := Ordinary.right (Ordinary.right ho)
    cases a with
    | empty => trivial
    | full g' v es c g2 =>
      exact absurd h.2.2.2.1 (not_quoted (Ordinary.left (Ordinary.right ha.tail)))
  | env kw ps t =>
    refine pairs_ordinary ?_ h.2.1 (Ordinary.left (Ordinary.right ho))
    intro p R h ho
    refine OneLine.append ?_ (.cons (by decide) (by decide) (value_one h.2.2 ho.right.tail))
    obtain ⟨n, e, h1, h2⟩ := h.2.1
    rw [e]
    exact (over_word word_plain h1 h2).2.1
  | env1 kw g n g' s => exact shell_ordinary h.2.2.2.2.2.1 (Ordinary.right (Ordinary.right (Ordinary.right (Ordinary.right ho))))
  | env1q kw g n g' v =>
    exact absurd h.2.2.2.2.2 (not_quoted (Ordinary.right (Ordinary.right (Ordinary.right (Ordinary.right ho)))))
  | misc w a => exact shell_ordinary h.2.2.1 (Ordinary.right ho)

theorem lines_ordinary {ms : List (Str × Src.Line)} : ∀ {l : Src.Line}, Src.DocFits l ms → Ordinary (Src.docText l ms) →
    ∀ m ∈ linesOf l ms, itemTidy m.item := by
  induction ms with
  | nil =>
    intro l h ho m hm
    have : m = l := by simpa [linesOf] using hm
    subst this
    exact item_ordinary h.2.1 (Ordinary.left (Ordinary.right ho))
  | cons k ms ih =>
    obtain ⟨n, k⟩ := k
    intro l h ho m hm
    have ho' : Ordinary (l.text ++ (n ++ Src.docText k ms)) := ho
    rcases List.mem_cons.1 hm with rfl | hm
    · exact item_ordinary h.1.2.1 (Ordinary.left (Ordinary.right ho'.left))
    · exact ih h.2.2 ho'.right.right m hm

end Logical

/-- C88: in a document without backslashes, quotes and number signs every line that is not blank is an instruction, and
there are no others. -/
theorem C88_plain {unq : Unquote} {s : Str} {d : Dockerfile} (ho : Ordinary s) (hp : Dockerfile.parse unq s = .ok d) :
    Placed 0 (groups false (rows s)) d.instructions := by
  obtain ⟨l, ms, is, hf, rfl, -⟩ := C51_accepted.1 hp
  exact C88_instructions hf (lines_ordinary hf ho) hp

/-! ## where the two readers differ -/

/-- the reader of C88 finds other instructions than the library -/
def Differs (s : Str) : Prop :=
  ∃ unq d, Dockerfile.parse unq s = .ok d ∧ ¬ Placed 0 (groups false (rows s)) d.instructions

def parsedCount (s : Str) : Option Nat :=
  match Dockerfile.parse (fun t => .ok t) s with
  | .ok d => some d.instructions.length
  | .error _ => none

theorem differs_of {s : Str} {n : Nat} (h : parsedCount s = some n)
    (hn : ((groups false (rows s)).filter fun g => !isNoise g).length ≠ n) : Differs s := by
  unfold parsedCount at h
  split at h
  · rename_i d hd
    refine ⟨_, d, hd, fun hp => hn ?_⟩
    rw [← C88_count hp]
    exact Option.some.inj h
  · cases h

/-- a blank line after a continuation in shell text ends the instruction -/
theorem C88_blank_line : Differs c!"RUN a \\\n  \nRUN b" := differs_of (n := 2) (by decide +kernel) (by decide +kernel)

/-- likewise after a comment -/
theorem C88_comment_line : Differs c!"RUN a \\\n# c\n\nRUN b" := differs_of (n := 2) (by decide +kernel) (by decide +kernel)

/-- a comment in place of the arguments of an unknown word takes in the next line -/
theorem C88_comment_first : Differs c!"WORD #c\nRUN b" := differs_of (n := 1) (by decide +kernel) (by decide +kernel)

/-- a text in quotes may go over several lines without backslashes -/
theorem C88_quoted : Differs c!"ARG a=\"x\ny\"" := differs_of (n := 1) (by decide +kernel) (by decide +kernel)

/-- C88 does not hold of all documents. -/
theorem C88_negation : ¬ ∀ (unq : Unquote) (s : Str) (d : Dockerfile), Dockerfile.parse unq s = .ok d →
    Placed 0 (groups false (rows s)) d.instructions := by
  intro h
  obtain ⟨unq, d, h1, h2⟩ := C88_blank_line
  exact h2 (h unq _ d h1)

/-- A continuation separates words for the library, and not for the reader: two sources and a destination here, a
source and a destination there. -/
theorem C88_words : (groups false (rows c!"COPY a\\\nb c")).map joined = [c!"COPY ab c"] ∧
    ∃ d i, Dockerfile.parse (fun t => .ok t) c!"COPY a\\\nb c" = .ok d ∧ d.instructions = [.copy i] ∧
      i.sources.map (·.content) = [c!"a", c!"b"] ∧ i.destination.content = c!"c" := by
  refine ⟨by decide +kernel, ?_⟩
  have : (match Dockerfile.parse (fun t => .ok t) c!"COPY a\\\nb c" with
      | .ok d => match d.instructions with
        | [.copy i] => i.sources.map (·.content) == [c!"a", c!"b"] && i.destination.content == c!"c"
        | _ => false
      | .error _ => false) = true := by decide +kernel
  split at this
  · rename_i d hd
    split at this
    · rename_i i hi
      exact ⟨d, i, hd, hi, by simpa using this⟩
    · cases this
  · cases this

/-- likewise between the keyword and the arguments: the reader finds no `RUN` here -/
theorem C88_keyword : (groups false (rows c!"RUN\\\nfoo")).map joined = [c!"RUNfoo"] ∧ parsedCount c!"RUN\\\nfoo" = some 1 := by
  constructor <;> decide +kernel

/-! ## examples -/

/-- a document that both read alike, with comments and blank lines in continuations and a label over two lines -/
example : (groups false (rows c!"from \\\n # which\n\n a\nLABEL a=\"x \\\n y\"\n\n# c\n run b \\\n  # d\n  c \n")).map joined =
    [c!"from  a", c!"LABEL a=\"x  y\"", [], c!"# c", c!" run b   c ", []] := by decide +kernel

/-- one of the documents that C88 is about, by hand -/
example : ∃ l, Src.DocFits l [] ∧ (∀ m ∈ linesOf l [], itemTidy m.item) ∧ Src.docText l [] = c!"RUN a \\\n# c\n b" := by
  have hp : ∀ t r : Str, t ≠ [] → (∀ c ∈ t, c ≠ '\n' ∧ c ≠ '\r' ∧ c ≠ '\\') → (∀ w u, Blanks w → t ++ r ≠ w ++ '#' :: u) →
      Src.Shell.Piece t r := by
    intro t r h1 h2 h3
    refine ⟨h1, fun c hc => ⟨(h2 c hc).1, (h2 c hc).2.1⟩, ?_, h3⟩
    rintro a b rfl hb ⟨w, n, z, e, -⟩
    cases b with
    | nil => exact hb rfl
    | cons c b =>
      rw [List.cons_append] at e
      exact (h2 c (by simp)).2.2 (List.cons.inj e).1
  refine ⟨⟨[], .shell .run c!"RUN" [' '] (.more c!"a " [] ['\n'] (.comment [] c!"# c" ['\n'] (.last c!" b"))), []⟩,
    ⟨blanks_none, ⟨rfl, ⟨by simp, .blank (.inl rfl) (.nil ?_)⟩, ⟨?_, blanks_none, .inl rfl, blanks_none,
      ⟨c!" c", rfl, by decide⟩, .inl rfl, ?_, ?_⟩, ?_⟩, blanks_none⟩, ?_, rfl⟩
  · rintro (⟨c, t, e, h⟩ | ⟨w, n, t, e, -⟩)
    · cases e; revert h; decide
    · cases e
  · refine hp _ _ (by decide) (by decide) ?_
    intro w u hw e
    cases w with
    | nil => cases e
    | cons c w => exact absurd ((List.cons.inj e).1 ▸ hw c (by simp) : 'a' = ' ' ∨ 'a' = '\t') (by decide)
  · refine hp _ _ (by decide) (by decide) ?_
    intro w u hw e
    cases w with
    | nil => cases e
    | cons c w =>
      cases w with
      | nil => cases e
      | cons d w => exact absurd ((List.cons.inj (List.cons.inj e).2).1 ▸ hw d (by simp) : 'b' = ' ' ∨ 'b' = '\t') (by decide)
  · intro c b e; cases e
  · intro a r e
    cases a <;> cases e
  · intro m hm
    cases List.mem_singleton.1 hm
    show ¬ Blanks c!" b"
    intro h
    exact absurd (h 'b' (by decide)) (by decide)

example : Ordinary c!"FROM a as b\n\nRUN x\n" := by unfold Ordinary; decide

example : ∃ d, Dockerfile.parse (fun t => .ok t) c!"FROM a as b\n\nRUN x\n" = .ok d ∧
    Placed 0 (groups false (rows c!"FROM a as b\n\nRUN x\n")) d.instructions := by
  have h : parsedCount c!"FROM a as b\n\nRUN x\n" ≠ none := by decide +kernel
  unfold parsedCount at h
  split at h
  · rename_i d hd
    exact ⟨d, hd, C88_plain (by unfold Ordinary; decide) hd⟩
  · exact absurd rfl h

end Verif
