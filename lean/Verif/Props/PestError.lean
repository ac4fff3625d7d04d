import Verif.Model.PestError
import Verif.Props.PestState
import Verif.Props.Splicer
import Verif.Props.StageOrder

/-!
# C64: lines, columns and text of the error that pest reports
-/

namespace Verif
namespace Pest

open Spec

/-- The line of a position: `l` are the lines before, `m` is the part of the line before the position,
`k` the part after it, with the line feed, and `r` are the lines after. -/
structure Cut (s l m k r : Str) : Prop where
  all : s = l ++ m ++ (k ++ r)
  start : l = [] ∨ ∃ x, l = x ++ ['\n']
  before : '\n' ∉ m
  after : ('\n' ∉ k ∧ r = []) ∨ ∃ x, k = x ++ ['\n'] ∧ '\n' ∉ x

/-- every position has one -/
theorem cut_exists (a b : Str) : ∃ l m k r, Cut (a ++ b) l m k r ∧ a = l ++ m ∧ b = k ++ r := by
  obtain ⟨l, m, rfl, h1, h2⟩ := C26_lines_exist a
  have : ∃ k r, b = k ++ r ∧ (('\n' ∉ k ∧ r = []) ∨ ∃ x, k = x ++ ['\n'] ∧ '\n' ∉ x) := by
    induction b with
    | nil => exact ⟨[], [], rfl, .inl ⟨by simp, rfl⟩⟩
    | cons c b ih =>
      by_cases hc : c = '\n'
      · subst hc
        exact ⟨['\n'], b, rfl, .inr ⟨[], rfl, by simp⟩⟩
      · obtain ⟨k, r, rfl, h⟩ := ih
        refine ⟨c :: k, r, rfl, ?_⟩
        rcases h with ⟨h, e⟩ | ⟨x, e, h⟩
        · exact .inl ⟨by simpa using ⟨Ne.symm hc, h⟩, e⟩
        · exact .inr ⟨c :: x, by rw [e]; rfl, by simpa using ⟨Ne.symm hc, h⟩⟩
  obtain ⟨k, r, rfl, h⟩ := this
  exact ⟨l, m, k, r, ⟨rfl, h1, h2, h⟩, rfl, rfl⟩

/-! ## `line_col` -/

/-- one character further -/
def lcStep (x : Nat × Nat) (c : Char) : Nat × Nat := if c = '\n' then (x.1 + 1, 1) else (x.1, x.2 + 1)

theorem lineColLoop_zero (s : Str) (x : Nat × Nat) : lineColLoop s 0 x = some x := by
  unfold lineColLoop; rfl

theorem lineColLoop_eq (n : Nat) : ∀ (s : Str) (x : Nat × Nat), s.length ≤ n →
    lineColLoop s (blen s) x = some (s.foldl lcStep x) := by
  induction n with
  | zero =>
    intro s x h
    cases s with
    | nil => exact lineColLoop_zero _ _
    | cons c s => simp at h
  | succ n ih =>
    intro s x h
    obtain ⟨l, k⟩ := x
    match s, h with
    | [], _ => exact lineColLoop_zero _ _
    | [c], _ =>
      have hp := c.utf8Size_pos
      obtain ⟨u, hu⟩ : ∃ u, c.utf8Size = u + 1 := ⟨c.utf8Size - 1, by omega⟩
      have hb : blen [c] = u + 1 := by rw [blen_cons, hu]; rfl
      rw [hb, lineColLoop]
      split
      · next hc =>
        subst hc
        cases hu
        exact lineColLoop_zero _ _
      · next hc =>
        rw [if_pos (by omega), hu, Nat.sub_self, lineColLoop_zero]
        simp [lcStep, hc]
    | c :: c' :: cs, h =>
      simp only [List.length_cons] at h
      have hp := c.utf8Size_pos
      obtain ⟨u, hu⟩ : ∃ u, c.utf8Size = u + 1 := ⟨c.utf8Size - 1, by omega⟩
      have hb : blen (c :: c' :: cs) = (u + blen (c' :: cs)) + 1 := by rw [blen_cons, hu]; omega
      rw [hb, lineColLoop]
      split
      · next hc =>
        obtain ⟨rfl, rfl⟩ := hc
        cases hu
        have h1 : blen ('\n' :: cs) = 1 + blen cs := by rw [blen_cons]; rfl
        rw [h1, if_neg (by omega), show 0 + (1 + blen cs) + 1 - 2 = blen cs by omega, ih cs _ (by omega)]
        simp [lcStep]
      · split
        · next hc =>
          subst hc
          cases hu
          rw [Nat.zero_add, ih _ _ (by simp; omega)]
          simp [lcStep]
        · next hc =>
          rw [if_pos (by omega), hu, show u + blen (c' :: cs) + 1 - (u + 1) = blen (c' :: cs) by omega,
            ih _ _ (by simp; omega)]
          simp [lcStep, hc]

theorem foldl_plain (m : Str) (h : '\n' ∉ m) : ∀ x : Nat × Nat, m.foldl lcStep x = (x.1, x.2 + m.length) := by
  induction m with
  | nil => intro x; rfl
  | cons c m ih =>
    intro x
    simp only [List.mem_cons, not_or] at h
    rw [List.foldl_cons, ih h.2, lcStep, if_neg (Ne.symm h.1)]
    simp; omega

theorem foldl_fst (m : Str) : ∀ x : Nat × Nat, (m.foldl lcStep x).1 = x.1 + m.count '\n' := by
  induction m with
  | nil => intro x; rfl
  | cons c m ih =>
    intro x
    rw [List.foldl_cons, ih, lcStep]
    split
    · next h => subst h; simp; omega
    · next h => simp [h]

/-- C64: the line is one more than the number of line feeds before the position, the column one more
than the number of characters on that line before it. -/
theorem lineCol_cut {s l m k r : Str} (h : Cut s l m k r) :
    lineCol s (blen (l ++ m)) = some (1 + l.count '\n', 1 + m.length) := by
  rw [lineCol, h.all, splitAtByte_append]
  simp only [Option.bind_some]
  rw [lineColLoop_eq _ _ _ (Nat.le_refl _), List.foldl_append, foldl_plain m h.before]
  congr 1
  refine Prod.ext (foldl_fst l _) ?_
  have : (l.foldl lcStep (1, 1)).2 = 1 := by
    rcases h.start with rfl | ⟨x, rfl⟩
    · rfl
    · rw [List.foldl_append]; rfl
  exact congrArg (· + m.length) this

/-! ## `line_of` -/

theorem charIndices_append (a b : Str) : ∀ i, charIndices i (a ++ b) = charIndices i a ++ charIndices (i + blen a) b := by
  induction a with
  | nil => intro i; rfl
  | cons c a ih =>
    intro i
    rw [List.cons_append, charIndices, ih, charIndices, blen_cons, Nat.add_assoc]; rfl

theorem charIndices_range (a : Str) : ∀ i, ∀ x ∈ charIndices i a, i ≤ x.1 ∧ x.1 < i + blen a ∧ x.2 ∈ a := by
  induction a with
  | nil => intro i x h; cases h
  | cons c a ih =>
    intro i x h
    have hp := c.utf8Size_pos
    rw [charIndices] at h
    rw [blen_cons]
    rcases List.mem_cons.1 h with rfl | h
    · exact ⟨Nat.le_refl _, by simp only; omega, .head _⟩
    · obtain ⟨h1, h2, h3⟩ := ih _ x h
      exact ⟨by omega, by omega, .tail _ h3⟩

theorem dropWhile_all {α : Type} (f : α → Bool) (a b : List α) (h : ∀ x ∈ a, f x = true) :
    (a ++ b).dropWhile f = b.dropWhile f := by
  induction a with
  | nil => rfl
  | cons x a ih =>
    rw [List.cons_append, List.dropWhile_cons_of_pos (h x (.head _)), ih fun y hy => h y (.tail _ hy)]

theorem dropWhile_none {α : Type} (f : α → Bool) (a : List α) (h : ∀ x ∈ a, f x = false) : a.dropWhile f = a := by
  cases a with
  | nil => rfl
  | cons x a => rw [List.dropWhile_cons_of_neg]; rw [h x (.head _)]; decide

theorem find_newline_none (a : Str) (i : Nat) (h : '\n' ∉ a) : (charIndices i a).find? (fun x => x.2 = '\n') = none := by
  rw [List.find?_eq_none]
  intro x hx e
  exact h (by rw [← of_decide_eq_true e]; exact (charIndices_range a i x hx).2.2)

theorem lineStart_cut {s l m k r : Str} (h : Cut s l m k r) : findLineStart s (blen (l ++ m)) = blen l := by
  unfold findLineStart
  split
  · next e =>
    have := h.all
    rw [e] at this
    simp only [List.nil_eq, List.append_eq_nil_iff] at this
    rw [this.1.1]; rfl
  · rw [h.all, charIndices_append, Nat.zero_add, List.reverse_append, dropWhile_all, dropWhile_none]
    · rw [charIndices_append, List.reverse_append, List.find?_append]
      have h1 : ((charIndices (0 + blen l) m).reverse.find? fun x => x.2 = '\n') = none := by
        rw [List.find?_eq_none]
        intro x hx e
        exact h.before (by
          rw [← of_decide_eq_true e]; exact (charIndices_range m _ x (List.mem_reverse.1 hx)).2.2)
      rw [h1]
      rcases h.start with rfl | ⟨x, rfl⟩
      · rfl
      · rw [charIndices_append, List.reverse_append, blen_append]
        simp [charIndices, blen_cons]
        rfl
    · intro x hx
      have := (charIndices_range _ _ x (List.mem_reverse.1 hx)).2.1
      simp only [decide_eq_true_eq, decide_eq_false_iff_not]; omega
    · intro x hx
      have := (charIndices_range _ _ x (List.mem_reverse.1 hx)).1
      simpa using this

theorem lineEnd_cut {s l m k r : Str} (h : Cut s l m k r) : findLineEnd s (blen (l ++ m)) = blen (l ++ m ++ k) := by
  have hall : ∀ t : Str, t = [] → blen t = 0 := by rintro _ rfl; rfl
  unfold findLineEnd
  split
  · next e =>
    have := h.all
    rw [e] at this
    simp only [List.nil_eq, List.append_eq_nil_iff] at this
    obtain ⟨⟨rfl, rfl⟩, rfl, rfl⟩ := this
    rfl
  next hne =>
  split
  · next e =>
    -- one character is left
    have hb : blen s = blen (l ++ m) + blen (k ++ r) := by rw [h.all, blen_append]
    have hpos : 0 < blen s := by
      cases s with
      | nil => exact absurd rfl hne
      | cons c s => rw [blen_cons]; have := c.utf8Size_pos; omega
    have h1 : blen (k ++ r) = 1 := by omega
    have hr : r = [] := by
      rcases h.after with ⟨-, e⟩ | ⟨x, e, -⟩
      · exact e
      · cases r with
        | nil => rfl
        | cons c r =>
          rw [e] at h1
          simp only [blen_append, blen_cons] at h1
          have := c.utf8Size_pos
          have : ('\n' : Char).utf8Size = 1 := rfl
          omega
    rw [hr, List.append_nil] at hb
    rw [hb, ← blen_append]
  · rw [h.all, charIndices_append, Nat.zero_add, dropWhile_all, dropWhile_none]
    · rw [charIndices_append, List.find?_append]
      rcases h.after with ⟨h1, rfl⟩ | ⟨x, rfl, h1⟩
      · rw [find_newline_none k _ h1]
        simp [charIndices]
      · rw [charIndices_append, List.find?_append, find_newline_none x _ h1]
        simp only [charIndices, blen_append, blen_cons]
        simp
        rfl
    · intro x hx
      have := (charIndices_range _ _ x hx).1
      simp only [decide_eq_true_eq, decide_eq_false_iff_not]; omega
    · intro x hx
      have := (charIndices_range _ _ x hx).2.1
      simp only [decide_eq_true_eq, decide_eq_false_iff_not]; omega

theorem lineOf_cut {s l m k r : Str} (h : Cut s l m k r) : lineOf s (blen (l ++ m)) = some (m ++ k) := by
  have hle : blen (l ++ m) ≤ blen s := by rw [h.all, blen_append (l ++ m)]; omega
  rw [lineOf, if_neg (by omega), lineStart_cut h, lineEnd_cut h, h.all]
  have := sliceBytes_mid l (m ++ k) r
  rw [blen_append, blen_append] at *
  simpa [Nat.add_assoc] using this

/-! ## rules -/

theorem insertRule_mem (r : Rule) (l : List Rule) (x : Rule) : x ∈ insertRule r l ↔ x = r ∨ x ∈ l := by
  induction l with
  | nil => simp [insertRule]
  | cons y l ih =>
    rw [insertRule]
    split
    · simp
    · simp only [List.mem_cons, ih]
      constructor
      · rintro (h | h | h) <;> simp [h]
      · rintro (h | h | h) <;> simp [h]

theorem sortRules_mem (l : List Rule) (x : Rule) : x ∈ sortRules l ↔ x ∈ l := by
  induction l with
  | nil => rfl
  | cons r l ih => rw [sortRules, insertRule_mem, ih, List.mem_cons]

theorem insertRule_sorted (r : Rule) (l : List Rule) (h : l.Pairwise fun x y => ruleIndex x ≤ ruleIndex y) :
    (insertRule r l).Pairwise fun x y => ruleIndex x ≤ ruleIndex y := by
  induction l with
  | nil => simp [insertRule]
  | cons y l ih =>
    rw [List.pairwise_cons] at h
    rw [insertRule]
    split
    · next hle =>
      refine List.pairwise_cons.2 ⟨fun z hz => ?_, List.pairwise_cons.2 h⟩
      rcases List.mem_cons.1 hz with rfl | hz
      · exact hle
      · exact Nat.le_trans hle (h.1 z hz)
    · next hle =>
      refine List.pairwise_cons.2 ⟨fun z hz => ?_, ih h.2⟩
      rcases (insertRule_mem r l z).1 hz with rfl | hz
      · omega
      · exact h.1 z hz

theorem sortRules_sorted (l : List Rule) : (sortRules l).Pairwise fun x y => ruleIndex x ≤ ruleIndex y := by
  induction l with
  | nil => exact .nil
  | cons r l ih => exact insertRule_sorted r _ ih

theorem ruleIndex_inj (r x : Rule) (h : ruleIndex r = ruleIndex x) : r = x := by
  have key : ∀ r, ∃ n, n = ruleIndex r ∧ ((c!"EOI", Rule.EOI) :: ruleNames)[n]?.map (·.2) = some r := by
    intro r
    refine ⟨_, rfl, ?_⟩
    cases r <;> decide +kernel
  obtain ⟨n, e1, e2⟩ := key r
  obtain ⟨m, e3, e4⟩ := key x
  rw [e1, h, ← e3, e4] at e2
  exact (Option.some.inj e2).symm

theorem dedupRules_mem (l : List Rule) (x : Rule) : x ∈ dedupRules l ↔ x ∈ l := by
  fun_induction dedupRules l with
  | case1 => rfl
  | case2 => rfl
  | case3 xs r ih => rw [ih]; simp
  | case4 r y xs h ih => simp only [List.mem_cons] at ih ⊢; rw [ih]

theorem dedupRules_sorted (l : List Rule) (h : l.Pairwise fun x y => ruleIndex x ≤ ruleIndex y) :
    (dedupRules l).Pairwise fun x y => ruleIndex x < ruleIndex y := by
  fun_induction dedupRules l with
  | case1 => exact .nil
  | case2 => simp
  | case3 xs r ih => exact ih (List.pairwise_cons.1 h).2
  | case4 r y xs hne ih =>
    rw [List.pairwise_cons] at h
    refine List.pairwise_cons.2 ⟨fun z hz => ?_, ih h.2⟩
    rw [dedupRules_mem] at hz
    have h1 := h.1 y (.head _)
    have h2 : ruleIndex r ≠ ruleIndex y := fun e => hne (ruleIndex_inj _ _ e)
    have h3 : ruleIndex y ≤ ruleIndex z := by
      rcases List.mem_cons.1 hz with rfl | hz
      · exact Nat.le_refl _
      · exact (List.pairwise_cons.1 h.2).1 z hz
    omega

/-- `P` are the rules in `l` in the order of the grammar (`EOI` first), each of them once -/
def Listed (l P : List Rule) : Prop := (∀ r, r ∈ P ↔ r ∈ l) ∧ P.Pairwise fun x y => ruleIndex x < ruleIndex y

theorem listed (l : List Rule) : Listed l (dedupRules (sortRules l)) :=
  ⟨fun r => by rw [dedupRules_mem, sortRules_mem], dedupRules_sorted _ (sortRules_sorted l)⟩

theorem enumerateRules_some (l : List Rule) (h : l ≠ []) : ∃ w, enumerateRules l = some w := by
  match l, h with
  | [_], _ => exact ⟨_, rfl⟩
  | [_, _], _ => exact ⟨_, rfl⟩
  | r :: x :: y :: l, _ =>
    rw [enumerateRules, List.getLast?_eq_some_getLast (by simp)]
    exact ⟨_, rfl⟩

theorem parsingMessage_some (P N : List Rule) : ∃ w, parsingMessage P N = some w := by
  unfold parsingMessage
  split
  · next a b c d =>
    obtain ⟨w, h⟩ := enumerateRules_some (a :: b) (by simp)
    obtain ⟨v, h'⟩ := enumerateRules_some (c :: d) (by simp)
    rw [h, h']
    exact ⟨_, rfl⟩
  · next a b =>
    obtain ⟨w, h⟩ := enumerateRules_some (a :: b) (by simp)
    rw [h]
    exact ⟨_, rfl⟩
  · next a b =>
    obtain ⟨w, h⟩ := enumerateRules_some (a :: b) (by simp)
    rw [h]
    exact ⟨_, rfl⟩
  · exact ⟨_, rfl⟩

/-! ## the error -/

/-- the line as it is shown -/
def shown (m k : Str) : Str :=
  if k.head? = some '\n' ∨ k.head? = some '\r' then
    (m ++ k).map fun c => if c = '\r' then '␍' else if c = '\n' then '␊' else c
  else (m ++ k).filter fun c => c ≠ '\r' ∧ c ≠ '\n'

theorem Cut.head {s l m k r : Str} (h : Cut s l m k r) : (k ++ r).head? = k.head? := by
  cases k with
  | cons c k => rfl
  | nil =>
    rcases h.after with ⟨-, rfl⟩ | ⟨x, e, -⟩
    · rfl
    · cases x <;> cases e

/-- C64: the error at a position: line, column, the line as it is shown, and the rules. -/
theorem C64_error {s l m k r : Str} (h : Cut s l m k r) (pos neg : List Rule) :
    ∃ P N, Listed pos P ∧ Listed neg N ∧ newFromPos s (blen (l ++ m)) pos neg =
      some ⟨blen (l ++ m), (1 + l.count '\n', 1 + m.length), shown m k, P, N⟩ := by
  refine ⟨_, _, listed pos, listed neg, ?_⟩
  have h1 : splitAtByte s (blen (l ++ m)) = some (l ++ m, k ++ r) := by rw [h.all, splitAtByte_append]
  simp only [newFromPos, h1, lineOf_cut h, lineCol_cut h, Option.bind_eq_bind, Option.bind_some, h.head]
  rfl

/-! ## the text -/

/-- names in a sentence: `a`, `a or b`, `a, b, or c` -/
inductive Phrase : List Rule → Str → Prop where
  | one (r : Rule) : Phrase [r] (ruleName r)
  | two (r x : Rule) : Phrase [r, x] (ruleName r ++ c!" or " ++ ruleName x)
  | more (l : List Rule) (z : Rule) : 2 ≤ l.length →
      Phrase (l ++ [z]) ((l.flatMap fun r => ruleName r ++ c!", ") ++ c!"or " ++ ruleName z)

/-- what is unexpected (`N`) and what is expected (`P`) -/
inductive Says : List Rule → List Rule → Str → Prop where
  | expected {P : List Rule} {w : Str} : Phrase P w → Says P [] (c!"expected " ++ w)
  | unexpected {N : List Rule} {v : Str} : Phrase N v → Says [] N (c!"unexpected " ++ v)
  | both {P N : List Rule} {w v : Str} : Phrase P w → Phrase N v →
      Says P N (c!"unexpected " ++ v ++ c!"; expected " ++ w)

theorem intercalate_comma (l : List Str) (h : l ≠ []) :
    c!", ".intercalate l ++ c!", " = l.flatMap fun w => w ++ c!", " := by
  match l, h with
  | [w], _ => simp [List.intercalate]
  | w :: v :: l, _ =>
    have := intercalate_comma (v :: l) (by simp)
    simp only [List.intercalate, List.intersperse, List.flatMap_cons, List.flatten_cons] at this ⊢
    simp only [List.append_assoc] at this ⊢
    rw [this]

theorem enumerateRules_phrase {l : List Rule} (h : l ≠ []) : ∃ w, enumerateRules l = some w ∧ Phrase l w := by
  match l, h with
  | [r], _ => exact ⟨_, rfl, .one r⟩
  | [r, x], _ => exact ⟨_, rfl, .two r x⟩
  | r :: x :: y :: l, _ =>
    have hne : (r :: x :: y :: l) ≠ [] := by simp
    refine ⟨_, by rw [enumerateRules, List.getLast?_eq_some_getLast hne]; rfl, ?_⟩
    have h1 := Phrase.more ((r :: x :: y :: l).dropLast) ((r :: x :: y :: l).getLast hne) (by simp)
    rw [List.dropLast_concat_getLast hne] at h1
    have h2 := intercalate_comma (((r :: x :: y :: l).dropLast).map ruleName) (by simp)
    rw [List.flatMap_map] at h2
    rw [← h2] at h1
    have h3 : ∀ a b : Str, a ++ c!", " ++ c!"or " ++ b = a ++ c!", or " ++ b := by
      intro a b; simp only [List.append_assoc]; rfl
    rw [h3] at h1
    exact h1

theorem parsingMessage_says {P N : List Rule} (h : P ≠ [] ∨ N ≠ []) :
    ∃ w, parsingMessage P N = some w ∧ Says P N w := by
  match P, N, h with
  | p :: P, [], _ =>
    obtain ⟨w, h1, h2⟩ := enumerateRules_phrase (l := p :: P) (by simp)
    exact ⟨_, by rw [parsingMessage, h1]; rfl, .expected h2⟩
  | [], n :: N, _ =>
    obtain ⟨v, h1, h2⟩ := enumerateRules_phrase (l := n :: N) (by simp)
    exact ⟨_, by rw [parsingMessage, h1]; rfl, .unexpected h2⟩
  | p :: P, n :: N, _ =>
    obtain ⟨w, h1, h2⟩ := enumerateRules_phrase (l := p :: P) (by simp)
    obtain ⟨v, h3, h4⟩ := enumerateRules_phrase (l := n :: N) (by simp)
    exact ⟨_, by rw [parsingMessage, h1, h3]; rfl, .both h2 h4⟩

/-- The text for line `L`, column `C`: lines, the first after the words of the crate. -/
def picture (L C : Nat) (line mark message : Str) : Str :=
  let pad := List.replicate (decimal L).length ' '
  c!"could not parse Dockerfile: " ++ c!"\n".intercalate
    [pad ++ c!"--> " ++ decimal L ++ c!":" ++ decimal C,
     pad ++ c!" |",
     decimal L ++ c!" | " ++ line,
     pad ++ c!" | " ++ mark,
     pad ++ c!" |",
     pad ++ c!" = " ++ message]

theorem picture_eq (L C : Nat) (line mark message : Str) : picture L C line mark message =
    c!"could not parse Dockerfile: " ++
      (List.replicate (decimal L).length ' ' ++ c!"--> " ++ decimal L ++ c!":" ++ decimal C ++ c!"\n" ++
      List.replicate (decimal L).length ' ' ++ c!" |\n" ++
      decimal L ++ c!" | " ++ line ++ c!"\n" ++
      List.replicate (decimal L).length ' ' ++ c!" | " ++ mark ++ c!"\n" ++
      List.replicate (decimal L).length ' ' ++ c!" |\n" ++
      List.replicate (decimal L).length ' ' ++ c!" = " ++ message) := by
  unfold picture
  generalize decimal L = L
  generalize decimal C = C
  simp [List.intercalate]

/-- tabs for tabs, blanks for everything else -/
def aligned (w : Str) : Str := w.map fun c => if c = '\t' then '\t' else ' '

theorem reports_nonempty {s : Str} {e : Nat} {pos neg : List Rule} (h : Reports s (.error e pos neg)) :
    (pos ≠ [] ∨ neg ≠ []) ∧ ∃ a b, s = a ++ b ∧ e = blen a := by
  obtain ⟨N, out, hN, ho⟩ := C61_engine s
  obtain rfl := h.det ⟨N, hN⟩
  cases hp : parse G.dockerfile false 0 s with
  | some x => rw [hp] at ho; cases ho
  | none =>
    rw [hp] at ho
    obtain ⟨_, _, _, h1, h2, h3⟩ := ho
    cases h1
    exact ⟨h2, h3⟩

/-- **C64.** For every text that is rejected, the error can be made and printed (no slice outside of the
text or inside of a character, no subtraction below zero, no missing rule). It names the line of the
position, counting line feeds from 1, and the column, counting characters of that line from 1; it
shows that line, with a mark under it, and says which rules are unexpected or expected. These are the
rules of the report, each once, in the order of the grammar, and there is at least one. -/
theorem C64_text {s : Str} {e : Nat} {pos neg : List Rule} (h : Reports s (.error e pos neg)) :
    (∃ l m k r, Cut s l m k r ∧ e = blen (l ++ m)) ∧
    ∀ l m k r, Cut s l m k r → e = blen (l ++ m) →
      ∃ P N w, Listed pos P ∧ Listed neg N ∧ Says P N w ∧
        newFromPos s e pos neg = some ⟨e, (1 + l.count '\n', 1 + m.length), shown m k, P, N⟩ ∧
        parseErrorText s e pos neg =
          some (picture (1 + l.count '\n') (1 + m.length) (shown m k) (aligned ((shown m k).take m.length) ++ c!"^---") w) := by
  obtain ⟨hne, a, b, rfl, rfl⟩ := reports_nonempty h
  refine ⟨?_, fun l m k r hc he => ?_⟩
  · obtain ⟨l, m, k, r, h1, rfl, rfl⟩ := cut_exists a b
    exact ⟨l, m, k, r, h1, rfl⟩
  · obtain ⟨P, N, h1, h2, h3⟩ := C64_error hc pos neg
    rw [← he] at h3
    have hPN : P ≠ [] ∨ N ≠ [] := by
      rcases hne with h | h
      · obtain ⟨r, hr⟩ := List.exists_mem_of_ne_nil _ h
        exact .inl (List.ne_nil_of_mem ((h1.1 r).2 hr))
      · obtain ⟨r, hr⟩ := List.exists_mem_of_ne_nil _ h
        exact .inr (List.ne_nil_of_mem ((h2.1 r).2 hr))
    obtain ⟨w, h4, h5⟩ := parsingMessage_says hPN
    refine ⟨P, N, w, h1, h2, h5, h3, ?_⟩
    simp only [parseErrorText, h3, Option.bind_eq_bind, Option.bind_some, PestError.display, h4, Option.map_some,
      underline, Nat.add_sub_cancel_left]
    rw [picture_eq]
    rfl

/-- C64: without carriage returns before the position, the mark stands under the character at the
position: what is shown begins with the part of the line before it, and the mark comes after as many
characters, with tabs under tabs. -/
theorem C64_caret {s l m k r : Str} (h : Cut s l m k r) (hr : '\r' ∉ m) :
    (∃ k', shown m k = m ++ k') ∧ aligned ((shown m k).take m.length) = aligned m ∧
    (aligned m).length = m.length := by
  have hk : ∃ k', shown m k = m ++ k' := by
    have h1 : ∀ c ∈ m, c ≠ '\r' ∧ c ≠ '\n' := fun c hc =>
      ⟨fun e => hr (e ▸ hc), fun e => h.before (e ▸ hc)⟩
    unfold shown
    split
    · refine ⟨k.map fun c => if c = '\r' then '␍' else if c = '\n' then '␊' else c, ?_⟩
      rw [List.map_append]
      congr 1
      have h2 : m.map (fun c => if c = '\r' then '␍' else if c = '\n' then '␊' else c) = m.map id :=
        List.map_congr_left fun c hc => by simp [(h1 c hc).1, (h1 c hc).2]
      rw [h2, List.map_id]
    · refine ⟨k.filter fun c => c ≠ '\r' ∧ c ≠ '\n', ?_⟩
      rw [List.filter_append, List.filter_eq_self.2]
      intro c hc
      simpa using h1 c hc
  obtain ⟨k', hk⟩ := hk
  refine ⟨⟨k', hk⟩, ?_, by simp [aligned]⟩
  rw [hk]
  simp

theorem prefix_of_blen {a b a' b' : Str} (h : a ++ b = a' ++ b') (hl : blen a ≤ blen a') : ∃ c, a' = a ++ c := by
  rcases List.append_eq_append_iff.1 h with ⟨c, h1, -⟩ | ⟨c, h1, -⟩
  · exact ⟨c, h1⟩
  · rw [h1, blen_append] at hl
    obtain rfl : c = [] := by
      cases c with
      | nil => rfl
      | cons x c => rw [blen_cons] at hl; have := utf8Size_pos x; omega
    exact ⟨[], by rw [h1]; simp⟩

/-- C64: the line that is named is not before the line where the first malformed line begins, and it is
a line of the text. -/
theorem C64_line {s : Str} {e : Nat} {pos neg : List Rule} (h : Reports s (.error e pos neg))
    {ps : List (Src.Line × Str)} {z : Str} (hs : s = Src.preText ps ++ z) (hp : Src.PreFits ps z) (hn : NoLine z)
    {l m k r : Str} (hc : Cut s l m k r) (he : e = blen (l ++ m)) :
    1 + (Src.preText ps).count '\n' ≤ 1 + l.count '\n' ∧ 1 + l.count '\n' ≤ 1 + s.count '\n' := by
  obtain ⟨h1, -⟩ := (C61_position h).2 ps z hs hp hn
  have hm : m.count '\n' = 0 := List.count_eq_zero.2 hc.before
  obtain ⟨c, h2⟩ := prefix_of_blen (hs.symm.trans hc.all) (he ▸ h1)
  have h3 := congrArg (List.count '\n') h2
  rw [List.count_append, List.count_append, hm] at h3
  refine ⟨by omega, ?_⟩
  rw [hc.all, List.count_append, List.count_append]
  omega

/-- C64: `Span::relative_span` of the crate agrees on the line (it counts from 0), but its columns count
bytes, those of pest characters. -/
theorem C64_relative_span {s l m k r : Str} (h : Cut s l m k r) (d : Dockerfile) (hd : d.content = s) (stop : Nat)
    (hs : blen (l ++ m) ≤ stop) :
    (lineCol s (blen (l ++ m)) = some (1 + l.count '\n', 1 + m.length)) ∧
    ∃ n, (Span.mk (blen (l ++ m)) stop).relativeSpan d = some (l.count '\n', ⟨blen m, n⟩) :=
  ⟨lineCol_cut h, _, C26_relative_span d ⟨blen (l ++ m), stop⟩ l m (k ++ r) (hd.trans h.all) h.start h.before (blen_append l m) hs⟩

/-- The order of the rules is that of the grammar file. -/
theorem C64_order : (List.map (fun d : RuleDef => d.name) grammar).filter (fun n => (ruleOf n).isSome) = ruleNames.map (·.1) ∧
    ∀ r, r ≠ .EOI → ruleOf (ruleName r) = some r ∧ ruleNames[ruleIndex r - 1]? = some (ruleName r, r) := by
  refine ⟨by decide +kernel, fun r => ?_⟩
  cases r <;> decide +kernel

/-! ## examples -/

def textAt (s : Str) : Option Str :=
  match state compiled c!"dockerfile" 100 s with
  | some (.error e pos neg) => parseErrorText s e pos neg
  | _ => none

/-- a value is missing in the second line -/
theorem C64_example : textAt c!"FROM a\nENV x=\nRUN y\n" = some
    c!"could not parse Dockerfile:  --> 2:7\n  |\n2 | ENV x=␊\n  |       ^---\n  |\n  = expected string or env_pair_value" := by
  decide +kernel

/-- with a tab before the position -/
example : textAt c!"FROM\tx y" = some
    c!"could not parse Dockerfile:  --> 1:8\n  |\n1 | FROM\tx y\n  |     \t  ^---\n  |\n  = expected EOI" := by
  decide +kernel

/-- Line breaks that are single carriage returns end instructions, but not the lines that pest counts: the
second instruction is in line 1. -/
theorem C64_carriage_return : textAt c!"FROM a\rCOPY\r" = some
    c!"could not parse Dockerfile:  --> 1:12\n  |\n1 | FROM a␍COPY␍\n  |            ^---\n  |\n  = expected any_breakable" := by
  decide +kernel

/-- Before the position they are left out of the line that is shown, but not of the column: the mark
stands too far to the right. Here the position is that of `d`, and the mark stands under `e`. -/
theorem C64_caret_off : textAt c!"FROM a\r\rFROM b as c d e" = some
    c!"could not parse Dockerfile:  --> 1:21\n  |\n1 | FROM aFROM b as c d e\n  |                     ^---\n  |\n  = expected EOI" := by
  decide +kernel

/- C64 for a text with an error in the second line -/
example : ∃ e pos neg, Reports c!"FROM a\nENV x=\nRUN y\n" (.error e pos neg) ∧ e = 13 ∧
    Cut c!"FROM a\nENV x=\nRUN y\n" c!"FROM a\n" c!"ENV x=" c!"\n" c!"RUN y\n" := by
  have h : (match state compiled c!"dockerfile" 100 c!"FROM a\nENV x=\nRUN y\n" with
    | some (.error e _ _) => decide (e = 13)
    | _ => false) = true := by decide +kernel
  split at h
  · rename_i e pos neg he
    exact ⟨e, pos, neg, Reports.of he, by simpa using h, by constructor <;> first | exact .inr ⟨c!"FROM a\nENV x=".take 6, rfl⟩ | simp⟩
  · cases h

end Pest

end Verif
