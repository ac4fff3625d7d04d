import Verif.Model.Regex
import Verif.Proof.Subst
import Verif.Proof.Image

/-!
# Regular expressions and string functions, as they are written (C79)

The patterns of the crate as texts, a general matcher, and the code with all its indexing and slicing
(`Model/Regex`) compute what `Model/Image` and `Model/Records` say.
-/

namespace Verif
namespace Rx
open Spec

/-! ## the matcher -/

/-- Specification: the texts that a pattern stands for. -/
inductive Lang : Re → Str → Prop
  | cls {rs : List (Char × Char)} {c a b : Char} : (a, b) ∈ rs → a ≤ c → c ≤ b → Lang (.cls rs) [c]
  | seq {a b : Re} {x y : Str} : Lang a x → Lang b y → Lang (.seq a b) (x ++ y)
  | left {a b : Re} {x : Str} : Lang a x → Lang (.alt a b) x
  | right {a b : Re} {x : Str} : Lang b x → Lang (.alt a b) x
  | once {a : Re} {x : Str} : Lang a x → Lang (.plus a) x
  | more {a : Re} {x y : Str} : Lang a x → Lang (.plus a) y → Lang (.plus a) (x ++ y)
  | group {k : Nat} {a : Re} {x : Str} : Lang a x → Lang (.group k a) x

theorem again_sound {f : State → List State} {a : Re}
    (hf : ∀ m m', m' ∈ f m → ∃ x, m.rest = x ++ m'.rest ∧ Lang a x ∧ m'.pos = m.pos + blen x) (n : Nat) :
    ∀ m m', m' ∈ again f n m → ∃ x, m.rest = x ++ m'.rest ∧ Lang (.plus a) x ∧ m'.pos = m.pos + blen x := by
  induction n with
  | zero =>
    intro m m' h
    obtain ⟨x, h1, h2, h3⟩ := hf m m' h
    exact ⟨x, h1, .once h2, h3⟩
  | succ n ih =>
    intro m m' h
    simp only [again, List.mem_flatMap, List.mem_append, List.mem_singleton] at h
    obtain ⟨k, hk, h⟩ := h
    obtain ⟨x, h1, h2, h3⟩ := hf m k hk
    rcases h with h | rfl
    · split at h
      · obtain ⟨y, h4, h5, h6⟩ := ih k m' h
        exact ⟨x ++ y, by rw [h1, h4, List.append_assoc], .more h2 h5, by rw [h6, h3, blen_append]; omega⟩
      · cases h
    · exact ⟨x, h1, .once h2, h3⟩

theorem runs_sound (re : Re) : ∀ m m', m' ∈ runs re m →
    ∃ x, m.rest = x ++ m'.rest ∧ Lang re x ∧ m'.pos = m.pos + blen x := by
  induction re with
  | cls rs =>
    intro m m' h
    simp only [runs] at h
    split at h
    · cases h
    · rename_i c cs hr
      split at h
      · rename_i hc
        simp only [List.mem_singleton] at h
        subst h
        simp only [List.any_eq_true, Bool.and_eq_true, decide_eq_true_eq, Prod.exists] at hc
        obtain ⟨a, b, h1, h2, h3⟩ := hc
        exact ⟨[c], hr, .cls h1 h2 h3, by simp [blen]⟩
      · cases h
  | seq a b iha ihb =>
    intro m m' h
    simp only [runs, List.mem_flatMap] at h
    obtain ⟨k, h1, h2⟩ := h
    obtain ⟨x, a1, a2, a3⟩ := iha m k h1
    obtain ⟨y, b1, b2, b3⟩ := ihb k m' h2
    exact ⟨x ++ y, by rw [a1, b1, List.append_assoc], .seq a2 b2, by rw [b3, a3, blen_append]; omega⟩
  | alt a b iha ihb =>
    intro m m' h
    simp only [runs, List.mem_append] at h
    rcases h with h | h
    · obtain ⟨x, a1, a2, a3⟩ := iha m m' h
      exact ⟨x, a1, .left a2, a3⟩
    · obtain ⟨x, a1, a2, a3⟩ := ihb m m' h
      exact ⟨x, a1, .right a2, a3⟩
  | plus a iha =>
    intro m m' h
    exact again_sound iha _ m m' h
  | group k a iha =>
    intro m m' h
    simp only [runs, List.mem_map] at h
    obtain ⟨n, h1, rfl⟩ := h
    obtain ⟨x, a1, a2, a3⟩ := iha m n h1
    exact ⟨x, a1, .group a2, a3⟩

theorem again_complete {f : State → List State} {a : Re}
    (hf : ∀ m x r, m.rest = x ++ r → Lang a x → ∃ m' ∈ f m, m'.rest = r) {b : Re} {x : Str} (h : Lang b x) :
    b = .plus a → ∀ (n : Nat) (m : State) (r : Str), m.rest.length ≤ n → m.rest = x ++ r →
      ∃ m' ∈ again f n m, m'.rest = r := by
  induction h with
  | @once _ x hx _ =>
    rintro ⟨⟩ n m r hn e
    obtain ⟨k, h1, h2⟩ := hf m x r e hx
    cases n with
    | zero => exact ⟨k, h1, h2⟩
    | succ n => exact ⟨k, by simp only [again, List.mem_flatMap]; exact ⟨k, h1, by simp⟩, h2⟩
  | @more _ x y hx _ _ ih =>
    rintro ⟨⟩ n m r hn e
    by_cases he : x = []
    · subst he
      exact ih rfl n m r hn e
    · rw [List.append_assoc] at e
      obtain ⟨k, h1, h2⟩ := hf m x (y ++ r) e hx
      have hl : k.rest.length < m.rest.length := by
        have : x.length ≠ 0 := by simpa using he
        rw [h2, e, List.length_append (as := x)]
        omega
      cases n with
      | zero => omega
      | succ n =>
        obtain ⟨m', h3, h4⟩ := ih rfl n k r (by omega) h2
        exact ⟨m', by
          simp only [again, List.mem_flatMap]
          exact ⟨k, h1, by simp [hl, h3]⟩, h4⟩
  | _ => rintro ⟨⟩

theorem runs_complete (re : Re) : ∀ (m : State) (x r : Str), m.rest = x ++ r → Lang re x →
    ∃ m' ∈ runs re m, m'.rest = r := by
  induction re with
  | cls rs =>
    intro m x r e h
    cases h with
    | @cls _ c a b h1 h2 h3 =>
      have hc : (rs.any fun r => decide (r.1 ≤ c) && decide (c ≤ r.2)) = true := by
        simp only [List.any_eq_true, Bool.and_eq_true, decide_eq_true_eq]
        exact ⟨(a, b), h1, h2, h3⟩
      have e : m.rest = c :: r := e
      exact ⟨⟨m.pos + c.utf8Size, r, m.groups⟩, by simp [runs, e, hc], rfl⟩
  | seq a b iha ihb =>
    intro m x r e h
    cases h with
    | @seq _ _ x y h1 h2 =>
      rw [List.append_assoc] at e
      obtain ⟨k, k1, k2⟩ := iha m x (y ++ r) e h1
      obtain ⟨m', k3, k4⟩ := ihb k y r k2 h2
      exact ⟨m', by simp only [runs, List.mem_flatMap]; exact ⟨k, k1, k3⟩, k4⟩
  | alt a b iha ihb =>
    intro m x r e h
    cases h with
    | left h =>
      obtain ⟨m', h1, h2⟩ := iha m x r e h
      exact ⟨m', by simp [runs, h1], h2⟩
    | right h =>
      obtain ⟨m', h1, h2⟩ := ihb m x r e h
      exact ⟨m', by simp [runs, h1], h2⟩
  | plus a iha =>
    intro m x r e h
    exact again_complete iha h rfl _ m r (Nat.le_refl _) e
  | group k a iha =>
    intro m x r e h
    cases h with
    | group h =>
      obtain ⟨m', h1, h2⟩ := iha m x r e h
      exact ⟨_, List.mem_map_of_mem h1, h2⟩

/-- **C79**, the matcher: it finds a match in front of `r` if and only if what is before `r` is a text
the pattern stands for. -/
theorem C79_matcher (re : Re) (m : State) (r : Str) :
    (∃ m' ∈ runs re m, m'.rest = r) ↔ ∃ x, m.rest = x ++ r ∧ Lang re x := by
  constructor
  · rintro ⟨m', h, rfl⟩
    obtain ⟨x, h1, h2, -⟩ := runs_sound re m m' h
    exact ⟨x, h1, h2⟩
  · rintro ⟨x, h1, h2⟩
    exact runs_complete re m x r h1 h2

/-- **C79**, searching: what is found is the leftmost match; if nothing is found, there is no match. -/
theorem C79_search (re : Re) (s : Str) : ∀ p : Nat,
    match search re p s with
    | some (caps, rest) => ∃ a x, s = a ++ (x ++ rest) ∧ Lang re x ∧
        caps.whole = ⟨p + blen a, p + blen a + blen x⟩ ∧
        ∀ a' b', a = a' ++ b' → b' ≠ [] → ∀ y r, b' ++ (x ++ rest) = y ++ r → ¬ Lang re y
    | none => ∀ a y r, s = a ++ (y ++ r) → ¬ Lang re y := by
  induction s with
  | nil =>
    intro p
    unfold search
    cases h : runs re ⟨p, [], []⟩ with
    | cons m ms =>
      obtain ⟨x, h1, h2, h3⟩ := runs_sound re ⟨p, [], []⟩ m (by simp [h])
      exact ⟨[], x, h1, h2, by simp [blen, h3], fun a' b' e hb => by simp_all⟩
    | nil =>
      intro a y r e hl
      have e : a = [] ∧ y = [] ∧ r = [] := by simpa using e
      obtain ⟨m', h1, -⟩ := runs_complete re ⟨p, [], []⟩ y [] (by simp [e]) hl
      rw [h] at h1; cases h1
  | cons c s ih =>
    intro p
    unfold search
    cases h : runs re ⟨p, c :: s, []⟩ with
    | cons m ms =>
      obtain ⟨x, h1, h2, h3⟩ := runs_sound re ⟨p, c :: s, []⟩ m (by simp [h])
      exact ⟨[], x, h1, h2, by simp [blen, h3], fun a' b' e hb => by simp_all⟩
    | nil =>
      have hno : ∀ y r, c :: s = y ++ r → ¬ Lang re y := by
        intro y r e hl
        obtain ⟨m', h1, -⟩ := runs_complete re ⟨p, c :: s, []⟩ y r e hl
        rw [h] at h1; cases h1
      have := ih (p + c.utf8Size)
      simp only
      cases hs : search re (p + c.utf8Size) s with
      | none =>
        rw [hs] at this
        intro a y r e hl
        cases a with
        | nil => exact hno y r e hl
        | cons d a =>
          simp only [List.cons_append, List.cons.injEq] at e
          exact this a y r e.2 hl
      | some x =>
        obtain ⟨caps, rest⟩ := x
        rw [hs] at this
        obtain ⟨a, x, h1, h2, h3, h4⟩ := this
        refine ⟨c :: a, x, by rw [h1]; rfl, h2, by rw [h3]; simp [blen]; omega, ?_⟩
        intro a' b' e hb y r ey
        cases a' with
        | nil =>
          simp only [List.nil_append] at e
          subst e
          exact hno y r (by rw [← ey, h1]; rfl)
        | cons d a' =>
          simp only [List.cons_append, List.cons.injEq] at e
          exact h4 a' b' e.2 hb y r ey

/-! ## the patterns -/

/-- `[A-Za-z0-9_]` -/
def word : Re := .cls [('A', 'Z'), ('a', 'z'), ('0', '9'), ('_', '_')]
/-- `VAR` -/
def var : Re :=
  .seq (.cls [('$', '$')]) (.alt (.group 1 (.plus word))
    (.seq (.cls [('{', '{')]) (.seq (.group 2 (.plus word)) (.cls [('}', '}')]))))
/-- `HEX` -/
def hex : Re := .plus (.cls [('0', '9'), ('a', 'f'), ('A', 'F')])

/-- **C79**, the patterns: the texts in the code are patterns (so `Regex::new(..).unwrap()` does not
panic). -/
theorem C79_patterns : pattern varText = some var ∧ pattern hexText = some hex := by
  constructor <;> decide +kernel

theorem word_any (c : Char) :
    ([('A', 'Z'), ('a', 'z'), ('0', '9'), ('_', '_')].any fun r : Char × Char => decide (r.1 ≤ c) && decide (c ≤ r.2)) =
      isWordChar c := by
  have h : (decide ('_' ≤ c) && decide (c ≤ '_')) = (c == '_') := by
    rw [Bool.eq_iff_iff]
    simp only [Bool.and_eq_true, decide_eq_true_eq, beq_iff_eq]
    constructor
    · rintro ⟨h1, h2⟩; exact Char.le_antisymm h2 h1
    · rintro rfl; exact ⟨Char.le_refl _, Char.le_refl _⟩
  simp only [List.any_cons, List.any_nil, Bool.or_false, isWordChar, h, Bool.or_assoc]

theorem one_any (d c : Char) : ([(d, d)].any fun r : Char × Char => decide (r.1 ≤ c) && decide (c ≤ r.2)) = (c == d) := by
  rw [Bool.eq_iff_iff]
  simp only [List.any_cons, List.any_nil, Bool.or_false, Bool.and_eq_true, decide_eq_true_eq, beq_iff_eq]
  constructor
  · rintro ⟨h1, h2⟩; exact Char.le_antisymm h2 h1
  · rintro rfl; exact ⟨Char.le_refl _, Char.le_refl _⟩

theorem runs_one (d : Char) (p : Nat) (s : Str) (g : List (Nat × Span × Str)) :
    runs (.cls [(d, d)]) ⟨p, d :: s, g⟩ = [⟨p + d.utf8Size, s, g⟩] := by
  simp only [runs, one_any, beq_self_eq_true, if_true]

theorem runs_one_fail {d : Char} (p : Nat) {s : Str} (g : List (Nat × Span × Str)) (h : ∀ b, s ≠ d :: b) :
    runs (.cls [(d, d)]) ⟨p, s, g⟩ = [] := by
  cases s with
  | nil => rfl
  | cons c s =>
    have : (c == d) = false := by
      simp only [beq_eq_false_iff_ne]
      rintro rfl
      exact h s rfl
    simp only [runs, one_any, this]
    rfl

/-- the matches of `[A-Za-z0-9_]+`, the longest first -/
def words (g : List (Nat × Span × Str)) (r : Str) : Nat → Str → List State
  | _, [] => []
  | p, c :: w => words g r (p + c.utf8Size) w ++ [⟨p + c.utf8Size, w ++ r, g⟩]

theorem again_words {g : List (Nat × Span × Str)} {r : Str} (hr : ∀ c b, r = c :: b → ¬ WordChar c) (w : Str) :
    ∀ (n p : Nat), (∀ c ∈ w, WordChar c) → w.length ≤ n + 1 →
      again (runs word) n ⟨p, w ++ r, g⟩ = words g r p w := by
  have hnil : ∀ p, runs word ⟨p, r, g⟩ = [] := by
    intro p
    cases r with
    | nil => rfl
    | cons c b =>
      have : isWordChar c = false := by
        have := hr c b rfl
        rw [← isWordChar_iff] at this
        simpa using this
      simp only [runs, word, word_any, this]
      rfl
  induction w with
  | nil =>
    intro n p _ _
    cases n with
    | zero => exact hnil p
    | succ n => simp only [again, List.nil_append, hnil, List.flatMap_nil, words]
  | cons c w ih =>
    intro n p hw hn
    have hc : isWordChar c = true := (isWordChar_iff c).2 (hw c (by simp))
    have h1 : runs word ⟨p, c :: (w ++ r), g⟩ = [⟨p + c.utf8Size, w ++ r, g⟩] := by
      simp only [runs, word, word_any, hc, if_true]
    cases n with
    | zero =>
      have : w = [] := by simpa using hn
      subst this
      simp only [again, List.cons_append, words]
      exact h1
    | succ n =>
      simp only [again, List.cons_append, h1, List.flatMap_cons, List.flatMap_nil, List.append_nil,
        List.length_cons, Nat.lt_succ_self, if_true, words]
      rw [ih n _ (fun d hd => hw d (by simp [hd])) (by simpa using hn)]

theorem words_head {g : List (Nat × Span × Str)} {r : Str} (w : Str) : ∀ (p : Nat), w ≠ [] →
    ∃ ms, words g r p w = ⟨p + blen w, r, g⟩ :: ms ∧
      ∀ m ∈ ms, ∃ c b, m.rest = c :: b ∧ c ∈ w := by
  induction w with
  | nil => intro p h; exact absurd rfl h
  | cons c w ih =>
    intro p _
    by_cases hw : w = []
    · subst hw
      exact ⟨[], by simp [words, blen], by simp⟩
    · obtain ⟨ms, h1, h2⟩ := ih (p + c.utf8Size) hw
      refine ⟨ms ++ [⟨p + c.utf8Size, w ++ r, g⟩], ?_, ?_⟩
      · simp only [words, h1, List.cons_append]
        simp only [blen, Nat.add_assoc]
      · intro m hm
        rcases List.mem_append.1 hm with hm | hm
        · obtain ⟨d, b, e, hd⟩ := h2 m hm
          exact ⟨d, b, e, by simp [hd]⟩
        · simp only [List.mem_singleton] at hm
          subst hm
          cases w with
          | nil => exact absurd rfl hw
          | cons d w => exact ⟨d, w ++ r, rfl, by simp⟩

theorem runs_seq (a b : Re) (m : State) : runs (.seq a b) m = (runs a m).flatMap (runs b) := rfl
theorem runs_alt (a b : Re) (m : State) : runs (.alt a b) m = runs a m ++ runs b m := rfl

/-- a group around `[A-Za-z0-9_]+` -/
theorem runs_group {p : Nat} {w r : Str} {g : List (Nat × Span × Str)} (k : Nat) (hw : ∀ c ∈ w, WordChar c)
    (hr : ∀ c b, r = c :: b → ¬ WordChar c) (hne : w ≠ []) :
    ∃ ms, runs (.group k (.plus word)) ⟨p, w ++ r, g⟩ =
        ⟨p + blen w, r, g ++ [(k, ⟨p, p + blen w⟩, w)]⟩ :: ms ∧
      ∀ m ∈ ms, ∃ c b, m.rest = c :: b ∧ c ∈ w := by
  have h1 : runs (.plus word) ⟨p, w ++ r, g⟩ = words g r p w :=
    again_words hr w _ p hw (by simp only [List.length_append]; omega)
  obtain ⟨ms, h2, h3⟩ := words_head (g := g) (r := r) w p hne
  have h4 : runs (.group k (.plus word)) ⟨p, w ++ r, g⟩ = (runs (.plus word) ⟨p, w ++ r, g⟩).map fun m' =>
      { m' with groups := m'.groups ++ [(k, ⟨p, m'.pos⟩, (w ++ r).take ((w ++ r).length - m'.rest.length))] } := rfl
  rw [h4, h1, h2, List.map_cons]
  have h5 : (w ++ r).take ((w ++ r).length - r.length) = w := by simp
  refine ⟨_, by rw [h5], ?_⟩
  intro m hm
  obtain ⟨n, hn, rfl⟩ := List.mem_map.1 hm
  exact h3 n hn

theorem runs_group_fail {p : Nat} {r : Str} {g : List (Nat × Span × Str)} (k : Nat)
    (hr : ∀ c b, r = c :: b → ¬ WordChar c) : runs (.group k (.plus word)) ⟨p, r, g⟩ = [] := by
  have h1 : runs (.plus word) ⟨p, r, g⟩ = [] :=
    again_words (w := []) hr _ p (by simp) (by simp)
  rw [runs, h1, List.map_nil]

/-- `$name` -/
theorem runs_plain {p : Nat} {w r : Str} (hw : ∀ c ∈ w, WordChar c) (hr : ∀ c b, r = c :: b → ¬ WordChar c)
    (hne : w ≠ []) : (runs var ⟨p, '$' :: (w ++ r), []⟩).head? =
      some ⟨p + 1 + blen w, r, [(1, ⟨p + 1, p + 1 + blen w⟩, w)]⟩ := by
  obtain ⟨ms, h, -⟩ := runs_group (p := p + Char.utf8Size '$') (g := []) 1 hw hr hne
  rw [var, runs_seq, runs_one, List.flatMap_cons, runs_alt, h]
  rfl

/-- `${name}` -/
theorem runs_braces {p : Nat} {w r : Str} (hw : ∀ c ∈ w, WordChar c)
    (hne : w ≠ []) : (runs var ⟨p, '$' :: '{' :: (w ++ '}' :: r), []⟩).head? =
      some ⟨p + 2 + blen w + 1, r, [(2, ⟨p + 2, p + 2 + blen w⟩, w)]⟩ := by
  have hr : ∀ c b, '}' :: r = c :: b → ¬ WordChar c := by
    intro c b e; cases e; exact not_word_close
  obtain ⟨ms, h, -⟩ := runs_group (p := p + Char.utf8Size '$' + Char.utf8Size '{') (g := []) 2 hw hr hne
  rw [var, runs_seq, runs_one, List.flatMap_cons, runs_alt,
    runs_group_fail (r := '{' :: (w ++ '}' :: r)) 1 (by intro c b e; cases e; exact not_word_brace),
    List.nil_append, runs_seq, runs_one, List.flatMap_cons, runs_seq, h, List.flatMap_cons, runs_one]
  rfl

theorem runs_ref {p : Nat} {s n r : Str} (h : RefAt s n r) : ∃ m ms, runs var ⟨p, s, []⟩ = m :: ms ∧ m.rest = r ∧
    m.pos = p + (blen s - blen r) ∧ ((⟨⟨p, m.pos⟩, m.groups⟩ : Caps).get 1).or ((⟨⟨p, m.pos⟩, m.groups⟩ : Caps).get 2) = some n := by
  obtain ⟨h1, h2, ⟨rfl, h3⟩ | rfl⟩ := h
  · have := runs_plain (p := p) h2 h3 h1
    rw [List.head?_eq_some_iff] at this
    obtain ⟨ms, e⟩ := this
    refine ⟨_, ms, e, rfl, ?_, rfl⟩
    simp only [blen, blen_append]
    rw [show Char.utf8Size '$' = 1 from rfl]
    omega
  · have := runs_braces (p := p) (r := r) h2 h1
    rw [List.head?_eq_some_iff] at this
    obtain ⟨ms, e⟩ := this
    refine ⟨_, ms, e, rfl, ?_, rfl⟩
    simp only [blen, blen_append]
    rw [show Char.utf8Size '$' = 1 from rfl, show Char.utf8Size '{' = 1 from rfl, show Char.utf8Size '}' = 1 from rfl]
    omega

theorem lang_one {d : Char} {x : Str} (h : Lang (.cls [(d, d)]) x) : x = [d] := by
  cases h with
  | cls h1 h2 h3 =>
    simp only [List.mem_singleton, Prod.mk.injEq] at h1
    obtain ⟨rfl, rfl⟩ := h1
    rw [Char.le_antisymm h3 h2]

theorem lang_words {b : Re} {x : Str} (h : Lang b x) : (b = word ∨ b = .plus word) →
    x ≠ [] ∧ ∀ c ∈ x, WordChar c := by
  induction h with
  | @cls rs c a b h1 h2 h3 =>
    rintro (h | h)
    · cases h
      refine ⟨by simp, fun d hd => ?_⟩
      simp only [List.mem_singleton] at hd
      subst hd
      rw [← isWordChar_iff, ← word_any]
      simp only [List.any_eq_true, Bool.and_eq_true, decide_eq_true_eq]
      exact ⟨(a, b), h1, h2, h3⟩
    · cases h
  | once _ ih =>
    rintro (h | h)
    · cases h
    · cases h; exact ih (.inl rfl)
  | more _ _ ih1 ih2 =>
    rintro (h | h)
    · cases h
    · cases h
      obtain ⟨a1, a2⟩ := ih1 (.inl rfl)
      obtain ⟨b1, b2⟩ := ih2 (.inr rfl)
      exact ⟨by simp [a1], fun c hc => (List.mem_append.1 hc).elim (a2 c) (b2 c)⟩
  | _ => rintro (h | h) <;> cases h

/-- the texts of `VAR` -/
theorem lang_var {x : Str} : Lang var x ↔ ∃ n, n ≠ [] ∧ (∀ c ∈ n, WordChar c) ∧
    (x = '$' :: n ∨ x = '$' :: '{' :: (n ++ ['}'])) := by
  constructor
  · intro h
    cases h with
    | @seq _ _ u v h1 h2 =>
      cases lang_one h1
      cases h2 with
      | left h2 =>
        cases h2 with
        | group h2 =>
          obtain ⟨a, b⟩ := lang_words h2 (.inr rfl)
          exact ⟨v, a, b, .inl rfl⟩
      | right h2 =>
        cases h2 with
        | seq h3 h4 =>
          cases lang_one h3
          cases h4 with
          | seq h5 h6 =>
            cases lang_one h6
            cases h5 with
            | @group _ _ _ h5 =>
              obtain ⟨a, b⟩ := lang_words h5 (.inr rfl)
              exact ⟨_, a, b, .inr rfl⟩
  · rintro ⟨n, h1, h2, h3⟩
    have hone : ∀ d : Char, Lang (.cls [(d, d)]) [d] := fun d => .cls (List.mem_singleton.2 rfl) (Char.le_refl _) (Char.le_refl _)
    have hw : Lang (.plus word) n := by
      have hc : ∀ c, WordChar c → Lang word [c] := by
        rintro c (h | h | h | rfl)
        · exact .cls (a := 'A') (b := 'Z') (by simp) h.1 h.2
        · exact .cls (a := 'a') (b := 'z') (by simp) h.1 h.2
        · exact .cls (a := '0') (b := '9') (by simp) h.1 h.2
        · exact .cls (a := '_') (b := '_') (by simp) (Char.le_refl _) (Char.le_refl _)
      clear h3
      induction n with
      | nil => exact absurd rfl h1
      | cons c n ih =>
        by_cases hn : n = []
        · subst hn; exact .once (hc c (h2 c (by simp)))
        · exact .more (x := [c]) (hc c (h2 c (by simp))) (ih hn fun d hd => h2 d (by simp [hd]))
    rcases h3 with rfl | rfl
    · exact .seq (x := ['$']) (hone '$') (.left (.group hw))
    · exact .seq (x := ['$']) (hone '$') (.right (.seq (x := ['{']) (hone '{') (.seq (.group hw) (hone '}'))))

theorem runs_noref {p : Nat} {s : Str} (h : ∀ n r, ¬ RefAt s n r) : runs var ⟨p, s, []⟩ = [] := by
  cases hr : runs var ⟨p, s, []⟩ with
  | nil => rfl
  | cons m ms =>
    obtain ⟨x, e, hx, -⟩ := runs_sound var ⟨p, s, []⟩ m (by simp [hr])
    have e : s = x ++ m.rest := e
    obtain ⟨n, h1, h2, rfl | rfl⟩ := lang_var.1 hx
    · obtain ⟨e1, e2, e3⟩ := spanWord_spec (n ++ m.rest)
      refine absurd ⟨?_, e2, .inl ⟨?_, e3⟩⟩ (h (spanWord (n ++ m.rest)).1 (spanWord (n ++ m.rest)).2)
      · intro hn
        cases n with
        | nil => exact h1 rfl
        | cons c n =>
          rw [hn, List.nil_append] at e1
          exact e3 c (n ++ m.rest) e1.symm (h2 c (by simp))
      · rw [e, ← e1]; rfl
    · exact absurd ⟨h1, h2, .inr (by rw [e]; simp)⟩ (h n m.rest)

/-! ## captures -/

theorem search_ref {p : Nat} {s n r : Str} (h : RefAt s n r) : ∃ caps, search var p s = some (caps, r) ∧
    caps.whole = ⟨p, p + (blen s - blen r)⟩ ∧ (caps.get 1).or (caps.get 2) = some n := by
  obtain ⟨m, ms, h1, h2, h3, h4⟩ := runs_ref (p := p) h
  unfold search
  rw [h1]
  subst h2
  exact ⟨_, rfl, by rw [h3], h4⟩

/-- **C79**, the groups of `VAR`: a name without braces is the first group, a name in braces the second one, and the
other one is not there. -/
theorem C79_groups {s n r : Str} (p : Nat) (h : RefAt s n r) : ∃ caps, search var p s = some (caps, r) ∧
    ((s = '$' :: (n ++ r) ∧ caps.get 1 = some n ∧ caps.get 2 = none) ∨
      (s = '$' :: '{' :: (n ++ '}' :: r) ∧ caps.get 1 = none ∧ caps.get 2 = some n)) := by
  obtain ⟨h1, h2, ⟨rfl, h3⟩ | rfl⟩ := h
  · have := runs_plain (p := p) h2 h3 h1
    rw [List.head?_eq_some_iff] at this
    obtain ⟨ms, e⟩ := this
    unfold search
    rw [e]
    exact ⟨_, rfl, .inl ⟨rfl, rfl, rfl⟩⟩
  · have := runs_braces (p := p) (r := r) h2 h1
    rw [List.head?_eq_some_iff] at this
    obtain ⟨ms, e⟩ := this
    unfold search
    rw [e]
    exact ⟨_, rfl, .inr ⟨rfl, rfl, rfl⟩⟩

theorem iter_captures (k : Nat) : ∀ (s : Str), s.length ≤ k → ∀ n n' p, s.length ≤ n' → s.length < n →
    (capturesIter var n p s).map (fun c => (c.whole, (c.get 1).or (c.get 2))) =
      (capturesFrom n' p s).map fun c => (c.range, some c.name) := by
  induction k with
  | zero =>
    intro s hk n n' p h1 h2
    have : s = [] := by simpa using hk
    subst this
    have hf : ∀ n r, ¬ RefAt [] n r := by rintro n r ⟨-, -, ⟨h, -⟩ | h⟩ <;> cases h
    cases n with
    | zero => cases h2
    | succ n =>
      simp only [capturesIter]
      unfold search
      rw [runs_noref hf]
      cases n' <;> rfl
  | succ k ih =>
    intro s hk n n' p h1 h2
    cases s with
    | nil => exact ih [] (by simp) n n' p h1 h2
    | cons c s =>
      cases n' with
      | zero => simp at h1
      | succ n' =>
        cases n with
        | zero => cases h2
        | succ n =>
          cases hm : matchVar (c :: s) with
          | some x =>
            obtain ⟨name, rest⟩ := x
            have href := (matchVar_iff _ _ _).1 hm
            have hl := href.length_lt
            obtain ⟨caps, e1, e2, e3⟩ := search_ref (p := p) href
            simp only [capturesIter, e1, capturesFrom, hm, List.map_cons, e2, e3]
            congr 1
            simp only [List.length_cons] at *
            exact ih rest (by omega) n n' _ (by omega) (by omega)
          | none =>
            have hf : ∀ n r, ¬ RefAt (c :: s) n r := by
              intro n r hr
              rw [(matchVar_iff _ _ _).2 hr] at hm
              cases hm
            have : capturesIter var (n + 1) p (c :: s) = capturesIter var (n + 1) (p + c.utf8Size) s := by
              simp only [capturesIter]
              conv => lhs; unfold search
              rw [runs_noref hf]
            rw [this]
            simp only [capturesFrom, hm]
            simp only [List.length_cons] at *
            exact ih s (by omega) (n + 1) n' _ (by omega) (by omega)

/-- **C79**, the captures of `VAR`: their places and the names of the variables are those of
`Model/Image`, and one of the two groups is always there. -/
theorem C79_captures (s : Str) : (capturesIter var (s.length + 1) 0 s).map (fun c => (c.whole, (c.get 1).or (c.get 2))) =
    (captures s).map fun c => (c.range, some c.name) :=
  iter_captures s.length s (Nat.le_refl _) _ _ _ (Nat.le_refl _) (Nat.lt_succ_self _)

theorem loop_same {vars : VarMap} {d : Nat} {sub sub' : Str → List Str → Option (Option Str × List Str)}
    (hs : ∀ s u, sub s u = sub' s u) : ∀ (cs : List Caps) (cs' : List Capture) (sp : Splicer) (used : List Str),
    cs.map (fun c => (c.whole, (c.get 1).or (c.get 2))) = cs'.map (fun c => (c.range, some c.name)) →
    loop vars (d + 1) sub cs sp used = substLoop vars sub' cs' sp used := by
  intro cs
  induction cs with
  | nil =>
    intro cs' sp used e
    cases cs' with
    | nil => rfl
    | cons c cs' => cases e
  | cons c cs ih =>
    intro cs' sp used e
    cases cs' with
    | nil => cases e
    | cons c' cs' =>
      simp only [List.map_cons, List.cons.injEq, Prod.mk.injEq] at e
      obtain ⟨⟨e1, e2⟩, e3⟩ := e
      simp only [loop, substLoop, e2, e1, Nat.add_one_ne_zero, if_false]
      cases vars c'.name with
      | none => rfl
      | some content =>
        simp only [hs]
        rcases sub' content used with _ | ⟨_ | t, u⟩
        · rfl
        · rfl
        · simp only
          cases sp.splice c'.range t with
          | none => rfl
          | some sp' => exact ih cs' sp' _ e3

/-- **C79**, `substitute`: with the patterns read from the code and all groups looked up, it is the
function of `Model/Image`. -/
theorem C79_substitute (vars : VarMap) (d : Nat) : ∀ (s : Str) (used : List Str),
    (pattern varText).map (fun v => substitute v vars d s used) = some (Verif.substitute vars d s used) := by
  suffices h : ∀ s used, substitute var vars d s used = Verif.substitute vars d s used by
    intro s used
    rw [C79_patterns.1, Option.map_some, h]
  induction d with
  | zero =>
    intro s used
    have := C79_captures s
    simp only [substitute, Verif.substitute]
    cases hc : captures s with
    | nil =>
      rw [hc] at this
      have : capturesIter var (s.length + 1) 0 s = [] := by simpa using this
      rw [this]; rfl
    | cons c cs =>
      rw [hc] at this
      cases hi : capturesIter var (s.length + 1) 0 s with
      | nil => rw [hi] at this; cases this
      | cons x xs => rfl
  | succ d ih =>
    intro s used
    exact loop_same ih _ _ _ _ (C79_captures s)

/-! ## the digest -/

theorem hex_any (c : Char) : ([('0', '9'), ('a', 'f'), ('A', 'F')].any fun r : Char × Char => decide (r.1 ≤ c) && decide (c ≤ r.2)) =
    isHexChar c := by
  simp only [List.any_cons, List.any_nil, Bool.or_false, isHexChar, Bool.or_assoc]

theorem again_head {f : State → List State} {m k : State} (n : Nat) (h : k ∈ f m) : again f n m ≠ [] := by
  cases n with
  | zero => intro e; rw [show again f 0 m = f m from rfl] at e; rw [e] at h; cases h
  | succ n =>
    intro e
    simp only [again, List.flatMap_eq_nil_iff, List.append_eq_nil_iff] at e
    exact absurd (e k h).2 (by simp)

/-- **C79**, `HEX`: the pattern is not anchored, so that it matches if there is a hexadecimal digit
anywhere. -/
theorem C79_hex (s : Str) : (pattern hexText).map (fun h => isMatch h s) = some (s.any isHexChar) := by
  rw [C79_patterns.2, Option.map_some]
  congr 1
  unfold isMatch
  generalize 0 = p
  induction s generalizing p with
  | nil => rfl
  | cons c s ih =>
    unfold search
    cases hc : isHexChar c with
    | true =>
      have : runs hex ⟨p, c :: s, []⟩ ≠ [] := by
        refine again_head (k := ⟨p + c.utf8Size, s, []⟩) _ ?_
        simp only [runs, hex_any, hc, if_true, List.mem_singleton]
      cases hr : runs hex ⟨p, c :: s, []⟩ with
      | nil => exact absurd hr this
      | cons m ms => simp [hc]
    | false =>
      have : runs hex ⟨p, c :: s, []⟩ = [] := by
        have h : runs (.cls [('0', '9'), ('a', 'f'), ('A', 'F')]) ⟨p, c :: s, []⟩ = [] := by
          simp only [runs, hex_any, hc]
          rfl
        simp only [hex, runs, List.length_cons, again]
        simp only [runs] at h
        rw [h]
        rfl
      rw [this]
      simp only [List.any_cons, hc, Bool.false_or]
      exact ih _

/-! ## string functions -/

theorem takeWhile_first {c : Char} {a b : Str} (h : c ∉ a) : (a ++ c :: b).takeWhile (· ≠ c) = a := by
  induction a with
  | nil => simp
  | cons d a ih =>
    have h1 : d ≠ c := by rintro rfl; exact h (by simp)
    have h2 : c ∉ a := fun hc => h (by simp [hc])
    have := ih h2
    simp only [List.cons_append, List.takeWhile_cons]
    rw [if_pos (by simpa using h1), this]

theorem dropWhile_first {c : Char} {a b : Str} (h : c ∉ a) : ((a ++ c :: b).dropWhile (· ≠ c)).drop 1 = b := by
  induction a with
  | nil => simp
  | cons d a ih =>
    have h1 : d ≠ c := by rintro rfl; exact h (by simp)
    have h2 : c ∉ a := fun hc => h (by simp [hc])
    have := ih h2
    simp only [List.cons_append, List.dropWhile_cons]
    rw [if_pos (by simpa using h1), this]

theorem splitn_some {c : Char} {s a b : Str} (h : splitFirst c s = some (a, b)) (n : Nat) :
    splitn (n + 2) c s = a :: splitn (n + 1) c b := by
  obtain ⟨rfl, h2⟩ := splitFirst_some h
  simp only [splitn]
  rw [if_pos (by simp), takeWhile_first h2, dropWhile_first h2]

theorem splitn_none {c : Char} {s : Str} (h : splitFirst c s = none) (n : Nat) : splitn (n + 2) c s = [s] := by
  simp only [splitn]
  rw [if_neg (splitFirst_none h)]

theorem find_eq (c : Char) (s : Str) : find c s = (splitFirst c s).map fun x => blen x.1 := by
  induction s with
  | nil => rfl
  | cons d s ih =>
    simp only [find, splitFirst]
    split
    · rfl
    · rw [ih]
      rcases splitFirst c s with _ | ⟨a, b⟩ <;> rfl

/-- **C79**, `ImageRef::parse`: no index and no slice is out of bounds, and the result is that of
`Model/Image`. -/
theorem C79_image (s : Str) : imageParse s = some (ImageRef.parse s) := by
  have key : ∀ (registry : Option Str) (imageFull : Str),
      (match find '@' imageFull with
        | some atPos => do
          let (image, hash) ← splitAtByte imageFull atPos
          let hash ← sliceFrom hash 1
          some ({ registry, image, hash := some hash, tag := none } : ImageRef)
        | none => do
          let parts := splitn 2 ':' imageFull
          let image ← parts[0]?
          let tag := parts[1]?
          some { registry, image, tag, hash := none }) =
      some (match splitFirst '@' imageFull with
        | some (image, hash) => { registry, image, hash := some hash, tag := none }
        | none =>
          match splitFirst ':' imageFull with
          | some (image, tag) => { registry, image, tag := some tag, hash := none }
          | none => { registry, image := imageFull, tag := none, hash := none }) := by
    intro registry imageFull
    rw [find_eq]
    cases h : splitFirst '@' imageFull with
    | some x =>
      obtain ⟨a, b⟩ := x
      obtain ⟨rfl, -⟩ := splitFirst_some h
      simp only [Option.map_some, splitAtByte_append, Option.bind_eq_bind, Option.bind_some, sliceFrom]
      have : splitAtByte ('@' :: b) 1 = some (['@'], b) := splitAtByte_append ['@'] b
      rw [this]
      rfl
    | none =>
      simp only [Option.map_none]
      cases h : splitFirst ':' imageFull with
      | some x =>
        obtain ⟨a, b⟩ := x
        rw [splitn_some h 0]
        rfl
      | none =>
        rw [splitn_none h 0]
        rfl
  unfold imageParse ImageRef.parse
  cases h : splitFirst '/' s with
  | some x =>
    obtain ⟨a, b⟩ := x
    rw [splitn_some h 0]
    simp only [splitn, List.length_cons, List.length_nil, Nat.zero_add, if_true, List.getElem?_cons_zero, Option.map_some,
      Option.bind_eq_bind, Option.bind_some, List.getElem?_cons_succ]
    by_cases hr : isRegistry a = true
    · simp only [hr, if_true]
      exact key (some a) b
    · simp only [hr]
      exact key none s
  | none =>
    rw [splitn_none h 0]
    exact key none s

theorem splitn_splitOn (c : Char) (s : Str) : ∀ n, s.length ≤ n → splitn (n + 1) c s = splitOn c s := by
  induction s with
  | nil => intro n _; cases n <;> rfl
  | cons d s ih =>
    intro n hn
    cases n with
    | zero => simp at hn
    | succ n =>
      simp only [List.length_cons, Nat.add_le_add_iff_right] at hn
      simp only [splitn, splitOn]
      by_cases hd : d = c
      · subst hd
        simp only [List.mem_cons, true_or, if_true, List.takeWhile_cons, List.dropWhile_cons, ne_eq, not_true, decide_false,
          Bool.false_eq_true, if_false, List.drop_succ_cons, List.drop_zero]
        rw [ih n hn]
      · rw [if_neg hd]
        by_cases hm : c ∈ s
        · rw [if_pos (by simp [hm])]
          have := ih (n + 1) (by omega)
          simp only [splitn, if_pos hm] at this
          rw [← this]
          simp only [List.takeWhile_cons, List.dropWhile_cons]
          rw [if_pos (by simpa using hd), if_pos (by simpa using hd)]
        · have := ih (n + 1) (by omega)
          simp only [splitn, if_neg hm] at this
          rw [if_neg (by simp [hm, Ne.symm hd]), ← this]

/-- **C79**, `str::split` with one character: the pieces are those of `splitOn`. -/
theorem C79_split (c : Char) (s : Str) : split c s = splitOn c s :=
  splitn_splitOn c s _ (by omega)

/-- **C79**, the digest -/
theorem C79_digest (r : ImageRef) : (pattern hexText).map (fun h => digestOk h r) = some (checkDigest r) := by
  have hx : ∀ t, isMatch hex t = t.any isHexChar := by
    intro t
    have := C79_hex t
    rw [C79_patterns.2, Option.map_some, Option.some.injEq] at this
    exact this
  rw [C79_patterns.2, Option.map_some]
  congr 1
  unfold digestOk checkDigest
  cases r.hash with
  | none => rfl
  | some hash =>
    simp only [C79_split]
    split
    · next alg hexdata h =>
      rw [h]
      simp only [hx, Bool.not_or, Bool.not_not, bne]
    · next h =>
      split
      · next a b e => exact absurd e (h a b)
      · rfl

theorem replace_breaks (n : Nat) : ∀ s : Str, s.length ≤ n → replaceUpTo c!"\\\n" [] n s = cleanEscapedBreaks s := by
  induction n with
  | zero =>
    intro s h
    have : s = [] := by simpa using h
    subst this; rfl
  | succ n ih =>
    intro s h
    match s, h with
    | [], _ => rfl
    | c :: cs, h =>
      simp only [List.length_cons, Nat.add_le_add_iff_right] at h
      simp only [replaceUpTo]
      cases hp : stripPrefix c!"\\\n" (c :: cs) with
      | some r =>
        have e : c :: cs = '\\' :: '\n' :: r := stripPrefix_eq_some_iff.1 hp
        have hl : r.length ≤ n := by
          have := congrArg List.length e
          simp only [List.length_cons] at this
          omega
        rw [e]
        exact ih r hl
      | none =>
        simp only
        rw [ih cs h, cleanEscapedBreaks]
        rintro r rfl rfl
        cases hp

/-- **C79**, `clean_escaped_breaks` -/
theorem C79_breaks (s : Str) : cleanBreaks s = cleanEscapedBreaks s :=
  replace_breaks _ s (Nat.le_refl _)

/-! ## examples -/

/-- the longest name is taken, a name in braces is not cut, and what is neither is passed over; offsets
are in bytes -/
example : (capturesIter var 30 0 c!"é$a_1-${b}$$c${d").map (fun c => (c.whole, c.get 1, c.get 2)) =
    [(⟨2, 6⟩, some c!"a_1", none), (⟨7, 11⟩, none, some c!"b"), (⟨12, 14⟩, some c!"c", none)] := by decide +kernel

example : Lang var c!"${b}" ∧ Lang var c!"$b" ∧ ¬ Lang var c!"${}" := by
  refine ⟨lang_var.2 ⟨c!"b", by simp, ?_, .inr rfl⟩, lang_var.2 ⟨c!"b", by simp, ?_, .inl rfl⟩, ?_⟩
  · intro c hc; rw [← isWordChar_iff]; simp only [List.mem_singleton] at hc; subst hc; rfl
  · intro c hc; rw [← isWordChar_iff]; simp only [List.mem_singleton] at hc; subst hc; rfl
  · intro h
    obtain ⟨n, h1, h2, h3 | h3⟩ := lang_var.1 h
    · simp only [List.cons.injEq, true_and] at h3
      exact not_word_brace (h2 '{' (by simp [← h3]))
    · simp only [List.cons.injEq, true_and] at h3
      cases n with
      | nil => exact h1 rfl
      | cons c n => simp at h3

/-- a regular expression that is not in the code: leftmost, and the first alternative first -/
example : ((pattern c!"(a|ab)(c|bcd)+").bind fun r => search r 0 c!"xabcdc").map (fun x => (x.1.whole, x.1.get 1, x.1.get 2)) =
    some (⟨1, 6⟩, some c!"a", some c!"c") := by decide +kernel

example : imageParse c!"host:5000/a/b:1" = some ⟨some c!"host:5000", c!"a/b", some c!"1", none⟩ ∧
    imageParse c!"a@b@c:d" = some ⟨none, c!"a", none, some c!"b@c:d"⟩ ∧ imageParse [] = some ⟨none, [], none, none⟩ := by
  decide +kernel

example : splitn 2 ':' c!"a:b:c" = [c!"a", c!"b:c"] ∧ split ':' c!"a:b::" = [c!"a", c!"b", [], []] ∧ split ':' [] = [[]] ∧
    find '@' c!"é@@" = some 2 ∧ sliceFrom c!"é@" 1 = none := by decide +kernel

example : cleanBreaks c!"a\\\\\nb\\\n\\" = c!"a\\b\\" := by decide +kernel

end Rx
end Verif
