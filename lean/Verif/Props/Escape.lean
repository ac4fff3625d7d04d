import Verif.Spec.Escape
import Verif.Props.Faults

/-! # Which texts in quotes can be read (C85) -/

namespace Verif
open Spec
namespace Enquote

theorem digit_iff {radix d : Nat} (hr : radix ≤ 16) {c : Char} : digit? radix c = some d ↔ DigitIs radix c d := by
  constructor
  · intro h
    have h1 : digit? 16 c = some d ∧ d < radix := by
      unfold digit? at h ⊢
      simp only at h ⊢
      split at h <;> rename_i e
      · split at h
        · cases h; simp; omega
        · cases h
      · cases h
    have h2 : ∀ n < 128, ∀ d < 16, digit? 16 (Char.ofNat n) = some d →
        c!"0123456789abcdef"[d]? = some (Char.ofNat n) ∨ c!"0123456789ABCDEF"[d]? = some (Char.ofNat n) := by
      decide +kernel
    have h3 : c.toNat < 128 := by
      unfold digit? at h1
      simp only at h1
      have hz : '9'.toNat = 57 ∧ 'f'.toNat = 102 ∧ 'F'.toNat = 70 := by decide
      have le : ∀ {a b : Char}, a ≤ b → a.toNat ≤ b.toNat := fun h => h
      split at h1
      · rename_i e; split at e
        · rename_i e'; have := le e'.2; omega
        · split at e
          · rename_i e'; have := le e'.2; omega
          · split at e
            · rename_i e'; have := le e'.2; omega
            · cases e
      · cases h1.1
    refine ⟨h1.2, ?_⟩
    have := h2 c.toNat h3 d (by omega)
    rw [Char.ofNat_toNat] at this
    exact this h1.1
  · rintro ⟨h1, h2⟩
    have h3 : ∀ d < 16, ∀ c ∈ c!"0123456789abcdefABCDEF", c!"0123456789abcdef"[d]? = some c ∨ c!"0123456789ABCDEF"[d]? = some c →
        digit? 16 c = some d := by decide +kernel
    have h4 : digit? 16 c = some d := by
      refine h3 d (by omega) c ?_ h2
      have : ∀ c ∈ c!"0123456789abcdef" ++ c!"0123456789ABCDEF", c ∈ c!"0123456789abcdefABCDEF" := by decide +kernel
      refine this c (List.mem_append.2 ?_)
      rcases h2 with h2 | h2
      · exact .inl (List.mem_of_getElem? h2)
      · exact .inr (List.mem_of_getElem? h2)
    unfold digit? at h4 ⊢
    simp only at h4 ⊢
    split at h4 <;> rename_i e
    · split at h4
      · cases h4; simp [h1]
      · cases h4
    · cases h4

theorem digits_snoc (radix : Nat) (w : Str) (c : Char) : ∀ acc, digits? radix acc (w ++ [c]) =
    (digits? radix acc w).bind fun n => (digit? radix c).map (n * radix + ·) := by
  induction w with
  | nil => intro acc; simp only [digits?, List.nil_append, Option.bind]; cases digit? radix c <;> rfl
  | cons a w ih =>
    intro acc
    simp only [digits?, List.cons_append]
    cases digit? radix a with
    | none => rfl
    | some d => exact ih _

theorem NumberIs.ne {r : Nat} {w : Str} {n : Nat} (h : NumberIs r w n) : w ≠ [] := by
  cases h <;> simp

theorem digits_iff {radix : Nat} (hr : radix ≤ 16) {w : Str} (hw : w ≠ []) : ∀ {n},
    digits? radix 0 w = some n ↔ NumberIs radix w n := by
  induction hl : w.length generalizing w with
  | zero => exact absurd (List.length_eq_zero_iff.1 hl) hw
  | succ k ih =>
    intro n
    obtain ⟨v, c, rfl⟩ : ∃ v c, w = v ++ [c] := ⟨_, _, (List.dropLast_concat_getLast hw).symm⟩
    rw [digits_snoc]
    by_cases hv : v = []
    · subst hv
      simp only [digits?, Option.bind, List.nil_append]
      constructor
      · intro h
        cases hd : digit? radix c with
        | none => rw [hd] at h; cases h
        | some d => rw [hd] at h; cases h; simpa using NumberIs.one ((digit_iff hr).1 hd)
      · intro h
        generalize hx : [c] = x at h
        cases h with
        | one h => cases hx; rw [(digit_iff hr).2 h]; simp
        | more h _ => 
          have h1 := congrArg List.length hx
          have h2 := List.length_pos_iff.2 (NumberIs.ne h)
          rw [List.length_append] at h1
          simp only [List.length_cons, List.length_nil] at h1
          omega
    · have ih' := fun n => ih hv (by simpa using hl) (n := n)
      constructor
      · intro h
        cases hn : digits? radix 0 v with
        | none => rw [hn] at h; cases h
        | some m =>
          rw [hn] at h
          cases hd : digit? radix c with
          | none => simp only [hd, Option.bind] at h; cases h
          | some d => simp only [hd, Option.bind] at h; cases h; exact .more ((ih' m).1 hn) ((digit_iff hr).1 hd)
      · intro h
        generalize hx : v ++ [c] = x at h
        cases h with
        | one h => 
          have h1 := congrArg List.length hx
          have h2 := List.length_pos_iff.2 hv
          rw [List.length_append] at h1
          simp only [List.length_cons, List.length_nil] at h1
          omega
        | more h hd =>
          obtain ⟨rfl, e⟩ := List.append_inj' hx rfl
          cases e
          rw [(ih' _).2 h, Option.bind, (digit_iff hr).2 hd]; rfl

theorem not_digit_plus {r d : Nat} : ¬ DigitIs r '+' d := by
  rintro ⟨-, h | h⟩
  · exact absurd (List.mem_of_getElem? h) (by decide)
  · exact absurd (List.mem_of_getElem? h) (by decide)

theorem NumberIs.all {r : Nat} {w : Str} {n : Nat} (h : NumberIs r w n) : ∀ c ∈ w, ∃ d, DigitIs r c d := by
  induction h with
  | one h => intro c hc; obtain rfl := List.mem_singleton.1 hc; exact ⟨_, h⟩
  | more _ h ih =>
    intro c hc
    rcases List.mem_append.1 hc with hc | hc
    · exact ih c hc
    · obtain rfl := List.mem_singleton.1 hc; exact ⟨_, h⟩

private def strip : Str → Str
  | '+' :: rest => rest
  | other => other

private def number (radix max : Nat) : Str → Option Nat
  | [] => none
  | c :: u => match digits? radix 0 (c :: u) with
    | some n => if n ≤ max then some n else none
    | none => none

private theorem fromStrRadix_eq (radix max : Nat) (w : Str) :
    fromStrRadix radix max w = number radix max (strip w) := by
  show (match strip w with
    | [] => none
    | _ => match digits? radix 0 (strip w) with
      | some n => if n ≤ max then some n else none
      | none => none) = _
  cases strip w <;> rfl

private theorem number_iff {radix max : Nat} (hr : radix ≤ 16) {u : Str} {n : Nat} :
    number radix max u = some n ↔ NumberIs radix u n ∧ n ≤ max := by
  cases u with
  | nil =>
    constructor
    · intro h; cases h
    · rintro ⟨h, -⟩; exact absurd rfl (NumberIs.ne h)
  | cons c u =>
    have hd := fun n => digits_iff hr (w := c :: u) (by simp) (n := n)
    simp only [number]
    constructor
    · intro h
      cases hn : digits? radix 0 (c :: u) with
      | none => rw [hn] at h; cases h
      | some m =>
        rw [hn] at h
        simp only at h
        split at h
        · cases h; exact ⟨(hd _).1 hn, ‹_›⟩
        · cases h
    · rintro ⟨h1, h2⟩
      rw [(hd _).2 h1]; simp [h2]

theorem fromStrRadix_iff {radix max : Nat} (hr : radix ≤ 16) {w : Str} {n : Nat} :
    fromStrRadix radix max w = some n ↔ SignedIs radix w n ∧ n ≤ max := by
  rw [fromStrRadix_eq, number_iff hr]
  unfold strip
  split
  · rename_i u
    constructor
    · rintro ⟨h1, h2⟩; exact ⟨.inr ⟨u, rfl, h1⟩, h2⟩
    · rintro ⟨h1 | ⟨u', e, h1⟩, h2⟩
      · obtain ⟨d, hd⟩ := NumberIs.all h1 '+' (by simp)
        exact absurd hd not_digit_plus
      · cases e; exact ⟨h1, h2⟩
  · rename_i hne
    constructor
    · rintro ⟨h1, h2⟩; exact ⟨.inl h1, h2⟩
    · rintro ⟨h1 | ⟨u', e, h1⟩, h2⟩
      · exact ⟨h1, h2⟩
      · exact absurd e (hne u')

/-! ## escapes -/

theorem takePad_enough : ∀ (n : Nat) (a b : Str), a.length = n → takePad n (a ++ b) = (a, b) := by
  intro n
  induction n with
  | zero => intro a b h; cases a with
    | nil => rfl
    | cons => cases h
  | succ n ih => intro a b h; cases a with
    | nil => cases h
    | cons c a => simp only [List.cons_append, takePad, ih a b (by simpa using h)]

theorem takePad_short : ∀ (n : Nat) (s : Str), s.length < n → '\x00' ∈ (takePad n s).1 := by
  intro n
  induction n with
  | zero => intro s h; cases h
  | succ n ih =>
    intro s h
    cases s with
    | nil => simp [takePad]
    | cons c s => simp only [takePad, List.mem_cons]; exact .inr (ih s (by simpa using h))

theorem not_digit_nul {r d : Nat} : ¬ DigitIs r '\x00' d := by
  rintro ⟨-, h | h⟩
  · exact absurd (List.mem_of_getElem? h) (by decide)
  · exact absurd (List.mem_of_getElem? h) (by decide)

theorem signed_nul {r n : Nat} {w : Str} (h : '\x00' ∈ w) : ¬ SignedIs r w n := by
  rintro (h1 | ⟨u, rfl, h1⟩)
  · obtain ⟨d, hd⟩ := NumberIs.all h1 _ h; exact not_digit_nul hd
  · rcases List.mem_cons.1 h with h | h
    · cases h
    · obtain ⟨d, hd⟩ := NumberIs.all h1 _ h; exact not_digit_nul hd

/-- what is taken is there, or no number -/
theorem takePad_cases (n : Nat) (s : Str) : (∃ a b, s = a ++ b ∧ a.length = n ∧ takePad n s = (a, b)) ∨
    ∀ r m x, ¬ SignedIs r (takePad n s).1 m ∧ ¬ NumberIs r (x :: (takePad n s).1) m := by
  by_cases h : s.length < n
  · refine .inr fun r m x => ⟨signed_nul (takePad_short n s h), fun h1 => ?_⟩
    obtain ⟨d, hd⟩ := NumberIs.all h1 _ (List.mem_cons_of_mem _ (takePad_short n s h))
    exact not_digit_nul hd
  · have hl : (s.take n).length = n := by rw [List.length_take]; omega
    refine .inl ⟨s.take n, s.drop n, (List.take_append_drop n s).symm, hl, ?_⟩
    have := takePad_enough n (s.take n) (s.drop n) hl
    rwa [List.take_append_drop] at this

theorem simpleEscape_iff {c v : Char} : simpleEscape c = some v ↔ (c, v) ∈ escapeTable := by
  constructor
  · intro h
    unfold simpleEscape at h
    split at h
    · rename_i e; cases h; rcases e with rfl | rfl | rfl | rfl <;> decide
    · repeat' (split at h; · rename_i e; cases h; subst e; decide)
      cases h
  · intro h
    have : ∀ x ∈ escapeTable, simpleEscape x.1 = some x.2 := by decide
    exact this _ h

theorem digitIs_bound {r d : Nat} {c : Char} (h : DigitIs r c d) : d < r := h.1

theorem numberIs_bound {r : Nat} {w : Str} {n : Nat} (h : NumberIs r w n) : n < r ^ w.length := by
  induction h with
  | one h => simpa using h.1
  | @more w n c d _ h ih =>
    have h1 := h.1
    rw [List.length_append, List.length_singleton, Nat.pow_succ]
    have : n * r + r ≤ r ^ w.length * r := by
      rw [← Nat.succ_mul]; exact Nat.mul_le_mul_right _ ih
    omega

theorem signedIs_bound {r : Nat} (hr : 0 < r) {w : Str} {n : Nat} (h : SignedIs r w n) : n < r ^ w.length := by
  rcases h with h | ⟨u, rfl, h⟩
  · exact numberIs_bound h
  · refine Nat.lt_of_lt_of_le (numberIs_bound h) (Nat.pow_le_pow_right hr (by simp))

/-- a known escape -/
theorem unescape_known {q : Char} (hq : q ≠ '\\') {n : Nat} {e : Char} {rest : Str} {v : Char} (h : simpleEscape e = some v) :
    unescape q (n + 1) ('\\' :: e :: rest) = (unescape q n rest).map (v :: ·) := by
  simp only [unescape, if_neg (Ne.symm hq), if_true, h]
  cases unescape q n rest <;> rfl

theorem decodeUnicode_ok {w : Str} {n : Nat} (h : SignedIs 16 w n) (hw : w.length ≤ 8) (hv : n.isValidChar) :
    decodeUnicode w = .ok (Char.ofNat n) := by
  have h1 := signedIs_bound (by decide) h
  have h2 : 16 ^ w.length ≤ 16 ^ 8 := Nat.pow_le_pow_right (by decide) hw
  unfold decodeUnicode
  rw [(fromStrRadix_iff (by decide)).2 ⟨h, by simp at h2; omega⟩]
  simp [hv, Char.ofNat]

theorem decodeUnicode_bad {w : Str} {n : Nat} (h : SignedIs 16 w n) (hw : w.length ≤ 8) (hv : ¬ n.isValidChar) :
    decodeUnicode w = .error .invalidUnicode := by
  have h1 := signedIs_bound (by decide) h
  have h2 : 16 ^ w.length ≤ 16 ^ 8 := Nat.pow_le_pow_right (by decide) hw
  unfold decodeUnicode
  rw [(fromStrRadix_iff (by decide)).2 ⟨h, by simp at h2; omega⟩]
  simp [hv]

theorem decodeUnicode_none {w : Str} (h : ∀ n, ¬ SignedIs 16 w n) : decodeUnicode w = .error .unrecognizedEscape := by
  unfold decodeUnicode
  cases hf : fromStrRadix 16 4294967295 w with
  | none => rfl
  | some n => exact absurd ((fromStrRadix_iff (by decide)).1 hf).1 (h n)

theorem octal_first {w : Str} {n : Nat} (h : NumberIs 8 w n) : ∃ c r, w = c :: r ∧ '0' ≤ c ∧ c ≤ '9' := by
  cases w with
  | nil => exact absurd rfl (NumberIs.ne h)
  | cons c r =>
    obtain ⟨d, h1, h2⟩ := NumberIs.all h c (by simp)
    have : ∀ d < 8, ∀ c ∈ c!"0123456789abcdefABCDEF", c!"0123456789abcdef"[d]? = some c ∨ c!"0123456789ABCDEF"[d]? = some c →
        '0' ≤ c ∧ c ≤ '9' := by decide +kernel
    refine ⟨c, r, rfl, this d h1 c ?_ h2⟩
    have : ∀ c ∈ c!"0123456789abcdef" ++ c!"0123456789ABCDEF", c ∈ c!"0123456789abcdefABCDEF" := by decide +kernel
    refine this c (List.mem_append.2 ?_)
    rcases h2 with h2 | h2
    · exact .inl (List.mem_of_getElem? h2)
    · exact .inr (List.mem_of_getElem? h2)

theorem digit_not_simple {e : Char} (h : '0' ≤ e ∧ e ≤ '9') : simpleEscape e = none := by
  cases hs : simpleEscape e with
  | none => rfl
  | some v =>
    have : ∀ x ∈ escapeTable, ¬ ('0' ≤ x.1 ∧ x.1 ≤ '9') := by decide
    exact absurd h (this _ (simpleEscape_iff.1 hs))

theorem unescape_digit {q : Char} (hq : q ≠ '\\') {n : Nat} {e : Char} {rest : Str} (h : '0' ≤ e ∧ e ≤ '9') :
    unescape q (n + 1) ('\\' :: e :: rest) = match fromStrRadix 8 255 (e :: (takePad 2 rest).1) with
      | some v => (unescape q n (takePad 2 rest).2).map (Char.ofNat v :: ·)
      | none => .error .unrecognizedEscape := by
  simp only [unescape, if_neg (Ne.symm hq), if_true, digit_not_simple h, if_pos h]
  cases fromStrRadix 8 255 (e :: (takePad 2 rest).1) with
  | none => rfl
  | some v => simp only; cases unescape q n (takePad 2 rest).2 <;> rfl

theorem unescape_x {q : Char} (hq : q ≠ '\\') {n : Nat} {rest : Str} :
    unescape q (n + 1) ('\\' :: 'x' :: rest) = match fromStrRadix 16 255 (takePad 2 rest).1 with
      | some v => (unescape q n (takePad 2 rest).2).map (Char.ofNat v :: ·)
      | none => .error .unrecognizedEscape := by
  have h1 : simpleEscape 'x' = none := by decide
  have h2 : ¬ ('0' ≤ 'x' ∧ 'x' ≤ '9') := by decide
  simp only [unescape, if_neg (Ne.symm hq), if_true, h1, if_neg h2]
  cases fromStrRadix 16 255 (takePad 2 rest).1 with
  | none => rfl
  | some v => simp only; cases unescape q n (takePad 2 rest).2 <;> rfl

theorem unescape_u {q : Char} (hq : q ≠ '\\') {n : Nat} {rest : Str} :
    unescape q (n + 1) ('\\' :: 'u' :: rest) = (decodeUnicode (takePad 4 rest).1).bind fun v =>
      (unescape q n (takePad 4 rest).2).map (v :: ·) := by
  have h1 : simpleEscape 'u' = none := by decide
  have h2 : ¬ ('0' ≤ 'u' ∧ 'u' ≤ '9') := by decide
  have h3 : ¬ ('u' = 'x') := by decide
  simp only [unescape, if_neg (Ne.symm hq), if_true, h1, if_neg h2, if_neg h3]
  cases decodeUnicode (takePad 4 rest).1 with
  | error => rfl
  | ok v => cases unescape q n (takePad 4 rest).2 <;> rfl

theorem unescape_U {q : Char} (hq : q ≠ '\\') {n : Nat} {rest : Str} :
    unescape q (n + 1) ('\\' :: 'U' :: rest) = (decodeUnicode (takePad 8 rest).1).bind fun v =>
      (unescape q n (takePad 8 rest).2).map (v :: ·) := by
  have h1 : simpleEscape 'U' = none := by decide
  have h2 : ¬ ('0' ≤ 'U' ∧ 'U' ≤ '9') := by decide
  have h3 : ¬ ('U' = 'x') := by decide
  have h4 : ¬ ('U' = 'u') := by decide
  simp only [unescape, if_neg (Ne.symm hq), if_true, h1, if_neg h2, if_neg h3, if_neg h4]
  cases decodeUnicode (takePad 8 rest).1 with
  | error => rfl
  | ok v => cases unescape q n (takePad 8 rest).2 <;> rfl

theorem unescape_escape {q : Char} (hq : q ≠ '\\') {n : Nat} {e : Str} {v : Char} {b : Str} (h : Escape e v) :
    unescape q (n + 1) ('\\' :: (e ++ b)) = (unescape q n b).map (v :: ·) := by
  cases h with
  | known h => exact unescape_known hq (simpleEscape_iff.2 h)
  | @octal w m h1 h2 h3 =>
    obtain ⟨c, r, rfl, hc⟩ := octal_first h1
    rw [List.cons_append, unescape_digit hq hc, takePad_enough 2 r b (by simpa using h2)]
    simp only
    rw [(fromStrRadix_iff (by decide)).2 ⟨.inl h1, by omega⟩]
  | @hex w m h1 h2 =>
    have h3 := signedIs_bound (by decide) h1
    rw [h2] at h3
    rw [List.cons_append, unescape_x hq, takePad_enough 2 w b h2]
    simp only
    rw [(fromStrRadix_iff (by decide)).2 ⟨h1, by simp at h3; omega⟩]
  | @short w m h1 h2 h3 =>
    rw [List.cons_append, unescape_u hq, takePad_enough 4 w b h2, decodeUnicode_ok h1 (by omega) h3]
    rfl
  | @long w m h1 h2 h3 =>
    rw [List.cons_append, unescape_U hq, takePad_enough 8 w b h2, decodeUnicode_ok h1 (by omega) h3]
    rfl

theorem unescape_code {q : Char} (hq : q ≠ '\\') {n : Nat} {e : Str} {b : Str} (h : BadCode e) :
    unescape q (n + 1) ('\\' :: (e ++ b)) = .error .invalidUnicode := by
  cases h with
  | @short w m h1 h2 h3 =>
    rw [List.cons_append, unescape_u hq, takePad_enough 4 w b h2, decodeUnicode_bad h1 (by omega) h3]
    rfl
  | @long w m h1 h2 h3 =>
    rw [List.cons_append, unescape_U hq, takePad_enough 8 w b h2, decodeUnicode_bad h1 (by omega) h3]
    rfl

theorem unescape_other {q : Char} (hq : q ≠ '\\') {n : Nat} {t : Str} (ht : t ≠ []) :
    (∃ e v b, t = e ++ b ∧ Escape e v) ∨ (∃ e b, t = e ++ b ∧ BadCode e) ∨
      unescape q (n + 1) ('\\' :: t) = .error .unrecognizedEscape := by
  cases t with
  | nil => exact absurd rfl ht
  | cons e rest =>
    cases hs : simpleEscape e with
    | some v => exact .inl ⟨[e], v, rest, rfl, .known (simpleEscape_iff.1 hs)⟩
    | none =>
      by_cases hd : '0' ≤ e ∧ e ≤ '9'
      · rw [unescape_digit hq hd]
        cases hf : fromStrRadix 8 255 (e :: (takePad 2 rest).1) with
        | none => exact .inr (.inr rfl)
        | some v =>
          obtain ⟨h1, h2⟩ := (fromStrRadix_iff (by decide)).1 hf
          have h1 : NumberIs 8 (e :: (takePad 2 rest).1) v := by
            rcases h1 with h1 | ⟨u, e', -⟩
            · exact h1
            · cases e'; exact absurd hd (by decide)
          rcases takePad_cases 2 rest with ⟨a, b, rfl, ha, hp⟩ | hn
          · rw [hp] at h1
            exact .inl ⟨e :: a, _, b, rfl, .octal h1 (by simp [ha]) (by omega)⟩
          · exact absurd h1 (hn _ _ _).2
      · by_cases hx : e = 'x'
        · subst hx
          rw [unescape_x hq]
          cases hf : fromStrRadix 16 255 (takePad 2 rest).1 with
          | none => exact .inr (.inr rfl)
          | some v =>
            obtain ⟨h1, h2⟩ := (fromStrRadix_iff (by decide)).1 hf
            rcases takePad_cases 2 rest with ⟨a, b, rfl, ha, hp⟩ | hn
            · rw [hp] at h1
              exact .inl ⟨'x' :: a, _, b, rfl, .hex h1 ha⟩
            · exact absurd h1 (hn _ _ 'x').1
        · by_cases hu : e = 'u'
          · subst hu
            rw [unescape_u hq]
            by_cases hN : ∃ m, SignedIs 16 (takePad 4 rest).1 m
            · obtain ⟨m, h1⟩ := hN
              rcases takePad_cases 4 rest with ⟨a, b, rfl, ha, hp⟩ | hn
              · rw [hp] at h1
                by_cases hv : m.isValidChar
                · exact .inl ⟨'u' :: a, _, b, rfl, .short h1 ha hv⟩
                · exact .inr (.inl ⟨'u' :: a, b, rfl, .short h1 ha hv⟩)
              · exact absurd h1 (hn _ _ 'x').1
            · rw [decodeUnicode_none fun m h => hN ⟨m, h⟩]
              exact .inr (.inr rfl)
          · by_cases hU : e = 'U'
            · subst hU
              rw [unescape_U hq]
              by_cases hN : ∃ m, SignedIs 16 (takePad 8 rest).1 m
              · obtain ⟨m, h1⟩ := hN
                rcases takePad_cases 8 rest with ⟨a, b, rfl, ha, hp⟩ | hn
                · rw [hp] at h1
                  by_cases hv : m.isValidChar
                  · exact .inl ⟨'U' :: a, _, b, rfl, .long h1 ha hv⟩
                  · exact .inr (.inl ⟨'U' :: a, b, rfl, .long h1 ha hv⟩)
                · exact absurd h1 (hn _ _ 'x').1
              · rw [decodeUnicode_none fun m h => hN ⟨m, h⟩]
                exact .inr (.inr rfl)
            · refine .inr (.inr ?_)
              simp only [unescape, if_neg (Ne.symm hq), if_true, hs, if_neg hd, if_neg hx, if_neg hu, if_neg hU]

/-! ## texts -/

theorem unescape_means {q : Char} (hq : q ≠ '\\') {b v : Str} (h : Means q b v) : ∀ n, b.length ≤ n →
    unescape q n b = .ok v := by
  induction h with
  | nil => intro n _; cases n <;> rfl
  | @chr c b v h1 h2 _ ih =>
    intro n hn
    cases n with
    | zero => cases hn
    | succ n =>
      simp only [unescape, if_neg h1, if_neg h2, ih n (by simpa using hn)]
      rfl
  | @esc e x b v h1 _ ih =>
    intro n hn
    cases n with
    | zero => cases hn
    | succ n =>
      rw [unescape_escape hq h1, ih n (by simp at hn; omega)]
      rfl

theorem unescape_wrong {q : Char} (hq : q ≠ '\\') {b : Str} {f : UnquoteError} (h : Wrong q b f) : ∀ n, b.length ≤ n →
    unescape q n b = .error f := by
  induction h with
  | quote => intro n hn; cases n with
    | zero => cases hn
    | succ n => simp only [unescape, if_true]
  | backslash => intro n hn; cases n with
    | zero => cases hn
    | succ n => simp only [unescape, if_true, if_neg (Ne.symm hq)]
  | @unknown b h1 h2 h3 => intro n hn; cases n with
    | zero => cases hn
    | succ n =>
      rcases unescape_other hq h1 (n := n) with ⟨e, v, r, e1, h⟩ | ⟨e, r, e1, h⟩ | h
      · exact absurd h (h2 _ _ _ e1)
      · exact absurd h (h3 _ _ e1)
      · exact h
  | code h => intro n hn; cases n with
    | zero => cases hn
    | succ n => exact unescape_code hq h
  | chr h1 h2 _ ih => intro n hn; cases n with
    | zero => cases hn
    | succ n =>
      simp only [unescape, if_neg h1, if_neg h2, ih n (by simpa using hn)]
      rfl
  | esc h1 _ ih => intro n hn; cases n with
    | zero => cases hn
    | succ n =>
      rw [unescape_escape hq h1, ih n (by simp at hn; omega)]
      rfl

theorem means_or_wrong {q : Char} (hq : q ≠ '\\') : ∀ (n : Nat) (b : Str), b.length ≤ n →
    (∃ v, Means q b v) ∨ ∃ f, Wrong q b f := by
  intro n
  induction n with
  | zero => intro b hb; cases b with
    | nil => exact .inl ⟨_, .nil⟩
    | cons => cases hb
  | succ n ih =>
    intro b hb
    cases b with
    | nil => exact .inl ⟨_, .nil⟩
    | cons c b =>
      by_cases h1 : c = q
      · subst h1; exact .inr ⟨_, .quote⟩
      by_cases h2 : c = '\\'
      · subst h2
        by_cases h3 : b = []
        · subst h3; exact .inr ⟨_, .backslash⟩
        by_cases h4 : ∃ e v r, b = e ++ r ∧ Escape e v
        · obtain ⟨e, v, r, rfl, h⟩ := h4
          rcases ih r (by simp at hb; omega) with ⟨v, hv⟩ | ⟨f, hf⟩
          · exact .inl ⟨_, .esc h hv⟩
          · exact .inr ⟨_, .esc h hf⟩
        by_cases h5 : ∃ e r, b = e ++ r ∧ BadCode e
        · obtain ⟨e, r, rfl, h⟩ := h5
          exact .inr ⟨_, .code h⟩
        exact .inr ⟨_, .unknown h3 (fun e x r e1 h => h4 ⟨e, x, r, e1, h⟩) (fun e r e1 h => h5 ⟨e, r, e1, h⟩)⟩
      · rcases ih b (by simpa using hb) with ⟨v, hv⟩ | ⟨f, hf⟩
        · exact .inl ⟨_, .chr h1 h2 hv⟩
        · exact .inr ⟨_, .chr h1 h2 hf⟩

theorem unescape_ok_iff {q : Char} (hq : q ≠ '\\') {b v : Str} :
    unescape q b.length b = .ok v ↔ Means q b v := by
  constructor
  · intro h
    rcases means_or_wrong hq _ b (Nat.le_refl _) with ⟨v', hv⟩ | ⟨f, hf⟩
    · rw [unescape_means hq hv _ (Nat.le_refl _)] at h; cases h; exact hv
    · rw [unescape_wrong hq hf _ (Nat.le_refl _)] at h; cases h
  · intro h; exact unescape_means hq h _ (Nat.le_refl _)

theorem unescape_error_iff {q : Char} (hq : q ≠ '\\') {b : Str} {f : UnquoteError} :
    unescape q b.length b = .error f ↔ Wrong q b f := by
  constructor
  · intro h
    rcases means_or_wrong hq _ b (Nat.le_refl _) with ⟨v', hv⟩ | ⟨f, hf⟩
    · rw [unescape_means hq hv _ (Nat.le_refl _)] at h; cases h
    · rw [unescape_wrong hq hf _ (Nat.le_refl _)] at h; cases h; exact hf
  · intro h; exact unescape_wrong hq h _ (Nat.le_refl _)

theorem unquote_body {q : Char} (hq : IsQuote q) (b : Str) : unquote (q :: (b ++ [q])) = unescape q b.length b := by
  have h1 : (b ++ [q]).getLast? = some q := by simp
  have h2 : (b ++ [q]).dropLast = b := by simp
  cases hb : b ++ [q] with
  | nil => cases b <;> cases hb
  | cons c cs =>
    rw [hb] at h1 h2
    simp only [unquote]
    rw [if_neg (by simp [h1]), if_pos (show q = '"' ∨ q = '\'' ∨ q = '`' from hq), h2]

theorem quote_ne {q : Char} (hq : IsQuote q) : q ≠ '\\' := by
  rcases hq with rfl | rfl | rfl <;> decide

end Enquote

/-- C85: exactly which texts can be unquoted, and what they stand for. -/
theorem C85_unquote (t v : Str) : Enquote.unquote t = .ok v ↔
    ∃ q b, t = q :: (b ++ [q]) ∧ IsQuote q ∧ Means q b v := by
  constructor
  · intro h
    match t, h with
    | q :: c :: cs, h =>
      have h' := h
      simp only [Enquote.unquote] at h
      split at h
      · cases h
      · rename_i h1
        split at h
        · rename_i hq
          have e : c :: cs = (c :: cs).dropLast ++ [q] := by
            have h2 : (c :: cs).getLast? = some q := by simpa using h1
            obtain ⟨ys, hy⟩ := List.getLast?_eq_some_iff.1 h2
            rw [hy]; simp
          refine ⟨q, (c :: cs).dropLast, by rw [← e], hq, (Enquote.unescape_ok_iff (Enquote.quote_ne hq)).1 h⟩
        · cases h
  · rintro ⟨q, b, rfl, hq, h⟩
    rw [Enquote.unquote_body hq]
    exact (Enquote.unescape_ok_iff (Enquote.quote_ne hq)).2 h

/-- C85: exactly what is said about a text in quotes that cannot be read: it is about the first thing
that is wrong. -/
theorem C85_wrong (q : Char) (hq : IsQuote q) (b : Str) (e : UnquoteError) :
    Enquote.unquote (q :: (b ++ [q])) = .error e ↔ Wrong q b e := by
  rw [Enquote.unquote_body hq]
  exact Enquote.unescape_error_iff (Enquote.quote_ne hq)

/-! ## texts that the grammar takes for texts in quotes -/

theorem body_chars {q : Char} : ∀ {w b : Str}, (∀ c ∈ w, c ≠ '\\' ) → QuotedBody q (w ++ b) → QuotedBody q b := by
  intro w
  induction w with
  | nil => intro b _ h; exact h
  | cons c w ih =>
    intro b hw h
    have hc := hw c (by simp)
    refine ih (fun c h => hw c (by simp [h])) ?_
    generalize hx : c :: w ++ b = x at h
    cases h with
    | nil => cases hx
    | chr _ _ _ _ h => obtain ⟨rfl, rfl⟩ := List.cons.inj hx; exact h
    | escaped _ _ => exact absurd (List.cons.inj hx).1 hc
    | backslash _ _ _ _ => exact absurd (List.cons.inj hx).1 hc

theorem digit_plain {r d : Nat} {c : Char} (h : DigitIs r c d) : c ≠ '\\' ∧ c ≠ '"' ∧ c ≠ '\'' := by
  have : ∀ c ∈ c!"0123456789abcdef" ++ c!"0123456789ABCDEF", c ≠ '\\' ∧ c ≠ '"' ∧ c ≠ '\'' := by decide
  refine this c (List.mem_append.2 ?_)
  rcases h.2 with h2 | h2
  · exact .inl (List.mem_of_getElem? h2)
  · exact .inr (List.mem_of_getElem? h2)

theorem number_plain {r n : Nat} {w : Str} (h : NumberIs r w n) : ∀ c ∈ w, c ≠ '\\' ∧ c ≠ '"' ∧ c ≠ '\'' := by
  intro c hc
  obtain ⟨d, hd⟩ := Enquote.NumberIs.all h c hc
  exact digit_plain hd

theorem signed_plain {r n : Nat} {w : Str} (h : SignedIs r w n) : ∀ c ∈ w, c ≠ '\\' ∧ c ≠ '"' ∧ c ≠ '\'' := by
  rcases h with h | ⟨u, rfl, h⟩
  · exact number_plain h
  · intro c hc
    rcases List.mem_cons.1 hc with rfl | hc
    · decide
    · exact number_plain h c hc

theorem escape_plain {e : Str} {x : Char} (h : Escape e x) :
    (∃ c, e = [c] ∧ (c = '"' ∨ c = '\'' ∨ c = '\\')) ∨ (e ≠ [] ∧ ∀ c ∈ e, c ≠ '\\' ∧ c ≠ '"' ∧ c ≠ '\'') := by
  have cons : ∀ {a : Char} {w : Str}, (a ≠ '\\' ∧ a ≠ '"' ∧ a ≠ '\'') → (∀ c ∈ w, c ≠ '\\' ∧ c ≠ '"' ∧ c ≠ '\'') →
      (a :: w ≠ [] ∧ ∀ c ∈ a :: w, c ≠ '\\' ∧ c ≠ '"' ∧ c ≠ '\'') := by
    intro a w ha hw
    refine ⟨by simp, fun c hc => ?_⟩
    rcases List.mem_cons.1 hc with rfl | hc
    · exact ha
    · exact hw c hc
  cases h with
  | @known c v h =>
    by_cases hc : c = '"' ∨ c = '\'' ∨ c = '\\'
    · exact .inl ⟨c, rfl, hc⟩
    · refine .inr ⟨by simp, fun d hd => ?_⟩
      obtain rfl := List.mem_singleton.1 hd
      exact ⟨fun e => hc (.inr (.inr e)), fun e => hc (.inl e), fun e => hc (.inr (.inl e))⟩
  | octal h1 _ _ => exact .inr ⟨Enquote.NumberIs.ne h1, number_plain h1⟩
  | hex h1 _ => exact .inr (cons (by decide) (signed_plain h1))
  | short h1 _ _ => exact .inr (cons (by decide) (signed_plain h1))
  | long h1 _ _ => exact .inr (cons (by decide) (signed_plain h1))

theorem body_escape {q : Char} {e b : Str} {x : Char} (he : Escape e x)
    (h : QuotedBody q ('\\' :: (e ++ b))) : QuotedBody q b := by
  rcases escape_plain he with ⟨c, rfl, hc⟩ | ⟨hne, hp⟩
  · generalize hx : '\\' :: ([c] ++ b) = x at h
    cases h with
    | nil => cases hx
    | chr _ h2 => exact absurd (List.cons.inj hx).1.symm h2
    | escaped _ h => cases hx; exact h
    | backslash h1 h2 h3 _ =>
      cases hx
      rcases hc with rfl | rfl | rfl
      · exact absurd rfl h1
      · exact absurd rfl h2
      · exact absurd rfl h3
  · cases e with
    | nil => exact absurd rfl hne
    | cons c e =>
      refine body_chars (w := c :: e) (fun d hd => (hp d hd).1) ?_
      have hc := hp c (by simp)
      generalize hx : '\\' :: (c :: e ++ b) = x at h
      cases h with
      | nil => cases hx
      | chr _ h2 => exact absurd (List.cons.inj hx).1.symm h2
      | escaped h1 h =>
        cases hx
        rcases h1 with rfl | rfl | rfl
        · exact absurd rfl hc.2.1
        · exact absurd rfl hc.2.2
        · exact absurd rfl hc.1
      | backslash _ _ _ h => cases hx; exact h

/-- C85: what the grammar takes for a text in quotes can only be wrong in its escapes. -/
theorem C85_grammar (t : Str) (ht : QuotedText t) (e : UnquoteError) (h : Enquote.unquote t = .error e) :
    e = .unrecognizedEscape ∨ e = .invalidUnicode := by
  obtain ⟨q, b, rfl, hq, hb⟩ := ht
  have hq' : IsQuote q := hq.imp id .inl
  have hw := (C85_wrong q hq' b e).1 h
  have hne := Enquote.quote_ne hq'
  clear h
  induction hw with
  | quote =>
    generalize hx : q :: _ = x at hb
    cases hb with
    | nil => cases hx
    | chr h => exact absurd (List.cons.inj hx).1.symm h
    | escaped => exact absurd (List.cons.inj hx).1 hne
    | backslash => exact absurd (List.cons.inj hx).1 hne
  | backslash => cases hb with | chr _ h => exact absurd rfl h
  | unknown => exact .inl rfl
  | code => exact .inr rfl
  | chr _ h2 _ ih => exact ih (body_chars (w := [_]) (by simpa using h2) hb)
  | esc he _ ih => exact ih (body_escape he hb)

/-! ## documents -/

theorem check_item {l : Src.Line} {ms : List (Str × Src.Line)} (hf : Src.DocFits l ms) {c : Src.Check}
    (h : c ∈ Src.docChecks l ms) : ∃ i r, Src.Item.Fits i r ∧ c ∈ i.checks := by
  induction ms generalizing l with
  | nil =>
    have h : c ∈ l.item.checks := by simpa [Src.docChecks] using h
    exact ⟨_, _, hf.2.1, h⟩
  | cons m ms ih =>
    obtain ⟨n, m⟩ := m
    obtain ⟨h1, -, h3⟩ := hf
    have h : c ∈ l.item.checks ∨ c ∈ Src.docChecks m ms := by
      simpa [Src.docChecks] using h
    rcases h with h | h
    · exact ⟨_, _, h1.2.1, h⟩
    · exact ih h3 h

/-- C85: which errors of unquoting a document can give: all but the one about the quotes. -/
theorem C85_never (s : Str) (e : UnquoteError)
    (h : Dockerfile.parse Enquote.unquote s = .error (.err (.unescape e))) : e ≠ .unrecognizedQuotes := by
  have hn : ¬ ¬ ∃ l ms, Src.DocFits l ms ∧ Src.docText l ms = s := by
    rw [← C51_syntax_error (unq := Enquote.unquote), h]; simp
  obtain ⟨l, ms, hf, rfl⟩ := Classical.not_not.1 hn
  obtain ⟨_, e1, h1⟩ := (C72_checks hf).1 h
  cases e1
  obtain ⟨c, hc, h2⟩ := List.exists_of_findSome?_eq_some h1
  obtain ⟨i, r, h3, h4⟩ := check_item hf hc
  cases c with
  | digest i => simp only [Src.Check.fault] at h2; split at h2 <;> cases h2
  | gap g => simp only [Src.Check.fault] at h2; split at h2 <;> cases h2
  | unquote t =>
    obtain ⟨q, u, hq, -, ht⟩ := C72_quoted h3 h4
    have ht : ∃ u, t = q :: u := by
      rcases ht with ht | ht
      · exact ⟨u, ht⟩
      · refine ⟨Src.joinLines u, ?_⟩
        rw [ht]
        rcases hq with rfl | rfl | rfl <;> rfl
    obtain ⟨u, rfl⟩ := ht
    simp only [Src.Check.fault] at h2
    rintro rfl
    cases hu : Enquote.unquote (q :: u) with
    | ok => rw [hu] at h2; cases h2
    | error e =>
      rw [hu] at h2
      cases h2
      match u, hu with
      | [], hu => cases hu
      | c :: cs, hu =>
        simp only [Enquote.unquote] at hu
        split at hu
        · cases hu
        · have hb := hu
          rw [Enquote.unescape_error_iff (Enquote.quote_ne hq)] at hb
          generalize hz : UnquoteError.unrecognizedQuotes = z at hb
          clear hu
          generalize (c :: cs).dropLast = y at hb
          induction hb with
          | chr _ _ _ ih => exact ih hz
          | esc _ _ ih => exact ih hz
          | _ => cases hz

/-- C85: all the others occur.  The second and third to last are labels in which an escaped backslash
stands at the end of a line: it is taken for a line continuation. -/
theorem C85_occur :
    [(c!"COPY \" a", UnquoteError.notEnoughChars), (c!"COPY \"a b", .unmatchedQuotes), (c!"COPY \"a\"b\" c", .illegalChar),
      (c!"ARG a=\"\\$b\"", .unrecognizedEscape), (c!"CMD [\"\\ud800\"]", .invalidUnicode),
      (c!"LABEL a=\"\\\\\n\"", .unexpectedEof), (c!"LABEL a=\"\\\\\n\\\"\"", .illegalChar),
      (c!"LABEL a=\"\\q\"", .unrecognizedEscape)].all (fun x =>
        match Dockerfile.parse Enquote.unquote x.1 with
        | .error (.err (.unescape e)) => e = x.2
        | _ => false) = true := by
  decide +kernel

/-! ## examples -/

example : Means '"' c!"a\\x41\\'" c!"aA'" :=
  .chr (by decide) (by decide) (.esc (e := c!"x41") (x := 'A')
    (.hex (w := c!"41") (n := 65) (.inl (.more (w := ['4']) (n := 4) (d := 1) (.one ⟨by decide, .inl rfl⟩) ⟨by decide, .inl rfl⟩)) rfl)
    (.esc (e := c!"'") (.known (by decide)) .nil))

/-- a plus sign in front of the digits of a number -/
example : Enquote.unquote c!"\"\\u+0e9\\101\"" = .ok c!"éA" := by decide +kernel

example : Wrong '"' c!"a\\$" .unrecognizedEscape :=
  (C85_wrong '"' (.inl rfl) _ _).1 (by decide +kernel)

example : QuotedText c!"\"\\q\"" ∧ Enquote.unquote c!"\"\\q\"" = .error .unrecognizedEscape :=
  ⟨⟨'"', c!"\\q", rfl, .inl rfl, .backslash (by decide) (by decide) (by decide)
    (.chr (by decide) (by decide) (by decide) (by decide) .nil)⟩, by decide +kernel⟩

end Verif
