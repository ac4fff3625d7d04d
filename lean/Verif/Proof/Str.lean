import Verif.Basic

/-! Helper lemmas about `blen`, `splitAtByte`, `stripPrefix`. -/

namespace Verif

@[simp] theorem blen_nil : blen [] = 0 := rfl
@[simp] theorem blen_cons (c : Char) (cs : Str) : blen (c :: cs) = c.utf8Size + blen cs := rfl

@[simp] theorem blen_append (a b : Str) : blen (a ++ b) = blen a + blen b := by
  induction a with
  | nil => simp
  | cons c cs ih => simp [ih, Nat.add_assoc]

theorem utf8Size_pos (c : Char) : 0 < c.utf8Size := Char.utf8Size_pos c

theorem blen_eq_zero {s : Str} : blen s = 0 ↔ s = [] := by
  cases s with
  | nil => simp
  | cons c cs => have := utf8Size_pos c; simp; omega

theorem blen_pos {s : Str} (h : s ≠ []) : 0 < blen s := by
  cases s with
  | nil => exact absurd rfl h
  | cons c cs => have := utf8Size_pos c; simp; omega

theorem length_le_blen (s : Str) : s.length ≤ blen s := by
  induction s with
  | nil => simp
  | cons c cs ih => have := utf8Size_pos c; simp; omega

theorem splitAtByte_append (a b : Str) : splitAtByte (a ++ b) (blen a) = some (a, b) := by
  induction a with
  | nil => simp [splitAtByte]
  | cons c cs ih =>
    have hc := utf8Size_pos c
    have : blen (c :: cs) = (c.utf8Size + blen cs - 1) + 1 := by simp; omega
    rw [this, List.cons_append, splitAtByte]
    have h1 : c.utf8Size + blen cs - 1 + 1 = c.utf8Size + blen cs := by omega
    rw [h1]
    have h2 : c.utf8Size + blen cs - c.utf8Size = blen cs := by omega
    rw [h2, ih]
    simp

theorem splitAtByte_some {s : Str} {n : Nat} {a b : Str} (h : splitAtByte s n = some (a, b)) :
    s = a ++ b ∧ n = blen a := by
  fun_induction splitAtByte s n generalizing a b with
  | case1 s => simp at h; obtain ⟨rfl, rfl⟩ := h; simp
  | case2 => simp at h
  | case3 c cs n hle a' b' heq ih =>
    simp at h
    obtain ⟨rfl, rfl⟩ := h
    obtain ⟨h1, h2⟩ := ih heq
    subst h1
    simp
    omega
  | case4 => simp at h
  | case5 => simp at h

theorem splitAtByte_eq_some_iff {s : Str} {n : Nat} {a b : Str} :
    splitAtByte s n = some (a, b) ↔ s = a ++ b ∧ n = blen a := by
  constructor
  · exact splitAtByte_some
  · rintro ⟨rfl, rfl⟩; exact splitAtByte_append a b

theorem splitAtByte_eq_none_iff {s : Str} {n : Nat} :
    splitAtByte s n = none ↔ ¬ ∃ a b, s = a ++ b ∧ n = blen a := by
  constructor
  · rintro h ⟨a, b, h1, h2⟩
    rw [splitAtByte_eq_some_iff.mpr ⟨h1, h2⟩] at h
    cases h
  · intro h
    cases hs : splitAtByte s n with
    | none => rfl
    | some ab => exact absurd ⟨ab.1, ab.2, splitAtByte_some hs⟩ h

/-- Two decompositions at the same byte offset coincide. -/
theorem append_inj_blen {a b c d : Str} (h : a ++ b = c ++ d) (hl : blen a = blen c) :
    a = c ∧ b = d := by
  have h1 := splitAtByte_append a b
  rw [h, hl, splitAtByte_append] at h1
  simpa [eq_comm] using h1

theorem stripPrefix_eq_some_iff {w s s' : Str} : stripPrefix w s = some s' ↔ s = w ++ s' := by
  fun_induction stripPrefix w s with
  | case1 s => simp
  | case2 => simp
  | case3 => simp_all
  | case4 => simp; grind

theorem stripPrefixI_eq_some_iff {w s s' : Str} :
    stripPrefixI w s = some s' ↔ ∃ x, s = x ++ s' ∧ lower x = lower w := by
  fun_induction stripPrefixI w s with
  | case1 s => 
    constructor
    · rintro h; cases h; exact ⟨[], rfl, rfl⟩
    · rintro ⟨x, rfl, hx⟩
      have : x = [] := by simpa [lower] using hx
      simp [this]
  | case2 w ws => 
    constructor
    · intro h; cases h
    · rintro ⟨x, h1, hx⟩
      have : x = [] := by
        have := congrArg List.length h1; simp at this; exact List.eq_nil_of_length_eq_zero (by omega)
      simp [this, lower] at hx
  | case3 w ws c cs h ih =>
    rw [ih]
    constructor
    · rintro ⟨x, rfl, hx⟩
      exact ⟨c :: x, rfl, by simp [lower] at hx ⊢; exact ⟨h.symm, hx⟩⟩
    · rintro ⟨x, h1, hx⟩
      cases x with
      | nil => simp [lower] at hx
      | cons d ds =>
        simp at h1
        exact ⟨ds, h1.2, by simp [lower] at hx ⊢; exact hx.2⟩
  | case4 w ws c cs h =>
    constructor
    · intro h; cases h
    · rintro ⟨x, h1, hx⟩
      cases x with
      | nil => simp [lower] at hx
      | cons d ds =>
        simp at h1
        obtain ⟨rfl, h1⟩ := h1
        simp [lower] at hx
        exact absurd hx.1.symm h

theorem length_lower (s : Str) : (lower s).length = s.length := by simp [lower]

end Verif
