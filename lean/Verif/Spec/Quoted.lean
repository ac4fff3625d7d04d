import Verif.Spec.Print

/-!
# Texts in quotes

It is decidable whether a text is in quotes.
-/

namespace Verif
namespace Spec

/-- `r` is what may stand between quotes `q`, with one more `q` -/
def closed (q : Char) : Str → Bool
  | [] => false
  | c :: t =>
    if c = '\\' then
      match t with
      | [] => false
      | d :: u => if d = '"' ∨ d = '\'' ∨ d = '\\' then closed q u else closed q (d :: u)
    else if c = q then t.isEmpty
    else c ≠ '\x00' && c ≠ '\x1F' && closed q t

theorem closed_of {q : Char} {b : Str} (hq : q = '"' ∨ q = '\'') (h : QuotedBody q b) :
    closed q (b ++ [q]) = true := by
  have hq' : q ≠ '\\' := by rcases hq with rfl | rfl <;> decide
  induction h with
  | nil => simp [closed, hq']
  | chr h1 h2 h3 h4 _ ih =>
    rw [List.cons_append, closed.eq_def]
    simp [h1, h2, h3, h4, ih]
  | escaped h1 _ ih => simp [closed, h1, ih]
  | backslash h1 h2 h3 _ ih =>
    rw [List.cons_append, List.cons_append, closed, if_pos rfl]
    simp only [h1, h2, h3, or_self, if_false]
    exact ih

theorem of_closed {q : Char} (hq : q = '"' ∨ q = '\'') : ∀ {n : Nat} {r : Str}, r.length ≤ n → closed q r = true →
    ∃ b, r = b ++ [q] ∧ QuotedBody q b := by
  intro n
  induction n with
  | zero =>
    intro r hr h
    cases r with
    | nil => cases h
    | cons c r => cases hr
  | succ n ih =>
    intro r hr h
    cases r with
    | nil => cases h
    | cons c t =>
      rw [closed.eq_def] at h
      simp only at h
      by_cases hc : c = '\\'
      · subst hc
        rw [if_pos rfl] at h
        cases t with
        | nil => cases h
        | cons d u =>
          simp only at h
          simp only [List.length_cons] at hr
          split at h
          · obtain ⟨b, rfl, hb⟩ := ih (by omega) h
            exact ⟨'\\' :: d :: b, rfl, .escaped (by assumption) hb⟩
          · rename_i hd
            obtain ⟨b, e, hb⟩ := ih (r := d :: u) (by simp; omega) h
            cases b with
            | nil =>
              cases e
              exact absurd (hq.elim .inl fun e => .inr (.inl e)) hd
            | cons x b =>
              cases e
              exact ⟨'\\' :: d :: b, rfl, .backslash (fun e => hd (.inl e)) (fun e => hd (.inr (.inl e)))
                (fun e => hd (.inr (.inr e))) hb⟩
      · rw [if_neg hc] at h
        split at h
        · subst_vars
          cases t with
          | nil => exact ⟨[], rfl, .nil⟩
          | cons => cases h
        · rename_i hq
          simp only [Bool.and_eq_true, decide_eq_true_eq, ne_eq, decide_not, Bool.not_eq_true',
            decide_eq_false_iff_not] at h
          obtain ⟨b, rfl, hb⟩ := ih (by simp at hr; omega) h.2
          exact ⟨c :: b, rfl, .chr hq hc h.1.1 h.1.2 hb⟩

theorem quoted_iff {t : Str} : QuotedText t ↔ ∃ q r, t = q :: r ∧ (q = '"' ∨ q = '\'') ∧ closed q r = true := by
  constructor
  · rintro ⟨q, b, rfl, h1, h2⟩
    exact ⟨q, _, rfl, h1, closed_of h1 h2⟩
  · rintro ⟨q, r, rfl, h1, h2⟩
    obtain ⟨b, rfl, h3⟩ := of_closed h1 (Nat.le_refl _) h2
    exact ⟨q, b, rfl, h1, h3⟩

instance : DecidablePred QuotedText
  | [] => isFalse fun ⟨_, _, h, _⟩ => by cases h
  | q :: r => decidable_of_iff ((q = '"' ∨ q = '\'') ∧ closed q r = true) (by
      rw [quoted_iff]
      constructor
      · rintro ⟨h1, h2⟩
        exact ⟨q, r, rfl, h1, h2⟩
      · rintro ⟨_, _, e, h1, h2⟩
        cases e
        exact ⟨h1, h2⟩)

example : QuotedText c!"'a\\' \" b'" ∧ ¬ QuotedText c!"'a\\'" ∧ ¬ QuotedText c!"\"a\"b\"" := by decide

end Spec
end Verif
