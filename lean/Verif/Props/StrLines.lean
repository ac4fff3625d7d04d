import Verif.Spec.StrLines
import Verif.Props.Parse
import Verif.Props.Splicer

/-!
# What relative spans mean in the lines of the text (C26)
-/

namespace Verif
open Spec

theorem strLines_before (x y : Str) : ∃ ps, strLines (x ++ '\n' :: y) = ps ++ strLines y ∧ ps.length = x.count '\n' + 1 := by
  induction x with
  | nil => exact ⟨[[]], by simp [strLines], rfl⟩
  | cons c x ih =>
    obtain ⟨ps, h1, h2⟩ := ih
    by_cases hc : c = '\n'
    · subst hc
      exact ⟨[] :: ps, by simp [strLines, h1], by simp [h2]⟩
    · have hcount : (c :: x).count '\n' = x.count '\n' := by simp [hc]
      rw [hcount]
      simp only [List.cons_append, strLines, if_neg hc]
      split
      · exact ⟨ps, h1, h2⟩
      · cases ps with
        | nil => simp at h2
        | cons p ps => exact ⟨(c :: p) :: ps, by simp [h1], by simpa using h2⟩

theorem strLines_last {m : Str} (hm : '\n' ∉ m) (hne : m ≠ []) : strLines m = [m] := by
  induction m with
  | nil => exact absurd rfl hne
  | cons c m ih =>
    simp only [List.mem_cons, not_or] at hm
    have h1 : ¬ (c = '\r' ∧ m.head? = some '\n') := by
      rintro ⟨-, h⟩
      cases m with
      | nil => cases h
      | cons d m => simp at h; subst h; simp at hm
    rw [strLines, if_neg (fun h => hm.1 h.symm), if_neg h1]
    by_cases hn : m = []
    · subst hn; rfl
    · rw [ih hm.2 hn]

/-- without one carriage return at the end -/
theorem strLines_first {m r : Str} (hm : '\n' ∉ m) : strLines (m ++ '\n' :: r) = (if m.getLast? = some '\r' then m.dropLast else m) :: strLines r := by
  induction m with
  | nil => simp [strLines]
  | cons c m ih =>
    simp only [List.mem_cons, not_or] at hm
    have hc : c ≠ '\n' := fun h => hm.1 h.symm
    rw [List.cons_append, strLines, if_neg hc, ih hm.2]
    cases m with
    | nil =>
      by_cases h : c = '\r'
      · subst h; simp
      · simp [h]
    | cons d m =>
      have hd : d ≠ '\n' := by rintro rfl; simp at hm
      have : ¬ (c = '\r' ∧ ((d :: m) ++ '\n' :: r).head? = some '\n') := by
        rintro ⟨-, h⟩; simp at h; exact hd h
      rw [if_neg this]
      simp only [List.getLast?_cons_cons, List.dropLast_cons_cons]
      split <;> rfl

theorem mem_split_first {t : Str} (h : '\n' ∈ t) : ∃ a b, t = a ++ '\n' :: b ∧ '\n' ∉ a := by
  induction t with
  | nil => cases h
  | cons c t ih =>
    by_cases hc : c = '\n'
    · subst hc; exact ⟨[], t, rfl, by simp⟩
    · obtain ⟨a, b, rfl, h2⟩ := ih (by simpa [Ne.symm hc] using h)
      exact ⟨c :: a, b, rfl, by simp [Ne.symm hc, h2]⟩

theorem blen_dropLast_le (m : Str) : blen m.dropLast ≤ blen m := by
  rcases List.eq_nil_or_concat m with rfl | ⟨a, c, rfl⟩
  · exact Nat.le_refl _
  · simp only [List.concat_eq_append, List.dropLast_concat, blen_append]; omega

/-- C26 (lines): the text `t`, with `m` in front of it in its first line and the lines `l` above, followed by `rest`.  The
line that `relative_span` gives is there.  If `t` goes over the end of the line, the end of the relative span is
beyond the end of the line.  Otherwise the relative span is the place of `t` in this line, unless `t` ends between
carriage return and line feed, which both are not part of the line. -/
theorem C26_line (l m t rest : Str) (hl : l = [] ∨ ∃ x, l = x ++ ['\n']) (hm : '\n' ∉ m) (ht : t ≠ []) :
    ∃ x, (strLines (l ++ m ++ t ++ rest))[l.count '\n']? = some x ∧
      ('\n' ∈ t → blen x < blen m + blen t) ∧
      ('\n' ∉ t → (∀ a b, t = a ++ ['\r'] → rest ≠ '\n' :: b) → ∃ y, x = m ++ t ++ y) ∧
      ('\n' ∉ t → ∀ a b, t = a ++ ['\r'] → rest = '\n' :: b → x = m ++ a) := by
  have key : (strLines (l ++ m ++ t ++ rest))[l.count '\n']? = (strLines (m ++ t ++ rest))[0]? := by
    rcases hl with rfl | ⟨x, rfl⟩
    · simp
    · obtain ⟨ps, h1, h2⟩ := strLines_before x (m ++ t ++ rest)
      have e : x ++ ['\n'] ++ m ++ t ++ rest = x ++ '\n' :: (m ++ t ++ rest) := by simp
      rw [e, h1, List.getElem?_append_right (by simp [h2]), List.count_append, h2]
      simp
  rw [key]
  by_cases hn : '\n' ∈ t
  · obtain ⟨a, b, rfl, ha⟩ := mem_split_first hn
    have e : m ++ (a ++ '\n' :: b) ++ rest = (m ++ a) ++ '\n' :: (b ++ rest) := by simp
    rw [e, strLines_first (by simp [hm, ha])]
    refine ⟨_, rfl, fun _ => ?_, fun h => absurd hn h, fun h => absurd hn h⟩
    have h1 : blen ('\n' :: b) = 1 + blen b := by rw [blen]; rfl
    have h2 := blen_dropLast_le (m ++ a)
    rw [blen_append, h1]
    rw [blen_append] at h2
    split
    · omega
    · rw [blen_append]; omega
  · by_cases hr : '\n' ∈ rest
    · obtain ⟨a, b, rfl, ha⟩ := mem_split_first hr
      have e : m ++ t ++ (a ++ '\n' :: b) = (m ++ t ++ a) ++ '\n' :: b := by simp
      rw [e, strLines_first (by simp [hm, ha, hn])]
      refine ⟨_, rfl, fun h => absurd h hn, fun _ h => ?_, fun _ c d h h' => ?_⟩
      · split
        · next hlast =>
          rcases List.eq_nil_or_concat a with rfl | ⟨a', c, rfl⟩
          · rcases List.eq_nil_or_concat t with rfl | ⟨t', c, rfl⟩
            · exact absurd rfl ht
            · simp at hlast
              subst hlast
              exact absurd rfl (h t' b (by simp))
          · exact ⟨a', by simp [← List.append_assoc]⟩
        · exact ⟨a, rfl⟩
      · subst h
        have : a = [] := by
          cases a with
          | nil => rfl
          | cons y ys => simp at h'; simp [h'.1] at ha
        subst this
        simp [← List.append_assoc]
    · rw [strLines_last (m := m ++ t ++ rest) (by simp [hm, hn, hr]) (by simp [ht])]
      refine ⟨_, rfl, fun h => absurd h hn, fun _ _ => ⟨rest, rfl⟩, fun _ c d _ h' => ?_⟩
      subst h'; simp at hr

/- `x`, after `RUN `, in the second line; and with the carriage return -/
example : ∃ x, (strLines (c!"FROM é\r\n" ++ c!"RUN " ++ c!"x" ++ c!"\r\n"))[1]? = some x ∧ ∃ y, x = c!"RUN " ++ c!"x" ++ y := by
  obtain ⟨x, hx, -, h, -⟩ := C26_line c!"FROM é\r\n" c!"RUN " c!"x" c!"\r\n" (.inr ⟨c!"FROM é\r", rfl⟩) (by decide) (by decide)
  exact ⟨x, hx, h (by decide) (by intro a b e; cases a with | nil => simp at e | cons _ _ => simp at e)⟩

/-- the second line of a text with both line ends -/
example : ∃ x, (strLines c!"FROM é\r\nRUN x\r\n")[1]? = some x ∧ x = c!"RUN x" := ⟨_, rfl, by decide +kernel⟩

/-- a span over two lines -/
example : (Dockerfile.parse Enquote.unquote c!"FROM a\nRUN x \\\n  y\n").toOption.map (fun d =>
      d.instructions.map fun i => (i.span.relativeSpan d, (strLines d.content)[1]?)) =
    some [(some (0, ⟨0, 6⟩), some c!"RUN x \\"), (some (1, ⟨0, 11⟩), some c!"RUN x \\")] := by
  decide +kernel

end Verif
