import Verif.Props.BehindAll

/-! # C111: which texts have no instructions -/

namespace Verif
open Spec

namespace Src

theorem not_skippable_blanks {r : Str} (h : Blanks r) : ¬ Skippable r := by
  rintro ⟨w, v, rfl, -, ⟨t, rfl⟩ | ⟨n, t, rfl, hn⟩⟩
  · rcases h '#' (by simp) with h | h <;> revert h <;> decide
  · rcases hn with rfl | rfl | ⟨rfl, -⟩
    · rcases h '\n' (by simp) with h | h <;> revert h <;> decide
    · rcases h '\r' (by simp) with h | h <;> revert h <;> decide
    · rcases h '\r' (by simp) with h | h <;> revert h <;> decide

theorem comment_trail {t w : Str} (ht : CommentText t) (hw : Blanks w) : CommentText (t ++ w) := by
  obtain ⟨b, rfl, hb⟩ := ht
  refine ⟨b ++ w, rfl, fun c hc => ?_⟩
  rcases List.mem_append.1 hc with hc | hc
  · exact hb c hc
  · rcases hw c hc with rfl | rfl <;> decide

theorem lines_idle {unq : Unquote} (ms : List (Str × Line)) : ∀ {p : Nat} {l : Line}, DocFits l ms → evalDoc unq p l ms = .ok [] →
    Idle (docText l ms) := by
  induction ms with
  | nil =>
    intro p l hf he
    have hi : l.item.eval unq (p + blen l.indent) = .ok none := by
      simp only [evalDoc] at he
      cases hv : l.item.eval unq (p + blen l.indent) with
      | error e => rw [hv] at he; cases he
      | ok i =>
        rw [hv] at he
        cases i with
        | none => rfl
        | some i => cases he
    obtain ⟨h1, h2, h3⟩ := hf
    rcases item_none hi with h4 | ⟨t, h4⟩
    · have hb : Blanks (l.indent ++ l.trail) := fun c hc => (List.mem_append.1 hc).elim (h1 c) (h3 c)
      exact ⟨[], _, rfl, .nil (not_skippable_blanks (by simpa [docText, Line.text, h4, Item.text] using hb)),
        by simpa [docText, Line.text, h4, Item.text] using hb⟩
    · rw [h4] at h2
      exact ⟨docText l [], [], by simp, by simpa [docText, Line.text, h4, Item.text] using SkipLines.lastComment h1 (comment_trail h2.1 h3),
        fun c hc => by cases hc⟩
  | cons m ms ih =>
    obtain ⟨n, m⟩ := m
    intro p l hf he
    obtain ⟨⟨h1, h2, h3⟩, hn, hf'⟩ := hf
    simp only [evalDoc] at he
    cases hv : l.item.eval unq (p + blen l.indent) with
    | error e => rw [hv] at he; cases he
    | ok i =>
      rw [hv] at he
      cases hr : evalDoc unq (p + blen l.text + blen n) m ms with
      | error e => rw [hr] at he; cases he
      | ok is =>
        rw [hr] at he
        have he : i.toList ++ is = [] := Except.ok.inj he
        obtain ⟨g1, rfl⟩ := List.append_eq_nil_iff.1 he
        cases i with
        | some i => cases g1
        | none =>
          obtain ⟨k, r, e, hk, hb⟩ := ih hf' hr
          rw [e] at hn
          rcases item_none hv with h4 | ⟨t, h4⟩
          · have hb' : Blanks (l.indent ++ l.trail) := fun c hc => (List.mem_append.1 hc).elim (h1 c) (h3 c)
            exact ⟨(l.indent ++ l.trail) ++ (n ++ k), r, by simp [docText, Line.text, h4, Item.text, e], .blank hb' hn hk, hb⟩
          · rw [h4] at h2
            exact ⟨l.indent ++ ((t ++ l.trail) ++ (n ++ k)), r, by simp [docText, Line.text, h4, Item.text, e],
              .comment h1 (comment_trail h2.1 h3) hn hk, hb⟩

theorem idle_parse (unq : Unquote) {k r : Str} (h : SkipLines k r) : Blanks r → Dockerfile.parse unq (k ++ r) = .ok (documentOf (k ++ r) []) := by
  have step : ∀ {l n s : Str}, (Blanks l ∨ ∃ w t, l = w ++ t ∧ Blanks w ∧ CommentText t) →
      LineBreak n s → Dockerfile.parse unq s = .ok (documentOf s []) →
      Dockerfile.parse unq (l ++ n ++ s) = .ok (documentOf (l ++ n ++ s) []) := by
    intro l n s hl hn hp
    rw [C33_blank_or_comment_line unq l n s hl hn, hp]
    simp [prefixed, documentOf, globalArgs, numberStages]
  induction h with
  | @nil r h =>
    intro hb
    exact C51_accepted.2 ⟨⟨r, .blank, []⟩, [], [], ⟨hb, trivial, fun c hc => by cases hc⟩,
      by simp [docText, Line.text, Item.text], rfl, rfl⟩
  | @blank w n l r hw hn _ ih => intro hb; simpa using step (.inl hw) hn (ih hb)
  | @comment w t n l r hw ht hn _ ih => intro hb; simpa using step (.inr ⟨w, t, rfl, hw, ht⟩) hn (ih hb)
  | @lastComment w t hw ht =>
    intro _
    exact C51_accepted.2 ⟨⟨w, .comment t, []⟩, [], [], ⟨hw, ⟨ht, fun c b e => by cases e⟩, fun c hc => by cases hc⟩,
      by simp [docText, Line.text, Item.text], rfl, rfl⟩

end Src

/-- C111: A text is accepted and has no instructions exactly if there are only blank lines and comments in it. -/
theorem C111_idle {unq : Unquote} {s : Str} :
    (∃ d, Dockerfile.parse unq s = .ok d ∧ d.instructions = []) ↔ Idle s := by
  constructor
  · rintro ⟨d, h, hd⟩
    obtain ⟨l, ms, is, hf, e, he, rfl⟩ := C51_accepted.1 h
    have : is = [] := by
      cases is with
      | nil => rfl
      | cons i is => cases i <;> cases hd
    subst this
    exact e ▸ Src.lines_idle ms hf he
  · rintro ⟨k, r, rfl, hk, hr⟩
    exact ⟨_, Src.idle_parse unq hk hr, rfl⟩

/-- C111: … and then nothing is made of it but the text. -/
theorem C111_empty {unq : Unquote} {s : Str} (h : Idle s) :
    Dockerfile.parse unq s = .ok { content := s, global_args := [], instructions := [] } := by
  obtain ⟨k, r, rfl, hk, hr⟩ := h
  exact Src.idle_parse unq hk hr

theorem scan_blanks {w : Str} (hw : Blanks w) (x : Str) : idleScan false (w ++ x) = idleScan false x := by
  induction w with
  | nil => rfl
  | cons c w ih =>
    have hc : c = ' ' ∨ c = '\t' ∨ c = '\n' ∨ c = '\r' := (hw c List.mem_cons_self).imp id .inl
    rw [List.cons_append, idleScan, if_pos hc]
    exact ih fun d hd => hw d (List.mem_cons_of_mem _ hd)

theorem scan_inside {b : Str} (hb : ∀ c ∈ b, c ≠ '\n' ∧ c ≠ '\r') (x : Str) : idleScan true (b ++ x) = idleScan true x := by
  induction b with
  | nil => rfl
  | cons c b ih =>
    rw [List.cons_append, idleScan, decide_eq_true (hb c List.mem_cons_self)]
    exact ih fun d hd => hb d (List.mem_cons_of_mem _ hd)

theorem scan_break {n x : Str} (hn : LineBreak n x) (f : Bool) : idleScan f (n ++ x) = idleScan false x := by
  rcases hn with rfl | rfl | ⟨rfl, -⟩ <;> cases f <;> simp [idleScan]

theorem scan_comment {t : Str} (ht : CommentText t) (x : Str) : idleScan false (t ++ x) = idleScan true x := by
  obtain ⟨b, rfl, hb⟩ := ht
  rw [← scan_inside hb x]
  simp [idleScan]

theorem scan_skip {k r : Str} (h : Src.SkipLines k r) : idleScan false (k ++ r) = idleScan false r := by
  induction h with
  | nil => rfl
  | @blank w n l r hw hn _ ih => rw [List.append_assoc, List.append_assoc, scan_blanks hw, scan_break hn, ih]
  | @comment w t n l r hw ht hn _ ih =>
    rw [List.append_assoc, List.append_assoc, List.append_assoc, scan_blanks hw, scan_comment ht, scan_break hn, ih]
  | @lastComment w t hw ht =>
    rw [List.append_assoc, scan_blanks hw, scan_comment ht]
    rfl

/-- C111: Whether this is so is found by going through the characters from the left. -/
theorem C111_scan (s : Str) : Idle s ↔ idleScan false s = true := by
  constructor
  · rintro ⟨k, r, rfl, hk, hr⟩
    rw [scan_skip hk, ← List.append_nil r, scan_blanks hr]
    rfl
  · intro h
    obtain ⟨k, r, rfl, hk⟩ := Src.exists_skip s
    rw [scan_skip hk] at h
    refine ⟨k, r, rfl, hk, ?_⟩
    have key : ∀ {r : Str}, idleScan false r = true → ¬ Src.Skippable r → Blanks r := by
      intro r
      induction r with
      | nil => intro _ _ c hc; cases hc
      | cons c r ih =>
        intro h1 h2
        have brk : c = '\n' ∨ c = '\r' → False := by
          rintro (rfl | rfl)
          · exact h2 ⟨[], _, rfl, (fun c hc => by cases hc), .inr ⟨['\n'], r, rfl, .inl rfl⟩⟩
          · refine h2 ⟨[], _, rfl, (fun c hc => by cases hc), .inr ?_⟩
            by_cases hr : ∃ t, r = '\n' :: t
            · obtain ⟨t, rfl⟩ := hr
              exact ⟨['\r', '\n'], t, rfl, .inr (.inl rfl)⟩
            · exact ⟨['\r'], r, rfl, .inr (.inr ⟨rfl, fun t e => hr ⟨t, e⟩⟩)⟩
        rw [idleScan] at h1
        split at h1
        · rename_i hc
          have hc : c = ' ' ∨ c = '\t' := by
            rcases hc with h | h | h | h
            · exact .inl h
            · exact .inr h
            · exact (brk (.inl h)).elim
            · exact (brk (.inr h)).elim
          have := ih h1 fun ⟨w, v, e, hw, hv⟩ => h2 ⟨c :: w, v, by rw [e]; rfl, fun d hd => (List.mem_cons.1 hd).elim (fun g => g ▸ hc) (hw d), hv⟩
          exact fun d hd => (List.mem_cons.1 hd).elim (fun g => g ▸ hc) (this d)
        · split at h1
          · rename_i hc
            subst hc
            exact (h2 ⟨[], _, rfl, (fun c hc => by cases hc), .inl ⟨r, rfl⟩⟩).elim
          · cases h1
    have nsk : ∀ {k r : Str}, Src.SkipLines k r → ¬ Src.Skippable r := by
      intro k r h
      induction h with
      | nil h => exact h
      | blank _ _ _ ih => exact ih
      | comment _ _ _ _ ih => exact ih
      | lastComment => exact Src.not_skippable_nil
    exact key h (nsk hk)

example : Idle c!"# a\r\n\t\r # b\n  " := by rw [C111_scan]; decide +kernel

example : ∃ d, Dockerfile.parse Enquote.unquote c!"# a\r\n\t\r # b\n  " = .ok d ∧ d.instructions = [] :=
  C111_idle.2 (by rw [C111_scan]; decide +kernel)

/-- a text that is not accepted, and one that has an instruction -/
example : ¬ Idle c!"# a\n \\\n" ∧ ¬ Idle c!"# a\n X b\n" := by rw [C111_scan, C111_scan]; decide +kernel

end Verif
