import Verif.Props.Behind

/-! # C110, without the condition about keywords -/

namespace Verif
open Spec

namespace Src

section
variable {b m : Str}

/-- skipped lines that do not end in `x` end in `b`, at the same place as from the start of `b` -/
theorem skip_past {k r : Str} (h : SkipLines k r) :
    ∀ x, k ++ r = x ++ b → (x = [] ∨ Seam x b m) →
    (∃ y, x = k ++ y ∧ r = y ++ b ∧ Seam y b m) ∨ ∃ l, b = l ++ r ∧ SkipLines l r := by
  induction h with
  | nil h =>
    rintro x e (rfl | hx)
    · exact .inr ⟨[], e.symm, .nil h⟩
    · exact .inl ⟨x, rfl, e, hx⟩
  | @blank w n l r hw hn hl ih =>
    rintro x e (rfl | hx)
    · exact .inr ⟨_, e.symm, .blank hw hn hl⟩
    obtain ⟨x1, rfl, e1, hx1⟩ := hx.before (a := w) (b := n ++ (l ++ r)) (by simpa using e)
      (by intro c hc; rcases hw c hc with rfl | rfl <;> decide)
    obtain ⟨x2, rfl, e2, hx2, hn2⟩ := hx1.line e1 hn
    rcases ih x2 e2 hx2 with ⟨y, rfl, h1, h2⟩ | h2
    · exact .inl ⟨y, by simp, h1, h2⟩
    · exact .inr h2
  | @comment w c n l r hw ht hn hl ih =>
    rintro x e (rfl | hx)
    · exact .inr ⟨_, e.symm, .comment hw ht hn hl⟩
    obtain ⟨x1, rfl, e1, hx1⟩ := hx.before (a := w ++ c) (b := n ++ (l ++ r)) (by simpa using e) (by
      intro c hc
      rcases List.mem_append.1 hc with hc | hc
      · rcases hw c hc with rfl | rfl <;> decide
      · obtain ⟨b, rfl, hb⟩ := ht
        rcases List.mem_cons.1 hc with rfl | hc
        · decide
        · exact fun h => h.elim (hb c hc).1 (hb c hc).2)
    obtain ⟨x2, rfl, e2, hx2, hn2⟩ := hx1.line e1 hn
    rcases ih x2 e2 hx2 with ⟨y, rfl, h1, h2⟩ | h2
    · exact .inl ⟨y, by simp, h1, h2⟩
    · exact .inr h2
  | @lastComment w c hw ht =>
    rintro x e (rfl | hx)
    · exact .inr ⟨_, e.symm, .lastComment hw ht⟩
    obtain ⟨x1, -, e1, hx1⟩ := hx.before (a := w ++ c) (b := []) (by simpa using e) (by
      intro c hc
      rcases List.mem_append.1 hc with hc | hc
      · rcases hw c hc with rfl | rfl <;> decide
      · obtain ⟨b, rfl, hb⟩ := ht
        rcases List.mem_cons.1 hc with rfl | hc
        · decide
        · exact fun h => h.elim (hb c hc).1 (hb c hc).2)
    exact absurd (List.append_eq_nil_iff.1 e1.symm).1 hx1.brk.ne

theorem space_past {g r : Str} (h : Space g r) : ∀ x, g ++ r = x ++ b → Seam x b m →
    (∃ y, x = g ++ y ∧ r = y ++ b ∧ Seam y b m) ∨ ∃ l g', b = l ++ (g' ++ r) ∧ SkipLines l (g' ++ r) ∧ Space g' r := by
  induction h with
  | nil h => intro x e hx; exact .inl ⟨x, rfl, e, hx⟩
  | @blank c g r hc hg ih =>
    intro x e hx
    obtain ⟨x1, rfl, e1, hx1⟩ := hx.char e (by rcases hc with rfl | rfl <;> decide)
    rcases ih x1 e1 hx1 with ⟨y, rfl, h1, h2⟩ | h3
    · exact .inl ⟨y, rfl, h1, h2⟩
    · exact .inr h3
  | @continuation w n l g r hw hn hl hg ih =>
    intro x e hx
    obtain ⟨x1, rfl, e1, hx1⟩ := hx.before (a := '\\' :: w) (b := n ++ (l ++ (g ++ r))) (by simpa using e) (by
      intro c hc
      rcases List.mem_cons.1 hc with rfl | hc
      · decide
      · rcases hw c hc with rfl | rfl <;> decide)
    obtain ⟨x2, rfl, e2, hx2, hn2⟩ := hx1.line e1 hn
    rcases skip_past hl x2 e2 hx2 with ⟨y, rfl, h1, h2⟩ | ⟨l', h1, h2⟩
    · rcases ih y h1 h2 with ⟨y', rfl, h3, h4⟩ | h5
      · exact .inl ⟨y', by simp, h3, h4⟩
      · exact .inr h5
    · exact .inr ⟨l', g, h1, h2, hg⟩

variable (hb : Idle b)
include hb

/-- behind a gap that goes over idle lines there is nothing -/
theorem gap_past {g r x : Str} (h : Gap g r) (e : g ++ r = x ++ b) (hx : Seam x b m) :
    (∃ y, x = g ++ y ∧ r = y ++ b ∧ Seam y b m ∧ Gap g y) ∨ r = [] := by
  rcases space_past h.2 x e hx with ⟨y, e1, e2, hy⟩ | ⟨l, g', e1, h1, h2⟩
  · exact .inl ⟨y, e1, e2, hy, Gap.cut (e2 ▸ h)⟩
  · obtain ⟨k, r0, e2, h3, h4⟩ := hb
    obtain ⟨-, e3⟩ := h1.unique h3 (e1.symm.trans e2)
    subst e3
    right
    cases r with
    | nil => rfl
    | cons c r =>
      have hc := h4 c (by simp)
      have : ∀ {g r : Str}, Space g r → ¬ StartsSpace r := by
        intro g r h
        induction h with
        | nil h => exact h
        | blank _ _ ih => exact ih
        | continuation _ _ _ _ ih => exact ih
      exact absurd (.inl ⟨c, r, rfl, hc⟩) (this h2)

theorem flags_past {R : Str} (fs : List Flag) : ∀ {x : Str}, FlagsFit fs R → flagsText fs ++ R = x ++ b → Seam x b m →
    ∃ y, x = flagsText fs ++ y ∧ R = y ++ b ∧ Seam y b m ∧ FlagsFit fs y := by
  induction fs with
  | nil => intro x _ e hx; exact ⟨x, rfl, e, hx, trivial⟩
  | cons f fs ih =>
    intro x h e hx
    obtain ⟨⟨h1, h2, h3, h4⟩, h5⟩ := h
    have e : f.gap ++ (f.body ++ (flagsText fs ++ R)) = x ++ b := by simpa [flagsText, Flag.text] using e
    rcases gap_past hb h1 e hx with ⟨y, rfl, e1, hy, s1⟩ | h6
    · obtain ⟨y1, rfl, e2, hy1⟩ := hy.before e1 (flagBody_chars h3 h4)
      obtain ⟨y2, rfl, e3, hy2, h7⟩ := ih h5 e2 hy1
      exact ⟨y2, by simp [flagsText, Flag.text], e3, hy2, ⟨s1, h2, h3, word_less (e2 ▸ h4) hy1.brk⟩, h7⟩
    · exact absurd h6 (by simp [Flag.body])

theorem arg_past {R x : Str} {a : Arg} (h : a.Fits R) (e : a.text ++ R = x ++ b) (hx : Seam x b m) :
    ∃ y, x = a.text ++ y ∧ R = y ++ b ∧ Seam y b m ∧ a.Fits y := by
  have e : a.gap ++ (a.value ++ R) = x ++ b := by simpa [Arg.text] using e
  rcases gap_past hb h.1 e hx with ⟨y, rfl, e1, hy, s1⟩ | h6
  · obtain ⟨y1, rfl, e2, hy1⟩ := hy.before e1 (fun c hc => (h.2.chars hc).1)
    exact ⟨y1, by simp [Arg.text], e2, hy1, s1, word_less (e2 ▸ h.2) hy1.brk⟩
  · exact absurd (List.append_eq_nil_iff.1 h6).1 h.2.1

/-- idle lines do not start the arguments of a keyword -/
theorem begins_past {k x : Str} (hx : Seam x b m) (h : Begins k (x ++ b)) : Begins k x := by
  unfold Begins at h ⊢
  split
  · rename_i hk
    rw [if_pos hk] at h
    obtain ⟨fs, g, c, r, e, h1, h2, h3, h4⟩ := h
    obtain ⟨y, rfl, e1, hy, h5⟩ := flags_past hb fs h1 e.symm hx
    rcases gap_past hb h2 e1 hy with ⟨y1, rfl, e2, hy1, s1⟩ | h6
    · cases y1 with
      | nil => exact absurd rfl hy1.brk.ne
      | cons c' y1 =>
        obtain ⟨rfl, rfl⟩ := List.cons.inj e2
        exact ⟨fs, g, c, y1, rfl, h5, s1, h3, fun h => h4 (startsFlag_more h hy1.brk)⟩
    · cases h6
  rename_i hk1
  rw [if_neg hk1] at h
  split
  · rename_i hk
    rw [if_pos hk] at h
    obtain ⟨g, c, r, e, h1, h2⟩ := h
    rcases gap_past hb h1 e.symm hx with ⟨y, rfl, e1, hy, s1⟩ | h6
    · cases y with
      | nil => exact absurd rfl hy.brk.ne
      | cons c' y =>
        obtain ⟨rfl, rfl⟩ := List.cons.inj e1
        exact ⟨g, c, y, rfl, s1, h2⟩
    · cases h6
  rename_i hk2
  rw [if_neg hk2] at h
  split
  · rename_i hk
    rw [if_pos hk] at h
    obtain ⟨fs, a, c, r, e, h1, h2, h3, h4⟩ := h
    obtain ⟨y, rfl, e1, hy, h5⟩ := flags_past hb fs h1 e.symm hx
    obtain ⟨y1, rfl, e2, hy1, h6⟩ := arg_past hb h2 e1 hy
    obtain ⟨y2, rfl, e3, hy2, h7⟩ := arg_past hb h3 e2 hy1
    refine ⟨fs, a, c, y2, rfl, h5, h6, h7, fun h => h4 ?_⟩
    rw [e2]
    have := startsFlag_more (z := b) h (hy1.brk.pre _)
    simpa using this
  rename_i hk3
  rw [if_neg hk3] at h
  split
  · rename_i hk
    rw [if_pos hk] at h
    exact h.cut hx.brk.ne (hx.brk.no b)
  rename_i hk4
  rw [if_neg hk4] at h
  obtain ⟨g, r, e, h1, h2⟩ := h
  rcases gap_past hb h1 e.symm hx with ⟨y, rfl, e1, hy, s1⟩ | rfl
  · exact ⟨g, y, rfl, s1, fun h => h2 (by rw [e1]; exact h.ext hy.brk.ne)⟩
  · exact absurd (fun c b e => by cases e) h2

end

/-- the arguments of a `RUN` with a comment behind a continued line -/
def runArgs : Str := [' ', '\\', '\n', '#', '\n', '\n']

theorem not_skippable_nil : ¬ Skippable [] := by
  rintro ⟨w, v, e, -, ⟨t, rfl⟩ | ⟨n, t, rfl, rfl | rfl | ⟨rfl, -⟩⟩⟩ <;> simp at e

theorem not_startsSpace_nil : ¬ StartsSpace [] := by
  rintro (⟨c, u, e, -⟩ | ⟨w, n, u, e, -⟩) <;> cases e

theorem run_lines {k w r : Str} (h : SkipLines k (w ++ r)) (hw : Blanks w) (hr : ¬ StartsSpace r) : Gap (runArgs ++ (k ++ w)) r := by
  refine ⟨by simp [runArgs], ?_⟩
  have h1 : SkipLines (['#', '\n', '\n'] ++ k) (w ++ r) :=
    SkipLines.comment (w := []) (t := ['#']) (n := ['\n']) (l := '\n' :: k) (fun c hc => by cases hc) ⟨[], rfl, fun c hc => by cases hc⟩ (.inl rfl)
      (SkipLines.blank (w := []) (n := ['\n']) (fun c hc => by cases hc) (.inl rfl) h)
  have h2 : ∀ {w : Str}, Blanks w → Space w r := by
    intro w
    induction w with
    | nil => exact fun _ => .nil hr
    | cons c w ih => exact fun hw => .blank (hw c List.mem_cons_self) (ih fun d hd => hw d (List.mem_cons_of_mem _ hd))
  have := Space.blank (c := ' ') (.inl rfl) (Space.continuation (w := []) (n := ['\n']) (fun c hc => by cases hc) (.inl rfl) h1 (h2 hw))
  simpa [runArgs] using this

theorem not_begins_run : ¬ Begins c!"run" runArgs := by
  rintro ⟨g, r, e, h1, h2⟩
  have h3 := run_lines (k := []) (w := []) (r := []) (.nil not_skippable_nil) (fun c hc => by cases hc) not_startsSpace_nil
  obtain ⟨-, rfl⟩ := Space.unique h1.2 h3.2 (by rw [← e]; simp)
  exact h2 fun c b e => by cases e

end Src

def runA : Str := ['R', 'U', 'N'] ++ Src.runArgs
def runIs : List Instruction :=
  [.misc ⟨⟨0, 8⟩, ⟨⟨0, 3⟩, c!"RUN"⟩, ⟨⟨3, 8⟩, [.string ⟨⟨3, 4⟩, c!" "⟩, .comment ⟨⟨6, 7⟩, c!"#"⟩]⟩⟩]

theorem run_parse (unq : Unquote) : Dockerfile.parse unq runA = .ok (documentOf runA runIs) := rfl

/-- C110: Without the condition about keywords: an accepted text can be put behind all accepted lines exactly if it does not close
quotes and there are only blank lines and comments in it. -/
theorem C110_all {unq : Unquote} {z : Str} {d' : Dockerfile} (hz : Dockerfile.parse unq z = .ok d') :
    (∀ a d, Dockerfile.parse unq a = .ok d → LineStart a z → (∀ i ∈ d.instructions, i.span.stop < blen a) →
      ReadTogether unq a z d.instructions d'.instructions) ↔ ¬ ClosesQuotes z ∧ Idle z := by
  constructor
  · intro h
    refine ⟨(C110_behind hz).1 fun a d h1 h2 h3 _ => h a d h1 h2 h3, ?_⟩
    obtain ⟨k, r, e, hk⟩ := Src.exists_skip z
    subst e
    rcases Src.skip_bare hk hz with ⟨w, c, t, rfl, hw, hc⟩ | hr
    · exfalso
      have hs : LineStart runA (k ++ (w ++ c :: t)) := .inr ⟨c!"RUN \\\n#\n", ['\n'], rfl, .inl rfl⟩
      have hl : ∀ i ∈ (documentOf runA runIs).instructions, i.span.stop < blen runA := by decide
      have hu := (C107_join (run_parse unq) hz hs hl).1 (h _ _ (run_parse unq) hs hl)
      have h1 := (hu _ (List.mem_cons_self (l := []))).2.2 (c!"RUN", 3) (List.mem_singleton.2 rfl) (by unfold IsKeyword; decide)
      refine h1 c!"RUN" Src.runArgs rfl (by decide) Src.not_begins_run ?_
      have hn : ¬ Src.StartsSpace (c :: t) := by
        rintro (⟨d, u, e, hd⟩ | ⟨w, n, u, e, -⟩)
        · obtain ⟨rfl, -⟩ := List.cons.inj e
          rcases hd with rfl | rfl <;> exact absurd hc (by unfold IsAlpha; decide)
        · obtain ⟨rfl, -⟩ := List.cons.inj e
          exact absurd hc (by unfold IsAlpha; decide)
      refine ⟨Src.runArgs ++ (k ++ w), c :: t, by simp, Src.run_lines hk hw hn, fun h => ?_⟩
      rcases h c t rfl with rfl | rfl <;> exact absurd hc (by unfold IsAlpha; decide)
    · exact ⟨k, r, rfl, hk, hr⟩
  · rintro ⟨hc, hi'⟩ a d h ha hl
    exact (C107_join h hz ha hl).2 (undisturbed_behind h ha hl (fun i hi k hk _ x y e ex hn hb =>
      hn (Src.begins_past hi' (spot_seam h ha hl hi (wordSpots_span hk) e ex) hb)) hz hc)

/-- a comment can be put behind all lines; the same comment with an apostrophe, or with an instruction behind, cannot -/
example : ¬ ClosesQuotes c!"# a \n \n" ∧ Idle c!"# a \n \n" := by
  refine ⟨by rw [C110_finds]; decide +kernel, c!"# a \n \n", [], rfl, ?_, fun c hc => by cases hc⟩
  exact .comment (w := []) (t := c!"# a ") (n := ['\n']) (l := c!" \n") (fun c hc => by cases hc) ⟨c!" a ", rfl, by decide⟩ (.inl rfl)
    (.blank (w := [' ']) (n := ['\n']) (l := []) (by intro c hc; rw [List.mem_singleton.1 hc]; exact .inl rfl) (.inl rfl) (.nil Src.not_skippable_nil))

example : ClosesQuotes c!"# isn't\n" := by rw [C110_finds]; decide +kernel

example : ¬ ∀ a d, Dockerfile.parse Enquote.unquote a = .ok d → LineStart a c!"# a\nX b\n" →
    (∀ i ∈ d.instructions, i.span.stop < blen a) → ReadTogether Enquote.unquote a c!"# a\nX b\n" d.instructions
      [.misc ⟨⟨4, 7⟩, ⟨⟨4, 5⟩, c!"X"⟩, ⟨⟨5, 7⟩, [.string ⟨⟨5, 7⟩, c!" b"⟩]⟩⟩] := fun h =>
  absurd (h runA _ (run_parse _) (.inr ⟨c!"RUN \\\n#\n", ['\n'], rfl, .inl rfl⟩) (by decide)) (by unfold ReadTogether; decide +kernel)

end Verif
