import Verif.Spec.Probe
import Verif.Props.InFront

/-! # C108: two texts decide whether lines can be put in front of every text -/

namespace Verif
open Spec

theorem body_swap {q : Char} {w : Str} (hw : QuotedBody q w) {s : Str} (h : QuotedBody q s) :
    ∀ {u v : Str}, s = u ++ v → u.getLast? ≠ some '\\' → QuotedBody q (u ++ w) := by
  have last : ∀ {c : Char} {u : Str}, (c :: u).getLast? ≠ some '\\' → u.getLast? ≠ some '\\' := by
    intro c u h
    cases u with
    | nil => simp
    | cons d u => rwa [List.getLast?_cons_cons] at h
  induction h with
  | nil =>
    intro u v e _
    cases u with
    | nil => exact hw
    | cons => cases e
  | chr h1 h2 h3 h4 _ ih =>
    intro u v e hu
    cases u with
    | nil => exact hw
    | cons c u =>
      obtain ⟨rfl, e1⟩ := List.cons.inj e
      exact .chr h1 h2 h3 h4 (ih e1 (last hu))
  | escaped h1 _ ih =>
    intro u v e hu
    cases u with
    | nil => exact hw
    | cons c u =>
      obtain ⟨rfl, e1⟩ := List.cons.inj e
      cases u with
      | nil => exact absurd rfl hu
      | cons c' u =>
        have e2 : _ :: _ = c' :: (u ++ v) := e1
        obtain ⟨g1, g2⟩ := List.cons.inj e2
        subst g1
        exact .escaped h1 (ih g2 (last (last hu)))
  | backslash h1 h2 h3 _ ih =>
    intro u v e hu
    cases u with
    | nil => exact hw
    | cons c u =>
      obtain ⟨rfl, e1⟩ := List.cons.inj e
      cases u with
      | nil => exact absurd rfl hu
      | cons c' u =>
        have e2 : _ :: _ = c' :: (u ++ v) := e1
        obtain ⟨g1, -⟩ := List.cons.inj e2
        subst g1
        exact .backslash h1 h2 h3 (ih e1 (last hu))

/-- what some text closes is closed by one of the two lines -/
theorem probe_closes {y v : Str} (hne : y ≠ []) (hy : y.getLast? ≠ some '\\') (hn : ¬ BeginsQuoted y) (h : BeginsQuoted (y ++ v)) :
    ∃ q, (q = '"' ∨ q = '\'') ∧ BeginsQuoted (y ++ probe q) := by
  obtain ⟨t, r, e, q, b, rfl, hq, hb⟩ := h
  refine ⟨q, hq, ?_⟩
  cases y with
  | nil => exact absurd rfl hne
  | cons c u =>
    have e : c :: (u ++ v) = q :: (b ++ (q :: r)) := by simpa using e
    obtain ⟨rfl, e⟩ := List.cons.inj e
    have hu : u.getLast? ≠ some '\\' := by
      cases u with
      | nil => simp
      | cons d u => rwa [List.getLast?_cons_cons] at hy
    have hw : QuotedBody c ['X', ' '] := by
      rcases hq with rfl | rfl <;>
        exact .chr (by decide) (by decide) (by decide) (by decide) (.chr (by decide) (by decide) (by decide) (by decide) .nil)
    have done : ∀ {v'}, b = u ++ v' → BeginsQuoted (c :: u ++ probe c) := fun e' =>
      ⟨c :: ((u ++ ['X', ' ']) ++ [c]), ['\n'], by simp [probe], c, _, rfl, hq, body_swap hw hb e' hu⟩
    rcases List.append_eq_append_iff.1 e with ⟨w, e1, -⟩ | ⟨w, e1, e2⟩
    · exact done e1
    · cases w with
      | nil => exact done (v' := []) (by simpa using e1.symm)
      | cons d w =>
        obtain ⟨rfl, -⟩ := List.cons.inj e2
        exact absurd ⟨c :: (b ++ [c]), w, by simp [e1], c, b, rfl, hq, hb⟩ hn

theorem probe_parse (unq : Unquote) {q : Char} (hq : q = '"' ∨ q = '\'') :
    Dockerfile.parse unq (probe q) = .ok (documentOf (probe q) (probeIs q)) := by
  rcases hq with rfl | rfl <;> rfl

theorem line_last {a z : Str} (h : LineStart a z) : a.getLast? ≠ some '\\' := by
  rcases h with rfl | ⟨s, n, rfl, rfl | rfl | ⟨rfl, -⟩⟩ <;> simp

theorem decided_iff {unq : Unquote} {a : Str} {d : Dockerfile} (h : Dockerfile.parse unq a = .ok d) (ha : LineStart a ['X'])
    (hl : ∀ i ∈ d.instructions, i.span.stop < blen a) (ho : OnlyQuotes a d) :
    (∀ q, q = '"' ∨ q = '\'' → Undisturbed a (probe q) d) ↔ QuotesDecided a d := by
  constructor
  · intro hu i hi p hp x y e hx
    refine Classical.or_iff_not_imp_left.2 fun hn v hv => ?_
    have hne : y ≠ [] := by
      rintro rfl
      rw [quoteSpots_spans] at hp
      obtain ⟨sp, hsp, rfl⟩ := List.mem_map.1 hp
      obtain ⟨t, ⟨x1, x2, -, g1, g2⟩, -⟩ := C04_spans_valid unq _ d h i hi sp (quoteSpans_of hsp)
      have := (C06_fields_within unq _ d h i hi sp (quoteSpans_of hsp)).2
      have := hl i hi
      rw [e, List.append_nil] at this
      omega
    have hy : y.getLast? ≠ some '\\' := by
      have := line_last ha
      rw [e, List.getLast?_append] at this
      cases hl : y.getLast? with
      | none => simp
      | some c => rw [hl] at this; simpa using this
    obtain ⟨q, hq, hb⟩ := probe_closes hne hy hn hv
    exact (hu q hq i hi).1 p hp x y e hx hn hb
  · intro hd q _ i hi
    exact ⟨fun p hp x y e hx hn => (hd i hi p hp x y e hx).elim (fun h => absurd h hn) fun h => h _,
      fun p hp => (ho i hi).1 p hp _, fun k hk hw => (ho i hi).2 k hk hw _⟩

/-- C108: Whole lines that are accepted, in which no array and no keyword is left open, can be put in front of every accepted text
exactly if they can be put in front of the two lines `X "` and `X '`. -/
theorem C108_probe {unq : Unquote} {a : Str} {d : Dockerfile} (h : Dockerfile.parse unq a = .ok d) (ha : LineStart a ['X'])
    (hl : ∀ i ∈ d.instructions, i.span.stop < blen a) (ho : OnlyQuotes a d) :
    (∀ z d', Dockerfile.parse unq z = .ok d' → LineStart a z → ReadTogether unq a z d.instructions d'.instructions) ↔
      ReadTogether unq a c!"X \"\n" d.instructions (probeIs '"') ∧ ReadTogether unq a c!"X '\n" d.instructions (probeIs '\'') := by
  have hs : ∀ q, LineStart a (probe q) := fun q => ha.imp id fun ⟨s, n, e, hn⟩ =>
    ⟨s, n, e, hn.imp id (Or.imp id fun g => ⟨g.1, fun r' e' => absurd (List.cons.inj e').1 (by decide)⟩)⟩
  constructor
  · exact fun hj => ⟨hj _ _ (probe_parse unq (q := '"') (.inl rfl)) (hs '"'), hj _ _ (probe_parse unq (q := '\'') (.inr rfl)) (hs '\'')⟩
  · rintro ⟨h1, h2⟩ z d' hz hz'
    refine (C107_join h hz hz' hl).2 ?_
    have hd := (decided_iff h ha hl ho).1 fun q hq => by
      rcases hq with rfl | rfl
      · exact (C107_join h (probe_parse unq (.inl rfl)) (hs '"') hl).1 h1
      · exact (C107_join h (probe_parse unq (.inr rfl)) (hs '\'') hl).1 h2
    intro i hi
    exact ⟨fun p hp x y e hx hn => (hd i hi p hp x y e hx).elim (fun h => absurd h hn) fun h => h _,
      fun p hp => (ho i hi).1 p hp _, fun k hk hw => (ho i hi).2 k hk hw _⟩

/-- C108: … and exactly if each place where quotes may start has a text in quotes or never gets one. -/
theorem C108_quotes {unq : Unquote} {a : Str} {d : Dockerfile} (h : Dockerfile.parse unq a = .ok d) (ha : LineStart a ['X'])
    (hl : ∀ i ∈ d.instructions, i.span.stop < blen a) (ho : OnlyQuotes a d) :
    (∀ z d', Dockerfile.parse unq z = .ok d' → LineStart a z → ReadTogether unq a z d.instructions d'.instructions) ↔
      QuotesDecided a d := by
  rw [C108_probe h ha hl ho, ← decided_iff h ha hl ho]
  have hs : ∀ q, LineStart a (probe q) := fun q => ha.imp id fun ⟨s, n, e, hn⟩ =>
    ⟨s, n, e, hn.imp id (Or.imp id fun g => ⟨g.1, fun r' e' => absurd (List.cons.inj e').1 (by decide)⟩)⟩
  constructor
  · rintro ⟨h1, h2⟩ q (rfl | rfl)
    · exact (C107_join h (probe_parse unq (.inl rfl)) (hs '"') hl).1 h1
    · exact (C107_join h (probe_parse unq (.inr rfl)) (hs '\'') hl).1 h2
  · exact fun hu => ⟨(C107_join h (probe_parse unq (.inl rfl)) (hs '"') hl).2 (hu _ (.inl rfl)),
      (C107_join h (probe_parse unq (.inr rfl)) (hs '\'') hl).2 (hu _ (.inr rfl))⟩

/-- a value that starts with a quote, with a control character behind it: such quotes are never closed -/
def neverA : Str := c!"ENV a=\"\x1Fb\n"
def neverDoc : Dockerfile := documentOf neverA [.env ⟨⟨0, 9⟩, [⟨⟨4, 9⟩, ⟨⟨4, 5⟩, c!"a"⟩, ⟨⟨6, 9⟩, [.string ⟨⟨6, 9⟩, c!"\"\x1Fb"⟩]⟩⟩]⟩]

theorem onlyQuotes_of {a : Str} {d : Dockerfile} (h : ∀ i ∈ d.instructions, arraySpots i = [] ∧ wordSpots i = []) : OnlyQuotes a d :=
  fun i hi => ⟨fun p hp => (by rw [(h i hi).1] at hp; cases hp), fun k hk => (by rw [(h i hi).2] at hk; cases hk)⟩

/-- it can be put in front of every text -/
example : ∀ z d', Dockerfile.parse Enquote.unquote z = .ok d' → LineStart neverA z →
    ReadTogether Enquote.unquote neverA z neverDoc.instructions d'.instructions :=
  (C108_probe (by decide +kernel) (.inr ⟨c!"ENV a=\"\x1Fb", ['\n'], rfl, .inl rfl⟩) (by decide +kernel)
    (onlyQuotes_of (by decide +kernel))).2 (by unfold ReadTogether; decide +kernel)

/-- without the control character it cannot -/
def openE : Str := c!"ENV a=\"b\n"
def openEnv : Dockerfile := documentOf openE [.env ⟨⟨0, 8⟩, [⟨⟨4, 8⟩, ⟨⟨4, 5⟩, c!"a"⟩, ⟨⟨6, 8⟩, [.string ⟨⟨6, 8⟩, c!"\"b"⟩]⟩⟩]⟩]

example : ¬ QuotesDecided openE openEnv := fun h =>
  absurd ((C108_probe (by decide +kernel) (.inr ⟨c!"ENV a=\"b", ['\n'], rfl, .inl rfl⟩) (by decide +kernel)
    (onlyQuotes_of (by decide +kernel))).1 ((C108_quotes (unq := Enquote.unquote) (by decide +kernel)
      (.inr ⟨c!"ENV a=\"b", ['\n'], rfl, .inl rfl⟩) (by decide +kernel) (onlyQuotes_of (by decide +kernel))).2 h))
    (by unfold ReadTogether; decide +kernel)

/-- C108: the condition about arrays is needed.  The two lines do not close the array, but another text does. -/
theorem C108_needed :
    (∀ q ∈ ['"', '\''], ReadTogether Enquote.unquote openA (probe q) openDoc.instructions (probeIs q)) ∧
    Dockerfile.parse Enquote.unquote c!"X \"]\n" =
      .ok (documentOf c!"X \"]\n" [.misc ⟨⟨0, 4⟩, ⟨⟨0, 1⟩, c!"X"⟩, ⟨⟨1, 4⟩, [.string ⟨⟨1, 4⟩, c!" \"]"⟩]⟩⟩]) ∧
    ¬ ReadTogether Enquote.unquote openA c!"X \"]\n" openDoc.instructions
      [.misc ⟨⟨0, 4⟩, ⟨⟨0, 1⟩, c!"X"⟩, ⟨⟨1, 4⟩, [.string ⟨⟨1, 4⟩, c!" \"]"⟩]⟩⟩] := by
  unfold ReadTogether
  decide +kernel

end Verif
