import Verif.Spec.Settled
import Verif.Props.Rewrite
import Verif.Props.Faults

/-! # Documents in which nothing is left open (C103) -/

namespace Verif
open Spec

theorem quoteSpots_spans (i : Instruction) : quoteSpots i = (quoteSpans i).map (·.start) := by
  cases i with
  | arg i => cases h : i.value <;> simp [quoteSpots, quoteSpans, h]
  | label i => simp [quoteSpots, quoteSpans, List.map_flatMap]
  | env i => simp [quoteSpots, quoteSpans]
  | _ => rfl

theorem arraySpots_spans (i : Instruction) : arraySpots i = (shellSpans i).map (·.start) := by
  cases i with
  | run i => cases h : i.expr <;> simp [arraySpots, shellSpans, h]
  | cmd i => cases h : i.expr <;> simp [arraySpots, shellSpans, h]
  | entrypoint i => cases h : i.expr <;> simp [arraySpots, shellSpans, h]
  | _ => rfl

theorem quoteSpans_of {i : Instruction} {sp : Span} (h : sp ∈ quoteSpans i) : sp ∈ spansOf i := by
  refine List.mem_cons_of_mem _ ?_
  cases i with
  | arg i => cases hv : i.value <;> simp [quoteSpans, hv] at h; simp [fieldSpans, hv, h]
  | label i =>
    simp only [quoteSpans, List.mem_flatMap] at h
    obtain ⟨l, hl, h⟩ := h
    exact List.mem_flatMap.2 ⟨l, hl, List.mem_cons_of_mem _ h⟩
  | env i =>
    obtain ⟨v, hv, rfl⟩ := List.mem_map.1 h
    exact List.mem_flatMap.2 ⟨v, hv, by simp [breakableSpans]⟩
  | _ => cases h

theorem shellSpans_of {i : Instruction} {sp : Span} (h : sp ∈ shellSpans i) : sp ∈ spansOf i := by
  refine List.mem_cons_of_mem _ ?_
  cases i with
  | run i => cases hv : i.expr <;> simp [shellSpans, hv] at h; simp [fieldSpans, exprSpans, breakableSpans, hv, h]
  | cmd i => cases hv : i.expr <;> simp [shellSpans, hv] at h; simp [fieldSpans, exprSpans, breakableSpans, hv, h]
  | entrypoint i => cases hv : i.expr <;> simp [shellSpans, hv] at h; simp [fieldSpans, exprSpans, breakableSpans, hv, h]
  | _ => cases h

theorem quoteSpans_remap (f : Nat → Nat) (i : Instruction) : quoteSpans (i.remap f) = (quoteSpans i).map (·.remap f) := by
  cases i with
  | arg i => cases h : i.value <;> simp [quoteSpans, Instruction.remap, ArgInstruction.remap, SpannedString.remap, h]
  | label i => simp [quoteSpans, Instruction.remap, LabelInstruction.remap, Label.remap, SpannedString.remap, List.map_flatMap, List.flatMap_map]
  | env i => simp [quoteSpans, Instruction.remap, EnvInstruction.remap, EnvVar.remap, BreakableString.remap]
  | _ => rfl

theorem shellSpans_remap (f : Nat → Nat) (i : Instruction) : shellSpans (i.remap f) = (shellSpans i).map (·.remap f) := by
  cases i with
  | run i => cases h : i.expr <;> simp [shellSpans, Instruction.remap, ExecInstruction.remap, ShellOrExecExpr.remap, BreakableString.remap, h]
  | cmd i => cases h : i.expr <;> simp [shellSpans, Instruction.remap, ExecInstruction.remap, ShellOrExecExpr.remap, BreakableString.remap, h]
  | entrypoint i => cases h : i.expr <;> simp [shellSpans, Instruction.remap, ExecInstruction.remap, ShellOrExecExpr.remap, BreakableString.remap, h]
  | _ => rfl

theorem settled_append {s : Str} {a b : List Instruction} : Settled s (a ++ b) ↔ Settled s a ∧ Settled s b := by
  constructor
  · exact fun h => ⟨fun i hi => h i (by simp [hi]), fun i hi => h i (by simp [hi])⟩
  · rintro ⟨h1, h2⟩ i hi
    exact (List.mem_append.1 hi).elim (h1 i) (h2 i)

theorem settled_from {s : Str} (f : FromInstruction) : Settled s [.from f] := by
  intro i hi
  rw [List.mem_singleton.1 hi]
  refine ⟨fun sp h => ?_, fun sp h => ?_, fun m h => ?_⟩ <;> cases h

theorem settled_numbered {s : Str} {is : List Instruction} : ∀ n, Settled s (numberStages n is) ↔ Settled s is := by
  induction is with
  | nil => intro n; exact Iff.rfl
  | cons i is ih =>
    intro n
    cases i
    case «from» f =>
      show Settled s ([.from _] ++ numberStages (n + 1) is) ↔ Settled s ([.from f] ++ is)
      rw [settled_append, settled_append, ih]
      exact ⟨fun h => ⟨settled_from _, h.2⟩, fun h => ⟨settled_from _, h.2⟩⟩
    case arg x => exact settled_append (a := [.arg x]).trans ((and_congr Iff.rfl (ih n)).trans (settled_append (a := [.arg x])).symm)
    case label x => exact settled_append (a := [.label x]).trans ((and_congr Iff.rfl (ih n)).trans (settled_append (a := [.label x])).symm)
    case run x => exact settled_append (a := [.run x]).trans ((and_congr Iff.rfl (ih n)).trans (settled_append (a := [.run x])).symm)
    case entrypoint x => exact settled_append (a := [.entrypoint x]).trans ((and_congr Iff.rfl (ih n)).trans (settled_append (a := [.entrypoint x])).symm)
    case cmd x => exact settled_append (a := [.cmd x]).trans ((and_congr Iff.rfl (ih n)).trans (settled_append (a := [.cmd x])).symm)
    case copy x => exact settled_append (a := [.copy x]).trans ((and_congr Iff.rfl (ih n)).trans (settled_append (a := [.copy x])).symm)
    case env x => exact settled_append (a := [.env x]).trans ((and_congr Iff.rfl (ih n)).trans (settled_append (a := [.env x])).symm)
    case misc x => exact settled_append (a := [.misc x]).trans ((and_congr Iff.rfl (ih n)).trans (settled_append (a := [.misc x])).symm)

/-- texts in which the slices are the same -/
theorem settled_move {s s' : Str} {is : List Instruction} {f : Nat → Nat} (h : Settled s is)
    (hs : ∀ i ∈ is, ∀ sp ∈ quoteSpans i ++ shellSpans i, ∀ t, SliceOf s' (sp.remap f) t → SliceOf s sp t) :
    Settled s' (is.map (·.remap f)) := by
  intro j hj
  obtain ⟨i, hi, rfl⟩ := List.mem_map.1 hj
  obtain ⟨h1, h2, h3⟩ := h i hi
  refine ⟨fun sp hsp t ht => ?_, fun sp hsp t ht => ?_, fun m hm => ?_⟩
  · rw [quoteSpans_remap] at hsp
    obtain ⟨sp', hsp', rfl⟩ := List.mem_map.1 hsp
    exact h1 sp' hsp' t (hs i hi sp' (by simp [hsp']) t ht)
  · rw [shellSpans_remap] at hsp
    obtain ⟨sp', hsp', rfl⟩ := List.mem_map.1 hsp
    exact h2 sp' hsp' t (hs i hi sp' (by simp [hsp']) t ht)
  · obtain ⟨m', rfl, em⟩ := misc_of_remap hm
    rw [← em]
    exact h3 m' rfl

theorem settled_keep {s s' : Str} {is : List Instruction} (h : Settled s is)
    (hs : ∀ i ∈ is, ∀ sp ∈ spansOf i, ∀ t, SliceOf s' sp t → SliceOf s sp t) : Settled s' is := by
  intro i hi
  obtain ⟨h1, h2, h3⟩ := h i hi
  exact ⟨fun sp hsp t ht => h1 sp hsp t (hs i hi sp (quoteSpans_of hsp) t ht),
    fun sp hsp t ht => h2 sp hsp t (hs i hi sp (shellSpans_of hsp) t ht), h3⟩

/-- nothing that comes behind makes a difference -/
theorem settled_calm {unq : Unquote} {a z z' : Str} {d : Dockerfile} (h : Dockerfile.parse unq (a ++ z) = .ok d)
    {i : Instruction} (hi : i ∈ d.instructions) (hl : i.span.stop ≤ blen a) (hs : Settled (a ++ z) [i]) : Src.Calm a z' i := by
  obtain ⟨h1, h2, h3⟩ := hs i (by simp)
  have head : ∀ sp ∈ spansOf i, ∃ t, SliceOf (a ++ z) sp t ∧ t ≠ [] ∧ ∀ x y, a = x ++ y → blen x = sp.start → ∃ r, y = t ++ r := by
    intro sp hsp
    obtain ⟨t, ht, hne⟩ := C04_spans_valid unq _ d h i hi sp hsp
    have hle := (C06_fields_within unq _ d h i hi sp hsp).2
    refine ⟨t, ht, hne, fun x y e hx => ?_⟩
    obtain ⟨b, c, e', g1, g2⟩ := slice_front (r' := []) ht (by omega)
    rw [List.append_nil, e, List.append_assoc] at e'
    obtain ⟨-, rfl⟩ := append_inj_blen e' (by omega)
    exact ⟨c, rfl⟩
  refine ⟨fun p hp => ?_, fun p hp => ?_, fun k hk hkw => ?_⟩
  · rw [quoteSpots_spans] at hp
    obtain ⟨sp, hsp, rfl⟩ := List.mem_map.1 hp
    obtain ⟨t, ht, hne, hr⟩ := head sp (quoteSpans_of hsp)
    intro x y e hx hnot
    obtain ⟨r, rfl⟩ := hr x y e hx
    rcases h1 sp hsp t ht with hq | hq
    · exact absurd ⟨t, r, rfl, hq⟩ hnot
    · rintro ⟨t', r', e2, q, b, rfl, hq', -⟩
      cases t with
      | nil => exact hne rfl
      | cons c t =>
        obtain ⟨rfl, -⟩ := List.cons.inj e2
        rcases hq' with rfl | rfl
        · exact (hq t).1 rfl
        · exact (hq t).2 rfl
  · rw [arraySpots_spans] at hp
    obtain ⟨sp, hsp, rfl⟩ := List.mem_map.1 hp
    obtain ⟨t, ht, hne, hr⟩ := head sp (shellSpans_of hsp)
    intro x y e hx hnot
    obtain ⟨r, rfl⟩ := hr x y e hx
    rw [List.append_assoc]
    exact h2 sp hsp t ht (r ++ z')
  · cases i with
    | misc m => rw [List.mem_singleton.1 hk] at hkw; exact absurd hkw (h3 m rfl)
    | _ => cases hk

theorem settled_undisturbed {unq : Unquote} {a z : Str} {d : Dockerfile} (h : Dockerfile.parse unq a = .ok d)
    (hl : ∀ i ∈ d.instructions, i.span.stop ≤ blen a) (hs : Settled a d.instructions) : Undisturbed a z d := fun i hi =>
  settled_calm (z := []) (by rwa [List.append_nil]) hi (hl i hi) fun j hj => by
    rw [List.append_nil, List.mem_singleton.1 hj]
    exact hs i hi

theorem Src.blanks_space {w : Str} : ∀ {g r x : Str} {c : Char}, Blanks w → Src.Space g r → w ++ c :: x = g ++ r →
    c ≠ ' ' ∧ c ≠ '\t' ∧ c ≠ '\\' → g = w ∧ r = c :: x := by
  induction w with
  | nil =>
    intro g r x c _ hg e hc
    cases hg with
    | nil => exact ⟨rfl, e.symm⟩
    | blank hb =>
      obtain ⟨rfl, -⟩ := List.cons.inj e
      exact absurd hb (by simp [hc])
    | continuation => exact absurd (List.cons.inj e).1 hc.2.2
  | cons b w ih =>
    intro g r x c hw hg e hc
    have hb := hw b (by simp)
    cases hg with
    | nil hn => exact absurd (.inl ⟨b, w ++ c :: x, e.symm, hb⟩) hn
    | blank h hg =>
      obtain ⟨rfl, e1⟩ := List.cons.inj e
      obtain ⟨e2, e3⟩ := ih (fun c hc => hw c (by simp [hc])) hg e1 hc
      exact ⟨by rw [e2], e3⟩
    | continuation =>
      obtain ⟨rfl, -⟩ := List.cons.inj e
      exact absurd hb (by decide)

/-- a text without a bracket in front -/
theorem noArray_head {t : Str} (hne : t ≠ []) (h : ∀ r, t ≠ '[' :: r) (v : Str) : ¬ BeginsArray (t ++ v) := by
  rintro ⟨ar, r', e, -⟩
  cases t with
  | nil => exact hne rfl
  | cons c t =>
    have e3 : ∃ q, ar.text = '[' :: q := by
      cases ar <;> exact ⟨_, rfl⟩
    obtain ⟨q, e3⟩ := e3
    rw [e3] at e
    obtain ⟨rfl, -⟩ := List.cons.inj e
    exact h t rfl

/-- C103: a command like `[ -f x ]`, with anything but a quote, a bracket or a backslash behind the bracket and blanks, does not
become an array, whatever comes behind it. -/
theorem C103_bracket {w x : Str} {c : Char} (hw : Blanks w)
    (hc : c ∉ [' ', '\t', '\\', '"', '\'', ']']) (v : Str) : ¬ BeginsArray ('[' :: (w ++ c :: x) ++ v) := by
  simp only [List.mem_cons, List.not_mem_nil, or_false, not_or] at hc
  rintro ⟨ar, r', e, hf⟩
  cases ar with
  | empty g =>
    have e : w ++ c :: (x ++ v) = g ++ (']' :: r') := by simpa [Src.Array.text] using e
    obtain ⟨-, e⟩ := Src.blanks_space hw hf e ⟨hc.1, hc.2.1, hc.2.2.1⟩
    exact hc.2.2.2.2.2 (List.cons.inj e).1.symm
  | full g q es k g' =>
    have e : w ++ c :: (x ++ v) = g ++ (q ++ (Src.elemsText es ++ (Src.Array.tail k g' ++ r'))) := by simpa [Src.Array.text] using e
    obtain ⟨h1, h2, -⟩ := hf
    obtain ⟨-, e⟩ := Src.blanks_space hw h1 e ⟨hc.1, hc.2.1, hc.2.2.1⟩
    obtain ⟨y, b, rfl, hy, -⟩ := h2
    rcases hy with rfl | rfl
    · exact hc.2.2.2.1 (List.cons.inj e).1.symm
    · exact hc.2.2.2.2.1 (List.cons.inj e).1.symm

/-- C103: a command like `[ "$x" = y ]`, with a text in quotes behind the bracket, and behind that and blanks anything but a comma, a
bracket or a backslash, does not become an array, whatever comes behind it. -/
theorem C103_word {w q w' x : Str} {c : Char} (hw : Blanks w) (hq : QuotedText q) (hw' : Blanks w')
    (hc : c ∉ [' ', '\t', '\\', ',', ']']) (v : Str) : ¬ BeginsArray ('[' :: (w ++ (q ++ (w' ++ c :: x))) ++ v) := by
  simp only [List.mem_cons, List.not_mem_nil, or_false, not_or] at hc
  have hc' : c ≠ ' ' ∧ c ≠ '\t' ∧ c ≠ '\\' := ⟨hc.1, hc.2.1, hc.2.2.1⟩
  obtain ⟨y, b, eq, hy⟩ : ∃ y b, q = y :: b ∧ (y = '"' ∨ y = '\'') := by
    obtain ⟨y, b, rfl, hy, -⟩ := hq
    exact ⟨y, _, rfl, hy⟩
  have hy' : y ≠ ' ' ∧ y ≠ '\t' ∧ y ≠ '\\' := by rcases hy with rfl | rfl <;> decide
  rintro ⟨ar, r', e, hf⟩
  cases ar with
  | empty g =>
    have e : w ++ y :: (b ++ (w' ++ c :: (x ++ v))) = g ++ (']' :: r') := by simpa [Src.Array.text, eq] using e
    obtain ⟨-, e⟩ := Src.blanks_space hw hf e hy'
    obtain ⟨rfl, -⟩ := List.cons.inj e
    exact absurd hy (by decide)
  | full g q' es k g' =>
    have e : w ++ y :: (b ++ (w' ++ c :: (x ++ v))) = g ++ (q' ++ (Src.elemsText es ++ (Src.Array.tail k g' ++ r'))) := by
      simpa [Src.Array.text, eq] using e
    obtain ⟨h1, h2, h3, h4⟩ := hf
    obtain ⟨-, e⟩ := Src.blanks_space hw h1 e hy'
    rw [← List.cons_append, ← eq] at e
    obtain ⟨-, e⟩ := Src.quoted_unique h2 hq e
    cases es with
    | nil =>
      cases k with
      | false =>
        have e : w' ++ c :: (x ++ v) = g' ++ (']' :: r') := by simpa [Src.Array.tail, Src.elemsText] using e.symm
        obtain ⟨-, e⟩ := Src.blanks_space hw' h4 e hc'
        exact hc.2.2.2.2 (List.cons.inj e).1.symm
      | true =>
        have e : w' ++ c :: (x ++ v) = ',' :: (g' ++ (']' :: r')) := by simpa [Src.Array.tail, Src.elemsText] using e.symm
        cases w' with
        | nil => exact hc.2.2.2.1 (List.cons.inj e).1
        | cons a w' =>
          obtain ⟨rfl, -⟩ := List.cons.inj e
          exact absurd (hw' ',' (by simp)) (by decide)
    | cons a es =>
      have e : w' ++ c :: (x ++ v) = a.before ++ (',' :: (a.after ++ (a.value ++ (Src.elemsText es ++ (Src.Array.tail k g' ++ r'))))) := by
        simpa [Src.elemsText, Src.Elem.text] using e.symm
      obtain ⟨-, e⟩ := Src.blanks_space hw' h3.1.1 e hc'
      exact hc.2.2.2.1 (List.cons.inj e).1.symm

/-- C103: Lines that leave nothing open can be put in front of anything: the rest is read as on its own. -/
theorem C103_lines {unq : Unquote} {a z : Str} {d : Dockerfile} (h : Dockerfile.parse unq a = .ok d)
    (ha : LineStart a z) (hl : ∀ i ∈ d.instructions, i.span.stop < blen a) (hs : Settled a d.instructions) :
    Dockerfile.parse unq (a ++ z) = (Dockerfile.parse unq z).map fun d' =>
      documentOf (a ++ z) (d.instructions ++ d'.instructions.map (·.remap (· + blen a))) :=
  join_lines h ha hl (settled_undisturbed h (fun i hi => Nat.le_of_lt (hl i hi)) hs)

/-- what is in front of an instruction, in front of another text -/
theorem settled_front {unq : Unquote} {x u z z' : Str} {d : Dockerfile} {pre post : List Instruction} {i : Instruction}
    (h : Dockerfile.parse unq (x ++ (u ++ z)) = .ok d) (e : d.instructions = pre ++ i :: post)
    (h1 : i.span.start = blen x) (h2 : i.span.stop = blen (x ++ u)) (hs : Settled (x ++ (u ++ z)) pre)
    (hcr : ∀ a, x = a ++ ['\r'] → ∀ t, z' ≠ '\n' :: t) {d2 : Dockerfile} (hz : Dockerfile.parse unq z' = .ok d2) :
    Dockerfile.parse unq (x ++ z') = .ok (documentOf (x ++ z') (pre ++ d2.instructions.map (·.remap (· + blen x)))) := by
  obtain ⟨ps, l, ms, js, y, ks, m, ex, eu, ez, g1, g2, g3, g4, g5, g6, g7⟩ := place_text h e h1 h2
  have hi : Blanks l.indent := by
    cases ms with
    | nil => exact g2.1
    | cons a ms => exact g2.1.1
  have et : x ++ (u ++ z) = Src.preText ps ++ Src.docText l ms := by
    rw [ex, eu, ez, Src.docText_line]; simp
  have g1' := Src.pre_less ps g1
  have hf : Src.PreFits ps (l.indent ++ z') := by
    refine Src.pre_add (unq := unq) ps [] js g1' g3 ?_ ?_
    · intro a ha t ht
      rw [List.nil_append] at ha
      cases hind : l.indent with
      | nil =>
        rw [hind] at ex ht
        exact hcr a (by rw [ex, List.append_nil, ha]) t ht
      | cons c g =>
        rw [hind] at ht
        have := hi c (by rw [hind]; simp)
        obtain ⟨rfl, -⟩ := List.cons.inj ht
        rcases this with h | h <;> exact absurd h (by decide)
    · intro k hk
      rw [List.nil_append]
      have hst := Src.pre_spans ps 0 js g1 g3 k hk
      rcases mem_numbered 0 hk with ⟨f, rfl, -⟩ | hk
      · refine ⟨fun p h => ?_, fun p h => ?_, fun p h => ?_⟩ <;> cases h
      · rw [← g4] at hk
        rw [et] at h hs
        exact settled_calm h (by rw [e]; simp [hk]) (by omega) fun j hj => by
          rw [List.mem_singleton.1 hj]
          exact hs k hk
  have := join_pre (unq := unq) hf g3
  rw [Src.parse_blanks hi hz] at this
  rw [ex, List.append_assoc, this, g4]
  refine congrArg Except.ok ?_
  simp only [documentOf, ← Src.numberStages_remap, numberStages_app_right, globalArgs_app_right, List.map_map, numberStages_app_left,
    globalArgs_app_left]
  have : ∀ i : Instruction, (Instruction.remap (· + blen (Src.preText ps)) ∘ Instruction.remap (· + blen l.indent)) i =
      i.remap (· + blen (Src.preText ps ++ l.indent)) := fun i => by
    rw [Function.comp, Instruction.remap_remap]
    refine congrArg (Instruction.remap · i) (funext fun q => ?_)
    rw [Function.comp, blen_append]
    omega
  rw [List.map_congr_left fun i _ => this i]

/-- a place behind the first part of a text -/
theorem slice_part {a b t : Str} {k m : Nat} (h : SliceOf (a ++ b) ⟨blen a + k, blen a + m⟩ t) : SliceOf b ⟨k, m⟩ t := by
  obtain ⟨x, y, e, h1, h2⟩ := h
  simp only [] at h1 h2
  rw [List.append_assoc] at e
  rcases List.append_eq_append_iff.1 e with ⟨r, er, e2⟩ | ⟨r, er, e2⟩
  · rw [er, blen_append] at h1 h2
    exact ⟨r, y, by rw [e2, List.append_assoc], by simp only []; omega, by simp only []; omega⟩
  · rw [er, blen_append] at h1 h2
    cases r with
    | nil => exact ⟨[], y, by rw [← List.nil_append b, ← e2]; simp, by simp only [blen]; omega, by simp only [blen] at *; omega⟩
    | cons c r =>
      have := utf8Size_pos c
      rw [blen_cons] at h1
      omega

theorem slice_whole {a b t : Str} {k m : Nat} (h : SliceOf b ⟨k, m⟩ t) : SliceOf (a ++ b) ⟨blen a + k, blen a + m⟩ t := by
  obtain ⟨x, y, e, h1, h2⟩ := h
  simp only [] at h1 h2
  exact ⟨a ++ x, y, by rw [e]; simp, by rw [blen_append]; simp only []; omega, by rw [blen_append]; simp only []; omega⟩

theorem notBetween_front {x r r' : Str} {sp : Span} (h : NotBetween (x ++ r) sp) (hs : sp.stop < blen x) : NotBetween (x ++ r') sp := by
  intro a t b e h1 h2
  have e' : x ++ r' = (a ++ '\r' :: t) ++ '\n' :: b := by rw [e]; simp
  have hb : blen (a ++ '\r' :: t) = blen a + 1 + blen t := by
    rw [blen_append, blen_cons]; show _ + (1 + _) = _; omega
  rcases List.append_eq_append_iff.1 e' with ⟨k, er, e2⟩ | ⟨k, er, e2⟩
  · have := congrArg blen er
    rw [blen_append x] at this
    omega
  · cases k with
    | nil => rw [er, List.append_nil] at hs; omega
    | cons c k =>
      obtain ⟨rfl, -⟩ := List.cons.inj e2
      exact h a t (k ++ r) (by rw [er]; simp) h1 h2

theorem complete_before {unq : Unquote} {w z : Str} {ws : List Instruction} {dz : Dockerfile} (h : Complete unq w ws)
    (hz : Dockerfile.parse unq z = .ok dz) (he : w ≠ [] → z = [] ∨ ∃ c t, z = c :: t ∧ (c = '\n' ∨ c = '\r')) :
    Dockerfile.parse unq (w ++ z) = .ok (documentOf (w ++ z) (ws ++ dz.instructions.map (·.remap (· + blen w)))) := by
  by_cases hw : w = []
  · subst hw
    have h0 := h.whole [] (.inl rfl)
    have : ws = [] := by
      have e := congrArg Dockerfile.instructions (Except.ok.inj ((parse_nothing unq).symm.trans h0))
      cases ws with
      | nil => rfl
      | cons j ws => cases j <;> cases e
    subst this
    have e : ∀ i : Instruction, i.remap (· + blen []) = i := fun i =>
      (congrArg (Instruction.remap · i) (funext fun q => by simp [blen])).trans i.remap_same
    simp only [List.nil_append, e, List.map_id']
    rw [documentOf_same hz, hz]
  · refine whole_before h.whole h.inside (fun n z' d3 hn hn0 hls n0 p3 => ?_) hz (he hw)
    refine settled_undisturbed (h.whole n (.inr hn0)) (fun i hi => Nat.le_of_lt (n0 i hi)) ?_
    refine settled_keep ((settled_numbered 0).2 h.settled) fun i hi sp hsp t ht => ?_
    have := n0 i hi
    have hin := (C06_fields_within unq _ _ (h.whole n (.inr hn0)) i hi sp hsp).2
    obtain ⟨x, hx, ex⟩ := of_numbered hi
    have := h.inside x hx
    rw [ex] at this
    have := slice_front (r' := []) ht (by omega)
    rwa [List.append_nil] at this

theorem settled_step {unq : Unquote} {x u z w : Str} {ws : List Instruction} {d : Dockerfile} {pre post : List Instruction} {i : Instruction}
    (h : Dockerfile.parse unq (x ++ (u ++ z)) = .ok d) (e : d.instructions = pre ++ i :: post)
    (h1 : i.span.start = blen x) (h2 : i.span.stop = blen (x ++ u)) (hs : Settled (x ++ (u ++ z)) d.instructions)
    (hw : Complete unq w ws) : Settled (x ++ (w ++ z)) (numberStages 0 (pre ++ (ws.map (·.remap (· + blen x)) ++
      post.map (·.remap fun q => q - blen (x ++ u) + (blen x + blen w))))) := by
  rw [e, ← List.singleton_append, settled_append, settled_append] at hs
  refine (settled_numbered 0).2 (settled_append.2 ⟨?_, settled_append.2 ⟨?_, ?_⟩⟩)
  · refine settled_keep hs.1 fun j hj sp hsp t ht => ?_
    have w := C06_fields_within unq _ d h j (by rw [e]; simp [hj]) sp hsp
    obtain ⟨p1, p2, ep⟩ := List.append_of_mem hj
    have o := (C05_instructions_in_order unq _ d h p1 p2 post j i (by rw [e, ep]; simp)).1
    exact slice_front ht (by unfold Within at w; omega)
  · refine (settled_numbered 0).1 ?_
    rw [Src.numberStages_remap]
    refine settled_move ((settled_numbered 0).2 hw.settled) fun j hj sp hsp t ht => ?_
    have hin := (C06_fields_within unq _ _ (hw.whole [] (.inl rfl)) j hj sp (by
      rcases List.mem_append.1 hsp with hsp | hsp
      · exact quoteSpans_of hsp
      · exact shellSpans_of hsp)).2
    obtain ⟨y, hy, ey⟩ := of_numbered hj
    have := hw.inside y hy
    rw [ey] at this
    have := slice_part (a := x) (b := w ++ z) (k := sp.start) (m := sp.stop) (t := t) (by
      simpa only [Span.remap, Nat.add_comm] using ht)
    have := slice_front (r' := []) this (by simp only []; omega)
    rwa [List.append_nil] at this
  · refine settled_move hs.2.2 fun j hj sp hsp t ht => ?_
    have hsp : sp ∈ spansOf j := by
      rcases List.mem_append.1 hsp with hsp | hsp
      · exact quoteSpans_of hsp
      · exact shellSpans_of hsp
    have w1 := C06_fields_within unq _ d h j (by rw [e]; simp [hj]) sp hsp
    have b := C04_span_bounds unq _ d h j (by rw [e]; simp [hj]) sp hsp
    obtain ⟨p1, p2, ep⟩ := List.append_of_mem hj
    have o := (C05_instructions_in_order unq _ d h pre p1 p2 i j (by rw [e, ep])).1
    unfold Within at w1
    have g := slice_part (a := x ++ w) (b := z) (k := sp.start - blen (x ++ u)) (m := sp.stop - blen (x ++ u)) (t := t) (by
      rw [List.append_assoc]
      simpa only [Span.remap, Nat.add_comm, blen_append] using ht)
    have g2 := slice_whole (a := x ++ u) g
    rw [List.append_assoc, Nat.add_sub_cancel' (by omega), Nat.add_sub_cancel' (by omega)] at g2
    exact g2

/-- C103: Replace or delete any of the instructions of a document that leaves nothing open, by splicing other texts into their
places with one splicer, in any order.  Each of the new texts is accepted on its own and leaves nothing open; what is in it, and what
it replaces, is of no concern.  Where something is put in, the line ends after the instruction; an instruction that is deleted is not
all there is between a carriage return and a newline.  Then the text is accepted, its instructions are those of the new texts, at
their places, and the others, moved, and nothing is left open again. -/
theorem C103_rewrite {unq : Unquote} {s : Str} {d : Dockerfile} (h : Dockerfile.parse unq s = .ok d)
    (hs : Settled s d.instructions) (new : Instruction → Option Str)
    (ws : Str → List Instruction) (hn : ∀ i ∈ d.instructions, ∀ w, new i = some w → Complete unq w (ws w))
    (hl : ∀ i ∈ d.instructions, ∀ w, new i = some w → w ≠ [] → EndsLine s i.span.stop)
    (hb : ∀ i ∈ d.instructions, new i = some [] → NotBetween s i.span) (es : List Edit)
    (he : es.Perm (rewrites new d.instructions)) :
    ∃ sp d', (Splicer.ofDockerfile d).spliceAll es = some sp ∧ sp.content = simul (rewrites new d.instructions) 0 s ∧
      d' = documentOf sp.content (rewritten new ws (rewrites new d.instructions) d.instructions) ∧
      Dockerfile.parse unq sp.content = .ok d' ∧ Settled sp.content d'.instructions := by
  have e : d.instructions = d.instructions ++ [] := by simp
  have hg := rewrites_disjoint h new e
  have hcon : d.content = s := ((ens_parse unq s).ok_of h).1
  obtain ⟨sp', sp, -, h1, h2, h3⟩ := C22_order_independent s (rewrites new d.instructions) es he.symm (fun f hf => by
    obtain ⟨i, hi, w, -, rfl⟩ := mem_rewrites hf
    obtain ⟨t, h1, h2⟩ := C04_spans_valid unq s d h i hi i.span (by simp [spansOf])
    exact ⟨⟨t, h1⟩, hg.1 _ hf⟩) hg.2
  refine ⟨sp, _, by rw [Splicer.ofDockerfile, hcon]; exact h1, by rw [← h2, h3], rfl, ?_⟩
  rw [← h2, h3]
  have := replaced (unq := unq) new ws Settled
    (fun s i w => Complete unq w (ws w) ∧ (w ≠ [] → EndsLine s i.span.stop) ∧ (w = [] → NotBetween s i.span))
    (fun x r r' i w hs hq => ⟨hq.1, fun hw => endsLine_front (hq.2.1 hw) hs, fun hw => notBetween_front (hq.2.2 hw) hs⟩)
    (fun x u z d pre i post w h e h1 h2 hu hk ho hq => by
      obtain ⟨hst, hend, hbet⟩ := hq
      refine ⟨replace_at h e h1 h2 (fun dz hz => complete_before hst hz fun hw => hend hw (x ++ u) z (by simp) h2.symm)
        (fun d2 hwz => settled_front h e h1 h2 (by rw [e] at hk; exact (settled_append.1 hk).1) (by
          intro a ha t ht
          by_cases hw : w = []
          · subst hw
            rw [List.nil_append] at ht
            refine hbet rfl a u t (by rw [ha, ht]; simp) ?_ ?_
            · rw [h1, ha, blen_append]; rfl
            · rw [h2, ha, blen_append, blen_append]; rfl
          · cases w with
            | nil => exact hw rfl
            | cons c w =>
              rw [List.cons_append] at ht
              obtain ⟨rfl, -⟩ := List.cons.inj ht
              exact hst.first _ rfl) hwz), settled_step h e h1 h2 hk hst⟩)
    d.instructions h e hs fun i hi w hw =>
    ⟨hn i hi w hw, hl i hi w hw, fun hw' => hb i hi (by rw [hw, hw'])⟩
  rwa [List.map_nil, List.append_nil] at this

/-- C103: Which texts are accepted with every line break after them: those that are with a line feed, when their instructions end
before it, that have no carriage returns and no strings in quotes across two lines, and do not end with a backslash. -/
theorem C103_complete {unq : Unquote} {w : Str} {d : Dockerfile} (h1 : ∀ t, w ≠ '\n' :: t)
    (ho : ¬ OpenEnd w) (hr : '\r' ∉ w) (h : Dockerfile.parse unq (w ++ c!"\n") = .ok d)
    (hi : ∀ i ∈ d.instructions, i.span.stop ≤ blen w) (hq : OnOneLine (w ++ c!"\n") d)
    (hs : Settled w d.instructions) : Complete unq w d.instructions := by
  refine ⟨h1, fun n hn => ?_, hi, hs⟩
  have other : n ≠ [] → unixEnds (w ++ n) = w ++ c!"\n" →
      Dockerfile.parse unq (w ++ n) = .ok (documentOf (w ++ n) d.instructions) := by
    intro hne hu
    have hp := C90_back (unq := unq) (t := w ++ n) (d := d) (by rw [hu]; exact h) (by rw [hu]; exact hq)
    have keep : ∀ a b, w = a ++ b → fromUnix (w ++ n) (blen a) = blen a := by
      rintro a b rfl
      have hra : '\r' ∉ a := fun h => hr (by simp [h])
      have := (C90_positions (a := a) (b := b ++ n) (by
        rintro ⟨⟨x, rfl⟩, -⟩
        exact hra (by simp))).2.2
      rwa [(C90_ends a).2.1 hra, ← List.append_assoc] at this
    have same : d.instructions.map (·.remap (fromUnix (w ++ n))) = d.instructions := by
      refine (List.map_congr_left fun i him => ?_).trans (List.map_id _)
      refine (i.remap_congr fun sp hsp => ?_).trans i.remap_same
      obtain ⟨t, ht, -⟩ := C04_spans_valid unq _ d h i him sp hsp
      have hle := (C06_fields_within unq _ d h i him sp hsp).2
      have := hi i him
      obtain ⟨a, c, e, s1, s2⟩ := slice_front (r' := []) ht (by omega)
      rw [List.append_nil] at e
      have k1 := keep a (t ++ c) (by rw [e]; simp)
      have k2 := keep (a ++ t) c e
      rw [blen_append] at k2
      simp only [Span.remap, s1, s2, k1, k2, Nat.add_zero]
    have hd := documentOf_same hp
    rw [hp, ← hd]
    show Except.ok (documentOf _ (d.instructions.map _)) = _
    rw [same]
  rcases hn with rfl | rfl | rfl | ⟨rfl, -⟩
  · rw [List.append_nil]
    cases hw : Dockerfile.parse unq w with
    | error f => rw [(C68_final_error ho f).2 hw] at h; cases h
    | ok dw =>
      obtain ⟨d', p1, -, -, p2⟩ := C68_final_break ho hw
      rw [h] at p1
      cases p1
      rcases p2 with p2 | ⟨pre, x, y, -, e2, -, -, -, -, e3⟩
      · rw [p2, documentOf_same hw]
      · have := hi y (by rw [e2]; simp)
        rw [e3] at this
        simp only [] at this
        omega
  · rw [documentOf_same h]; exact h
  · refine other (by simp) ?_
    rw [(C90_positions (a := w) (b := ['\r', '\n']) (fun h => by obtain ⟨y, hy⟩ := h.2; cases hy)).1, (C90_ends w).2.1 hr]
    rfl
  · refine other (by simp) ?_
    rw [(C90_positions (a := w) (b := ['\r']) (fun h => by obtain ⟨y, hy⟩ := h.2; cases hy)).1, (C90_ends w).2.1 hr]
    rfl

/-! ## samples -/

def asciiCut (s : Str) (sp : Span) : Str := (s.drop sp.start).take (sp.stop - sp.start)

theorem blen_ascii {s : Str} (h : ∀ c ∈ s, c.utf8Size = 1) : blen s = s.length := by
  induction s with
  | nil => rfl
  | cons c s ih =>
    rw [blen_cons, h c (by simp), ih fun c hc => h c (by simp [hc]), List.length_cons]
    omega

theorem slice_ascii {s t : Str} {sp : Span} (ha : ∀ c ∈ s, c.utf8Size = 1) (h : SliceOf s sp t) : t = asciiCut s sp := by
  obtain ⟨a, c, e, h1, h2⟩ := h
  subst e
  rw [blen_ascii (s := a) fun c hc => ha c (by simp [hc])] at h1 h2
  rw [blen_ascii (s := t) fun c hc => ha c (by simp [hc])] at h2
  rw [asciiCut, h1, h2, List.append_assoc, List.drop_left, Nat.add_sub_cancel_left, List.take_left]

/-- a text in quotes, without backslashes -/
def simplyQuoted : Str → Bool
  | [] => false
  | q :: r => (decide (q = '"') || decide (q = '\'')) && decide (r = r.dropLast ++ [q]) &&
    r.dropLast.all fun c => decide (c ≠ q ∧ c ≠ '\\' ∧ c ≠ '\x00' ∧ c ≠ '\x1F')

/-- a check for commands that do not become arrays -/
def noArrayB : Str → Bool
  | [] => false
  | '[' :: r => match r.dropWhile isBlank with
    | [] => false
    | c :: r =>
      if c ∈ [' ', '\t', '\\', '"', '\'', ']'] then
        (c == '"' || c == '\'') && simplyQuoted (c :: (r.takeWhile (· != c) ++ [c])) &&
          match ((r.dropWhile (· != c)).drop 1).dropWhile isBlank with
          | [] => false
          | k :: _ => decide (k ∉ [' ', '\t', '\\', ',', ']'])
      else true
  | _ => true

/-- a check for texts without anything but ASCII -/
def settledCheck (s : Str) (is : List Instruction) : Bool :=
  (s.all fun c => decide (c.utf8Size = 1)) && is.all fun i =>
    ((quoteSpans i).all fun sp => simplyQuoted (asciiCut s sp) || decide ((asciiCut s sp).head? ≠ some '"' ∧ (asciiCut s sp).head? ≠ some '\'')) &&
    ((shellSpans i).all fun sp => noArrayB (asciiCut s sp)) &&
    match i with | .misc m => decide (m.instruction.content = c!"USER") | _ => true

theorem simplyQuoted_text {t : Str} (h : simplyQuoted t = true) : QuotedText t := by
  cases t with
  | nil => cases h
  | cons q r =>
    rw [simplyQuoted, Bool.and_eq_true, Bool.and_eq_true] at h
    obtain ⟨⟨h1, h2⟩, h3⟩ := h
    have e := of_decide_eq_true h2
    refine ⟨q, r.dropLast, by rw [← e], by simpa using h1, ?_⟩
    have hb : ∀ b : Str, (b.all fun c => decide (c ≠ q ∧ c ≠ '\\' ∧ c ≠ '\x00' ∧ c ≠ '\x1F')) = true → QuotedBody q b := by
      intro b
      induction b with
      | nil => exact fun _ => .nil
      | cons c b ih =>
        intro h
        simp only [List.all_cons, Bool.and_eq_true, decide_eq_true_eq] at h
        exact .chr h.1.1 h.1.2.1 h.1.2.2.1 h.1.2.2.2 (ih (by simpa using h.2))
    exact hb _ h3

theorem noArrayB_iff {t : Str} (h : noArrayB t = true) (v : Str) : ¬ BeginsArray (t ++ v) := by
  have bl : ∀ r : Str, Blanks (r.takeWhile isBlank) := fun r c hc => isBlank_iff.1 (mem_takeWhile hc)
  unfold noArrayB at h
  split at h
  · cases h
  · rename_i r
    split at h
    · cases h
    · rename_i c y e
      have er : r = r.takeWhile isBlank ++ c :: y := by rw [← e, List.takeWhile_append_dropWhile]
      split at h
      · rw [Bool.and_eq_true, Bool.and_eq_true] at h
        obtain ⟨⟨-, h2⟩, h3⟩ := h
        split at h3
        · cases h3
        · rename_i k z e2
          have e3 : ((y.dropWhile (· != c)).drop 1) = ((y.dropWhile (· != c)).drop 1).takeWhile isBlank ++ k :: z := by
            rw [← e2, List.takeWhile_append_dropWhile]
          have e4 : ∃ m, y.dropWhile (· != c) = c :: m := by
            cases hd : y.dropWhile (· != c) with
            | nil => rw [hd] at e2; cases e2
            | cons b m =>
              have := List.head?_dropWhile_not (p := (· != c)) y
              rw [hd] at this
              simp at this
              exact ⟨m, by rw [this]⟩
          obtain ⟨m, e4⟩ := e4
          have ey : y = y.takeWhile (· != c) ++ c :: m := by rw [← e4, List.takeWhile_append_dropWhile]
          rw [e4] at e3
          have e3 : m = m.takeWhile isBlank ++ k :: z := e3
          have := C103_word (w := r.takeWhile isBlank) (w' := m.takeWhile isBlank) (x := z) (bl r) (simplyQuoted_text h2) (bl m)
            (of_decide_eq_true h3) v
          rw [← e3] at this
          rw [er, ey]
          simpa using this
      · rename_i hc
        rw [er]
        exact C103_bracket (bl r) hc v
  · rename_i h1 h2
    refine noArray_head h1 (fun r e => h2 r e) v

theorem settled_check {s : Str} {is : List Instruction} (h : settledCheck s is = true) : Settled s is := by
  rw [settledCheck, Bool.and_eq_true] at h
  have ha : ∀ c ∈ s, c.utf8Size = 1 := fun c hc => of_decide_eq_true (List.all_eq_true.1 h.1 c hc)
  intro i hi
  have := List.all_eq_true.1 h.2 i hi
  rw [Bool.and_eq_true, Bool.and_eq_true] at this
  obtain ⟨⟨h1, h2⟩, h3⟩ := this
  refine ⟨fun sp hsp t ht => ?_, fun sp hsp t ht v => ?_, fun m hm => ?_⟩
  · have := List.all_eq_true.1 h1 sp hsp
    rw [← slice_ascii ha ht, Bool.or_eq_true] at this
    rcases this with h | h
    · exact .inl (simplyQuoted_text h)
    · have := of_decide_eq_true h
      exact .inr fun r => ⟨fun e => this.1 (by rw [e]; rfl), fun e => this.2 (by rw [e]; rfl)⟩
  · have := List.all_eq_true.1 h2 sp hsp
    rw [← slice_ascii ha ht] at this
    exact noArrayB_iff this v
  · subst hm
    rw [show m.instruction.content = _ from of_decide_eq_true h3]
    unfold IsKeyword
    decide

/-- lines with quotes, and with a bracket that is not closed behind them -/
example : ∃ d, Dockerfile.parse Enquote.unquote c!"FROM a\nENV b=\"c d\" e='f'\nUSER g\n" = .ok d ∧ d.instructions.length = 3 ∧
    ∀ z, Dockerfile.parse Enquote.unquote (c!"FROM a\nENV b=\"c d\" e='f'\nUSER g\n" ++ z) =
      (Dockerfile.parse Enquote.unquote z).map fun d' =>
      documentOf (c!"FROM a\nENV b=\"c d\" e='f'\nUSER g\n" ++ z) (d.instructions ++ d'.instructions.map (·.remap (· + 32))) := by
  obtain ⟨d, h, hF⟩ := parsed_sample (s := c!"FROM a\nENV b=\"c d\" e='f'\nUSER g\n")
    (F := fun d => decide (d.instructions.length = 3) && (decide (∀ i ∈ d.instructions, i.span.stop < 32) &&
      settledCheck c!"FROM a\nENV b=\"c d\" e='f'\nUSER g\n" d.instructions)) (by decide +kernel)
  rw [Bool.and_eq_true, Bool.and_eq_true] at hF
  refine ⟨d, h, of_decide_eq_true hF.1, fun z => ?_⟩
  exact C103_lines h (.inr ⟨c!"FROM a\nENV b=\"c d\" e='f'\nUSER g", c!"\n", rfl, .inl rfl⟩)
    (fun i hi => of_decide_eq_true hF.2.1 i hi) (settled_check hF.2.2)

/-- commands that start with a bracket -/
example : ∃ d, Dockerfile.parse Enquote.unquote c!"FROM a\nRUN [ -f b ] || c\nCMD [ \"$d\" = e ]\n" = .ok d ∧ d.instructions.length = 3 ∧
    ∀ z, Dockerfile.parse Enquote.unquote (c!"FROM a\nRUN [ -f b ] || c\nCMD [ \"$d\" = e ]\n" ++ z) =
      (Dockerfile.parse Enquote.unquote z).map fun d' =>
      documentOf (c!"FROM a\nRUN [ -f b ] || c\nCMD [ \"$d\" = e ]\n" ++ z) (d.instructions ++ d'.instructions.map (·.remap (· + 42))) := by
  obtain ⟨d, h, hF⟩ := parsed_sample (s := c!"FROM a\nRUN [ -f b ] || c\nCMD [ \"$d\" = e ]\n")
    (F := fun d => decide (d.instructions.length = 3) && (decide (∀ i ∈ d.instructions, i.span.stop < 42) &&
      settledCheck c!"FROM a\nRUN [ -f b ] || c\nCMD [ \"$d\" = e ]\n" d.instructions)) (by decide +kernel)
  rw [Bool.and_eq_true, Bool.and_eq_true] at hF
  refine ⟨d, h, of_decide_eq_true hF.1, fun z => ?_⟩
  exact C103_lines h (.inr ⟨c!"FROM a\nRUN [ -f b ] || c\nCMD [ \"$d\" = e ]", c!"\n", rfl, .inl rfl⟩)
    (fun i hi => of_decide_eq_true hF.2.1 i hi) (settled_check hF.2.2)

theorem complete_sample {w : Str} {is : List Instruction} (h3 : ∀ t, w ≠ '\n' :: t)
    (h4 : ∀ n ∈ [[], c!"\n", c!"\r\n", c!"\r"], Dockerfile.parse Enquote.unquote (w ++ n) = .ok (documentOf (w ++ n) is))
    (h5 : ∀ i ∈ is, i.span.stop ≤ blen w) (h6 : settledCheck w is = true) :
    Complete Enquote.unquote w is := by
  refine ⟨h3, fun n hn => h4 n ?_, h5, settled_check h6⟩
  rcases hn with rfl | rfl | rfl | ⟨rfl, -⟩ <;> simp

/-- a text with quotes and a shell command, on its own -/
example : ∃ d, Dockerfile.parse Enquote.unquote c!"ENV a=\"b c\" \\\n  d=e\nCMD [\"f\"]\n" = .ok d ∧ d.instructions.length = 2 ∧
    Complete Enquote.unquote c!"ENV a=\"b c\" \\\n  d=e\nCMD [\"f\"]" d.instructions := by
  obtain ⟨d, h, hF⟩ := parsed_sample (s := c!"ENV a=\"b c\" \\\n  d=e\nCMD [\"f\"]\n")
    (F := fun d => (decide (d.instructions.length = 2) && decide (∀ i ∈ d.instructions, i.span.stop ≤ blen c!"ENV a=\"b c\" \\\n  d=e\nCMD [\"f\"]")) &&
      (settledCheck c!"ENV a=\"b c\" \\\n  d=e\nCMD [\"f\"]" d.instructions &&
      d.instructions.all fun i => (writtenStrings i).all fun sp => (asciiCut c!"ENV a=\"b c\" \\\n  d=e\nCMD [\"f\"]\n" sp).all fun c => decide (c ≠ '\n' ∧ c ≠ '\r')))
    (by decide +kernel)
  rw [Bool.and_eq_true, Bool.and_eq_true, Bool.and_eq_true] at hF
  obtain ⟨⟨h1, h2⟩, h3, h4⟩ := hF
  refine ⟨d, h, of_decide_eq_true h1, C103_complete (fun t ht => by cases (List.cons.inj ht).1)
    ?_ (by decide) h (fun i hi => of_decide_eq_true h2 i hi) (fun i hi sp hsp t ht _ c hc => ?_) (settled_check h3)⟩
  · exact fun h => Src.Solid.closed ⟨c!"ENV a=\"b c\" \\\n  d=e\nCMD [\"f\"", ']', rfl, by decide⟩ ['\n'] (openEnd_iff.2 h)
  · have := List.all_eq_true.1 (List.all_eq_true.1 h4 i hi) sp hsp
    rw [slice_ascii (by decide +kernel) ht] at hc
    exact of_decide_eq_true (List.all_eq_true.1 this c hc)

/-- a `CMD` becomes two instructions, a `LABEL` goes away -/
def settledNew : Instruction → Option Str
  | .cmd _ => some c!"LABEL y=\"e f\"\nRUN 'g"
  | .label _ => some []
  | _ => none

/-- One instruction is replaced and one deleted, with quotes in all of them. -/
example : ∃ d, Dockerfile.parse Enquote.unquote c!"FROM a\nENV b=\"c d\"\nCMD 'x\r\nLABEL z='3'\nCMD y" = .ok d ∧
    d.instructions.length = 5 ∧
    ∃ sp d', (Splicer.ofDockerfile d).spliceAll (rewrites settledNew d.instructions).reverse = some sp ∧
      sp.content = c!"FROM a\nENV b=\"c d\"\nLABEL y=\"e f\"\nRUN 'g\r\n\nLABEL y=\"e f\"\nRUN 'g" ∧
      Dockerfile.parse Enquote.unquote sp.content = .ok d' ∧ d'.instructions.length = 6 ∧ Settled sp.content d'.instructions := by
  obtain ⟨d, h, hF⟩ := parsed_sample (s := c!"FROM a\nENV b=\"c d\"\nCMD 'x\r\nLABEL z='3'\nCMD y")
    (F := fun d => (decide (d.instructions.length = 5) && settledCheck c!"FROM a\nENV b=\"c d\"\nCMD 'x\r\nLABEL z='3'\nCMD y" d.instructions &&
      d.instructions.all fun
        | .cmd l => decide (l.span = ⟨19, 25⟩ ∨ l.span = ⟨39, 44⟩)
        | .label l => decide (l.span = ⟨27, 38⟩)
        | _ => true) &&
      (decide (simul (rewrites settledNew d.instructions) 0 d.content = c!"FROM a\nENV b=\"c d\"\nLABEL y=\"e f\"\nRUN 'g\r\n\nLABEL y=\"e f\"\nRUN 'g") &&
      decide ((numberStages 0 (rewritten settledNew sampleHeld (rewrites settledNew d.instructions) d.instructions)).length = 6)))
    (by decide +kernel)
  rw [Bool.and_eq_true, Bool.and_eq_true, Bool.and_eq_true, Bool.and_eq_true] at hF
  obtain ⟨⟨⟨hlen, hset⟩, hall⟩, hsim, hl6⟩ := hF
  have hsim := of_decide_eq_true hsim
  rw [show d.content = _ from ((ens_parse _ _).ok_of h).1] at hsim
  have hall := List.all_eq_true.1 hall
  obtain ⟨sp, d', h1, h2, h3, h4, h5⟩ := C103_rewrite h (settled_check hset) settledNew sampleHeld
    (fun i _ w hw => by
      cases i
      case cmd =>
        cases hw
        exact complete_sample (fun t ht => by cases (List.cons.inj ht).1) (by decide +kernel) (by decide +kernel) (by decide +kernel)
      case label =>
        cases hw
        exact complete_sample (fun t ht => by cases ht) (by decide +kernel) (by decide +kernel) (by decide +kernel)
      all_goals cases hw)
    (fun i hi w hw hne a b e ha => by
      have := hall i hi
      cases i
      case cmd l =>
        rw [show (Instruction.cmd l).span = l.span from rfl] at ha
        rcases of_decide_eq_true this with e1 | e1 <;> rw [e1] at ha
        · obtain ⟨-, rfl⟩ := append_inj_blen ((show c!"FROM a\nENV b=\"c d\"\nCMD 'x" ++ c!"\r\nLABEL z='3'\nCMD y" = _ from rfl).trans e) ha.symm
          exact .inr ⟨_, _, rfl, .inr rfl⟩
        · obtain ⟨-, rfl⟩ := append_inj_blen ((show c!"FROM a\nENV b=\"c d\"\nCMD 'x\r\nLABEL z='3'\nCMD y" ++ [] = _ from rfl).trans e) ha.symm
          exact .inl rfl
      case label l => cases hw; exact absurd rfl hne
      all_goals cases hw)
    (fun i hi hw a t b e g1 g2 => by
      have := hall i hi
      cases i
      case label l =>
        rw [show (Instruction.label l).span = l.span from rfl, of_decide_eq_true this] at g1
        replace g1 : 26 = blen a := by simp only [] at g1; omega
        obtain ⟨-, e2⟩ := append_inj_blen ((show c!"FROM a\nENV b=\"c d\"\nCMD 'x\r" ++ c!"\nLABEL z='3'\nCMD y" = _ from rfl).trans e) (by rw [← g1]; decide)
        cases (List.cons.inj e2).1
      all_goals cases hw) _ (List.reverse_perm _)
  refine ⟨d, h, of_decide_eq_true hlen, sp, d', h1, h2.trans hsim, h4, ?_, h5⟩
  rw [h3]
  exact of_decide_eq_true hl6

end Verif
