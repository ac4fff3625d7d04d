import Verif.Props.Alter
import Verif.Props.Prune
import Verif.Props.Rename
import Verif.Spec.Place

/-! # Replacing the text of an instruction (C98) -/

namespace Verif
open Spec

namespace Src

/-- the line of an instruction -/
theorem doc_at {unq : Unquote} (ms : List (Str × Line)) : ∀ (l : Line) (p : Nat) (js : List Instruction) (x : Instruction)
    (ks : List Instruction), DocFits l ms → evalDoc unq p l ms = .ok (js ++ x :: ks) →
    ∃ ps l' ms', docText l ms = preText ps ++ docText l' ms' ∧ PreFits ps (docText l' ms') ∧ DocFits l' ms' ∧
      evalPre unq p ps = .ok js ∧ l'.item.eval unq (p + blen (preText ps) + blen l'.indent) = .ok (some x) ∧
      evalDoc unq (p + blen (preText ps)) l' ms' = .ok (x :: ks) := by
  induction ms with
  | nil =>
    intro l p js x ks hf he
    obtain ⟨o, h1, h2⟩ := bind_some he
    cases o with
    | none => simp [pure, Except.pure] at h2
    | some y =>
      have h2 : [y] = js ++ x :: ks := by simpa [pure, Except.pure] using h2
      cases js with
      | nil =>
        obtain ⟨rfl, rfl⟩ := List.cons.inj h2
        exact ⟨[], l, [], rfl, trivial, hf, rfl, h1, he⟩
      | cons j js => simp at h2
  | cons m ms ih =>
    obtain ⟨n, m⟩ := m
    intro l p js x ks hf he
    obtain ⟨o, h1, h2⟩ := bind_some he
    obtain ⟨is, h3, h4⟩ := bind_some h2
    have h4 : o.toList ++ is = js ++ x :: ks := by simpa [pure, Except.pure] using h4
    have next : ∀ js', o.toList ++ js' = js → is = js' ++ x :: ks → ∃ ps l' ms', docText l ((n, m) :: ms) = preText ps ++ docText l' ms' ∧
        PreFits ps (docText l' ms') ∧ DocFits l' ms' ∧ evalPre unq p ps = .ok js ∧
        l'.item.eval unq (p + blen (preText ps) + blen l'.indent) = .ok (some x) ∧
        evalDoc unq (p + blen (preText ps)) l' ms' = .ok (x :: ks) := by
      rintro js' rfl rfl
      obtain ⟨ps, l', ms', g1, g2, g3, g4, g5, g6⟩ := ih m _ js' x ks hf.2.2 h3
      have hlen : p + blen (preText ((l, n) :: ps)) = p + blen l.text + blen n + blen (preText ps) := by
        simp only [preText, blen_append]; omega
      refine ⟨(l, n) :: ps, l', ms', by simp [docText, preText, g1], ⟨?_, ?_, g2⟩, g3, ?_, by rw [hlen]; exact g5, by rw [hlen]; exact g6⟩
      · rw [← g1]; exact hf.1
      · rw [← g1]; exact hf.2.1
      · simp only [evalPre, h1, g4, ok_bind]; rfl
    cases o with
    | none => exact next js rfl h4
    | some y =>
      cases js with
      | nil =>
        obtain ⟨rfl, rfl⟩ := List.cons.inj h4
        exact ⟨[], l, (n, m) :: ms, rfl, trivial, hf, rfl, h1, he⟩
      | cons j js =>
        obtain ⟨rfl, h5⟩ := List.cons.inj h4
        exact next js rfl h5

/-- blanks in front of a document -/
theorem parse_blanks {unq : Unquote} {g s : Str} {d : Dockerfile} (hg : Blanks g) (h : Dockerfile.parse unq s = .ok d) :
    Dockerfile.parse unq (g ++ s) = .ok (documentOf (g ++ s) (d.instructions.map (·.remap (· + blen g)))) := by
  obtain ⟨l, ms, is, hf, rfl, he, rfl⟩ := C51_accepted.1 h
  have ht : docText { l with indent := g ++ l.indent } ms = g ++ docText l ms := by
    cases ms <;> simp [docText, Line.text]
  have hf' : DocFits { l with indent := g ++ l.indent } ms := by
    have hb : Blanks l.indent → Blanks (g ++ l.indent) := fun h c hc => (List.mem_append.1 hc).elim (hg c) (h c)
    cases ms with
    | nil => exact ⟨hb hf.1, hf.2⟩
    | cons m ms => exact ⟨⟨hb hf.1.1, hf.1.2⟩, hf.2⟩
  have he' : evalDoc unq 0 { l with indent := g ++ l.indent } ms = evalDoc unq (blen g) l ms := by
    cases ms with
    | nil => simp [evalDoc]
    | cons m ms => simp [evalDoc, Line.text, Nat.add_assoc]
  have := parse_fits (unq := unq) hf'
  rw [ht, he', doc_move (m := (· + blen g)) ms l 0 _ (by intro k _; simp only []; omega), he] at this
  rw [this]
  refine congrArg Except.ok ?_
  simp only [documentOf, numberStages_remap, numberStages_twice, globalArgs_remap, globalArgs_numbered]

end Src

theorem numbered_len (is : List Instruction) : ∀ n, (numberStages n is).length = is.length := by
  induction is with
  | nil => intro n; rfl
  | cons i is ih => intro n; cases i <;> simp [numberStages, ih]

theorem place {unq : Unquote} {s : Str} {d : Dockerfile} (h : Dockerfile.parse unq s = .ok d) {pre post : List Instruction}
    {i : Instruction} (e : d.instructions = pre ++ i :: post) :
    ∃ ps l ms js x ks m, s = Src.preText ps ++ Src.docText l ms ∧ Src.PreFits ps (Src.docText l ms) ∧ Src.DocFits l ms ∧
      Src.evalPre unq 0 ps = .ok js ∧ pre = numberStages 0 js ∧
      l.item.eval unq (blen (Src.preText ps) + blen l.indent) = .ok (some x) ∧
      Src.evalDoc unq (blen (Src.preText ps)) l ms = .ok (x :: ks) ∧ i :: post = numberStages m (x :: ks) := by
  obtain ⟨l, ms, is, hf, rfl, he, rfl⟩ := C51_accepted.1 h
  have e : numberStages 0 is = pre ++ i :: post := e
  have hlen : (numberStages 0 is).length = is.length := numbered_len is 0
  have hl : pre.length < is.length := by rw [← hlen, e]; simp
  obtain ⟨x, ks, e1⟩ : ∃ x ks, is = is.take pre.length ++ x :: ks := by
    refine ⟨is[pre.length], is.drop (pre.length + 1), ?_⟩
    rw [← List.drop_eq_getElem_cons hl, List.take_append_drop]
  obtain ⟨m, em⟩ := numbered_before (js := is.take pre.length) (ks := x :: ks) 0
  rw [← e1, e] at em
  obtain ⟨e2, e3⟩ := List.append_inj em (by rw [numbered_len, List.length_take]; omega)
  rw [e1] at he
  obtain ⟨ps, l', ms', g1, g2, g3, g4, g5, g6⟩ := Src.doc_at ms l 0 _ x ks hf he
  rw [Nat.zero_add] at g5 g6
  exact ⟨ps, l', ms', _, x, ks, m, g1, g2, g3, g4, e2, g5, g6, e3⟩

/-- what is behind the first line -/
def Src.afterLine : List (Str × Src.Line) → Str
  | [] => []
  | (n, m) :: ms => n ++ Src.docText m ms

theorem Src.docText_line (l : Src.Line) (ms : List (Str × Src.Line)) :
    Src.docText l ms = l.indent ++ (l.item.text ++ (l.trail ++ Src.afterLine ms)) := by
  cases ms <;> simp [Src.docText, Src.Line.text, Src.afterLine]

theorem numbered_head {m : Nat} {i x : Instruction} {post ks : List Instruction}
    (h : i :: post = numberStages m (x :: ks)) : i.span = x.span := by
  cases x <;> (obtain ⟨rfl, -⟩ := List.cons.inj h; rfl)

theorem place_text {unq : Unquote} {x u z : Str} {d : Dockerfile} {pre post : List Instruction} {i : Instruction}
    (h : Dockerfile.parse unq (x ++ (u ++ z)) = .ok d) (e : d.instructions = pre ++ i :: post)
    (h1 : i.span.start = blen x) (h2 : i.span.stop = blen (x ++ u)) :
    ∃ ps l ms js y ks m, x = Src.preText ps ++ l.indent ∧ u = l.item.text ∧ z = l.trail ++ Src.afterLine ms ∧
      Src.PreFits ps (Src.docText l ms) ∧ Src.DocFits l ms ∧
      Src.evalPre unq 0 ps = .ok js ∧ pre = numberStages 0 js ∧
      l.item.eval unq (blen (Src.preText ps) + blen l.indent) = .ok (some y) ∧
      Src.evalDoc unq (blen (Src.preText ps)) l ms = .ok (y :: ks) ∧ i :: post = numberStages m (y :: ks) := by
  obtain ⟨ps, l, ms, js, y, ks, m, es, g1, g2, g3, g4, g5, g6, g7⟩ := place h e
  have hsp := numbered_head g7
  rw [(Src.item_at g5).1] at hsp
  rw [hsp] at h1 h2
  simp only [blen_append] at h1 h2
  rw [Src.docText_line, ← List.append_assoc (Src.preText ps)] at es
  obtain ⟨rfl, es1⟩ := append_inj_blen es (by rw [← h1, blen_append])
  obtain ⟨rfl, rfl⟩ := append_inj_blen es1 (by simp only [blen_append] at h2; omega)
  exact ⟨ps, l, ms, js, y, ks, m, rfl, rfl, rfl, g1, g2, g3, g4, g5, g6, g7⟩

theorem mild_blanks {g u : Str} (hg : Blanks g) (h : Mild u) : Mild (g ++ u) := by
  refine ⟨fun c hc => ?_, ?_⟩
  · rcases List.mem_append.1 hc with hc | hc
    · rcases hg c hc with rfl | rfl <;> decide
    · exact h.1 c hc
  · rw [List.getLast?_append]
    cases hu : u.getLast? with
    | some c => rw [Option.some_or, ← hu]; exact h.2
    | none =>
      rw [Option.none_or]
      intro hl
      rcases hg _ (List.mem_of_getLast? hl) with h | h <;> exact absurd h (by decide)

/-- C98: The text `u` of an instruction is replaced by a text `w`, by splicing.  Neither has quotes or ends with a
backslash, and no keyword before it is taken for an unknown instruction.  If `w` and what is behind it are accepted, then
so is the whole, and the instructions in front are as before. -/
theorem C98_replace {unq : Unquote} {x u z w : Str} {d d2 : Dockerfile} {pre post : List Instruction} {i : Instruction}
    (h : Dockerfile.parse unq (x ++ (u ++ z)) = .ok d) (e : d.instructions = pre ++ i :: post)
    (h1 : i.span.start = blen x) (h2 : i.span.stop = blen (x ++ u)) (hq : Mild u) (hq' : Mild w)
    (h' : Dockerfile.parse unq (w ++ z) = .ok d2) (hcr : ∀ y, x = y ++ ['\r'] → ∀ t, w ++ z ≠ '\n' :: t)
    (hk : ∀ m, .misc m ∈ pre → ¬ IsKeyword m.instruction.content) :
    ((Splicer.ofDockerfile d).splice i.span w).map Splicer.content = some (x ++ (w ++ z)) ∧
    Dockerfile.parse unq (x ++ (w ++ z)) = .ok (documentOf (x ++ (w ++ z))
      (pre ++ d2.instructions.map (·.remap (· + blen x)))) := by
  refine ⟨?_, ?_⟩
  · have hc : d.content = x ++ u ++ z := by
      rw [show d.content = _ from ((ens_parse unq _).ok_of h).1, List.append_assoc]
    have := C21_single_splice d.content i.span w x u z hc h1 (by rw [h2, blen_append])
    rw [show Splicer.ofDockerfile d = Splicer.fromStr d.content from rfl, this]
    simp
  obtain ⟨ps, l, ms, js, y, ks, m, rfl, rfl, rfl, g1, g2, g3, rfl, g5, g6, -⟩ := place_text h e h1 h2
  obtain ⟨hg, hr⟩ : Blanks l.indent ∧ ∃ r, l.item.Fits r := by
    cases ms with
    | nil => exact ⟨g2.1, _, g2.2.1⟩
    | cons m ms => exact ⟨g2.1.1, _, g2.1.2.1⟩
  obtain ⟨d1, p1⟩ : ∃ d1, Dockerfile.parse unq (l.indent ++ l.item.text ++ (l.trail ++ Src.afterLine ms)) = .ok d1 := by
    have p := Src.parse_fits (unq := unq) g2
    rw [Src.doc_move (m := (· + blen (Src.preText ps))) ms l 0 _ (by intro k _; simp only []; omega)] at g6
    rw [Src.docText_line, ← List.append_assoc] at p
    cases he : Src.evalDoc unq 0 l ms with
    | error e => rw [he] at g6; cases g6
    | ok is => rw [he] at p; exact ⟨_, p⟩
  have p2 := Src.parse_blanks hg h'
  rw [← List.append_assoc] at p2
  rw [Src.docText_line, ← List.append_assoc] at g1
  have hseam : Src.preText ps = [] ∨ Src.Seam (Src.preText ps) (l.indent ++ l.item.text ++ (l.trail ++ Src.afterLine ms))
      (l.indent ++ w ++ (l.trail ++ Src.afterLine ms)) :=
    (Src.preText_end g1).imp id fun hb => ⟨hb, fun a ea t et => by
      cases hi : l.indent with
      | nil =>
        obtain ⟨r, hr⟩ := hr
        rcases Src.item_letter hr with h | ⟨c, h⟩ | ⟨c, b, h, hc⟩
        · rw [h] at g5; cases g5
        · rw [h] at g5; cases g5
        · rw [hi, h] at et
          obtain ⟨rfl, -⟩ := List.cons.inj et
          exact absurd hc (by unfold IsAlpha; decide)
      | cons c b =>
        rw [hi] at et
        have := hg c (by rw [hi]; simp)
        obtain ⟨rfl, -⟩ := List.cons.inj et
        exact absurd this (by decide), fun a ea t et => by
      cases hi : l.indent with
      | nil => exact hcr a (by rw [hi, List.append_nil, ea]) t (by rw [← et, hi]; simp)
      | cons c b =>
        rw [hi] at et
        have := hg c (by rw [hi]; simp)
        obtain ⟨rfl, -⟩ := List.cons.inj et
        exact absurd this (by decide)⟩
  have hf' := Src.pre_seam (Src.lines_swap p1 p2) (mild_blanks hg hq) (mild_blanks hg hq') ps (fun _ x hx w a hi => by
    obtain ⟨m, k1, k2⟩ := Src.pre_misc ps 0 js g3 x hx hi
    rw [← k2]
    exact hk m (misc_numbered k1 0)) g1 hseam
  have := join_pre hf' g3
  rw [p2] at this
  rw [show Src.preText ps ++ l.indent ++ (w ++ (l.trail ++ Src.afterLine ms)) =
    Src.preText ps ++ (l.indent ++ w ++ (l.trail ++ Src.afterLine ms)) by simp, this]
  refine congrArg Except.ok ?_
  have hm : d2.instructions.map (·.remap (· + blen (Src.preText ps ++ l.indent))) =
      (d2.instructions.map (·.remap (· + blen l.indent))).map (·.remap (· + blen (Src.preText ps))) := by
    rw [List.map_map]
    refine List.map_congr_left fun i _ => ?_
    rw [Function.comp, Instruction.remap_remap]
    exact congrArg (Instruction.remap · i) (funext fun q => by simp only [blen_append, Function.comp]; omega)
  rw [hm]
  generalize d2.instructions.map (·.remap (· + blen l.indent)) = is
  simp only [documentOf, numberStages_app_left, globalArgs_app_left, ← Src.numberStages_remap, numberStages_app_right,
    globalArgs_app_right]

namespace Src

theorem brk_eol {n r : Str} (h : LineBreak n r) : Eol (n ++ r) := by
  rintro c b e
  rcases h with rfl | rfl | ⟨rfl, -⟩ <;> obtain ⟨rfl, -⟩ := List.cons.inj e
  · exact .inl rfl
  · exact .inr rfl
  · exact .inr rfl

/-- what is behind a line, as a document with another item in front -/
theorem after_line {unq : Unquote} {l : Line} {ms : List (Str × Line)} {p : Nat} {y : Instruction}
    {ks : List Instruction} (hf : DocFits l ms) (h1 : l.item.eval unq (p + blen l.indent) = .ok (some y))
    (h2 : evalDoc unq p l ms = .ok (y :: ks)) {t : Item} {o : Option Instruction}
    (ht : ∀ r, Blanks l.trail → Eol r → l.item.Fits (l.trail ++ r) → t.Fits (l.trail ++ r)) (ho : t.eval unq 0 = .ok o) :
    Dockerfile.parse unq (t.text ++ (l.trail ++ afterLine ms)) = .ok (documentOf (t.text ++ (l.trail ++ afterLine ms))
      (o.toList ++ ks.map (·.remap fun k => k - (p + blen l.indent + blen l.item.text) + blen t.text))) := by
  have hb : Blanks [] := fun _ h => by cases h
  have hft : DocFits ⟨[], t, l.trail⟩ ms := by
    cases ms with
    | nil => exact ⟨hb, ht _ hf.2.2 (fun _ _ h => by cases h) hf.2.1, hf.2.2⟩
    | cons m ms => exact ⟨⟨hb, ht _ hf.1.2.2 (brk_eol hf.2.1) hf.1.2.1, hf.1.2.2⟩, hf.2⟩
  have := parse_fits (unq := unq) hft
  rw [docText_line] at this
  have he : evalDoc unq 0 ⟨[], t, l.trail⟩ ms = .ok (o.toList ++
      ks.map (·.remap fun k => k - (p + blen l.indent + blen l.item.text) + blen t.text)) := by
    cases ms with
    | nil =>
      simp only [evalDoc, h1, ok_bind] at h2
      cases h2
      simp only [evalDoc, blen, Nat.zero_add, ho, ok_bind]
      simp [pure, Except.pure]
    | cons m ms =>
      obtain ⟨n, m⟩ := m
      simp only [evalDoc, h1, ok_bind] at h2
      obtain ⟨is, h3, h4⟩ := bind_some h2
      cases h4
      simp only [evalDoc, blen, Nat.zero_add, ho, ok_bind]
      rw [doc_move (m := fun k => k - (p + blen l.indent + blen l.item.text) + blen t.text) ms m
        (p + blen l.text + blen n) _ (by
          intro k _
          simp only [Line.text, blen_append, blen]
          omega), h3]
      rfl
  rw [he] at this
  exact this

end Src

/-- C98: An instruction is taken out, by splicing nothing into its place. -/
theorem C98_delete {unq : Unquote} {x u z : Str} {d : Dockerfile} {pre post : List Instruction} {i : Instruction}
    (h : Dockerfile.parse unq (x ++ (u ++ z)) = .ok d) (e : d.instructions = pre ++ i :: post)
    (h1 : i.span.start = blen x) (h2 : i.span.stop = blen (x ++ u)) (hq : Mild u)
    (hcr : ∀ y, x = y ++ ['\r'] → ∀ t, z ≠ '\n' :: t)
    (hk : ∀ m, .misc m ∈ pre → ¬ IsKeyword m.instruction.content) :
    ((Splicer.ofDockerfile d).splice i.span []).map Splicer.content = some (x ++ z) ∧
    Dockerfile.parse unq (x ++ z) = .ok (documentOf (x ++ z)
      (pre ++ post.map (·.remap fun q => q - blen (x ++ u) + blen x))) := by
  obtain ⟨ps, l, ms, js, y, ks, m, ex, eu, ez, g1, g2, g3, g4, g5, g6, g7⟩ := place_text h e h1 h2
  have hp := Src.after_line (t := .blank) (o := none) g2 g5 g6 (fun _ _ _ _ => trivial) rfl
  obtain ⟨k1, k2⟩ := C98_replace (w := []) h e h1 h2 hq ⟨fun _ h => (by cases h), fun h => (by cases h)⟩
    (by rw [ez]; exact hp) hcr hk
  refine ⟨k1, k2.trans (congrArg Except.ok ?_)⟩
  obtain ⟨m', em⟩ : ∃ m', post = numberStages m' ks := by
    cases y <;> exact ⟨_, (List.cons.inj g7).2⟩
  rw [em]
  simp only [documentOf, Option.toList, List.nil_append, ← Src.numberStages_remap, numberStages_app_right,
    globalArgs_app_right, List.map_map]
  have : ∀ i : Instruction, ((fun x_1 => Instruction.remap (fun x_2 => x_2 + blen x) x_1) ∘ fun x_1 =>
      Instruction.remap (fun k => k - (blen (Src.preText ps) + blen l.indent + blen l.item.text) + blen Src.Item.blank.text) x_1) i =
      i.remap fun q => q - blen (x ++ u) + blen x := fun i => by
    rw [Function.comp, Instruction.remap_remap]
    refine congrArg (Instruction.remap · i) (funext fun q => ?_)
    rw [ex, eu]
    simp only [blen_append, Function.comp, Src.Item.text, blen]
    omega
  rw [List.map_congr_left fun i _ => this i]

/-! ## the name of a stage -/

namespace Src

/-- a text that does not end with a blank, a line break or a backslash -/
def Solid (r : Str) : Prop := ∃ a c, r = a ++ [c] ∧ c ≠ ' ' ∧ c ≠ '\t' ∧ c ≠ '\\'

theorem Solid.app {r : Str} (h : Solid r) (b : Str) : Solid (b ++ r) := by
  obtain ⟨a, c, rfl, h⟩ := h
  exact ⟨b ++ a, c, by simp, h⟩

theorem Solid.ne {r : Str} (h : Solid r) : r ≠ [] := by
  obtain ⟨a, c, rfl, h⟩ := h
  simp

theorem Solid.closed {r : Str} (h : Solid r) (z : Str) : ¬ Open r z := by
  obtain ⟨a, c, rfl, h1, h2, h3⟩ := h
  rintro ⟨⟨b, w, e, hw⟩, -⟩
  have e := congrArg List.getLast? e
  rw [List.getLast?_append, List.getLast?_append] at e
  cases w with
  | nil => exact h3 (by simpa using e)
  | cons v w =>
    have e : some c = (v :: w).getLast? := by
      rw [List.getLast?_cons_cons, List.getLast?_eq_some_getLast (l := v :: w) (by simp)] at e
      rw [List.getLast?_eq_some_getLast (l := v :: w) (by simp)]
      exact e
    have := hw c (List.mem_of_getLast? e.symm)
    rcases this with h | h
    · exact h1 h
    · exact h2 h

theorem Solid.wordEnd {r : Str} (h : Solid r) {z : Str} : WordEnd (r ++ z) ↔ WordEnd r :=
  ⟨fun hw => hw.cut (h.closed z), fun hw => hw.elim (fun hw => .inl (hw.ext h.ne)) fun hw => .inr hw.ext⟩

theorem Solid.word {w r z z' : Str} (h : Solid r) (hw : Word w (r ++ z)) : Word w (r ++ z') := by
  refine ⟨hw.1, fun a b e hb hc => hw.2.1 a b e hb ?_, h.wordEnd.2 (h.wordEnd.1 hw.2.2)⟩
  rw [← List.append_assoc] at hc ⊢
  exact (h.app b).wordEnd.2 ((h.app b).wordEnd.1 hc)

theorem Solid.gap {g r z z' : Str} (h : Solid r) (hg : Gap g (r ++ z)) : Gap g (r ++ z') := hg.cut.ext h.ne (h.closed _)

theorem Solid.flags {r z z' : Str} (h : Solid r) : ∀ {fs : List Flag}, FlagsFit fs (r ++ z) → FlagsFit fs (r ++ z') := by
  intro fs
  induction fs with
  | nil => exact fun _ => trivial
  | cons f fs ih =>
    rintro ⟨⟨h1, h2, h3, h4⟩, h5⟩
    rw [← List.append_assoc] at h1 h4
    refine ⟨⟨?_, h2, h3, ?_⟩, ih h5⟩
    · rw [← List.append_assoc] at h1
      rw [← List.append_assoc (flagsText fs), ← List.append_assoc f.body]
      rw [List.append_assoc f.body] at h1
      exact ((h.app (flagsText fs)).app f.body).gap h1
    · rw [← List.append_assoc]
      exact (h.app (flagsText fs)).word h4

/-- the end of a `FROM` is exchanged -/
theorem from_fits {kw g i : Str} {fs : List Flag} {a a' : Option AliasText} {r : Str}
    (h : Item.Fits (.from kw fs g i a) r) (ha : ∀ x, a' = some x → AliasFits x r) : Item.Fits (.from kw fs g i a') r := by
  obtain ⟨h1, h2, h3, h4, h5, -⟩ := h
  have hs : Solid i := by
    refine ⟨i.dropLast, i.getLast h4, (List.dropLast_concat_getLast h4).symm, ?_⟩
    have := h5 _ (List.getLast_mem h4)
    refine ⟨?_, ?_, ?_⟩ <;> (intro e; rw [e] at this; exact absurd this (by unfold IsImageChar IsAlpha IsDigit; decide))
  refine ⟨h1, ?_, hs.gap h3, h4, h5, ha⟩
  rw [← List.append_assoc] at h2 ⊢
  exact (hs.app g).flags h2

/-- the item of a `FROM` -/
theorem item_from {unq : Unquote} {it : Item} {p : Nat} {f : FromInstruction}
    (h : it.eval unq p = .ok (some (.from f))) :
    ∃ kw fs g i a, it = .from kw fs g i a ∧ f.image.span.stop = p + blen kw + blen (flagsText fs) + blen g + blen i ∧
      ∀ a', Item.eval unq p (.from kw fs g i a') = .ok (some (.from
        { f with span := ⟨p, p + blen (Item.from kw fs g i a').text⟩, alias := a'.map (·.name_at f.image.span.stop) })) := by
  cases it
  case «from» kw fs g i a =>
    simp only [Item.eval] at h
    cases hf : evalFlags unq (p + blen kw) fs with
    | error e => rw [hf] at h; cases h
    | ok fl =>
      rw [hf, ok_bind] at h
      cases hd : checkDigest i with
      | error e => rw [hd] at h; cases h
      | ok u =>
        rw [hd] at h
        cases h
        refine ⟨kw, fs, g, i, a, rfl, rfl, fun a' => ?_⟩
        simp only [Item.eval]
        rw [hf, ok_bind, hd]
        rfl
  case shell k kw g s =>
    simp only [Item.eval] at h
    split at h
    · cases h
    · cases k <;> cases h
  case exec k kw g a =>
    simp only [Item.eval] at h
    split at h
    · cases h
    · cases ha : a.eval unq (p + blen kw + blen g) with
      | error e => rw [ha] at h; cases h
      | ok c => rw [ha] at h; cases k <;> cases h
  all_goals
    exfalso
    simp only [Item.eval, bind, Except.bind, pure, Except.pure] at h
    repeat' split at h
    all_goals cases h

/-- the name, as a part of an item -/
def asAlias (o : Option Str) : Option AliasText := o.map fun b => ⟨c!" ", c!"AS", c!" ", b⟩

theorem asAlias_text (o : Option Str) : aliasText (asAlias o) = asText o := by cases o <;> simp [asAlias, aliasText, asText, AliasText.text]

theorem asAlias_at (o : Option Str) (q : Nat) : (asAlias o).map (·.name_at q) = asName q o := by
  cases o <;> simp [asAlias, asName, AliasText.name_at, blen, show ' '.utf8Size = 1 from rfl, show 'A'.utf8Size = 1 from rfl, show 'S'.utf8Size = 1 from rfl]

/-- a name fits in front of everything -/
theorem as_fits {b : Str} (hb : Over IsIdent b) (r : Str) : AliasFits ⟨c!" ", c!"AS", c!" ", b⟩ r := by
  have hn : ∀ c u, c ≠ ' ' → c ≠ '\t' → c ≠ '\\' → Gap c!" " (c :: u) := fun c u h1 h2 h3 =>
    ⟨by decide, .blank (.inl rfl) (.nil (by
      rintro (⟨c', t, e, hc⟩ | ⟨w, n, t, e, -⟩)
      · obtain ⟨rfl, -⟩ := List.cons.inj e; exact hc.elim h1 h2
      · exact h3 (List.cons.inj e).1))⟩
  refine ⟨hn 'A' _ (by decide) (by decide) (by decide), by show lower c!"AS" = _; decide, ?_, hb.1, hb.2⟩
  obtain ⟨h1, h2⟩ := hb
  cases b with
  | nil => exact absurd rfl h1
  | cons c b =>
    have := h2 c (by simp)
    exact hn c _ (by rintro rfl; exact absurd this (by unfold IsIdent IsAlpha IsDigit; decide))
      (by rintro rfl; exact absurd this (by unfold IsIdent IsAlpha IsDigit; decide))
      (by rintro rfl; exact absurd this (by unfold IsIdent IsAlpha IsDigit; decide))

end Src

/-- C98: The name of a stage is set, replaced or taken away, by splicing.  `u` is the text of the `FROM`, and `y` its part up to
the end of the image. -/
theorem C98_alias {unq : Unquote} {x y t z : Str} {d : Dockerfile} {pre post : List Instruction} {f : FromInstruction}
    (h : Dockerfile.parse unq (x ++ (y ++ t ++ z)) = .ok d) (e : d.instructions = pre ++ .from f :: post)
    (h1 : f.span.start = blen x) (h2 : f.span.stop = blen (x ++ (y ++ t))) (h3 : f.image.span.stop = blen (x ++ y))
    (hq : Mild (y ++ t)) (o : Option Str) (ho : ∀ b, o = some b → Over IsIdent b)
    (hk : ∀ m, .misc m ∈ pre → ¬ IsKeyword m.instruction.content) :
    ((Splicer.ofDockerfile d).splice ⟨f.image.span.stop, f.span.stop⟩ (asText o)).map Splicer.content =
      some (x ++ (y ++ asText o ++ z)) ∧
    Dockerfile.parse unq (x ++ (y ++ asText o ++ z)) = .ok (documentOf (x ++ (y ++ asText o ++ z))
      (pre ++ .from { f with span := ⟨blen x, blen (x ++ (y ++ asText o))⟩, alias := asName (blen (x ++ y)) o } ::
        post.map (·.remap fun q => q - blen (x ++ (y ++ t)) + blen (x ++ (y ++ asText o))))) := by
  refine ⟨?_, ?_⟩
  · have hc : d.content = x ++ y ++ t ++ z := by
      rw [show d.content = _ from ((ens_parse unq _).ok_of h).1]; simp
    have := C21_single_splice d.content ⟨f.image.span.stop, f.span.stop⟩ (asText o) (x ++ y) t z hc h3
      (by rw [h2]; simp only [blen_append]; omega)
    rw [show Splicer.ofDockerfile d = Splicer.fromStr d.content from rfl, this]
    simp
  obtain ⟨ps, l, ms, js, i0, ks, m, ex, eu, ez, g1, g2, g3, g4, g5, g6, g7⟩ := place_text h e h1 h2
  cases i0
  case «from» f0 =>
    obtain ⟨e1, e2⟩ := List.cons.inj g7
    replace e1 : f = { f0 with index := m } := by injection e1
    replace e2 : post = numberStages (m + 1) ks := e2
    obtain ⟨kw, fs, g, im, a, ei, e3, e4⟩ := Src.item_from g5
    have hP : blen (Src.preText ps) + blen l.indent = blen x := by rw [ex, blen_append]
    rw [hP] at g5 e3 e4
    rw [ei] at eu
    replace eu : y ++ t = (kw ++ (Src.flagsText fs ++ (g ++ im))) ++ Src.aliasText a := by rw [eu]; simp [Src.Item.text]
    obtain ⟨ey, et⟩ := append_inj_blen eu (by
      have h3 : f0.image.span.stop = blen (x ++ y) := by rw [← h3, e1]
      rw [e3] at h3
      simp only [blen_append] at h3 ⊢
      omega)
    obtain ⟨r, hr⟩ : ∃ r, l.item.Fits r := by
      cases ms with
      | nil => exact ⟨_, g2.2.1⟩
      | cons m ms => exact ⟨_, g2.1.2.1⟩
    have him : im ≠ [] ∧ ∀ c ∈ im, IsImageChar c := by
      rw [ei] at hr; exact ⟨hr.2.2.2.1, hr.2.2.2.2.1⟩
    have htext : (Src.Item.from kw fs g im (Src.asAlias o)).text = y ++ asText o := by
      rw [ey]; simp [Src.Item.text, Src.asAlias_text]
    have e5 := e4 (Src.asAlias o)
    rw [htext, Src.asAlias_at] at e5
    obtain ⟨i1, p1, p2⟩ : ∃ i1, Src.Item.eval unq 0 (.from kw fs g im (Src.asAlias o)) = .ok (some i1) ∧
        i1.remap (· + blen x) = .from { f0 with span := ⟨blen x, blen x + blen (y ++ asText o)⟩, alias := asName f0.image.span.stop o } := by
      have := Src.item_move (m := (· + blen x)) unq (.from kw fs g im (Src.asAlias o)) (p := 0) (p' := blen x) (by intro k _; simp only []; omega)
      rw [e5] at this
      cases he : Src.Item.eval unq 0 (.from kw fs g im (Src.asAlias o)) with
      | error e => rw [he] at this; cases this
      | ok o =>
        rw [he] at this
        cases o with
        | none => cases this
        | some i1 => exact ⟨i1, rfl, (Option.some.inj (Except.ok.inj this)).symm⟩
    have hp := Src.after_line g2 (by rw [hP]; exact g5) g6 (t := .from kw fs g im (Src.asAlias o)) (o := some i1) (fun r _ _ hr => by
      rw [ei] at hr
      refine Src.from_fits hr fun b hb => ?_
      cases o with
      | none => cases hb
      | some c => cases hb; exact Src.as_fits (ho c rfl) _) p1
    rw [htext, ← ez] at hp
    have hid : ∀ c, IsIdent c → (c ≠ '"' ∧ c ≠ '\'' ∧ c ≠ '\x00' ∧ c ≠ '\x1F') ∧ c ≠ '\\' := by
      intro c hc
      refine ⟨⟨?_, ?_, ?_, ?_⟩, ?_⟩ <;>
        (rintro rfl; exact absurd hc (by unfold IsIdent IsAlpha IsDigit; decide))
    have has : ∀ c ∈ asText o, (c ≠ '"' ∧ c ≠ '\'' ∧ c ≠ '\x00' ∧ c ≠ '\x1F') ∧ c ≠ '\\' := by
      intro c hc
      cases o with
      | none => cases hc
      | some b =>
        rcases List.mem_append.1 hc with hc | hc
        · have : ∀ c ∈ c!" AS ", (c ≠ '"' ∧ c ≠ '\'' ∧ c ≠ '\x00' ∧ c ≠ '\x1F') ∧ c ≠ '\\' := by decide
          exact this c hc
        · exact hid c ((ho b rfl).2 c hc)
    have hun : Unquoted (asText o) := fun c hc => (has c hc).1
    have hq' : Mild (y ++ asText o) := by
      refine ⟨fun c hc => (List.mem_append.1 hc).elim (fun hc => hq.1 c (by simp [hc])) (hun c), fun hl => ?_⟩
      rw [List.getLast?_append] at hl
      cases ha : (asText o).getLast? with
      | some c =>
        rw [ha, Option.some_or] at hl
        exact (has c (List.mem_of_getLast? ha)).2 (Option.some.inj hl)
      | none =>
        rw [ha, Option.none_or, ey, ← List.append_assoc, ← List.append_assoc, List.getLast?_append,
          List.getLast?_eq_some_getLast him.1, Option.some_or] at hl
        have := him.2 _ (List.getLast_mem him.1)
        rw [Option.some.inj hl] at this
        exact absurd this (by unfold IsImageChar IsAlpha IsDigit; decide)
    have hcr : ∀ y', x = y' ++ ['\r'] → ∀ t', y ++ asText o ++ z ≠ '\n' :: t' := by
      intro y' _ t' et
      rw [ei] at hr
      cases hkw : kw with
      | nil =>
        have := hr.1
        rw [hkw] at this
        cases this
      | cons c kw' =>
        have := hr.1
        rw [hkw] at this
        rw [ey, hkw] at et
        obtain ⟨rfl, -⟩ := List.cons.inj et
        exact absurd this (by simp [lower, show lowerChar '\n' = '\n' by decide])
    refine (C98_replace h e h1 h2 hq hq' hp hcr hk).2.trans (congrArg Except.ok ?_)
    have hF : ∀ i : Instruction, ((fun x_1 => Instruction.remap (fun x_2 => x_2 + blen x) x_1) ∘ fun x_1 =>
        Instruction.remap (fun k => k - (blen (Src.preText ps) + blen l.indent + blen l.item.text) + blen (y ++ asText o)) x_1) i =
        i.remap fun q => q - blen (x ++ (y ++ t)) + blen (x ++ (y ++ asText o)) := fun i => by
      rw [Function.comp, Instruction.remap_remap]
      refine congrArg (Instruction.remap · i) (funext fun q => ?_)
      have : blen l.item.text = blen (y ++ t) := by rw [ei, eu]; simp [Src.Item.text]
      rw [hP, this]
      simp only [blen_append, Function.comp]
      omega
    have hnew : (.from { f with span := ⟨blen x, blen (x ++ (y ++ asText o))⟩, alias := asName (blen (x ++ y)) o } :: 
        post.map (·.remap fun q => q - blen (x ++ (y ++ t)) + blen (x ++ (y ++ asText o)))) =
        numberStages m (i1.remap (· + blen x) :: ks.map (·.remap fun q => q - blen (x ++ (y ++ t)) + blen (x ++ (y ++ asText o)))) := by
      rw [p2, e2, e1]
      show _ = Instruction.from _ :: numberStages (m + 1) _
      have h3 : f0.image.span.stop = blen (x ++ y) := by rw [← h3, e1]
      rw [Src.numberStages_remap, h3, blen_append x (y ++ _)]
    rw [hnew]
    simp only [documentOf, Option.toList, List.cons_append, List.nil_append, ← Src.numberStages_remap, numberStages_app_right,
      globalArgs_app_right, List.map_cons, List.map_map]
    rw [List.map_congr_left fun i _ => hF i]
  all_goals cases (List.cons.inj g7).1

/-- Two documents whose `FROM`s are the same but for the alias of one: no later stage is called by the old or the new name. -/
theorem alias_stages {d d' : Dockerfile} {ss ss' : List Stage} (h : d.stages = some ss) (h' : d'.stages = some ss')
    {A C : List FromInstruction} {f f' : FromInstruction} (hf : fromsOf d.instructions = A ++ f :: C)
    (hf' : (fromsOf d'.instructions).map fromKey = (A ++ f' :: C).map fromKey)
    (hi : f'.image = f.image) (hp : f'.image_parsed = f.image_parsed)
    (ho : ∀ g ∈ C, ∀ a, f.alias = some a → ¬ SameName a.content g.image.content)
    (hn : ∀ g ∈ C, ∀ a, f'.alias = some a → ¬ SameName a.content g.image.content) :
    ss'.length = ss.length ∧ ∀ (i : Nat) (t t' : Stage), ss[i]? = some t → ss'[i]? = some t' →
      t'.index = t.index ∧ t'.parent = t.parent ∧ t'.root = t.root ∧
      t'.name = if i = A.length then f'.alias.map (fun a => lower a.content) else t.name := by
  obtain ⟨ss0, hs, hr⟩ := C15_root d
  rw [h] at hs; cases hs
  obtain ⟨ss0, hs', hr'⟩ := C15_root d'
  rw [h'] at hs'; cases hs'
  obtain ⟨l1, o1⟩ := stages_froms h
  obtain ⟨l2, o2⟩ := stages_froms h'
  have hlen : ss'.length = ss.length := by
    rw [l1, l2, hf, ← List.length_map (f := fromKey), hf']; simp
  have keys : ∀ i, ((fromsOf d'.instructions)[i]?).map fromKey = ((A ++ f' :: C)[i]?).map fromKey := fun i => by
    rw [← List.getElem?_map, ← List.getElem?_map, hf']
  have other : ∀ i, i ≠ A.length → ((fromsOf d'.instructions)[i]?).map fromKey = ((fromsOf d.instructions)[i]?).map fromKey := by
    intro i hne
    rw [keys, hf]
    by_cases c : i < A.length
    · rw [List.getElem?_append_left c, List.getElem?_append_left c]
    · obtain ⟨k, rfl⟩ : ∃ k, i = A.length + (k + 1) := ⟨i - A.length - 1, by omega⟩
      rw [List.getElem?_append_right (by omega), List.getElem?_append_right (by omega),
        show A.length + (k + 1) - A.length = k + 1 by omega]
      rfl
  have same : ∀ i g, (fromsOf d.instructions)[i]? = some g → ∃ g', (fromsOf d'.instructions)[i]? = some g' ∧
      lower g'.image.content = lower g.image.content ∧ g'.image_parsed = g.image_parsed ∧
      g'.alias.map (fun a => lower a.content) =
        if i = A.length then f'.alias.map (fun a => lower a.content) else g.alias.map (fun a => lower a.content) := by
    intro i g hg
    by_cases c : i = A.length
    · subst c
      rw [hf] at hg
      simp only [List.getElem?_append_right (Nat.le_refl _), Nat.sub_self, List.getElem?_cons_zero] at hg
      cases hg
      obtain ⟨g', e, s1, s2, s3⟩ := keyed_same (keys A.length).symm (f := f') (by simp)
      exact ⟨g', e, by rw [← s1, hi], by rw [← s2, hp], by rw [if_pos rfl]; exact s3.symm⟩
    · obtain ⟨g', e, s1, s2, s3⟩ := keyed_same (other i c).symm hg
      exact ⟨g', e, s1.symm, s2.symm, by rw [if_neg c]; exact s3.symm⟩
  have par : ∀ (i : Nat) (t t' : Stage), ss[i]? = some t → ss'[i]? = some t' → t'.parent = t.parent ∧
      t'.name = if i = A.length then f'.alias.map (fun a => lower a.content) else t.name := by
    intro i t t' ht ht'
    obtain ⟨g, hg, og⟩ := o1 i t ht
    obtain ⟨g', hg', k1, k2, k3⟩ := same i g hg
    have hsc : FromScratch (fromsOf d.instructions) i ↔ FromScratch (fromsOf d'.instructions) i := by
      constructor
      · rintro ⟨x, hx, hy⟩
        rw [hg] at hx; cases hx
        exact ⟨g', hg', k1.trans hy⟩
      · rintro ⟨x, hx, hy⟩
        rw [hg'] at hx; cases hx
        exact ⟨g, hg, k1.symm.trans hy⟩
    have href : ∀ j, j < i → (Refers (fromsOf d.instructions) i j ↔ Refers (fromsOf d'.instructions) i j) := by
      intro j hj
      by_cases c : j = A.length
      · subst c
        have hm : g ∈ C := by
          obtain ⟨k, rfl⟩ : ∃ k, i = A.length + (k + 1) := ⟨i - A.length - 1, by omega⟩
          rw [hf, List.getElem?_append_right (by omega), show A.length + (k + 1) - A.length = k + 1 by omega,
            List.getElem?_cons_succ] at hg
          exact List.mem_of_getElem? hg
        constructor
        · rintro ⟨x, y, a, e1, e2, e3, e4⟩
          rw [hg] at e1; cases e1
          rw [hf] at e2
          simp at e2
          rw [← e2] at e3
          exact absurd e4 (ho g hm a e3)
        · rintro ⟨x, y, a, e1, e2, e3, e4⟩
          rw [hg'] at e1; cases e1
          obtain ⟨y', e5, -, -, e6⟩ := same A.length f (by rw [hf]; simp)
          rw [e2] at e5; cases e5
          rw [if_pos rfl, e3] at e6
          cases hb : f'.alias with
          | none => rw [hb] at e6; cases e6
          | some b =>
            rw [hb] at e6
            have e6 : lower a.content = lower b.content := Option.some.inj e6
            exact absurd (e6.symm.trans (e4.trans k1)) (hn g hm b hb)
      · have hk : ((fromsOf d'.instructions)[i]?).map (fun g => lower g.image.content) =
            ((fromsOf d.instructions)[i]?).map (fun g => lower g.image.content) := by
          rw [hg, hg', Option.map_some, Option.map_some, k1]
        constructor
        · rintro ⟨x, y, a, e1, e2, e3, e4⟩
          rw [hg] at e1; cases e1
          obtain ⟨y', e5, -, -, e6⟩ := same j y e2
          rw [if_neg c, e3] at e6
          cases hb : y'.alias with
          | none => rw [hb] at e6; cases e6
          | some b =>
            rw [hb] at e6
            have e6 : lower b.content = lower a.content := Option.some.inj e6
            exact ⟨g', y', b, hg', e5, hb, e6.trans (e4.trans k1.symm)⟩
        · rintro ⟨x, y', b, e1, e2, e3, e4⟩
          rw [hg'] at e1; cases e1
          obtain ⟨y, e5, -, -, e6⟩ := keyed_same (other j c) e2
          rw [e3] at e6
          cases ha : y.alias with
          | none => rw [ha] at e6; cases e6
          | some a =>
            rw [ha] at e6
            have e6 : lower b.content = lower a.content := Option.some.inj e6
            exact ⟨g, y, a, hg, e5, ha, e6.symm.trans (e4.trans k1)⟩
    obtain ⟨a1, a2, a3⟩ := parent_froms h ht
    obtain ⟨b1, b2, b3⟩ := parent_froms h' ht'
    refine ⟨?_, ?_⟩
    · cases hpp : t.parent with
      | scratch => exact b1.2 (hsc.1 (a1.1 hpp))
      | stage j =>
        obtain ⟨x, y, z, w⟩ := (a2 j).1 hpp
        exact (b2 j).2 ⟨fun hc => x (hsc.2 hc), y, (href j y).1 z, fun k hk hr => w k hk ((href k (by omega)).2 hr)⟩
      | image r =>
        obtain ⟨⟨f0, e1, e2⟩, x, y⟩ := (a3 r).1 hpp
        rw [hg] at e1; cases e1
        exact (b3 r).2 ⟨⟨g', hg', by rw [e2, k2]⟩, fun hc => x (hsc.2 hc), fun k hk hr => y k hk ((href k hk).2 hr)⟩
    · obtain ⟨-, q, ho1, e⟩ := C13_index_name d ss h i t ht
      obtain ⟨-, q', ho1', e'⟩ := C13_index_name d' ss' h' i t' ht'
      obtain ⟨f1, hf1, og'⟩ := o2 i t' ht'
      rw [hg'] at hf1; cases hf1
      unfold OpenedBy at og ho1 og' ho1'
      rw [og] at ho1; cases ho1
      rw [og'] at ho1'; cases ho1'
      replace e : t.name = g.alias.map (fun a => lower a.content) := by rw [e]; cases g.alias <;> rfl
      replace e' : t'.name = g'.alias.map (fun a => lower a.content) := by rw [e']; cases g'.alias <;> rfl
      rw [e, e', k3]
  refine ⟨hlen, fun i t t' ht ht' => ?_⟩
  obtain ⟨p1, p2⟩ := par i t t' ht ht'
  refine ⟨?_, p1, ?_, p2⟩
  · rw [(C13_index_name d ss h i t ht).1, (C13_index_name d' ss' h' i t' ht').1]
  · refine C15_root_unique ss' i _ _ (hr' i t' ht').1 (rootsTo_parents (fun k u hu => ?_) (hr i t ht).1)
    obtain ⟨u', hu'⟩ : ∃ u', ss'[k]? = some u' := ⟨_, List.getElem?_eq_getElem (by
      rw [hlen]; exact (List.getElem?_eq_some_iff.1 hu).1)⟩
    exact ⟨u', hu', (par k u u' hu hu').1⟩

/-- the number of a stage -/
theorem index_froms {is : List Instruction} {n : Nat} (h : numberStages n is = is) {pre post : List Instruction}
    {f : FromInstruction} (e : is = pre ++ .from f :: post) : f.index = n + (fromsOf pre).length := by
  subst e
  induction pre generalizing n with
  | nil =>
    have := (List.cons.inj h).1
    injection this with this
    rw [← this]
    rfl
  | cons i pre ih =>
    cases i
    case «from» g =>
      have := ih (List.cons.inj h).2
      rw [this]
      show _ = n + ((fromsOf pre).length + 1)
      omega
    all_goals exact ih (List.cons.inj h).2

/-- C98: When the name of a stage is set, replaced or taken away, and the images of the later stages are neither the old nor
the new name, then all stages are as before, but for that name. -/
theorem C98_stages {unq : Unquote} {x y t z : Str} {d : Dockerfile} {pre post : List Instruction} {f : FromInstruction}
    (h : Dockerfile.parse unq (x ++ (y ++ t ++ z)) = .ok d) (e : d.instructions = pre ++ .from f :: post)
    (h1 : f.span.start = blen x) (h2 : f.span.stop = blen (x ++ (y ++ t))) (h3 : f.image.span.stop = blen (x ++ y))
    (hq : Mild (y ++ t)) (o : Option Str) (ho : ∀ b, o = some b → Over IsIdent b)
    (hk : ∀ m, .misc m ∈ pre → ¬ IsKeyword m.instruction.content)
    (hold : ∀ g, .from g ∈ post → ∀ a, f.alias = some a → ¬ SameName a.content g.image.content)
    (hnew : ∀ g, .from g ∈ post → ∀ b, o = some b → ¬ SameName b g.image.content) :
    ∃ d' ss ss', Dockerfile.parse unq (x ++ (y ++ asText o ++ z)) = .ok d' ∧ d.stages = some ss ∧ d'.stages = some ss' ∧
      ss'.length = ss.length ∧ ∀ (i : Nat) (s s' : Stage), ss[i]? = some s → ss'[i]? = some s' →
        s'.index = s.index ∧ s'.parent = s.parent ∧ s'.root = s.root ∧
        s'.name = if i = f.index then o.map lower else s.name := by
  obtain ⟨-, hd⟩ := C98_alias h e h1 h2 h3 hq o ho hk
  obtain ⟨ss, hs, -⟩ := C15_root d
  generalize hd' : documentOf _ _ = d' at hd
  obtain ⟨ss', hs', -⟩ := C15_root d'
  have hidx : f.index = (fromsOf pre).length := by
    have := index_froms (congrArg Dockerfile.instructions (documentOf_same h)) e
    omega
  have mem : ∀ g ∈ fromsOf post, .from g ∈ post := by
    intro g hm
    obtain ⟨i, hi, e⟩ := List.mem_filterMap.1 hm
    cases i
    case «from» g => cases e; exact hi
    all_goals cases e
  obtain ⟨k1, k2⟩ := alias_stages hs hs' (A := fromsOf pre) (C := fromsOf post) (f := f)
    (f' := { f with span := ⟨blen x, blen (x ++ (y ++ asText o))⟩, alias := asName (blen (x ++ y)) o })
    (by rw [e, fromsOf_append]; rfl)
    (by
      rw [← hd']
      show (fromsOf (numberStages 0 _)).map fromKey = _
      rw [fromsOf_number, fromsOf_append, List.map_append, List.map_append]
      show _ ++ fromKey _ :: List.map fromKey (fromsOf (post.map _)) = _
      rw [fromsOf_remap]
      rfl) rfl rfl (fun g hg => hold g (mem g hg)) (fun g hg a ha => by
        cases o with
        | none => cases ha
        | some b => cases ha; exact hnew g (mem g hg) b rfl)
  refine ⟨d', ss, ss', hd, hs, hs', k1, fun i s s' a b => ?_⟩
  rw [hidx]
  have := k2 i s s' a b
  refine ⟨this.1, this.2.1, this.2.2.1, this.2.2.2.trans ?_⟩
  cases o <;> rfl

/-! ## samples -/

/-- what the theorems ask for, computed: the `k`-th instruction is at `a` up to `b`, and those before and it and those behind are
as `P` and `Q` say -/
def placeOK (s : Str) (k a b : Nat) (Q : Instruction → Bool) (R : Instruction → Bool) : Bool :=
  match Dockerfile.parse Enquote.unquote s with
  | .ok d =>
    (d.instructions.take k).all (fun | .misc m => decide (lower m.instruction.content ∉ keywords) | _ => true) &&
    (match d.instructions.drop k with
      | i :: post => decide (i.span.start = a) && decide (i.span.stop = b) && Q i && post.all R
      | [] => false)
  | .error _ => false

theorem placeOK_iff {s : Str} {k a b : Nat} {Q R : Instruction → Bool} (h : placeOK s k a b Q R = true) :
    ∃ d pre i post, Dockerfile.parse Enquote.unquote s = .ok d ∧ d.instructions = pre ++ i :: post ∧
      i.span.start = a ∧ i.span.stop = b ∧ Q i = true ∧ (∀ j ∈ post, R j = true) ∧
      ∀ m, .misc m ∈ pre → ¬ IsKeyword m.instruction.content := by
  unfold placeOK at h
  split at h
  · rename_i d hd
    rw [Bool.and_eq_true] at h
    obtain ⟨h1, h2⟩ := h
    split at h2
    · rename_i i post e
      simp only [Bool.and_eq_true, decide_eq_true_eq] at h2
      refine ⟨d, d.instructions.take k, i, post, hd, ?_, h2.1.1.1, h2.1.1.2, h2.1.2, fun j hj => List.all_eq_true.1 h2.2 j hj, fun m hm => ?_⟩
      · rw [← e, List.take_append_drop]
      · have := List.all_eq_true.1 h1 _ hm
        unfold IsKeyword
        simpa using this
    · cases h2
  · cases h

/-- `EXPOSE …` becomes `CMD d`, behind a quote and a bracket that are left open. -/
example : ∃ d d' i, Dockerfile.parse Enquote.unquote (alterHead ++ c!" EXPOSE [1] \\\n 2\nFROM f\n") = .ok d ∧ i ∈ d.instructions ∧
    ((Splicer.ofDockerfile d).splice i.span c!"CMD d").map Splicer.content = some (alterHead ++ c!" CMD d\nFROM f\n") ∧
    Dockerfile.parse Enquote.unquote (alterHead ++ c!" CMD d\nFROM f\n") = .ok d' := by
  obtain ⟨d, pre, i, post, h, e, h1, h2, -, -, h3⟩ := placeOK_iff (s := (alterHead ++ c!" ") ++ (c!"EXPOSE [1] \\\n 2" ++ c!"\nFROM f\n"))
    (k := 2) (a := 19) (b := 34) (Q := fun _ => true) (R := fun _ => true) (by decide +kernel)
  obtain ⟨d2, -, -, -, h', -⟩ := placeOK_iff (s := c!"CMD d" ++ c!"\nFROM f\n") (k := 0) (a := 0) (b := 5)
    (Q := fun _ => true) (R := fun _ => true) (by decide +kernel)
  obtain ⟨g1, g2⟩ := C98_replace h e h1 h2 (by unfold Mild Unquoted; decide +kernel) (by unfold Mild Unquoted; decide +kernel) h'
    (fun y _ t et => by cases et) h3
  exact ⟨d, _, i, h, by rw [e]; simp, g1, g2⟩

/-- `EXPOSE …` is taken out. -/
example : ∃ d d' i, Dockerfile.parse Enquote.unquote (alterHead ++ c!" EXPOSE [1] \\\n 2\nFROM f\n") = .ok d ∧ i ∈ d.instructions ∧
    ((Splicer.ofDockerfile d).splice i.span []).map Splicer.content = some (alterHead ++ c!" \nFROM f\n") ∧
    Dockerfile.parse Enquote.unquote (alterHead ++ c!" \nFROM f\n") = .ok d' := by
  obtain ⟨d, pre, i, post, h, e, h1, h2, -, -, h3⟩ := placeOK_iff (s := (alterHead ++ c!" ") ++ (c!"EXPOSE [1] \\\n 2" ++ c!"\nFROM f\n"))
    (k := 2) (a := 19) (b := 34) (Q := fun _ => true) (R := fun _ => true) (by decide +kernel)
  obtain ⟨g1, g2⟩ := C98_delete h e h1 h2 (by unfold Mild Unquoted; decide +kernel)
    (fun y ey => by
      have := congrArg List.getLast? ey
      rw [List.getLast?_append] at this
      simp at this) h3
  exact ⟨d, _, i, h, by rw [e]; simp, g1, g2⟩

/-- The stage `e` is called `h`, and then it has no name; another stage is built on `b`. -/
example (o : Option Str) (ho : ∀ b, o = some b → b = c!"h") : ∃ d' ss', Dockerfile.parse Enquote.unquote
      (c!"FROM a AS b\nUSER c\n" ++ (c!"FROM d" ++ asText o ++ c!"\nRUN '\nFROM B\n")) = .ok d' ∧ d'.stages = some ss' := by
  obtain ⟨d, pre, i, post, h, e, h1, h2, h4, h5, h3⟩ := placeOK_iff
    (s := c!"FROM a AS b\nUSER c\n" ++ (c!"FROM d" ++ c!" \\\nAS e" ++ c!"\nRUN '\nFROM B\n"))
    (k := 2) (a := 19) (b := 32)
    (Q := fun | .from f => decide (f.image.span.stop = 25 ∧ f.alias.map (·.content) = some c!"e") | _ => false)
    (R := fun | .from f => decide (¬ SameName c!"e" f.image.content ∧ ¬ SameName c!"h" f.image.content) | _ => true) (by
      unfold SameName; decide +kernel)
  cases i
  case «from» f =>
    have h4 := of_decide_eq_true h4
    obtain ⟨d', ss, ss', g1, -, g2, -⟩ := C98_stages h e h1 h2 h4.1 (by unfold Mild Unquoted; decide +kernel) o
      (fun b hb => by
        rw [ho b hb]
        refine ⟨by decide, ?_⟩
        unfold IsIdent IsAlpha IsDigit
        decide) h3
      (fun g hg a ha => by
        have := of_decide_eq_true (h5 _ hg)
        have e4 := h4.2
        rw [ha] at e4
        rw [show a.content = _ from Option.some.inj e4]
        exact this.1)
      (fun g hg b hb => by
        have := of_decide_eq_true (h5 _ hg)
        rw [ho b hb]
        exact this.2)
    exact ⟨d', ss', g1, g2⟩
  all_goals cases h4

/-- C98: Why the new text may have no quotes: they can close one that is left open before. -/
theorem C98_quote :
    (Dockerfile.parse Enquote.unquote c!"ENV a=\"b\nUSER c\n").toOption.map (·.instructions.map (·.span)) =
      some [⟨0, 8⟩, ⟨9, 15⟩] ∧
    (Dockerfile.parse Enquote.unquote c!"USER c\" d=e\n").toOption.map (·.instructions.map (·.span)) = some [⟨0, 11⟩] ∧
    (Dockerfile.parse Enquote.unquote c!"ENV a=\"b\nUSER c\" d=e\n").toOption.map (·.instructions.map (·.span)) =
      some [⟨0, 20⟩] := by
  decide +kernel

/-- C98: Why the old name may not be the image of a later stage: the stage would be built on an image.  Why the new name may not:
the stage would be built on this one. -/
theorem C98_names :
    ((Dockerfile.parse Enquote.unquote c!"FROM a AS b\nFROM B\n").toOption.bind (·.stages)).map (·.map (·.parent)) =
      some [.image (ImageRef.parse c!"a"), .stage 0] ∧
    ((Dockerfile.parse Enquote.unquote c!"FROM a\nFROM B\n").toOption.bind (·.stages)).map (·.map (·.parent)) =
      some [.image (ImageRef.parse c!"a"), .image (ImageRef.parse c!"B")] := by
  decide +kernel

end Verif
