import Verif.Proof.LogicalItem
import Verif.Proof.CutDoc

/-! Reading line by line (C88): documents. -/

namespace Verif
namespace Logical
open Spec Src

theorem rowsFrom_append {w : Str} (h : OneLine w) (x s : Str) : rowsFrom x (w ++ s) = rowsFrom (x ++ w) s := by
  induction w generalizing x with
  | nil => simp
  | cons c w ih =>
    rw [List.cons_append, rowsFrom_char _ (h c (by simp)).1 (h c (by simp)).2, ih fun d hd => h d (by simp [hd])]
    simp

theorem rowsFrom_head (x s : Str) : ∃ u n rs, rowsFrom x s = ⟨x ++ u, n⟩ :: rs := by
  unfold rowsFrom
  split
  · exact ⟨[], [], [], by simp⟩
  · exact ⟨[], _, _, by rw [List.append_nil]⟩
  · exact ⟨[], _, _, by rw [List.append_nil]⟩
  · exact ⟨[], _, _, by rw [List.append_nil]⟩
  · rename_i c s _ _ _
    obtain ⟨u, n, rs, e⟩ := rowsFrom_head (x ++ [c]) s
    exact ⟨c :: u, n, rs, by rw [e]; simp⟩
termination_by s.length

theorem group_head {o : Bool} {r : Row} {rs : List Row} {G : List Row} {gs} (h : groups o (r :: rs) = G :: gs) : ∃ t, G = r :: t := by
  unfold groups at h
  split at h
  · unfold attach at h
    split at h
    · exact ⟨[], by rw [← (List.cons.inj h).1]⟩
    · exact ⟨_, (List.cons.inj h).1.symm⟩
  · exact ⟨[], by rw [← (List.cons.inj h).1]⟩

theorem not_noise {x s : Str} (hx : Content x) {G gs} (h : groups false (rowsFrom x s) = G :: gs) : isNoise G = false := by
  obtain ⟨u, n, rs, e⟩ := rowsFrom_head x s
  rw [e] at h
  obtain ⟨t, rfl⟩ := group_head h
  exact (hx.append u).not_skipped

theorem item_start {it : Src.Item} {R : Str} (h : it.Fits R) (hn : isNote it = false) :
    ∃ w g, it.text = w ++ g ∧ OneLine w ∧ Content w ∧ Head w := by
  have key : ∀ {kw k : Str}, lower kw = k → k ∈ keywords → OneLine kw ∧ Content kw ∧ Head kw := fun h hk =>
    have h1 := (kw_start h hk (i := []) blanks_none []).2.2.2
    have h2 := kw_alpha h hk
    ⟨h1.1, h1.2, (over_word alpha_plain h2.1 h2.2).1⟩
  cases it with
  | blank => cases hn
  | comment t => cases hn
  | «from» kw fs g im a => exact ⟨kw, _, rfl, key h.1 (by decide)⟩
  | arg kw g n v => exact ⟨kw, _, rfl, key h.1 (by decide)⟩
  | label kw ps t => exact ⟨kw, _, rfl, key h.1 (by decide)⟩
  | label1 kw g n g' v => exact ⟨kw, _, rfl, key h.1 (by decide)⟩
  | shell k kw g s => exact ⟨kw, _, rfl, key h.1 (by cases k <;> decide)⟩
  | exec k kw g a => exact ⟨kw, _, rfl, key h.1 (by cases k <;> decide)⟩
  | copy kw fs ss d => exact ⟨kw, _, rfl, key h.1 (by decide)⟩
  | env kw ps t => exact ⟨kw, _, rfl, key h.1 (by decide)⟩
  | env1 kw g n g' s => exact ⟨kw, _, rfl, key h.1 (by decide)⟩
  | env1q kw g n g' v => exact ⟨kw, _, rfl, key h.1 (by decide)⟩
  | misc w a =>
    obtain ⟨k1, k2, -, -⟩ := over_word alpha_plain h.1 h.2.1
    refine ⟨w, _, rfl, k2, ?_, k1⟩
    obtain ⟨c, t, rfl, hc⟩ := k1
    exact ⟨[], c, t, rfl, blanks_none, hc, by rintro rfl; exact absurd (h.2.1 '#' (by simp)) (by unfold IsAlpha; decide)⟩

theorem line_noise {l : Src.Line} {R : Str} (h : l.Fits R) (hn : isNote l.item = false) {s G gs}
    (hg : groups false (rows (l.text ++ s)) = G :: gs) : isNoise G = false := by
  obtain ⟨w, g, e, h1, h2, -⟩ := item_start h.2.1 hn
  have : l.text ++ s = (l.indent ++ w) ++ (g ++ (l.trail ++ s)) := by simp [Line.text, e]
  rw [this, rows, rowsFrom_append (OneLine.append (oneLine_blanks h.1) h1)] at hg
  refine not_noise ?_ hg
  obtain ⟨v, c, t, rfl, hv, h2⟩ := h2
  exact ⟨l.indent ++ v, c, t, by simp, blanks_append h.1 hv, h2⟩

/-- blank lines and comments are one row -/
theorem note_line {l : Src.Line} {R : Str} (h : l.Fits R) (hn : isNote l.item = true) :
    OneLine l.text ∧ skipped l.text = true ∧ Flat (words l.item) l.text := by
  obtain ⟨h1, h2, h3⟩ := h
  unfold Line.text
  cases hi : l.item with
  | blank =>
    have hb : Blanks (l.indent ++ l.trail) := blanks_append h1 h3
    exact ⟨oneLine_blanks hb, skipped_blank hb, .nil hb⟩
  | comment t =>
    rw [hi] at h2
    have ho : OneLine (l.indent ++ (t ++ l.trail)) :=
      .append (oneLine_blanks h1) (.append (comment_oneLine h2.1) (oneLine_blanks h3))
    refine ⟨ho, ?_, .cons h1 (.nil h3)⟩
    obtain ⟨b, rfl, -⟩ := h2.1
    exact skipped_comment h1 _
  | _ => rw [hi] at hn; cases hn

theorem line_is {l : Src.Line} {n z : Str} (h : l.Fits (n ++ z)) (hb : LineBreak n z) (ht : itemTidy l.item) :
    ∃ G, groups false (rows (l.text ++ (n ++ z))) = G :: groups false (rows z) ∧ IsLine G l n := by
  cases hn : isNote l.item with
  | true =>
    obtain ⟨h1, h2, h3⟩ := note_line h hn
    refine ⟨[⟨l.text, n⟩], ?_, rfl, rfl, ?_, h3⟩
    · rw [rows, rowsFrom_append h1, List.nil_append, rowsFrom_break _ hb]
      show (if goesOn false l.text = true then _ else _) = _
      rw [if_neg (by simp [goesOn, h2])]
      rfl
    · rw [hn]; exact h2
  | false =>
    obtain ⟨h1, h2, h3⟩ := h
    obtain ⟨o', x', j, y, a1, a2, a3⟩ := item_reads h1 h2 ht hn
    rcases a2 with ⟨k1, k2, k3⟩ | ⟨k1, -⟩
    · have hs := a1.append rfl (Scan.chars (oneLine_blanks h3) (n ++ z) o' x')
      obtain ⟨G, g1, g2, g3, g4⟩ := scan_line hs hb ((k1.append l.trail).ends (k2 _ _ _ h3 hb rfl) o') (k1.append l.trail).not_skipped
      have e : groups false (rows (l.text ++ (n ++ z))) = G :: groups false (rows z) := by
        rw [← g1, rows, Line.text, List.append_assoc, rowsFrom_append (oneLine_blanks h1), List.nil_append]
      refine ⟨G, e, g2, g3, ?_, ?_⟩
      · rw [hn]; exact line_noise ⟨h1, h2, h3⟩ hn e
      · rw [g4, List.append_nil, ← List.append_assoc, k3, List.append_assoc]
        have := a3.append (Flat.nil h3)
        rw [List.append_nil] at this
        exact this.blanks h1
    · exfalso
      have := (List.append_eq_nil_iff.1 (List.append_eq_nil_iff.1 k1).2).1
      subst this
      rcases hb with h | h | ⟨h, -⟩ <;> cases h

theorem last_is {l : Src.Line} (h : l.Fits []) (ht : itemTidy l.item) :
    ∃ G, groups false (rows l.text) = [G] ∧ IsLine G l [] := by
  cases hn : isNote l.item with
  | true =>
    obtain ⟨h1, h2, h3⟩ := note_line h hn
    refine ⟨[⟨l.text, []⟩], ?_, rfl, rfl, ?_, h3⟩
    · rw [rows, rowsFrom_oneLine h1, List.nil_append]
      show (if goesOn false l.text = true then _ else _) = _
      rw [if_neg (by simp [goesOn, h2])]
      rfl
    · rw [hn]; exact h2
  | false =>
    obtain ⟨h1, h2, h3⟩ := h
    obtain ⟨o', x', j, y, a1, a2, a3⟩ := item_reads h1 h2 ht hn
    have hs := a1.append rfl (Scan.chars (oneLine_blanks h3) [] o' x')
    obtain ⟨G, g1, g2, g3, g4, g5⟩ := scan_last hs
    have e : groups false (rows l.text) = [G] := by
      rw [← g1, rows, Line.text, rowsFrom_append (oneLine_blanks h1), List.nil_append]
    refine ⟨G, e, g2, g3, ?_, ?_⟩
    · rw [hn]
      exact line_noise (s := []) ⟨h1, h2, h3⟩ hn (by rw [List.append_nil]; exact e)
    · rcases a2 with ⟨k1, k2, k3⟩ | ⟨k1, k2, k3, k4⟩
      · rw [g4 (k1.append _).not_skipped, List.append_nil, ← List.append_assoc, k3, List.append_assoc]
        have := a3.append (Flat.nil h3)
        rw [List.append_nil] at this
        exact this.blanks h1
      · have : l.trail = [] := (List.append_eq_nil_iff.1 k1).1
        rw [g5 k2 (by rw [this, List.append_nil]; exact k3), List.append_nil, k4]
        exact a3.blanks h1

theorem doc_lines {ms : List (Str × Src.Line)} : ∀ {l : Src.Line}, Src.DocFits l ms → (∀ m ∈ linesOf l ms, itemTidy m.item) →
    AreLines (groups false (rows (Src.docText l ms))) l ms := by
  induction ms with
  | nil =>
    intro l h ht
    obtain ⟨G, e, h⟩ := last_is h (ht l (by simp [linesOf]))
    show AreLines (groups false (rows l.text)) l []
    rw [e]
    exact ⟨h, rfl⟩
  | cons m ms ih =>
    obtain ⟨n, m⟩ := m
    intro l h ht
    obtain ⟨G, e, hG⟩ := line_is h.1 h.2.1 (ht l (by simp [linesOf]))
    show AreLines (groups false (rows (l.text ++ (n ++ Src.docText m ms)))) l ((n, m) :: ms)
    rw [e]
    exact ⟨hG, ih h.2.2 fun k hk => ht k (by
      simp only [linesOf, List.map_cons, List.mem_cons] at hk ⊢
      exact .inr hk)⟩

/-! ## instructions -/

theorem note_eval {unq : Unquote} {i : Src.Item} {p : Nat} {x : Option Instruction} (h : i.eval unq p = .ok x) :
    (isNote i = true ∧ x = none) ∨ (isNote i = false ∧ ∃ y, x = some y) := by
  cases i with
  | blank => cases h; exact .inl ⟨rfl, rfl⟩
  | comment t => cases h; exact .inl ⟨rfl, rfl⟩
  | «from» kw fs g i a =>
    obtain ⟨_, -, h⟩ := bind_some h
    obtain ⟨_, -, h⟩ := bind_some h
    cases h; exact .inr ⟨rfl, _, rfl⟩
  | arg kw g n v =>
    cases v with
    | none => cases h; exact .inr ⟨rfl, _, rfl⟩
    | some v =>
      obtain ⟨_, -, h⟩ := bind_some h
      cases h; exact .inr ⟨rfl, _, rfl⟩
  | label kw ps t =>
    obtain ⟨_, -, h⟩ := bind_some h
    cases h; exact .inr ⟨rfl, _, rfl⟩
  | label1 kw g n g' v =>
    obtain ⟨_, -, h⟩ := bind_some h
    obtain ⟨_, -, h⟩ := bind_some h
    cases h; exact .inr ⟨rfl, _, rfl⟩
  | shell k kw g s =>
    simp only [Item.eval] at h
    split at h
    · cases h
    · cases h; exact .inr ⟨rfl, _, rfl⟩
  | exec k kw g a =>
    simp only [Item.eval] at h
    split at h
    · cases h
    · obtain ⟨_, -, h⟩ := bind_some h
      cases h; exact .inr ⟨rfl, _, rfl⟩
  | copy kw fs ss d =>
    obtain ⟨_, -, h⟩ := bind_some h
    obtain ⟨_, -, h⟩ := bind_some h
    obtain ⟨_, -, h⟩ := bind_some h
    cases h; exact .inr ⟨rfl, _, rfl⟩
  | env kw ps t =>
    obtain ⟨_, -, h⟩ := bind_some h
    cases h; exact .inr ⟨rfl, _, rfl⟩
  | env1 kw g n g' s => cases h; exact .inr ⟨rfl, _, rfl⟩
  | env1q kw g n g' v =>
    obtain ⟨_, -, h⟩ := bind_some h
    cases h; exact .inr ⟨rfl, _, rfl⟩
  | misc w a => cases h; exact .inr ⟨rfl, _, rfl⟩

theorem display_plain (s : Src.Shell) (p : Nat) : (s.string p).display = plain s := by
  have : ∀ (s : Src.Shell) (p : Nat) (sp : Span), (⟨sp, s.components p⟩ : BreakableString).display = plain s := by
    intro s
    induction s with
    | last t => intro p sp; simp [Src.Shell.components, BreakableString.display, plain]
    | lastComment w t n => intro p sp; simp [Src.Shell.components, BreakableString.display, plain]
    | more t w n s ih =>
      intro p sp
      have := ih (p + blen t + 1 + blen w + blen n) sp
      simp only [BreakableString.display] at this
      simp [Src.Shell.components, BreakableString.display, plain, this]
    | comment w t n s ih =>
      intro p sp
      have := ih (p + blen w + blen t + blen n) sp
      simp only [BreakableString.display] at this
      simp [Src.Shell.components, BreakableString.display, plain, this]
  exact this s p _

theorem item_shows {unq : Unquote} {i : Src.Item} {R : Str} (hf : i.Fits R) {p : Nat} {x : Instruction} (h : i.eval unq p = .ok (some x))
    {y : Str} (hy : Flat (words i) y) : Shows y x := by
  cases i with
  | blank => cases h
  | comment t => cases h
  | «from» kw fs g i a =>
    obtain ⟨_, -, h⟩ := bind_some h
    obtain ⟨_, -, h⟩ := bind_some h
    cases h; trivial
  | arg kw g n v =>
    cases v with
    | none => cases h; trivial
    | some v =>
      obtain ⟨_, -, h⟩ := bind_some h
      cases h; trivial
  | label kw ps t =>
    obtain ⟨_, -, h⟩ := bind_some h
    cases h; trivial
  | label1 kw g n g' v =>
    obtain ⟨_, -, h⟩ := bind_some h
    obtain ⟨_, -, h⟩ := bind_some h
    cases h; trivial
  | shell k kw g s =>
    simp only [Item.eval] at h
    split at h
    · cases h
    · cases h
      cases k <;>
      · rintro b ⟨⟩
        rw [display_plain]
        exact ⟨kw, hf.1, hy⟩
  | exec k kw g a =>
    simp only [Item.eval] at h
    split at h
    · cases h
    · obtain ⟨_, -, h⟩ := bind_some h
      cases h
      cases k <;>
      · rintro b ⟨⟩
  | copy kw fs ss d =>
    obtain ⟨_, -, h⟩ := bind_some h
    obtain ⟨_, -, h⟩ := bind_some h
    obtain ⟨_, -, h⟩ := bind_some h
    cases h; trivial
  | env kw ps t =>
    obtain ⟨_, -, h⟩ := bind_some h
    cases h; trivial
  | env1 kw g n g' s => cases h; trivial
  | env1q kw g n g' v =>
    obtain ⟨_, -, h⟩ := bind_some h
    cases h; trivial
  | misc w a =>
    cases h
    show Flat [w ++ (a.string _).display] y
    rw [display_plain]
    exact hy

theorem takeWhile_indent {l : Src.Line} {R : Str} (h : l.Fits R) (hn : isNote l.item = false) : l.text.takeWhile isBlank = l.indent := by
  obtain ⟨w, g, e, -, -, h2⟩ := item_start h.2.1 hn
  have : Head l.item.text := by rw [e]; exact h2.append g
  obtain ⟨c, t, e, hc⟩ := this
  unfold Line.text
  rw [List.takeWhile_append_of_pos (fun d hd => blank_iff.2 (h.1 d hd)), e, List.cons_append,
    List.takeWhile_cons_of_neg (by rw [blank_iff]; exact hc), List.append_nil]

theorem line_at {unq : Unquote} {l : Src.Line} {R : Str} (h : l.Fits R) {p : Nat} {x : Instruction}
    (he : l.item.eval unq (p + blen l.indent) = .ok (some x)) {g : List Row} {n : Str} (hg : IsLine g l n) : At p g x := by
  obtain ⟨h1, -, h3, h4⟩ := hg
  have hn : isNote l.item = false := by
    rcases note_eval he with ⟨-, h⟩ | ⟨h, -⟩
    · cases h
    · exact h
  refine ⟨?_, ⟨l.indent ++ l.item.text, l.trail, ?_, h.2.2, ?_⟩, item_shows h.2.1 he h4⟩
  · rw [(item_at he).1, h1, takeWhile_indent h hn]
  · rw [h1]; simp [Line.text]
  · rw [(item_at he).1]; simp only [blen_append]; omega

theorem line_placed {unq : Unquote} {l : Src.Line} {R : Str} (h : l.Fits R) {p : Nat} {x : Option Instruction}
    (he : l.item.eval unq (p + blen l.indent) = .ok x) {g : List Row} {n : Str} (hg : IsLine g l n) {gs is}
    (hr : Placed (p + blen l.text + blen n) gs is) : Placed p (g :: gs) (x.toList ++ is) := by
  have e : p + blen (body g) + blen (lastBreak g) = p + blen l.text + blen n := by rw [hg.1, hg.2.1]
  unfold Placed
  rw [e, hg.2.2.1]
  rcases note_eval he with ⟨h1, rfl⟩ | ⟨h1, y, rfl⟩
  · rw [if_pos h1]; exact hr
  · rw [if_neg (by rw [h1]; simp)]
    exact ⟨y, is, rfl, line_at h he hg, hr⟩

theorem doc_placed {unq : Unquote} {ms : List (Str × Src.Line)} : ∀ {l : Src.Line} {p : Nat} {is : List Instruction} {gs},
    Src.DocFits l ms → AreLines gs l ms → Src.evalDoc unq p l ms = .ok is → Placed p gs is := by
  induction ms with
  | nil =>
    intro l p is gs h ha he
    obtain ⟨x, h1, h2⟩ := bind_some he
    cases h2
    cases gs with
    | nil => cases ha
    | cons g gs =>
      obtain ⟨ha, rfl⟩ := ha
      have := line_placed (gs := []) (is := []) h h1 ha rfl
      rw [List.append_nil] at this
      exact this
  | cons m ms ih =>
    obtain ⟨n, m⟩ := m
    intro l p is gs h ha he
    obtain ⟨x, h1, he⟩ := bind_some he
    obtain ⟨is', h2, h3⟩ := bind_some he
    cases h3
    cases gs with
    | nil => cases ha
    | cons g gs =>
      obtain ⟨ha, hb⟩ := ha
      exact line_placed h.1 h1 ha (ih h.2.2 hb h2)

theorem placed_number {gs : List (List Row)} : ∀ {p : Nat} {is : List Instruction} (n : Nat), Placed p gs is → Placed p gs (numberStages n is) := by
  induction gs with
  | nil =>
    intro p is n h
    have : is = [] := h
    subst this
    rfl
  | cons g gs ih =>
    intro p is n h
    unfold Placed at h ⊢
    split at h
    · rename_i hn
      rw [if_pos hn]; exact ih n h
    · rename_i hn
      rw [if_neg hn]
      obtain ⟨i, is', rfl, h1, h2⟩ := h
      cases i with
      | «from» f => exact ⟨_, _, rfl, h1, ih _ h2⟩
      | _ => exact ⟨_, _, rfl, h1, ih _ h2⟩

end Logical
end Verif
