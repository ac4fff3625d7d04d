import Verif.Proof.EditFits

/-!
# Documents with new texts are well-formed
-/

namespace Verif
namespace Src
open Spec

variable {unq : Unquote} {new : Span → Option Str}

theorem exists_word {x : Str} (h : ¬ WordEnd x) : ∃ w r, x = w ++ r ∧ Word w r := by
  induction x with
  | nil => exact absurd (.inl fun c b e => by cases e) h
  | cons c x ih =>
    by_cases hx : WordEnd x
    · refine ⟨[c], x, rfl, by simp, fun a b e hb => ?_, hx⟩
      cases a with
      | nil => rw [List.nil_append] at e; rw [← e]; exact h
      | cons d a =>
        obtain ⟨-, e⟩ := List.cons.inj e
        exact absurd (List.append_eq_nil_iff.1 e.symm).2 hb
    · obtain ⟨w, r, rfl, h1, h2, h3⟩ := ih hx
      refine ⟨c :: w, r, rfl, by simp, fun a b e hb => ?_, h3⟩
      cases a with
      | nil => rw [List.nil_append] at e; rw [← e]; exact h
      | cons d a =>
        obtain ⟨-, e⟩ := List.cons.inj e
        exact h2 a b e hb

theorem second_of {g : Str} {c : Char} {x : Str} (h : Gap g (c :: x)) (hc : ¬ (c = '\n' ∨ c = '\r')) :
    Second (g ++ c :: x) := by
  obtain ⟨w, r, e, hw⟩ := exists_word (x := c :: x) (by
    rintro (h1 | h1)
    · exact hc (h1 c x rfl)
    · exact h.2.ends h1)
  refine ⟨⟨g, w⟩, r, by simp [Arg.text, e], ?_, hw⟩
  show Gap g (w ++ r)
  rw [← e]; exact h

theorem second_text {g t r x : Str} (h : Gap g x) (e : x = t ++ r) (ht : t ≠ []) (hc : ∀ c ∈ t, ¬ (c = '\n' ∨ c = '\r')) :
    Second (g ++ x) := by
  obtain ⟨c, t, rfl⟩ := List.exists_cons_of_ne_nil ht
  subst e
  exact second_of h (hc c (by simp))

theorem image_break {c : Char} (h : IsImageChar c) : ¬ (c = '\n' ∨ c = '\r') := fun e => nimg_break e h

theorem word_break {c : Char} (h : IsWord c) : ¬ (c = '\n' ∨ c = '\r') := by
  rintro (rfl | rfl) <;> rcases h with h | ⟨h, -⟩ | h
  all_goals first
    | exact nalpha (by decide) h
    | revert h; decide

theorem quoted_head {t : Str} (h : QuotedText t) : ∃ c x, t = c :: x ∧ ¬ (c = '\n' ∨ c = '\r') := by
  obtain ⟨q, b, rfl, hq, -⟩ := h
  exact ⟨q, _, rfl, by rcases hq with rfl | rfl <;> decide⟩

theorem second_name {g r x : Str} {v : Value} (h : Gap g x) (hv : v.FitsName r) {y : Str} (e : x = v.text ++ y) :
    Second (g ++ x) := by
  cases v with
  | quoted t =>
    obtain ⟨c, z, rfl, hc⟩ := quoted_head hv
    subst e
    exact second_of h hc
  | bare t =>
    refine second_text h e hv.2.1 fun c hc he => hv.2.2.1 c hc ?_
    rcases he with rfl | rfl
    · exact .inr (.inr (.inl rfl))
    · exact .inr (.inr (.inr (.inl rfl)))

theorem shell_head {s : Shell} {r : Str} (h : s.Fits r) : ∃ c x, s.text = c :: x ∧ ¬ (c = '\n' ∨ c = '\r') := by
  have hp : ∀ {t r}, Shell.Piece t r → ∃ c x, t = c :: x ∧ ¬ (c = '\n' ∨ c = '\r') := by
    rintro t r ⟨h1, h2, -⟩
    obtain ⟨c, t, rfl⟩ := List.exists_cons_of_ne_nil h1
    exact ⟨c, t, rfl, fun e => e.elim (h2 c (by simp)).1 (h2 c (by simp)).2⟩
  have hc : ∀ {w t : Str}, Blanks w → CommentText t → ∀ y, ∃ c x, w ++ (t ++ y) = c :: x ∧ ¬ (c = '\n' ∨ c = '\r') := by
    rintro w t hw ⟨b, rfl, -⟩ y
    cases w with
    | nil => exact ⟨'#', _, rfl, by decide⟩
    | cons d w => exact ⟨d, _, rfl, by rcases hw d (by simp) with rfl | rfl <;> decide⟩
  cases s with
  | last t => exact hp h.1
  | lastComment w t n => exact hc h.1 h.2.1 _
  | more t w n s =>
    obtain ⟨c, x, rfl, h1⟩ := hp h.1
    exact ⟨c, _, rfl, h1⟩
  | comment w t n s => exact hc h.1 h.2.1 _

theorem kw_alpha {kw k : Str} (h : lower kw = k) (hk : k ∈ keywords) : Over IsAlpha kw := by
  have hk' : k ≠ [] ∧ ∀ c ∈ k, isAlpha c = true := by
    have : ∀ k ∈ keywords, k ≠ [] ∧ ∀ c ∈ k, isAlpha c = true := by decide
    exact this k hk
  constructor
  · rintro rfl
    exact hk'.1 h.symm
  · intro c hc
    have : lowerChar c ∈ lower kw := List.mem_map_of_mem hc
    rw [h] at this
    exact alpha_of_lower (isAlpha_iff.1 (hk'.2 _ this))

/-- lines with texts that may be replaced -/
def Item.Known : Item → Prop
  | blank | comment _ | label _ [] _ | env _ [] _ => False
  | misc w a => ¬ IsKeyword w ∧ a.BlankWord
  | _ => True

theorem second_flags {fs : List Flag} {y : Str} (h : FlagsFit fs y) (hy : Second y) :
    Second (flagsText fs ++ y) := by
  cases fs with
  | nil => exact hy
  | cons f fs =>
    have : Gap f.gap (f.body ++ (flagsText fs ++ y)) := h.1.1
    have := second_of this (by decide)
    rw [flagsText_cons, Flag.text]
    simpa [Flag.body] using this

theorem second_args {fs : List Arg} {y : Str} (h : ArgsFit fs y) (hf : fs ≠ []) :
    Second (argsText fs ++ y) := by
  cases fs with
  | nil => exact absurd rfl hf
  | cons f fs => exact ⟨f, argsText fs ++ y, by rw [argsText_cons, List.append_assoc], h.1⟩

theorem Item.Fits.known {i : Item} {r : Str} (h : i.Fits r) (hk : i.Known) :
    Over IsAlpha i.kw ∧ Second (segText i.rest ++ r) := by
  cases i with
  | blank => exact hk.elim
  | comment t => exact hk.elim
  | «from» kw fs g i a =>
    refine ⟨kw_alpha h.1 (by decide), ?_⟩
    have h1 := second_text h.2.2.1 rfl h.2.2.2.1 fun c hc => image_break (h.2.2.2.2.1 c hc)
    have := second_flags h.2.1 h1
    simpa [Item.rest, flags_text, alias_text] using this
  | arg kw g n v =>
    refine ⟨kw_alpha h.1 (by decide), ?_⟩
    obtain ⟨c, b, rfl, hc, -⟩ := h.2.2.1
    have := second_of h.2.1 (alpha_plain' hc).1
    simpa [Item.rest, value_text] using this
  | label kw ps t =>
    cases ps with
    | nil => exact hk.elim
    | cons f fs =>
      refine ⟨kw_alpha h.1 (by decide), ?_⟩
      have := second_name h.2.1.1.1 h.2.1.1.2.1 (y := '=' :: f.value.text ++ (pairsText fs ++ (t ++ r)))
        (by simp [Pair.body])
      simpa [Item.rest, pairs_text, pairsText_cons, Pair.text] using this
  | label1 kw g n g' v =>
    refine ⟨kw_alpha h.1 (by decide), ?_⟩
    have := second_name h.2.1 h.2.2.1 rfl
    simpa [Item.rest] using this
  | shell k kw g s =>
    refine ⟨kw_alpha h.1 (by cases k <;> decide), ?_⟩
    obtain ⟨c, x, e, hc⟩ := shell_head h.2.2.1
    have h1 := h.2.1
    rw [e] at h1
    have := second_of h1 hc
    simpa [Item.rest, shell_text, e] using this
  | exec k kw g a =>
    refine ⟨kw_alpha h.1 (by cases k <;> decide), ?_⟩
    have h1 := h.2.1
    have : ∃ x, a.text = '[' :: x := by cases a <;> exact ⟨_, rfl⟩
    obtain ⟨x, e⟩ := this
    rw [e] at h1
    have := second_of h1 (by decide)
    simpa [Item.rest, array_text, e] using this
  | copy kw fs ss d =>
    refine ⟨kw_alpha h.1 (by decide), ?_⟩
    have := second_flags h.2.1 (second_args h.2.2.2.1 (by simp))
    simpa [Item.rest, flags_text, args_text, arg_text, argsText] using this
  | env kw ps t =>
    cases ps with
    | nil => exact hk.elim
    | cons f fs =>
      refine ⟨kw_alpha h.1 (by decide), ?_⟩
      obtain ⟨n, e, h1, h2⟩ := h.2.1.1.2.1
      have := second_text h.2.1.1.1 (t := n) (r := '=' :: f.value.text ++ (pairsText fs ++ (t ++ r)))
        (by simp [Pair.body, e, Value.text]) h1 fun c hc => word_break (h2 c hc)
      simpa [Item.rest, pairs_text, pairsText_cons, Pair.text] using this
  | env1 kw g n g' s =>
    refine ⟨kw_alpha h.1 (by decide), ?_⟩
    have := second_text h.2.1 rfl h.2.2.1 fun c hc => word_break (h.2.2.2.1 c hc)
    simpa [Item.rest, shell_text] using this
  | env1q kw g n g' v =>
    refine ⟨kw_alpha h.1 (by decide), ?_⟩
    have := second_text h.2.1 rfl h.2.2.1 fun c hc => word_break (h.2.2.2.1 c hc)
    simpa [Item.rest] using this
  | misc w a =>
    refine ⟨⟨h.1, h.2.1⟩, ?_⟩
    obtain ⟨t, b, c, u, h1, rfl, h2, h3, h4, h5⟩ := hk.2
    have key : ∀ y, Shell.Piece (b ++ c :: u) y → Second (b ++ c :: (u ++ y)) := by
      rintro y ⟨-, h6, h7, -⟩
      refine second_of ⟨h2, ?_⟩ fun e => e.elim (h6 c (by simp)).1 (h6 c (by simp)).2
      have hn : ¬ StartsSpace (c :: (u ++ y)) := by
        rintro (⟨d, x, e, hd⟩ | h8)
        · obtain ⟨rfl, -⟩ := List.cons.inj e
          exact hd.elim h4 h5
        · exact h7 b (c :: u) rfl (by simp) h8
      clear h2 h6 h7 h1
      induction b with
      | nil => exact .nil hn
      | cons d b ih => exact .blank (h3 d (by simp)) (ih fun x hx => h3 x (by simp [hx]))
    have h6 := h.2.2.1
    cases a with
    | last t =>
      cases h1
      simpa [Item.rest, shell_text, Shell.text] using key _ h6.1
    | more t w n s =>
      cases h1
      simpa [Item.rest, shell_text, Shell.text] using key _ h6.1
    | lastComment => cases h1
    | comment => cases h1

theorem Item.Known.put {i : Item} {p : Nat} (hk : i.Known) (h : SegOK unq new (p + blen i.kw) i.rest) :
    (i.put new p).Known := by
  cases i with
  | blank => exact hk
  | comment t => exact hk
  | label kw ps t =>
    cases ps with
    | nil => exact hk
    | cons f fs => trivial
  | env kw ps t =>
    cases ps with
    | nil => exact hk
    | cons f fs => trivial
  | misc w a =>
    refine ⟨hk.1, ?_⟩
    have key : ∀ {k t}, FieldOK unq new k (p + blen w) t →
        (∃ b c u, t = b ++ c :: u ∧ b ≠ [] ∧ Blanks b ∧ c ≠ ' ' ∧ c ≠ '\t') →
        ∃ b c u, Src.put new (p + blen w) t = b ++ c :: u ∧ b ≠ [] ∧ Blanks b ∧ c ≠ ' ' ∧ c ≠ '\t' := by
      rintro k t hf ⟨b, c, u, rfl, h2, h3, h4, h5⟩
      obtain ⟨z, e, hz⟩ := hf.x.strip (blanks_nplain h3)
      obtain ⟨c', z', rfl, hc⟩ := hz.head
      refine ⟨b, c', z', e, h2, h3, ?_⟩
      rcases hc with ⟨rfl, -⟩ | ⟨-, hc⟩
      · exact ⟨h4, h5⟩
      · exact ⟨fun e => (plain_ne hc).2.1 (.inl e), fun e => (plain_ne hc).2.1 (.inr e)⟩
    obtain ⟨t, b, c, u, h1, h2⟩ := hk.2
    cases a with
    | last t =>
      cases h1
      obtain ⟨b, c, u, h3⟩ := key (k := _) h.fld.1 ⟨b, c, u, h2⟩
      exact ⟨_, b, c, u, rfl, h3⟩
    | more t w n s =>
      cases h1
      obtain ⟨b, c, u, h3⟩ := key (k := _) h.fld.1 ⟨b, c, u, h2⟩
      exact ⟨_, b, c, u, rfl, h3⟩
    | lastComment => cases h1
    | comment => cases h1
  | _ => trivial

theorem Item.put_unknown {i : Item} {p : Nat} (hk : ¬ i.Known) (h : SegOK unq new (p + blen i.kw) i.rest) :
    i.put new p = i := by
  cases i with
  | blank => rfl
  | comment t => rfl
  | label kw ps t =>
    cases ps with
    | nil => rfl
    | cons f fs => exact absurd trivial hk
  | env kw ps t =>
    cases ps with
    | nil => rfl
    | cons f fs => exact absurd trivial hk
  | misc w a => exact congrArg _ (shell_put_same (p := p + blen w) hk h)
  | _ => exact absurd trivial hk

theorem line_step {l : Line} {p : Nat} {r r' : Str} (hl : l.Fits r) (h : SegOK unq new p l.segs)
    (hr : Later r r') : (l.put new p).Fits r' ∧
      (l.text ++ r = (l.put new p).text ++ r' ∨ Spot Lead (l.text ++ r) ((l.put new p).text ++ r')) := by
  have h1 : SegOK unq new (p + blen l.indent + blen l.item.kw) l.item.rest := h.fix.append.1.fix
  have hf := item_put_fits hl.2.1 h1 (hr.pre l.trail)
  refine ⟨⟨hl.1, hf, hl.2.2⟩, ?_⟩
  by_cases hk : l.item.Known
  · obtain ⟨h2, h3⟩ := hl.2.1.known hk
    obtain ⟨-, h4⟩ := hf.known (hk.put h1)
    refine .inr ⟨l.indent, l.item.kw, segText l.item.rest ++ (l.trail ++ r),
      segText (l.item.put new (p + blen l.indent)).rest ++ (l.trail ++ r'), ?_, ?_, ?_, h2, ?_, h3, h4⟩
    · simp [Line.text, item_text_kw]
    · simp [Line.text, Line.put, item_text_kw, item_kw_put]
    · exact ⟨[], l.indent, rfl, hl.1, .inl rfl⟩
    · have := h1.x
      rw [item_rest_put] at this
      exact this.append (hr.x.pre l.trail)
  · have e : l.put new p = l := by
      rw [Line.put, Item.put_unknown hk h1]
    rw [e]
    rcases hr with rfl | hr
    · exact .inl rfl
    · exact .inr (hr.lead l.text)

theorem doc_put_fits {ms : List (Str × Line)} : ∀ {l : Line} {p : Nat}, DocFits l ms →
    SegOK unq new p (docSegs l ms) →
    DocFits (l.put new p) (docPut new (p + blen l.text) ms) ∧
      (docText l ms = docText (l.put new p) (docPut new (p + blen l.text) ms) ∨
        Spot Lead (docText l ms) (docText (l.put new p) (docPut new (p + blen l.text) ms))) := by
  induction ms with
  | nil =>
    intro l p hl h
    have := line_step (r := []) hl h (.inl rfl)
    simpa [docPut, docText, DocFits] using this
  | cons m ms ih =>
    obtain ⟨n, m⟩ := m
    intro l p hl h
    obtain ⟨h1, h2, h3⟩ := hl
    obtain ⟨h4, h5⟩ := h.append
    rw [line_segs_text] at h5
    obtain ⟨h6, h7⟩ := ih h3 h5.fix
    have hx : Like (docText m ms) (docText (m.put new (p + blen l.text + blen n))
        (docPut new (p + blen l.text + blen n + blen m.text) ms)) := by
      rcases h7 with h7 | h7
      · rw [← h7]; exact .refl _
      · exact h7.x
    have hL : Later (n ++ docText m ms) (n ++ docText (m.put new (p + blen l.text + blen n))
        (docPut new (p + blen l.text + blen n + blen m.text) ms)) := by
      rcases h7 with h7 | ⟨a, kw, y, y', e, e', ha, h8⟩
      · rw [← h7]; exact .inl rfl
      · exact .inr ⟨n ++ a, kw, y, y', by simp [e], by simp [e'], broken h2 ha, h8⟩
    obtain ⟨h8, h9⟩ := line_step h1 h4 hL
    exact ⟨⟨h8, hx.lineBreak h2, h6⟩, h9⟩

end Src
end Verif
