import Verif.Proof.SrcExec

/-!
# Lines and documents
-/

namespace Verif
namespace Src
open Spec

/-- What a line that fits yields. -/
theorem line_reads {unq : Unquote} {l : Line} {r : Str} (h : l.Fits r) (p : Nat) (hr : AtEnd r) :
    ∃ ts, SemX G.meta_step false p l.text r ts ∧
      ∀ st, recordLoop unq ts st =
        (l.item.eval unq (p + blen l.indent)).map fun o => o.toList.foldl loopStep st := by
  obtain ⟨h1, h2, h3⟩ := h
  have hrest : Rest (l.trail ++ r) := ⟨l.trail, r, rfl, h3, hr⟩
  by_cases hb : l.item = .blank
  · refine ⟨[], ?_, fun st => by rw [hb]; rfl⟩
    have : Blanks l.text := by
      intro c hc
      simp only [Line.text, hb, Item.text, List.nil_append, List.mem_append] at hc
      exact hc.elim (h1 c) (h3 c)
    exact line_blank this r hr
  by_cases hc : ∃ t, l.item = .comment t
  · obtain ⟨t, hc⟩ := hc
    rw [hc] at h2
    obtain ⟨ht, he⟩ := h2
    have h4 : l.trail = [] := by
      cases hl : l.trail with
      | nil => rfl
      | cons c b =>
        rw [hl] at he h3
        have k1 := he c (b ++ r) rfl
        have k2 := h3 c (by simp)
        rcases k1 with rfl | rfl <;> rcases k2 with k2 | k2 <;> cases k2
    refine ⟨[.node .comment (p + blen l.indent) (p + blen l.indent + blen t) t []], ?_, fun st => ?_⟩
    · have e : l.text = l.indent ++ t := by simp [Line.text, hc, Item.text, h4]
      rw [e]
      exact line_comment h1 ht r hr
    · rw [hc]; rfl
  · obtain ⟨tok, k1, k2, k3⟩ := item_reads h2 hrest hb (fun t e => hc ⟨t, e⟩) unq (p + blen l.indent)
    refine ⟨[] ++ ([tok] ++ []), ?_, fun st => ?_⟩
    · refine SemX.seq (ws_x h1 fun c b e => ?_) (SemX.seq (semX_opt.2 (.inl (semX_alt.2 (.inl k1))))
        (ws_x h3 fun c b e => isBlank_break (hr c b e)))
      have := step_letter k1 c b (by simpa using e)
      have := plain_alpha c this
      simp only [plainChar, Bool.not_eq_true', Bool.or_eq_false_iff] at this
      exact this.1.1
    · simp only [List.nil_append, List.append_nil]
      rw [recordLoop_cons_rule k2.1 k2.2, ← k3]
      cases instructionOf unq tok <;> rfl

/-- What a document that fits yields. -/
theorem doc_reads {unq : Unquote} {l : Line} {ms : List (Str × Line)} (h : DocFits l ms) (p : Nat) :
    ∃ ts, docToks p (docText l ms) = some ts ∧
      ∀ st, recordLoop unq ts st = (evalDoc unq p l ms).map fun is => is.foldl loopStep st := by
  induction ms generalizing l p with
  | nil =>
    obtain ⟨ts, h1, h2⟩ := line_reads (unq := unq) (show l.Fits [] from h) p AtEnd.nil
    refine ⟨_, docToks_last h1, fun st => ?_⟩
    rw [recordLoop_append, h2, evalDoc]
    cases l.item.eval unq (p + blen l.indent) <;> rfl
  | cons m ms ih =>
    obtain ⟨n, m⟩ := m
    obtain ⟨h1, h2, h3⟩ := h
    obtain ⟨ts, k1, k2⟩ := line_reads (unq := unq) h1 p (AtEnd.break h2)
    obtain ⟨us, k3, k4⟩ := ih h3 (p + blen l.text + blen n)
    refine ⟨ts ++ us, ?_, fun st => ?_⟩
    · have := docToks_cons k1 h2
      rw [k3, List.append_assoc] at this
      exact this
    · rw [recordLoop_append, k2, evalDoc]
      cases l.item.eval unq (p + blen l.indent) with
      | error e => rfl
      | ok o =>
        show recordLoop unq us _ = _
        rw [k4]
        cases evalDoc unq (p + blen l.text + blen n) m ms with
        | error e => rfl
        | ok is =>
          show Except.ok _ = Except.ok _
          simp only [List.foldl_append]

/-- **A document that fits is parsed to what it says.** -/
theorem parse_fits {unq : Unquote} {l : Line} {ms : List (Str × Line)} (h : DocFits l ms) :
    Dockerfile.parse unq (docText l ms) =
      (evalDoc unq 0 l ms).map (documentOf (docText l ms)) := by
  obtain ⟨ts, h1, h2⟩ := doc_reads (unq := unq) h 0
  rw [parse_docToks, h1]
  simp only [h2]
  cases evalDoc unq 0 l ms with
  | error e => rfl
  | ok is =>
    simp only [Except.map, mapped_ok]
    rw [loop_documentOf]
    rfl

/-- Lines fit. -/
theorem line_inv {p x s ts} (hs : AtEnd s) (h : SemX G.meta_step false p x s ts) :
    ∃ l : Line, l.text = x ∧ l.Fits s := by
  obtain ⟨w, y, _, _, rfl, -, h1, h⟩ := semX_seq.1 h
  obtain ⟨t, w', _, _, rfl, -, h2, h3⟩ := semX_seq.1 h
  obtain ⟨hw, -⟩ := blanks_of h1
  obtain ⟨hw', -⟩ := blanks_of h3
  rcases semX_opt.1 h2 with h | ⟨rfl, -, -⟩
  · rcases semX_alt.1 h with h | ⟨_, h⟩
    · obtain ⟨i, rfl, hi, -⟩ := step_inv ⟨w', s, rfl, hw', hs⟩ h
      exact ⟨⟨w, i, w'⟩, rfl, hw, hi, hw'⟩
    · obtain ⟨⟨b, rfl, hb⟩, he, -⟩ := comment_inv h
      exact ⟨⟨w, .comment ('#' :: b), w'⟩, rfl, hw,
        ⟨⟨b, rfl, fun c hc => isBreak_false.1 (hb c hc)⟩, fun c b e => by simpa [isBreak] using he c b e⟩, hw'⟩
  · exact ⟨⟨w, .blank, w'⟩, rfl, hw, trivial, hw'⟩

theorem lines_inv {p x1 x2 t1 t2} (h1 : SemX G.meta_step false p x1 x2 t1)
    (h2 : SemX (.star (.seq G.NEWLINE G.meta_step)) false (p + blen x1) x2 [] t2) :
    ∃ l ms, docText l ms = x1 ++ x2 ∧ DocFits l ms := by
  have key : ∀ {p2 x2 t2}, SemX (.star (.seq G.NEWLINE G.meta_step)) false p2 x2 [] t2 →
      ∀ {p x1 t1}, SemX G.meta_step false p x1 x2 t1 →
        ∃ l ms, docText l ms = x1 ++ x2 ∧ DocFits l ms := by
    intro p2 x2 t2 h
    refine semX_star_induction (s' := [])
      (P := fun p2 x2 t2 => ∀ {p x1 t1}, SemX G.meta_step false p x1 x2 t1 →
        ∃ l ms, docText l ms = x1 ++ x2 ∧ DocFits l ms) ?_ ?_ h
    · intro p2 _ p x1 t1 h1
      obtain ⟨l, rfl, hl⟩ := line_inv AtEnd.nil h1
      exact ⟨l, [], (List.append_nil _).symm, hl⟩
    · intro p2 y1 y2 u1 u2 g1 g2 ih p x1 t1 h1
      obtain ⟨n, y3, u3, u4, rfl, rfl, g3, g4⟩ := semX_seq.1 g1
      obtain ⟨hn, rfl⟩ := semX_newline g3
      rw [List.append_nil] at hn
      rw [List.append_nil] at g4
      obtain ⟨m, ms, e, hm⟩ := ih g4
      have hn' : LineBreak n (docText m ms) := by rw [e]; exact hn
      have e' : n ++ y3 ++ y2 = n ++ docText m ms := by rw [e, List.append_assoc]
      rw [e'] at h1 ⊢
      obtain ⟨l, rfl, hl⟩ := line_inv (AtEnd.break hn') h1
      exact ⟨l, (n, m) :: ms, rfl, hl, hn', hm⟩
  exact key h2 h1

/-- **Every document that the grammar accepts fits.** -/
theorem doc_inv {s : Str} {p : Nat} (h : docToks p s ≠ none) :
    ∃ l ms, docText l ms = s ∧ DocFits l ms := by
  have h3 := parse_sem safe_lines false p s
  unfold docToks at h
  rcases hl : parse G.lines false p s with _ | ⟨p', s', us⟩
  · rw [hl] at h; exact absurd rfl h
  · rw [hl] at h3
    obtain ⟨x, rfl, rfl, hx⟩ := h3.x
    obtain ⟨x2, x3, t2, t3, rfl, rfl, h2, h⟩ := semX_seq.1 hx
    obtain ⟨x4, x5, t4, t5, rfl, rfl, h4, h⟩ := semX_seq.1 h
    obtain ⟨c, h5, -⟩ := semX_rule.1 h
    obtain ⟨e5, -⟩ := semX_eoi h5
    obtain ⟨rfl, rfl⟩ := List.append_eq_nil_iff.1 e5
    simp only [List.append_nil] at h2 h4 ⊢
    exact lines_inv h2 h4

/-- **All other texts are rejected.** -/
theorem parse_unfit {unq : Unquote} {s : Str} (h : ∀ l ms, docText l ms = s → ¬ DocFits l ms) :
    Dockerfile.parse unq s = .error (.err .parseError) := by
  refine parse_error_iff.2 (Classical.byContradiction fun hn => ?_)
  obtain ⟨l, ms, e, hf⟩ := doc_inv hn
  exact h l ms e hf

end Src
end Verif
