import Verif.Proof.LineEndsTexts
import Verif.Proof.Lines

/-! # Documents with other line ends -/

namespace Verif
open Spec

/-! ## positions -/

theorem timesBefore_prefix (c : Char) (u z : Str) :
    timesBefore c (u ++ z) (blen u) = u.count c := by
  induction u with
  | nil => cases z <;> simp [timesBefore]
  | cons d u ih =>
    have hd : 0 < d.utf8Size := Char.utf8Size_pos d
    have h0 : ¬ d.utf8Size + blen u = 0 := by omega
    simp only [List.cons_append, timesBefore, blen_cons, h0, if_false, Nat.add_sub_cancel_left, ih,
      List.count_cons, beq_iff_eq]
    omega

theorem blen_reline {w : Str} (hw : OtherEnd w) (u : Str) :
    blen (reline w u) = blen u + (blen w - 1) * u.count '\n' := by
  have h1 : blen w = (blen w - 1) + 1 := by rcases hw with rfl | rfl <;> decide
  have hn : ('\n' : Char).utf8Size = 1 := by decide
  generalize blen w - 1 = k at h1 ⊢
  induction u with
  | nil => simp [reline_nil]
  | cons c u ih =>
    by_cases hc : c = '\n'
    · subst hc
      rw [reline_lf, blen_append, ih, blen_cons, h1, hn, List.count_cons_self, Nat.mul_add]
      omega
    · rw [reline_cons hc, blen_cons, blen_cons, ih, List.count_cons_of_ne hc]
      omega

theorem count_reline {w : Str} (hw : OtherEnd w) {u : Str} (hr : '\r' ∉ u) :
    (reline w u).count '\r' = u.count '\n' := by
  have h1 : w.count '\r' = 1 := by rcases hw with rfl | rfl <;> decide
  induction u with
  | nil => rfl
  | cons c u ih =>
    simp only [List.mem_cons, not_or] at hr
    by_cases hc : c = '\n'
    · subst hc
      rw [reline_lf, List.count_append, ih hr.2, h1, List.count_cons_self]; omega
    · rw [reline_cons hc, List.count_cons_of_ne (Ne.symm hr.1), ih hr.2, List.count_cons_of_ne hc]

theorem toEnds_prefix {w : Str} (hw : OtherEnd w) (u z : Str) :
    toEnds w (u ++ z) (blen u) = blen (reline w u) := by
  rw [toEnds, timesBefore_prefix, blen_reline hw]

theorem fromEnds_prefix {w : Str} (hw : OtherEnd w) {u : Str} (hr : '\r' ∉ u) (z : Str) :
    fromEnds w (reline w u ++ z) (blen (reline w u)) = blen u := by
  rw [fromEnds, timesBefore_prefix, count_reline hw hr, blen_reline hw]
  omega

/-! ## tokens -/

/-- the text of a token that is read is on one line -/
def OneLine (r : Rule) (_ _ : Nat) (x : Str) : Prop :=
  readRule r = true → ∀ c ∈ x, c ≠ '\n' ∧ c ≠ '\r'

theorem alikes_there {w v : Str} (hw : OtherEnd w) {ts ts'} (h : Twins (Relined w v) ts ts')
    (hd : Deep OneLine ts) : Alikes (toEnds w v) ts ts' := by
  induction h with
  | nil => exact .nil
  | @cons r a b x a' b' x' ch ch' ts ts' h1 h2 h3 ih1 ih2 =>
    cases hd with
    | cons d1 d2 d3 =>
      obtain ⟨u, z, hv, rfl, rfl, rfl, rfl, rfl⟩ := h1
      have e1 : toEnds w v (blen u) = blen (reline w u) := by
        rw [hv, List.append_assoc]; exact toEnds_prefix hw _ _
      have e2 : toEnds w v (blen (u ++ x)) = blen (reline w (u ++ x)) := by
        rw [hv]; exact toEnds_prefix hw _ _
      rw [← e1, ← e2]
      exact .cons (fun hr => reline_same fun hm => (d1 hr _ hm).1 rfl) (fun hr => ih1 (d2 hr)) (ih2 d3)

theorem alikes_back {w v : Str} (hw : OtherEnd w) (hr : '\r' ∉ v) {ts ts'}
    (h : Twins (Relined w v) ts ts') (hd : Deep OneLine ts') :
    Alikes (fromEnds w (reline w v)) ts' ts := by
  induction h with
  | nil => exact .nil
  | @cons r a b x a' b' x' ch ch' ts ts' h1 h2 h3 ih1 ih2 =>
    cases hd with
    | cons d1 d2 d3 =>
      obtain ⟨u, z, hv, rfl, rfl, rfl, rfl, rfl⟩ := h1
      have hu : '\r' ∉ u ∧ '\r' ∉ u ++ x := by
        rw [hv] at hr; simp only [List.mem_append, not_or] at hr ⊢; exact ⟨hr.1.1, hr.1⟩
      have e1 : fromEnds w (reline w v) (blen (reline w u)) = blen u := by
        rw [hv, List.append_assoc, reline_append]; exact fromEnds_prefix hw hu.1 _
      have e2 : fromEnds w (reline w v) (blen (reline w (u ++ x))) = blen (u ++ x) := by
        rw [hv, reline_append]; exact fromEnds_prefix hw hu.2 _
      have plain : readRule r = true → '\n' ∉ x := by
        intro hr hm
        obtain ⟨y, hy⟩ := end_head hw
        have : '\r' ∈ reline w x := by
          unfold reline
          exact List.mem_flatMap.2 ⟨'\n', hm, by rw [if_pos rfl, hy]; simp⟩
        exact (d1 hr _ this).2 rfl
      have := Alikes.cons (m := fromEnds w (reline w v)) (r := r) (a := blen (reline w u))
        (b := blen (reline w (u ++ x))) (x := reline w x) (x' := x) (ch := ch') (ch' := ch)
        (fun hr => (reline_same (plain hr)).symm) (fun hr => ih1 (d2 hr)) (ih2 d3)
      rw [e1, e2] at this
      exact this

/-- the texts of tokens are the texts at their positions -/
theorem twins_slices {w v : Str} {ts ts'} (h : Twins (Relined w v) ts ts') :
    Deep (fun _ a b x => SliceOf v ⟨a, b⟩ x) ts ∧
    Deep (fun _ a b x => SliceOf (reline w v) ⟨a, b⟩ x) ts' := by
  induction h with
  | nil => exact ⟨.nil, .nil⟩
  | cons h1 h2 h3 ih1 ih2 =>
    obtain ⟨u, z, hv, rfl, rfl, rfl, rfl, rfl⟩ := h1
    refine ⟨.cons ⟨u, z, hv, rfl, blen_append _ _⟩ (fun _ => ih1.1) ih2.1,
      .cons ⟨reline w u, reline w z, ?_, rfl, ?_⟩ (fun _ => ih1.2) ih2.2⟩
    · rw [hv, reline_append, reline_append]
    · rw [reline_append, blen_append]

/-- If no string of the document is written in quotes across lines, the texts of all tokens that are
read are on one line. -/
theorem oneLine_of {unq : Unquote} {s : Str} {d : Dockerfile} (h : Dockerfile.parse unq s = .ok d)
    (ho : OnOneLine s d) {p' s' ts} (hp : parse G.dockerfile false 0 s = some (p', s', ts))
    (hs : Deep (fun _ a b x => SliceOf s ⟨a, b⟩ x) ts) : Deep OneLine ts := by
  refine ((text_facts ((parse_eq_iff safe_dockerfile).1 hp)).and ((listed_document h hp).and hs)).mono ?_
  rintro r a b x ⟨⟨h1, h2⟩, h3, h4⟩ hr
  by_cases hq : quotedRule r = true
  · obtain ⟨i, hi, hm⟩ := List.mem_flatMap.1 (h3 hq)
    obtain ⟨c, y, rfl, hc⟩ := h2 hq
    refine ho i hi _ hm _ h4 ⟨c, y, rfl, ?_⟩
    rcases hc with rfl | rfl
    · exact .inl rfl
    · exact .inr (.inl rfl)
  · refine h1 ?_
    unfold readRule at hr
    simpa [hq] using hr

theorem oneLine_plain {s : Str} (hq : '"' ∉ s ∧ '\'' ∉ s) {p' s' ts}
    (hp : parse G.dockerfile false 0 s = some (p', s', ts))
    (hs : Deep (fun _ a b x => SliceOf s ⟨a, b⟩ x) ts) : Deep OneLine ts := by
  refine ((text_facts ((parse_eq_iff safe_dockerfile).1 hp)).and hs).mono ?_
  rintro r a b x ⟨⟨h1, h2⟩, u, z, rfl, _, _⟩ hr
  by_cases hq' : quotedRule r = true
  · obtain ⟨c, y, rfl, hc⟩ := h2 hq'
    exfalso
    rcases hc with rfl | rfl
    · exact hq.1 (by simp)
    · exact hq.2 (by simp)
  · refine h1 ?_
    unfold readRule at hr
    simpa [hq'] using hr

/-! ## documents -/

theorem grammar_none_iff {unq : Unquote} {s : Str} :
    Dockerfile.parse unq s = .error (.err .parseError) ↔ parse G.dockerfile false 0 s = none := by
  rw [parse_error_iff, docToks, parse_dockerfile_lines s]
  rcases parse G.lines false 0 s with _ | ⟨p, s', ts⟩ <;> simp

/-- the two runs of the grammar -/
theorem relined_parse {w s : Str} (hw : OtherEnd w) (hr : '\r' ∉ s) :
    (parse G.dockerfile false 0 s = none ∧ parse G.dockerfile false 0 (reline w s) = none) ∨
    ∃ p s1 ts p' s1' ts', parse G.dockerfile false 0 s = some (p, s1, ts) ∧
      parse G.dockerfile false 0 (reline w s) = some (p', s1', ts') ∧
      Twins (Relined w s) ts ts' := by
  obtain ⟨o', h1, h2⟩ := relined_sem hw hr (parse_sem safe_dockerfile false 0 s) [] rfl rfl false
    good_dockerfile (by simp)
  have e := (parse_eq_iff safe_dockerfile).2 h1
  rw [reline_nil] at e
  cases hp : parse G.dockerfile false 0 s with
  | none => rw [hp] at h2; exact .inl ⟨rfl, by rw [← show o' = none from h2]; exact e⟩
  | some o =>
    obtain ⟨p, s1, ts⟩ := o
    rw [hp] at h2
    obtain ⟨u, ts', _, _, rfl, ht⟩ := h2
    exact .inr ⟨p, s1, ts, _, _, ts', rfl, e, ht⟩

theorem alikes_parse {unq : Unquote} {m : Nat → Nat} {s t : Str} {p s1 ts p' s1' ts'}
    (h1 : parse G.dockerfile false 0 s = some (p, s1, ts))
    (h2 : parse G.dockerfile false 0 t = some (p', s1', ts')) (h : Alikes m ts ts') :
    Dockerfile.parse unq t = (Dockerfile.parse unq s).map (relocated m t) := by
  unfold Dockerfile.parse
  rw [h1, h2]
  obtain ⟨us, rfl, _⟩ := dockerfile_toks h1
  cases h with
  | cons g1 g2 g3 =>
    have := moves_loop (unq := unq) (g2 rfl) { instructions := [], globalArgs := [], fromFound := false, fromIndex := 0 }
    simp only [Tok.children]
    rw [show ({ instructions := [], globalArgs := [], fromFound := false, fromIndex := 0 } : LoopState) =
      LoopState.remap m { instructions := [], globalArgs := [], fromFound := false, fromIndex := 0 } from rfl,
      this]
    rw [show LoopState.remap m { instructions := [], globalArgs := [], fromFound := false, fromIndex := 0 } =
      ({ instructions := [], globalArgs := [], fromFound := false, fromIndex := 0 } : LoopState) from rfl]
    cases recordLoop unq (us ++ [.node .EOI (blen s) (blen s) [] []])
      { instructions := [], globalArgs := [], fromFound := false, fromIndex := 0 } <;> rfl

end Verif
