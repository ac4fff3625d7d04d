import Verif.Model.Examples
import Verif.Props.FinalBreak
import Verif.Props.Update

/-! # The program `splice` (C69) -/

namespace Verif
open Spec

/-! ## the end of the text -/

theorem image_plain {c : Char} (h : IsImageChar c) : c ≠ '\\' ∧ c ≠ ' ' ∧ c ≠ '\t' := by
  refine ⟨?_, ?_, ?_⟩ <;> rintro rfl <;> exact absurd h (by simp [IsImageChar, IsAlpha, IsDigit])

/-- exchanging images does not open the end -/
theorem open_swap {x x' : Str} (h : Src.W x x') (ho : OpenEnd x') : OpenEnd x := by
  obtain ⟨a, i, i', b, rfl, rfl, hi, hi'⟩ := h
  obtain ⟨u, w, e, hw⟩ := ho
  have e' : (a ++ i') ++ b = u ++ '\\' :: w := by rw [← e, List.append_assoc]
  rcases List.append_eq_append_iff.1 e' with ⟨c, e1, e2⟩ | ⟨c, e1, e2⟩
  · exact ⟨a ++ i ++ c, w, by rw [e2]; simp, hw⟩
  · cases c with
    | nil => exact ⟨a ++ i, w, by rw [e2]; simp, hw⟩
    | cons d c =>
      exfalso
      simp only [List.cons_append, List.cons.injEq] at e2
      obtain ⟨rfl, rfl⟩ := e2
      cases hl : i'.getLast? with
      | none => exact hi'.1 (List.getLast?_eq_none_iff.1 hl)
      | some y =>
        obtain ⟨j, rfl⟩ := List.getLast?_eq_some_iff.1 hl
        have hy := image_plain (hi'.2 y (by simp))
        have e3 : (a ++ (j ++ [y])).getLast? = some y := by simp [← List.append_assoc]
        rw [e1] at e3
        cases hc : c.getLast? with
        | none =>
          rw [List.getLast?_eq_none_iff.1 hc] at e3
          simp at e3
          exact hy.1 e3.symm
        | some z =>
          obtain ⟨k, rfl⟩ := List.getLast?_eq_some_iff.1 hc
          have e4 : (u ++ '\\' :: (k ++ [z])).getLast? = some z :=
            List.getLast?_eq_some_iff.2 ⟨u ++ '\\' :: k, by simp⟩
          rw [e4] at e3
          cases e3
          rcases hw y (by simp) with h | h
          · exact hy.2.1 h
          · exact hy.2.2 h

theorem open_swaps {L : Str → Prop} {x x' : Str} (h : Src.Steps (Src.Site L) x x') :
    OpenEnd x' ↔ OpenEnd x := by
  induction h with
  | refl => exact Iff.rfl
  | tail _ r ih => exact Iff.trans ⟨open_swap r.w, open_swap r.w.symm⟩ ih

/-- new images do not change whether the end is open -/
theorem open_updated {unq : Unquote} {s : Str} {d : Dockerfile} (h : Dockerfile.parse unq s = .ok d)
    {es : List Edit} (hn : (es.map (·.1)).Nodup)
    (hes : ∀ e ∈ es, (∃ f, .from f ∈ d.instructions ∧ e.1 = f.image.span) ∧ Over IsImageChar e.2) :
    OpenEnd (simul es 0 s) ↔ OpenEnd s := by
  have hd : es.Pairwise fun e f => Disjoint e.1 f.1 := by
    refine (List.pairwise_map.1 hn).imp_of_mem fun {e e'} he he' hne => ?_
    obtain ⟨f, hf, e1⟩ := (hes e he).1
    obtain ⟨g, hg, e2⟩ := (hes e' he').1
    rw [e1, e2] at hne ⊢
    exact images_disjoint h hf hg hne
  have hpos : ∀ e ∈ es, e.1.start < e.1.stop := fun e he => by
    obtain ⟨f, hf, e1⟩ := (hes e he).1
    rw [e1]
    exact (C04_span_bounds unq s d h _ hf _ (image_in_spans f)).1
  obtain ⟨l, ms, is, hf, rfl, he, rfl⟩ := C51_accepted.1 h
  have hg : Src.Good es := ⟨hpos, hd⟩
  have hs : ∀ e ∈ es, e.1 ∈ Src.sites 0 l ms := fun e h => by
    obtain ⟨f, h1, h2⟩ := (hes e h).1
    obtain ⟨f', h3, h4⟩ := Src.numberStages_from h1
    rw [h2, ← h4]
    exact Src.doc_sites ms l 0 is he f' h3
  rw [Src.doc_text hg ms l 0 0 hf (Src.inv_zero hg) fun e h => .inr (hs e h)]
  exact open_swaps (Src.doc_upd (Src.newImage_good fun e h => (hes e h).2) ms l 0 hf).2

/-! ## where the image is -/

theorem Src.eval_image {unq : Unquote} {it : Src.Item} {p : Nat} {f : FromInstruction}
    (h : it.eval unq p = .ok (some (.from f))) : ∃ a b, it.text = a ++ (f.image.content ++ b) ∧
      f.image.span = ⟨p + blen a, p + blen a + blen f.image.content⟩ := by
  cases it
  case «from» kw fs g i a =>
    simp only [Src.Item.eval] at h
    cases hf : Src.evalFlags unq (p + blen kw) fs with
    | error e => rw [hf] at h; cases h
    | ok fl =>
      rw [hf, ok_bind] at h
      cases hd : Src.checkDigest i with
      | error e => rw [hd] at h; cases h
      | ok u =>
        rw [hd] at h; cases h
        refine ⟨kw ++ (Src.flagsText fs ++ g), Src.aliasText a, by simp [Src.Item.text], ?_⟩
        simp [blen_append, Nat.add_assoc]
  case shell k kw g s =>
    simp only [Src.Item.eval] at h
    split at h
    · cases h
    · cases k <;> cases h
  case exec k kw g a =>
    simp only [Src.Item.eval] at h
    split at h
    · cases h
    · cases ha : a.eval unq (p + blen kw + blen g) with
      | error e => rw [ha] at h; cases h
      | ok c => rw [ha] at h; cases k <;> cases h
  all_goals
    exfalso
    simp only [Src.Item.eval, bind, Except.bind, pure, Except.pure] at h
    repeat' split at h
    all_goals cases h

theorem Src.doc_image {unq : Unquote} (ms : List (Str × Src.Line)) : ∀ (l : Src.Line) (p : Nat)
    (is : List Instruction), Src.evalDoc unq p l ms = .ok is → ∀ f, .from f ∈ is →
    ∃ a b, Src.docText l ms = a ++ (f.image.content ++ b) ∧
      f.image.span = ⟨p + blen a, p + blen a + blen f.image.content⟩ := by
  have line : ∀ (l : Src.Line) (p : Nat) (r : Str) (f : FromInstruction),
      l.item.eval unq (p + blen l.indent) = .ok (some (.from f)) →
      ∃ a b, l.text ++ r = a ++ (f.image.content ++ b) ∧
        f.image.span = ⟨p + blen a, p + blen a + blen f.image.content⟩ := by
    intro l p r f h
    obtain ⟨a, b, h1, h2⟩ := Src.eval_image h
    refine ⟨l.indent ++ a, b ++ (l.trail ++ r), by simp [Src.Line.text, h1], ?_⟩
    simp only [h2, blen_append, Nat.add_assoc]
  induction ms with
  | nil =>
    intro l p is he f hf
    simp only [Src.evalDoc] at he
    cases ho : l.item.eval unq (p + blen l.indent) with
    | error e => rw [ho] at he; cases he
    | ok o =>
      rw [ho] at he
      cases he
      cases o with
      | none => cases hf
      | some i =>
        rw [Option.toList_some, List.mem_singleton] at hf
        subst hf
        simpa [Src.docText] using line l p [] f ho
  | cons m ms ih =>
    obtain ⟨n, m⟩ := m
    intro l p is he f hf
    simp only [Src.evalDoc] at he
    cases ho : l.item.eval unq (p + blen l.indent) with
    | error e => rw [ho] at he; cases he
    | ok o =>
      rw [ho, ok_bind] at he
      cases hr : Src.evalDoc unq (p + blen l.text + blen n) m ms with
      | error e => rw [hr] at he; cases he
      | ok js =>
        rw [hr] at he
        cases he
        rcases List.mem_append.1 hf with hf | hf
        · cases o with
          | none => cases hf
          | some i =>
            rw [Option.toList_some, List.mem_singleton] at hf
            subst hf
            exact line l p _ f ho
        · obtain ⟨a, b, h1, h2⟩ := ih _ _ js hr f hf
          refine ⟨l.text ++ (n ++ a), b, by simp [Src.docText, h1], ?_⟩
          simp only [h2, blen_append, Nat.add_assoc]

/-- the text at the span of an image is the image -/
theorem image_slice {unq : Unquote} {s : Str} {d : Dockerfile} (h : Dockerfile.parse unq s = .ok d)
    {f : FromInstruction} (hf : .from f ∈ d.instructions) : SliceOf s f.image.span f.image.content := by
  obtain ⟨l, ms, is, -, rfl, he, rfl⟩ := C51_accepted.1 h
  obtain ⟨f', h1, h2⟩ := Src.numberStages_from hf
  obtain ⟨a, b, h3, h4⟩ := Src.doc_image ms l 0 is he f' h1
  rw [← h2]
  exact ⟨a, b, by rw [h3, List.append_assoc], by rw [h4]; simp, by rw [h4]; simp⟩

/-! ## the loop -/

theorem spliceLoop_all (is : List Instruction) : ∀ sp : Splicer, spliceLoop is sp =
    sp.spliceAll (is.filterMap fun
      | .from f => some (f.image.span, c!"splice:test")
      | _ => none) := by
  induction is with
  | nil => intro sp; rfl
  | cons i is ih =>
    intro sp
    cases i
    case «from» f =>
      simp only [spliceLoop, List.filterMap_cons, Splicer.spliceAll]
      cases sp.splice f.image.span c!"splice:test" with
      | none => rfl
      | some sp' => exact ih sp'
    all_goals exact ih sp

theorem spliceRest_eq (d : Dockerfile) : spliceRest d =
    ((Splicer.ofDockerfile d).spliceAll (imageEdits c!"splice:test" d)).map (·.content ++ c!"\n") := by
  rw [spliceRest, spliceLoop_all]
  rfl

theorem adjust_still (offsets : List SpliceOffset) (h : ∀ o ∈ offsets, o.offset = 0) (b : Int × Int) :
    offsets.foldl Span.adjustStep b = b := by
  induction offsets with
  | nil => rfl
  | cons o os ih =>
    have h0 : Span.adjustStep b o = b := by
      simp only [Span.adjustStep, h o (by simp), Int.add_zero]
      split
      · rfl
      · split <;> rfl
    rw [List.foldl_cons, h0]
    exact ih fun o ho => h o (List.mem_cons_of_mem _ ho)

/-- replacing texts by themselves -/
theorem splice_still (es : List Edit) : ∀ sp : Splicer, (∀ o ∈ sp.offsets, o.offset = 0) →
    (∀ e ∈ es, SliceOf sp.content e.1 e.2) → ∃ sp', sp.spliceAll es = some sp' ∧ sp'.content = sp.content := by
  induction es with
  | nil => intro sp _ _; exact ⟨sp, rfl, rfl⟩
  | cons e es ih =>
    intro sp ho he
    obtain ⟨span, t⟩ := e
    obtain ⟨a, c, e1, e2, e3⟩ := he (span, t) (by simp)
    simp only at e1 e2 e3
    have hadj : span.adjustOffsets sp.offsets = span := by
      simp only [Span.adjustOffsets, adjust_still sp.offsets ho]
      rw [if_neg (by omega), if_neg (by omega), Int.toNat_natCast, Int.toNat_natCast]
    have hs : sp.splice span t = some { content := sp.content, offsets := sp.offsets ++ [⟨span.start, 0⟩] } := by
      unfold Splicer.splice
      rw [hadj]
      simp only
      rw [if_neg (by omega), show span.stop - span.start = blen t by omega, Int.sub_self, e1, e2,
        List.append_assoc, splitAtByte_append]
      simp only [splitAtByte_append, List.append_assoc]
    obtain ⟨sp', h1, h2⟩ := ih { content := sp.content, offsets := sp.offsets ++ [⟨span.start, 0⟩] } (by
      intro o ho'
      simp only [List.mem_append, List.mem_singleton] at ho'
      rcases ho' with h | rfl
      · exact ho o h
      · rfl) (fun e h => he e (List.mem_cons_of_mem _ h))
    exact ⟨sp', by rw [Splicer.spliceAll, hs]; exact h1, h2⟩

end Verif
