import Verif.Spec.Filter
import Verif.Props.Place
import Verif.Props.Seam
import Verif.Props.Default

/-! # Taking instructions out, with one splicer (C101) -/

namespace Verif
open Spec

theorem numbered_front {pre post : List Instruction} {n : Nat} (h : numberStages n (pre ++ post) = pre ++ post)
    (L : List Instruction) : ∃ k, numberStages n (pre ++ L) = pre ++ numberStages k L := by
  induction pre generalizing n with
  | nil => exact ⟨n, rfl⟩
  | cons i pre ih =>
    cases i
    case «from» f =>
      obtain ⟨e1, e2⟩ := List.cons.inj h
      obtain ⟨k, hk⟩ := ih e2
      exact ⟨k, by rw [List.cons_append, numberStages, e1, hk]; rfl⟩
    all_goals
      obtain ⟨-, e2⟩ := List.cons.inj h
      obtain ⟨k, hk⟩ := ih e2
      exact ⟨k, congrArg (_ :: ·) hk⟩

theorem movedTo_cut {E : List Edit} (h0 : ∀ e ∈ E, e.2 = []) (q : Nat) :
    movedTo E q = q - (E.map fun e => if e.1.stop ≤ q then e.1.stop - e.1.start else 0).sum := by
  unfold movedTo
  have : (E.map fun e => if e.1.stop ≤ q then blen e.2 else 0).sum = 0 := by
    induction E with
    | nil => rfl
    | cons e E ih =>
      rw [List.map_cons, List.sum_cons, ih fun f hf => h0 f (by simp [hf]), h0 e (by simp)]
      simp
  rw [this, Nat.add_zero]

theorem removals_nil (out : Instruction → Bool) (is : List Instruction) : ∀ e ∈ removals out is, e.2 = [] := by
  intro e he
  obtain ⟨i, -, rfl⟩ := List.mem_map.1 he
  rfl

theorem removals_append (out : Instruction → Bool) (a b : List Instruction) :
    removals out (a ++ b) = removals out a ++ removals out b := by
  simp [removals]

theorem mem_removals {out : Instruction → Bool} {is : List Instruction} {e : Edit} (h : e ∈ removals out is) :
    ∃ i ∈ is, out i = true ∧ e = (i.span, []) := by
  obtain ⟨i, hi, rfl⟩ := List.mem_map.1 h
  obtain ⟨h1, h2⟩ := List.mem_filter.1 hi
  exact ⟨i, h1, h2, rfl⟩

/-- positions in front of the last removal, and behind it -/
theorem movedTo_front {E : List Edit} (h0 : ∀ e ∈ E, e.2 = []) {a b q : Nat} (hq : q < b) :
    movedTo (E ++ [(⟨a, b⟩, [])]) q = movedTo E q := by
  rw [movedTo_cut h0, movedTo_cut (by
    intro e he
    rcases List.mem_append.1 he with he | he
    · exact h0 e he
    · rw [List.mem_singleton.1 he])]
  have : ¬ b ≤ q := by omega
  simp [this]

theorem movedTo_behind {E : List Edit} (h0 : ∀ e ∈ E, e.2 = []) {a b q : Nat} (hs : ∀ e ∈ E, e.1.stop ≤ a) (hab : a ≤ b) (hq : b ≤ q) :
    movedTo (E ++ [(⟨a, b⟩, [])]) q = movedTo E (q - b + a) := by
  rw [movedTo_cut h0, movedTo_cut (by
    intro e he
    rcases List.mem_append.1 he with he | he
    · exact h0 e he
    · rw [List.mem_singleton.1 he])]
  have e1 : ∀ r, a ≤ r → (E.map fun e => if e.1.stop ≤ r then e.1.stop - e.1.start else 0) = E.map fun e => e.1.stop - e.1.start :=
    fun r hr => List.map_congr_left fun e he => by
      have := hs e he
      rw [if_pos (by omega)]
  rw [List.map_append, List.sum_append, e1 q (by omega), e1 (q - b + a) (by omega)]
  simp only [List.map_cons, List.map_nil, List.sum_cons, List.sum_nil, if_pos hq]
  omega

theorem paired_cut {x u z : Str} (h : PairedCR (x ++ (u ++ z))) (hx : ∀ y, x ≠ y ++ ['\r']) : PairedCR (x ++ z) := by
  intro a b e
  rcases List.append_eq_append_iff.1 e with ⟨a', rfl, e2⟩ | ⟨c, rfl, e2⟩
  · subst e2
    have := h (x ++ (u ++ a')) b (by simp)
    exact this
  · cases c with
    | nil =>
      have := h (a ++ u) b (by simp at e2; rw [← e2]; simp)
      exact this
    | cons r c =>
      obtain ⟨rfl, rfl⟩ := List.cons.inj e2
      obtain ⟨t, ht⟩ := h a (c ++ (u ++ z)) (by simp)
      cases c with
      | nil => exact absurd rfl (hx a)
      | cons n c =>
        obtain ⟨rfl, -⟩ := List.cons.inj ht
        exact ⟨_, rfl⟩

/-- the edits are of nonempty spans, in order -/
theorem removals_good {unq : Unquote} {s : Str} {d : Dockerfile} (h : Dockerfile.parse unq s = .ok d) (out : Instruction → Bool)
    {pre post : List Instruction} (e : d.instructions = pre ++ post) :
    ∀ f ∈ removals out pre, f.1.start < f.1.stop ∧ ∀ j ∈ post, f.1.stop < j.span.start := by
  intro f hf
  obtain ⟨i, hi, -, rfl⟩ := mem_removals hf
  refine ⟨(C04_span_bounds unq s d h i (by rw [e]; simp [hi]) _ (by simp [spansOf])).1, fun j hj => ?_⟩
  obtain ⟨p1, p2, rfl⟩ := List.append_of_mem hi
  obtain ⟨q1, q2, rfl⟩ := List.append_of_mem hj
  exact (C05_instructions_in_order unq s d h p1 (p2 ++ q1) q2 i j (by rw [e]; simp)).1

theorem removals_disjoint {unq : Unquote} {s : Str} {d : Dockerfile} (h : Dockerfile.parse unq s = .ok d) (out : Instruction → Bool)
    {pre post : List Instruction} (e : d.instructions = pre ++ post) : Src.Good (removals out pre) := by
  refine ⟨fun f hf => (removals_good h out e f hf).1, ?_⟩
  induction pre using snocInd generalizing post with
  | nil => exact List.Pairwise.nil
  | snoc pre i ih =>
    have e' : d.instructions = pre ++ (i :: post) := by rw [e]; simp
    rw [removals_append, List.pairwise_append]
    refine ⟨ih e', by cases ho : out i <;> simp [removals, ho], fun a ha b hb => ?_⟩
    have h1 := (removals_good h out e' a ha).2
    obtain ⟨j, hj, -, rfl⟩ := mem_removals hb
    have := h1 j (by rw [List.mem_singleton.1 hj]; simp)
    exact .inl (by simp only []; omega)

theorem removed {unq : Unquote} (out : Instruction → Bool) (pre : List Instruction) : ∀ {s : Str} {d : Dockerfile} {post : List Instruction},
    Dockerfile.parse unq s = .ok d → d.instructions = pre ++ post → PairedCR s →
    (∀ m, .misc m ∈ pre → ¬ IsKeyword m.instruction.content) →
    (∀ i ∈ pre, out i = true → ∀ u, SliceOf s i.span u → Mild u) →
    Dockerfile.parse unq (simul (removals out pre) 0 s) = .ok (documentOf (simul (removals out pre) 0 s)
      ((pre.filter (!out ·) ++ post).map (·.remap (movedTo (removals out pre))))) := by
  induction pre using snocInd with
  | nil =>
    intro s d post h e _ _ _
    have e1 : simul (removals out []) 0 s = s := simul_untouched _ _ _ (fun e he => by cases he)
    rw [e1, h, ← documentOf_same h, e]
    have : ∀ i : Instruction, i.remap (movedTo (removals out [])) = i := fun i =>
      (congrArg (Instruction.remap · i) (funext fun q => by simp [movedTo, removals])).trans i.remap_same
    simp [this, documentOf]
  | snoc pre i ih =>
    intro s d post h e hc hk hm
    have e' : d.instructions = pre ++ (i :: post) := by rw [e]; simp
    have hk' : ∀ m, .misc m ∈ pre → ¬ IsKeyword m.instruction.content := fun m hm => hk m (by simp [hm])
    cases ho : out i with
    | false =>
      have := ih h e' hc hk' (fun j hj => hm j (by simp [hj]))
      have e1 : removals out (pre ++ [i]) = removals out pre := by simp [removals, ho]
      rw [e1, List.filter_append]
      simpa [ho] using this
    | true =>
      have him : i ∈ d.instructions := by rw [e']; simp
      obtain ⟨u, ⟨x, z, es, h1, h2⟩, hu⟩ := C04_spans_valid unq s d h i him i.span (by simp [spansOf])
      have hmild := hm i (by simp) ho u ⟨x, z, es, h1, h2⟩
      rw [List.append_assoc] at es
      subst es
      rw [← blen_append] at h2
      have hgood := removals_good h out e'
      have hb0 := removals_nil out pre
      have hub := blen_pos hu
      have hx : ∀ y, x ≠ y ++ ['\r'] := by
        rintro y rfl
        obtain ⟨ps, l, ms, js, i0, ks, m, ex, eu, ez, g1, g2, g3, g4, g5, g6, g7⟩ := place_text h e' h1 h2
        obtain ⟨t, ht⟩ := hc y (u ++ z) (by simp)
        obtain ⟨r, hr⟩ : ∃ r, l.item.Fits r := by
          cases ms with
          | nil => exact ⟨_, g2.2.1⟩
          | cons m ms => exact ⟨_, g2.1.2.1⟩
        rcases Src.item_letter hr with h' | ⟨c, h'⟩ | ⟨c, b, h', hc'⟩
        · rw [h'] at g5; cases g5
        · rw [h'] at g5; cases g5
        · rw [eu, h'] at ht
          obtain ⟨rfl, -⟩ := List.cons.inj ht
          exact absurd hc' (by unfold IsAlpha; decide)
      have hdel := (C98_delete h e' h1 h2 hmild (fun y hy => absurd hy (hx y)) hk').2
      obtain ⟨k, hk2⟩ := numbered_front (pre := pre) (post := i :: post) (n := 0)
        (by rw [← e']; exact congrArg Dockerfile.instructions (documentOf_same h))
        (post.map (·.remap fun q => q - blen (x ++ u) + blen x))
      have hstop : ∀ f ∈ removals out pre, f.1.start < f.1.stop ∧ f.1.stop ≤ blen x := fun f hf => by
        have := hgood f hf
        have h3 := this.2 i (by simp)
        omega
      have hrec := ih hdel hk2 (paired_cut hc hx) hk' (fun j hj hoj w hw => by
        obtain ⟨a, c, ew, w1, w2⟩ := hw
        have hj2 := (hstop (j.span, []) (List.mem_map.2 ⟨j, List.mem_filter.2 ⟨hj, hoj⟩, rfl⟩)).2
        refine hm j (by simp [hj]) hoj w ⟨a, ?_⟩
        have h3 : blen (a ++ w) ≤ blen x := by rw [blen_append]; simp only [] at hj2; omega
        rcases List.append_eq_append_iff.1 ew with ⟨r, er, e2⟩ | ⟨r, er, e2⟩
        · cases r with
          | nil => exact ⟨u ++ z, by rw [er]; simp, w1, w2⟩
          | cons b r =>
            rw [er] at h3
            simp only [blen_append, blen_cons] at h3
            have := utf8Size_pos b
            omega
        · exact ⟨r ++ (u ++ z), by rw [er]; simp, w1, w2⟩)
      have e1 : removals out (pre ++ [i]) = removals out pre ++ [(⟨blen x, blen (x ++ u)⟩, [])] := by
        rw [removals_append]
        congr 1
        simp only [removals, ho, List.filter_cons_of_pos, List.filter_nil, List.map_cons, List.map_nil]
        rw [← h1, ← h2]
      have hs1 : simul (removals out pre ++ [(⟨blen x, blen (x ++ u)⟩, [])]) 0 (x ++ (u ++ z)) = simul (removals out pre) 0 (x ++ z) := by
        rw [simul_append, simul_append, simul_append]
        have g1 : Src.Good (removals out pre ++ [(⟨blen x, blen (x ++ u)⟩, [])]) := by
          rw [← e1]
          exact removals_disjoint h out e
        have g2 : simul (removals out pre ++ [(⟨blen x, blen (x ++ u)⟩, [])]) (0 + blen x) u = [] :=
          Src.simul_edit g1 (e := (⟨blen x, blen (x ++ u)⟩, [])) (by simp) (by rw [Nat.zero_add, blen_append]) hu
        have g3 : ∀ f ∈ removals out pre ++ [(⟨blen x, blen (x ++ u)⟩, [])], f.1.start < f.1.stop ∧ f.1.stop ≤ 0 + blen x + blen u := by
          intro f hf
          rcases List.mem_append.1 hf with hf | hf
          · have := hstop f hf; omega
          · rw [List.mem_singleton.1 hf]
            simp only [blen_append]
            omega
        rw [g2, simul_untouched _ _ z (fun f hf => ⟨(g3 f hf).1, .inl (g3 f hf).2⟩),
          simul_untouched _ _ z (fun f hf => ⟨(hstop f hf).1, .inl (by have := hstop f hf; omega)⟩), List.nil_append]
        refine congrArg (· ++ z) (simul_congr _ _ _ _ fun q _ hq => ?_)
        constructor
        · unfold inserted
          rw [List.find?_append]
          have : ([((⟨blen x, blen (x ++ u)⟩, []) : Edit)].find? fun e => e.1.start == q) = none := by
            simp; omega
          rw [this]
          cases (removals out pre).find? fun e => e.1.start == q <;> rfl
        · unfold covered
          rw [List.any_append]
          have : ([((⟨blen x, blen (x ++ u)⟩, []) : Edit)].any fun e => e.1.start ≤ q && q < e.1.stop) = false := by
            simp; omega
          rw [this, Bool.or_false]
      rw [e1, hs1, hrec]
      refine congrArg Except.ok ?_
      have hp1 : ∀ j ∈ pre, j.remap (movedTo (removals out pre ++ [(⟨blen x, blen (x ++ u)⟩, [])])) = j.remap (movedTo (removals out pre)) := by
        intro j hj
        refine j.remap_congr fun sp hsp => ?_
        have w := C06_fields_within unq _ d h j (by rw [e']; simp [hj]) sp hsp
        have b := C04_span_bounds unq _ d h j (by rw [e']; simp [hj]) sp hsp
        obtain ⟨p1, p2, ep⟩ := List.append_of_mem hj
        have o := (C05_instructions_in_order unq _ d h p1 p2 post j i (by rw [e', ep]; simp)).1
        have hl : sp.stop < blen (x ++ u) := by rw [blen_append]; unfold Within at w; omega
        simp only [Span.remap, movedTo_front hb0 hl, movedTo_front hb0 (show sp.start < blen (x ++ u) by omega)]
      have hp2 : ∀ j ∈ post, j.remap (movedTo (removals out pre ++ [(⟨blen x, blen (x ++ u)⟩, [])])) =
          (j.remap fun q => q - blen (x ++ u) + blen x).remap (movedTo (removals out pre)) := by
        intro j hj
        rw [Instruction.remap_remap]
        refine j.remap_congr fun sp hsp => ?_
        have w := C06_fields_within unq _ d h j (by rw [e']; simp [hj]) sp hsp
        have b := C04_span_bounds unq _ d h j (by rw [e']; simp [hj]) sp hsp
        obtain ⟨p1, p2, ep⟩ := List.append_of_mem hj
        have o := (C05_instructions_in_order unq _ d h pre p1 p2 i j (by rw [e', ep])).1
        have hl : blen (x ++ u) ≤ sp.start := by unfold Within at w; omega
        have hxu : blen x ≤ blen (x ++ u) := by rw [blen_append]; omega
        simp only [Span.remap, Function.comp, movedTo_behind hb0 (fun f hf => (hstop f hf).2) hxu hl,
          movedTo_behind hb0 (fun f hf => (hstop f hf).2) hxu (show blen (x ++ u) ≤ sp.stop by omega)]
      have hf : (pre ++ [i]).filter (!out ·) = pre.filter (!out ·) := by simp [ho]
      rw [hf, List.map_append, List.map_append, List.map_congr_left fun j hj => hp1 j (List.mem_filter.1 hj).1,
        List.map_congr_left hp2]
      simp only [documentOf, ← Src.numberStages_remap, numberStages_app_right, globalArgs_app_right, List.map_map]
      rfl

/-- C101: Take any of the instructions out of a document, by splicing nothing into their places with one splicer, in any
order.  They have no quotes and do not end with a backslash, no keyword is taken for an unknown instruction,
and every carriage return is in front of a newline.  Then the text is accepted, and its instructions are the others,
moved. -/
theorem C101_remove {unq : Unquote} {s : Str} {d : Dockerfile} (h : Dockerfile.parse unq s = .ok d) (hc : PairedCR s)
    (hk : ∀ m, .misc m ∈ d.instructions → ¬ IsKeyword m.instruction.content) (out : Instruction → Bool)
    (hm : ∀ i ∈ d.instructions, out i = true → ∀ u, SliceOf s i.span u → Mild u) (es : List Edit)
    (he : es.Perm (removals out d.instructions)) :
    ∃ sp, (Splicer.ofDockerfile d).spliceAll es = some sp ∧ sp.content = simul (removals out d.instructions) 0 s ∧
      Dockerfile.parse unq sp.content = .ok (documentOf sp.content
        ((d.instructions.filter (!out ·)).map (·.remap (movedTo (removals out d.instructions))))) := by
  have e : d.instructions = d.instructions ++ [] := by simp
  have hg := removals_disjoint h out e
  have hcon : d.content = s := ((ens_parse unq s).ok_of h).1
  obtain ⟨sp', sp, -, h1, h2, h3⟩ := C22_order_independent s (removals out d.instructions) es he.symm (fun f hf => by
    obtain ⟨i, hi, -, rfl⟩ := mem_removals hf
    obtain ⟨t, h1, h2⟩ := C04_spans_valid unq s d h i hi i.span (by simp [spansOf])
    exact ⟨⟨t, h1⟩, hg.1 _ hf⟩) hg.2
  refine ⟨sp, by rw [Splicer.ofDockerfile, hcon]; exact h1, by rw [← h2, h3], ?_⟩
  rw [← h2, h3]
  have := removed out d.instructions h e hc hk hm
  rwa [List.append_nil] at this

/-! ## the stages -/

theorem numbered_filter {keep : Instruction → Bool} {is : List Instruction} : ∀ {n : Nat}, numberStages n is = is →
    (∀ f, .from f ∈ is → keep (.from f) = true) → numberStages n (is.filter keep) = is.filter keep := by
  induction is with
  | nil => intro n _ _; rfl
  | cons i is ih =>
    intro n h hk
    have hk' : ∀ f, .from f ∈ is → keep (.from f) = true := fun f hf => hk f (by simp [hf])
    cases i
    case «from» f =>
      obtain ⟨e1, e2⟩ := List.cons.inj h
      rw [List.filter_cons_of_pos (hk f (by simp)), numberStages, e1, ih e2 hk']
    all_goals
      obtain ⟨-, e2⟩ := List.cons.inj h
      rw [List.filter_cons]
      split
      · exact congrArg (_ :: ·) (ih e2 hk')
      · exact ih e2 hk'

/-- a stage without some of its instructions, moved -/
def Stage.thin (keep : Instruction → Bool) (g : Nat → Nat) (s : Stage) : Stage :=
  { s with instructions := (s.instructions.filter keep).map (·.remap g) }

theorem parentOf_thin (keep : Instruction → Bool) (g : Nat → Nat) (ss : List Stage) (f : FromInstruction) :
    parentOf (ss.map (·.thin keep g)) (f.remap g) = parentOf ss f := by
  have : ∀ n, (getByName (ss.map (·.thin keep g)) n).map (·.index) = (getByName ss n).map (·.index) := by
    intro n
    unfold getByName
    rw [List.find?_map, Option.map_map]
    rfl
  have h := this (lower f.image.content)
  by_cases hs : lower f.image.content = ['s', 'c', 'r', 'a', 't', 'c', 'h']
  · rw [parentOf, parentOf, if_pos hs]
    exact if_pos hs
  · rw [parentOf, parentOf, if_neg hs]
    refine (if_neg hs).trans ?_
    show (match getByName (ss.map (·.thin keep g)) (lower f.image.content) with
      | some stage => StageParent.stage stage.index
      | none => .image f.image_parsed) = _
    cases e1 : getByName (ss.map (·.thin keep g)) (lower f.image.content) <;>
      cases e2 : getByName ss (lower f.image.content) <;> rw [e1, e2] at h <;> first | rfl | cases h | skip
    injection h with h
    simp only [h]

theorem rootOf_thin (keep : Instruction → Bool) (g : Nat → Nat) (ss : List Stage) (p : StageParent) :
    rootOf (ss.map (·.thin keep g)) p = rootOf ss p := by
  cases p with
  | stage j =>
    simp only [rootOf, List.getElem?_map, Option.map_map]
    rfl
  | _ => rfl

theorem pushLast_thin (keep : Instruction → Bool) (g : Nat → Nat) (i : Instruction) (ss : List Stage) :
    (pushLast i ss).map (·.thin keep g) =
      if keep i then pushLast (i.remap g) (ss.map (·.thin keep g)) else ss.map (·.thin keep g) := by
  induction ss with
  | nil => cases keep i <;> rfl
  | cons s ss ih =>
    cases ss with
    | nil => cases hk : keep i <;> simp [pushLast, Stage.thin, hk]
    | cons t ss =>
      rw [pushLast, List.map_cons, ih]
      cases keep i <;> rfl

theorem stagesLoop_thin (keep : Instruction → Bool) (g : Nat → Nat) (is : List Instruction) :
    (∀ f, .from f ∈ is → keep (.from f) = true) → ∀ (ss : List Stage) (n : Nat),
    stagesLoop ((is.filter keep).map (·.remap g)) (ss.map (·.thin keep g)) n = (stagesLoop is ss n).map (·.map (·.thin keep g)) := by
  induction is with
  | nil => intro _ ss n; rfl
  | cons i is ih =>
    intro hk ss n
    have ih := ih fun f hf => hk f (by simp [hf])
    have other : (∀ ss n, stagesLoop (i :: is) ss n = stagesLoop is (pushLast i ss) n) →
        (∀ L ss n, stagesLoop (i.remap g :: L) ss n = stagesLoop L (pushLast (i.remap g) ss) n) →
        stagesLoop (((i :: is).filter keep).map (·.remap g)) (ss.map (·.thin keep g)) n =
          (stagesLoop (i :: is) ss n).map (·.map (·.thin keep g)) := by
      intro h1 h2
      have := pushLast_thin keep g i ss
      rw [h1, ← ih, List.filter_cons, this]
      cases keep i
      · rfl
      · simp only [if_true, List.map_cons, h2]
    cases i
    case «from» f =>
      rw [List.filter_cons_of_pos (hk f (by simp)), List.map_cons]
      show stagesLoop (.from (f.remap g) :: _) _ _ = _
      simp only [stagesLoop, parentOf_thin, rootOf_thin]
      cases rootOf ss (parentOf ss f) with
      | none => rfl
      | some r =>
        simp only []
        rw [← ih, List.map_append]
        congr 2
        simp only [List.map_cons, List.map_nil, Stage.thin, List.filter_cons_of_pos (hk f (by simp)), List.filter_nil]
        congr 2
        show Option.map _ (f.alias.map _) = _
        rw [Option.map_map]
        rfl
    all_goals exact other (fun _ _ => rfl) (fun _ _ _ => rfl)

/-- C101: When no `FROM` is taken out, the stages are those of before, each without its instructions that were taken out. -/
theorem C101_stages {unq : Unquote} {s : Str} {d : Dockerfile} (h : Dockerfile.parse unq s = .ok d) (hc : PairedCR s)
    (hk : ∀ m, .misc m ∈ d.instructions → ¬ IsKeyword m.instruction.content) (out : Instruction → Bool)
    (hm : ∀ i ∈ d.instructions, out i = true → ∀ u, SliceOf s i.span u → Mild u)
    (hf : ∀ f, .from f ∈ d.instructions → out (.from f) = false) :
    ∃ d' ss, Dockerfile.parse unq (simul (removals out d.instructions) 0 s) = .ok d' ∧ d.stages = some ss ∧
      d'.instructions = (d.instructions.filter (!out ·)).map (·.remap (movedTo (removals out d.instructions))) ∧
      d'.stages = some (ss.map fun t => { t with
        instructions := (t.instructions.filter (!out ·)).map (·.remap (movedTo (removals out d.instructions))) }) := by
  obtain ⟨sp, -, h2, h3⟩ := C101_remove h hc hk out hm _ (List.Perm.refl _)
  rw [h2] at h3
  obtain ⟨ss, hs, -⟩ := C15_root d
  have hn : numberStages 0 (d.instructions.filter (!out ·)) = d.instructions.filter (!out ·) :=
    numbered_filter (congrArg Dockerfile.instructions (documentOf_same h)) (fun f hm => by simp [hf f hm])
  have e : (documentOf (simul (removals out d.instructions) 0 s) ((d.instructions.filter (!out ·)).map
      (·.remap (movedTo (removals out d.instructions))))).instructions =
      (d.instructions.filter (!out ·)).map (·.remap (movedTo (removals out d.instructions))) := by
    simp only [documentOf, Src.numberStages_remap, hn]
  refine ⟨_, ss, h3, hs, e, ?_⟩
  unfold Dockerfile.stages at hs ⊢
  rw [e]
  have := stagesLoop_thin (!out ·) (movedTo (removals out d.instructions)) d.instructions (fun f hm => by simp [hf f hm]) [] 0
  rw [hs] at this
  exact this

/-! ## sample -/

theorem slice_unique {s u w : Str} {sp : Span} (h : SliceOf s sp u) (h' : SliceOf s sp w) : u = w := by
  obtain ⟨a, c, e, h1, h2⟩ := h
  obtain ⟨a', c', e', h1', h2'⟩ := h'
  rw [e, List.append_assoc, List.append_assoc] at e'
  obtain ⟨-, e2⟩ := append_inj_blen e' (by omega)
  exact (append_inj_blen e2 (by omega)).1

/-- is it a `LABEL`? -/
def isLabel : Instruction → Bool
  | .label _ => true
  | _ => false

/-- what the sample has to be like -/
def labelSample : Dockerfile → Bool := fun d =>
  decide (d.instructions.length = 5) &&
  d.instructions.all fun
    | .label l => decide (l.span = ⟨12, 29⟩) || decide (l.span = ⟨38, 47⟩)
    | .misc _ => false
    | _ => true

/-- The labels are taken out, the last one first. -/
example : ∃ d, Dockerfile.parse Enquote.unquote c!"FROM a AS b\nLABEL x=1 \\\n  y=2\nRUN 'q'\nLABEL z=3\r\nFROM B\n" = .ok d ∧
    d.instructions.length = 5 ∧
    (∃ sp d', (Splicer.ofDockerfile d).spliceAll (removals isLabel d.instructions).reverse = some sp ∧
      Dockerfile.parse Enquote.unquote sp.content = .ok d') ∧
    ∃ d' ss, Dockerfile.parse Enquote.unquote c!"FROM a AS b\n\nRUN 'q'\n\r\nFROM B\n" = .ok d' ∧ d'.stages = some ss := by
  obtain ⟨d, h, hF⟩ := parsed_sample (s := c!"FROM a AS b\nLABEL x=1 \\\n  y=2\nRUN 'q'\nLABEL z=3\r\nFROM B\n")
    (F := fun d => labelSample d && decide (simul (removals isLabel d.instructions) 0 d.content = c!"FROM a AS b\n\nRUN 'q'\n\r\nFROM B\n"))
    (by decide +kernel)
  rw [Bool.and_eq_true, labelSample, Bool.and_eq_true] at hF
  obtain ⟨⟨hlen, hall⟩, hsim⟩ := hF
  have hsim := of_decide_eq_true hsim
  rw [show d.content = _ from ((ens_parse _ _).ok_of h).1] at hsim
  have hall := List.all_eq_true.1 hall
  have hc : PairedCR c!"FROM a AS b\nLABEL x=1 \\\n  y=2\nRUN 'q'\nLABEL z=3\r\nFROM B\n" := by
    intro a b e
    have hl := congrArg List.length e
    simp at hl
    match a, e with
    | a, e =>
      have h1 : c!"FROM a AS b\nLABEL x=1 \\\n  y=2\nRUN 'q'\nLABEL z=3\r\nFROM B\n"[a.length]? = some '\r' := by rw [e]; simp
      have h2 : a.length = 47 := by
        have : a.length < 56 := by omega
        have key : ∀ k, k < 56 → c!"FROM a AS b\nLABEL x=1 \\\n  y=2\nRUN 'q'\nLABEL z=3\r\nFROM B\n"[k]? = some '\r' → k = 47 := by decide +kernel
        exact key _ this h1
      have h3 : c!"FROM a AS b\nLABEL x=1 \\\n  y=2\nRUN 'q'\nLABEL z=3\r\nFROM B\n".drop 48 = b := by
        rw [e, List.drop_append, h2]
        simp [List.drop_eq_nil_of_le, h2]
      exact ⟨c!"FROM B\n", h3.symm⟩
  have hk : ∀ m, .misc m ∈ d.instructions → ¬ IsKeyword m.instruction.content := fun m hm => by cases hall _ hm
  have hm : ∀ i ∈ d.instructions, isLabel i = true → ∀ u, SliceOf c!"FROM a AS b\nLABEL x=1 \\\n  y=2\nRUN 'q'\nLABEL z=3\r\nFROM B\n" i.span u → Mild u := by
    intro i hi ho u hu
    have := hall i hi
    cases i
    case label l =>
      rw [Bool.or_eq_true] at this
      rcases this with e | e <;> have e := of_decide_eq_true e <;> rw [show (Instruction.label l).span = l.span from rfl, e] at hu
      · rw [slice_unique hu (w := c!"LABEL x=1 \\\n  y=2") ⟨c!"FROM a AS b\n", c!"\nRUN 'q'\nLABEL z=3\r\nFROM B\n", by decide, by decide +kernel, by decide +kernel⟩]
        unfold Mild Unquoted; decide +kernel
      · rw [slice_unique hu (w := c!"LABEL z=3") ⟨c!"FROM a AS b\nLABEL x=1 \\\n  y=2\nRUN 'q'\n", c!"\r\nFROM B\n", by decide, by decide +kernel, by decide +kernel⟩]
        unfold Mild Unquoted; decide +kernel
    all_goals cases ho
  obtain ⟨sp, h1, -, h2⟩ := C101_remove h hc hk isLabel hm _ (List.reverse_perm _)
  obtain ⟨d', ss, h3, -, -, h4⟩ := C101_stages h hc hk isLabel hm (fun _ _ => rfl)
  rw [hsim] at h3
  exact ⟨d, h, of_decide_eq_true hlen, ⟨sp, _, h1, h2⟩, d', _, h3, h4⟩

end Verif
