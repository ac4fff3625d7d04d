import Verif.Spec.Rewrite
import Verif.Props.Filter
import Verif.Props.Alter
import Verif.Props.AnyEnds
import Verif.Props.FinalBreak

/-! # Replacing instructions, with one splicer (C102) -/

namespace Verif
open Spec

theorem rewrites_append (new : Instruction → Option Str) (a b : List Instruction) :
    rewrites new (a ++ b) = rewrites new a ++ rewrites new b := by
  simp [rewrites]

theorem mem_rewrites {new : Instruction → Option Str} {is : List Instruction} {e : Edit} (h : e ∈ rewrites new is) :
    ∃ i ∈ is, ∃ w, new i = some w ∧ e = (i.span, w) := by
  obtain ⟨i, hi, he⟩ := List.mem_filterMap.1 h
  cases hw : new i with
  | none => rw [hw] at he; cases he
  | some w => rw [hw] at he; cases he; exact ⟨i, hi, w, hw, rfl⟩

/-- positions in front of the end of the last edit, and behind it -/
theorem movedTo_last_front {E : List Edit} {a b q : Nat} {w : Str} (hq : q < b) :
    movedTo (E ++ [(⟨a, b⟩, w)]) q = movedTo E q := by
  have : ¬ b ≤ q := by omega
  simp [movedTo, this]

theorem movedTo_all {E : List Edit} {p q : Nat} (hs : ∀ e ∈ E, e.1.stop ≤ p) (hq : p ≤ q) :
    movedTo E q = q + (E.map fun e => blen e.2).sum - (E.map fun e => e.1.stop - e.1.start).sum := by
  have e1 : (E.map fun e => if e.1.stop ≤ q then e.1.stop - e.1.start else 0) = E.map fun e => e.1.stop - e.1.start :=
    List.map_congr_left fun e he => by
      have := hs e he
      rw [if_pos (by omega)]
  have e2 : (E.map fun e => if e.1.stop ≤ q then blen e.2 else 0) = E.map fun e => blen e.2 :=
    List.map_congr_left fun e he => by
      have := hs e he
      rw [if_pos (by omega)]
  rw [movedTo, e1, e2]

theorem movedTo_last_behind {E : List Edit} {a b q : Nat} {w : Str} (hs : ∀ e ∈ E, e.1.stop ≤ a) (hab : a ≤ b) (hq : b ≤ q) :
    movedTo (E ++ [(⟨a, b⟩, w)]) q = movedTo E (q - b + (a + blen w)) := by
  rw [movedTo_all (p := a) hs (by omega), movedTo_all (p := b) (by
    intro e he
    rcases List.mem_append.1 he with he | he
    · have := hs e he; omega
    · rw [List.mem_singleton.1 he]; exact Nat.le_refl _) hq]
  simp only [List.map_append, List.sum_append, List.map_cons, List.map_nil, List.sum_cons, List.sum_nil]
  omega

theorem misc_of_numbered {m : MiscInstruction} {is : List Instruction} : ∀ {n}, .misc m ∈ numberStages n is → .misc m ∈ is := by
  induction is with
  | nil => intro n h; cases h
  | cons i is ih =>
    intro n h
    cases i
    case misc m' =>
      rcases List.mem_cons.1 h with e | h
      · rw [e]; simp
      · exact List.mem_cons_of_mem _ (ih h)
    all_goals
      rcases List.mem_cons.1 h with e | h
      · cases e
      · exact List.mem_cons_of_mem _ (ih h)

/-- a text in front of lines -/
theorem whole_before {unq : Unquote} {w z : Str} {ws : List Instruction} {dz : Dockerfile}
    (whole : ∀ n, n = [] ∨ LineBreak n [] → Dockerfile.parse unq (w ++ n) = .ok (documentOf (w ++ n) ws))
    (inside : ∀ i ∈ ws, i.span.stop ≤ blen w)
    (calm : ∀ n z' d3, LineBreak n z' → LineBreak n [] → LineStart (w ++ n) z' →
      (∀ i ∈ (documentOf (w ++ n) ws).instructions, i.span.stop < blen (w ++ n)) → Dockerfile.parse unq z' = .ok d3 →
      Undisturbed (w ++ n) z' (documentOf (w ++ n) ws))
    (hz : Dockerfile.parse unq z = .ok dz) (he : z = [] ∨ ∃ c t, z = c :: t ∧ (c = '\n' ∨ c = '\r')) :
    Dockerfile.parse unq (w ++ z) = .ok (documentOf (w ++ z) (ws ++ dz.instructions.map (·.remap (· + blen w)))) := by
  rcases he with rfl | ⟨c, t, rfl, hc⟩
  · cases (parse_nothing unq).symm.trans hz
    rw [whole [] (.inl rfl)]
    simp [documentOf, numberStages]
  · obtain ⟨n, z', e, hn⟩ : ∃ n z', c :: t = n ++ z' ∧ LineBreak n z' := by
      rcases hc with rfl | rfl
      · exact ⟨['\n'], t, rfl, .inl rfl⟩
      · by_cases ht : ∃ r, t = '\n' :: r
        · obtain ⟨r, rfl⟩ := ht
          exact ⟨['\r', '\n'], r, rfl, .inr (.inl rfl)⟩
        · exact ⟨['\r'], t, rfl, .inr (.inr ⟨rfl, fun r hr => ht ⟨r, hr⟩⟩)⟩
    rw [e] at hz ⊢
    have hn0 : LineBreak n [] := by
      rcases hn with h | h | h
      · exact .inl h
      · exact .inr (.inl h)
      · exact .inr (.inr ⟨h.1, fun r hr => by cases hr⟩)
    have hb : blen n ≠ 0 := by
      have := blen_pos (Src.break_end hn).ne; omega
    have pn : Dockerfile.parse unq n = .ok (documentOf n []) := by
      have hb : Blanks [] := fun _ h => by cases h
      have hf : Src.DocFits ⟨[], .blank, []⟩ [(n, ⟨[], .blank, []⟩)] := ⟨⟨hb, trivial, hb⟩, by simpa [Src.docText, Src.Line.text, Src.Item.text] using hn0, ⟨hb, trivial, hb⟩⟩
      have := Src.parse_fits (unq := unq) hf
      have h2 : Src.docText ⟨[], .blank, []⟩ [(n, ⟨[], .blank, []⟩)] = n := by simp [Src.docText, Src.Line.text, Src.Item.text]
      rw [h2] at this
      exact this
    have h1 := join_lines (z := z') pn (.inr ⟨[], n, rfl, hn⟩) (fun i hi => by simp [documentOf, numberStages] at hi) (fun i hi => by simp [documentOf, numberStages] at hi)
    cases p3 : Dockerfile.parse unq z' with
    | error f => rw [h1, p3] at hz; cases hz
    | ok d3 =>
      rw [h1, p3] at hz
      cases hz
      have n0 : ∀ i ∈ (documentOf (w ++ n) ws).instructions, i.span.stop < blen (w ++ n) := by
        intro i hi
        obtain ⟨x, hx, ex⟩ := of_numbered hi
        have := inside x hx
        rw [← ex, blen_append]
        omega
      have hls : LineStart (w ++ n) z' := .inr ⟨w, n, rfl, hn⟩
      have := join_lines (whole n (.inr hn0)) hls n0 (calm n z' d3 hn hn0 hls n0 p3)
      rw [← List.append_assoc, this, p3]
      refine congrArg Except.ok ?_
      simp only [documentOf, numberStages_app_left, globalArgs_app_left, List.nil_append, ← Src.numberStages_remap,
        numberStages_app_right, globalArgs_app_right, List.map_map]
      have : ∀ i : Instruction, ((·.remap (· + blen w)) ∘ fun j : Instruction => j.remap (· + blen n)) i = i.remap (· + blen (w ++ n)) := by
        intro i
        rw [Function.comp, Instruction.remap_remap]
        refine congrArg (Instruction.remap · i) (funext fun q => ?_)
        rw [Function.comp, blen_append]
        omega
      rw [List.map_congr_left fun i _ => (this i).symm]

theorem standalone_before {unq : Unquote} {w z : Str} {ws : List Instruction} {dz : Dockerfile} (h : Standalone unq w ws)
    (hz : Dockerfile.parse unq z = .ok dz) (he : z = [] ∨ ∃ c t, z = c :: t ∧ (c = '\n' ∨ c = '\r')) :
    Dockerfile.parse unq (w ++ z) = .ok (documentOf (w ++ z) (ws ++ dz.instructions.map (·.remap (· + blen w)))) := by
  refine whole_before h.whole h.inside (fun n z' d3 hn hn0 hls n0 p3 => ?_) hz he
  have hun : Unquoted (w ++ n) := by
    intro c hc
    rcases List.mem_append.1 hc with hc | hc
    · exact h.mild.1 c hc
    · rcases hn with rfl | rfl | ⟨rfl, -⟩ <;> simp at hc
      · subst hc; decide
      · rcases hc with rfl | rfl <;> decide
      · subst hc; decide
  have hkn : ∀ m, .misc m ∈ (documentOf (w ++ n) ws).instructions → ¬ IsKeyword m.instruction.content := by
    intro m hm
    exact h.known m (misc_of_numbered hm)
  exact undisturbed_calm (h.whole n (.inr hn0)) hls n0 hun hkn p3

/-- the edits are of nonempty spans, in order -/
theorem rewrites_good {unq : Unquote} {s : Str} {d : Dockerfile} (h : Dockerfile.parse unq s = .ok d) (new : Instruction → Option Str)
    {pre post : List Instruction} (e : d.instructions = pre ++ post) :
    ∀ f ∈ rewrites new pre, f.1.start < f.1.stop ∧ ∀ j ∈ post, f.1.stop < j.span.start := by
  intro f hf
  obtain ⟨i, hi, w, -, rfl⟩ := mem_rewrites hf
  refine ⟨(C04_span_bounds unq s d h i (by rw [e]; simp [hi]) _ (by simp [spansOf])).1, fun j hj => ?_⟩
  obtain ⟨p1, p2, rfl⟩ := List.append_of_mem hi
  obtain ⟨q1, q2, rfl⟩ := List.append_of_mem hj
  exact (C05_instructions_in_order unq s d h p1 (p2 ++ q1) q2 i j (by rw [e]; simp)).1

theorem rewrites_single {new : Instruction → Option Str} {i : Instruction} {w : Str} (h : new i = some w) :
    rewrites new [i] = [(i.span, w)] := by
  simp [rewrites, h]

theorem rewrites_disjoint {unq : Unquote} {s : Str} {d : Dockerfile} (h : Dockerfile.parse unq s = .ok d) (new : Instruction → Option Str)
    {pre post : List Instruction} (e : d.instructions = pre ++ post) : Src.Good (rewrites new pre) := by
  refine ⟨fun f hf => (rewrites_good h new e f hf).1, ?_⟩
  induction pre using snocInd generalizing post with
  | nil => exact List.Pairwise.nil
  | snoc pre i ih =>
    have e' : d.instructions = pre ++ (i :: post) := by rw [e]; simp
    rw [rewrites_append, List.pairwise_append]
    refine ⟨ih e', by cases ho : new i <;> simp [rewrites, ho], fun a ha b hb => ?_⟩
    have h1 := (rewrites_good h new e' a ha).2
    obtain ⟨j, hj, w, -, rfl⟩ := mem_rewrites hb
    have := h1 j (by rw [List.mem_singleton.1 hj]; simp)
    exact .inl (by simp only []; omega)

/-- no more is taken out than there is -/
theorem rewrites_sum {unq : Unquote} {s : Str} {d : Dockerfile} (h : Dockerfile.parse unq s = .ok d) (new : Instruction → Option Str)
    {pre post : List Instruction} (e : d.instructions = pre ++ post) {p : Nat} (hp : ∀ f ∈ rewrites new pre, f.1.stop ≤ p) :
    ((rewrites new pre).map fun f => f.1.stop - f.1.start).sum ≤ p := by
  induction pre using snocInd generalizing post p with
  | nil => exact Nat.zero_le _
  | snoc pre i ih =>
    have e' : d.instructions = pre ++ (i :: post) := by rw [e]; simp
    cases ho : new i with
    | none =>
      have e1 : rewrites new (pre ++ [i]) = rewrites new pre := by simp [rewrites, ho]
      rw [e1] at hp ⊢
      exact ih e' hp
    | some w =>
      rw [rewrites_append, rewrites_single ho] at hp ⊢
      have h1 := ih e' (p := i.span.start) (fun f hf => Nat.le_of_lt ((rewrites_good h new e' f hf).2 i (by simp)))
      have h2 := hp (i.span, w) (by simp)
      simp only [List.map_append, List.sum_append, List.map_cons, List.map_nil, List.sum_cons, List.sum_nil]
      simp only [] at h2
      have h3 := (C04_span_bounds unq s d h i (by rw [e']; simp) i.span (by simp [spansOf])).1
      omega

/-- Instructions are replaced one after the other, the last one first.  `P` holds of the document and stays so, `Q` is what has to
be known of the places of the new texts. -/
theorem replaced {unq : Unquote} (new : Instruction → Option Str) (ws : Str → List Instruction)
    (P : Str → List Instruction → Prop) (Q : Str → Instruction → Str → Prop)
    (hQ : ∀ x r r' i w, i.span.stop < blen x → Q (x ++ r) i w → Q (x ++ r') i w)
    (hstep : ∀ x u z d pre i post w, Dockerfile.parse unq (x ++ (u ++ z)) = .ok d → d.instructions = pre ++ i :: post →
      i.span.start = blen x → i.span.stop = blen (x ++ u) → u ≠ [] → P (x ++ (u ++ z)) d.instructions →
      new i = some w → Q (x ++ (u ++ z)) i w →
      Dockerfile.parse unq (x ++ (w ++ z)) = .ok (documentOf (x ++ (w ++ z)) (pre ++ ((ws w).map (·.remap (· + blen x)) ++
        post.map (·.remap fun q => q - blen (x ++ u) + (blen x + blen w))))) ∧
      P (x ++ (w ++ z)) (numberStages 0 (pre ++ ((ws w).map (·.remap (· + blen x)) ++
        post.map (·.remap fun q => q - blen (x ++ u) + (blen x + blen w))))))
    (pre : List Instruction) : ∀ {s : Str} {d : Dockerfile} {post : List Instruction},
    Dockerfile.parse unq s = .ok d → d.instructions = pre ++ post → P s d.instructions →
    (∀ i ∈ pre, ∀ w, new i = some w → Q s i w) →
    Dockerfile.parse unq (simul (rewrites new pre) 0 s) = .ok (documentOf (simul (rewrites new pre) 0 s)
      (rewritten new ws (rewrites new pre) pre ++ post.map (·.remap (movedTo (rewrites new pre))))) ∧
    P (simul (rewrites new pre) 0 s) (numberStages 0
      (rewritten new ws (rewrites new pre) pre ++ post.map (·.remap (movedTo (rewrites new pre))))) := by
  induction pre using snocInd with
  | nil =>
    intro s d post h e hP _
    have e1 : simul (rewrites new []) 0 s = s := simul_untouched _ _ _ (fun e he => by cases he)
    have e2 : ∀ i : Instruction, i.remap (movedTo (rewrites new [])) = i := fun i =>
      (congrArg (Instruction.remap · i) (funext fun q => by simp [movedTo, rewrites])).trans i.remap_same
    have e3 : rewritten new ws (rewrites new []) [] ++ post.map (·.remap (movedTo (rewrites new []))) = d.instructions := by
      rw [e]; simp [e2, rewritten]
    rw [e1, e3, documentOf_same h]
    refine ⟨h, ?_⟩
    rw [show numberStages 0 d.instructions = d.instructions from congrArg Dockerfile.instructions (documentOf_same h)]
    exact hP
  | snoc pre i ih =>
    intro s d post h e hP hm
    have e' : d.instructions = pre ++ (i :: post) := by rw [e]; simp
    cases ho : new i with
    | none =>
      have := ih h e' hP (fun j hj => hm j (by simp [hj]))
      have e1 : rewrites new (pre ++ [i]) = rewrites new pre := by simp [rewrites, ho]
      rw [e1, rewritten, List.flatMap_append]
      simpa [ho, rewritten] using this
    | some w =>
      have him : i ∈ d.instructions := by rw [e']; simp
      obtain ⟨u, ⟨x, z, es, h1, h2⟩, hu⟩ := C04_spans_valid unq s d h i him i.span (by simp [spansOf])
      rw [List.append_assoc] at es
      subst es
      rw [← blen_append] at h2
      have hgood := rewrites_good h new e'
      have hub := blen_pos hu
      obtain ⟨hrep, hP'⟩ := hstep x u z d pre i post w h e' h1 h2 hu hP ho (hm i (by simp) w ho)
      obtain ⟨k, hk2⟩ := numbered_front (pre := pre) (post := i :: post) (n := 0)
        (by rw [← e']; exact congrArg Dockerfile.instructions (documentOf_same h))
        ((ws w).map (·.remap (· + blen x)) ++ post.map (·.remap fun q => q - blen (x ++ u) + (blen x + blen w)))
      have hstop : ∀ f ∈ rewrites new pre, f.1.start < f.1.stop ∧ f.1.stop < blen x := fun f hf => by
        have := hgood f hf
        have h3 := this.2 i (by simp)
        omega
      have hrec := ih hrep hk2 hP' (fun j hj v hv => by
        have hj2 := (hstop (j.span, v) (List.mem_filterMap.2 ⟨j, hj, by rw [hv]; rfl⟩)).2
        exact hQ x (u ++ z) (w ++ z) j v hj2 (hm j (by simp [hj]) v hv))
      have e1 : rewrites new (pre ++ [i]) = rewrites new pre ++ [(⟨blen x, blen (x ++ u)⟩, w)] := by
        rw [rewrites_append, rewrites_single ho, ← h1, ← h2]
      have hs1 : simul (rewrites new pre ++ [(⟨blen x, blen (x ++ u)⟩, w)]) 0 (x ++ (u ++ z)) = simul (rewrites new pre) 0 (x ++ (w ++ z)) := by
        rw [simul_append, simul_append, simul_append]
        have g1 : Src.Good (rewrites new pre ++ [(⟨blen x, blen (x ++ u)⟩, w)]) := by
          rw [← e1]
          exact rewrites_disjoint h new e
        have g2 : simul (rewrites new pre ++ [(⟨blen x, blen (x ++ u)⟩, w)]) (0 + blen x) u = w :=
          Src.simul_edit g1 (e := (⟨blen x, blen (x ++ u)⟩, w)) (by simp) (by rw [Nat.zero_add, blen_append]) hu
        have g3 : ∀ f ∈ rewrites new pre ++ [(⟨blen x, blen (x ++ u)⟩, w)], f.1.start < f.1.stop ∧ f.1.stop ≤ 0 + blen x + blen u := by
          intro f hf
          rcases List.mem_append.1 hf with hf | hf
          · have := hstop f hf; omega
          · rw [List.mem_singleton.1 hf]
            simp only [blen_append]
            omega
        rw [g2, simul_untouched _ _ z (fun f hf => ⟨(g3 f hf).1, .inl (g3 f hf).2⟩),
          simul_untouched _ _ (w ++ z) (fun f hf => ⟨(hstop f hf).1, .inl (by have := hstop f hf; omega)⟩)]
        refine congrArg (· ++ (w ++ z)) (simul_congr _ _ _ _ fun q _ hq => ?_)
        constructor
        · unfold inserted
          rw [List.find?_append]
          have : ([((⟨blen x, blen (x ++ u)⟩, w) : Edit)].find? fun e => e.1.start == q) = none := by
            simp; omega
          rw [this]
          cases (rewrites new pre).find? fun e => e.1.start == q <;> rfl
        · unfold covered
          rw [List.any_append]
          have : ([((⟨blen x, blen (x ++ u)⟩, w) : Edit)].any fun e => e.1.start ≤ q && q < e.1.stop) = false := by
            simp; omega
          rw [this, Bool.or_false]
      rw [e1, hs1, hrec.1]
      have hxu : blen x < blen (x ++ u) := by rw [blen_append]; omega
      have hp1 : rewritten new ws (rewrites new pre ++ [(⟨blen x, blen (x ++ u)⟩, w)]) pre = rewritten new ws (rewrites new pre) pre := by
        rw [rewritten, rewritten, List.flatMap_def, List.flatMap_def]
        refine congrArg List.flatten (List.map_congr_left fun j hj => ?_)
        have hin : ∀ sp ∈ spansOf j, sp.start < blen (x ++ u) ∧ sp.stop < blen (x ++ u) := fun sp hsp => by
          have w := C06_fields_within unq _ d h j (by rw [e']; simp [hj]) sp hsp
          have b := C04_span_bounds unq _ d h j (by rw [e']; simp [hj]) sp hsp
          obtain ⟨p1, p2, ep⟩ := List.append_of_mem hj
          have o := (C05_instructions_in_order unq _ d h p1 p2 post j i (by rw [e', ep]; simp)).1
          unfold Within at w; omega
        cases new j with
        | none =>
          refine congrArg (· :: []) (j.remap_congr fun sp hsp => ?_)
          simp only [Span.remap, movedTo_last_front (hin sp hsp).1, movedTo_last_front (hin sp hsp).2]
        | some v =>
          simp only [movedTo_last_front (hin j.span (by simp [spansOf])).1]
      have hp2 : ∀ j ∈ post, j.remap (movedTo (rewrites new pre ++ [(⟨blen x, blen (x ++ u)⟩, w)])) =
          (j.remap fun q => q - blen (x ++ u) + (blen x + blen w)).remap (movedTo (rewrites new pre)) := by
        intro j hj
        rw [Instruction.remap_remap]
        refine j.remap_congr fun sp hsp => ?_
        have w := C06_fields_within unq _ d h j (by rw [e']; simp [hj]) sp hsp
        have b := C04_span_bounds unq _ d h j (by rw [e']; simp [hj]) sp hsp
        obtain ⟨p1, p2, ep⟩ := List.append_of_mem hj
        have o := (C05_instructions_in_order unq _ d h pre p1 p2 i j (by rw [e', ep])).1
        have hl : blen (x ++ u) ≤ sp.start := by unfold Within at w; omega
        have hst := fun f hf => Nat.le_of_lt (hstop f hf).2
        simp only [Span.remap, Function.comp, movedTo_last_behind hst (Nat.le_of_lt hxu) hl,
          movedTo_last_behind hst (Nat.le_of_lt hxu) (show blen (x ++ u) ≤ sp.stop by omega)]
      have hp3 : ∀ j ∈ ws w, (j.remap (· + blen x)).remap (movedTo (rewrites new pre)) =
          j.remap (· + movedTo (rewrites new pre ++ [(⟨blen x, blen (x ++ u)⟩, w)]) i.span.start) := by
        intro j _
        rw [Instruction.remap_remap, h1, movedTo_last_front hxu]
        refine congrArg (Instruction.remap · j) (funext fun q => ?_)
        have hst := fun f hf => Nat.le_of_lt (hstop f hf).2
        have := rewrites_sum h new e' hst
        rw [Function.comp, movedTo_all hst (Nat.le_refl _), movedTo_all hst (Nat.le_add_left _ _)]
        omega
      rw [show rewritten new ws (rewrites new pre ++ [(⟨blen x, blen (x ++ u)⟩, w)]) (pre ++ [i]) =
          rewritten new ws (rewrites new pre) pre ++ (ws w).map (·.remap (· + movedTo (rewrites new pre ++ [(⟨blen x, blen (x ++ u)⟩, w)]) i.span.start)) by
        rw [← hp1, rewritten, List.flatMap_append]; simp [ho, rewritten]]
      rw [← List.map_congr_left hp3, List.map_congr_left hp2]
      have hP2 := hrec.2
      simp only [documentOf, ← Src.numberStages_remap, numberStages_app_right, globalArgs_app_right, List.map_map, List.map_append, List.append_assoc] at hP2 ⊢
      exact ⟨rfl, hP2⟩

/-- a text that is not a part of the line behind it -/
theorem replace_at {unq : Unquote} {x u z w : Str} {ws : List Instruction} {d : Dockerfile} {pre post : List Instruction} {i : Instruction}
    (h : Dockerfile.parse unq (x ++ (u ++ z)) = .ok d) (e : d.instructions = pre ++ i :: post)
    (h1 : i.span.start = blen x) (h2 : i.span.stop = blen (x ++ u))
    (hw : ∀ dz, Dockerfile.parse unq z = .ok dz →
      Dockerfile.parse unq (w ++ z) = .ok (documentOf (w ++ z) (ws ++ dz.instructions.map (·.remap (· + blen w)))))
    (hx : ∀ d2, Dockerfile.parse unq (w ++ z) = .ok d2 → Dockerfile.parse unq (x ++ (w ++ z)) = .ok (documentOf (x ++ (w ++ z))
      (pre ++ d2.instructions.map (·.remap (· + blen x))))) :
    Dockerfile.parse unq (x ++ (w ++ z)) = .ok (documentOf (x ++ (w ++ z)) (pre ++ (ws.map (·.remap (· + blen x)) ++
      post.map (·.remap fun q => q - blen (x ++ u) + (blen x + blen w))))) := by
  obtain ⟨ps, l, ms, js, y, ks, m, ex, eu, ez, g1, g2, g3, g4, g5, g6, g7⟩ := place_text h e h1 h2
  have hp := Src.after_line (t := .blank) (o := none) g2 g5 g6 (fun _ _ _ _ => trivial) rfl
  rw [← ez] at hp
  replace hp : Dockerfile.parse unq z = _ := hp
  rw [hx _ (hw _ hp)]
  obtain ⟨m', em⟩ : ∃ m', post = numberStages m' ks := by
    cases y <;> exact ⟨_, (List.cons.inj g7).2⟩
  rw [em]
  simp only [documentOf, Option.toList, List.nil_append, ← Src.numberStages_remap, numberStages_app_right,
    globalArgs_app_right, List.map_map, List.map_append]
  have : ∀ i : Instruction, (Instruction.remap (· + blen x) ∘ (Instruction.remap (· + blen w) ∘
      Instruction.remap fun k => k - (blen (Src.preText ps) + blen l.indent + blen l.item.text) + blen Src.Item.blank.text)) i =
      i.remap fun q => q - blen (x ++ u) + (blen x + blen w) := fun i => by
    simp only [Function.comp, Instruction.remap_remap]
    refine congrArg (Instruction.remap · i) (funext fun q => ?_)
    rw [ex, eu]
    simp only [blen_append, Function.comp, Src.Item.text, blen]
    omega
  rw [← List.map_congr_left fun i _ => this i]
  simp only [← List.append_assoc, numberStages_app_right, globalArgs_app_right]

/-- what is in the first part of a text does not depend on the second -/
theorem slice_front {x r r' : Str} {sp : Span} {t : Str} (h : SliceOf (x ++ r) sp t) (hs : sp.stop ≤ blen x) : SliceOf (x ++ r') sp t := by
  obtain ⟨a, c, ew, w1, w2⟩ := h
  refine ⟨a, ?_⟩
  have h3 : blen (a ++ t) ≤ blen x := by rw [blen_append]; omega
  rcases List.append_eq_append_iff.1 ew with ⟨k, er, e2⟩ | ⟨k, er, e2⟩
  · cases k with
    | nil => exact ⟨r', by rw [er]; simp, w1, w2⟩
    | cons b k =>
      rw [er] at h3
      simp only [blen_append, blen_cons] at h3
      have := utf8Size_pos b
      omega
  · exact ⟨k ++ r', by rw [er]; simp, w1, w2⟩

theorem endsLine_front {x r r' : Str} {p : Nat} (h : EndsLine (x ++ r) p) (hs : p < blen x) : EndsLine (x ++ r') p := by
  intro a b eab ha
  rcases List.append_eq_append_iff.1 eab with ⟨k, er, e2⟩ | ⟨k, er, e2⟩
  · rw [er, blen_append] at ha; omega
  · cases k with
    | nil => rw [er, List.append_nil] at hs; omega
    | cons c k =>
      rcases h a (c :: k ++ r) (by rw [er]; simp) ha with h' | ⟨c', t, h', hc'⟩
      · cases h'
      · obtain ⟨rfl, -⟩ := List.cons.inj h'
        exact .inr ⟨c, k ++ r', e2, hc'⟩

theorem misc_of_remap {m : MiscInstruction} {f : Nat → Nat} {i : Instruction} (h : i.remap f = .misc m) :
    ∃ m', i = .misc m' ∧ m'.instruction.content = m.instruction.content := by
  cases i with
  | misc m' => cases h; exact ⟨m', rfl, rfl⟩
  | _ => cases h

/-- C102: Replace any of the instructions of a document with other texts, by splicing them into their places with one splicer, in any
order.  Each of the new texts is accepted on its own, with one or more instructions; it has no quotes and does not end with
a backslash, and neither has the text it replaces, after which the line ends.  No keyword is taken for an unknown
instruction.  Then the text is accepted, and its instructions are those of the new texts, at their places, and the others, moved. -/
theorem C102_replace {unq : Unquote} {s : Str} {d : Dockerfile} (h : Dockerfile.parse unq s = .ok d)
    (hk : ∀ m, .misc m ∈ d.instructions → ¬ IsKeyword m.instruction.content) (new : Instruction → Option Str)
    (ws : Str → List Instruction) (hn : ∀ i ∈ d.instructions, ∀ w, new i = some w → Standalone unq w (ws w))
    (hl : ∀ i ∈ d.instructions, new i ≠ none → EndsLine s i.span.stop)
    (hm : ∀ i ∈ d.instructions, new i ≠ none → ∀ u, SliceOf s i.span u → Mild u) (es : List Edit)
    (he : es.Perm (rewrites new d.instructions)) :
    ∃ sp, (Splicer.ofDockerfile d).spliceAll es = some sp ∧ sp.content = simul (rewrites new d.instructions) 0 s ∧
      Dockerfile.parse unq sp.content = .ok (documentOf sp.content
        (rewritten new ws (rewrites new d.instructions) d.instructions)) := by
  have e : d.instructions = d.instructions ++ [] := by simp
  have hg := rewrites_disjoint h new e
  have hcon : d.content = s := ((ens_parse unq s).ok_of h).1
  obtain ⟨sp', sp, -, h1, h2, h3⟩ := C22_order_independent s (rewrites new d.instructions) es he.symm (fun f hf => by
    obtain ⟨i, hi, w, -, rfl⟩ := mem_rewrites hf
    obtain ⟨t, h1, h2⟩ := C04_spans_valid unq s d h i hi i.span (by simp [spansOf])
    exact ⟨⟨t, h1⟩, hg.1 _ hf⟩) hg.2
  refine ⟨sp, by rw [Splicer.ofDockerfile, hcon]; exact h1, by rw [← h2, h3], ?_⟩
  rw [← h2, h3]
  have := (replaced new ws (fun _ is => ∀ m, .misc m ∈ is → ¬ IsKeyword m.instruction.content)
    (fun s i w => Standalone unq w (ws w) ∧ EndsLine s i.span.stop ∧ ∀ u, SliceOf s i.span u → Mild u)
    (fun x r r' i w hs hq => ⟨hq.1, endsLine_front hq.2.1 hs, fun u hu => hq.2.2 u (slice_front hu (Nat.le_of_lt hs))⟩)
    (fun x u z d pre i post w h e h1 h2 hu hk ho hq => by
      obtain ⟨hst, hend, hmild⟩ := hq
      refine ⟨replace_at h e h1 h2 (fun dz hz => standalone_before hst hz (hend (x ++ u) z (by simp) h2.symm))
        (fun d2 hwz => (C98_replace h e h1 h2 (hmild u ⟨x, z, by simp, h1, by rw [← blen_append]; exact h2⟩) hst.mild hwz (by
          intro y hy t ht
          have hw := hst.some
          cases w with
          | nil => exact hw rfl
          | cons c w =>
            rw [List.cons_append] at ht
            obtain ⟨rfl, -⟩ := List.cons.inj ht
            exact hst.first _ rfl) fun m hm => hk m (by rw [e]; simp [hm])).2), fun m hm => ?_⟩
      have hm := misc_of_numbered hm
      simp only [List.mem_append, List.mem_map] at hm
      rcases hm with hm | ⟨j, hj, ej⟩ | ⟨j, hj, ej⟩
      · exact hk m (by rw [e]; simp [hm])
      · obtain ⟨m', rfl, em⟩ := misc_of_remap ej
        rw [← em]
        exact hst.known m' hj
      · obtain ⟨m', rfl, em⟩ := misc_of_remap ej
        rw [← em]
        exact hk m' (by rw [e]; simp [hj]))
    d.instructions h e hk fun i hi w hw =>
    ⟨hn i hi w hw, hl i hi (by rw [hw]; simp), hm i hi (by rw [hw]; simp)⟩).1
  rwa [List.map_nil, List.append_nil] at this

theorem toUnix_behind {w : Str} (h : '\r' ∉ w) (n : Str) (k : Nat) : toUnix (w ++ n) (blen w + k) = blen w + toUnix n k := by
  induction w with
  | nil => simp
  | cons c w ih =>
    simp only [List.mem_cons, not_or] at h
    have hc := utf8Size_pos c
    have e : toUnix (c :: (w ++ n)) (blen (c :: w) + k) =
        if blen (c :: w) + k = 0 then 0 else c.utf8Size + toUnix (w ++ n) (blen (c :: w) + k - c.utf8Size) := by
      rw [toUnix]
      intro r hr _
      exact h.1 hr.symm
    rw [List.cons_append, e, blen_cons, if_neg (by omega), show c.utf8Size + blen w + k - c.utf8Size = blen w + k by omega, ih h.2]
    omega

/-- C102: Which texts are accepted with every line break after them: those that are with a line feed, when their instructions end before it,
and that have no carriage returns and do not end with a backslash. -/
theorem C102_standalone {unq : Unquote} {w : Str} {d : Dockerfile} (hq : Mild w) (h0 : w ≠ []) (h1 : ∀ t, w ≠ '\n' :: t)
    (ho : ¬ OpenEnd w) (hr : '\r' ∉ w) (h : Dockerfile.parse unq (w ++ c!"\n") = .ok d)
    (hi : ∀ i ∈ d.instructions, i.span.stop ≤ blen w)
    (hk : ∀ m, .misc m ∈ d.instructions → ¬ IsKeyword m.instruction.content) : Standalone unq w d.instructions := by
  refine ⟨hq, h0, h1, fun n hn => ?_, hi, hk⟩
  have other : n ≠ [] → unixEnds (w ++ n) = w ++ c!"\n" →
      Dockerfile.parse unq (w ++ n) = .ok (documentOf (w ++ n) d.instructions) := by
    intro hne hu
    have hp := C90_plain (unq := unq) (t := w ++ n) (by
      constructor <;> intro hc
      · rcases List.mem_append.1 hc with hc | hc
        · exact (hq.1 _ hc).1 rfl
        · rcases hn with rfl | rfl | rfl | ⟨rfl, -⟩ <;> simp at hc
      · rcases List.mem_append.1 hc with hc | hc
        · exact (hq.1 _ hc).2.1 rfl
        · rcases hn with rfl | rfl | rfl | ⟨rfl, -⟩ <;> simp at hc)
    rw [hu, h] at hp
    cases ht : Dockerfile.parse unq (w ++ n) with
    | error f => rw [ht] at hp; cases hp
    | ok dt =>
      rw [ht] at hp
      replace hp : d = relocated (toUnix (w ++ n)) (w ++ c!"\n") dt := by injection hp
      have keep : ∀ a b, w = a ++ b → toUnix (w ++ n) (blen a) = blen a := by
        rintro a b rfl
        have hra : '\r' ∉ a := fun h => hr (by simp [h])
        have := (C90_positions (a := a) (b := b ++ n) (by
          rintro ⟨⟨x, rfl⟩, -⟩
          exact hra (by simp))).2.1
        rwa [(C90_ends a).2.1 hra, ← List.append_assoc] at this
      have same : dt.instructions.map (·.remap (toUnix (w ++ n))) = dt.instructions := by
        refine (List.map_congr_left fun i him => ?_).trans (List.map_id _)
        have hstop : i.span.stop ≤ blen w := by
          have h2 := hi (i.remap (toUnix (w ++ n))) (by rw [hp]; exact List.mem_map_of_mem him)
          rw [Instruction.remap_span] at h2
          replace h2 : toUnix (w ++ n) i.span.stop ≤ blen w := h2
          apply Classical.byContradiction
          intro hlt
          obtain ⟨k, hk⟩ : ∃ k, i.span.stop = blen w + (k + 1) := ⟨i.span.stop - blen w - 1, by omega⟩
          rw [hk, toUnix_behind hr] at h2
          have : toUnix n (k + 1) ≠ 0 := by
            rcases hn with rfl | rfl | rfl | ⟨rfl, -⟩
            · exact absurd rfl hne
            · simp [toUnix]; exact fun h => absurd h (by decide)
            · simp [toUnix]
            · simp [toUnix]; exact fun h => absurd h (by decide)
          omega
        refine (i.remap_congr fun sp hsp => ?_).trans i.remap_same
        obtain ⟨t, ⟨a, c, e, s1, s2⟩, -⟩ := C04_spans_valid unq _ dt ht i him sp hsp
        have hle := (C06_fields_within unq _ dt ht i him sp hsp).2
        have cut : ∀ a b, w ++ n = a ++ b → blen a ≤ blen w → ∃ r, w = a ++ r := by
          intro a b e hl
          rcases List.append_eq_append_iff.1 e with ⟨r, er, -⟩ | ⟨r, er, -⟩
          · rw [er, blen_append] at hl
            cases r with
            | nil => exact ⟨[], by rw [er]; simp⟩
            | cons b r =>
              have := utf8Size_pos b
              rw [blen_cons] at hl
              omega
          · exact ⟨r, er⟩
        obtain ⟨r1, e1⟩ := cut a (t ++ c) (by rw [e]; simp) (by omega)
        obtain ⟨r2, e2⟩ := cut (a ++ t) c e (by rw [blen_append]; omega)
        have k1 := keep a r1 e1
        have k2 := keep (a ++ t) r2 e2
        rw [blen_append] at k2
        simp only [Span.remap, s1, s2, k1, k2, Nat.add_zero]
      have hd : d.instructions = dt.instructions := by rw [hp]; exact same
      rw [hd, documentOf_same ht]
  rcases hn with rfl | rfl | rfl | ⟨rfl, -⟩
  · rw [List.append_nil]
    cases hw : Dockerfile.parse unq w with
    | error f => rw [(C68_final_error ho f).2 hw] at h; cases h
    | ok dw =>
      obtain ⟨d', p1, -, -, p2⟩ := C68_final_break ho hw
      rw [h] at p1
      cases p1
      rcases p2 with p2 | ⟨pre, x, y, -, e2, -, -, -, -, e3⟩
      · rw [p2, documentOf_same hw]
      · have := hi y (by rw [e2]; simp)
        rw [e3] at this
        simp only [] at this
        omega
  · rw [documentOf_same h]; exact h
  · refine other (by simp) ?_
    rw [(C90_positions (a := w) (b := ['\r', '\n']) (fun h => by obtain ⟨y, hy⟩ := h.2; cases hy)).1, (C90_ends w).2.1 hr]
    rfl
  · refine other (by simp) ?_
    rw [(C90_positions (a := w) (b := ['\r']) (fun h => by obtain ⟨y, hy⟩ := h.2; cases hy)).1, (C90_ends w).2.1 hr]
    rfl

/-! ## sample -/

/-- a `CMD` becomes two instructions, a `LABEL` another one -/
def sampleNew : Instruction → Option Str
  | .cmd _ => some c!"CMD y\nEXPOSE 1"
  | .label _ => some c!"ENV z=3"
  | _ => none

/-- what a text consists of -/
def sampleHeld (w : Str) : List Instruction :=
  match Dockerfile.parse Enquote.unquote w with
  | .ok d => d.instructions
  | .error _ => []

theorem standalone_sample {w : Str} (h1 : Mild w) (h2 : w ≠ []) (h3 : ∀ t, w ≠ '\n' :: t)
    (h4 : ∀ n ∈ [[], c!"\n", c!"\r\n", c!"\r"], Dockerfile.parse Enquote.unquote (w ++ n) = .ok (documentOf (w ++ n) (sampleHeld w)))
    (h5 : ∀ i ∈ sampleHeld w, i.span.stop ≤ blen w)
    (h6 : ((sampleHeld w).all fun | .misc m => decide (lower m.instruction.content = c!"expose") | _ => true) = true) :
    Standalone Enquote.unquote w (sampleHeld w) := by
  refine ⟨h1, h2, h3, fun n hn => h4 n ?_, h5, fun m hm => ?_⟩
  · rcases hn with rfl | rfl | rfl | ⟨rfl, -⟩ <;> simp
  · have := of_decide_eq_true (List.all_eq_true.1 h6 _ hm)
    unfold IsKeyword
    rw [this]
    decide

/-- what the sample has to be like -/
def rewriteSample : Dockerfile → Bool := fun d =>
  decide (d.instructions.length = 4) &&
  d.instructions.all fun
    | .cmd l => decide (l.span = ⟨15, 20⟩)
    | .label l => decide (l.span = ⟨22, 31⟩)
    | .misc _ => false
    | _ => true

/-- a text of two lines on its own, with a line feed after it -/
example : ∃ d, Dockerfile.parse Enquote.unquote c!"RUN a \\\n  b\nUSER c\n" = .ok d ∧ d.instructions.length = 2 ∧
    Standalone Enquote.unquote c!"RUN a \\\n  b\nUSER c" d.instructions := by
  obtain ⟨d, h, hF⟩ := parsed_sample (s := c!"RUN a \\\n  b\nUSER c\n")
    (F := fun d => (decide (d.instructions.length = 2) && decide (∀ i ∈ d.instructions, i.span.stop ≤ blen c!"RUN a \\\n  b\nUSER c")) &&
      d.instructions.all fun | .misc m => decide (lower m.instruction.content = c!"user") | _ => true)
    (by decide +kernel)
  rw [Bool.and_eq_true, Bool.and_eq_true] at hF
  obtain ⟨⟨h1, h2⟩, h3⟩ := hF
  refine ⟨d, h, of_decide_eq_true h1, C102_standalone (by unfold Mild Unquoted; decide +kernel) (by decide)
    (fun t ht => by cases (List.cons.inj ht).1) ?_ (by decide) h (fun i hi => of_decide_eq_true h2 i hi) fun m hm => ?_⟩
  · exact fun h => Src.Solid.closed ⟨c!"RUN a \\\n  b\nUSER ", 'c', rfl, by decide⟩ ['\n'] (openEnd_iff.2 h)
  · have := of_decide_eq_true (List.all_eq_true.1 h3 _ hm)
    unfold IsKeyword
    rw [this]
    decide

/-- Two instructions are replaced, the last one first. -/
example : ∃ d, Dockerfile.parse Enquote.unquote c!"FROM a\nRUN 'q'\nCMD x\r\nLABEL z=3\n" = .ok d ∧
    d.instructions.length = 4 ∧
    ∃ sp d', (Splicer.ofDockerfile d).spliceAll (rewrites sampleNew d.instructions).reverse = some sp ∧
      sp.content = c!"FROM a\nRUN 'q'\nCMD y\nEXPOSE 1\r\nENV z=3\n" ∧
      Dockerfile.parse Enquote.unquote sp.content = .ok d' ∧ d'.instructions.length = 5 := by
  obtain ⟨d, h, hF⟩ := parsed_sample (s := c!"FROM a\nRUN 'q'\nCMD x\r\nLABEL z=3\n")
    (F := fun d => rewriteSample d &&
      (decide (simul (rewrites sampleNew d.instructions) 0 d.content = c!"FROM a\nRUN 'q'\nCMD y\nEXPOSE 1\r\nENV z=3\n") &&
      decide ((numberStages 0 (rewritten sampleNew sampleHeld (rewrites sampleNew d.instructions) d.instructions)).length = 5)))
    (by decide +kernel)
  rw [Bool.and_eq_true, rewriteSample, Bool.and_eq_true, Bool.and_eq_true] at hF
  obtain ⟨⟨hlen, hall⟩, hsim, hl5⟩ := hF
  have hsim := of_decide_eq_true hsim
  rw [show d.content = _ from ((ens_parse _ _).ok_of h).1] at hsim
  have hall := List.all_eq_true.1 hall
  have hk : ∀ m, .misc m ∈ d.instructions → ¬ IsKeyword m.instruction.content := fun m hm => by cases hall _ hm
  have hn : ∀ i ∈ d.instructions, ∀ w, sampleNew i = some w → Standalone Enquote.unquote w (sampleHeld w) := by
    intro i _ w hw
    cases i
    case cmd =>
      cases hw
      exact standalone_sample (by unfold Mild Unquoted; decide +kernel) (by decide) (fun t ht => by cases (List.cons.inj ht).1)
        (by decide +kernel) (by decide +kernel) (by decide +kernel)
    case label =>
      cases hw
      exact standalone_sample (by unfold Mild Unquoted; decide +kernel) (by decide) (fun t ht => by cases (List.cons.inj ht).1)
        (by decide +kernel) (by decide +kernel) (by decide +kernel)
    all_goals cases hw
  have place : ∀ i ∈ d.instructions, sampleNew i ≠ none → ∃ a u b, c!"FROM a\nRUN 'q'\nCMD x\r\nLABEL z=3\n" = a ++ u ++ b ∧
      blen a = i.span.start ∧ blen (a ++ u) = i.span.stop ∧ Mild u ∧ ∃ c t, b = c :: t ∧ (c = '\n' ∨ c = '\r') := by
    intro i hi ho
    have := hall i hi
    cases i
    case cmd l =>
      have e := of_decide_eq_true this
      refine ⟨c!"FROM a\nRUN 'q'\n", c!"CMD x", c!"\r\nLABEL z=3\n", by decide, ?_, ?_, by unfold Mild Unquoted; decide +kernel, _, _, rfl, .inr rfl⟩ <;>
        rw [show (Instruction.cmd l).span = l.span from rfl, e] <;> decide +kernel
    case label l =>
      have e := of_decide_eq_true this
      refine ⟨c!"FROM a\nRUN 'q'\nCMD x\r\n", c!"LABEL z=3", c!"\n", by decide, ?_, ?_, by unfold Mild Unquoted; decide +kernel, _, _, rfl, .inl rfl⟩ <;>
        rw [show (Instruction.label l).span = l.span from rfl, e] <;> decide +kernel
    all_goals exact absurd rfl ho
  obtain ⟨sp, h1, h2, h3⟩ := C102_replace h hk sampleNew sampleHeld hn
    (fun i hi ho a b e ha => by
      obtain ⟨a', u, b', e', g1, g2, -, g4⟩ := place i hi ho
      rw [e'] at e
      obtain ⟨-, rfl⟩ := append_inj_blen e (by omega)
      exact .inr g4)
    (fun i hi ho u hu => by
      obtain ⟨a', u', b', e', g1, g2, g3, -⟩ := place i hi ho
      rw [slice_unique hu ⟨a', b', e', g1.symm, by rw [← blen_append]; exact g2.symm⟩]
      exact g3) _ (List.reverse_perm _)
  exact ⟨d, h, of_decide_eq_true hlen, sp, _, h1, h2.trans hsim, h3, of_decide_eq_true hl5⟩

end Verif
