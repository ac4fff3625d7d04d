import Verif.Spec.StageShape
import Verif.Props.Stage

/-! # What the stages of a document depend on (C78) -/

namespace Verif
open Spec

theorem fromsOf_other {l : List Instruction} (h : ∀ i ∈ l, isFrom i = false) : fromsOf l = [] := by
  unfold fromsOf
  rw [List.filterMap_eq_nil_iff]
  intro i hi
  have := h i hi
  cases i <;> simp_all [isFrom]

theorem fromsOf_append (a b : List Instruction) : fromsOf (a ++ b) = fromsOf a ++ fromsOf b :=
  List.filterMap_append

theorem fromsOf_segs (segs : List Seg) (h : ∀ x ∈ segs, ∀ i ∈ x.2, isFrom i = false) :
    fromsOf (segs.flatMap Seg.list) = segs.map (·.1) := by
  induction segs with
  | nil => rfl
  | cons x segs ih =>
    rw [List.flatMap_cons, fromsOf_append, ih fun y hy => h y (by simp [hy]), List.map_cons]
    have : fromsOf (Seg.list x) = [x.1] := by
      have := fromsOf_other (h x (by simp))
      unfold fromsOf at this ⊢
      simp only [Seg.list, List.filterMap_cons, this]
    rw [this]
    rfl

/-- the stages are opened by the `FROM`s, in order -/
theorem stages_froms {d : Dockerfile} {ss : List Stage} (h : d.stages = some ss) :
    ss.length = (fromsOf d.instructions).length ∧
    ∀ (i : Nat) (s : Stage), ss[i]? = some s → ∃ f, (fromsOf d.instructions)[i]? = some f ∧ OpenedBy s f := by
  obtain ⟨pre, segs, ss', h1, h2, h3, h4, inv⟩ := stages_inv d
  rw [h] at h4; cases h4
  have e : fromsOf d.instructions = segs.map (·.1) := by
    rw [h1, fromsOf_append, fromsOf_other h2, fromsOf_segs _ h3]
    rfl
  refine ⟨by rw [e, inv.len, List.length_map], fun i s hs => ?_⟩
  obtain ⟨x, hx, ok⟩ := inv.get hs
  exact ⟨x.1, by rw [e, List.getElem?_map, hx]; rfl, by simp [OpenedBy, ok.instructions, Seg.list]⟩

theorem aliased_refers {d : Dockerfile} {ss : List Stage} (h : d.stages = some ss) {i j : Nat} {s t : Stage}
    {f : FromInstruction} (hs : ss[i]? = some s) (hf : OpenedBy s f) (ht : ss[j]? = some t) :
    Aliased t f.image.content ↔ Refers (fromsOf d.instructions) i j := by
  obtain ⟨-, hfr⟩ := stages_froms h
  obtain ⟨f', hf1, hf2⟩ := hfr i s hs
  have : f' = f := by
    unfold OpenedBy at hf hf2
    rw [hf] at hf2
    cases hf2
    rfl
  subst this
  obtain ⟨g, hg1, hg2⟩ := hfr j t ht
  constructor
  · rintro ⟨g', a, ho, ha, hn⟩
    unfold OpenedBy at ho hg2
    rw [ho] at hg2
    cases hg2
    exact ⟨f', _, a, hf1, hg1, ha, hn⟩
  · rintro ⟨f'', g', a, h1, h2, ha, hn⟩
    rw [hf1] at h1
    rw [hg1] at h2
    cases h1
    cases h2
    exact ⟨g, a, hg2, ha, hn⟩

/-- the parent of a stage, in terms of the `FROM`s -/
theorem parent_froms {d : Dockerfile} {ss : List Stage} (h : d.stages = some ss) {i : Nat} {s : Stage}
    (hs : ss[i]? = some s) :
    (s.parent = .scratch ↔ FromScratch (fromsOf d.instructions) i) ∧
    (∀ j, s.parent = .stage j ↔ ¬ FromScratch (fromsOf d.instructions) i ∧ j < i ∧
      Refers (fromsOf d.instructions) i j ∧ ∀ k, k < j → ¬ Refers (fromsOf d.instructions) i k) ∧
    ∀ r, s.parent = .image r ↔ (∃ f, (fromsOf d.instructions)[i]? = some f ∧ r = f.image_parsed) ∧
      ¬ FromScratch (fromsOf d.instructions) i ∧ ∀ k, k < i → ¬ Refers (fromsOf d.instructions) i k := by
  obtain ⟨f, hf, ho⟩ := (stages_froms h).2 i s hs
  obtain ⟨h1, h2, h3⟩ := C14_parent d ss h i s hs f ho
  have hlt := (List.getElem?_eq_some_iff.1 hs).1
  have hsc : SameName f.image.content c!"scratch" ↔ FromScratch (fromsOf d.instructions) i :=
    ⟨fun h => ⟨f, hf, h⟩, fun ⟨f', h1, h2⟩ => by rw [hf] at h1; cases h1; exact h2⟩
  have hget : ∀ k, k < i → ∃ u, ss[k]? = some u := fun k hk => ⟨_, List.getElem?_eq_getElem (by omega)⟩
  refine ⟨by rw [h1, hsc], fun j => ?_, fun r => ?_⟩
  · rw [h2 j, hsc]
    constructor
    · rintro ⟨a, b, ⟨t, ht, hal⟩, c⟩
      refine ⟨a, b, (aliased_refers h hs ho ht).1 hal, fun k hk hr => ?_⟩
      obtain ⟨u, hu⟩ := hget k (by omega)
      exact c k u hk hu ((aliased_refers h hs ho hu).2 hr)
    · rintro ⟨a, b, hr, c⟩
      obtain ⟨t, ht⟩ := hget j b
      exact ⟨a, b, ⟨t, ht, (aliased_refers h hs ho ht).2 hr⟩,
        fun k u hk hu hal => c k hk ((aliased_refers h hs ho hu).1 hal)⟩
  · rw [h3 r, hsc]
    constructor
    · rintro ⟨a, b, c⟩
      refine ⟨⟨f, hf, a⟩, b, fun k hk hr => ?_⟩
      obtain ⟨u, hu⟩ := hget k hk
      exact c k u hk hu ((aliased_refers h hs ho hu).2 hr)
    · rintro ⟨⟨f', hf', a⟩, b, c⟩
      rw [hf] at hf'
      cases hf'
      exact ⟨a, b, fun k u hk hu hal => c k hk ((aliased_refers h hs ho hu).1 hal)⟩

theorem parent_shape {d d' : Dockerfile} {ss ss' : List Stage} (h : d.stages = some ss) (h' : d'.stages = some ss')
    {i : Nat} (hsc : FromScratch (fromsOf d.instructions) i ↔ FromScratch (fromsOf d'.instructions) i)
    (href : ∀ j, j < i → (Refers (fromsOf d.instructions) i j ↔ Refers (fromsOf d'.instructions) i j))
    {s s' : Stage} (hs : ss[i]? = some s) (hs' : ss'[i]? = some s') : SameShape s.parent s'.parent := by
  obtain ⟨a1, a2, a3⟩ := parent_froms h hs
  obtain ⟨b1, b2, b3⟩ := parent_froms h' hs'
  cases hp : s.parent with
  | scratch =>
    rw [b1.2 (hsc.1 (a1.1 hp))]
    trivial
  | stage j =>
    obtain ⟨x, y, z, w⟩ := (a2 j).1 hp
    rw [(b2 j).2 ⟨fun hc => x (hsc.2 hc), y, (href j y).1 z, fun k hk hr => w k hk ((href k (by omega)).2 hr)⟩]
    rfl
  | image r =>
    obtain ⟨-, x, y⟩ := (a3 r).1 hp
    obtain ⟨f', hf', -⟩ := (stages_froms h').2 i s' hs'
    rw [(b3 f'.image_parsed).2 ⟨⟨f', hf', rfl⟩, fun hc => x (hsc.2 hc), fun k hk hr => y k hk ((href k hk).2 hr)⟩]
    trivial

/-- the root of a stage is the parent of some earlier stage, or of the stage itself -/
theorem root_link {d : Dockerfile} {ss : List Stage} (h : d.stages = some ss) {i j : Nat} {s t : Stage}
    (hs : ss[i]? = some s) (ht : ss[j]? = some t) (hp : s.parent = .stage j) : s.root = t.root := by
  obtain ⟨ss1, e, hr⟩ := C15_root d
  rw [h] at e
  cases e
  exact C15_root_unique ss i _ _ (hr i s hs).1 (.link i j s _ hs hp (hr j t ht).1)

theorem root_base {d : Dockerfile} {ss : List Stage} (h : d.stages = some ss) {i : Nat} {s : Stage}
    (hs : ss[i]? = some s) (hp : ∀ j, s.parent ≠ .stage j) : s.root = s.parent := by
  obtain ⟨ss1, e, hr⟩ := C15_root d
  rw [h] at e
  cases e
  exact C15_root_unique ss i _ _ (hr i s hs).1 (.base i s hs hp)

/-- C78 (shape): parents and roots depend only on which images are `scratch` and which are aliases of
earlier stages, ignoring case: if two documents agree on that for the first `n` `FROM`s, then the
first `n` stages have corresponding parents, and their roots are the parents of corresponding stages.
So aliases can be renamed. -/
theorem C78_shape {d d' : Dockerfile} {ss ss' : List Stage} (h : d.stages = some ss) (h' : d'.stages = some ss')
    {n : Nat} (hn : n ≤ ss.length) (hn' : n ≤ ss'.length)
    (hsc : ∀ i, i < n → (FromScratch (fromsOf d.instructions) i ↔ FromScratch (fromsOf d'.instructions) i))
    (href : ∀ i j, j < i → i < n → (Refers (fromsOf d.instructions) i j ↔ Refers (fromsOf d'.instructions) i j)) :
    ∀ (i : Nat) (s s' : Stage), i < n → ss[i]? = some s → ss'[i]? = some s' →
      SameShape s.parent s'.parent ∧ ∃ (j : Nat) (t t' : Stage), j ≤ i ∧ ss[j]? = some t ∧ ss'[j]? = some t' ∧
        s.root = t.parent ∧ s'.root = t'.parent ∧ ∀ k, t.parent ≠ .stage k ∧ t'.parent ≠ .stage k := by
  intro i
  induction i using Nat.strongRecOn with
  | _ i ih =>
    intro s s' hi hs hs'
    have hp := parent_shape h h' (hsc i hi) (fun j hj => href i j hj hi) hs hs'
    refine ⟨hp, ?_⟩
    cases e : s.parent with
    | stage j =>
      cases e' : s'.parent with
      | stage k =>
        rw [e, e'] at hp
        cases hp
        have hj := (C14_parent_earlier d ss h i j s hs e).1
        obtain ⟨t, ht⟩ : ∃ t, ss[j]? = some t := ⟨_, List.getElem?_eq_getElem (by omega)⟩
        obtain ⟨t', ht'⟩ : ∃ t', ss'[j]? = some t' := ⟨_, List.getElem?_eq_getElem (by omega)⟩
        obtain ⟨-, k, u, u', hk, hu, hu', r1, r2, r3⟩ := ih j hj t t' (by omega) ht ht'
        exact ⟨k, u, u', by omega, hu, hu', (root_link h hs ht e).trans r1, (root_link h' hs' ht' e').trans r2, r3⟩
      | _ => rw [e, e'] at hp; cases hp
    | _ =>
      have n1 : ∀ k, s.parent ≠ .stage k := by simp [e]
      have n2 : ∀ k, s'.parent ≠ .stage k := by
        intro k e'
        rw [e, e'] at hp
        cases hp
      exact ⟨i, s, s', Nat.le_refl i, hs, hs', root_base h hs n1, root_base h' hs' n2, fun k => ⟨n1 k, n2 k⟩⟩

/-- the same names and images, ignoring case -/
def Spec.SameFrom (f g : FromInstruction) : Prop :=
  SameName f.image.content g.image.content ∧ f.image_parsed = g.image_parsed ∧
    f.alias.map (lower ·.content) = g.alias.map (lower ·.content)

theorem sameFrom_refers {fs gs : List FromInstruction} {n : Nat}
    (h : ∀ i, i < n → ∃ f g, fs[i]? = some f ∧ gs[i]? = some g ∧ SameFrom f g) {i j : Nat} (hi : i < n) (hj : j < n) :
    Refers fs i j → Refers gs i j := by
  rintro ⟨f, g, a, hf, hg, ha, hn⟩
  obtain ⟨f1, f2, e1, e2, e3, -, -⟩ := h i hi
  obtain ⟨g1, g2, e4, e5, -, -, e6⟩ := h j hj
  rw [hf] at e1
  rw [hg] at e4
  cases e1
  cases e4
  rw [ha] at e6
  cases hb : g2.alias with
  | none => rw [hb] at e6; cases e6
  | some b =>
    rw [hb] at e6
    exact ⟨f2, g2, b, e2, e5, hb, (Option.some.inj e6).symm.trans (hn.trans e3)⟩

theorem sameFrom_symm {fs gs : List FromInstruction} {n : Nat}
    (h : ∀ i, i < n → ∃ f g, fs[i]? = some f ∧ gs[i]? = some g ∧ SameFrom f g) :
    ∀ i, i < n → ∃ f g, gs[i]? = some f ∧ fs[i]? = some g ∧ SameFrom f g := fun i hi => by
  obtain ⟨f, g, a, b, c, d, e⟩ := h i hi
  exact ⟨g, f, b, a, c.symm, d.symm, e.symm⟩

theorem sameFrom_scratch {fs gs : List FromInstruction} {n : Nat}
    (h : ∀ i, i < n → ∃ f g, fs[i]? = some f ∧ gs[i]? = some g ∧ SameFrom f g) {i : Nat} (hi : i < n) :
    FromScratch fs i → FromScratch gs i := by
  rintro ⟨f, hf, hn⟩
  obtain ⟨f1, f2, e1, e2, e3, -⟩ := h i hi
  rw [hf] at e1
  cases e1
  exact ⟨f2, e2, e3.symm.trans hn⟩

/-- C78 (the same `FROM`s): if the first `n` `FROM`s of two documents have the same images and aliases,
ignoring case, then the first `n` stages differ only in their instructions. -/
theorem C78_same {d d' : Dockerfile} {ss ss' : List Stage} (h : d.stages = some ss) (h' : d'.stages = some ss')
    {n : Nat} (hf : ∀ i, i < n → ∃ f g, (fromsOf d.instructions)[i]? = some f ∧
      (fromsOf d'.instructions)[i]? = some g ∧ SameFrom f g) :
    ∀ (i : Nat), i < n → ∃ s s', ss[i]? = some s ∧ ss'[i]? = some s' ∧ SameHead s s' := by
  have hlen : ∀ i, i < n → i < ss.length ∧ i < ss'.length := by
    intro i hi
    obtain ⟨f, g, h1, h2, -⟩ := hf i hi
    rw [(stages_froms h).1, (stages_froms h').1]
    exact ⟨(List.getElem?_eq_some_iff.1 h1).1, (List.getElem?_eq_some_iff.1 h2).1⟩
  have hn : n ≤ ss.length ∧ n ≤ ss'.length := by
    cases n with
    | zero => exact ⟨Nat.zero_le _, Nat.zero_le _⟩
    | succ m => exact hlen m (by omega)
  have shape := C78_shape h h' hn.1 hn.2 (fun i hi => ⟨sameFrom_scratch hf hi, sameFrom_scratch (sameFrom_symm hf) hi⟩)
    (fun i j hj hi => ⟨sameFrom_refers hf hi (by omega), sameFrom_refers (sameFrom_symm hf) hi (by omega)⟩)
  have par : ∀ (i : Nat) (s s' : Stage), i < n → ss[i]? = some s → ss'[i]? = some s' → s.parent = s'.parent := by
    intro i s s' hi hs hs'
    have hp := (shape i s s' hi hs hs').1
    cases e : s.parent with
    | scratch => cases e' : s'.parent <;> rw [e, e'] at hp <;> first | rfl | cases hp
    | stage j => cases e' : s'.parent <;> rw [e, e'] at hp <;> cases hp; rfl
    | image r =>
      cases e' : s'.parent with
      | image r' =>
        obtain ⟨⟨f, h1, rfl⟩, -⟩ := ((parent_froms h hs).2.2 r).1 e
        obtain ⟨⟨g, h2, rfl⟩, -⟩ := ((parent_froms h' hs').2.2 r').1 e'
        obtain ⟨f1, g1, h3, h4, -, h5, -⟩ := hf i hi
        rw [h1] at h3
        rw [h2] at h4
        cases h3
        cases h4
        rw [h5]
      | _ => rw [e, e'] at hp; cases hp
  intro i hi
  obtain ⟨s, hs⟩ : ∃ s, ss[i]? = some s := ⟨_, List.getElem?_eq_getElem (hlen i hi).1⟩
  obtain ⟨s', hs'⟩ : ∃ s', ss'[i]? = some s' := ⟨_, List.getElem?_eq_getElem (hlen i hi).2⟩
  refine ⟨s, s', hs, hs', ?_, ?_, par i s s' hi hs hs', ?_⟩
  · rw [(C13_index_name d ss h i s hs).1, (C13_index_name d' ss' h' i s' hs').1]
  · obtain ⟨-, f, ho, e⟩ := C13_index_name d ss h i s hs
    obtain ⟨-, g, ho', e'⟩ := C13_index_name d' ss' h' i s' hs'
    obtain ⟨f1, h1, h2⟩ := (stages_froms h).2 i s hs
    obtain ⟨g1, h3, h4⟩ := (stages_froms h').2 i s' hs'
    unfold OpenedBy at ho ho' h2 h4
    rw [ho] at h2
    rw [ho'] at h4
    cases h2
    cases h4
    obtain ⟨f2, g2, h5, h6, -, -, h7⟩ := hf i hi
    rw [h1] at h5
    rw [h3] at h6
    cases h5
    cases h6
    rw [e, e']
    cases ha : f.alias <;> cases hb : g.alias <;> rw [ha, hb] at h7 <;> first | rfl | cases h7 | exact h7
  · obtain ⟨-, j, t, t', hj, ht, ht', r1, r2, -⟩ := shape i s s' hi hs hs'
    rw [r1, r2]
    exact par j t t' (by omega) ht ht'

/-- C78 (other instructions): which other instructions there are makes no difference to the number of
stages, their names, parents and roots. -/
theorem C78_others {d d' : Dockerfile} {ss ss' : List Stage} (h : d.stages = some ss) (h' : d'.stages = some ss')
    (hf : fromsOf d.instructions = fromsOf d'.instructions) :
    ss.length = ss'.length ∧ ∀ (i : Nat) (s s' : Stage), ss[i]? = some s → ss'[i]? = some s' → SameHead s s' := by
  have hl : ss.length = ss'.length := by rw [(stages_froms h).1, (stages_froms h').1, hf]
  refine ⟨hl, fun i s s' hs hs' => ?_⟩
  obtain ⟨t, t', ht, ht', hh⟩ := C78_same h h' (n := ss.length) (fun i hi => by
    rw [(stages_froms h).1] at hi
    exact ⟨_, _, List.getElem?_eq_getElem hi, by rw [← hf]; exact List.getElem?_eq_getElem hi, rfl, rfl, rfl⟩) i
    (List.getElem?_eq_some_iff.1 hs).1
  rw [hs] at ht
  rw [hs'] at ht'
  cases ht
  cases ht'
  exact hh

/-! ## more instructions at the end -/

theorem pushLast_get (ins : Instruction) (ss : List Stage) (i : Nat) (s : Stage) (h : ss[i]? = some s) :
    ∃ s', (pushLast ins ss)[i]? = some s' ∧ SameHead s s' ∧ s.instructions <+: s'.instructions ∧
      (i + 1 < ss.length → s' = s) := by
  fun_induction pushLast ins ss generalizing i with
  | case1 => cases h
  | case2 t =>
    cases i with
    | zero =>
      cases h
      exact ⟨_, rfl, ⟨rfl, rfl, rfl, rfl⟩, List.prefix_append _ _, fun h => by simp at h⟩
    | succ i => cases h
  | case3 t u ts ih =>
    cases i with
    | zero => cases h; exact ⟨s, rfl, ⟨rfl, rfl, rfl, rfl⟩, List.prefix_rfl, fun _ => rfl⟩
    | succ i =>
      obtain ⟨s', h1, h2, h3, h4⟩ := ih i h
      exact ⟨s', h1, h2, h3, fun hl => h4 (by simp at hl ⊢; omega)⟩

theorem pushLast_length (ins : Instruction) (ss : List Stage) : (pushLast ins ss).length = ss.length := by
  fun_induction pushLast ins ss with
  | case1 => rfl
  | case2 => rfl
  | case3 t u ts ih => simp [ih]

theorem stagesLoop_extends (b : List Instruction) : ∀ (ss ss' : List Stage) (n : Nat),
    stagesLoop b ss n = some ss' → ∀ (i : Nat) (s : Stage), ss[i]? = some s →
    ∃ s', ss'[i]? = some s' ∧ SameHead s s' ∧ s.instructions <+: s'.instructions ∧
      (i + 1 < ss.length → s' = s) := by
  induction b with
  | nil =>
    intro ss ss' n h i s hs
    cases h
    exact ⟨s, hs, ⟨rfl, rfl, rfl, rfl⟩, List.prefix_rfl, fun _ => rfl⟩
  | cons x b ih =>
    intro ss ss' n h i s hs
    have other : stagesLoop b (pushLast x ss) n = some ss' → ∃ s', ss'[i]? = some s' ∧ SameHead s s' ∧
        s.instructions <+: s'.instructions ∧ (i + 1 < ss.length → s' = s) := by
      intro h
      obtain ⟨s1, h1, h2, h3, h4⟩ := pushLast_get x ss i s hs
      obtain ⟨s2, g1, g2, g3, g4⟩ := ih _ _ _ h i s1 h1
      rw [pushLast_length] at g4
      exact ⟨s2, g1, ⟨h2.1.trans g2.1, h2.2.1.trans g2.2.1, h2.2.2.1.trans g2.2.2.1, h2.2.2.2.trans g2.2.2.2⟩,
        h3.trans g3, fun hl => (g4 hl).trans (h4 hl)⟩
    cases x
    case «from» f =>
      simp only [stagesLoop] at h
      split at h
      · cases h
      · have hlt := (List.getElem?_eq_some_iff.1 hs).1
        obtain ⟨s2, g1, g2, g3, g4⟩ := ih _ _ _ h i s (by rw [List.getElem?_append_left hlt]; exact hs)
        exact ⟨s2, g1, g2, g3, fun hl => g4 (by simp; omega)⟩
    all_goals exact other h

theorem stagesLoop_append (a b : List Instruction) : ∀ (ss : List Stage) (n : Nat),
    stagesLoop (a ++ b) ss n = (stagesLoop a ss n).bind fun ss1 => stagesLoop b ss1 (n + (fromsOf a).length) := by
  induction a with
  | nil => intro ss n; rfl
  | cons x a ih =>
    intro ss n
    cases x
    case «from» f =>
      simp only [List.cons_append, stagesLoop]
      split
      · rfl
      · rw [ih]
        have : n + 1 + (fromsOf a).length = n + (fromsOf (.from f :: a)).length := by
          simp [fromsOf]; omega
        rw [this]
    all_goals exact ih _ _

/-- C78 (more at the end): with more instructions at the end there are the same stages at the beginning:
all but the last one are unchanged, and the last one may only get more instructions. -/
theorem C78_prefix {d d' : Dockerfile} {b : List Instruction} (hd : d'.instructions = d.instructions ++ b)
    {ss ss' : List Stage} (h : d.stages = some ss) (h' : d'.stages = some ss') :
    ∀ (i : Nat) (s : Stage), ss[i]? = some s → ∃ s', ss'[i]? = some s' ∧ SameHead s s' ∧
      s.instructions <+: s'.instructions ∧ (i + 1 < ss.length → s' = s) := by
  unfold Dockerfile.stages at h h'
  rw [hd, stagesLoop_append, h] at h'
  exact stagesLoop_extends b _ _ _ h'

/-! ## examples -/

/-- the parents of the stages of a text -/
def parentsOf (s : Str) : Option (List (Option Str × StageParent × StageParent)) :=
  (Dockerfile.parse Enquote.unquote s).toOption.bind fun d =>
    d.stages.map (·.map fun t => (t.name, t.parent, t.root))

/- another name for a stage, and other instructions -/
example : parentsOf c!"FROM i AS a\nFROM A as b\nRUN x\nFROM b" =
    some [(some c!"a", .image (ImageRef.parse c!"i"), .image (ImageRef.parse c!"i")),
      (some c!"b", .stage 0, .image (ImageRef.parse c!"i")), (none, .stage 1, .image (ImageRef.parse c!"i"))] ∧
    parentsOf c!"FROM j AS c\nENV k=v\nFROM c as b\nFROM B" =
    some [(some c!"c", .image (ImageRef.parse c!"j"), .image (ImageRef.parse c!"j")),
      (some c!"b", .stage 0, .image (ImageRef.parse c!"j")), (none, .stage 1, .image (ImageRef.parse c!"j"))] := by
  decide +kernel

/- a stage at the end changes nothing before it; one in front of the others may -/
example : parentsOf c!"FROM b\nFROM i as b" =
    some [(none, .image (ImageRef.parse c!"b"), .image (ImageRef.parse c!"b")),
      (some c!"b", .image (ImageRef.parse c!"i"), .image (ImageRef.parse c!"i"))] ∧
    parentsOf c!"FROM i as b\nFROM b" =
    some [(some c!"b", .image (ImageRef.parse c!"i"), .image (ImageRef.parse c!"i")),
      (none, .stage 0, .image (ImageRef.parse c!"i"))] := by
  decide +kernel

end Verif
