import Verif.Proof.Stage
import Verif.Model.Enquote

/-! # Stage properties (C12-C17) -/

namespace Verif
open Spec

/-! ## An example -/

/-- a document with an instruction before the first `FROM`, a chain of stages, a stage named like
an image, `scratch` in mixed case, and an unnamed stage -/
def exampleStages : Option (List Stage) :=
  match Dockerfile.parse Enquote.unquote
    c!"ARG x=1\nFROM alpine AS Build\nARG y\nRUN a\nARG x\nFROM BUILD as two\nFROM Scratch\nFROM two\nCMD b\n" with
  | .ok d => d.stages
  | .error _ => none

/-- the stages of the example -/
def stagesList : List Stage := exampleStages.getD []

/-- the document of the example -/
def stagesDoc : Dockerfile :=
  match Dockerfile.parse Enquote.unquote
    c!"ARG x=1\nFROM alpine AS Build\nARG y\nRUN a\nARG x\nFROM BUILD as two\nFROM Scratch\nFROM two\nCMD b\n" with
  | .ok d => d
  | .error _ => ⟨[], [], []⟩

theorem stagesDoc_stages : stagesDoc.stages = some stagesList := by decide +kernel

/-! ## C12: stages partition the instructions -/

/-- C12: `stages()` does not panic; concatenating the instruction lists of the stages gives the
instructions from the first `FROM` on; every stage starts with a `FROM` and contains no other; the
number of stages is the number of `FROM`s. -/
theorem C12_partition (d : Dockerfile) :
    ∃ ss, d.stages = some ss ∧
      ss.flatMap (·.instructions) = d.instructions.dropWhile (fun i => !isFrom i) ∧
      (∀ s ∈ ss, ∃ f rest, s.instructions = .from f :: rest ∧ ∀ i ∈ rest, isFrom i = false) ∧
      ss.length = d.instructions.countP isFrom := by
  obtain ⟨pre, segs, ss, h1, h2, h3, h4, inv⟩ := stages_inv d
  refine ⟨ss, h4, ?_, ?_, ?_⟩
  · have e : ss.flatMap (·.instructions) = segs.flatMap Seg.list := by
      have : ss.map (·.instructions) = segs.map Seg.list := by
        apply List.ext_getElem?
        intro i
        rw [List.getElem?_map, List.getElem?_map]
        cases hs : ss[i]? with
        | none =>
          rw [List.getElem?_eq_none_iff] at hs
          have : segs[i]? = none := by rw [List.getElem?_eq_none_iff, ← inv.len]; exact hs
          simp [this]
        | some s =>
          obtain ⟨x, hx, ok⟩ := inv.get hs
          simp [hx, ok.instructions]
      rw [List.flatMap_def, this, ← List.flatMap_def]
    rw [e, h1]
    have e2 : ∀ p : List Instruction, (∀ i ∈ p, isFrom i = false) →
        (p ++ segs.flatMap Seg.list).dropWhile (fun i => !isFrom i) = segs.flatMap Seg.list := by
      intro p
      induction p with
      | nil =>
        intro _
        cases segs with
        | nil => rfl
        | cons x xs => simp [Seg.list, isFrom]
      | cons i p ih =>
        intro hp
        have hi := hp i (by simp)
        simp [List.dropWhile_cons, hi, ih (fun y hy => hp y (by simp [hy]))]
    exact (e2 pre h2).symm
  · intro s hs
    obtain ⟨i, hi⟩ := List.getElem?_of_mem hs
    obtain ⟨x, hx, ok⟩ := inv.get hi
    exact ⟨x.1, x.2, ok.instructions, h3 x (List.mem_of_getElem? hx)⟩
  · rw [inv.len, h1, List.countP_append]
    have hp : pre.countP isFrom = 0 := by
      rw [List.countP_eq_zero]
      intro i hi
      simp [h2 i hi]
    rw [hp]
    clear h1 h4 inv
    induction segs with
    | nil => rfl
    | cons x xs ih =>
      have hx : x.2.countP isFrom = 0 := by
        rw [List.countP_eq_zero]
        intro i hi
        simp [h3 x (by simp) i hi]
      have := ih (fun y hy => h3 y (by simp [hy]))
      simp only [Nat.zero_add] at this ⊢
      simp only [List.length_cons, List.flatMap_cons, List.countP_append, Seg.list,
        List.countP_cons, isFrom, hx] at this ⊢
      simp
      omega

/-! ## C13: index and name -/

/-- C13: the `i`-th stage has index `i` and its name is the lower-cased alias of its `FROM`. -/
theorem C13_index_name (d : Dockerfile) (ss : List Stage) (h : d.stages = some ss) (i : Nat)
    (s : Stage) (hs : ss[i]? = some s) :
    s.index = i ∧ ∃ f, OpenedBy s f ∧
      s.name = (match f.alias with | some a => some (lower a.content) | none => none) := by
  obtain ⟨pre, segs, ss', h1, h2, h3, h4, inv⟩ := stages_inv d
  rw [h] at h4; cases h4
  obtain ⟨x, hx, ok⟩ := inv.get hs
  refine ⟨ok.index, x.1, by simp [OpenedBy, ok.instructions, Seg.list], ?_⟩
  rw [ok.name]
  cases x.1.alias <;> rfl

example : stagesDoc.stages = some stagesList ∧
    (stagesList[1]?).map (fun s => (s.index, s.name)) = some (1, some c!"two") :=
  ⟨stagesDoc_stages, by decide +kernel⟩

/-! ## C14: parent -/

/-- C14: the parent of the `i`-th stage, opened by `FROM f`. -/
theorem C14_parent (d : Dockerfile) (ss : List Stage) (h : d.stages = some ss) (i : Nat)
    (s : Stage) (hs : ss[i]? = some s) (f : FromInstruction) (hf : OpenedBy s f) :
    (s.parent = .scratch ↔ SameName f.image.content c!"scratch") ∧
    (∀ j, s.parent = .stage j ↔
      ¬ SameName f.image.content c!"scratch" ∧ j < i ∧
      (∃ t, ss[j]? = some t ∧ Aliased t f.image.content) ∧
      (∀ (k : Nat) (u : Stage), k < j → ss[k]? = some u → ¬ Aliased u f.image.content)) ∧
    (∀ r, s.parent = .image r ↔
      r = f.image_parsed ∧ ¬ SameName f.image.content c!"scratch" ∧
      (∀ (k : Nat) (u : Stage), k < i → ss[k]? = some u → ¬ Aliased u f.image.content)) := by
  obtain ⟨pre, segs, ss', h1, h2, h3, h4, inv⟩ := stages_inv d
  rw [h] at h4; cases h4
  obtain ⟨x, hx, ok⟩ := inv.get hs
  have hfx : x.1 = f := by
    unfold OpenedBy at hf
    rw [ok.instructions] at hf
    simpa [Seg.list] using hf
  have hp := ok.parent
  rw [hfx] at hp
  have hsc : SameName f.image.content c!"scratch" ↔ lower f.image.content = c!"scratch" := by
    unfold SameName
    have : lower c!"scratch" = c!"scratch" := by decide +kernel
    rw [this]
  have htake : ∀ k u, (ss.take i)[k]? = some u ↔ k < i ∧ ss[k]? = some u := by
    intro k u
    rw [List.getElem?_take]
    split
    · rename_i hk; simp [hk]
    · rename_i hk; simp [hk]
  have hal : ∀ (k : Nat) (u : Stage), ss[k]? = some u →
      (Aliased u f.image.content ↔ u.name = some (lower (lower f.image.content))) := by
    intro k u hu
    rw [inv.aliased_iff hu, lower_idem]
  rw [hsc]
  unfold parentOf at hp
  dsimp only at hp
  by_cases hscr : lower f.image.content = c!"scratch"
  · rw [if_pos hscr] at hp
    refine ⟨by simp [hp, hscr], by simp [hp, hscr], by simp [hp, hscr]⟩
  · rw [if_neg hscr] at hp
    cases hg : getByName (ss.take i) (lower f.image.content) with
    | none =>
      rw [hg] at hp
      simp only at hp
      have hn := getByName_none hg
      have hno : ∀ (k : Nat) (u : Stage), k < i → ss[k]? = some u → ¬ Aliased u f.image.content := by
        intro k u hk hu
        rw [hal k u hu]
        exact hn k u ((htake k u).mpr ⟨hk, hu⟩)
      refine ⟨by simp [hp, hscr], ?_, ?_⟩
      · intro j
        rw [hp]
        simp only [reduceCtorEq, false_iff]
        rintro ⟨-, hj, ⟨t, ht, ha⟩, -⟩
        exact hno j t hj ht ha
      · intro r
        rw [hp]
        constructor
        · intro e
          cases e
          exact ⟨rfl, hscr, hno⟩
        · rintro ⟨rfl, -, -⟩
          rfl
    | some t =>
      rw [hg] at hp
      simp only at hp
      obtain ⟨j0, hj0, hn, hfirst⟩ := getByName_some hg
      rw [htake] at hj0
      obtain ⟨hlt, hj0⟩ := hj0
      have hidx : t.index = j0 := (inv.get hj0).elim (fun _ q => q.2.index)
      rw [hidx] at hp
      have hal0 : Aliased t f.image.content := (hal j0 t hj0).mpr hn
      have hno : ∀ (k : Nat) (u : Stage), k < j0 → ss[k]? = some u → ¬ Aliased u f.image.content := by
        intro k u hk hu
        rw [hal k u hu]
        exact hfirst k u hk ((htake k u).mpr ⟨by omega, hu⟩)
      refine ⟨by simp [hp, hscr], ?_, ?_⟩
      · intro j
        rw [hp]
        constructor
        · intro e
          cases e
          exact ⟨hscr, hlt, ⟨t, hj0, hal0⟩, hno⟩
        · rintro ⟨-, hj, ⟨u, hu, ha⟩, hno'⟩
          have : j = j0 := by
            rcases Nat.lt_trichotomy j j0 with hlt' | he | hgt
            · exact absurd ha (hno j u hlt' hu)
            · exact he
            · exact absurd hal0 (hno' j0 t hgt hj0)
          rw [this]
      · intro r
        rw [hp]
        simp only [reduceCtorEq, false_iff]
        rintro ⟨-, -, hno'⟩
        exact hno' j0 t hlt hj0 hal0

/- the second stage is opened by `FROM BUILD as two`, and the first has the alias `Build` -/
example : stagesDoc.stages = some stagesList ∧
    (((stagesList[1]?).bind (·.instructions.head?)).bind Instruction.asFrom).map
      (·.image.content) = some c!"BUILD" :=
  ⟨stagesDoc_stages, by decide +kernel⟩

/-- C14 (acyclicity): a stage parent is an earlier, existing stage. -/
theorem C14_parent_earlier (d : Dockerfile) (ss : List Stage) (h : d.stages = some ss) (i j : Nat)
    (s : Stage) (hs : ss[i]? = some s) (hp : s.parent = .stage j) : j < i ∧ j < ss.length := by
  obtain ⟨-, f, hf, -⟩ := C13_index_name d ss h i s hs
  have := ((C14_parent d ss h i s hs f hf).2.1 j).mp hp
  exact ⟨this.2.1, by have := (List.getElem?_eq_some_iff.mp hs).1; omega⟩

example : stagesDoc.stages = some stagesList ∧ (stagesList[3]?).map (·.parent) = some (.stage 1) :=
  ⟨stagesDoc_stages, by decide +kernel⟩

/-! ## C15: root -/

/-- C15: building the stages never panics; the root of every stage is what following the parent
links leads to, and it is never a stage. -/
theorem C15_root (d : Dockerfile) :
    ∃ ss, d.stages = some ss ∧ ∀ i s, ss[i]? = some s →
      RootsTo ss i s.root ∧ ∀ j, s.root ≠ .stage j := by
  obtain ⟨pre, segs, ss, h1, h2, h3, h4, inv⟩ := stages_inv d
  refine ⟨ss, h4, ?_⟩
  intro i
  induction i using Nat.strongRecOn with
  | _ i ih =>
    intro s hs
    obtain ⟨x, hx, ok⟩ := inv.get hs
    have hr := ok.root
    cases hp : s.parent with
    | stage j =>
      have hj := (C14_parent_earlier d ss h4 i j s hs hp).1
      rw [hp] at hr
      simp only [rootOf, List.getElem?_take, hj, if_true] at hr
      cases hj' : ss[j]? with
      | none => rw [hj'] at hr; cases hr
      | some t =>
        rw [hj'] at hr
        simp at hr
        have := ih j hj t hj'
        rw [hr] at this
        exact ⟨.link i j s _ hs hp this.1, this.2⟩
    | image r =>
      rw [hp] at hr
      simp [rootOf] at hr
      have hb := RootsTo.base (ss := ss) i s hs (by simp [hp])
      rw [hp, hr] at hb
      exact ⟨hb, by simp [← hr]⟩
    | scratch =>
      rw [hp] at hr
      simp [rootOf] at hr
      have hb := RootsTo.base (ss := ss) i s hs (by simp [hp])
      rw [hp, hr] at hb
      exact ⟨hb, by simp [← hr]⟩

/- the last stage is made from the second one, and this from the first -/
example : ∃ s, stagesList[3]? = some s ∧ s.parent = .stage 1 ∧
    RootsTo stagesList 3 (.image (ImageRef.parse c!"alpine")) := by
  cases h : stagesList[3]? with
  | none => exact absurd h (by decide +kernel)
  | some s =>
    obtain ⟨ss, hss, hall⟩ := C15_root stagesDoc
    obtain rfl := Option.some.inj (stagesDoc_stages.symm.trans hss)
    have hr := (hall 3 s h).1
    have e : (stagesList[3]?).map (fun s => (s.parent, s.root)) =
        some (.stage 1, .image (ImageRef.parse c!"alpine")) := by decide +kernel
    rw [h] at e
    simp only [Option.map_some, Option.some.injEq, Prod.mk.injEq] at e
    rw [e.2] at hr
    exact ⟨s, rfl, e.1, hr⟩

/-- C15 (uniqueness): the end of the parent chain is unique. -/
theorem C15_root_unique (ss : List Stage) (i : Nat) (r r' : StageParent)
    (h : RootsTo ss i r) (h' : RootsTo ss i r') : r = r' := by
  induction h with
  | base i s hs hp =>
    cases h' with
    | base _ s' hs' hp' => rw [hs] at hs'; cases hs'; rfl
    | link _ j s' _ hs' hp' _ => rw [hs] at hs'; cases hs'; exact absurd hp' (hp j)
  | link i j s r hs hp hr ih =>
    cases h' with
    | base _ s' hs' hp' => rw [hs] at hs'; cases hs'; exact absurd hp (hp' j)
    | link _ j' s' _ hs' hp' hr' =>
      rw [hs] at hs'; cases hs'
      rw [hp] at hp'; cases hp'
      exact ih hr'

example : ∃ r, RootsTo stagesList 3 r := by
  obtain ⟨ss, hss, hall⟩ := C15_root stagesDoc
  obtain rfl := Option.some.inj (stagesDoc_stages.symm.trans hss)
  cases h : stagesList[3]? with
  | none => exact absurd h (by decide +kernel)
  | some s => exact ⟨_, (hall 3 s h).1⟩

/-- C15 (parent and root): they are equal exactly for a stage that is not made from another stage, so for the first. -/
theorem C15_parent (d : Dockerfile) (ss : List Stage) (h : d.stages = some ss) (i : Nat) (s : Stage) (hs : ss[i]? = some s) :
    (s.parent = s.root ↔ ∀ j, s.parent ≠ .stage j) ∧ (i = 0 → s.parent = s.root) := by
  obtain ⟨ss', h', hr⟩ := C15_root d
  rw [h] at h'; cases h'
  obtain ⟨h1, h2⟩ := hr i s hs
  have key : s.parent = s.root ↔ ∀ j, s.parent ≠ .stage j :=
    ⟨fun e j => by rw [e]; exact h2 j, fun e => C15_root_unique ss i _ _ (.base i s hs e) h1⟩
  refine ⟨key, fun h0 => key.2 fun j hj => ?_⟩
  have := (C14_parent_earlier d ss h i j s hs hj).1
  omega

example : stagesDoc.stages = some stagesList ∧ (stagesList[0]?).map (·.parent) =
    (stagesList[0]?).map (·.root) ∧ (stagesList[3]?).map (·.parent) ≠ (stagesList[3]?).map (·.root) :=
  ⟨stagesDoc_stages, by decide +kernel, by decide +kernel⟩

/-! ## C16: lookups -/

/-- C16 (by name): the first stage whose alias equals the name ignoring ASCII case. -/
theorem C16_get_by_name (d : Dockerfile) (ss : List Stage) (h : d.stages = some ss) (n : Str) :
    (∀ t, getByName ss n = some t ↔
      ∃ j, ss[j]? = some t ∧ Aliased t n ∧ ∀ (k : Nat) (u : Stage), k < j → ss[k]? = some u → ¬ Aliased u n) ∧
    (getByName ss n = none ↔ ∀ t ∈ ss, ¬ Aliased t n) := by
  obtain ⟨pre, segs, ss', h1, h2, h3, h4, inv⟩ := stages_inv d
  rw [h] at h4; cases h4
  have hfwd : ∀ t, getByName ss n = some t →
      ∃ j, ss[j]? = some t ∧ Aliased t n ∧ ∀ (k : Nat) (u : Stage), k < j → ss[k]? = some u → ¬ Aliased u n := by
    intro t ht
    obtain ⟨j, hj, hn, hf⟩ := getByName_some ht
    refine ⟨j, hj, (inv.aliased_iff hj n).mpr hn, ?_⟩
    intro k u hk hu
    rw [inv.aliased_iff hu]
    exact hf k u hk hu
  have hnone : getByName ss n = none → ∀ t ∈ ss, ¬ Aliased t n := by
    intro hg t ht
    obtain ⟨k, hk⟩ := List.getElem?_of_mem ht
    rw [inv.aliased_iff hk]
    exact getByName_none hg k t hk
  refine ⟨fun t => ⟨hfwd t, ?_⟩, hnone, ?_⟩
  · rintro ⟨j, hj, ha, hf⟩
    cases hg : getByName ss n with
    | none => exact absurd ha (hnone hg t (List.mem_of_getElem? hj))
    | some t' =>
      obtain ⟨j', hj', ha', hf'⟩ := hfwd t' hg
      have : j = j' := by
        rcases Nat.lt_trichotomy j j' with hlt | he | hgt
        · exact absurd ha (hf' j t hlt hj)
        · exact he
        · exact absurd ha' (hf j' t' hgt hj')
      subst this
      rw [hj] at hj'; exact hj'.symm
  · intro hno
    cases hg : getByName ss n with
    | none => rfl
    | some t =>
      obtain ⟨j, hj, ha, -⟩ := hfwd t hg
      exact absurd ha (hno t (List.mem_of_getElem? hj))

example : stagesDoc.stages = some stagesList ∧ getByName stagesList c!"TWO" = stagesList[1]? ∧
    getByName stagesList c!"three" = none :=
  ⟨stagesDoc_stages, by decide +kernel, by decide +kernel⟩

/-- C16 (numeric): `get(s)` for a numeral `s` of value `k` (below 2^64) is the stage number `k`,
`None` if there is none. -/
theorem C16_get_numeral (ss : List Stage) (s : Str) (k : Nat) (h : Spec.Numeral s k)
    (hk : k < 2 ^ 64) : stagesGet ss s = ss[k]? := by
  have := (parseUsize_iff s k).mpr ⟨h, hk⟩
  simp [stagesGet, this]

example : stagesGet stagesList c!"+03" = stagesList[3]? :=
  C16_get_numeral _ _ 3 ⟨[0, 3], by decide, Or.inr (by decide), by decide⟩ (by decide)

/-- C16 (otherwise): `get(s)` for any other string is `get_by_name(s)`. -/
theorem C16_get_other (ss : List Stage) (s : Str) (h : ∀ k, Spec.Numeral s k → ¬ k < 2 ^ 64) :
    stagesGet ss s = getByName ss s := by
  have : parseUsize s = none := by
    cases hp : parseUsize s with
    | none => rfl
    | some n =>
      have := (parseUsize_iff s n).mp hp
      exact absurd this.2 (h n this.1)
  simp [stagesGet, this]

example : stagesGet stagesList c!"two" = stagesList[1]? :=
  (C16_get_other _ _ (by
    rintro k ⟨ds, hne, h | h, -⟩
    · cases ds with
      | nil => exact absurd rfl hne
      | cons d ds =>
        injection h with h _
        have : ∀ d : Fin 10, 't' ≠ Char.ofNat (48 + d.val) := by decide
        exact absurd h (this d)
    · injection h with h _
      exact absurd h (by decide))).trans (by decide +kernel)

/-! ## C17: `arg_index` -/

/-- C17: `arg_index(name) = Some(i)` iff instruction `i` of the stage is an `ARG` called `name` and
no earlier one is. -/
theorem C17_arg_index (s : Stage) (name : Str) (i : Nat) :
    s.argIndex name = some i ↔
      (∃ a, s.instructions[i]? = some (.arg a) ∧ a.name.content = name) ∧
      ∀ k a, k < i → s.instructions[k]? = some (.arg a) → a.name.content ≠ name := by
  unfold Stage.argIndex
  rw [argIndexFrom_some]
  simp

/-- C17 (none): `arg_index(name) = None` iff the stage has no `ARG` called `name`. -/
theorem C17_arg_index_none (s : Stage) (name : Str) :
    s.argIndex name = none ↔ ∀ a, .arg a ∈ s.instructions → a.name.content ≠ name := by
  constructor
  · intro h
    unfold Stage.argIndex at h
    suffices ∀ is b, argIndexFrom name b is = none → ∀ a, .arg a ∈ is → a.name.content ≠ name from
      this _ _ h
    intro is
    induction is with
    | nil => intro b _ a ha; cases ha
    | cons x xs ih =>
      intro b hb a ha
      cases x with
      | arg a' =>
        simp only [argIndexFrom] at hb
        split at hb
        · cases hb
        · rename_i hne
          simp at ha
          rcases ha with rfl | ha
          · exact hne
          · exact ih _ hb a ha
      | _ =>
        simp at ha
        exact ih _ hb a ha
  · intro h
    cases hs : s.argIndex name with
    | none => rfl
    | some i =>
      obtain ⟨⟨a, h1, h2⟩, -⟩ := (C17_arg_index s name i).mp hs
      exact absurd h2 (h a (List.mem_of_getElem? h1))

/-! ## Examples -/

example : exampleStages.map (fun ss => ss.map (fun s =>
    (s.index, s.name, s.instructions.length))) =
    some [(0, some c!"build", 4), (1, some c!"two", 1), (2, none, 1), (3, none, 2)] := by
  decide +kernel
example : exampleStages.map (fun ss => ss.map (·.parent)) =
    some [.image (ImageRef.parse c!"alpine"), .stage 0, .scratch, .stage 1] := by decide +kernel
example : exampleStages.map (fun ss => ss.map (·.root)) =
    some [.image (ImageRef.parse c!"alpine"), .image (ImageRef.parse c!"alpine"), .scratch,
      .image (ImageRef.parse c!"alpine")] := by decide +kernel
example : exampleStages.map (fun ss => ((getByName ss c!"TWO").map (·.index),
    (stagesGet ss c!"+03").map (·.index), (stagesGet ss c!"two").map (·.index),
    (stagesGet ss c!"9").map (·.index))) = some (some 1, some 3, some 1, none) := by decide +kernel
example : exampleStages.map (fun ss => ss.map (fun s => s.argIndex c!"x")) =
    some [some 3, none, none, none] := by decide +kernel
example : Spec.Numeral c!"+03" 3 := ⟨[0, 3], by decide, Or.inr (by decide), by decide⟩

end Verif
