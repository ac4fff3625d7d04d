import Verif.Spec.Prune
import Verif.Props.StageShape
import Verif.Props.Split
import Verif.Props.Parse

/-! # Taking out stages, and putting them in (C93) -/

namespace Verif
open Spec

/-! ## the list of `FROM`s -/

/-- the place in the longer list -/
def embed (lo w i : Nat) : Nat := if i < lo then i else i + w

theorem keyed_get {A B C fs : List FromInstruction} (h : fs.map fromKey = (A ++ C).map fromKey) (i : Nat) :
    (fs[i]?).map fromKey = ((A ++ (B ++ C))[embed A.length B.length i]?).map fromKey := by
  have e : (fs.map fromKey)[i]? = ((A ++ C).map fromKey)[i]? := by rw [h]
  rw [List.getElem?_map, List.getElem?_map] at e
  rw [e]
  unfold embed
  split
  · rename_i c
    rw [List.getElem?_append_left c, List.getElem?_append_left c]
  · rename_i c
    rw [List.getElem?_append_right (by omega), List.getElem?_append_right (by omega),
      List.getElem?_append_right (by omega)]
    congr 2
    omega

theorem key_parts {f g : FromInstruction} (h : fromKey f = fromKey g) : SameFrom f g := by
  simp only [fromKey, Prod.mk.injEq] at h
  exact ⟨h.1, h.2.1, h.2.2⟩

theorem keyed_same {fs gs : List FromInstruction} {i k : Nat} (h : (fs[i]?).map fromKey = (gs[k]?).map fromKey)
    {f : FromInstruction} (hf : fs[i]? = some f) : ∃ g, gs[k]? = some g ∧ SameFrom f g := by
  rw [hf] at h
  cases hg : gs[k]? with
  | none => rw [hg] at h; cases h
  | some g => rw [hg] at h; exact ⟨g, rfl, key_parts (Option.some.inj h)⟩

theorem refers_at {fs gs : List FromInstruction} {i j k l : Nat}
    (h1 : (fs[i]?).map fromKey = (gs[k]?).map fromKey) (h2 : (fs[j]?).map fromKey = (gs[l]?).map fromKey) :
    Refers fs i j → Refers gs k l := by
  rintro ⟨f, g, a, hf, hg, ha, hn⟩
  obtain ⟨f', hf', s1, -, -⟩ := keyed_same h1 hf
  obtain ⟨g', hg', -, -, s2⟩ := keyed_same h2 hg
  rw [ha] at s2
  cases hb : g'.alias with
  | none => rw [hb] at s2; cases s2
  | some b =>
    rw [hb] at s2
    refine ⟨f', g', b, hf', hg', hb, ?_⟩
    have s2 : lower a.content = lower b.content := Option.some.inj s2
    exact s2.symm.trans (hn.trans s1)

theorem scratch_at {fs gs : List FromInstruction} {i k : Nat}
    (h1 : (fs[i]?).map fromKey = (gs[k]?).map fromKey) : FromScratch fs i → FromScratch gs k := by
  rintro ⟨f, hf, hn⟩
  obtain ⟨f', hf', s1, -, -⟩ := keyed_same h1 hf
  exact ⟨f', hf', s1.symm.trans hn⟩

/-- C93 (the stages): the `FROM`s of `d'` are those of `d` without a block, from number `lo` up to `hi`.
If no stage behind the block is built on one in the block, then the other stages stay: each has its
name and its root, it is built on the same stage or image, and only the numbers of the stages behind
the block are another ones. -/
theorem C93_stages {d d' : Dockerfile} {ss ss' : List Stage} (h : d.stages = some ss) (h' : d'.stages = some ss')
    {A B C : List FromInstruction} (hf : fromsOf d.instructions = A ++ (B ++ C))
    (hf' : (fromsOf d'.instructions).map fromKey = (A ++ C).map fromKey) {lo hi : Nat}
    (hlo : lo = A.length) (hhi : hi = A.length + B.length)
    (hno : ∀ (i j : Nat) (s : Stage), hi ≤ i → ss[i]? = some s → s.parent = .stage j → j < lo ∨ hi ≤ j) :
    ss'.length + (hi - lo) = ss.length ∧
    ∀ (i : Nat) (s : Stage), ss[i]? = some s → i < lo ∨ hi ≤ i →
      ∃ s', ss'[if i < lo then i else i - (hi - lo)]? = some s' ∧
        s'.index = (if i < lo then i else i - (hi - lo)) ∧ s'.name = s.name ∧
        s'.parent = outParent lo hi s.parent ∧ s'.root = s.root := by
  obtain ⟨hl, hl'⟩ : ss'.length + B.length = ss.length ∧ lo ≤ ss'.length := by
    rw [(stages_froms h).1, (stages_froms h').1, hf, ← List.length_map (f := fromKey), hf']
    simp only [List.length_map, List.length_append]
    omega
  have ew : hi - lo = B.length := by omega
  rw [ew]
  refine ⟨hl, ?_⟩
  have hget : ∀ i, ((fromsOf d'.instructions)[i]?).map fromKey =
      ((fromsOf d.instructions)[embed lo B.length i]?).map fromKey := fun i => by
    rw [hf, hlo]
    exact keyed_get hf' i
  have hmono : ∀ {i j}, j < i → embed lo B.length j < embed lo B.length i := by
    intro i j hij
    unfold embed
    split <;> split <;> omega
  -- in terms of the place in `d'`
  have key : ∀ (i : Nat) (s s' : Stage), ss[embed lo B.length i]? = some s → ss'[i]? = some s' →
      s'.name = s.name ∧ s'.parent = outParent lo hi s.parent ∧ s'.root = s.root := by
    intro i
    induction i using Nat.strongRecOn with
    | _ i ih =>
      intro s s' hs hs'
      obtain ⟨a1, a2, a3⟩ := parent_froms h hs
      obtain ⟨b1, b2, b3⟩ := parent_froms h' hs'
      have hg := hget i
      have hR : ∀ j, Refers (fromsOf d'.instructions) i j ↔
          Refers (fromsOf d.instructions) (embed lo B.length i) (embed lo B.length j) := fun j =>
        ⟨refers_at hg (hget j), refers_at hg.symm (hget j).symm⟩
      have hS : FromScratch (fromsOf d'.instructions) i ↔ FromScratch (fromsOf d.instructions) (embed lo B.length i) :=
        ⟨scratch_at hg, scratch_at hg.symm⟩
      have hname : s'.name = s.name := by
        obtain ⟨-, f, f1, f2⟩ := C13_index_name d ss h _ s hs
        obtain ⟨-, g, g1, g2⟩ := C13_index_name d' ss' h' _ s' hs'
        obtain ⟨f0, f3, f4⟩ := (stages_froms h).2 _ s hs
        obtain ⟨g0, g3, g4⟩ := (stages_froms h').2 _ s' hs'
        have e1 : f0 = f := by
          unfold OpenedBy at f1 f4
          rw [f1] at f4
          cases f4
          rfl
        have e2 : g0 = g := by
          unfold OpenedBy at g1 g4
          rw [g1] at g4
          cases g4
          rfl
        subst e1 e2
        rw [f3, g3] at hg
        have := (key_parts (Option.some.inj hg)).2.2
        rw [f2, g2]
        cases c1 : f0.alias <;> cases c2 : g0.alias <;> rw [c1, c2] at this <;> simp at this ⊢
        exact this
      refine ⟨hname, ?_⟩
      cases hp : s.parent with
      | scratch =>
        have e := b1.2 (hS.2 (a1.1 hp))
        refine ⟨e, ?_⟩
        rw [root_base h hs (by simp [hp]), root_base h' hs' (by simp [e]), e, hp]
      | stage j =>
        obtain ⟨c1, c2, c3, c4⟩ := (a2 j).1 hp
        have hj : j < lo ∨ hi ≤ j := by
          by_cases c : i < lo
          · unfold embed at c2
            rw [if_pos c] at c2
            omega
          · exact hno _ j s (by unfold embed; rw [if_neg c]; omega) hs hp
        obtain ⟨k, hk⟩ : ∃ k, embed lo B.length k = j := by
          by_cases c : j < lo
          · exact ⟨j, by unfold embed; rw [if_pos c]⟩
          · exact ⟨j - B.length, by unfold embed; rw [if_neg (by omega)]; omega⟩
        subst hk
        have hki : k < i := by
          rcases Nat.lt_trichotomy k i with c | c | c
          · exact c
          · subst c; omega
          · have := hmono c; omega
        have e : s'.parent = .stage k := (b2 k).2 ⟨fun c => c1 (hS.1 c), hki, (hR k).2 c3, fun l hl hr =>
          c4 _ (hmono hl) ((hR l).1 hr)⟩
        have ek : (if embed lo B.length k < lo then embed lo B.length k else embed lo B.length k - (hi - lo)) = k := by
          unfold embed
          repeat' split
          all_goals omega
        refine ⟨by rw [e, outParent, ek], ?_⟩
        obtain ⟨u, h1⟩ : ∃ u, ss[embed lo B.length k]? = some u :=
          ⟨_, List.getElem?_eq_getElem (by have := (List.getElem?_eq_some_iff.1 hs).1; omega)⟩
        obtain ⟨u', h2⟩ : ∃ u, ss'[k]? = some u :=
          ⟨_, List.getElem?_eq_getElem (by have := (List.getElem?_eq_some_iff.1 hs').1; omega)⟩
        rw [root_link h hs h1 hp, root_link h' hs' h2 e]
        exact (ih k hki _ _ h1 h2).2.2
      | image r =>
        obtain ⟨⟨f, c1, c2⟩, c3, c4⟩ := (a3 r).1 hp
        obtain ⟨g, g1, g2⟩ := keyed_same hg.symm c1
        have e : s'.parent = .image r := (b3 r).2 ⟨⟨g, g1, c2.trans g2.2.1⟩, fun c => c3 (hS.1 c), fun l hl hr =>
          c4 _ (hmono hl) ((hR l).1 hr)⟩
        refine ⟨e, ?_⟩
        rw [root_base h hs (by simp [hp]), root_base h' hs' (by simp [e]), e, hp]
  intro i s hs hi'
  have hlt := (List.getElem?_eq_some_iff.1 hs).1
  have ee : embed lo B.length (if i < lo then i else i - B.length) = i := by
    unfold embed
    repeat' split
    all_goals omega
  obtain ⟨s', h2⟩ : ∃ s', ss'[if i < lo then i else i - B.length]? = some s' :=
    ⟨_, List.getElem?_eq_getElem (by split <;> omega)⟩
  refine ⟨_, h2, (C13_index_name d' ss' h' _ _ h2).1, key _ s _ (by rw [ee]; exact hs) h2⟩

/-! ## the instructions of the stages -/

theorem groups_first {is : List Instruction} (h : ∀ i, is.head? = some i → isFrom i = true) : (groups is).1 = [] := by
  cases is with
  | nil => rfl
  | cons i is => simp [groups, h i rfl]

theorem groups_append {as bs : List Instruction} (h : (groups bs).1 = []) :
    (groups (as ++ bs)).1 = (groups as).1 ∧ (groups (as ++ bs)).2 = (groups as).2 ++ (groups bs).2 := by
  induction as with
  | nil => exact ⟨h, rfl⟩
  | cons i as ih =>
    simp only [List.cons_append, groups]
    split <;> simp [ih.1, ih.2]

theorem groups_length (is : List Instruction) : (groups is).2.length = is.countP isFrom := by
  induction is with
  | nil => rfl
  | cons i is ih =>
    simp only [groups, List.countP_cons]
    split <;> simp [*]

theorem groups_other {pre is : List Instruction} (h : ∀ i ∈ pre, isFrom i = false) :
    (groups (pre ++ is)).2 = (groups is).2 ∧ (groups (pre ++ is)).1 = pre ++ (groups is).1 := by
  induction pre with
  | nil => exact ⟨rfl, rfl⟩
  | cons i pre ih =>
    have := ih fun j hj => h j (by simp [hj])
    simp [groups, h i (by simp), this]

theorem groups_segs {segs : List Seg} (h : ∀ x ∈ segs, ∀ i ∈ x.2, isFrom i = false) :
    (groups (segs.flatMap Seg.list)).1 = [] ∧ (groups (segs.flatMap Seg.list)).2 = segs.map Seg.list := by
  induction segs with
  | nil => exact ⟨rfl, rfl⟩
  | cons x segs ih =>
    obtain ⟨i1, i2⟩ := ih fun y hy => h y (by simp [hy])
    obtain ⟨o1, o2⟩ := groups_other (is := segs.flatMap Seg.list) (h x (by simp))
    rw [List.flatMap_cons, Seg.list, List.cons_append, groups, if_pos (by rfl), o1, o2, i1, i2]
    simp [Seg.list]

theorem groups_stages {d : Dockerfile} {ss : List Stage} (h : d.stages = some ss) :
    ss.map (·.instructions) = (groups d.instructions).2 := by
  obtain ⟨pre, segs, ss', h1, h2, h3, h4, inv⟩ := stages_inv d
  rw [h] at h4; cases h4
  rw [h1, (groups_other h2).1, (groups_segs h3).2]
  apply List.ext_getElem?
  intro i
  rw [List.getElem?_map, List.getElem?_map]
  cases hs : ss[i]? with
  | none =>
    rw [List.getElem?_eq_none_iff] at hs
    have : segs[i]? = none := by rw [List.getElem?_eq_none_iff, ← inv.len]; exact hs
    simp [this]
  | some s =>
    obtain ⟨x, hx, ok⟩ := inv.get hs
    simp [hx, ok.instructions]

theorem groups_number (is : List Instruction) : ∀ n,
    (groups (numberStages n is)).1 = (groups is).1 ∧
    ∀ i : Nat, (groups (numberStages n is)).2[i]? = ((groups is).2[i]?).map (numberStages (n + i)) := by
  have other : ∀ (n : Nat) (l : List Instruction), (∀ i ∈ l, isFrom i = false) → numberStages n l = l := by
    intro n l
    induction l with
    | nil => intro _; rfl
    | cons j l ih =>
      intro hl
      have := ih fun i hi => hl i (by simp [hi])
      have hj := hl j (by simp)
      cases j <;> simp [numberStages, isFrom, this] at hj ⊢
  have plain : ∀ l : List Instruction, ∀ i ∈ (groups l).1, isFrom i = false := by
    intro l
    induction l with
    | nil => intro i hi; cases hi
    | cons j l ih =>
      intro i hi
      unfold groups at hi
      split at hi
      · cases hi
      · rename_i c
        rcases List.mem_cons.1 hi with rfl | hi
        · simpa using c
        · exact ih i hi
  induction is with
  | nil => intro n; exact ⟨rfl, fun i => by simp [groups, numberStages]⟩
  | cons j is ih =>
    intro n
    cases j
    case «from» f =>
      obtain ⟨h1, h2⟩ := ih (n + 1)
      refine ⟨rfl, fun i => ?_⟩
      have e1 : (groups (numberStages n (.from f :: is))).2 =
          (.from { f with index := n } :: (groups is).1) :: (groups (numberStages (n + 1) is)).2 := by
        simp [numberStages, groups, isFrom, h1]
      have e2 : (groups (.from f :: is)).2 = (.from f :: (groups is).1) :: (groups is).2 := by
        simp [groups, isFrom]
      rw [e1, e2]
      cases i with
      | zero =>
        have := other (n + 1) _ (plain is)
        simp [numberStages, this]
      | succ i =>
        rw [List.getElem?_cons_succ, List.getElem?_cons_succ, h2 i]
        congr 2
        omega
    all_goals
      obtain ⟨h1, h2⟩ := ih n
      exact ⟨by simp [numberStages, groups, isFrom, h1], fun i => by simpa [numberStages, groups, isFrom] using h2 i⟩

theorem isFrom_remap (f : Nat → Nat) (i : Instruction) : isFrom (i.remap f) = isFrom i := by cases i <;> rfl

theorem groups_remap (f : Nat → Nat) (is : List Instruction) :
    (groups (is.map (·.remap f))).1 = (groups is).1.map (·.remap f) ∧
    (groups (is.map (·.remap f))).2 = (groups is).2.map (List.map (·.remap f)) := by
  induction is with
  | nil => exact ⟨rfl, rfl⟩
  | cons i is ih =>
    simp only [List.map_cons, groups, isFrom_remap]
    split <;> simp [ih.1, ih.2]

/-! ## the `FROM`s of the new document -/

theorem fromsOf_length (is : List Instruction) : (fromsOf is).length = is.countP isFrom := by
  induction is with
  | nil => rfl
  | cons i is ih =>
    unfold fromsOf at ih ⊢
    cases i <;> simp [isFrom, List.countP_cons, ih]

theorem fromsOf_number (is : List Instruction) : ∀ n,
    (fromsOf (numberStages n is)).map fromKey = (fromsOf is).map fromKey := by
  induction is with
  | nil => intro n; rfl
  | cons i is ih =>
    intro n
    unfold fromsOf at ih ⊢
    cases i <;> simp [numberStages, ih, fromKey]

theorem fromsOf_remap (f : Nat → Nat) (is : List Instruction) :
    (fromsOf (is.map (·.remap f))).map fromKey = (fromsOf is).map fromKey := by
  induction is with
  | nil => rfl
  | cons i is ih =>
    cases i
    case «from» g =>
      show fromKey (g.remap f) :: (fromsOf (is.map (·.remap f))).map fromKey = fromKey g :: (fromsOf is).map fromKey
      rw [ih]
      simp [fromKey, FromInstruction.remap, SpannedString.remap, Function.comp_def]
    all_goals exact ih

/-- the instructions before the first `FROM` do not change -/
theorem globalArgs_groups (is : List Instruction) : globalArgs is = globalArgs (groups is).1 := by
  induction is with
  | nil => rfl
  | cons i is ih => cases i <;> simp [groups, isFrom, globalArgs, ih]

theorem span_forward {unq : Unquote} {s : Str} {d : Dockerfile} (h : Dockerfile.parse unq s = .ok d) :
    ∀ i ∈ d.instructions, i.span.start < i.span.stop := fun i hi =>
  (C04_span_bounds unq s d h i hi i.span List.mem_cons_self).1

/-- what a cut between two stages is -/
theorem stageCut_parts {d : Dockerfile} {k : Nat} {pre post : List Instruction}
    (hlt : ∀ i ∈ d.instructions, i.span.start < i.span.stop) (e : d.instructions = pre ++ post)
    (h1 : ∀ i ∈ pre, i.span.stop < k) (h2 : ∀ i ∈ post, k ≤ i.span.start) :
    (StageCut d k → (groups post).1 = []) ∧ stagesBefore d k = pre.countP isFrom := by
  have n1 : ∀ i ∈ pre, i.span.start < k := fun i hi => by
    have := hlt i (by rw [e]; simp [hi])
    have := h1 i hi
    omega
  constructor
  · intro c
    refine groups_first fun i hi => c i ?_
    rw [e, List.find?_append]
    have : pre.find? (fun i => decide (k ≤ i.span.start)) = none := by
      rw [List.find?_eq_none]
      intro i hi
      have := n1 i hi
      simp only [decide_eq_true_eq]
      omega
    rw [this]
    cases post with
    | nil => cases hi
    | cons j post =>
      cases hi
      simp [h2 i (by simp)]
  · unfold stagesBefore
    rw [e, List.countP_append]
    have a : post.countP (fun i => isFrom i && decide (i.span.start < k)) = 0 := by
      rw [List.countP_eq_zero]
      intro i hi
      have := h2 i hi
      simp only [Bool.and_eq_true, decide_eq_true_eq]
      omega
    rw [a, Nat.add_zero]
    exact List.countP_congr fun i hi => by simp [n1 i hi]

/-- C93 (taking out): the text is `a ++ (t ++ b)`, and `t` is some whole stages: they are those from number `lo`
up to `hi`.  No stage behind them is built on one of them.  Then the text `a ++ b` is a document with
the other stages.  The stages before are unchanged.  A stage behind has its name, the instructions it had,
moved, the same root, and it is built on the same stage or image, with the new numbers. -/
theorem C93_delete {unq : Unquote} {a t b : Str} {d : Dockerfile}
    (h : Dockerfile.parse unq (a ++ (t ++ b)) = .ok d)
    (ha : LineStart a (t ++ b)) (hs : Apart d (blen a)) (hb : LineStart (a ++ t) b) (hs' : Apart d (blen (a ++ t)))
    (ha' : LineStart a b) (hu : ∀ d1, Dockerfile.parse unq a = .ok d1 → Undisturbed a b d1)
    (c1 : StageCut d (blen a)) (c2 : StageCut d (blen (a ++ t))) {ss : List Stage} (hss : d.stages = some ss)
    {lo hi : Nat} (hlo : lo = stagesBefore d (blen a)) (hhi : hi = stagesBefore d (blen (a ++ t)))
    (hno : ∀ (i j : Nat) (s : Stage), hi ≤ i → ss[i]? = some s → s.parent = .stage j → j < lo ∨ hi ≤ j) :
    ∃ d' ss', Dockerfile.parse unq (a ++ b) = .ok d' ∧ d'.stages = some ss' ∧ d'.global_args = d.global_args ∧
      ss'.length + (hi - lo) = ss.length ∧
      (∀ (i : Nat) (s : Stage), i < lo → ss[i]? = some s → ss'[i]? = some s) ∧
      ∀ (i : Nat) (s : Stage), hi ≤ i → ss[i]? = some s → ss'[i - (hi - lo)]? = some
        { index := i - (hi - lo), name := s.name
          instructions := numberStages (i - (hi - lo)) (s.instructions.map (·.remap fun q => q - blen (a ++ t) + blen a))
          parent := outParent lo hi s.parent, root := s.root } := by
  obtain ⟨pre, mid, post, e, h1, h2, h3, h4⟩ := C71_delete h ha hs hb hs' ha' hu
  have hlt := span_forward h
  have hab : blen a ≤ blen (a ++ t) := by rw [blen_append]; omega
  obtain ⟨p1, p2⟩ := stageCut_parts (k := blen a) hlt e h1 (fun i hi => by
    rcases List.mem_append.1 hi with hi | hi
    · exact (h2 i hi).1
    · have := h3 i hi; omega)
  obtain ⟨q1, q2⟩ := stageCut_parts (k := blen (a ++ t)) hlt (e.trans (List.append_assoc pre mid post).symm) (fun i hi => by
    rcases List.mem_append.1 hi with hi | hi
    · have := h1 i hi; omega
    · exact (h2 i hi).2) h3
  replace p1 := p1 c1
  replace q1 := q1 c2
  rw [p2] at hlo
  rw [q2, List.countP_append] at hhi
  generalize hm : (fun q => q - blen (a ++ t) + blen a) = m at h4 ⊢
  have hd0 := documentOf_same h
  have hnum : numberStages 0 d.instructions = d.instructions := congrArg Dockerfile.instructions hd0
  have hglob : globalArgs d.instructions = d.global_args := congrArg Dockerfile.global_args hd0
  obtain ⟨ss', hss', -⟩ := C12_partition (documentOf (a ++ b) (pre ++ post.map (·.remap m)))
  have hpost : (groups (post.map (·.remap m))).1 = [] := by rw [(groups_remap m post).1, q1]; rfl
  obtain ⟨k1, k2⟩ := C93_stages (A := fromsOf pre) (B := fromsOf mid) (C := fromsOf post) hss hss'
    (by rw [e, fromsOf_append, fromsOf_append])
    (by
      show (fromsOf (numberStages 0 _)).map fromKey = _
      rw [fromsOf_number, fromsOf_append, List.map_append, List.map_append, fromsOf_remap])
    (by rw [fromsOf_length]; exact hlo) (by rw [fromsOf_length, fromsOf_length]; exact hhi) hno
  -- the instructions of the stages
  have g : ss.map (·.instructions) = (groups pre).2 ++ ((groups mid).2 ++ (groups post).2) := by
    rw [groups_stages hss, e, (groups_append p1).2, (groups_append q1).2]
  have g' : ∀ i : Nat, (ss'[i]?).map (·.instructions) =
      (((groups pre).2 ++ (groups post).2.map (List.map (·.remap m)))[i]?).map (numberStages i) := by
    intro i
    have e1 := (groups_number (pre ++ post.map (·.remap m)) 0).2 i
    rw [(groups_append hpost).2, (groups_remap m post).2, Nat.zero_add] at e1
    rw [← List.getElem?_map, groups_stages hss']
    exact e1
  have g0 : ∀ i : Nat, (ss[i]?).map (·.instructions) = ((ss[i]?).map (·.instructions)).map (numberStages i) := by
    intro i
    have e1 := (groups_number d.instructions 0).2 i
    rw [hnum, ← groups_stages hss, List.getElem?_map, Nat.zero_add] at e1
    exact e1
  have l1 := groups_length pre
  have l2 := groups_length mid
  refine ⟨_, ss', h4, hss', ?_, k1, ?_, ?_⟩
  · show globalArgs _ = _
    rw [← hglob, globalArgs_groups (pre ++ _), (groups_append hpost).1, globalArgs_groups d.instructions, e,
      (groups_append p1).1]
  · intro i s hi' hsi
    obtain ⟨s', x1, x2, x3, x4, x5⟩ := k2 i s hsi (.inl hi')
    rw [if_pos hi'] at x1 x2
    have y := g' i
    rw [List.getElem?_append_left (by omega), x1] at y
    have z := congrArg (fun l => l[i]?) g
    simp only [List.getElem?_map] at z
    rw [List.getElem?_append_left (by omega)] at z
    have w := g0 i
    rw [← z, ← w, hsi] at y
    have y : s'.instructions = s.instructions := Option.some.inj y
    have i1 := (C13_index_name d ss hss i s hsi).1
    have x4' : outParent lo hi s.parent = s.parent := by
      cases hp : s.parent with
      | stage j =>
        have := (C14_parent_earlier d ss hss i j s hsi hp).1
        simp only [outParent, if_pos (show j < lo by omega)]
      | image r => rfl
      | scratch => rfl
    rw [x1]
    cases s; cases s'
    simp only at *
    simp only [x2, i1, x3, x4, x4', x5, y]
  · intro i s hi' hsi
    obtain ⟨s', x1, x2, x3, x4, x5⟩ := k2 i s hsi (.inr hi')
    rw [if_neg (by omega)] at x1 x2
    have y := g' (i - (hi - lo))
    rw [List.getElem?_append_right (by omega), List.getElem?_map, x1] at y
    have z := congrArg (fun l => l[i]?) g
    simp only [List.getElem?_map] at z
    rw [List.getElem?_append_right (by omega), List.getElem?_append_right (by omega), hsi] at z
    rw [show i - (hi - lo) - (groups pre).2.length = i - (groups pre).2.length - (groups mid).2.length by omega, ← z] at y
    have y : s'.instructions = numberStages (i - (hi - lo)) (s.instructions.map (·.remap m)) := Option.some.inj y
    rw [x1]
    cases s'
    simp only at *
    simp only [x2, x3, x4, x5, y]

theorem mem_fromsOf {is : List Instruction} {f : FromInstruction} (h : f ∈ fromsOf is) : .from f ∈ is := by
  unfold fromsOf at h
  obtain ⟨i, h1, h2⟩ := List.mem_filterMap.1 h
  cases i <;> cases h2
  exact h1

/-- a member of one list has a counterpart in the other -/
theorem keyed_mem {fs gs : List FromInstruction} (h : fs.map fromKey = gs.map fromKey) {f : FromInstruction}
    (hf : f ∈ fs) : ∃ g ∈ gs, SameFrom f g := by
  have : fromKey f ∈ gs.map fromKey := h ▸ List.mem_map_of_mem hf
  obtain ⟨g, h1, h2⟩ := List.mem_map.1 this
  exact ⟨g, h1, key_parts h2.symm⟩

/-- C93 (putting in): the text is `a ++ b`, `a` ends between two stages, or before the first or behind the last,
and `t` is a document that begins with a `FROM`.  None of its names is the image of a stage in `b`.  Then
the text `a ++ (t ++ b)` has the `n` stages of `t` in between, and the others stay. -/
theorem C93_insert {unq : Unquote} {a b t : Str} {d e : Dockerfile}
    (h : Dockerfile.parse unq (a ++ b) = .ok d) (ha : LineStart a b) (hs : Apart d (blen a))
    (h' : Dockerfile.parse unq t = .ok e) (ht : LineStart t b) (hd : ∀ i ∈ e.instructions, i.span.stop < blen t)
    (ha' : LineStart a (t ++ b)) (hu : ∀ d1, Dockerfile.parse unq a = .ok d1 → Undisturbed a (t ++ b) d1)
    (hu' : Undisturbed t b e)
    (c1 : StageCut d (blen a)) (c2 : ∀ i, e.instructions.head? = some i → isFrom i = true)
    (hfresh : ∀ f x g, .from f ∈ e.instructions → f.alias = some x → .from g ∈ d.instructions →
      blen a ≤ g.span.start → ¬ SameName x.content g.image.content)
    {ss ts : List Stage} (hss : d.stages = some ss) (hts : e.stages = some ts)
    {lo n : Nat} (hlo : lo = stagesBefore d (blen a)) (hn : n = ts.length) :
    ∃ d' ss', Dockerfile.parse unq (a ++ (t ++ b)) = .ok d' ∧ d'.stages = some ss' ∧
      d'.global_args = d.global_args ∧ ss'.length = ss.length + n ∧
      (∀ (i : Nat) (s : Stage), i < lo → ss[i]? = some s → ss'[i]? = some s) ∧
      (∀ (i : Nat) (s : Stage), ts[i]? = some s → (ss'[lo + i]?).map (·.instructions) =
        some (numberStages (lo + i) (s.instructions.map (·.remap (· + blen a))))) ∧
      ∀ (i : Nat) (s : Stage), lo ≤ i → ss[i]? = some s → ss'[i + n]? = some
        { index := i + n, name := s.name
          instructions := numberStages (i + n) (s.instructions.map (·.remap fun q => q - blen a + blen (a ++ t)))
          parent := inParent lo n s.parent, root := s.root } := by
  obtain ⟨pre, post, e1, h1, h2, h3⟩ := C71_insert h ha hs h' ht hd ha' hu hu'
  have hlt := span_forward h
  obtain ⟨p1, p2⟩ := stageCut_parts (k := blen a) hlt e1 h1 h2
  replace p1 := p1 c1
  rw [p2] at hlo
  generalize hm : (fun q => q - blen a + blen (a ++ t)) = m at h3 ⊢
  generalize hk : (· + blen a) = k at h3 ⊢
  have hd0 := documentOf_same h
  have hnum : numberStages 0 d.instructions = d.instructions := congrArg Dockerfile.instructions hd0
  have hglob : globalArgs d.instructions = d.global_args := congrArg Dockerfile.global_args hd0
  obtain ⟨ss', hss', -⟩ := C12_partition (documentOf (a ++ (t ++ b))
    (pre ++ (e.instructions.map (·.remap k) ++ post.map (·.remap m))))
  have hpost : (groups (post.map (·.remap m))).1 = [] := by rw [(groups_remap m post).1, p1]; rfl
  have he : (groups e.instructions).1 = [] := groups_first c2
  have hmid : (groups (e.instructions.map (·.remap k) ++ post.map (·.remap m))).1 = [] := by
    rw [(groups_append hpost).1, (groups_remap k _).1, he]
    rfl
  obtain ⟨m1, n1⟩ := numbered_before (js := pre) (ks := e.instructions.map (·.remap k) ++ post.map (·.remap m)) 0
  obtain ⟨m2, n2⟩ := numbered_before (js := e.instructions.map (·.remap k)) (ks := post.map (·.remap m)) m1
  rw [n2] at n1
  have kA : (fromsOf (numberStages 0 pre)).map fromKey = (fromsOf pre).map fromKey := fromsOf_number _ _
  have kB : (fromsOf (numberStages m1 (e.instructions.map (·.remap k)))).map fromKey = (fromsOf e.instructions).map fromKey := by
    rw [fromsOf_number, fromsOf_remap]
  have kC : (fromsOf (numberStages m2 (post.map (·.remap m)))).map fromKey = (fromsOf post).map fromKey := by
    rw [fromsOf_number, fromsOf_remap]
  have lA : (fromsOf (numberStages 0 pre)).length = lo := by
    have := congrArg List.length kA
    simp only [List.length_map] at this
    rw [this, fromsOf_length, hlo]
  have lB : (fromsOf (numberStages m1 (e.instructions.map (·.remap k)))).length = n := by
    have := congrArg List.length kB
    simp only [List.length_map] at this
    rw [this, hn, (stages_froms hts).1]
  have hfs : fromsOf (documentOf (a ++ (t ++ b))
      (pre ++ (e.instructions.map (·.remap k) ++ post.map (·.remap m)))).instructions =
      fromsOf (numberStages 0 pre) ++ (fromsOf (numberStages m1 (e.instructions.map (·.remap k))) ++
        fromsOf (numberStages m2 (post.map (·.remap m)))) := by
    show fromsOf (numberStages 0 _) = _
    rw [n1, fromsOf_append, fromsOf_append]
  have hno : ∀ (i j : Nat) (s : Stage), lo + n ≤ i → ss'[i]? = some s → s.parent = .stage j → j < lo ∨ lo + n ≤ j := by
    intro i j s hi hsi hp
    obtain ⟨-, hji, ⟨f, g, x, f1, g1, g2, g3⟩, -⟩ := ((parent_froms hss' hsi).2.1 j).1 hp
    by_cases c : j < lo ∨ lo + n ≤ j
    · exact c
    · exfalso
      rw [hfs, List.getElem?_append_right (by omega), List.getElem?_append_right (by omega)] at f1
      rw [hfs, List.getElem?_append_right (by omega), List.getElem?_append_left (by omega)] at g1
      obtain ⟨f', f3, f4⟩ := keyed_mem kC (List.mem_of_getElem? f1)
      obtain ⟨g', g4, g5⟩ := keyed_mem kB (List.mem_of_getElem? g1)
      have g6 := g5.2.2
      rw [g2] at g6
      cases hx : g'.alias with
      | none => rw [hx] at g6; cases g6
      | some y =>
        rw [hx] at g6
        have g6 : lower x.content = lower y.content := Option.some.inj g6
        have := mem_fromsOf f3
        refine hfresh g' y f' (mem_fromsOf g4) hx (by rw [e1]; simp [this]) (h2 _ this) ?_
        exact g6.symm.trans (g3.trans f4.1)
  obtain ⟨k1, k2⟩ := C93_stages hss' hss hfs
    (by rw [e1, fromsOf_append, List.map_append, List.map_append, kA, kC]) (lo := lo) (hi := lo + n) lA.symm
    (by rw [lA, lB]) hno
  -- the instructions of the stages
  have g : ss.map (·.instructions) = (groups pre).2 ++ (groups post).2 := by
    rw [groups_stages hss, e1, (groups_append p1).2]
  have g' : ∀ i : Nat, (ss'[i]?).map (·.instructions) =
      (((groups pre).2 ++ ((groups e.instructions).2.map (List.map (·.remap k)) ++
        (groups post).2.map (List.map (·.remap m))))[i]?).map (numberStages i) := by
    intro i
    have e2 := (groups_number (pre ++ (e.instructions.map (·.remap k) ++ post.map (·.remap m))) 0).2 i
    rw [(groups_append hmid).2, (groups_append hpost).2, (groups_remap m post).2, (groups_remap k _).2, Nat.zero_add] at e2
    rw [← List.getElem?_map, groups_stages hss']
    exact e2
  have g0 : ∀ i : Nat, (ss[i]?).map (·.instructions) = ((ss[i]?).map (·.instructions)).map (numberStages i) := by
    intro i
    have e2 := (groups_number d.instructions 0).2 i
    rw [hnum, ← groups_stages hss, List.getElem?_map, Nat.zero_add] at e2
    exact e2
  have l1 := groups_length pre
  have l2 : (groups e.instructions).2.length = n := by rw [← groups_stages hts, List.length_map, hn]
  have hlen : ss'.length = ss.length + n := by omega
  refine ⟨_, ss', h3, hss', ?_, hlen, ?_, ?_, ?_⟩
  · show globalArgs _ = _
    rw [← hglob, globalArgs_groups (pre ++ _), (groups_append hmid).1, globalArgs_groups d.instructions, e1,
      (groups_append p1).1]
  · intro i s hi' hsi
    obtain ⟨u, hu⟩ : ∃ u, ss'[i]? = some u :=
      ⟨_, List.getElem?_eq_getElem (by have := (List.getElem?_eq_some_iff.1 hsi).1; omega)⟩
    obtain ⟨s', x1, x2, x3, x4, x5⟩ := k2 i u hu (.inl hi')
    rw [if_pos hi'] at x1 x2
    rw [hsi] at x1
    cases x1
    have y := g' i
    rw [List.getElem?_append_left (by omega), hu] at y
    have z := congrArg (fun l => l[i]?) g
    simp only [List.getElem?_map] at z
    rw [List.getElem?_append_left (by omega)] at z
    have w := g0 i
    rw [← z, ← w, hsi] at y
    have y : u.instructions = s.instructions := Option.some.inj y
    have i1 := (C13_index_name _ ss' hss' i u hu).1
    have x4' : outParent lo (lo + n) u.parent = u.parent := by
      cases hp : u.parent with
      | stage j =>
        have := (C14_parent_earlier _ ss' hss' i j u hu hp).1
        simp only [outParent, if_pos (show j < lo by omega)]
      | image r => rfl
      | scratch => rfl
    rw [hu]
    cases s; cases u
    simp only at *
    simp only [x2, i1, x3, x4, x4', x5, y]
  · intro i s hsi
    have hi' := (List.getElem?_eq_some_iff.1 hsi).1
    rw [g' (lo + i), List.getElem?_append_right (by omega), List.getElem?_append_left (by rw [List.length_map]; omega),
      ← groups_stages hts]
    rw [show lo + i - (groups pre).2.length = i by omega]
    simp [hsi]
  · intro i s hi' hsi
    obtain ⟨u, hu⟩ : ∃ u, ss'[i + n]? = some u :=
      ⟨_, List.getElem?_eq_getElem (by have := (List.getElem?_eq_some_iff.1 hsi).1; omega)⟩
    obtain ⟨s', x1, x2, x3, x4, x5⟩ := k2 (i + n) u hu (.inr (by omega))
    rw [if_neg (by omega), show i + n - (lo + n - lo) = i by omega] at x1 x2
    rw [hsi] at x1
    cases x1
    have y := g' (i + n)
    rw [List.getElem?_append_right (by omega), List.getElem?_append_right (by rw [List.length_map]; omega),
      List.getElem?_map, hu, List.length_map] at y
    have z := congrArg (fun l => l[i]?) g
    simp only [List.getElem?_map] at z
    rw [List.getElem?_append_right (by omega), hsi] at z
    rw [show i + n - (groups pre).2.length - (groups e.instructions).2.length = i - (groups pre).2.length by omega, ← z] at y
    have y : u.instructions = numberStages (i + n) (s.instructions.map (·.remap m)) := Option.some.inj y
    have i1 := (C13_index_name _ ss' hss' (i + n) u hu).1
    have x4' : inParent lo n s.parent = u.parent := by
      rw [x4]
      cases hp : u.parent with
      | stage j =>
        have := hno _ j u (by omega) hu hp
        simp only [outParent, inParent]
        congr 1
        by_cases c : j < lo
        · rw [if_pos c, if_pos c]
        · rw [if_neg c, if_neg (by omega)]
          omega
      | image r => rfl
      | scratch => rfl
    rw [hu]
    cases u
    simp only at *
    simp only [i1, ← x3, ← x4', x5, y]

/-! ## examples -/

def pruneA : Str := c!"ARG v\nFROM x AS a\nRUN [\"p\"]\n"
def pruneT : Str := c!"# a test\nFROM A AS test\nCMD [\"t\"]\n"
def pruneB : Str := c!"FROM a AS b\nFROM B\nENV k=\"v\""

/-- the document of the example -/
def pruneDoc : Dockerfile :=
  match Dockerfile.parse Enquote.unquote (pruneA ++ (pruneT ++ pruneB)) with
  | .ok d => d
  | .error _ => ⟨[], [], []⟩

/-- the same without the stage `test` -/
def prunedDoc : Dockerfile :=
  match Dockerfile.parse Enquote.unquote (pruneA ++ pruneB) with
  | .ok d => d
  | .error _ => ⟨[], [], []⟩

/-- the stage `test` -/
def pruneTest : Dockerfile :=
  match Dockerfile.parse Enquote.unquote pruneT with
  | .ok d => d
  | .error _ => ⟨[], [], []⟩

def pruneStages : List Stage := pruneDoc.stages.getD []

theorem pruneDoc_parse : Dockerfile.parse Enquote.unquote (pruneA ++ (pruneT ++ pruneB)) = .ok pruneDoc := by
  decide +kernel

theorem prunedDoc_parse : Dockerfile.parse Enquote.unquote (pruneA ++ pruneB) = .ok prunedDoc := by
  decide +kernel

theorem pruneDoc_stages : pruneDoc.stages = some pruneStages := by decide +kernel

theorem pruneA_quiet (z : Str) (d1 : Dockerfile) (h1 : Dockerfile.parse Enquote.unquote pruneA = .ok d1) :
    Undisturbed pruneA z d1 := by
  have h2 : Dockerfile.parse Enquote.unquote pruneA = .ok (documentOf pruneA (pruneDoc.instructions.take 3)) := by
    decide +kernel
  cases h1.symm.trans h2
  exact undisturbed_quiet (by decide +kernel)

theorem pruneA_lines (z : Str) : LineStart pruneA z := .inr ⟨c!"ARG v\nFROM x AS a\nRUN [\"p\"]", ['\n'], rfl, .inl rfl⟩

theorem stageCut_of {d : Dockerfile} {k : Nat} (h : (d.instructions.find? (fun i => k ≤ i.span.start)).all isFrom = true) :
    StageCut d k := by
  intro i hi
  rw [hi] at h
  exact h

/- The stage `test` is taken out.  The last stage was built on number 2, and is then built on number 1. -/
example : ∃ d' ss', Dockerfile.parse Enquote.unquote (pruneA ++ pruneB) = .ok d' ∧ d'.stages = some ss' ∧
    d'.global_args = pruneDoc.global_args ∧ ss'.length + (2 - 1) = pruneStages.length := by
  obtain ⟨d', ss', h1, h2, h3, h4, -⟩ := C93_delete (unq := Enquote.unquote) (a := pruneA) (t := pruneT) (b := pruneB)
    (d := pruneDoc) pruneDoc_parse (pruneA_lines _) (by unfold Apart; decide +kernel)
    (.inr ⟨pruneA ++ c!"# a test\nFROM A AS test\nCMD [\"t\"]", ['\n'], rfl, .inl rfl⟩) (by unfold Apart; decide +kernel)
    (pruneA_lines _) (fun d1 h1 => pruneA_quiet _ d1 h1) (stageCut_of (by decide +kernel)) (stageCut_of (by decide +kernel))
    pruneDoc_stages (lo := 1) (hi := 2) (by decide +kernel) (by decide +kernel) (by
      intro i j s hi hs hp
      have e : pruneStages.map (·.parent) =
        [.image (ImageRef.parse c!"x"), .stage 0, .stage 0, .stage 2] := by decide +kernel
      have e2 : (pruneStages.map (·.parent))[i]? = some (.stage j) := by rw [List.getElem?_map, hs, ← hp]; rfl
      rw [e] at e2
      match i, e2 with
      | 0, e2 => cases e2
      | 1, _ => omega
      | 2, e2 => cases e2; exact .inl (by omega)
      | 3, e2 => cases e2; exact .inr (by omega)
      | n + 4, e2 => cases e2)
  exact ⟨d', ss', h1, h2, h3, h4⟩

/- The two documents, computed. -/
example : pruneStages.map (fun s => (s.name, s.parent, s.instructions.map (·.span))) =
      [(some c!"a", .image (ImageRef.parse c!"x"), [⟨6, 17⟩, ⟨18, 27⟩]), (some c!"test", .stage 0, [⟨37, 51⟩, ⟨52, 61⟩]),
        (some c!"b", .stage 0, [⟨62, 73⟩]), (none, .stage 2, [⟨74, 80⟩, ⟨81, 90⟩])] ∧
    (prunedDoc.stages.getD []).map (fun s => (s.name, s.parent, s.instructions.map (·.span))) =
      [(some c!"a", .image (ImageRef.parse c!"x"), [⟨6, 17⟩, ⟨18, 27⟩]),
        (some c!"b", .stage 0, [⟨28, 39⟩]), (none, .stage 1, [⟨40, 46⟩, ⟨47, 56⟩])] := by decide +kernel

/- And it is put in again. -/
example : ∃ d' ss', Dockerfile.parse Enquote.unquote (pruneA ++ (pruneT ++ pruneB)) = .ok d' ∧ d'.stages = some ss' ∧
    d'.global_args = prunedDoc.global_args ∧ ss'.length = (prunedDoc.stages.getD []).length + 1 := by
  obtain ⟨d', ss', h1, h2, h3, h4, -⟩ := C93_insert (unq := Enquote.unquote) (a := pruneA) (t := pruneT) (b := pruneB)
    (d := prunedDoc) (e := pruneTest) prunedDoc_parse (pruneA_lines _) (by unfold Apart; decide +kernel) (by decide +kernel)
    (.inr ⟨c!"# a test\nFROM A AS test\nCMD [\"t\"]", ['\n'], rfl, .inl rfl⟩) (by decide +kernel)
    (pruneA_lines _) (fun d1 h1 => pruneA_quiet _ d1 h1) (undisturbed_quiet (by decide +kernel))
    (stageCut_of (by decide +kernel)) (fun i hi => by
      have : pruneTest.instructions.head?.all isFrom = true := by decide +kernel
      rw [hi] at this
      exact this)
    (by
      have e : ∀ f ∈ fromsOf pruneTest.instructions, ∀ g ∈ fromsOf prunedDoc.instructions,
          (f.alias.map fun x => lower x.content) ≠ some (lower g.image.content) := by decide +kernel
      intro f x g hf hx hg _ hn
      refine e f ?_ g ?_ (by rw [hx]; exact congrArg some hn)
      · exact List.mem_filterMap.2 ⟨_, hf, rfl⟩
      · exact List.mem_filterMap.2 ⟨_, hg, rfl⟩)
    (ss := prunedDoc.stages.getD []) (ts := pruneTest.stages.getD []) (by decide +kernel) (by decide +kernel)
    (lo := 1) (n := 1) (by decide +kernel) (by decide +kernel)
  exact ⟨d', ss', h1, h2, h3, h4⟩

/-- C93 (the conditions): if a stage is taken out that another is built on, this one is then built on an image.
If a stage is put in whose name is the image of one behind it, this one is then built on that stage. -/
theorem C93_conditions :
    ((Dockerfile.parse Enquote.unquote c!"FROM x AS a\nFROM a\n").toOption.bind (·.stages)).map (·.map (·.parent)) =
      some [.image (ImageRef.parse c!"x"), .stage 0] ∧
    ((Dockerfile.parse Enquote.unquote c!"FROM a\n").toOption.bind (·.stages)).map (·.map (·.parent)) =
      some [.image (ImageRef.parse c!"a")] := by
  decide +kernel

end Verif
