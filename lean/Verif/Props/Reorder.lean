import Verif.Spec.Reorder
import Verif.Props.SettledStages
import Verif.Props.Faults

/-! # C106: stages put together in any order -/

namespace Verif
open Spec

theorem lineStart_any {t z : Str} (h : LineStart t []) (hz : ∀ r, z ≠ '\n' :: r) : LineStart t z := by
  rcases h with h | ⟨s, n, e, h⟩
  · exact .inl h
  · refine .inr ⟨s, n, e, ?_⟩
    rcases h with h | h | h
    · exact .inl h
    · exact .inr (.inl h)
    · exact .inr (.inr ⟨h.1, hz⟩)

theorem lineStart_app {a t : Str} (h : LineStart a []) (ht : LineStart t []) : LineStart (a ++ t) [] := by
  rcases ht with rfl | ⟨s, n, rfl, h⟩
  · rwa [List.append_nil]
  · exact .inr ⟨a ++ s, n, by simp, h⟩

/-- whole lines, one text behind the other -/
theorem lines_join {unq : Unquote} {a t : Str} {d e : Dockerfile} (h : Lines unq a d) (ht : Lines unq t e) (hf : ∀ r, t ≠ '\n' :: r) :
    Lines unq (a ++ t) (documentOf (a ++ t) (d.instructions ++ e.instructions.map (·.remap (· + blen a)))) := by
  obtain ⟨y1, y2⟩ := settled_join h.parsed ht.parsed (lineStart_any h.last hf) h.inside h.settled ht.settled
  refine ⟨y1, lineStart_app h.last ht.last, fun i hi => ?_, (settled_numbered 0).2 y2⟩
  obtain ⟨x, hx, e⟩ := of_numbered hi
  rw [← e, blen_append]
  rcases List.mem_append.1 hx with hx | hx
  · have := h.inside x hx; omega
  · obtain ⟨y, hy, rfl⟩ := List.mem_map.1 hx
    have := ht.inside y hy
    rw [Instruction.remap_span]
    show y.span.stop + _ < _
    omega

/-- the groups of a document put together from a first text and those of stages -/
theorem groups_parts {unq : Unquote} (ts : List Str) : ∀ {a : Str} {da : Dockerfile}, Lines unq a da →
    (∀ t ∈ ts, ∃ dt, StageText unq t dt) →
    ∃ d, Lines unq (a ++ ts.flatten) d ∧ (groups d.instructions).1 = (groups da.instructions).1 ∧
      (groups d.instructions).2.length = (groups da.instructions).2.length + ts.length ∧
      (∀ i, i < (groups da.instructions).2.length → (groups d.instructions).2[i]? = (groups da.instructions).2[i]?) ∧
      ∀ k t dt, ts[k]? = some t → Dockerfile.parse unq t = .ok dt →
        (groups d.instructions).2[(groups da.instructions).2.length + k]? =
          some (numberStages ((groups da.instructions).2.length + k) (dt.instructions.map (·.remap (· + stageAt a ts k)))) := by
  induction ts with
  | nil =>
    intro a da h _
    refine ⟨da, by simpa using h, rfl, rfl, fun _ _ => rfl, fun k t dt hk => by cases hk⟩
  | cons t ts ih =>
    intro a da h hts
    obtain ⟨dt, ht⟩ := hts t (by simp)
    have hj := lines_join h ht.toLines ht.first
    obtain ⟨d, g1, g2, g3, g4, g5⟩ := ih hj fun u hu => hts u (by simp [hu])
    -- the groups of the first two parts
    obtain ⟨f, is, ei, his⟩ := ht.one
    have hgt : groups dt.instructions = ([], [dt.instructions]) := by
      rw [ei, groups, if_pos (by rfl)]
      obtain ⟨o1, o2⟩ := groups_other (is := []) his
      rw [List.append_nil] at o1 o2
      rw [o1, o2]
      simp [groups]
    have hgm := groups_remap (· + blen a) dt.instructions
    rw [hgt] at hgm
    obtain ⟨ga1, ga2⟩ := groups_append (as := da.instructions) (bs := dt.instructions.map (·.remap (· + blen a))) hgm.1
    rw [hgm.2] at ga2
    obtain ⟨gn1, gn2⟩ := groups_number (da.instructions ++ dt.instructions.map (·.remap (· + blen a))) 0
    have gn1 : (groups (documentOf (a ++ t) (da.instructions ++ dt.instructions.map (·.remap (· + blen a)))).instructions).1 =
      (groups da.instructions).1 := gn1.trans ga1
    have gn2 : ∀ i : Nat, (groups (documentOf (a ++ t) (da.instructions ++ dt.instructions.map (·.remap (· + blen a)))).instructions).2[i]? =
      (((groups da.instructions).2 ++ [dt.instructions.map (·.remap (· + blen a))])[i]?).map (numberStages i) := fun i => by
        have := gn2 i
        rw [ga2, Nat.zero_add] at this
        exact this
    have gl : (groups (documentOf (a ++ t) (da.instructions ++ dt.instructions.map (·.remap (· + blen a)))).instructions).2.length =
        (groups da.instructions).2.length + 1 := by
      rw [groups_length, groups_length]
      show (numberStages 0 _).countP isFrom = _
      rw [← fromsOf_length, ← List.length_map (f := fromKey), fromsOf_number, List.length_map, fromsOf_length, List.countP_append,
        ← groups_length (dt.instructions.map _), hgm.2]
      rfl
    -- the first document is numbered
    have hnum : ∀ i : Nat, ((groups da.instructions).2[i]?).map (numberStages i) = (groups da.instructions).2[i]? := fun i => by
      have := (groups_number da.instructions 0).2 i
      rw [congrArg Dockerfile.instructions (documentOf_same h.parsed) |> (fun e => (e : numberStages 0 da.instructions = _)), Nat.zero_add] at this
      exact this.symm
    rw [gl] at g3 g4 g5
    refine ⟨d, by simpa using g1, g2.trans gn1, by simp only [List.length_cons]; omega, fun i hi => ?_, fun k u du hk hu => ?_⟩
    · rw [g4 i (by omega), gn2, List.getElem?_append_left hi, hnum]
    · cases k with
      | zero =>
        cases hk
        cases ht.parsed.symm.trans hu
        rw [g4 _ (by omega), gn2, Nat.add_zero, List.getElem?_append_right (Nat.le_refl _), Nat.sub_self]
        simp [stageAt]
      | succ k =>
        have := g5 k u du hk hu
        rw [show (groups da.instructions).2.length + 1 + k = (groups da.instructions).2.length + (k + 1) by omega] at this
        rw [this]
        simp [stageAt]

/-- C106 (putting together): the lines before the first stage, and the texts of stages, each of which is accepted on its own and
leaves nothing open.  Together they are accepted, leave nothing open, have the global arguments of the first, and one stage for each
text, with the instructions of that text, moved. -/
theorem C106_together {unq : Unquote} {a : Str} {da : Dockerfile} {ts : List Str} (ha : HeadText unq a da)
    (hts : ∀ t ∈ ts, ∃ dt, StageText unq t dt) :
    ∃ d ss, Lines unq (a ++ ts.flatten) d ∧ d.global_args = da.global_args ∧ d.stages = some ss ∧ ss.length = ts.length ∧
      ∀ k t dt, ts[k]? = some t → Dockerfile.parse unq t = .ok dt → (ss[k]?).map (·.instructions) =
        some (numberStages k (dt.instructions.map (·.remap (· + stageAt a ts k)))) := by
  obtain ⟨d, g1, g2, g3, g4, g5⟩ := groups_parts ts ha.toLines hts
  obtain ⟨ss, hss, -⟩ := C12_partition d
  have hl : (groups da.instructions).2 = [] := by
    have := (groups_other (is := []) ha.none).1
    rwa [List.append_nil] at this
  rw [hl] at g3 g5
  have hg := groups_stages hss
  refine ⟨d, ss, g1, ?_, hss, ?_, fun k t dt hk ht => ?_⟩
  · rw [← congrArg Dockerfile.global_args (documentOf_same g1.parsed), ← congrArg Dockerfile.global_args (documentOf_same ha.parsed)]
    show globalArgs _ = globalArgs _
    rw [globalArgs_groups d.instructions, g2, ← globalArgs_groups]
  · rw [← List.length_map (f := (·.instructions)), hg, g3]
    simp
  · have := g5 k t dt hk ht
    rw [← hg, List.getElem?_map] at this
    simpa using this

/-- C106 (the stages): the `FROM`s of `d'` are those of `d` in another order, in which those that refer to one another are as before.
Then the stages are the same, with the new numbers. -/
theorem C106_stages {d d' : Dockerfile} {ss ss' : List Stage} (h : d.stages = some ss) (h' : d'.stages = some ss')
    (hl : ss'.length = ss.length) {σ τ : Nat → Nat} (hσ : Reorders ss.length σ τ)
    (hf : ∀ i, i < ss.length → ((fromsOf d'.instructions)[σ i]?).map fromKey = ((fromsOf d.instructions)[i]?).map fromKey)
    (hk : KeepsOrder (fromsOf d.instructions) σ) :
    ∀ (i : Nat) (s : Stage), ss[i]? = some s → ∃ s', ss'[σ i]? = some s' ∧ s'.index = σ i ∧ s'.name = s.name ∧
      s'.parent = newParent σ s.parent ∧ s'.root = s.root := by
  have lf := (stages_froms h).1
  have lf' := (stages_froms h').1
  have inj : ∀ i j, i < ss.length → j < ss.length → σ i = σ j → i = j := fun i j hi hj e => by
    have := (hσ i hi).2.1
    rw [e, (hσ j hj).2.1] at this
    exact this.symm
  intro i
  induction i using Nat.strongRecOn with
  | _ i ih =>
    intro s hs
    have hi := (List.getElem?_eq_some_iff.1 hs).1
    obtain ⟨s', hs'⟩ : ∃ s', ss'[σ i]? = some s' := ⟨_, List.getElem?_eq_getElem (by have := (hσ i hi).1; omega)⟩
    have hg := hf i hi
    obtain ⟨a1, a2, a3⟩ := parent_froms h hs
    obtain ⟨b1, b2, b3⟩ := parent_froms h' hs'
    have hR : ∀ j, j < ss.length → (Refers (fromsOf d'.instructions) (σ i) (σ j) ↔ Refers (fromsOf d.instructions) i j) := fun j hj =>
      ⟨refers_at hg (hf j hj), refers_at hg.symm (hf j hj).symm⟩
    have hS : FromScratch (fromsOf d'.instructions) (σ i) ↔ FromScratch (fromsOf d.instructions) i :=
      ⟨scratch_at hg, scratch_at hg.symm⟩
    have hname : s'.name = s.name := by
      obtain ⟨-, f, f1, f2⟩ := C13_index_name d ss h _ s hs
      obtain ⟨-, g, g1, g2⟩ := C13_index_name d' ss' h' _ s' hs'
      obtain ⟨f0, f3, f4⟩ := (stages_froms h).2 _ s hs
      obtain ⟨g0, g3, g4⟩ := (stages_froms h').2 _ s' hs'
      have e1 : f0 = f := by
        unfold OpenedBy at f1 f4
        rw [f1] at f4
        cases f4
        rfl
      have e2 : g0 = g := by
        unfold OpenedBy at g1 g4
        rw [g1] at g4
        cases g4
        rfl
      subst e1 e2
      rw [f3, g3] at hg
      have := (key_parts (Option.some.inj hg)).2.2
      rw [f2, g2]
      cases c1 : f0.alias <;> cases c2 : g0.alias <;> rw [c1, c2] at this <;> simp at this ⊢
      exact this
    refine ⟨s', hs', (C13_index_name d' ss' h' _ _ hs').1, hname, ?_⟩
    -- a reference in the new order
    have back : ∀ l, l < σ i → Refers (fromsOf d'.instructions) (σ i) l →
        ∃ k, l = σ k ∧ k < i ∧ Refers (fromsOf d.instructions) i k := by
      intro l hl' hr
      have hln : l < ss.length := by have := (hσ i hi).1; omega
      obtain ⟨-, -, t1, t2⟩ := hσ l hln
      rw [← t2] at hr hl'
      have hr' := (hR _ t1).1 hr
      refine ⟨τ l, t2.symm, ?_, hr'⟩
      exact (hk.1 i (τ l) (fun e => by rw [← e] at hl'; omega) hr').2 hl'
    cases hp : s.parent with
    | scratch =>
      have e := b1.2 (hS.2 (a1.1 hp))
      refine ⟨e, ?_⟩
      rw [root_base h hs (by simp [hp]), root_base h' hs' (by simp [e]), e, hp]
    | stage j =>
      obtain ⟨c1, c2, c3, c4⟩ := (a2 j).1 hp
      have hjs : j < ss.length := by omega
      have e : s'.parent = .stage (σ j) := (b2 _).2 ⟨fun c => c1 (hS.1 c), (hk.1 i j (by omega) c3).1 c2, (hR j hjs).2 c3, fun l hl' hr => by
        have := (hk.1 i j (by omega) c3).1 c2
        obtain ⟨k, rfl, k1, k2⟩ := back l (by omega) hr
        rcases Nat.lt_trichotomy k j with c | c | c
        · exact c4 k c k2
        · subst c; omega
        · have := hk.2 i j k c3 k2 c; omega⟩
      refine ⟨e, ?_⟩
      obtain ⟨u, hu⟩ : ∃ u, ss[j]? = some u := ⟨_, List.getElem?_eq_getElem hjs⟩
      obtain ⟨u', hu', -, -, -, hr⟩ := ih j c2 u hu
      rw [root_link h hs hu hp, root_link h' hs' hu' e]
      exact hr
    | image r =>
      obtain ⟨⟨f, c1, c2⟩, c3, c4⟩ := (a3 r).1 hp
      obtain ⟨g, g1, g2⟩ := keyed_same hg.symm c1
      have e : s'.parent = .image r := (b3 r).2 ⟨⟨g, g1, c2.trans g2.2.1⟩, fun c => c3 (hS.1 c), fun l hl' hr => by
        obtain ⟨k, rfl, k1, k2⟩ := back l hl' hr
        exact c4 k k1 k2⟩
      refine ⟨e, ?_⟩
      rw [root_base h hs (by simp [hp]), root_base h' hs' (by simp [e]), e, hp]

theorem fromKey_head {s : Stage} {dt : Dockerfile} {n : Nat} {m : Nat → Nat} {f g : FromInstruction} {is : List Instruction}
    (ho : OpenedBy s f) (hs : s.instructions = numberStages n (dt.instructions.map (·.remap m))) (hd : dt.instructions = .from g :: is) :
    fromKey f = fromKey g := by
  unfold OpenedBy at ho
  rw [hs, hd] at ho
  cases ho
  simp [fromKey, FromInstruction.remap, SpannedString.remap, Function.comp_def]

/-- C106 (another order): the texts of the stages put together in another order, in which two stages are as before if the image of one
is the name of the other, or if both have the name that is the image of a third one.  Both documents are accepted, with the same
global arguments, and the stages are the same, with the new numbers: name, instructions (moved), the stage or image that it
is built on, and root. -/
theorem C106_order {unq : Unquote} {a : Str} {da : Dockerfile} {ts ts' : List Str} (ha : HeadText unq a da)
    (hts : ∀ t ∈ ts, ∃ dt, StageText unq t dt) (hl : ts'.length = ts.length) {σ τ : Nat → Nat} (hσ : Reorders ts.length σ τ)
    (ht' : ∀ k, k < ts.length → ts'[σ k]? = ts[k]?) {d : Dockerfile} (h : Dockerfile.parse unq (a ++ ts.flatten) = .ok d)
    (hk : KeepsOrder (fromsOf d.instructions) σ) {ss : List Stage} (hss : d.stages = some ss) :
    ∃ d' ss', Lines unq (a ++ ts'.flatten) d' ∧ d'.global_args = d.global_args ∧ d'.stages = some ss' ∧ ss'.length = ss.length ∧
      ∀ (k : Nat) (s : Stage), ss[k]? = some s → ss'[σ k]? = some
        { index := σ k, name := s.name
          instructions := numberStages (σ k) (s.instructions.map (·.remap fun q => q - stageAt a ts k + stageAt a ts' (σ k)))
          parent := newParent σ s.parent, root := s.root } := by
  have hts' : ∀ t ∈ ts', ∃ dt, StageText unq t dt := by
    intro t ht
    obtain ⟨l, hll, e⟩ := List.mem_iff_getElem.1 ht
    obtain ⟨-, -, t1, t2⟩ := hσ l (by omega)
    have := ht' (τ l) t1
    rw [t2, List.getElem?_eq_getElem hll, e] at this
    exact hts t (List.mem_of_getElem? this.symm)
  obtain ⟨d0, ss0, g1, g2, g3, g4, g5⟩ := C106_together ha hts
  cases g1.parsed.symm.trans h
  cases g3.symm.trans hss
  obtain ⟨d', ss', k1, k2, k3, k4, k5⟩ := C106_together ha hts'
  have hlen : ss'.length = ss.length := by omega
  -- the texts of a stage and its counterpart
  have pair : ∀ k, k < ss.length → ∃ (dt : Dockerfile) (f : FromInstruction) (is : List Instruction) (s s' : Stage), dt.instructions = .from f :: is ∧ ss[k]? = some s ∧ ss'[σ k]? = some s' ∧
      s.instructions = numberStages k (dt.instructions.map (·.remap (· + stageAt a ts k))) ∧
      s'.instructions = numberStages (σ k) (dt.instructions.map (·.remap (· + stageAt a ts' (σ k)))) := by
    intro k hk'
    obtain ⟨t, ht⟩ : ∃ t, ts[k]? = some t := ⟨_, List.getElem?_eq_getElem (by omega)⟩
    obtain ⟨dt, hdt⟩ := hts t (List.mem_of_getElem? ht)
    obtain ⟨f, is, ei, -⟩ := hdt.one
    have e1 := g5 k t dt ht hdt.parsed
    have e2 := k5 (σ k) t dt (by rw [ht' k (by omega), ht]) hdt.parsed
    obtain ⟨s, x1, x2⟩ := Option.map_eq_some_iff.1 e1
    obtain ⟨s', y1, y2⟩ := Option.map_eq_some_iff.1 e2
    exact ⟨dt, f, is, s, s', ei, x1, y1, x2, y2⟩
  have st := C106_stages hss k3 hlen (σ := σ) (τ := τ) (by rw [g4]; exact hσ) (fun k hk' => by
    obtain ⟨dt, f, is, s, s', ei, x1, y1, x2, y2⟩ := pair k hk'
    obtain ⟨f0, f1, f2⟩ := (stages_froms hss).2 _ s x1
    obtain ⟨f3, f4, f5⟩ := (stages_froms k3).2 _ s' y1
    rw [f1, f4, Option.map_some, Option.map_some, fromKey_head f2 x2 ei, fromKey_head f5 y2 ei]) hk
  refine ⟨d', ss', k1, k2.trans g2.symm, k3, hlen, fun k s hs => ?_⟩
  obtain ⟨dt, f, is, s1, s', ei, x1, y1, x2, y2⟩ := pair k (List.getElem?_eq_some_iff.1 hs).1
  cases x1.symm.trans hs
  obtain ⟨s2, z1, z2, z3, z4, z5⟩ := st k s hs
  cases z1.symm.trans y1
  rw [y1]
  have : s'.instructions = numberStages (σ k) (s.instructions.map (·.remap fun q => q - stageAt a ts k + stageAt a ts' (σ k))) := by
    rw [y2, x2, ← Src.numberStages_remap, List.map_map]
    have e : ∀ i : Instruction, (Instruction.remap (fun q => q - stageAt a ts k + stageAt a ts' (σ k)) ∘ Instruction.remap (· + stageAt a ts k)) i =
        i.remap (· + stageAt a ts' (σ k)) := fun i => by
      rw [Function.comp, Instruction.remap_remap]
      refine congrArg (Instruction.remap · i) (funext fun q => ?_)
      simp only [Function.comp]
      omega
    rw [List.map_congr_left fun i _ => e i]
    have := numberStages_app_right [] (dt.instructions.map (·.remap (· + stageAt a ts' (σ k)))) (σ k) k
    simpa using this.symm
  cases s'
  simp only at *
  simp only [z2, z3, z4, z5, this]

theorem last_from : ∀ {is : List Instruction} {n : Nat}, is.countP isFrom = n + 1 →
    ∃ pre f post, is = pre ++ .from f :: post ∧ (∀ i ∈ post, isFrom i = false) ∧ pre.countP isFrom = n := by
  intro is
  induction is with
  | nil => intro n h; cases h
  | cons i is ih =>
    intro n h
    by_cases h0 : is.countP isFrom = 0
    · rw [List.countP_cons, h0] at h
      split at h
      · rename_i hi
        cases i <;> first | (cases hi; done) | skip
        case «from» f =>
          exact ⟨[], f, is, rfl, fun i hi => by have := List.countP_eq_zero.1 h0 i hi; simpa using this, by simp; omega⟩
      · omega
    · obtain ⟨m, hm⟩ := Nat.exists_eq_succ_of_ne_zero h0
      obtain ⟨pre, f, post, e, h1, h2⟩ := ih hm
      refine ⟨i :: pre, f, post, by rw [e]; rfl, h1, ?_⟩
      rw [List.countP_cons] at h ⊢
      omega

theorem split_eq {α : Type} {P : α → Bool} {as bs cs ds : List α} (h : as ++ bs = cs ++ ds) (ha : ∀ x ∈ as, P x = true)
    (hb : ∀ x ∈ bs, P x = false) (hc : ∀ x ∈ cs, P x = true) (hd : ∀ x ∈ ds, P x = false) : as = cs ∧ bs = ds := by
  have e := congrArg (List.filter P) h
  rw [List.filter_append, List.filter_append, List.filter_eq_self.2 ha, List.filter_eq_self.2 hc,
    List.filter_eq_nil_iff.2 fun x hx => by simp [hb x hx], List.filter_eq_nil_iff.2 fun x hx => by simp [hd x hx],
    List.append_nil, List.append_nil] at e
  subst e
  exact ⟨rfl, List.append_cancel_left h⟩

/-- what an instruction is, and where -/
def kindAt (i : Instruction) : Bool × Span := (isFrom i, i.span)

theorem kindAt_number (is : List Instruction) : ∀ n, (numberStages n is).map kindAt = is.map kindAt := by
  induction is with
  | nil => intro n; rfl
  | cons i is ih => intro n; cases i <;> simp [numberStages, ih, kindAt, isFrom, Instruction.span]

/-- C106 (taking apart): a text that leaves nothing open, all of whose instructions end before its last line break, is put together
in this way, of the lines before its first stage and one text for each stage. -/
theorem C106_apart {unq : Unquote} {s : Str} {d : Dockerfile} (h : Lines unq s d) :
    ∃ (a : Str) (da : Dockerfile) (ts : List Str), s = a ++ ts.flatten ∧ HeadText unq a da ∧ ∀ t ∈ ts, ∃ dt, StageText unq t dt := by
  generalize hn : d.instructions.countP isFrom = n
  induction n generalizing s d with
  | zero =>
    exact ⟨s, d, [], by simp, ⟨h, fun i hi => by have := List.countP_eq_zero.1 hn i hi; simpa using this⟩, fun _ ht => by cases ht⟩
  | succ n ih =>
    obtain ⟨pre, f, post, e, hpost, hpre⟩ := last_from hn
    obtain ⟨ps, l, ms, js, x, ks, m, es, g1, g2, g3, g4, g5, g6, g7⟩ := place h.parsed e
    obtain ⟨a, ea⟩ : ∃ a, a = Src.preText ps := ⟨_, rfl⟩
    obtain ⟨z, ez⟩ : ∃ z, z = Src.docText l ms := ⟨_, rfl⟩
    rw [← ea, ← ez] at es
    have hls : LineStart a z := by rw [ea, ez]; exact pre_lineStart ps g1
    have hsp := Src.pre_spans ps 0 js g1 g3
    rw [← ea, Nat.zero_add] at hsp
    have hf := numbered_head g7
    rw [(Src.item_at g5).1, ← ea] at hf
    have hlen : ∀ i ∈ d.instructions, i ∈ pre ∧ i.span.stop < blen a ∨ i ∈ .from f :: post ∧ blen a ≤ i.span.start := by
      intro i hi
      rw [e] at hi
      rcases List.mem_append.1 hi with hi | hi
      · refine .inl ⟨hi, ?_⟩
        rw [g4] at hi
        obtain ⟨y, hy, ey⟩ := of_numbered hi
        rw [← ey]
        exact hsp y hy
      · refine .inr ⟨hi, ?_⟩
        rcases List.mem_cons.1 hi with rfl | hj
        · rw [hf]
          exact Nat.le_add_right _ _
        · obtain ⟨p1, p2, rfl⟩ := List.append_of_mem hj
          have := (C05_instructions_in_order unq s d h.parsed pre p1 p2 (.from f) i e).1
          rw [hf] at this
          simp only at this
          omega
    have hap : Apart d (blen a) := fun i hi => (hlen i hi).imp And.right And.right
    have hp := h.parsed
    have hset := h.settled
    rw [es] at hp hset
    obtain ⟨d1, d2, p1, p2, b1, ed, s1, s2⟩ := settled_split hp hls hap hset
    have hk : d1.instructions.map kindAt ++ (d2.instructions.map (·.remap (· + blen a))).map kindAt =
        pre.map kindAt ++ (Instruction.from f :: post).map kindAt := by
      rw [← List.map_append, ← List.map_append, ← e, ed]
      exact (kindAt_number _ 0).symm
    have hmem : ∀ i ∈ pre ++ .from f :: post, i ∈ d.instructions := fun i hi => by rw [e]; exact hi
    obtain ⟨k1, k2⟩ := split_eq (P := fun k => decide (k.2.stop < blen a)) hk
      (fun k hk => by
        obtain ⟨i, hi, rfl⟩ := List.mem_map.1 hk
        exact decide_eq_true (b1 i hi))
      (fun k hk => by
        obtain ⟨i, hi, rfl⟩ := List.mem_map.1 hk
        obtain ⟨j, hj, rfl⟩ := List.mem_map.1 hi
        refine decide_eq_false ?_
        show ¬ (Instruction.remap _ j).span.stop < _
        rw [Instruction.remap_span]
        exact Nat.not_lt.2 (Nat.le_add_left _ _))
      (fun k hk => by
        obtain ⟨i, hi, rfl⟩ := List.mem_map.1 hk
        refine decide_eq_true ?_
        rw [g4] at hi
        obtain ⟨y, hy, ey⟩ := of_numbered hi
        show i.span.stop < _
        rw [← ey]
        exact hsp y hy)
      (fun k hk => by
        obtain ⟨i, hi, rfl⟩ := List.mem_map.1 hk
        refine decide_eq_false ?_
        show ¬ i.span.stop < _
        have hi' := hmem i (by simp at hi ⊢; exact .inr hi)
        rcases List.mem_cons.1 hi with rfl | hj
        · rw [hf]
          simp only
          omega
        · obtain ⟨q1, q2, rfl⟩ := List.append_of_mem hj
          have := (C05_instructions_in_order unq s d h.parsed pre q1 q2 (.from f) i e).1
          rw [hf] at this
          simp only at this
          have hle := span_forward h.parsed i hi'
          omega)
    -- the text of the last stage does not start with a newline
    have hfirst : ∀ r, z ≠ '\n' :: r := by
      intro r er
      obtain ⟨kb, kt⟩ : Blanks l.indent ∧ ∃ r', l.item.Fits r' := by
        cases ms with
        | nil => exact ⟨g2.1, _, g2.2.1⟩
        | cons m ms => exact ⟨g2.1.1, _, g2.1.2.1⟩
      rw [ez, Src.docText_line] at er
      cases hi : l.indent with
      | nil =>
        rw [hi] at er
        obtain ⟨r', kt⟩ := kt
        rcases Src.item_letter kt with c | ⟨c, hc⟩ | ⟨c, t, hc, ha⟩
        · rw [c] at g5; cases g5
        · rw [hc] at g5; cases g5
        · rw [hc] at er
          obtain ⟨rfl, -⟩ := List.cons.inj er
          exact absurd ha (by unfold IsAlpha; decide)
      | cons c w =>
        rw [hi] at er kb
        obtain ⟨rfl, -⟩ := List.cons.inj er
        exact absurd (kb '\n' (by simp)) (by decide)
    have hz : z ≠ [] := by
      rintro rfl
      have h0 : 0 < blen (Src.docText l ms) := by
        have := span_forward h.parsed (.from f) (hmem _ (by simp))
        rw [hf] at this
        rw [Src.docText_line]
        simp only [blen_append] at this ⊢
        omega
      rw [← ez] at h0
      exact absurd h0 (by decide)
    have hlz : LineStart z [] := by
      rcases h.last with c | ⟨s0, n, c, hb⟩
      · rw [es] at c
        exact absurd (List.append_eq_nil_iff.1 c).2 hz
      · rw [es] at c
        rcases List.append_eq_append_iff.1 c with ⟨r, c1, c2⟩ | ⟨r, c1, c2⟩
        · exact .inr ⟨r, n, c2, hb⟩
        · -- the line break is (the end of) the text
          rcases hb with rfl | rfl | ⟨rfl, -⟩
          · cases r with
            | nil => exact .inr ⟨[], _, c2.symm, .inl rfl⟩
            | cons b r =>
              obtain ⟨-, c3⟩ := List.cons.inj c2
              exact absurd (List.append_eq_nil_iff.1 c3.symm).2 hz
          · cases r with
            | nil => exact .inr ⟨[], _, c2.symm, .inr (.inl rfl)⟩
            | cons b r =>
              obtain ⟨-, c3⟩ := List.cons.inj c2
              cases r with
              | nil => exact absurd c3.symm (hfirst [])
              | cons b r =>
                obtain ⟨-, c4⟩ := List.cons.inj c3
                exact absurd (List.append_eq_nil_iff.1 c4.symm).2 hz
          · cases r with
            | nil => exact .inr ⟨[], _, c2.symm, .inr (.inr ⟨rfl, fun _ => by simp⟩)⟩
            | cons b r =>
              obtain ⟨-, c3⟩ := List.cons.inj c2
              exact absurd (List.append_eq_nil_iff.1 c3.symm).2 hz
    have hla : LineStart a [] := by
      rcases hls with c | ⟨s0, n, c, hb⟩
      · exact .inl c
      · exact .inr ⟨s0, n, c, by
          rcases hb with c | c | c
          · exact .inl c
          · exact .inr (.inl c)
          · exact .inr (.inr ⟨c.1, fun _ => by simp⟩)⟩
    have hcount : d1.instructions.countP isFrom = n := by
      have : ∀ is : List Instruction, is.countP isFrom = (is.map kindAt).countP (·.1) := fun is => by
        rw [List.countP_map]
        rfl
      rw [this, k1, ← this, hpre]
    obtain ⟨a', da, ts, e1, e2, e3⟩ := ih ⟨p1, hla, b1, s1⟩ hcount
    refine ⟨a', da, ts ++ [z], by rw [es, e1]; simp, e2, fun t ht => ?_⟩
    rcases List.mem_append.1 ht with ht | ht
    · exact e3 t ht
    · cases List.mem_singleton.1 ht
      refine ⟨d2, ⟨p2, hlz, fun i hi => ?_, s2⟩, hfirst, ?_⟩
      · -- inside
        have hm : (Instruction.remap (· + blen a) i) ∈ d1.instructions ++ d2.instructions.map (·.remap (· + blen a)) :=
          List.mem_append_right _ (List.mem_map.2 ⟨i, hi, rfl⟩)
        have : kindAt (Instruction.remap (· + blen a) i) ∈ d.instructions.map kindAt := by
          rw [ed]
          show _ ∈ (numberStages 0 _).map kindAt
          rw [kindAt_number]
          exact List.mem_map.2 ⟨_, hm, rfl⟩
        obtain ⟨j, hj, ej⟩ := List.mem_map.1 this
        have hjs := h.inside j hj
        have e5 : j.span = (Instruction.remap (· + blen a) i).span := congrArg Prod.snd ej
        rw [e5, Instruction.remap_span, es, blen_append] at hjs
        have hjs : i.span.stop + blen a < blen a + blen z := hjs
        omega
      · have k3 := congrArg (List.map Prod.fst) k2
        simp only [List.map_map] at k3
        have rf : ∀ i : Instruction, isFrom (i.remap (· + blen a)) = isFrom i := fun i => by cases i <;> rfl
        cases hd2 : d2.instructions with
        | nil => rw [hd2] at k3; cases k3
        | cons i is =>
          rw [hd2] at k3
          obtain ⟨k4, k5⟩ := List.cons.inj k3
          have k4 : isFrom (i.remap (· + blen a)) = true := k4
          rw [rf] at k4
          have hg : ∃ g, i = .from g := by
            cases i <;> first | exact ⟨_, rfl⟩ | (cases k4; done)
          obtain ⟨g, rfl⟩ := hg
          · refine ⟨g, is, rfl, fun i hi => ?_⟩
            have : isFrom (i.remap (· + blen a)) ∈ List.map (Prod.fst ∘ kindAt) post := by
              rw [← k5]
              exact List.mem_map.2 ⟨i, hi, rfl⟩
            obtain ⟨j, hj, ej⟩ := List.mem_map.1 this
            rw [← rf, ← ej]
            exact hpost j hj

/-! ## examples -/

/-- for examples: the checks on the text of a stage, or of what comes before -/
def linesCheck (t : Str) : Bool :=
  match Dockerfile.parse Enquote.unquote t with
  | .ok d => t.getLast? == some '\n' && d.instructions.all (fun i => decide (i.span.stop < blen t)) && settledCheck t d.instructions
  | .error _ => false

theorem lines_check {t : Str} (h : linesCheck t = true) : ∃ d, Dockerfile.parse Enquote.unquote t = .ok d ∧ Lines Enquote.unquote t d := by
  unfold linesCheck at h
  split at h
  · rename_i d hd
    simp only [Bool.and_eq_true] at h
    obtain ⟨⟨h1, h2⟩, h3⟩ := h
    refine ⟨d, hd, hd, .inr ?_, fun i hi => of_decide_eq_true (List.all_eq_true.1 h2 i hi), settled_check h3⟩
    obtain ⟨w, e⟩ := List.getLast?_eq_some_iff.1 (beq_iff_eq.1 h1)
    exact ⟨w, ['\n'], e, .inl rfl⟩
  · cases h

def stageCheck (t : Str) : Bool :=
  linesCheck t && t.head? != some '\n' && match Dockerfile.parse Enquote.unquote t with
    | .ok d => (match d.instructions with | .from _ :: is => is.all (fun i => !isFrom i) | _ => false)
    | .error _ => false

theorem stage_check {t : Str} (h : stageCheck t = true) : ∃ d, StageText Enquote.unquote t d := by
  unfold stageCheck at h
  simp only [Bool.and_eq_true] at h
  obtain ⟨⟨h1, h2⟩, h3⟩ := h
  obtain ⟨d, hd, hl⟩ := lines_check h1
  rw [hd] at h3
  refine ⟨d, hl, fun r e => by rw [e] at h2; simp at h2, ?_⟩
  simp only at h3
  split at h3
  · rename_i f is e
    exact ⟨f, is, e, fun i hi => by have := List.all_eq_true.1 h3 i hi; simpa using this⟩
  · cases h3

def headCheck (t : Str) : Bool :=
  linesCheck t && match Dockerfile.parse Enquote.unquote t with
    | .ok d => d.instructions.all (fun i => !isFrom i)
    | .error _ => false

theorem head_check {t : Str} (h : headCheck t = true) : ∃ d, HeadText Enquote.unquote t d := by
  unfold headCheck at h
  rw [Bool.and_eq_true] at h
  obtain ⟨d, hd, hl⟩ := lines_check h.1
  have h2 := h.2
  rw [hd] at h2
  exact ⟨d, hl, fun i hi => by have := List.all_eq_true.1 h2 i hi; simpa using this⟩

def refersB (fs : List FromInstruction) (i j : Nat) : Bool :=
  match fs[i]?, fs[j]? with
  | some f, some g => match g.alias with | some a => decide (lower a.content = lower f.image.content) | none => false
  | _, _ => false

theorem refers_check {fs : List FromInstruction} {i j : Nat} (h : Refers fs i j) : i < fs.length ∧ j < fs.length ∧ refersB fs i j = true := by
  obtain ⟨f, g, a, h1, h2, h3, h4⟩ := h
  refine ⟨(List.getElem?_eq_some_iff.1 h1).1, (List.getElem?_eq_some_iff.1 h2).1, ?_⟩
  simp only [refersB, h1, h2, h3]
  exact decide_eq_true h4

def keepsB (fs : List FromInstruction) (σ : Nat → Nat) : Bool :=
  (List.range fs.length).all fun i => (List.range fs.length).all fun j => !refersB fs i j ||
    ((decide (i = j) || decide (j < i ↔ σ j < σ i)) &&
      (List.range fs.length).all fun k => !refersB fs i k || decide (j < k → σ j < σ k))

theorem keeps_check {fs : List FromInstruction} {σ : Nat → Nat} (h : keepsB fs σ = true) : KeepsOrder fs σ := by
  have key : ∀ i j, Refers fs i j → (i ≠ j → (j < i ↔ σ j < σ i)) ∧ ∀ k, Refers fs i k → j < k → σ j < σ k := by
    intro i j hr
    obtain ⟨h1, h2, h3⟩ := refers_check hr
    have := List.all_eq_true.1 (List.all_eq_true.1 h i (List.mem_range.2 h1)) j (List.mem_range.2 h2)
    simp only [h3, Bool.not_true, Bool.false_or, Bool.and_eq_true, Bool.or_eq_true, decide_eq_true_eq] at this
    refine ⟨fun hij => this.1.resolve_left hij, fun k hk => ?_⟩
    obtain ⟨-, k2, k3⟩ := refers_check hk
    have := List.all_eq_true.1 this.2 k (List.mem_range.2 k2)
    simp only [k3, Bool.not_true, Bool.false_or, decide_eq_true_eq] at this
    exact this
  exact ⟨fun i j hij hr => (key i j hr).1 hij, fun i j k hj hk => (key i j hj).2 k hk⟩

def orderA : Str := c!"ARG q=\"'\"\n"
def orderTs : List Str := [c!"# one\nFROM x AS a\nRUN '\n", c!"FROM y AS b\n", c!"FROM A AS c\nENV k=\"]\" l='m'\n", c!"FROM b\n"]
/-- the second stage comes first -/
def orderS : Nat → Nat
  | 0 => 1
  | 1 => 0
  | n => n

theorem orderS_reorders : Reorders 4 orderS orderS := by
  unfold Reorders; decide

/-- The stages `a` and `b` change places; `c` is still built on `a`, which now is stage 1, and the last stage on `b`. -/
example : ∃ d d' ss ss', Dockerfile.parse Enquote.unquote (orderA ++ orderTs.flatten) = .ok d ∧ d.stages = some ss ∧
    Lines Enquote.unquote (orderA ++ [c!"FROM y AS b\n", c!"# one\nFROM x AS a\nRUN '\n", c!"FROM A AS c\nENV k=\"]\" l='m'\n", c!"FROM b\n"].flatten) d' ∧
    d'.stages = some ss' ∧ ss.map (·.parent) = [.image (ImageRef.parse c!"x"), .image (ImageRef.parse c!"y"), .stage 0, .stage 1] ∧
    ∀ s, ss[2]? = some s → ∃ s', ss'[2]? = some s' ∧ s'.parent = .stage 1 ∧ s'.root = s.root := by
  obtain ⟨da, ha⟩ := head_check (t := orderA) (by decide +kernel)
  have hts : ∀ t ∈ orderTs, ∃ dt, StageText Enquote.unquote t dt := fun t ht =>
    stage_check ((by decide +kernel : ∀ t ∈ orderTs, stageCheck t = true) t ht)
  obtain ⟨d, ss, h1, -, h2, -⟩ := C106_together ha hts
  have hp : ss.map (·.parent) = [.image (ImageRef.parse c!"x"), .image (ImageRef.parse c!"y"), .stage 0, .stage 1] := by
    have : ((Dockerfile.parse Enquote.unquote (orderA ++ orderTs.flatten)).toOption.bind (·.stages)).map (·.map (·.parent)) =
      some [.image (ImageRef.parse c!"x"), .image (ImageRef.parse c!"y"), .stage 0, .stage 1] := by decide +kernel
    rw [h1.parsed] at this
    simp only [Except.toOption, Option.bind_some, h2, Option.map_some] at this
    exact Option.some.inj this
  have hk : KeepsOrder (fromsOf d.instructions) orderS := by
    have : (match Dockerfile.parse Enquote.unquote (orderA ++ orderTs.flatten) with
      | .ok d => keepsB (fromsOf d.instructions) orderS
      | .error _ => false) = true := by decide +kernel
    rw [h1.parsed] at this
    exact keeps_check this
  obtain ⟨d', ss', g1, -, g2, -, g3⟩ := C106_order ha hts
    (ts' := [c!"FROM y AS b\n", c!"# one\nFROM x AS a\nRUN '\n", c!"FROM A AS c\nENV k=\"]\" l='m'\n", c!"FROM b\n"]) rfl
    orderS_reorders (by decide) h1.parsed hk h2
  refine ⟨d, d', ss, ss', h1.parsed, h2, g1, g2, hp, fun s hs => ⟨_, g3 2 s hs, ?_, rfl⟩⟩
  have : (ss.map (·.parent))[2]? = some s.parent := by rw [List.getElem?_map, hs]; rfl
  rw [hp] at this
  show newParent _ s.parent = _
  rw [← Option.some.inj this]
  rfl

/-- It is taken apart again. -/
example : ∃ (a : Str) (da : Dockerfile) (ts : List Str), orderA ++ orderTs.flatten = a ++ ts.flatten ∧ HeadText Enquote.unquote a da ∧
    ∀ t ∈ ts, ∃ dt, StageText Enquote.unquote t dt := by
  obtain ⟨d, -, h⟩ := lines_check (t := orderA ++ orderTs.flatten) (by decide +kernel)
  exact C106_apart h

/-- C106 (the conditions are needed): a stage that comes before the one whose name is its image is built on an image; so is one that
comes behind a new stage with its image as name built on that; of two stages with the same name the first one counts; and without a
line break at the end the texts run together. -/
theorem C106_needed :
    ((Dockerfile.parse Enquote.unquote (c!"FROM x AS a\n" ++ c!"FROM a\n")).toOption.bind (·.stages)).map (·.map (·.parent)) =
      some [.image (ImageRef.parse c!"x"), .stage 0] ∧
    ((Dockerfile.parse Enquote.unquote (c!"FROM a\n" ++ c!"FROM x AS a\n")).toOption.bind (·.stages)).map (·.map (·.parent)) =
      some [.image (ImageRef.parse c!"a"), .image (ImageRef.parse c!"x")] ∧
    ((Dockerfile.parse Enquote.unquote (c!"FROM x AS a\n" ++ c!"FROM y AS a\n" ++ c!"FROM a\n")).toOption.bind (·.stages)).map
        (·.map (·.root)) = some [.image (ImageRef.parse c!"x"), .image (ImageRef.parse c!"y"), .image (ImageRef.parse c!"x")] ∧
    ((Dockerfile.parse Enquote.unquote (c!"FROM y AS a\n" ++ c!"FROM x AS a\n" ++ c!"FROM a\n")).toOption.bind (·.stages)).map
        (·.map (·.root)) = some [.image (ImageRef.parse c!"y"), .image (ImageRef.parse c!"x"), .image (ImageRef.parse c!"y")] ∧
    ((Dockerfile.parse Enquote.unquote (c!"FROM x\nRUN b" ++ c!"FROM y\n")).toOption.bind (·.stages)).map (·.map (·.parent)) =
      some [.image (ImageRef.parse c!"x")] := by
  decide +kernel

end Verif
