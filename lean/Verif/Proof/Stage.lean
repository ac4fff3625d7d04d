import Verif.Spec.Stage
import Verif.Proof.Str

/-! Helper lemmas for the stage properties. -/

namespace Verif
open Spec

theorem lowerChar_idem (c : Char) : lowerChar (lowerChar c) = lowerChar c := by
  by_cases h : 'A' ≤ c ∧ c ≤ 'Z'
  · have h1 : 65 ≤ c.toNat ∧ c.toNat ≤ 90 := ⟨h.1, h.2⟩
    have e : ∀ n, 65 ≤ n → n ≤ 90 → lowerChar (Char.ofNat (n + 32)) = Char.ofNat (n + 32) := by
      intro n a b
      have : ∀ m, m < 26 → lowerChar (Char.ofNat (m + 65 + 32)) = Char.ofNat (m + 65 + 32) := by
        decide +kernel
      have h := this (n - 65) (by omega)
      rw [show n - 65 + 65 = n by omega] at h
      exact h
    have e2 : lowerChar c = Char.ofNat (c.toNat + 32) := by simp [lowerChar, h]
    rw [e2, e c.toNat h1.1 h1.2]
  · simp [lowerChar, h]

theorem lower_idem (s : Str) : lower (lower s) = lower s := by
  simp [lower, lowerChar_idem]

/-- a `FROM` and the instructions up to the next one -/
abbrev Seg := FromInstruction × List Instruction

def Seg.list (x : Seg) : List Instruction := .from x.1 :: x.2

theorem segments_exist (is : List Instruction) :
    ∃ (pre : List Instruction) (segs : List Seg), is = pre ++ segs.flatMap Seg.list ∧
      (∀ i ∈ pre, isFrom i = false) ∧ (∀ x ∈ segs, ∀ i ∈ x.2, isFrom i = false) := by
  induction is with
  | nil => exact ⟨[], [], rfl, by simp, by simp⟩
  | cons i is ih =>
    obtain ⟨pre, segs, h1, h2, h3⟩ := ih
    cases hi : isFrom i with
    | false =>
      refine ⟨i :: pre, segs, by rw [h1]; rfl, ?_, h3⟩
      intro x hx
      simp at hx
      rcases hx with rfl | hx
      · exact hi
      · exact h2 x hx
    | true =>
      cases i <;> simp [isFrom] at hi
      rename_i f
      refine ⟨[], (f, pre) :: segs, by rw [h1]; simp [Seg.list], by simp, ?_⟩
      intro x hx
      simp at hx
      rcases hx with rfl | hx
      · exact h2
      · exact h3 x hx

def stageOf (ss : List Stage) (x : Seg) (root : StageParent) : Stage :=
  { index := ss.length, name := x.1.alias.map (fun a => lower a.content),
    instructions := Seg.list x, parent := parentOf ss x.1, root }

/-- the stages built segment by segment -/
def build : List Stage → List Seg → Option (List Stage)
  | ss, [] => some ss
  | ss, x :: xs =>
    match rootOf ss (parentOf ss x.1) with
    | none => none
    | some root => build (ss ++ [stageOf ss x root]) xs

theorem pushLast_concat (ins : Instruction) (ss : List Stage) (s : Stage) :
    pushLast ins (ss ++ [s]) = ss ++ [{ s with instructions := s.instructions ++ [ins] }] := by
  induction ss with
  | nil => rfl
  | cons x xs ih =>
    cases xs with
    | nil => rfl
    | cons y ys => simp only [List.cons_append, pushLast] at ih ⊢; rw [ih]

theorem stagesLoop_other (ins : Instruction) (rest : List Instruction) (ss : List Stage) (n : Nat)
    (h : isFrom ins = false) :
    stagesLoop (ins :: rest) ss n = stagesLoop rest (pushLast ins ss) n := by
  cases ins <;> first | rfl | (simp [isFrom] at h)

theorem stagesLoop_push (l more : List Instruction) (ss : List Stage) (s : Stage) (n : Nat)
    (h : ∀ i ∈ l, isFrom i = false) :
    stagesLoop (l ++ more) (ss ++ [s]) n =
      stagesLoop more (ss ++ [{ s with instructions := s.instructions ++ l }]) n := by
  induction l generalizing s with
  | nil => simp
  | cons i l ih =>
    rw [List.cons_append, stagesLoop_other i _ _ _ (h i (by simp)), pushLast_concat,
      ih _ (fun x hx => h x (by simp [hx]))]
    simp

theorem stagesLoop_pre (l more : List Instruction) (n : Nat) (h : ∀ i ∈ l, isFrom i = false) :
    stagesLoop (l ++ more) [] n = stagesLoop more [] n := by
  induction l with
  | nil => rfl
  | cons i l ih =>
    rw [List.cons_append, stagesLoop_other i _ _ _ (h i (by simp))]
    exact ih (fun x hx => h x (by simp [hx]))

theorem stagesLoop_build (segs : List Seg) (ss : List Stage)
    (h : ∀ x ∈ segs, ∀ i ∈ x.2, isFrom i = false) :
    stagesLoop (segs.flatMap Seg.list) ss ss.length = build ss segs := by
  induction segs generalizing ss with
  | nil => rfl
  | cons x segs ih =>
    simp only [List.flatMap_cons, Seg.list, List.cons_append, stagesLoop, build]
    cases hr : rootOf ss (parentOf ss x.1) with
    | none => rfl
    | some root =>
      simp only
      rw [stagesLoop_push _ _ _ _ _ (h x (by simp))]
      rw [← ih _ (fun y hy => h y (by simp [hy]))]
      simp [stageOf, Seg.list]

/-- Everything that holds of a stage, in terms of the list it is in. -/
structure StageOk (ss : List Stage) (i : Nat) (s : Stage) (x : Seg) : Prop where
  index : s.index = i
  instructions : s.instructions = Seg.list x
  name : s.name = x.1.alias.map (fun a => lower a.content)
  parent : s.parent = parentOf (ss.take i) x.1
  root : rootOf (ss.take i) s.parent = some s.root

/-- the invariant: the stages so far correspond to the segments so far -/
structure BuildInv (ss : List Stage) (done : List Seg) : Prop where
  len : ss.length = done.length
  ok : ∀ i s x, ss[i]? = some s → done[i]? = some x → StageOk ss i s x

theorem BuildInv.step {ss : List Stage} {done : List Seg} (h : BuildInv ss done) (x : Seg)
    (root : StageParent) (hr : rootOf ss (parentOf ss x.1) = some root) :
    BuildInv (ss ++ [stageOf ss x root]) (done ++ [x]) := by
  refine ⟨by simp [h.len], ?_⟩
  intro i s y hs hy
  by_cases hi : i < ss.length
  · rw [List.getElem?_append_left hi] at hs
    rw [List.getElem?_append_left (by rw [← h.len]; exact hi)] at hy
    have := h.ok i s y hs hy
    have ht : (ss ++ [stageOf ss x root]).take i = ss.take i := by
      rw [List.take_append_of_le_length (by omega)]
    exact ⟨this.index, this.instructions, this.name, by rw [ht]; exact this.parent,
      by rw [ht]; exact this.root⟩
  · have hlen : i = ss.length := by
      have := (List.getElem?_eq_some_iff.mp hs).1
      simp at this; omega
    subst hlen
    rw [List.getElem?_append_right (by omega)] at hs
    rw [List.getElem?_append_right (by rw [h.len]; omega), h.len] at hy
    simp at hs hy
    subst hs hy
    have ht : (ss ++ [stageOf ss x root]).take ss.length = ss := by simp
    exact ⟨rfl, rfl, rfl, by rw [ht]; rfl, by rw [ht]; exact hr⟩

theorem getByName_some {ss : List Stage} {n : Str} {t : Stage} (h : getByName ss n = some t) :
    ∃ j, ss[j]? = some t ∧ t.name = some (lower n) ∧
      ∀ (k : Nat) (u : Stage), k < j → ss[k]? = some u → u.name ≠ some (lower n) := by
  unfold getByName at h
  obtain ⟨hp, l1, l2, rfl, hb⟩ := List.find?_eq_some_iff_append.mp h
  refine ⟨l1.length, by simp, by simpa using hp, ?_⟩
  intro k u hk hu
  rw [List.getElem?_append_left hk] at hu
  have := hb u (List.mem_of_getElem? hu)
  simpa using this

theorem getByName_none {ss : List Stage} {n : Str} (h : getByName ss n = none) :
    ∀ (k : Nat) (u : Stage), ss[k]? = some u → u.name ≠ some (lower n) := by
  intro k u hu
  unfold getByName at h
  rw [List.find?_eq_none] at h
  simpa using h u (List.mem_of_getElem? hu)

theorem BuildInv.root_total {ss : List Stage} {done : List Seg} (h : BuildInv ss done)
    (f : FromInstruction) : ∃ r, rootOf ss (parentOf ss f) = some r := by
  unfold parentOf
  dsimp only
  split
  · exact ⟨_, rfl⟩
  · cases hg : getByName ss (lower f.image.content) with
    | none => exact ⟨_, rfl⟩
    | some t =>
      obtain ⟨j, hj, -, -⟩ := getByName_some hg
      have hlt := (List.getElem?_eq_some_iff.mp hj).1
      have hd : done[j]? = some (done[j]'(by rw [← h.len]; exact hlt)) :=
        List.getElem?_eq_getElem _
      have := (h.ok j t _ hj hd).index
      simp [rootOf, this, hj]

theorem build_inv (segs done : List Seg) (ss : List Stage) (h : BuildInv ss done) :
    ∃ ss', build ss segs = some ss' ∧ BuildInv ss' (done ++ segs) := by
  induction segs generalizing ss done with
  | nil => exact ⟨ss, rfl, by simpa using h⟩
  | cons x segs ih =>
    obtain ⟨r, hr⟩ := h.root_total x.1
    obtain ⟨ss', h1, h2⟩ := ih (done ++ [x]) _ (h.step x r hr)
    refine ⟨ss', ?_, by simpa using h2⟩
    simp only [build, hr]
    exact h1

/-- The stages of any instruction list: segments, and the invariant. -/
theorem stages_inv (d : Dockerfile) :
    ∃ (pre : List Instruction) (segs : List Seg) (ss : List Stage),
      d.instructions = pre ++ segs.flatMap Seg.list ∧
      (∀ i ∈ pre, isFrom i = false) ∧ (∀ x ∈ segs, ∀ i ∈ x.2, isFrom i = false) ∧
      d.stages = some ss ∧ BuildInv ss segs := by
  obtain ⟨pre, segs, h1, h2, h3⟩ := segments_exist d.instructions
  obtain ⟨ss, h4, h5⟩ := build_inv segs [] [] ⟨rfl, by simp⟩
  refine ⟨pre, segs, ss, h1, h2, h3, ?_, by simpa using h5⟩
  unfold Dockerfile.stages
  rw [h1, stagesLoop_pre _ _ _ h2]
  have := stagesLoop_build segs [] h3
  simp only [List.length_nil] at this
  rw [this, h4]

theorem BuildInv.get {ss : List Stage} {segs : List Seg} (h : BuildInv ss segs) {i : Nat}
    {s : Stage} (hs : ss[i]? = some s) : ∃ x, segs[i]? = some x ∧ StageOk ss i s x := by
  have hlt := (List.getElem?_eq_some_iff.mp hs).1
  have hd : segs[i]? = some (segs[i]'(by rw [← h.len]; exact hlt)) := List.getElem?_eq_getElem _
  exact ⟨_, hd, h.ok i s _ hs hd⟩

theorem BuildInv.aliased_iff {ss : List Stage} {segs : List Seg} (h : BuildInv ss segs) {i : Nat}
    {s : Stage} (hs : ss[i]? = some s) (n : Str) : Aliased s n ↔ s.name = some (lower n) := by
  obtain ⟨x, -, ok⟩ := h.get hs
  constructor
  · rintro ⟨f, a, h1, h2, h3⟩
    unfold OpenedBy at h1
    rw [ok.instructions] at h1
    simp [Seg.list] at h1
    subst h1
    rw [ok.name, h2]
    exact congrArg some h3
  · intro hn
    rw [ok.name] at hn
    cases ha : x.1.alias with
    | none => rw [ha] at hn; cases hn
    | some a =>
      rw [ha] at hn
      simp at hn
      exact ⟨x.1, a, by simp [OpenedBy, ok.instructions, Seg.list], ha, hn⟩

theorem digitChar (k : Fin 10) : '0' ≤ Char.ofNat (48 + k.val) ∧ Char.ofNat (48 + k.val) ≤ '9' ∧
    (Char.ofNat (48 + k.val)).toNat - 48 = k.val ∧ Char.ofNat (48 + k.val) ≠ '+' := by
  revert k; decide +kernel

theorem digit_of_char (c : Char) (h : '0' ≤ c ∧ c ≤ '9') :
    ∃ k : Fin 10, c = Char.ofNat (48 + k.val) := by
  have h1 : 48 ≤ c.toNat ∧ c.toNat ≤ 57 := h
  refine ⟨⟨c.toNat - 48, by omega⟩, ?_⟩
  show c = Char.ofNat (48 + (c.toNat - 48))
  rw [show 48 + (c.toNat - 48) = c.toNat by omega, Char.ofNat_toNat]

theorem decDigits_iff (s : Str) (acc n : Nat) :
    decDigits acc s = some n ↔
      ∃ ds : List (Fin 10), s = ds.map (fun k => Char.ofNat (48 + k.val)) ∧
        n = ds.foldl (fun a k => a * 10 + k.val) acc := by
  induction s generalizing acc with
  | nil =>
    simp only [decDigits, Option.some.injEq]
    constructor
    · rintro rfl; exact ⟨[], rfl, rfl⟩
    · rintro ⟨ds, h, rfl⟩
      cases ds with
      | nil => rfl
      | cons => simp at h
  | cons c cs ih =>
    simp only [decDigits]
    split
    · rename_i hc
      rw [ih]
      obtain ⟨k, rfl⟩ := digit_of_char c hc
      constructor
      · rintro ⟨ds, rfl, rfl⟩
        exact ⟨k :: ds, rfl, by rw [(digitChar k).2.2.1]; rfl⟩
      · rintro ⟨ds, h, rfl⟩
        cases ds with
        | nil => simp at h
        | cons k' ds =>
          simp only [List.map_cons, List.cons.injEq] at h
          obtain ⟨h1, h2⟩ := h
          refine ⟨ds, h2, ?_⟩
          rw [h1, (digitChar k').2.2.1]; rfl
    · rename_i hc
      simp only [reduceCtorEq, false_iff]
      rintro ⟨ds, h, -⟩
      cases ds with
      | nil => simp at h
      | cons k ds =>
        simp only [List.map_cons, List.cons.injEq] at h
        rw [h.1] at hc
        exact hc ⟨(digitChar k).1, (digitChar k).2.1⟩

theorem parseUsize_iff (s : Str) (n : Nat) :
    parseUsize s = some n ↔ Spec.Numeral s n ∧ n < 2 ^ 64 := by
  have hs : ∀ ds : List (Fin 10), ds ≠ [] →
      (stripPlus s = ds.map (fun k => Char.ofNat (48 + k.val)) ↔
        s = ds.map (fun k => Char.ofNat (48 + k.val)) ∨
        s = '+' :: ds.map (fun k => Char.ofNat (48 + k.val))) := by
    intro ds hne
    cases ds with
    | nil => exact absurd rfl hne
    | cons k ks =>
      cases s with
      | nil => simp [stripPlus]
      | cons c cs =>
        simp only [stripPlus]
        split
        · rename_i hc
          subst hc
          simp only [List.map_cons, List.cons.injEq, true_and]
          constructor
          · exact Or.inr
          · rintro (h | h)
            · exact absurd h.1.symm (digitChar k).2.2.2
            · exact h
        · rename_i hc
          simp [hc]
  unfold parseUsize
  split
  · rename_i h0
    simp only [reduceCtorEq, false_iff]
    rintro ⟨⟨es, h1, h2, -⟩, -⟩
    rw [← hs es h1, h0] at h2
    cases es with
    | nil => exact h1 rfl
    | cons => simp at h2
  · rename_i h0
    cases hd : decDigits 0 (stripPlus s) with
    | none =>
      simp only [reduceCtorEq, false_iff]
      rintro ⟨⟨es, h1, h2, h3⟩, -⟩
      rw [← hs es h1] at h2
      have := (decDigits_iff (stripPlus s) 0 n).mpr ⟨es, h2, h3⟩
      rw [hd] at this; cases this
    | some m =>
      simp only
      obtain ⟨es, h1, h2⟩ := (decDigits_iff (stripPlus s) 0 m).mp hd
      have hne : es ≠ [] := by
        rintro rfl
        exact h0 h1
      constructor
      · intro h
        by_cases hm : m < 2 ^ 64
        · rw [if_pos hm] at h
          cases h
          exact ⟨⟨es, hne, (hs es hne).mp h1, h2⟩, hm⟩
        · rw [if_neg hm] at h
          cases h
      · rintro ⟨⟨fs, h3, h4, h5⟩, h6⟩
        rw [← hs fs h3] at h4
        have := (decDigits_iff (stripPlus s) 0 n).mpr ⟨fs, h4, h5⟩
        rw [hd] at this; cases this
        rw [if_pos h6]

theorem argIndexFrom_some (name : Str) (b : Nat) (is : List Instruction) (i : Nat) :
    argIndexFrom name b is = some i ↔
      b ≤ i ∧ (∃ a, is[i - b]? = some (.arg a) ∧ a.name.content = name) ∧
      ∀ k a, k < i - b → is[k]? = some (.arg a) → a.name.content ≠ name := by
  induction is generalizing b with
  | nil => simp [argIndexFrom]
  | cons x xs ih =>
    have shift : (argIndexFrom name (b + 1) xs = some i ∧
          ∀ a, x = .arg a → a.name.content ≠ name) ↔
        (b ≤ i ∧ (∃ a, (x :: xs)[i - b]? = some (.arg a) ∧ a.name.content = name) ∧
          ∀ k a, k < i - b → (x :: xs)[k]? = some (.arg a) → a.name.content ≠ name) ∧
        ∀ a, x = .arg a → a.name.content ≠ name := by
      rw [ih]
      constructor
      · rintro ⟨⟨h1, h2, h3⟩, h4⟩
        refine ⟨⟨by omega, ?_, ?_⟩, h4⟩
        · rw [show i - b = (i - (b + 1)) + 1 by omega, List.getElem?_cons_succ]; exact h2
        · intro k a hk hka
          cases k with
          | zero => simp at hka; exact h4 a hka
          | succ k => rw [List.getElem?_cons_succ] at hka; exact h3 k a (by omega) hka
      · rintro ⟨⟨h1, ⟨a, h2, h2'⟩, h3⟩, h4⟩
        have hb : b + 1 ≤ i := by
          rcases Nat.lt_or_ge b i with h | h
          · exact h
          · have : i - b = 0 := by omega
            rw [this] at h2
            simp at h2
            exact absurd h2' (h4 a h2)
        refine ⟨⟨hb, ⟨a, ?_, h2'⟩, ?_⟩, h4⟩
        · rw [show i - b = (i - (b + 1)) + 1 by omega, List.getElem?_cons_succ] at h2; exact h2
        · intro k a hk hka
          exact h3 (k + 1) a (by omega) (by rw [List.getElem?_cons_succ]; exact hka)
    by_cases hx : ∃ a, x = .arg a ∧ a.name.content = name
    · obtain ⟨a, rfl, ha⟩ := hx
      simp only [argIndexFrom, ha, if_true, Option.some.injEq]
      constructor
      · rintro rfl
        refine ⟨Nat.le_refl _, ⟨a, by simp, ha⟩, by omega⟩
      · rintro ⟨h1, -, h3⟩
        apply Classical.byContradiction
        intro hne
        exact h3 0 a (by omega) (by simp) ha
    · have hx' : ∀ a, x = .arg a → a.name.content ≠ name := fun a h1 h2 => hx ⟨a, h1, h2⟩
      have hstep : argIndexFrom name b (x :: xs) = argIndexFrom name (b + 1) xs := by
        cases x with
        | arg a => simp [argIndexFrom, hx' a rfl]
        | _ => rfl
      rw [hstep]
      constructor
      · intro h; exact (shift.mp ⟨h, hx'⟩).1
      · intro h; exact (shift.mpr ⟨h, hx'⟩).1

end Verif
