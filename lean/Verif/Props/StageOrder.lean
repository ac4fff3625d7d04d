import Verif.Props.Stage
import Verif.Props.Image
import Verif.Props.Parse
import Verif.Model.Enquote

/-! # Comparing, printing and looking up stages (C63) -/

namespace Verif
open Spec

/-! ## comparing -/

/-- C63 (equality): two stages of a document are equal for `==` only if they are the same stage. -/
theorem C63_eq (d : Dockerfile) (ss : List Stage) (h : d.stages = some ss) (i j : Nat) (s t : Stage)
    (hs : ss[i]? = some s) (ht : ss[j]? = some t) :
    (s.eq t = true ↔ i = j) ∧ (s.eq t = true → s = t) := by
  have h1 := (C13_index_name d ss h i s hs).1
  have h2 := (C13_index_name d ss h j t ht).1
  have key : s.eq t = true ↔ i = j := by simp [Stage.eq, h1, h2]
  refine ⟨key, fun e => ?_⟩
  have := key.1 e
  subst this
  rw [hs] at ht
  cases ht
  rfl

/-- C63 (order): the order of the stages of a document is that of their places, so the list of
stages is strictly ascending; and `stages[i]` is the stage with index `i`, or a panic. -/
theorem C63_order (d : Dockerfile) (ss : List Stage) (h : d.stages = some ss) :
    (∀ (i j : Nat) (s t : Stage), ss[i]? = some s → ss[j]? = some t → s.cmp t = compare i j) ∧
    ss.Pairwise (fun s t => s.cmp t = .lt) ∧
    (∀ i, (∀ s, stagesIndex ss i = some s ↔ s ∈ ss ∧ s.index = i) ∧
      (stagesIndex ss i = none ↔ ss.length ≤ i)) := by
  have key : ∀ (i j : Nat) (s t : Stage), ss[i]? = some s → ss[j]? = some t → s.cmp t = compare i j := by
    intro i j s t hs ht
    rw [Stage.cmp, (C13_index_name d ss h i s hs).1, (C13_index_name d ss h j t ht).1]
  refine ⟨key, ?_, fun i => ⟨fun s => ?_, ?_⟩⟩
  · rw [List.pairwise_iff_getElem]
    intro i j hi hj hij
    rw [key i j _ _ (List.getElem?_eq_getElem hi) (List.getElem?_eq_getElem hj)]
    exact Nat.compare_eq_lt.2 hij
  · constructor
    · intro hs
      exact ⟨List.mem_of_getElem? hs, (C13_index_name d ss h i s hs).1⟩
    · rintro ⟨hs, rfl⟩
      obtain ⟨j, hj⟩ := List.mem_iff_getElem?.1 hs
      rw [(C13_index_name d ss h j s hj).1]
      exact hj
  · exact List.getElem?_eq_none_iff

/-- C63 (laws): for all stages, also of different documents: `cmp` is a total order, `==` and
`partial_cmp` agree with it, `==` is an equivalence. -/
theorem C63_laws (s t u : Stage) :
    (s.eq t = true ↔ s.cmp t = .eq) ∧ s.partialCmp t = some (s.cmp t) ∧
    s.eq s = true ∧ (s.eq t = true → t.eq s = true) ∧
    (s.eq t = true → t.eq u = true → s.eq u = true) ∧
    t.cmp s = (s.cmp t).swap ∧ (s.cmp t = .lt → t.cmp u = .lt → s.cmp u = .lt) ∧
    (s.eq t = true → s.cmp u = t.cmp u) := by
  refine ⟨?_, rfl, by simp [Stage.eq], ?_, ?_, ?_, ?_, ?_⟩
  · simp [Stage.eq, Stage.cmp]
  · simp only [Stage.eq, beq_iff_eq]
    exact Eq.symm
  · simp only [Stage.eq, beq_iff_eq]
    exact Eq.trans
  · exact (Nat.compare_swap s.index t.index).symm
  · simp only [Stage.cmp, Nat.compare_eq_lt]
    omega
  · simp only [Stage.eq, beq_iff_eq, Stage.cmp]
    intro e
    rw [e]

/-- C63 (not the contents): stages of different documents with the same index are equal, whatever
is in them. -/
theorem C63_other_document :
    ∃ d d' s t, Dockerfile.parse Enquote.unquote c!"FROM a AS b\nRUN c" = .ok d ∧
      Dockerfile.parse Enquote.unquote c!"FROM x" = .ok d' ∧ d.stages = some [s] ∧
      d'.stages = some [t] ∧ s.eq t = true ∧ s.name ≠ t.name ∧ s.parent ≠ t.parent ∧
      s.instructions.length ≠ t.instructions.length := by
  refine ⟨_, _, _, _, rfl, rfl, rfl, rfl, ?_, ?_, ?_, ?_⟩ <;> decide +kernel

/-! ## printing -/

theorem decimalUpTo_digits (k n : Nat) (h : n < 10 ^ (k + 1)) :
    ∃ ds : List (Fin 10), ds ≠ [] ∧ decimalUpTo k n = ds.map (fun k => Char.ofNat (48 + k.val)) ∧
      n = ds.foldl (fun acc k => acc * 10 + k.val) 0 := by
  induction k generalizing n with
  | zero =>
    have : n < 10 := by simpa using h
    refine ⟨[⟨n % 10, by omega⟩], by simp, by simp [decimalUpTo], ?_⟩
    simp only [List.foldl_cons, List.foldl_nil]
    omega
  | succ k ih =>
    unfold decimalUpTo
    split
    · next hn => exact ⟨[⟨n, hn⟩], by simp, by simp, by simp⟩
    · have : n / 10 < 10 ^ (k + 1) := by
        rw [Nat.pow_succ] at h
        omega
      obtain ⟨ds, h1, h2, h3⟩ := ih (n / 10) this
      refine ⟨ds ++ [⟨n % 10, by omega⟩], by simp, by simp [h2], ?_⟩
      rw [List.foldl_append, ← h3]
      simp only [List.foldl_cons, List.foldl_nil]
      omega

theorem lt_ten_pow (n : Nat) : n < 10 ^ (n + 1) := by
  induction n with
  | zero => decide
  | succ n ih =>
    rw [Nat.pow_succ]
    omega

theorem decimalUpTo_head (k n : Nat) (h : n < 10 ^ (k + 1)) (h0 : n ≠ 0) (r : Str) :
    decimalUpTo k n ≠ '0' :: r := by
  have dig : ∀ m, m < 10 → m ≠ 0 → Char.ofNat (48 + m) ≠ '0' := by decide
  induction k generalizing n r with
  | zero =>
    intro e
    simp only [decimalUpTo, List.cons.injEq] at e
    have : n < 10 := by simpa using h
    exact dig (n % 10) (by omega) (by omega) e.1
  | succ k ih =>
    intro e
    unfold decimalUpTo at e
    split at e
    · next hn =>
      simp only [List.cons.injEq] at e
      exact dig n hn h0 e.1
    · have h1 : n / 10 < 10 ^ (k + 1) := by
        rw [Nat.pow_succ] at h
        omega
      cases hd : decimalUpTo k (n / 10) with
      | nil =>
        obtain ⟨ds, h2, h3, -⟩ := decimalUpTo_digits k (n / 10) h1
        rw [hd] at h3
        exact h2 (List.map_eq_nil_iff.1 h3.symm)
      | cons c cs =>
        rw [hd] at e
        obtain ⟨rfl, -⟩ := List.cons.inj e
        exact ih (n / 10) h1 (by omega) cs hd

/-- C63 (numbers): the text of a number is a numeral with that value, without a sign and without
leading zeros. -/
theorem C63_decimal (n : Nat) :
    Numeral (decimal n) n ∧ (∀ c ∈ decimal n, '0' ≤ c ∧ c ≤ '9') ∧
      ∀ r, decimal n = '0' :: r → n = 0 ∧ r = [] := by
  obtain ⟨ds, h1, h2, h3⟩ := decimalUpTo_digits n n (lt_ten_pow n)
  refine ⟨⟨ds, h1, .inl h2, h3⟩, ?_, ?_⟩
  · intro c hc
    rw [decimal, h2] at hc
    obtain ⟨k, -, rfl⟩ := List.mem_map.1 hc
    exact ⟨(digitChar k).1, (digitChar k).2.1⟩
  · intro r e
    by_cases h0 : n = 0
    · subst h0
      cases e
      exact ⟨rfl, rfl⟩
    · exact absurd e (decimalUpTo_head n n (lt_ten_pow n) h0 r)

/-- C63 (parent): what `to_string` makes of the parent of a stage: `scratch`, the number of the
stage, or the image as it is written in the text. -/
theorem C63_display (unq : Unquote) (s : Str) (d : Dockerfile) (h : Dockerfile.parse unq s = .ok d)
    (ss : List Stage) (hs : d.stages = some ss) (i : Nat) (st : Stage) (hi : ss[i]? = some st)
    (f : FromInstruction) (hf : OpenedBy st f) :
    (st.parent = .scratch → st.parent.display = c!"scratch") ∧
    (∀ j, st.parent = .stage j → Numeral st.parent.display j) ∧
    (∀ r, st.parent = .image r → st.parent.display = f.image.content) := by
  refine ⟨fun e => by rw [e]; rfl, fun j e => by rw [e]; exact (C63_decimal j).1, fun r e => ?_⟩
  have hr := ((((C14_parent d ss hs i st hi f hf).2.2 r).1 e)).1
  have hmem : .from f ∈ d.instructions := by
    obtain ⟨ss', h1, h2, -⟩ := C12_partition d
    rw [hs] at h1
    cases h1
    have h3 : .from f ∈ ss.flatMap (·.instructions) :=
      List.mem_flatMap.2 ⟨st, List.mem_of_getElem? hi, List.mem_of_mem_head? hf⟩
    rw [h2] at h3
    exact List.dropWhile_subset _ h3
  rw [e, hr, StageParent.display, C49_image_parsed unq s d h f hmem, C18_display_parse]

/-- C63 (lookup): if the parent of a stage is a stage, `get` finds it under the text of the
parent. -/
theorem C63_get_parent (d : Dockerfile) (ss : List Stage) (hs : d.stages = some ss) (i j : Nat)
    (st : Stage) (hi : ss[i]? = some st) (hp : st.parent = .stage j) (hj : j < 2 ^ 64) :
    ∃ t, stagesGet ss st.parent.display = some t ∧ ss[j]? = some t ∧ t.index = j := by
  obtain ⟨-, hlt⟩ := C14_parent_earlier d ss hs i j st hi hp
  have hget := List.getElem?_eq_getElem hlt
  refine ⟨_, ?_, hget, (C13_index_name d ss hs j _ hget).1⟩
  rw [hp, ← hget]
  exact C16_get_numeral ss _ j (C63_decimal j).1 hj

/- a stage with a stage as parent, looked up under the text of the parent -/
example : (match Dockerfile.parse Enquote.unquote c!"FROM a AS b\nFROM c\nFROM B" with
    | .ok d => d.stages.map fun ss => ss.map fun s =>
        (s.parent.display, (stagesGet ss s.parent.display).map (·.index))
    | .error _ => none) = some [(c!"a", none), (c!"c", none), (c!"0", some 0)] := by decide +kernel

example : decimal 0 = c!"0" ∧ decimal 70 = c!"70" ∧ decimal 1024 = c!"1024" := by decide +kernel

/-- C63 (numbers as images): an image may have the text of a number; `get` takes it for the number
of a stage though the parent is an image. -/
theorem C63_number_image :
    (match Dockerfile.parse Enquote.unquote c!"FROM a\nFROM 0" with
    | .ok d => d.stages.map fun ss => ss.map fun s =>
        (s.parent, s.parent.display, (stagesGet ss s.parent.display).map (·.index))
    | .error _ => none) =
      some [(.image ⟨none, c!"a", none, none⟩, c!"a", none),
            (.image ⟨none, c!"0", none, none⟩, c!"0", some 0)] := by decide +kernel

/-- C63 (numbers as names): a stage may have the text of a number as its name; `get_by_name` finds
it, `get` does not. -/
theorem C63_number_name :
    (match Dockerfile.parse Enquote.unquote c!"FROM a AS 7" with
    | .ok d => d.stages.map fun ss =>
        ((getByName ss c!"7").map (·.index), (stagesGet ss c!"7").map (·.index))
    | .error _ => none) = some (some 0, none) := by decide +kernel

end Verif
