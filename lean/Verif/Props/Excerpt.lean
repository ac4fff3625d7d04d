import Verif.Proof.CutDoc
import Verif.Props.Edit
import Verif.Props.Stage

/-! # Instructions stand alone (C59) -/

namespace Verif
open Spec

/-- C59: the text from the start of an instruction to the end of the same or a later one, parsed by
itself, gives these instructions, with positions counted from the start of the excerpt and the
stages numbered from 0. -/
theorem C59_excerpt {unq : Unquote} {s : Str} {d : Dockerfile} (h : Dockerfile.parse unq s = .ok d)
    {pre mid post : List Instruction} (e : d.instructions = pre ++ (mid ++ post))
    {x y : Instruction} (hx : mid.head? = some x) (hy : mid.getLast? = some y) :
    ∃ t, SliceOf s ⟨x.span.start, y.span.stop⟩ t ∧
      Dockerfile.parse unq t = .ok (documentOf t (mid.map (·.remap (· - x.span.start)))) := by
  obtain ⟨l, ms, is, hf, rfl, he, rfl⟩ := C51_accepted.1 h
  exact Src.parse_excerpt hf he e hx hy

/-- C59: the text of one instruction. -/
theorem C59_alone {unq : Unquote} {s : Str} {d : Dockerfile} (h : Dockerfile.parse unq s = .ok d)
    {x : Instruction} (hx : x ∈ d.instructions) :
    ∃ t, SliceOf s x.span t ∧
      Dockerfile.parse unq t = .ok (documentOf t [x.remap (· - x.span.start)]) := by
  obtain ⟨pre, post, e⟩ := List.append_of_mem hx
  exact C59_excerpt h (mid := [x]) (by rw [e]; rfl) rfl rfl

/-- C59: the text without what comes before the first and after the last instruction. -/
theorem C59_trimmed {unq : Unquote} {s : Str} {d : Dockerfile} (h : Dockerfile.parse unq s = .ok d)
    {x y : Instruction} (hx : d.instructions.head? = some x) (hy : d.instructions.getLast? = some y) :
    ∃ t, SliceOf s ⟨x.span.start, y.span.stop⟩ t ∧
      Dockerfile.parse unq t = .ok (documentOf t (d.instructions.map (·.remap (· - x.span.start)))) :=
  C59_excerpt h (pre := []) (post := []) (by simp) hx hy

/-- C59: a stage stands alone: from its `FROM` to the end of its last instruction there is a document
with this one stage. -/
theorem C59_stage {unq : Unquote} {s : Str} {d : Dockerfile} (h : Dockerfile.parse unq s = .ok d)
    {ss : List Stage} (hs : d.stages = some ss) {st : Stage} (hst : st ∈ ss)
    {x y : Instruction} (hx : st.instructions.head? = some x) (hy : st.instructions.getLast? = some y) :
    ∃ t d' st', SliceOf s ⟨x.span.start, y.span.stop⟩ t ∧ Dockerfile.parse unq t = .ok d' ∧
      d'.instructions = numberStages 0 (st.instructions.map (·.remap (· - x.span.start))) ∧
      d'.global_args = [] ∧ d'.stages = some [st'] ∧ st'.instructions = d'.instructions ∧
      st'.name = st.name := by
  obtain ⟨ss', h1, h2, h3, -⟩ := C12_partition d
  obtain rfl : ss = ss' := Option.some.inj (hs.symm.trans h1)
  obtain ⟨f, rest, h4, h5⟩ := h3 st hst
  obtain ⟨k, hk⟩ := List.getElem?_of_mem hst
  obtain ⟨-, g, hg, hn⟩ := C13_index_name d ss hs k st hk
  obtain ⟨a, b, rfl⟩ := List.append_of_mem hst
  have e : d.instructions = (d.instructions.takeWhile (fun i => !isFrom i) ++ a.flatMap (·.instructions)) ++
      (st.instructions ++ b.flatMap (·.instructions)) := by
    conv => lhs; rw [← List.takeWhile_append_dropWhile (p := fun i => !isFrom i) (l := d.instructions), ← h2]
    simp
  obtain ⟨t, ht, hp⟩ := C59_excerpt h e hx hy
  obtain ⟨f', rest', e1, e2, e3⟩ : ∃ f' rest', numberStages 0 (st.instructions.map (·.remap (· - x.span.start))) =
      .from f' :: rest' ∧ (∀ i ∈ rest', isFrom i = false) ∧ f'.alias.map (·.content) = f.alias.map (·.content) := by
    rw [h4]
    refine ⟨_, _, rfl, ?_, ?_⟩
    · suffices ∀ n (r : List Instruction), (∀ i ∈ r, isFrom i = false) →
          ∀ i ∈ numberStages n (r.map (·.remap (· - x.span.start))), isFrom i = false from this _ _ h5
      intro n r
      induction r generalizing n with
      | nil => intro _ i hi; cases hi
      | cons j r ih =>
        intro hr i hi
        have hj := hr j (by simp)
        have hr' := ih n fun i hi => hr i (by simp [hi])
        cases j
        case «from» => cases hj
        all_goals
          rcases List.mem_cons.1 hi with rfl | hi
          · rfl
          · exact hr' i hi
    · simp only [FromInstruction.remap, Option.map_map]
      rfl
  obtain ⟨ss', g1, g2, g3, g4⟩ := C12_partition
    (documentOf t (st.instructions.map (·.remap (· - x.span.start))))
  have hi : (documentOf t (st.instructions.map (·.remap (· - x.span.start)))).instructions = .from f' :: rest' := e1
  rw [hi] at g2 g4
  have hc : rest'.countP isFrom = 0 := by
    rw [List.countP_eq_zero]
    intro i hi
    simp [e2 i hi]
  obtain ⟨st', rfl⟩ : ∃ st', ss' = [st'] := by
    rw [List.countP_cons, hc] at g4
    simp only [isFrom] at g4
    match ss', g4 with
    | [st'], _ => exact ⟨st', rfl⟩
  have hi' : st'.instructions = .from f' :: rest' := by simpa [isFrom] using g2
  obtain ⟨-, g', hg', hn'⟩ := C13_index_name _ _ g1 0 st' rfl
  refine ⟨t, _, st', ht, hp, rfl, ?_, g1, by rw [hi', hi], ?_⟩
  · show globalArgs (st.instructions.map _) = []
    rw [h4]
    rfl
  · have hgf : g = f := by
      unfold OpenedBy at hg
      rw [h4] at hg
      simpa using hg.symm
    have hgf' : g' = f' := by
      unfold OpenedBy at hg'
      rw [hi'] at hg'
      simpa using hg'.symm
    rw [hn, hn', hgf, hgf']
    cases ha : f.alias <;> cases hb : f'.alias <;> simp [ha, hb] at e3 ⊢
    exact e3 ▸ rfl

/- Three instructions in the middle of a document: a continued line with a comment, an array, and
`COPY` with a flag. -/
example : ∃ t, SliceOf editText ⟨37, 107⟩ t ∧ Dockerfile.parse Enquote.unquote t =
    .ok (documentOf t (((editDoc.instructions.drop 2).take 3).map (·.remap (· - 37)))) :=
  C59_excerpt editDoc_parse (pre := editDoc.instructions.take 2) (mid := (editDoc.instructions.drop 2).take 3)
    (post := editDoc.instructions.drop 5) (by decide +kernel)
    (x := .run ⟨⟨37, 67⟩, .shell ⟨⟨41, 67⟩, [.string ⟨⟨41, 50⟩, c!"go build "⟩, .comment ⟨⟨53, 61⟩, c!"# note 1"⟩,
      .string ⟨⟨62, 67⟩, c!" -o x"⟩]⟩⟩)
    (y := .copy ⟨⟨85, 107⟩, [⟨⟨90, 99⟩, ⟨⟨92, 97⟩, c!"chown"⟩, ⟨⟨98, 99⟩, c!"u"⟩⟩],
      [⟨⟨100, 101⟩, c!"s"⟩, ⟨⟨102, 105⟩, c!"t"⟩], ⟨⟨106, 107⟩, c!"d"⟩⟩) (by decide +kernel) (by decide +kernel)

/- The same excerpt, computed. -/
example : (Dockerfile.parse Enquote.unquote
      c!"RUN go build \\\n # note 1\n -o x\nCMD [\"a b\", 'c']\nCOPY --chown=u s \"t\" d").toOption.map (·.instructions) =
    some (((editDoc.instructions.drop 2).take 3).map (·.remap (· - 37))) := by decide +kernel

/- A stage: the second one of three, with an alias. -/
def threeStages : Str :=
  c!"ARG v=1\nFROM a AS b\nRUN x\n\n# two\nFROM b AS C\n COPY --from=b p q\nRUN y \\\n  z\n\nFROM c\n"

example : ((Dockerfile.parse Enquote.unquote threeStages).toOption.bind (·.stages)).map (fun ss => (ss[1]?).map fun st =>
      (st.name, st.instructions.head?.map (·.span), st.instructions.getLast?.map (·.span))) =
      some (some (some c!"c", some ⟨33, 44⟩, some ⟨64, 75⟩)) ∧
    SliceOf threeStages ⟨33, 75⟩ c!"FROM b AS C\n COPY --from=b p q\nRUN y \\\n  z" ∧
    ((Dockerfile.parse Enquote.unquote c!"FROM b AS C\n COPY --from=b p q\nRUN y \\\n  z").toOption.bind (·.stages)).map
      (List.map fun st => (st.name, st.index, st.instructions.map (·.span))) =
      some [(some c!"c", 0, [⟨0, 11⟩, ⟨13, 30⟩, ⟨31, 42⟩])] := by
  refine ⟨by decide +kernel, ⟨threeStages.take 33, threeStages.drop 75, ?_⟩, ?_⟩ <;> decide +kernel

end Verif
