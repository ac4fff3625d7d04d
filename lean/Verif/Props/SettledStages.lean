import Verif.Props.SettledParts
import Verif.Props.Prune

/-! # C105: stages of documents in which nothing is left open -/

namespace Verif
open Spec

/-- Both parts of a document that is cut between two lines leave nothing open if the whole does not. -/
theorem settled_split {unq : Unquote} {a z : Str} {d : Dockerfile} (h : Dockerfile.parse unq (a ++ z) = .ok d)
    (ha : LineStart a z) (hs : Apart d (blen a)) (hset : Settled (a ++ z) d.instructions) :
    ∃ d1 d2, Dockerfile.parse unq a = .ok d1 ∧ Dockerfile.parse unq z = .ok d2 ∧
      (∀ i ∈ d1.instructions, i.span.stop < blen a) ∧
      d = documentOf (a ++ z) (d1.instructions ++ d2.instructions.map (·.remap (· + blen a))) ∧
      Settled a d1.instructions ∧ Settled z d2.instructions := by
  obtain ⟨d1, d2, p1, p2, b1, e⟩ := C71_split h ha hs
  refine ⟨d1, d2, p1, p2, b1, e, ?_⟩
  rw [e] at hset
  obtain ⟨s1, s2⟩ := settled_append.1 ((settled_numbered 0).1 hset)
  refine ⟨settled_keep s1 fun i hi sp hsp t ht => ?_, ?_⟩
  · have := (C06_fields_within unq _ _ p1 i hi sp hsp).2
    have := b1 i hi
    exact slice_front (x := a) (r := []) (by rwa [List.append_nil]) (by omega)
  · have := settled_move (f := (· - blen a)) (s' := z) s2 (fun i hi sp hsp t ht => by
      obtain ⟨j, hj, rfl⟩ := List.mem_map.1 hi
      rw [quoteSpans_remap, shellSpans_remap, ← List.map_append] at hsp
      obtain ⟨q, -, rfl⟩ := List.mem_map.1 hsp
      have := slice_whole (a := a) (k := q.start) (m := q.stop) (t := t) (by
        simpa only [Span.remap, Nat.add_sub_cancel] using ht)
      simpa only [Span.remap, Nat.add_comm] using this)
    rw [List.map_map] at this
    have e2 : ∀ i : Instruction, (Instruction.remap (· - blen a) ∘ Instruction.remap (· + blen a)) i = i := fun i => by
      rw [Function.comp, Instruction.remap_remap]
      exact (congrArg (Instruction.remap · i) (funext fun q => by simp [Function.comp])).trans i.remap_same
    rw [List.map_congr_left (g := id) fun i _ => e2 i, List.map_id] at this
    exact this

/-- Two texts that leave nothing open, one behind the other. -/
theorem settled_join {unq : Unquote} {a z : Str} {d1 d2 : Dockerfile} (h1 : Dockerfile.parse unq a = .ok d1)
    (h2 : Dockerfile.parse unq z = .ok d2) (ha : LineStart a z) (hl : ∀ i ∈ d1.instructions, i.span.stop < blen a)
    (s1 : Settled a d1.instructions) (s2 : Settled z d2.instructions) :
    Yields unq (a ++ z) (d1.instructions ++ d2.instructions.map (·.remap (· + blen a))) := by
  refine ⟨?_, settled_append.2 ⟨settled_keep s1 fun i hi sp hsp t ht => ?_, settled_move s2 fun i hi sp hsp t ht => ?_⟩⟩
  · rw [C103_lines h1 ha hl s1, h2]; rfl
  · have := (C06_fields_within unq _ _ h1 i hi sp hsp).2
    have := hl i hi
    have := slice_front (r' := []) ht (by omega)
    rwa [List.append_nil] at this
  · exact slice_part (a := a) (by simpa only [Span.remap, Nat.add_comm] using ht)

theorem yields_settled {unq : Unquote} {s : Str} {is : List Instruction} {d : Dockerfile} (h : Yields unq s is)
    (hd : Dockerfile.parse unq s = .ok d) : Settled s d.instructions := by
  cases h.1.symm.trans hd
  exact (settled_numbered 0).2 h.2

/-- C105: Whole stages are taken out of a document that leaves nothing open: the text is `a ++ (t ++ b)`, and `t` is the stages from
number `lo` up to `hi`.  No stage behind them is built on one of them.  Then `a ++ b` is a document with the other stages, as in C93,
and leaves nothing open. -/
theorem C105_delete {unq : Unquote} {a t b : Str} {d : Dockerfile}
    (h : Dockerfile.parse unq (a ++ (t ++ b)) = .ok d) (hset : Settled (a ++ (t ++ b)) d.instructions)
    (ha : LineStart a (t ++ b)) (hs : Apart d (blen a)) (hb : LineStart (a ++ t) b) (hs' : Apart d (blen (a ++ t)))
    (ha' : LineStart a b)
    (c1 : StageCut d (blen a)) (c2 : StageCut d (blen (a ++ t))) {ss : List Stage} (hss : d.stages = some ss)
    {lo hi : Nat} (hlo : lo = stagesBefore d (blen a)) (hhi : hi = stagesBefore d (blen (a ++ t)))
    (hno : ∀ (i j : Nat) (s : Stage), hi ≤ i → ss[i]? = some s → s.parent = .stage j → j < lo ∨ hi ≤ j) :
    ∃ d' ss', Dockerfile.parse unq (a ++ b) = .ok d' ∧ Settled (a ++ b) d'.instructions ∧ d'.stages = some ss' ∧
      d'.global_args = d.global_args ∧ ss'.length + (hi - lo) = ss.length ∧
      (∀ (i : Nat) (s : Stage), i < lo → ss[i]? = some s → ss'[i]? = some s) ∧
      ∀ (i : Nat) (s : Stage), hi ≤ i → ss[i]? = some s → ss'[i - (hi - lo)]? = some
        { index := i - (hi - lo), name := s.name
          instructions := numberStages (i - (hi - lo)) (s.instructions.map (·.remap fun q => q - blen (a ++ t) + blen a))
          parent := outParent lo hi s.parent, root := s.root } := by
  obtain ⟨d1, d23, p1, p23, b1, e, s1, -⟩ := settled_split h ha hs hset
  obtain ⟨d12, d3, -, p3, -, -, -, s3⟩ := settled_split (by rwa [List.append_assoc]) hb hs' (by rwa [List.append_assoc])
  have hy := settled_join p1 p3 ha' b1 s1 s3
  obtain ⟨d', ss', g1, g2, g3⟩ := C93_delete h ha hs hb hs' ha' (fun d0 h0 => by
    cases p1.symm.trans h0
    exact settled_undisturbed p1 (fun i hi => Nat.le_of_lt (b1 i hi)) s1) c1 c2 hss hlo hhi hno
  exact ⟨d', ss', g1, yields_settled hy g1, g2, g3⟩

/-- C105: Whole stages are put into a document that leaves nothing open: `t` is a document that begins with a `FROM`, leaves nothing
open, and none of its names is the image of a stage in `b`.  Then `a ++ (t ++ b)` has the stages of `t` in between, as in C93, and
leaves nothing open. -/
theorem C105_insert {unq : Unquote} {a b t : Str} {d e : Dockerfile}
    (h : Dockerfile.parse unq (a ++ b) = .ok d) (hset : Settled (a ++ b) d.instructions) (ha : LineStart a b) (hs : Apart d (blen a))
    (h' : Dockerfile.parse unq t = .ok e) (hset' : Settled t e.instructions) (ht : LineStart t b)
    (hd : ∀ i ∈ e.instructions, i.span.stop < blen t) (ha' : LineStart a (t ++ b))
    (c1 : StageCut d (blen a)) (c2 : ∀ i, e.instructions.head? = some i → isFrom i = true)
    (hfresh : ∀ f x g, .from f ∈ e.instructions → f.alias = some x → .from g ∈ d.instructions →
      blen a ≤ g.span.start → ¬ SameName x.content g.image.content)
    {ss ts : List Stage} (hss : d.stages = some ss) (hts : e.stages = some ts)
    {lo n : Nat} (hlo : lo = stagesBefore d (blen a)) (hn : n = ts.length) :
    ∃ d' ss', Dockerfile.parse unq (a ++ (t ++ b)) = .ok d' ∧ Settled (a ++ (t ++ b)) d'.instructions ∧ d'.stages = some ss' ∧
      d'.global_args = d.global_args ∧ ss'.length = ss.length + n ∧
      (∀ (i : Nat) (s : Stage), i < lo → ss[i]? = some s → ss'[i]? = some s) ∧
      (∀ (i : Nat) (s : Stage), ts[i]? = some s → (ss'[lo + i]?).map (·.instructions) =
        some (numberStages (lo + i) (s.instructions.map (·.remap (· + blen a))))) ∧
      ∀ (i : Nat) (s : Stage), lo ≤ i → ss[i]? = some s → ss'[i + n]? = some
        { index := i + n, name := s.name
          instructions := numberStages (i + n) (s.instructions.map (·.remap fun q => q - blen a + blen (a ++ t)))
          parent := inParent lo n s.parent, root := s.root } := by
  obtain ⟨d1, d2, p1, p2, b1, -, s1, s2⟩ := settled_split h ha hs hset
  have hy := settled_join h' p2 ht hd hset' s2
  have hy' := settled_join p1 hy.1 ha' b1 s1 ((settled_numbered 0).2 hy.2)
  obtain ⟨d', ss', g1, g2, g3⟩ := C93_insert h ha hs h' ht hd ha' (fun d0 h0 => by
    cases p1.symm.trans h0
    exact settled_undisturbed p1 (fun i hi => Nat.le_of_lt (b1 i hi)) s1)
    (settled_undisturbed h' (fun i hi => Nat.le_of_lt (hd i hi)) hset') c1 c2 hfresh hss hts hlo hn
  exact ⟨d', ss', g1, yields_settled hy' g1, g2, g3⟩

/-- the alias of a `FROM` is exchanged, where its item can be -/
theorem alias_core {unq : Unquote} {x y t z : Str} {pre post : List Instruction} {f : FromInstruction}
    (h3 : f.image.span.stop = blen (x ++ y)) (hx : Exchanges unq x (y ++ t) z pre post (.from f))
    (o : Option Str) (ho : ∀ b, o = some b → Over IsIdent b) :
    Dockerfile.parse unq (x ++ (y ++ asText o ++ z)) = .ok (documentOf (x ++ (y ++ asText o ++ z))
      (pre ++ .from { f with span := ⟨blen x, blen (x ++ (y ++ asText o))⟩, alias := asName (blen (x ++ y)) o } ::
        post.map (·.remap fun q => q - blen (x ++ (y ++ t)) + blen (x ++ (y ++ asText o))))) := by
  obtain ⟨it, y0, m, eu, hy, hnum, ⟨r, hr⟩, key⟩ := hx
  obtain ⟨f0, rfl, ef⟩ := numbered_from hnum
  obtain ⟨kw, fs, g, im, a, rfl, e3, e4⟩ := Src.item_from hy
  have e5 : f0.image.span.stop = blen (x ++ y) := by rw [← h3, ef]
  replace eu : y ++ t = (kw ++ (Src.flagsText fs ++ (g ++ im))) ++ Src.aliasText a := by rw [eu]; simp [Src.Item.text]
  obtain ⟨ey, et⟩ := append_inj_blen eu (by
    rw [e3] at e5
    simp only [blen_append] at e5 ⊢
    omega)
  have htext : (Src.Item.from kw fs g im (Src.asAlias o)).text = y ++ asText o := by
    rw [ey]; simp [Src.Item.text, Src.asAlias_text]
  have him : im ≠ [] ∧ ∀ c ∈ im, IsImageChar c := ⟨hr.2.2.2.1, hr.2.2.2.2.1⟩
  have has : ∀ c ∈ asText o, (c ≠ '"' ∧ c ≠ '\'' ∧ c ≠ '\x00' ∧ c ≠ '\x1F') ∧ c ≠ '\\' := by
    intro c hc
    cases o with
    | none => cases hc
    | some b =>
      rcases List.mem_append.1 hc with hc | hc
      · have : ∀ c ∈ c!" AS ", (c ≠ '"' ∧ c ≠ '\'' ∧ c ≠ '\x00' ∧ c ≠ '\x1F') ∧ c ≠ '\\' := by decide
        exact this c hc
      · have hc := (ho b rfl).2 c hc
        refine ⟨⟨?_, ?_, ?_, ?_⟩, ?_⟩ <;>
          (rintro rfl; exact absurd hc (by unfold IsIdent IsAlpha IsDigit; decide))
  have hm : Mild (y ++ t) → Mild (y ++ asText o) := by
    intro hq
    refine ⟨fun c hc => (List.mem_append.1 hc).elim (fun hc => hq.1 c (by simp [hc])) fun hc => (has c hc).1, fun hl => ?_⟩
    rw [List.getLast?_append] at hl
    cases ha : (asText o).getLast? with
    | some c =>
      rw [ha, Option.some_or] at hl
      exact (has c (List.mem_of_getLast? ha)).2 (Option.some.inj hl)
    | none =>
      rw [ha, Option.none_or, ey, ← List.append_assoc, ← List.append_assoc, List.getLast?_append,
        List.getLast?_eq_some_getLast him.1, Option.some_or] at hl
      have := him.2 _ (List.getLast_mem him.1)
      rw [Option.some.inj hl] at this
      exact absurd this (by unfold IsImageChar IsAlpha IsDigit; decide)
  have e6 := e4 (Src.asAlias o)
  rw [Src.asAlias_at, htext, e5] at e6
  have := key (.from kw fs g im (Src.asAlias o)) _ (by rwa [htext]) (fun g' b hg hb hfit => by
    refine Src.from_fits hfit fun b hb => ?_
    cases o with
    | none => cases hb
    | some c => cases hb; exact Src.as_fits (ho c rfl) _) e6
  rw [htext] at this
  rw [this]
  refine congrArg Except.ok (Eq.symm ?_)
  refine documentOf_number _ _ _ _ m _ ?_
  rw [ef, blen_append x (y ++ asText o)]
  rfl

/-- C105: The name of a stage is set, replaced or taken away, by splicing, in a document that leaves nothing open.  `y` is the text of
the `FROM` up to the end of its image. -/
theorem C105_alias {unq : Unquote} {x y t z : Str} {d : Dockerfile} {pre post : List Instruction} {f : FromInstruction}
    (h : Dockerfile.parse unq (x ++ (y ++ t ++ z)) = .ok d) (e : d.instructions = pre ++ .from f :: post)
    (h1 : f.span.start = blen x) (h2 : f.span.stop = blen (x ++ (y ++ t))) (h3 : f.image.span.stop = blen (x ++ y))
    (hs : Settled (x ++ (y ++ t ++ z)) d.instructions) (o : Option Str) (ho : ∀ b, o = some b → Over IsIdent b) :
    ((Splicer.ofDockerfile d).splice ⟨f.image.span.stop, f.span.stop⟩ (asText o)).map Splicer.content =
      some (x ++ (y ++ asText o ++ z)) ∧
    Yields unq (x ++ (y ++ asText o ++ z))
      (pre ++ .from { f with span := ⟨blen x, blen (x ++ (y ++ asText o))⟩, alias := asName (blen (x ++ y)) o } ::
        post.map (·.remap fun q => q - blen (x ++ (y ++ t)) + blen (x ++ (y ++ asText o)))) := by
  refine ⟨?_, alias_core h3 (settled_item h e h1 h2 hs) o ho, settled_exchange h e h1 h2 hs (settled_from _)⟩
  have hc : d.content = x ++ y ++ t ++ z := by
    rw [show d.content = _ from ((ens_parse unq _).ok_of h).1]; simp
  have := C21_single_splice d.content ⟨f.image.span.stop, f.span.stop⟩ (asText o) (x ++ y) t z hc h3
    (by rw [h2]; simp only [blen_append]; omega)
  rw [show Splicer.ofDockerfile d = Splicer.fromStr d.content from rfl, this]
  simp

/-- C105: When the name of a stage is set, replaced or taken away in such a document, and the images of the later stages are neither
the old nor the new name, then all stages are as before, but for that name. -/
theorem C105_stages {unq : Unquote} {x y t z : Str} {d : Dockerfile} {pre post : List Instruction} {f : FromInstruction}
    (h : Dockerfile.parse unq (x ++ (y ++ t ++ z)) = .ok d) (e : d.instructions = pre ++ .from f :: post)
    (h1 : f.span.start = blen x) (h2 : f.span.stop = blen (x ++ (y ++ t))) (h3 : f.image.span.stop = blen (x ++ y))
    (hs : Settled (x ++ (y ++ t ++ z)) d.instructions) (o : Option Str) (ho : ∀ b, o = some b → Over IsIdent b)
    (hold : ∀ g, .from g ∈ post → ∀ a, f.alias = some a → ¬ SameName a.content g.image.content)
    (hnew : ∀ g, .from g ∈ post → ∀ b, o = some b → ¬ SameName b g.image.content) :
    ∃ d' ss ss', Dockerfile.parse unq (x ++ (y ++ asText o ++ z)) = .ok d' ∧ d.stages = some ss ∧ d'.stages = some ss' ∧
      ss'.length = ss.length ∧ ∀ (i : Nat) (s s' : Stage), ss[i]? = some s → ss'[i]? = some s' →
        s'.index = s.index ∧ s'.parent = s.parent ∧ s'.root = s.root ∧
        s'.name = if i = f.index then o.map lower else s.name := by
  obtain ⟨-, hd, -⟩ := C105_alias h e h1 h2 h3 hs o ho
  obtain ⟨ss, hs, -⟩ := C15_root d
  generalize hd' : documentOf _ _ = d' at hd
  obtain ⟨ss', hs', -⟩ := C15_root d'
  have hidx : f.index = (fromsOf pre).length := by
    have := index_froms (congrArg Dockerfile.instructions (documentOf_same h)) e
    omega
  obtain ⟨k1, k2⟩ := alias_stages hs hs' (A := fromsOf pre) (C := fromsOf post) (f := f)
    (f' := { f with span := ⟨blen x, blen (x ++ (y ++ asText o))⟩, alias := asName (blen (x ++ y)) o })
    (by rw [e, fromsOf_append]; rfl)
    (by
      rw [← hd']
      show (fromsOf (numberStages 0 _)).map fromKey = _
      rw [fromsOf_number, fromsOf_append, List.map_append, List.map_append]
      show _ ++ fromKey _ :: List.map fromKey (fromsOf (post.map _)) = _
      rw [fromsOf_remap]
      rfl) rfl rfl (fun g hg => hold g (mem_fromsOf hg)) (fun g hg a ha => by
        cases o with
        | none => cases ha
        | some b => cases ha; exact hnew g (mem_fromsOf hg) b rfl)
  refine ⟨d', ss, ss', hd, hs, hs', k1, fun i s s' a b => ?_⟩
  rw [hidx]
  have := k2 i s s' a b
  refine ⟨this.1, this.2.1, this.2.2.1, this.2.2.2.trans ?_⟩
  cases o <;> rfl

/-! ## examples -/

/-- The stage `test` is taken out. -/
example : ∃ d' ss', Dockerfile.parse Enquote.unquote (pruneA ++ pruneB) = .ok d' ∧ Settled (pruneA ++ pruneB) d'.instructions ∧
    d'.stages = some ss' ∧ d'.global_args = pruneDoc.global_args ∧ ss'.length + (2 - 1) = pruneStages.length := by
  obtain ⟨d', ss', h1, h5, h2, h3, h4, -⟩ := C105_delete (unq := Enquote.unquote) (a := pruneA) (t := pruneT) (b := pruneB)
    (d := pruneDoc) pruneDoc_parse (settled_check (by decide +kernel)) (pruneA_lines _) (by unfold Apart; decide +kernel)
    (.inr ⟨pruneA ++ c!"# a test\nFROM A AS test\nCMD [\"t\"]", ['\n'], rfl, .inl rfl⟩) (by unfold Apart; decide +kernel)
    (pruneA_lines _) (stageCut_of (by decide +kernel)) (stageCut_of (by decide +kernel))
    pruneDoc_stages (lo := 1) (hi := 2) (by decide +kernel) (by decide +kernel) (by
      intro i j s hi hs hp
      have e : pruneStages.map (·.parent) =
        [.image (ImageRef.parse c!"x"), .stage 0, .stage 0, .stage 2] := by decide +kernel
      have e2 : (pruneStages.map (·.parent))[i]? = some (.stage j) := by rw [List.getElem?_map, hs, ← hp]; rfl
      rw [e] at e2
      match i, e2 with
      | 0, e2 => cases e2
      | 1, _ => omega
      | 2, e2 => cases e2; exact .inl (by omega)
      | 3, e2 => cases e2; exact .inr (by omega)
      | n + 4, e2 => cases e2)
  exact ⟨d', ss', h1, h5, h2, h3, h4⟩

/-- And it is put in again. -/
example : ∃ d' ss', Dockerfile.parse Enquote.unquote (pruneA ++ (pruneT ++ pruneB)) = .ok d' ∧
    Settled (pruneA ++ (pruneT ++ pruneB)) d'.instructions ∧ d'.stages = some ss' ∧
    d'.global_args = prunedDoc.global_args ∧ ss'.length = (prunedDoc.stages.getD []).length + 1 := by
  obtain ⟨d', ss', h1, h5, h2, h3, h4, -⟩ := C105_insert (unq := Enquote.unquote) (a := pruneA) (t := pruneT) (b := pruneB)
    (d := prunedDoc) (e := pruneTest) prunedDoc_parse (settled_check (by decide +kernel)) (pruneA_lines _)
    (by unfold Apart; decide +kernel) (by decide +kernel) (settled_check (by decide +kernel))
    (.inr ⟨c!"# a test\nFROM A AS test\nCMD [\"t\"]", ['\n'], rfl, .inl rfl⟩) (by decide +kernel)
    (pruneA_lines _) (stageCut_of (by decide +kernel)) (fun i hi => by
      have : pruneTest.instructions.head?.all isFrom = true := by decide +kernel
      rw [hi] at this
      exact this)
    (by
      have e : ∀ f ∈ fromsOf pruneTest.instructions, ∀ g ∈ fromsOf prunedDoc.instructions,
          (f.alias.map fun x => lower x.content) ≠ some (lower g.image.content) := by decide +kernel
      intro f x g hf hx hg _ hn
      refine e f (List.mem_filterMap.2 ⟨_, hf, rfl⟩) g (List.mem_filterMap.2 ⟨_, hg, rfl⟩) ?_
      rw [hx]
      exact congrArg some hn)
    (ss := prunedDoc.stages.getD []) (ts := pruneTest.stages.getD []) (by decide +kernel) (by decide +kernel)
    (lo := 1) (n := 1) (by decide +kernel) (by decide +kernel)
  exact ⟨d', ss', h1, h5, h2, h3, h4⟩

/-- The stage `e`, with a flag in quotes, is called `h`, and then it has no name. -/
example (o : Option Str) (ho : ∀ b, o = some b → b = c!"h") : ∃ d' ss', Dockerfile.parse Enquote.unquote
      (c!"FROM a AS b\nENV c=\"'\"\n" ++ (c!"FROM --p='q' d" ++ asText o ++ c!"\nRUN '\nFROM B\n")) = .ok d' ∧ d'.stages = some ss' := by
  obtain ⟨d, pre, i, post, h, e, h1, h2, h4, h5, h3⟩ := placeOK_iff
    (s := c!"FROM a AS b\nENV c=\"'\"\n" ++ (c!"FROM --p='q' d" ++ c!" \\\nAS e" ++ c!"\nRUN '\nFROM B\n"))
    (k := 2) (a := 22) (b := 43)
    (Q := fun | .from f => decide (f.image.span.stop = 36 ∧ f.alias.map (·.content) = some c!"e") | _ => false)
    (R := fun | .from f => decide (¬ SameName c!"e" f.image.content ∧ ¬ SameName c!"h" f.image.content) | _ => true) (by
      unfold SameName; decide +kernel)
  cases i
  case «from» f =>
    have h4 := of_decide_eq_true h4
    obtain ⟨d', ss, ss', g1, -, g2, -⟩ := C105_stages h e h1 h2 h4.1 (sample_settled h (by decide +kernel)) o
      (fun b hb => by
        rw [ho b hb]
        refine ⟨by decide, ?_⟩
        unfold IsIdent IsAlpha IsDigit
        decide)
      (fun g hg a ha => by
        have := of_decide_eq_true (h5 _ hg)
        have e4 := h4.2
        rw [ha] at e4
        rw [show a.content = _ from Option.some.inj e4]
        exact this.1)
      (fun g hg b hb => by
        have := of_decide_eq_true (h5 _ hg)
        rw [ho b hb]
        exact this.2)
    exact ⟨d', ss', g1, g2⟩
  all_goals cases h4

/-- C105: Why nothing may be left open: without the stage in the middle, all that is behind becomes a part of the array that is open
before it. -/
theorem C105_needed :
    ((Dockerfile.parse Enquote.unquote (c!"FROM x\nRUN [\"a\n" ++ (c!"FROM y\nCMD \"\n" ++ c!"FROM c\nCMD \"]\n"))).toOption.bind
      (·.stages)).map (·.map (·.parent)) =
      some [.image (ImageRef.parse c!"x"), .image (ImageRef.parse c!"y"), .image (ImageRef.parse c!"c")] ∧
    ((Dockerfile.parse Enquote.unquote (c!"FROM x\nRUN [\"a\n" ++ c!"FROM c\nCMD \"]\n")).toOption.bind
      (·.stages)).map (·.map (·.parent)) = some [.image (ImageRef.parse c!"x")] := by
  decide +kernel

end Verif
