import Verif.Proof.EditDoc
import Verif.Proof.EditEval
import Verif.Props.Update

/-! # New texts (C57) -/

namespace Verif
namespace Src
open Spec

theorem globalArgs_newInstr (es : List Edit) (unq : Unquote) (is : List Instruction) :
    globalArgs (is.map (newInstr es unq)) = (globalArgs is).map (newArg es unq) := by
  induction is with
  | nil => rfl
  | cons i is ih =>
    cases i
    case «from» => rfl
    case arg a => exact congrArg (_ :: ·) ih
    all_goals exact ih

theorem numberStages_newInstr (es : List Edit) (unq : Unquote) (is : List Instruction) : ∀ n,
    numberStages n (is.map (newInstr es unq)) = (numberStages n is).map (newInstr es unq) := by
  induction is with
  | nil => intro n; rfl
  | cons i is ih =>
    intro n
    cases i
    case «from» => exact congrArg (_ :: ·) (ih (n + 1))
    all_goals exact congrArg (_ :: ·) (ih n)

theorem numberStages_fields {unq : Unquote} {is : List Instruction} : ∀ {n i}, i ∈ numberStages n is →
    ∃ i' ∈ is, fieldsOf unq i' = fieldsOf unq i := by
  induction is with
  | nil => intro n i h; cases h
  | cons j is ih =>
    intro n i h
    cases j
    case «from» f =>
      rcases List.mem_cons.1 h with rfl | h
      · exact ⟨_, List.mem_cons_self, rfl⟩
      · obtain ⟨i', h1, h2⟩ := ih h
        exact ⟨i', List.mem_cons_of_mem _ h1, h2⟩
    all_goals
      rcases List.mem_cons.1 h with rfl | h
      · exact ⟨_, List.mem_cons_self, rfl⟩
      · obtain ⟨i', h1, h2⟩ := ih h
        exact ⟨i', List.mem_cons_of_mem _ h1, h2⟩

theorem slice_eq {s a t u b : Str} {sp : Span} (h : SliceOf s sp t) (e : s = a ++ (u ++ b))
    (h1 : sp.start = blen a) (h2 : sp.stop = blen a + blen u) : t = u := by
  obtain ⟨a', c', e', h3, h4⟩ := h
  have e1 : a ++ (u ++ b) = a' ++ (t ++ c') := by rw [← e, e', List.append_assoc]
  obtain ⟨rfl, e2⟩ := append_inj_blen e1 (by omega)
  exact (append_inj_blen e2 (by omega)).1.symm

end Src

open Spec

theorem componentFields_spans {P Q} {cs : List BreakableStringComponent} {x} (h : x ∈ componentFields P Q cs) :
    x.1 ∈ cs.map componentSpan := by
  induction cs with
  | nil => cases h
  | cons c cs ih =>
    cases c <;> rcases List.mem_cons.1 h with rfl | h
    all_goals first
      | exact List.mem_cons_self
      | exact List.mem_cons_of_mem _ (ih h)

theorem flagFields_spans {unq} {fs : List Flag} {x} (h : x ∈ fs.flatMap (Spec.flagFields unq)) :
    x.1 ∈ fs.flatMap flagSpans := by
  obtain ⟨f, h1, h2⟩ := List.mem_flatMap.1 h
  refine List.mem_flatMap.2 ⟨f, h1, ?_⟩
  simp only [Spec.flagFields, List.mem_cons, List.not_mem_nil, or_false] at h2
  rcases h2 with rfl | rfl <;> simp [flagSpans]

/-- The fields are fields. -/
theorem fieldsOf_spans {unq i x} (h : x ∈ fieldsOf unq i) : x.1 ∈ fieldSpans i := by
  cases i with
  | «from» i =>
    simp only [fieldsOf, fieldSpans, List.mem_append, List.mem_cons] at h ⊢
    rcases h with h | rfl | h
    · exact .inl (flagFields_spans h)
    · exact .inr (.inl rfl)
    · refine .inr (.inr ?_)
      cases ha : i.alias with
      | none => rw [ha] at h; cases h
      | some a =>
        rw [ha] at h
        cases List.mem_singleton.1 h
        exact List.mem_singleton.2 rfl
  | arg i =>
    simp only [fieldsOf, fieldSpans, List.mem_cons] at h ⊢
    rcases h with rfl | h
    · exact .inl rfl
    · refine .inr ?_
      cases ha : i.value with
      | none => rw [ha] at h; cases h
      | some a =>
        rw [ha] at h
        cases List.mem_singleton.1 h
        exact List.mem_singleton.2 rfl
  | label i =>
    obtain ⟨l, h1, h2⟩ := List.mem_flatMap.1 h
    refine List.mem_flatMap.2 ⟨l, h1, ?_⟩
    simp only [List.mem_cons, List.not_mem_nil, or_false] at h2 ⊢
    rcases h2 with rfl | rfl <;> simp
  | copy i =>
    simp only [fieldsOf, fieldSpans, List.mem_append] at h ⊢
    rcases h with h | h
    · exact .inl (flagFields_spans h)
    · obtain ⟨s, h1, rfl⟩ := List.mem_map.1 h
      rcases List.mem_append.1 h1 with h1 | h1
      · exact .inr (.inl (List.mem_map.2 ⟨s, h1, rfl⟩))
      · cases List.mem_singleton.1 h1
        exact .inr (.inr (List.mem_singleton.2 rfl))
  | env i =>
    obtain ⟨v, h1, h2⟩ := List.mem_flatMap.1 h
    refine List.mem_flatMap.2 ⟨v, h1, List.mem_cons_of_mem _ ?_⟩
    rcases List.mem_cons.1 h2 with rfl | h2
    · exact List.mem_cons_self
    · exact List.mem_cons_of_mem _ (List.mem_cons_of_mem _ (componentFields_spans h2))
  | misc i => exact List.mem_cons_of_mem _ (List.mem_cons_of_mem _ (componentFields_spans h))
  | run i | cmd i | entrypoint i =>
    simp only [fieldsOf, fieldSpans] at h ⊢
    cases he : i.expr with
    | shell b => rw [he] at h; exact List.mem_cons_of_mem _ (componentFields_spans h)
    | exec a =>
      rw [he] at h
      obtain ⟨s, h1, rfl⟩ := List.mem_map.1 h
      exact List.mem_cons_of_mem _ (List.mem_map.2 ⟨s, h1, rfl⟩)

/-- The edit puts a text at a field of the document where this is allowed, and the new text is the old
one with pieces of plain text replaced. -/
def EditOK (unq : Unquote) (s : Str) (d : Dockerfile) (e : Edit) : Prop :=
  (∃ i ∈ d.instructions, ∃ P, (e.1, P) ∈ fieldsOf unq i ∧ P e.2) ∧ ∃ t, SliceOf s e.1 t ∧ Src.Like t e.2

/-- C57: parse, put new texts at any of the fields (in any order), and parse the result: this gives
the same instructions with the new texts; everything else is the same, moved by the differences of the
lengths. -/
theorem C57_edit {unq : Unquote} {s : Str} {d : Dockerfile} (h : Dockerfile.parse unq s = .ok d)
    (es : List Edit) (hn : (es.map (·.1)).Nodup) (hes : ∀ e ∈ es, EditOK unq s d e) :
    ∃ sp, (Splicer.ofDockerfile d).spliceAll es = some sp ∧
      Dockerfile.parse unq sp.content = .ok (edited es unq s d) := by
  have hs : ∀ e ∈ es, ∃ i ∈ d.instructions, e.1 ∈ spansOf i := fun e he => by
    obtain ⟨⟨i, hi, P, h1, -⟩, -⟩ := hes e he
    exact ⟨i, hi, List.mem_cons_of_mem _ (fieldsOf_spans h1)⟩
  have hpos : ∀ e ∈ es, e.1.start < e.1.stop := fun e he => by
    obtain ⟨i, hi, hsp⟩ := hs e he
    exact (C04_span_bounds unq s d h i hi _ hsp).1
  have hc25 := C25_splice_parsed unq s d h es hs
  obtain ⟨l, ms, is, hf, rfl, he, rfl⟩ := C51_accepted.1 h
  have hh : ∀ e ∈ es, ∃ x ∈ Src.segFields 0 (Src.docSegs l ms), e.1 = Src.fieldSpan x ∧ x.1.Ok unq e.2 ∧
      Src.Like x.2.1 e.2 := fun e h' => by
    obtain ⟨⟨i, hi, P, h1, h2⟩, t, h3, h4⟩ := hes e h'
    obtain ⟨i', hi', hif⟩ := Src.numberStages_fields (unq := unq) hi
    rw [← hif] at h1
    obtain ⟨x, hx, e1, e2⟩ := Src.doc_has he i' hi' _ h1
    refine ⟨x, hx, e1, e2 _ h2, ?_⟩
    obtain ⟨a, b, e3, e4⟩ := Src.segFields_slice _ _ hx
    have e1 : e.1 = Src.fieldSpan x := e1
    rw [Src.docSegs_text] at e3
    have : t = x.2.1 := Src.slice_eq h3 e3 (by rw [e1]; simp [Src.fieldSpan]; omega)
      (by rw [e1]; simp [Src.fieldSpan]; omega)
    rwa [this] at h4
  have hd : es.Pairwise fun e f => Disjoint e.1 f.1 := by
    refine (List.pairwise_map.1 hn).imp_of_mem fun {e e'} he1 he2 hne => ?_
    obtain ⟨x, hx, e1, -⟩ := hh e he1
    obtain ⟨y, hy, e2, -⟩ := hh e' he2
    rw [e1, e2] at hne ⊢
    rcases Src.segFields_disjoint _ _ hx hy with h | h
    · exact absurd (congrArg _ h) hne
    · exact h
  obtain ⟨sp, h1, h2⟩ := hc25 hd
  refine ⟨sp, h1, ?_⟩
  rw [h2]
  have hg : Src.Good es := ⟨hpos, hd⟩
  have hok : Src.SegOK unq (Src.newImage es) 0 (Src.docSegs l ms) := by
    intro x hx t' ht'
    have hm := Src.newImage_some ht'
    obtain ⟨y, hy, e1, e2, e3⟩ := hh _ hm
    cases Src.segFields_unique hx hy e1 (hpos _ hm)
    exact ⟨e3, e2⟩
  obtain ⟨htext, -, hmv⟩ := Src.seg_step hg (Src.docSegs l ms) (Src.inv_zero hg) fun e h => by
    obtain ⟨x, hx, e1, -⟩ := hh e h
    exact .inr (.inl (List.mem_map.2 ⟨x, hx, e1.symm⟩))
  rw [Src.docSegs_text, Src.doc_put] at htext
  have hp := Src.parse_fits (unq := unq) (Src.doc_put_fits hf hok).1
  rw [Src.doc_edited hf hok hmv he, ← htext] at hp
  rw [hp]
  refine congrArg Except.ok ?_
  simp only [documentOf, edited]
  have e1 : (is.map fun i => (newInstr es unq i).remap (movedTo es)) =
      (is.map (newInstr es unq)).map (·.remap (movedTo es)) := by simp
  rw [e1, Src.globalArgs_remap, Src.globalArgs_newInstr, Src.numberStages_remap, Src.numberStages_newInstr,
    List.map_map, List.map_map]
  rfl

/-! A document with an instruction of every kind, nearly all of whose texts are replaced. -/

def editText : Str :=
  c!"ARG v=\"1 2\"\nFROM --platform=x a AS b\nRUN go build \\\n # note 1\n -o x\nCMD [\"a b\", 'c']\n" ++
  c!"COPY --chown=u s \"t\" d\nLABEL n=\"q \\\nr\" m=k\nENV k v w\nENV j='x' i=y\nEXPOSE 80 81\n"

def editDoc : Dockerfile :=
  match Dockerfile.parse Enquote.unquote editText with
  | .ok d => d
  | .error _ => ⟨[], [], []⟩

theorem editDoc_parse : Dockerfile.parse Enquote.unquote editText = .ok editDoc := by
  decide +kernel

/- The texts that may be replaced. -/
example : (editDoc.instructions.flatMap (fieldsOf Enquote.unquote)).map (·.1) =
    [⟨4, 5⟩, ⟨6, 11⟩, ⟨19, 27⟩, ⟨28, 29⟩, ⟨30, 31⟩, ⟨35, 36⟩, ⟨41, 50⟩, ⟨53, 61⟩, ⟨62, 67⟩, ⟨73, 78⟩, ⟨80, 83⟩,
     ⟨92, 97⟩, ⟨98, 99⟩, ⟨100, 101⟩, ⟨102, 105⟩, ⟨106, 107⟩, ⟨114, 115⟩, ⟨116, 123⟩, ⟨124, 125⟩, ⟨126, 127⟩,
     ⟨132, 133⟩, ⟨134, 137⟩, ⟨142, 143⟩, ⟨144, 147⟩, ⟨148, 149⟩, ⟨150, 151⟩, ⟨158, 164⟩] := by decide +kernel

def editList : List Edit :=
  [(⟨158, 164⟩, c!" 8080 é"), (⟨6, 11⟩, c!"\"1.5 $x\""), (⟨41, 50⟩, c!"cargo test ")]

theorem like_plain {t t' : Str} (h : Over Plain t) (h' : Over Plain t') : Src.Like t t' := by
  simpa using Src.Like.piece h h' .nil

/- The edits of the list are among them. -/
example : (editList.map (·.1)).Nodup ∧ ∀ e ∈ editList, EditOK Enquote.unquote editText editDoc e := by
  have hp : ∀ {c : Char} {l : List Char}, (∀ x ∈ c :: l, Plain x) → Over Plain (c :: l) := fun h => ⟨by simp, h⟩
  refine ⟨by decide, fun e he => ?_⟩
  simp only [editList, List.mem_cons, List.not_mem_nil, or_false] at he
  rcases he with rfl | rfl | rfl
  · have hi : editDoc.instructions[8]? = some (.misc ⟨⟨152, 164⟩, ⟨⟨152, 158⟩, c!"EXPOSE"⟩,
        ⟨⟨158, 164⟩, [.string ⟨⟨158, 164⟩, c!" 80 81"⟩]⟩⟩) := by decide +kernel
    refine ⟨⟨_, List.mem_of_getElem? hi, _, List.mem_cons_self, ?_, ?_⟩, c!" 80 81", ?_, ?_⟩
    · intro h
      revert h
      unfold IsKeyword
      decide
    · exact ⟨[' '], '8', _, rfl, by decide, by simp [Blanks], by decide, by decide⟩
    · exact ⟨editText.take 158, c!"\n", by decide +kernel, by decide +kernel, by decide +kernel⟩
    · exact .same ' ' (.piece (i := c!"80") (i' := c!"8080") (hp (by unfold Plain; decide)) (hp (by unfold Plain; decide))
        (.same ' ' (like_plain (hp (by unfold Plain; decide)) (hp (by unfold Plain; decide)))))
  · have hi : editDoc.instructions[0]? = some (.arg ⟨⟨0, 11⟩, ⟨⟨4, 5⟩, c!"v"⟩, some ⟨⟨6, 11⟩, c!"1 2"⟩⟩) := by
      decide +kernel
    refine ⟨⟨_, List.mem_of_getElem? hi, _, List.mem_cons_of_mem _ List.mem_cons_self, ?_⟩, c!"\"1 2\"", ?_, ?_⟩
    · exact ⟨c!"1.5 $x", by decide +kernel⟩
    · exact ⟨editText.take 6, editText.drop 11, by decide +kernel, by decide +kernel, by decide +kernel⟩
    · exact .same '"' (.piece (i := c!"1") (i' := c!"1.5") (hp (by unfold Plain; decide)) (hp (by unfold Plain; decide))
        (.same ' ' (.piece (i := c!"2") (i' := c!"$x") (hp (by unfold Plain; decide)) (hp (by unfold Plain; decide))
        (.same '"' .nil))))
  · have hi : editDoc.instructions[2]? = some (.run ⟨⟨37, 67⟩, .shell ⟨⟨41, 67⟩, [.string ⟨⟨41, 50⟩, c!"go build "⟩,
        .comment ⟨⟨53, 61⟩, c!"# note 1"⟩, .string ⟨⟨62, 67⟩, c!" -o x"⟩]⟩⟩) := by decide +kernel
    refine ⟨⟨_, List.mem_of_getElem? hi, _, List.mem_cons_self, trivial⟩, c!"go build ", ?_, ?_⟩
    · exact ⟨editText.take 41, editText.drop 50, by decide +kernel, by decide +kernel, by decide +kernel⟩
    · exact .piece (i := c!"go") (i' := c!"cargo") (hp (by unfold Plain; decide)) (hp (by unfold Plain; decide))
        (.same ' ' (.piece (i := c!"build") (i' := c!"test") (hp (by unfold Plain; decide))
          (hp (by unfold Plain; decide)) (.same ' ' .nil)))

example : Dockerfile.parse Enquote.unquote
      (c!"ARG v=\"1.5 $x\"\nFROM --platform=x a AS b\nRUN cargo test \\\n # note 1\n -o x\nCMD [\"a b\", 'c']\n" ++
       c!"COPY --chown=u s \"t\" d\nLABEL n=\"q \\\nr\" m=k\nENV k v w\nENV j='x' i=y\nEXPOSE 8080 é\n") =
    .ok (edited editList Enquote.unquote editText editDoc) := by decide +kernel

/- With the other texts. -/
example : Dockerfile.parse Enquote.unquote
      (c!"ARG ver=\"1 2\"\nFROM --p=y r.io/a:1 AS c-1\nRUN go build \\\n # see 1\n -y x\nCMD [\"é é\", 'd']\n" ++
       c!"COPY --mode=ug src \"u\" /dir/\nLABEL nn=\"$ \\\ns\" mm=kk\nENV K v x\nENV J='y' I=yy\nEXPOSE 80 81\n") =
    .ok (edited [(⟨4, 5⟩, c!"ver"), (⟨19, 27⟩, c!"p"), (⟨28, 29⟩, c!"y"), (⟨30, 31⟩, c!"r.io/a:1"),
      (⟨35, 36⟩, c!"c-1"), (⟨53, 61⟩, c!"# see 1"), (⟨62, 67⟩, c!" -y x"), (⟨73, 78⟩, c!"\"é é\""),
      (⟨80, 83⟩, c!"'d'"), (⟨92, 97⟩, c!"mode"), (⟨98, 99⟩, c!"ug"), (⟨100, 101⟩, c!"src"), (⟨102, 105⟩, c!"\"u\""),
      (⟨106, 107⟩, c!"/dir/"), (⟨114, 115⟩, c!"nn"), (⟨116, 123⟩, c!"\"$ \\\ns\""), (⟨124, 125⟩, c!"mm"),
      (⟨126, 127⟩, c!"kk"), (⟨132, 133⟩, c!"K"), (⟨134, 137⟩, c!"v x"), (⟨142, 143⟩, c!"J"), (⟨144, 147⟩, c!"'y'"),
      (⟨148, 149⟩, c!"I"), (⟨150, 151⟩, c!"yy")] Enquote.unquote editText editDoc) := by decide +kernel

/-! ## the conditions are needed -/

/-- what the parser makes of a text, in words: the kinds of the instructions -/
def kinds (s : Str) : Option (List String) :=
  match Dockerfile.parse Enquote.unquote s with
  | .ok d => some (d.instructions.map fun
      | .from _ => "from" | .arg _ => "arg" | .label _ => "label" | .run _ => "run" | .entrypoint _ => "entrypoint"
      | .cmd _ => "cmd" | .copy _ => "copy" | .env _ => "env" | .misc _ => "misc")
  | .error _ => none

/-- C57: the arguments of a keyword that is taken for an unknown instruction: with other arguments it
is an instruction. -/
theorem C57_keyword : kinds c!"ARG 1\n" = some ["misc"] ∧ kinds c!"ARG a\n" = some ["arg"] := by decide +kernel

/-- C57: arguments that do not start with a blank: the start may become a part of the word. -/
theorem C57_word :
    (Dockerfile.parse Enquote.unquote c!"FOO-x\n").toOption.map (·.instructions) = some [.misc ⟨⟨0, 5⟩,
      ⟨⟨0, 3⟩, c!"FOO"⟩, ⟨⟨3, 5⟩, [.string ⟨⟨3, 5⟩, c!"-x"⟩]⟩⟩] ∧
    (Dockerfile.parse Enquote.unquote c!"FOOx\n").toOption = none := by decide +kernel

/-- C57: a path that looks like a flag. -/
theorem C57_flag : kinds c!"COPY a=b c d\n" = some ["copy"] ∧
    (Dockerfile.parse Enquote.unquote c!"COPY a=b c d\n").toOption.map (fun d => d.instructions.map fun
      | .copy i => (i.flags.length, i.sources.length) | _ => (0, 0)) = some [(0, 2)] ∧
    (Dockerfile.parse Enquote.unquote c!"COPY --a=b c d\n").toOption.map (fun d => d.instructions.map fun
      | .copy i => (i.flags.length, i.sources.length) | _ => (0, 0)) = some [(1, 1)] := by decide +kernel

/-- C57: a text in quotes that cannot be unquoted. -/
theorem C57_quotes : kinds c!"ARG a=\"\\n\"\n" = some ["arg"] ∧ kinds c!"ARG a=\"\\q\"\n" = none := by
  decide +kernel

/-- C57: new texts with characters that have a meaning. -/
theorem C57_meaning : kinds c!"RUN a\n" = some ["run"] ∧ kinds c!"RUN a\nCMD b\n" = some ["run", "cmd"] := by
  decide +kernel

end Verif
