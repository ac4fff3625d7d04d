import Verif.Spec.Rename
import Verif.Props.Edit
import Verif.Props.StageShape
import Verif.Props.Forms
import Verif.Proof.SpliceProgram

/-! # Another name for a stage (C92) -/

namespace Verif
open Spec

/-! ## where the edits are -/

theorem fromEdits_spans {a b : Str} {seen : Bool} {f : FromInstruction} {e : Edit} (h : e ∈ fromEdits a b seen f) :
    e.2 = b ∧ (e.1 = f.image.span ∧ (seen && IsFrom a f) = true ∨ ∃ x, f.alias = some x ∧ e.1 = x.span ∧ Names a f = true) := by
  unfold fromEdits at h
  rcases List.mem_append.1 h with h | h
  · split at h
    · next hc => cases List.mem_singleton.1 h; exact ⟨rfl, .inl ⟨rfl, hc⟩⟩
    · cases h
  · split at h
    · next x hx =>
      split at h
      · next hc => cases List.mem_singleton.1 h; exact ⟨rfl, .inr ⟨x, hx, rfl, hc⟩⟩
      · cases h
    · cases h

theorem fromEdits_field {a b : Str} {seen : Bool} {f : FromInstruction} {e : Edit} (h : e ∈ fromEdits a b seen f) :
    e.1 ∈ fieldSpans (.from f) := by
  obtain ⟨-, ⟨h1, -⟩ | ⟨x, hx, h1, -⟩⟩ := fromEdits_spans h
  · simp [fieldSpans, h1]
  · simp [fieldSpans, h1, hx]

theorem renameEdits_field {a b : Str} (is : List Instruction) : ∀ {seen : Bool} {e : Edit}, e ∈ renameEdits a b seen is →
    ∃ f seen, .from f ∈ is ∧ e ∈ fromEdits a b seen f := by
  induction is with
  | nil => intro seen e h; cases h
  | cons i is ih =>
    intro seen e h
    cases i
    case «from» f =>
      rcases List.mem_append.1 h with h | h
      · exact ⟨f, seen, List.mem_cons_self, h⟩
      · obtain ⟨g, s, h1, h2⟩ := ih h
        exact ⟨g, s, List.mem_cons_of_mem _ h1, h2⟩
    all_goals
      obtain ⟨g, s, h1, h2⟩ := ih h
      exact ⟨g, s, List.mem_cons_of_mem _ h1, h2⟩

/-! ## what the edits do -/

theorem newStr_away {es : List Edit} {s : SpannedString} (h : s.span ∉ es.map (·.1)) (f : Str → Str) :
    newStr es f s = s := by
  unfold newStr
  cases he : es.find? fun e => e.1 == s.span with
  | none => rfl
  | some e =>
    have h1 := List.find?_some he
    have h2 := List.mem_of_find?_eq_some he
    exact absurd (List.mem_map.2 ⟨e, h2, by simpa using h1⟩) h

theorem newStr_at {es : List Edit} {b : Str} (hb : ∀ e ∈ es, e.2 = b) {s : SpannedString} (h : s.span ∈ es.map (·.1)) :
    newStr es id s = ⟨s.span, b⟩ := by
  unfold newStr
  cases he : es.find? fun e => e.1 == s.span with
  | none =>
    obtain ⟨e, h1, h2⟩ := List.mem_map.1 h
    exact absurd (by simpa using h2) (by simpa using List.find?_eq_none.1 he e h1)
  | some e => rw [← hb e (List.mem_of_find?_eq_some he)]; rfl

theorem map_away {α : Type} {l : List α} {f : α → α} (h : ∀ x ∈ l, f x = x) : l.map f = l := by
  conv => rhs; rw [← List.map_id l]
  exact List.map_congr_left h

section
variable {es : List Edit} {unq : Unquote}

theorem newFlag_away {fs : List Flag} (h : ∀ sp ∈ fs.flatMap flagSpans, sp ∉ es.map (·.1)) :
    fs.map (newFlag es unq) = fs := by
  refine map_away fun f hf => ?_
  unfold newFlag
  rw [newStr_away (h _ (List.mem_flatMap.2 ⟨f, hf, by simp [flagSpans]⟩)),
    newStr_away (h _ (List.mem_flatMap.2 ⟨f, hf, by simp [flagSpans]⟩))]

theorem newBreakable_away {b : BreakableString} (h : ∀ sp ∈ breakableSpans b, sp ∉ es.map (·.1)) (f : Str → Str) :
    newBreakable es f b = b := by
  unfold newBreakable
  rw [map_away fun c hc => ?_]
  have : componentSpan c ∉ es.map (·.1) := h _ (List.mem_cons_of_mem _ (List.mem_map.2 ⟨c, hc, rfl⟩))
  cases c with
  | string s => simp only [newComponent]; rw [newStr_away this]
  | comment s =>
    simp only [newComponent]
    rw [newStr_away (s := ⟨s.span, s.content⟩) this]

theorem newExec_away {i : ExecInstruction} (h : ∀ sp ∈ exprSpans i.expr, sp ∉ es.map (·.1)) :
    newExec es unq i = i := by
  obtain ⟨sp, e⟩ := i
  unfold newExec
  cases e with
  | shell b => simp only [newExpr]; rw [newBreakable_away h]
  | exec a =>
    simp only [newExpr]
    rw [map_away fun s hs => newStr_away (h _ (List.mem_cons_of_mem _ (List.mem_map.2 ⟨s, hs, rfl⟩))) _]

/-- an instruction other than `FROM` without edits -/
theorem newInstr_away {i : Instruction} (hn : isFrom i = false) (h : ∀ sp ∈ fieldSpans i, sp ∉ es.map (·.1)) :
    newInstr es unq i = i := by
  cases i with
  | «from» f => cases hn
  | arg i =>
    obtain ⟨sp, n, v⟩ := i
    simp only [newInstr, newArg]
    rw [newStr_away (h _ List.mem_cons_self)]
    cases v with
    | none => rfl
    | some v => rw [Option.map_some, newStr_away (h _ (by simp [fieldSpans]))]
  | label i =>
    simp only [newInstr]
    rw [map_away fun l hl => ?_]
    have : ∀ sp ∈ [l.span, l.name.span, l.value.span], sp ∉ es.map (·.1) := fun sp hsp =>
      h sp (List.mem_flatMap.2 ⟨l, hl, hsp⟩)
    rw [newStr_away (this _ (by simp)), newStr_away (this _ (by simp))]
  | run i => exact congrArg _ (newExec_away h)
  | cmd i => exact congrArg _ (newExec_away h)
  | entrypoint i => exact congrArg _ (newExec_away h)
  | copy i =>
    simp only [newInstr]
    simp only [fieldSpans, List.mem_append] at h
    rw [newFlag_away fun sp hsp => h sp (.inl hsp),
      map_away fun s hs => newStr_away (h _ (.inr (.inl (List.mem_map.2 ⟨s, hs, rfl⟩)))) _,
      newStr_away (h _ (.inr (.inr (by simp))))]
  | env i =>
    simp only [newInstr]
    rw [map_away fun v hv => ?_]
    have : ∀ sp ∈ v.span :: v.key.span :: breakableSpans v.value, sp ∉ es.map (·.1) := fun sp hsp =>
      h sp (List.mem_flatMap.2 ⟨v, hv, hsp⟩)
    simp only [newVar]
    rw [newStr_away (this _ (by simp)), newBreakable_away fun sp hsp => this sp (by simp [hsp])]
  | misc i =>
    simp only [newInstr]
    rw [newBreakable_away fun sp hsp => h sp (by simp [fieldSpans, hsp])]

/-- the spans of a `FROM` are different -/
def FromApart (f : FromInstruction) : Prop :=
  (∀ sp ∈ f.flags.flatMap flagSpans, sp ≠ f.image.span ∧ ∀ x, f.alias = some x → sp ≠ x.span) ∧
    ∀ x, f.alias = some x → f.image.span ≠ x.span

theorem newInstr_rename {a b : Str} {seen : Bool} {f : FromInstruction} (hb : ∀ e ∈ es, e.2 = b)
    (hp : f.image_parsed = ImageRef.parse f.image.content) (hap : FromApart f)
    (h : ∀ sp ∈ fieldSpans (.from f), sp ∈ es.map (·.1) ↔ sp ∈ (fromEdits a b seen f).map (·.1)) :
    newInstr es unq (.from f) = .from (renameFrom a b seen f) := by
  obtain ⟨h1, h2⟩ := hap
  have hfl : f.flags.map (newFlag es unq) = f.flags := newFlag_away fun sp hsp hm => by
    obtain ⟨e, he, rfl⟩ := List.mem_map.1 ((h sp (by simp [fieldSpans, hsp])).1 hm)
    obtain ⟨-, ⟨hc, -⟩ | ⟨x, hx, hc, -⟩⟩ := fromEdits_spans he
    · exact (h1 _ hsp).1 hc
    · exact (h1 _ hsp).2 x hx hc
  have him : f.image.span ∈ es.map (·.1) ↔ (seen && IsFrom a f) = true := by
    rw [h _ (by simp [fieldSpans])]
    constructor
    · intro hm
      obtain ⟨e, he, hs⟩ := List.mem_map.1 hm
      obtain ⟨-, ⟨-, hc⟩ | ⟨x, hx, hc, -⟩⟩ := fromEdits_spans he
      · exact hc
      · exact absurd (hs.symm.trans hc) (h2 x hx)
    · intro hc
      simp [fromEdits, hc]
  have hal : ∀ x, f.alias = some x → (x.span ∈ es.map (·.1) ↔ Names a f = true) := by
    intro x hx
    rw [h _ (by simp [fieldSpans, hx])]
    constructor
    · intro hm
      obtain ⟨e, he, hs⟩ := List.mem_map.1 hm
      obtain ⟨-, ⟨hc, -⟩ | ⟨y, hy, -, hc⟩⟩ := fromEdits_spans he
      · exact absurd (hc.symm.trans hs) (h2 x hx)
      · exact hc
    · intro hc
      simp [fromEdits, hc, hx]
  have e1 : newStr es id f.image = if seen && IsFrom a f then ⟨f.image.span, b⟩ else f.image := by
    split
    · next hc => exact newStr_at hb (him.2 hc)
    · next hc => exact newStr_away (fun hm => hc (him.1 hm)) _
  have e2 : f.alias.map (newStr es id) = f.alias.map fun x => if Names a f then ⟨x.span, b⟩ else x := by
    cases hx : f.alias with
    | none => rfl
    | some x =>
      simp only [Option.map_some, Option.some.injEq]
      split
      · next hc => exact newStr_at hb ((hal x hx).2 hc)
      · next hc => exact newStr_away (fun hm => hc ((hal x hx).1 hm)) _
  simp only [newInstr, renameFrom]
  rw [hfl, e1, e2, hp]
  split <;> rfl

theorem map_rename {a b : Str} (hb : ∀ e ∈ es, e.2 = b) (is : List Instruction) : ∀ {seen : Bool},
    (∀ f, .from f ∈ is → f.image_parsed = ImageRef.parse f.image.content ∧ FromApart f) →
    is.Pairwise (fun i j => ∀ x ∈ fieldSpans i, ∀ y ∈ fieldSpans j, x ≠ y) →
    (∀ i ∈ is, ∀ sp ∈ fieldSpans i, sp ∈ es.map (·.1) ↔ sp ∈ (renameEdits a b seen is).map (·.1)) →
    is.map (newInstr es unq) = renamed a b seen is := by
  induction is with
  | nil => intros; rfl
  | cons i is ih =>
    intro seen h1 h2 h3
    obtain ⟨h4, h5⟩ := List.pairwise_cons.1 h2
    have other : ∀ (sn : Bool) (sp : Span), sp ∈ fieldSpans i → sp ∉ (renameEdits a b sn is).map (·.1) := by
      intro sn sp hsp hm
      obtain ⟨e, he, rfl⟩ := List.mem_map.1 hm
      obtain ⟨g, s, hg, hf⟩ := renameEdits_field is he
      exact h4 _ hg _ hsp _ (fromEdits_field hf) rfl
    by_cases hi : isFrom i = false
    · have e : renameEdits a b seen (i :: is) = renameEdits a b seen is := by cases i <;> first | rfl | cases hi
      have e' : renamed a b seen (i :: is) = i :: renamed a b seen is := by cases i <;> first | rfl | cases hi
      rw [e, ] at h3
      rw [e', List.map_cons, newInstr_away hi fun sp hsp hm => other seen sp hsp ((h3 i List.mem_cons_self sp hsp).1 hm),
        ih (fun f hf => h1 f (List.mem_cons_of_mem _ hf)) h5 fun j hj => h3 j (List.mem_cons_of_mem _ hj)]
    · cases i
      case «from» f =>
        obtain ⟨hp, hap⟩ := h1 f List.mem_cons_self
        have e : renameEdits a b seen (.from f :: is) = fromEdits a b seen f ++ renameEdits a b (seen || Names a f) is := rfl
        rw [e, List.map_append] at h3
        rw [List.map_cons, newInstr_rename (seen := seen) hb hp hap fun sp hsp => ?_,
          ih (seen := seen || Names a f) (fun f hf => h1 f (List.mem_cons_of_mem _ hf)) h5 fun j hj sp hsp => ?_]
        · rfl
        · rw [h3 j (List.mem_cons_of_mem _ hj) sp hsp, List.mem_append]
          refine ⟨fun h => h.resolve_left fun hm => ?_, .inr⟩
          obtain ⟨e, he, hs⟩ := List.mem_map.1 hm
          exact h4 j hj _ (fromEdits_field he) _ hsp hs
        · rw [h3 _ List.mem_cons_self sp hsp, List.mem_append]
          exact ⟨fun h => h.resolve_right (other _ sp hsp), .inl⟩
      all_goals exact absurd rfl hi

end

/-! ## the spans of a parsed document -/

section
variable {unq : Unquote} {s : Str} {d : Dockerfile} (h : Dockerfile.parse unq s = .ok d)
include h

theorem parsed_apart : d.instructions.Pairwise (fun i j => ∀ x ∈ fieldSpans i, ∀ y ∈ fieldSpans j, x ≠ y) := by
  refine pairwise_split fun a i b j c e => ?_
  have hi : i ∈ d.instructions := by rw [e]; simp
  have hj : j ∈ d.instructions := by rw [e]; simp
  have ho := (C05_instructions_in_order unq s d h _ _ _ _ _ e).1
  rintro x hx y hy rfl
  have w1 := (C06_fields_within unq s d h _ hi x (List.mem_cons_of_mem _ hx)).2
  have w2 := (C06_fields_within unq s d h _ hj x (List.mem_cons_of_mem _ hy)).1
  have := (C04_span_bounds unq s d h _ hi x (List.mem_cons_of_mem _ hx)).1
  omega

theorem parsed_fromApart {f : FromInstruction} (hf : .from f ∈ d.instructions) : FromApart f := by
  have ho := C06_fields_ordered unq s d h _ hf
  have hpos : ∀ sp ∈ fieldSpans (.from f), sp.start < sp.stop := fun sp hsp =>
    (C04_span_bounds unq s d h _ hf sp (List.mem_cons_of_mem _ hsp)).1
  simp only [topSpans, List.pairwise_append, List.pairwise_cons] at ho
  obtain ⟨-, ⟨h2, -⟩, h3⟩ := ho
  have fl : ∀ sp ∈ f.flags.flatMap flagSpans, ∃ g ∈ f.flags, sp.stop ≤ g.span.stop := by
    intro sp hsp
    obtain ⟨g, hg, hs⟩ := List.mem_flatMap.1 hsp
    refine ⟨g, hg, ?_⟩
    have := (C06_subfields_ordered unq s d h _ hf (g.span, [g.name.span, g.value.span])
      (List.mem_map.2 ⟨g, hg, rfl⟩)).2
    simp only [flagSpans, List.mem_cons, List.not_mem_nil, or_false] at hs
    rcases hs with rfl | rfl | rfl
    · exact Nat.le_refl _
    · exact (this _ (by simp)).2
    · exact (this _ (by simp)).2
  refine ⟨fun sp hsp => ?_, fun x hx => ?_⟩
  · obtain ⟨g, hg, hle⟩ := fl sp hsp
    have hp := hpos sp (by simp [fieldSpans, hsp])
    refine ⟨fun e => ?_, fun x hx e => ?_⟩
    · have := h3 g.span (List.mem_map.2 ⟨g, hg, rfl⟩) f.image.span (by simp)
      rw [e] at hle hp
      omega
    · have := h3 g.span (List.mem_map.2 ⟨g, hg, rfl⟩) x.span (by simp [hx])
      rw [e] at hle hp
      omega
  · intro e
    have := h2 x.span (by simp [hx])
    have hp := hpos x.span (by simp [fieldSpans, hx])
    rw [e] at this
    omega

/-- the text at the span of an alias is the alias -/
theorem alias_slice {f : FromInstruction} (hf : .from f ∈ d.instructions) {x : SpannedString} (hx : f.alias = some x) :
    SliceOf s x.span x.content := by
  obtain ⟨a, i, r, rfl, -, -, j, h3⟩ := source_from h _ hf
  have ht := Src.Item.eval_tag h3
  cases i with
  | «from» kw fs g im al =>
    obtain ⟨fl, -, h3⟩ := Src.bind_ok h3
    obtain ⟨_, -, h3⟩ := Src.bind_ok h3
    cases f
    cases h3
    cases al with
    | none => cases hx
    | some y =>
      cases hx
      refine ⟨a ++ (kw ++ (Src.flagsText fs ++ (g ++ (im ++ (y.gap ++ (y.kw ++ y.gap')))))), r, ?_, ?_, ?_⟩
      · simp [Src.Item.text, Src.aliasText, AliasText.text, AliasText.name_at]
      · simp [blen_append, AliasText.name_at]; omega
      · simp [blen_append, AliasText.name_at]; omega
  | shell k => cases k <;> exact absurd ht (by simp [Src.tag, Src.Item.tag, ExecKind.instr])
  | exec k => cases k <;> exact absurd ht (by simp [Src.tag, Src.Item.tag, ExecKind.instr])
  | _ => exact absurd ht (by simp [Src.tag, Src.Item.tag])

end

theorem image_isPlain {c : Char} (h : IsImageChar c) : Plain c := by
  unfold Plain
  intro hm
  simp only [List.mem_cons, List.not_mem_nil, or_false] at hm
  revert h
  rcases hm with rfl | rfl | rfl | rfl | rfl | rfl | rfl | rfl | rfl | rfl | rfl | rfl | rfl | rfl | rfl <;>
    unfold IsImageChar IsAlpha IsDigit <;> decide

theorem ident_isImage {c : Char} (h : IsIdent c) : IsImageChar c := by
  rcases h with h | h | h | h
  · exact .inl h
  · exact .inr (.inl h)
  · exact .inr (.inr (.inl h))
  · exact .inr (.inr (.inr (.inl h)))

theorem ident_digest {b : Str} (h : Over IsIdent b) : DigestOK (ImageRef.parse b) := by
  intro g hg
  have hd := C18_display_parse b
  rw [display_eq, hg] at hd
  have : '@' ∈ b := by
    rw [← hd]
    rcases C19_tag_hash_exclusive b with e | e
    · rw [e]; simp [suffixText]
    · rw [hg] at e; cases e
  exact absurd (h.2 _ this) (by unfold IsIdent IsAlpha IsDigit; decide)

/-! ## the document -/

/-- C92 (the text): the edits can be applied, and the result is parsed to the same document with the
new name. -/
theorem C92_document {unq : Unquote} {s : Str} {d : Dockerfile} (h : Dockerfile.parse unq s = .ok d)
    {a b : Str} (hb : Over IsIdent b) :
    ∃ sp, (Splicer.ofDockerfile d).spliceAll (renameEdits a b false d.instructions) = some sp ∧
      Dockerfile.parse unq sp.content = .ok
        { content := simul (renameEdits a b false d.instructions) 0 s
          global_args := d.global_args.map (·.remap (movedTo (renameEdits a b false d.instructions)))
          instructions := (renamed a b false d.instructions).map
            (·.remap (movedTo (renameEdits a b false d.instructions))) } := by
  have hap := parsed_apart h
  have hfr : ∀ f, .from f ∈ d.instructions → f.image_parsed = ImageRef.parse f.image.content ∧ FromApart f :=
    fun f hf => ⟨C49_image_parsed unq s d h f hf, parsed_fromApart h hf⟩
  have hn : ((renameEdits a b false d.instructions).map (·.1)).Nodup := by
    generalize false = seen
    have hfr' := fun f hf => (hfr f hf).2
    clear hfr
    generalize d.instructions = is at hap hfr'
    induction is generalizing seen with
    | nil => exact .nil
    | cons i is ih =>
      obtain ⟨h4, h5⟩ := List.pairwise_cons.1 hap
      have h6 := fun sn => ih sn h5 fun f hf => hfr' f (List.mem_cons_of_mem _ hf)
      cases i
      case «from» f =>
        show (List.map _ (fromEdits a b seen f ++ renameEdits a b (seen || Names a f) is)).Nodup
        rw [List.map_append, List.nodup_append]
        refine ⟨?_, h6 _, fun x hx y hy e => ?_⟩
        · have := (hfr' f List.mem_cons_self).2
          unfold fromEdits
          cases hx : f.alias with
          | none => split <;> simp
          | some x =>
            have := this x hx
            by_cases c1 : (seen && IsFrom a f) = true <;> by_cases c2 : Names a f = true <;> simp [c1, c2, this]
        · obtain ⟨e1, he1, rfl⟩ := List.mem_map.1 hx
          obtain ⟨e2, he2, rfl⟩ := List.mem_map.1 hy
          obtain ⟨g, sn, hg, hm⟩ := renameEdits_field is he2
          exact h4 _ hg _ (fromEdits_field he1) _ (fromEdits_field hm) e
      all_goals exact h6 seen
  have hall : ∀ e ∈ renameEdits a b false d.instructions, e.2 = b := fun e he => by
    obtain ⟨f, sn, -, hm⟩ := renameEdits_field _ he
    exact (fromEdits_spans hm).1
  obtain ⟨sp, h1, h2⟩ := C57_edit h (renameEdits a b false d.instructions) hn fun e he => by
    obtain ⟨f, sn, hf, hm⟩ := renameEdits_field _ he
    have hl := C50_lexical unq s d h _ hf
    have hbp : Over Plain b := ⟨hb.1, fun c hc => image_isPlain (ident_isImage (hb.2 c hc))⟩
    obtain ⟨e2, ⟨e1, -⟩ | ⟨x, hx, e1, -⟩⟩ := fromEdits_spans hm
    · refine ⟨⟨_, hf, fun t => Over IsImageChar t ∧ DigestOK (ImageRef.parse t), ?_, ?_⟩, f.image.content, ?_, ?_⟩
      · rw [e1]
        exact List.mem_append_right _ List.mem_cons_self
      · rw [e2]
        exact ⟨⟨hb.1, fun c hc => ident_isImage (hb.2 c hc)⟩, ident_digest hb⟩
      · rw [e1]
        exact image_slice h hf
      · rw [e2]
        exact like_plain ⟨hl.2.1.1, fun c hc => image_isPlain (hl.2.1.2 c hc)⟩ hbp
    · have ho := hl.2.2 x hx
      refine ⟨⟨_, hf, Over IsIdent, ?_, ?_⟩, x.content, ?_, ?_⟩
      · rw [e1]
        exact List.mem_append_right _ (List.mem_cons_of_mem _ (by simp [hx]))
      · rw [e2]
        exact hb
      · rw [e1]
        exact alias_slice h hf hx
      · rw [e2]
        exact like_plain ⟨ho.1, fun c hc => image_isPlain (ident_isImage (ho.2 c hc))⟩ hbp
  refine ⟨sp, h1, h2.trans (congrArg Except.ok ?_)⟩
  have hm := map_rename (unq := unq) hall d.instructions (seen := false) hfr hap fun _ _ _ _ => Iff.rfl
  unfold edited
  rw [← hm, List.map_map]
  congr 1
  refine List.map_congr_left fun x hx => ?_
  have hx' := C04_global_args unq s d h x hx
  have := newInstr_away (es := renameEdits a b false d.instructions) (unq := unq) (i := .arg x) rfl fun sp hsp hmem => by
    obtain ⟨e, he, rfl⟩ := List.mem_map.1 hmem
    obtain ⟨f, sn, hf, hm⟩ := renameEdits_field _ he
    have hfe := fromEdits_field hm
    rcases two_split hx' hf with e | ⟨u, v, w, e⟩ | ⟨u, v, w, e⟩
    · cases e
    · rw [e] at hap
      simp only [List.pairwise_append, List.pairwise_cons] at hap
      exact hap.2.1.1 (.from f) (by simp) _ hsp _ hfe rfl
    · rw [e] at hap
      simp only [List.pairwise_append, List.pairwise_cons] at hap
      exact hap.2.1.1 (.arg x) (by simp) _ hfe _ hsp rfl
  rw [Instruction.arg.inj this]

/-! ## the stages -/

/-- the `FROM`s with the new name -/
def renamedFroms (a b : Str) : Bool → List FromInstruction → List FromInstruction
  | _, [] => []
  | seen, f :: fs => renameFrom a b seen f :: renamedFroms a b (seen || Names a f) fs

theorem fromsOf_renamed (a b : Str) (m : Nat → Nat) (is : List Instruction) : ∀ seen,
    fromsOf ((renamed a b seen is).map (·.remap m)) = (renamedFroms a b seen (fromsOf is)).map (·.remap m) := by
  induction is with
  | nil => intro seen; rfl
  | cons i is ih =>
    intro seen
    cases i
    case «from» f => exact congrArg (_ :: ·) (ih _)
    all_goals exact ih seen

theorem renamedFroms_length (a b : Str) (fs : List FromInstruction) : ∀ seen,
    (renamedFroms a b seen fs).length = fs.length := by
  induction fs with
  | nil => intro seen; rfl
  | cons f fs ih => intro seen; exact congrArg (· + 1) (ih _)

theorem renamedFroms_get {a b : Str} (fs : List FromInstruction) : ∀ (seen : Bool) (i : Nat) (f : FromInstruction), fs[i]? = some f →
    ∃ sn, (renamedFroms a b seen fs)[i]? = some (renameFrom a b sn f) ∧
      (sn = true ↔ seen = true ∨ ∃ j g, j < i ∧ fs[j]? = some g ∧ Names a g = true) := by
  induction fs with
  | nil => intro seen i f h; cases h
  | cons f0 fs ih =>
    intro seen i f h
    cases i with
    | zero =>
      cases h
      exact ⟨seen, rfl, .inl, fun hc => hc.elim id fun ⟨j, _, hj, _⟩ => absurd hj (by omega)⟩
    | succ i =>
      obtain ⟨sn, h1, h2⟩ := ih (seen || Names a f0) i f h
      refine ⟨sn, h1, ?_⟩
      rw [h2, Bool.or_eq_true]
      constructor
      · rintro ((h | h) | ⟨j, g, hj, hg, hn⟩)
        · exact .inl h
        · exact .inr ⟨0, f0, by omega, rfl, h⟩
        · exact .inr ⟨j + 1, g, by omega, hg, hn⟩
      · rintro (h | ⟨j, g, hj, hg, hn⟩)
        · exact .inl (.inl h)
        · cases j with
          | zero => cases hg; exact .inl (.inr hn)
          | succ j => exact .inr ⟨j, g, by omega, hg, hn⟩

instance (a b : Str) : Decidable (SameName a b) := inferInstanceAs (Decidable (lower a = lower b))

/-- the new names are related as the old ones -/
theorem rename_relates {a b : Str} (ha : ¬ SameName a c!"scratch") (hb : ¬ SameName b c!"scratch")
    {fs : List FromInstruction} (hf : ∀ f ∈ fs, FreshIn a b f) (m : Nat → Nat) {i : Nat} {f : FromInstruction}
    (hi : fs[i]? = some f) :
    ∃ f', ((renamedFroms a b false fs).map (·.remap m))[i]? = some f' ∧
      f'.alias.map (lower ·.content) = newName a b (f.alias.map (lower ·.content)) ∧
      (FromScratch fs i ↔ FromScratch ((renamedFroms a b false fs).map (·.remap m)) i) ∧
      (∀ j, j < i → (Refers fs i j ↔ Refers ((renamedFroms a b false fs).map (·.remap m)) i j)) ∧
      ((∀ j, j < i → ¬ Refers fs i j) → f'.image_parsed = f.image_parsed) := by
  have get : ∀ {i : Nat} {f : FromInstruction}, fs[i]? = some f → ∃ sn, ((renamedFroms a b false fs).map (·.remap m))[i]? =
      some ((renameFrom a b sn f).remap m) ∧ (sn = true ↔ ∃ (j : Nat) (g : FromInstruction), j < i ∧ fs[j]? = some g ∧ Names a g = true) := by
    intro i f h
    obtain ⟨sn, h1, h2⟩ := renamedFroms_get (a := a) (b := b) fs false i f h
    exact ⟨sn, by rw [List.getElem?_map, h1]; rfl, by simpa using h2⟩
  have names : ∀ {g : FromInstruction} {x}, g.alias = some x → (Names a g = true ↔ SameName x.content a) := by
    intro g x hx
    simp [Names, hx, SameName]
  obtain ⟨sn, h1, h2⟩ := get hi
  have hff := hf f (List.mem_of_getElem? hi)
  have him : ((renameFrom a b sn f).remap m).image.content =
      if sn = true ∧ SameName f.image.content a then b else f.image.content := by
    have : (sn && IsFrom a f) = true ↔ sn = true ∧ SameName f.image.content a := by simp [IsFrom, SameName]
    simp only [renameFrom, FromInstruction.remap, SpannedString.remap, this]
    split <;> rfl
  have hal : ∀ {sn : Bool} {g : FromInstruction}, ((renameFrom a b sn g).remap m).alias.map (·.content) =
      g.alias.map fun x => if SameName x.content a then b else x.content := by
    intro sn g
    cases hx : g.alias with
    | none => simp [renameFrom, FromInstruction.remap, hx]
    | some x =>
      by_cases c : SameName x.content a <;>
        simp [renameFrom, FromInstruction.remap, SpannedString.remap, hx, (names hx), c]
  refine ⟨_, h1, ?_, ?_, fun j hj => ?_, fun hno => ?_⟩
  · have := hal (sn := sn) (g := f)
    cases hx : f.alias with
    | none => simp [renameFrom, FromInstruction.remap, hx, newName]
    | some x =>
      rw [hx] at this
      simp only [Option.map_some] at this
      obtain ⟨y, hy, e⟩ := Option.map_eq_some_iff.1 this
      rw [hy]
      simp only [Option.map_some, newName, e]
      by_cases hc : SameName x.content a
      · rw [if_pos hc, if_pos (show lower x.content = lower a from hc)]
      · rw [if_neg hc, if_neg (show ¬ lower x.content = lower a from hc)]
  · constructor
    · rintro ⟨g, hg, hs⟩
      rw [hi] at hg; cases hg
      refine ⟨_, h1, ?_⟩
      rw [him, if_neg fun hc => ha (hc.2.symm.trans hs)]
      exact hs
    · rintro ⟨g, hg, hs⟩
      rw [h1] at hg; cases hg
      rw [him] at hs
      split at hs
      · exact absurd hs hb
      · exact ⟨f, hi, hs⟩
  · constructor
    · rintro ⟨f0, g, x, hg1, hg2, hx, hs⟩
      rw [hi] at hg1; cases hg1
      obtain ⟨sn', k1, -⟩ := get hg2
      have := hal (sn := sn') (g := g)
      rw [hx, Option.map_some] at this
      obtain ⟨y, hy, e⟩ := Option.map_eq_some_iff.1 this
      refine ⟨_, _, y, h1, k1, hy, ?_⟩
      rw [him, e]
      by_cases c : SameName x.content a
      · rw [if_pos c, if_pos ⟨h2.2 ⟨j, g, hj, hg2, (names hx).2 c⟩, hs.symm.trans c⟩]
        rfl
      · rw [if_neg c, if_neg fun hc => c (hs.trans hc.2)]
        exact hs
    · rintro ⟨f0, g', y, hg1, hg2, hy, hs⟩
      rw [h1] at hg1; cases hg1
      obtain ⟨g, hg⟩ : ∃ g, fs[j]? = some g := by
        have := (List.getElem?_eq_some_iff.1 hg2).1
        rw [List.length_map, renamedFroms_length] at this
        exact ⟨_, List.getElem?_eq_getElem this⟩
      obtain ⟨sn', k1, -⟩ := get hg
      rw [k1] at hg2; cases hg2
      have := hal (sn := sn') (g := g)
      rw [hy] at this
      obtain ⟨x, hx, e⟩ := Option.map_eq_some_iff.1 this.symm
      refine ⟨f, g, x, hi, hg, hx, ?_⟩
      rw [him, show y.content = _ from e.symm] at hs
      have hgf := (hf g (List.mem_of_getElem? hg)).2 x hx
      by_cases c : SameName x.content a
      · rw [if_pos c] at hs
        split at hs
        · next hc => exact c.trans hc.2.symm
        · exact c.trans (hff.1 hs.symm).symm
      · rw [if_neg c] at hs
        split at hs
        · exact absurd (hgf hs) c
        · exact hs
  · have : ¬ ((sn && IsFrom a f) = true) := by
      intro hc
      rw [Bool.and_eq_true] at hc
      obtain ⟨j, g, hj, hg, hn⟩ := h2.1 hc.1
      cases hx : g.alias with
      | none => simp [Names, hx] at hn
      | some x =>
        refine hno j hj ⟨f, g, x, hi, hg, hx, ((names hx).1 hn).trans ?_⟩
        have := hc.2
        simp only [IsFrom, beq_iff_eq] at this
        exact this.symm
    simp [renameFrom, FromInstruction.remap, this]

/-- stages with the same parents have the same roots -/
theorem rootsTo_parents {ss ss' : List Stage}
    (h : ∀ (i : Nat) (s : Stage), ss[i]? = some s → ∃ s' : Stage, ss'[i]? = some s' ∧ s'.parent = s.parent) {i : Nat} {r : StageParent}
    (hr : RootsTo ss i r) : RootsTo ss' i r := by
  induction hr with
  | base i s hs hp =>
    obtain ⟨s', h1, h2⟩ := h i s hs
    rw [← h2]
    exact .base i s' h1 (by rw [h2]; exact hp)
  | link i j s r hs hp _ ih =>
    obtain ⟨s', h1, h2⟩ := h i s hs
    exact .link i j s' r h1 (h2.trans hp) ih

/-- the first stage with a name, if the names correspond -/
theorem getByName_map {n n' : Str} : ∀ {ss ss' : List Stage}, ss'.length = ss.length →
    (∀ (i : Nat) (t t' : Stage), ss[i]? = some t → ss'[i]? = some t' → t'.index = t.index ∧
      (t'.name = some (lower n') ↔ t.name = some (lower n))) →
    (getByName ss' n').map (·.index) = (getByName ss n).map (·.index) := by
  intro ss
  induction ss with
  | nil => intro ss' hl _; cases ss' with | nil => rfl | cons => cases hl
  | cons t ss ih =>
    intro ss' hl h
    cases ss' with
    | nil => cases hl
    | cons t' ss' =>
      obtain ⟨h1, h2⟩ := h 0 t t' rfl rfl
      have ih := ih (ss' := ss') (by simpa using hl) fun i u u' hu hu' => h (i + 1) u u' hu hu'
      unfold getByName at ih ⊢
      rw [List.find?_cons, List.find?_cons]
      by_cases c : t.name = some (lower n)
      · have c' := h2.2 c
        simp [c, c', h1]
      · have c' := fun x => c (h2.1 x)
        rw [beq_eq_false_iff_ne.2 c, beq_eq_false_iff_ne.2 c']
        exact ih

theorem C92_both {unq : Unquote} {s : Str} {d : Dockerfile} (h : Dockerfile.parse unq s = .ok d)
    {a b : Str} (hb : Over IsIdent b) (ha0 : ¬ SameName a c!"scratch") (hb0 : ¬ SameName b c!"scratch")
    (hf : ∀ f, .from f ∈ d.instructions → FreshIn a b f) :
    ∃ sp d' ss ss', (Splicer.ofDockerfile d).spliceAll (renameEdits a b false d.instructions) = some sp ∧
      Dockerfile.parse unq sp.content = .ok d' ∧ d.stages = some ss ∧ d'.stages = some ss' ∧
      ss'.length = ss.length ∧ (∀ (i : Nat) (t t' : Stage), ss[i]? = some t → ss'[i]? = some t' →
        t'.index = t.index ∧ t'.parent = t.parent ∧ t'.root = t.root ∧ t'.name = newName a b t.name) ∧
      ∀ t ∈ ss, t.name = some (lower b) → t.name = some (lower a) := by
  obtain ⟨sp, h1, h2⟩ := C92_document h (a := a) hb
  obtain ⟨ss, hs, hr⟩ := C15_root d
  generalize hd' : (⟨_, _, _⟩ : Dockerfile) = d' at h2
  obtain ⟨ss', hs', hr'⟩ := C15_root d'
  refine ⟨sp, d', ss, ss', h1, h2, hs, hs', ?_⟩
  obtain ⟨l1, o1⟩ := stages_froms hs
  obtain ⟨l2, o2⟩ := stages_froms hs'
  have hfr : fromsOf d'.instructions = (renamedFroms a b false (fromsOf d.instructions)).map
      (·.remap (movedTo (renameEdits a b false d.instructions))) := by
    rw [← hd']
    exact fromsOf_renamed _ _ _ _ _
  have hlen : ss'.length = ss.length := by
    rw [l1, l2, hfr, List.length_map, renamedFroms_length]
  have hfresh : ∀ f ∈ fromsOf d.instructions, FreshIn a b f := by
    intro f hm
    obtain ⟨i, hi, e⟩ := List.mem_filterMap.1 hm
    cases i
    case «from» g => cases e; exact hf f hi
    all_goals cases e
  have par : ∀ (i : Nat) (t t' : Stage), ss[i]? = some t → ss'[i]? = some t' →
      t'.parent = t.parent ∧ t'.name = newName a b t.name := by
    intro i t t' ht ht'
    obtain ⟨f, hif, ho⟩ := o1 i t ht
    obtain ⟨f', k1, k2, k3, k4, k5⟩ := rename_relates ha0 hb0 hfresh
      (movedTo (renameEdits a b false d.instructions)) hif
    rw [← hfr] at k1 k3 k4
    obtain ⟨a1, a2, a3⟩ := parent_froms hs ht
    obtain ⟨b1, b2, b3⟩ := parent_froms hs' ht'
    refine ⟨?_, ?_⟩
    · cases hp : t.parent with
      | scratch => exact b1.2 (k3.1 (a1.1 hp))
      | stage j =>
        obtain ⟨x, y, z, w⟩ := (a2 j).1 hp
        exact (b2 j).2 ⟨fun hc => x (k3.2 hc), y, (k4 j y).1 z, fun k hk hr => w k hk ((k4 k (by omega)).2 hr)⟩
      | image r =>
        obtain ⟨⟨f0, e1, e2⟩, x, y⟩ := (a3 r).1 hp
        rw [hif] at e1; cases e1
        exact (b3 r).2 ⟨⟨f', k1, by rw [e2, k5 y]⟩, fun hc => x (k3.2 hc), fun k hk hr => y k hk ((k4 k hk).2 hr)⟩
    · obtain ⟨-, g, ho1, e⟩ := C13_index_name d ss hs i t ht
      obtain ⟨-, g', ho1', e'⟩ := C13_index_name d' ss' hs' i t' ht'
      obtain ⟨f1, hf1, ho'⟩ := o2 i t' ht'
      rw [k1] at hf1; cases hf1
      unfold OpenedBy at ho ho1 ho' ho1'
      rw [ho] at ho1; cases ho1
      rw [ho'] at ho1'; cases ho1'
      rw [e, e']
      cases hx : f'.alias <;> cases hy : f.alias <;> rw [hx, hy] at k2 <;> first | rfl | cases k2 | exact k2
  refine ⟨hlen, fun i t t' ht ht' => ?_, fun t hm hn => ?_⟩
  rotate_left
  · obtain ⟨i, ht⟩ := List.getElem?_of_mem hm
    obtain ⟨f, hif, ho⟩ := o1 i t ht
    obtain ⟨-, g, ho1, e⟩ := C13_index_name d ss hs i t ht
    unfold OpenedBy at ho ho1
    rw [ho] at ho1; cases ho1
    rw [e] at hn ⊢
    cases hx : f.alias with
    | none => rw [hx] at hn; cases hn
    | some x =>
      rw [hx] at hn
      exact congrArg some ((hfresh f (List.mem_of_getElem? hif)).2 x hx (Option.some.inj hn))
  obtain ⟨p1, p2⟩ := par i t t' ht ht'
  refine ⟨?_, p1, ?_, p2⟩
  · rw [(C13_index_name d ss hs i t ht).1, (C13_index_name d' ss' hs' i t' ht').1]
  · refine C15_root_unique ss' i _ _ (hr' i t' ht').1 (rootsTo_parents (fun k u hu => ?_) (hr i t ht).1)
    obtain ⟨u', hu'⟩ : ∃ u', ss'[k]? = some u' := ⟨_, List.getElem?_eq_getElem (by
      rw [hlen]; exact (List.getElem?_eq_some_iff.1 hu).1)⟩
    exact ⟨u', hu', (par k u u' hu hu').1⟩

/-- C92: give another name to the stages called `a`, in the text of any accepted document: the result
is accepted, it has the same stages with the same parents and roots, and only the name is another
one. -/
theorem C92_rename {unq : Unquote} {s : Str} {d : Dockerfile} (h : Dockerfile.parse unq s = .ok d)
    {a b : Str} (hb : Over IsIdent b) (ha0 : ¬ SameName a c!"scratch") (hb0 : ¬ SameName b c!"scratch")
    (hf : ∀ f, .from f ∈ d.instructions → FreshIn a b f) :
    ∃ sp d' ss ss', (Splicer.ofDockerfile d).spliceAll (renameEdits a b false d.instructions) = some sp ∧
      Dockerfile.parse unq sp.content = .ok d' ∧ d.stages = some ss ∧ d'.stages = some ss' ∧
      ss'.length = ss.length ∧ ∀ (i : Nat) (t t' : Stage), ss[i]? = some t → ss'[i]? = some t' →
        t'.index = t.index ∧ t'.parent = t.parent ∧ t'.root = t.root ∧ t'.name = newName a b t.name := by
  obtain ⟨sp, d', ss, ss', h1, h2, h3, h4, h5, h6, -⟩ := C92_both h hb ha0 hb0 hf
  exact ⟨sp, d', ss, ss', h1, h2, h3, h4, h5, h6⟩

/-- C92 (lookups): the stage that was found under the name `a` is found under the name `b`; under any
third name the same stage is found as before. -/
theorem C92_lookup {unq : Unquote} {s : Str} {d : Dockerfile} (h : Dockerfile.parse unq s = .ok d)
    {a b : Str} (hb : Over IsIdent b) (ha0 : ¬ SameName a c!"scratch") (hb0 : ¬ SameName b c!"scratch")
    (hf : ∀ f, .from f ∈ d.instructions → FreshIn a b f) :
    ∃ sp d' ss ss', (Splicer.ofDockerfile d).spliceAll (renameEdits a b false d.instructions) = some sp ∧
      Dockerfile.parse unq sp.content = .ok d' ∧ d.stages = some ss ∧ d'.stages = some ss' ∧
      (getByName ss' b).map (·.index) = (getByName ss a).map (·.index) ∧
      ∀ n, ¬ SameName n a → ¬ SameName n b → (getByName ss' n).map (·.index) = (getByName ss n).map (·.index) := by
  obtain ⟨sp, d', ss, ss', h1, h2, h3, h4, h5, h6, h7⟩ := C92_both h hb ha0 hb0 hf
  refine ⟨sp, d', ss, ss', h1, h2, h3, h4, ?_, fun n na nb => ?_⟩
  · refine getByName_map h5 fun i t t' ht ht' => ?_
    obtain ⟨k1, -, -, k2⟩ := h6 i t t' ht ht'
    refine ⟨k1, ?_⟩
    have := h7 t (List.mem_of_getElem? ht)
    rw [k2]
    cases hn : t.name with
    | none => simp [newName]
    | some x =>
      by_cases c : x = lower a
      · simp [newName, c]
      · simp only [newName, Option.map_some, if_neg c, Option.some.injEq]
        exact ⟨fun e => absurd (Option.some.inj ((hn.symm.trans (this (by rw [hn, e]))))) c, fun e => absurd e c⟩
  · refine getByName_map h5 fun i t t' ht ht' => ?_
    obtain ⟨k1, -, -, k2⟩ := h6 i t t' ht ht'
    refine ⟨k1, ?_⟩
    rw [k2]
    cases hn : t.name with
    | none => simp [newName]
    | some x =>
      by_cases c : x = lower a
      · simp only [newName, Option.map_some, if_pos c, Option.some.injEq]
        exact ⟨fun e => absurd e.symm nb, fun e => absurd (e.symm.trans c) na⟩
      · simp only [newName, Option.map_some, if_neg c]

/-! ## examples -/

/-- rename in a text: the new text, and its stages -/
def renameIn (a b s : Str) : Option Str :=
  (Dockerfile.parse Enquote.unquote s).toOption.bind fun d =>
    ((Splicer.ofDockerfile d).spliceAll (renameEdits a b false d.instructions)).map (·.content)

def renameText : Str :=
  c!"ARG v=1\nFROM base\nFROM img:$v As Base\nRUN base\nFROM --platform=base BASE AS c\n" ++
  c!"COPY --from=base a b\nFROM c\nFROM base AS base\n"

/- The first image `base` is not a stage. -/
example : renameIn c!"base" c!"Build_1" renameText = some
    (c!"ARG v=1\nFROM base\nFROM img:$v As Build_1\nRUN base\nFROM --platform=base Build_1 AS c\n" ++
     c!"COPY --from=base a b\nFROM c\nFROM Build_1 AS Build_1\n") := by decide +kernel

example : (parentsOf renameText).map (·.map fun x => (x.1, x.2.1)) = some
      [(none, .image (ImageRef.parse c!"base")), (some c!"base", .image (ImageRef.parse c!"img:$v")),
       (some c!"c", .stage 1), (none, .stage 2), (some c!"base", .stage 1)] ∧
    ((renameIn c!"base" c!"Build_1" renameText).bind parentsOf).map (·.map fun x => (x.1, x.2.1)) = some
      [(none, .image (ImageRef.parse c!"base")), (some c!"build_1", .image (ImageRef.parse c!"img:$v")),
       (some c!"c", .stage 1), (none, .stage 2), (some c!"build_1", .stage 1)] := by decide +kernel

def renameDoc : Dockerfile :=
  match Dockerfile.parse Enquote.unquote renameText with
  | .ok d => d
  | .error _ => ⟨[], [], []⟩

/- The conditions hold of it. -/
example : Dockerfile.parse Enquote.unquote renameText = .ok renameDoc ∧ Over IsIdent c!"Build_1" ∧
    ¬ SameName c!"base" c!"scratch" ∧ ¬ SameName c!"Build_1" c!"scratch" ∧
    ∀ f, .from f ∈ renameDoc.instructions → FreshIn c!"base" c!"Build_1" f := by
  refine ⟨by decide +kernel, ⟨by decide, by unfold IsIdent IsAlpha IsDigit; decide⟩, by decide, by decide, fun f hf => ?_⟩
  have hall : ∀ n ∈ (fromsOf renameDoc.instructions).flatMap (fun f => f.image.content :: (f.alias.map (·.content)).toList),
      ¬ SameName n c!"Build_1" := by decide +kernel
  have hm : f ∈ fromsOf renameDoc.instructions := List.mem_filterMap.2 ⟨_, hf, rfl⟩
  exact ⟨fun h => absurd h (hall _ (List.mem_flatMap.2 ⟨f, hm, List.mem_cons_self⟩)),
    fun x hx h => absurd h (hall _ (List.mem_flatMap.2 ⟨f, hm, by simp [hx]⟩))⟩

/-- C92 (the conditions are needed): a name that is an image, or another stage, or `scratch`. -/
theorem C92_conditions :
    (((renameIn c!"a" c!"b" c!"FROM i AS a\nFROM b").bind parentsOf).map (·.map (·.2.1)) =
        some [.image (ImageRef.parse c!"i"), .stage 0] ∧
      (parentsOf c!"FROM i AS a\nFROM b").map (·.map (·.2.1)) =
        some [.image (ImageRef.parse c!"i"), .image (ImageRef.parse c!"b")]) ∧
    (((renameIn c!"a" c!"b" c!"FROM i AS b\nFROM j AS a\nFROM a").bind parentsOf).map (·.map (·.2.1)) =
        some [.image (ImageRef.parse c!"i"), .image (ImageRef.parse c!"j"), .stage 0] ∧
      (parentsOf c!"FROM i AS b\nFROM j AS a\nFROM a").map (·.map (·.2.1)) =
        some [.image (ImageRef.parse c!"i"), .image (ImageRef.parse c!"j"), .stage 1]) ∧
    ((renameIn c!"a" c!"scratch" c!"FROM i AS a\nFROM a").bind parentsOf).map (·.map (·.2.1)) =
        some [.image (ImageRef.parse c!"i"), .scratch] ∧
    (((renameIn c!"scratch" c!"a" c!"FROM i AS scratch\nFROM scratch").bind parentsOf).map (·.map (·.2.1)) =
        some [.image (ImageRef.parse c!"i"), .stage 0] ∧
      (parentsOf c!"FROM i AS scratch\nFROM scratch").map (·.map (·.2.1)) =
        some [.image (ImageRef.parse c!"i"), .scratch]) := by decide +kernel

end Verif
