import Verif.Proof.Update
import Verif.Proof.Remap
import Verif.Props.Source
import Verif.Props.Parse

/-! # New images (C43) -/

namespace Verif
open Spec

theorem image_in_spans (f : FromInstruction) : f.image.span ∈ spansOf (.from f) := by
  simp [spansOf, fieldSpans]

theorem two_split {α : Type} {x y : α} {l : List α} (hx : x ∈ l) (hy : y ∈ l) :
    x = y ∨ (∃ a b c, l = a ++ x :: (b ++ y :: c)) ∨ ∃ a b c, l = a ++ y :: (b ++ x :: c) := by
  obtain ⟨a, b, rfl⟩ := List.append_of_mem hx
  rcases List.mem_append.1 hy with h | h
  · obtain ⟨c, e, rfl⟩ := List.append_of_mem h
    exact .inr (.inr ⟨c, e, b, by simp⟩)
  · rcases List.mem_cons.1 h with h | h
    · exact .inl h.symm
    · obtain ⟨c, e, rfl⟩ := List.append_of_mem h
      exact .inr (.inl ⟨a, c, e, rfl⟩)

/-- The images of different `FROM`s are disjoint. -/
theorem images_disjoint {unq : Unquote} {s : Str} {d : Dockerfile} (h : Dockerfile.parse unq s = .ok d)
    {f g : FromInstruction} (hf : .from f ∈ d.instructions) (hg : .from g ∈ d.instructions)
    (hne : f.image.span ≠ g.image.span) : Disjoint f.image.span g.image.span := by
  have w1 := C06_fields_within unq s d h _ hf _ (image_in_spans f)
  have w2 := C06_fields_within unq s d h _ hg _ (image_in_spans g)
  rcases two_split hf hg with e | ⟨a, b, c, e⟩ | ⟨a, b, c, e⟩
  · cases e
    exact absurd rfl hne
  · have := (C05_instructions_in_order unq s d h _ _ _ _ _ e).1
    exact .inl (by have := w1.2; have := w2.1; omega)
  · have := (C05_instructions_in_order unq s d h _ _ _ _ _ e).1
    exact .inr (by have := w1.1; have := w2.2; omega)

theorem C43_both {unq : Unquote} {s : Str} {d : Dockerfile} (h : Dockerfile.parse unq s = .ok d)
    (es : List Edit) (hn : (es.map (·.1)).Nodup)
    (hes : ∀ e ∈ es, (∃ f, .from f ∈ d.instructions ∧ e.1 = f.image.span) ∧ Over IsImageChar e.2) :
    ∃ sp, (Splicer.ofDockerfile d).spliceAll es = some sp ∧ sp.content = simul es 0 s ∧
      ((∀ e ∈ es, DigestOK (ImageRef.parse e.2)) →
        Dockerfile.parse unq sp.content = .ok (updated es s d)) ∧
      ((∃ e ∈ es, ¬ DigestOK (ImageRef.parse e.2)) →
        Dockerfile.parse unq sp.content = .error (.err (.generic .digestInvalid))) := by
  have hd : es.Pairwise fun e f => Disjoint e.1 f.1 := by
    refine (List.pairwise_map.1 hn).imp_of_mem fun {e e'} he he' hne => ?_
    obtain ⟨f, hf, e1⟩ := (hes e he).1
    obtain ⟨g, hg, e2⟩ := (hes e' he').1
    rw [e1, e2] at hne ⊢
    exact images_disjoint h hf hg hne
  have hs : ∀ e ∈ es, ∃ i ∈ d.instructions, e.1 ∈ spansOf i := fun e he => by
    obtain ⟨f, hf, e1⟩ := (hes e he).1
    exact ⟨_, hf, e1 ▸ image_in_spans f⟩
  obtain ⟨sp, h1, h2⟩ := C25_splice_parsed unq s d h es hs hd
  refine ⟨sp, h1, h2, ?_⟩
  have hpos : ∀ e ∈ es, e.1.start < e.1.stop := fun e he => by
    obtain ⟨i, hi, hsp⟩ := hs e he
    exact (C04_span_bounds unq s d h i hi _ hsp).1
  obtain ⟨l, ms, is, hf, rfl, he, rfl⟩ := C51_accepted.1 h
  rw [h2]
  exact Src.parse_updated hf he hd hpos hes

/-- C43: parse, put new images at the images of any of the `FROM`s (in any order), and parse the
result: this gives the same instructions with the new images; everything else is the same, moved by
the differences of the lengths. -/
theorem C43_update {unq : Unquote} {s : Str} {d : Dockerfile} (h : Dockerfile.parse unq s = .ok d)
    (es : List Edit) (hn : (es.map (·.1)).Nodup)
    (hes : ∀ e ∈ es, (∃ f, .from f ∈ d.instructions ∧ e.1 = f.image.span) ∧
      Over IsImageChar e.2 ∧ DigestOK (ImageRef.parse e.2)) :
    ∃ sp, (Splicer.ofDockerfile d).spliceAll es = some sp ∧
      Dockerfile.parse unq sp.content = .ok (updated es s d) := by
  obtain ⟨sp, h1, -, h2, -⟩ := C43_both h es hn fun e he => ⟨(hes e he).1, (hes e he).2.1⟩
  exact ⟨sp, h1, h2 fun e he => (hes e he).2.2⟩

/-- C43: a new image with an invalid digest is reported when the result is parsed. -/
theorem C43_invalid {unq : Unquote} {s : Str} {d : Dockerfile} (h : Dockerfile.parse unq s = .ok d)
    (es : List Edit) (hn : (es.map (·.1)).Nodup)
    (hes : ∀ e ∈ es, (∃ f, .from f ∈ d.instructions ∧ e.1 = f.image.span) ∧ Over IsImageChar e.2)
    (hb : ∃ e ∈ es, ¬ DigestOK (ImageRef.parse e.2)) :
    ∃ sp, (Splicer.ofDockerfile d).spliceAll es = some sp ∧
      Dockerfile.parse unq sp.content = .error (.err (.generic .digestInvalid)) := by
  obtain ⟨sp, h1, -, -, h2⟩ := C43_both h es hn hes
  exact ⟨sp, h1, h2 hb⟩

/-! ## the program `examples/splice.rs`: a new image for all stages -/

/-- `/repo/examples/splice.rs:17-21`: the calls of `splice`, with the image as a parameter -/
def imageEdits (image : Str) (d : Dockerfile) : List Edit :=
  d.instructions.filterMap fun
    | .from f => some (f.image.span, image)
    | _ => none

theorem mem_imageEdits {image : Str} {d : Dockerfile} {e : Edit} :
    e ∈ imageEdits image d ↔ ∃ f, .from f ∈ d.instructions ∧ e = (f.image.span, image) := by
  unfold imageEdits
  rw [List.mem_filterMap]
  constructor
  · rintro ⟨i, h1, h2⟩
    cases i
    case «from» f => exact ⟨f, h1, (Option.some.inj h2).symm⟩
    all_goals cases h2
  · rintro ⟨f, h1, rfl⟩
    exact ⟨_, h1, rfl⟩

theorem pairwise_split {α : Type} {R : α → α → Prop} {l : List α}
    (h : ∀ a x b y c, l = a ++ x :: (b ++ y :: c) → R x y) : l.Pairwise R := by
  induction l with
  | nil => exact .nil
  | cons x l ih =>
    refine .cons (fun y hy => ?_) (ih fun a u b v c e => h (x :: a) u b v c (by rw [e]; rfl))
    obtain ⟨b, c, rfl⟩ := List.append_of_mem hy
    exact h [] x b y c rfl

theorem imageEdits_nodup {unq : Unquote} {s : Str} {d : Dockerfile} (h : Dockerfile.parse unq s = .ok d)
    (image : Str) : ((imageEdits image d).map (·.1)).Nodup := by
  have ho : d.instructions.Pairwise fun i j => i ∈ d.instructions ∧ j ∈ d.instructions ∧
      i.span.stop < j.span.start := pairwise_split fun a x b y c e =>
    ⟨by rw [e]; simp, by rw [e]; simp, (C05_instructions_in_order unq s d h _ _ _ _ _ e).1⟩
  refine List.pairwise_map.2 (List.pairwise_filterMap.2 (ho.imp fun {i j} hij e he e' he' hne => ?_))
  obtain ⟨hi, hj, hij⟩ := hij
  cases i
  case «from» f =>
    cases j
    case «from» g =>
      cases he; cases he'
      have w1 := C06_fields_within unq s d h _ hi _ (image_in_spans f)
      have w2 := C06_fields_within unq s d h _ hj _ (image_in_spans g)
      have := (C04_span_bounds unq s d h _ hi _ (image_in_spans f)).1
      have h1 := w1.2; have h2 := w2.1
      have hne : f.image.span = g.image.span := hne
      rw [hne] at h1 this
      omega
    all_goals cases he'
  all_goals cases he

/-- C43 (the example program): it never panics, and its result, when parsed again, has the same
instructions, the image of every stage being the new one. -/
theorem C43_example {unq : Unquote} {s : Str} {d : Dockerfile} (h : Dockerfile.parse unq s = .ok d)
    {image : Str} (hi : Over IsImageChar image) (hd : DigestOK (ImageRef.parse image)) :
    ∃ sp d', (Splicer.ofDockerfile d).spliceAll (imageEdits image d) = some sp ∧
      Dockerfile.parse unq sp.content = .ok d' ∧
      d'.bare.instructions = d.bare.instructions.map fun
        | .from f => .from { f with image := { f.image with content := image },
                                    image_parsed := ImageRef.parse image }
        | i => i := by
  obtain ⟨sp, h1, h2⟩ := C43_update h (imageEdits image d) (imageEdits_nodup h image) fun e he => by
    obtain ⟨f, h1, rfl⟩ := mem_imageEdits.1 he
    exact ⟨⟨f, h1, rfl⟩, hi, hd⟩
  refine ⟨sp, _, h1, h2, ?_⟩
  simp only [Dockerfile.bare, updated, List.map_map]
  refine List.map_congr_left fun i hm => ?_
  refine (Instruction.bare_remap _ _).trans ?_
  cases i
  case «from» f =>
    have hf : (imageEdits image d).find? (fun e => e.1 == f.image.span) = some (f.image.span, image) := by
      cases he : (imageEdits image d).find? (fun e => e.1 == f.image.span) with
      | none =>
        have := List.find?_eq_none.1 he _ (mem_imageEdits.2 ⟨f, hm, rfl⟩)
        simp at this
      | some e =>
        have h3 := List.find?_some he
        obtain ⟨g, -, rfl⟩ := mem_imageEdits.1 (List.mem_of_find?_eq_some he)
        simp only [beq_iff_eq] at h3
        rw [h3]
    simp only [withImage, hf]
    rfl
  all_goals rfl

/-! A document with three stages, two of which get new images (the second one first). -/

def updateText : Str := c!"ARG v\nfrom a:$v AS x\nFROM \\\n # d\n b\nRUN FROM yé\nFROM b\n"

def updateDoc : Dockerfile :=
  match Dockerfile.parse Enquote.unquote updateText with
  | .ok d => d
  | .error _ => ⟨[], [], []⟩

def updateEdits : List Edit := [(⟨34, 35⟩, c!"reg:5000/${n}@x"), (⟨11, 15⟩, c!"c")]

theorem updateDoc_parse : Dockerfile.parse Enquote.unquote updateText = .ok updateDoc := by
  decide +kernel

/- the edits are at images -/
example : (updateEdits.map (·.1)).Nodup ∧ ∀ e ∈ updateEdits,
    (∃ f, .from f ∈ updateDoc.instructions ∧ e.1 = f.image.span) := by
  have hi : updateDoc.instructions.filterMap (fun | .from f => some f.image.span | _ => none) =
      [⟨11, 15⟩, ⟨34, 35⟩, ⟨54, 55⟩] := by decide +kernel
  refine ⟨by decide, fun e he => ?_⟩
  have : e.1 ∈ updateDoc.instructions.filterMap (fun | .from f => some f.image.span | _ => none) := by
    rw [hi]
    simp only [updateEdits, List.mem_cons, List.not_mem_nil, or_false] at he
    rcases he with rfl | rfl <;> simp
  obtain ⟨i, h1, h2⟩ := List.mem_filterMap.1 this
  cases i
  case «from» f => exact ⟨f, h1, (Option.some.inj h2).symm⟩
  all_goals cases h2

example : ∀ e ∈ [updateEdits[1]], Over IsImageChar e.2 ∧ DigestOK (ImageRef.parse e.2) := by
  intro e he
  cases List.mem_singleton.1 he
  refine ⟨⟨by decide, fun c hc => ?_⟩, fun h e => ?_⟩
  · cases List.mem_singleton.1 hc
    exact .inl (.inl (by decide))
  · have : (ImageRef.parse c!"c").hash = none := by decide +kernel
    rw [show ImageRef.parse updateEdits[1].2 = ImageRef.parse c!"c" from rfl, this] at e
    cases e

/- with the second image only -/
example : Dockerfile.parse Enquote.unquote c!"ARG v\nfrom c AS x\nFROM \\\n # d\n b\nRUN FROM yé\nFROM b\n" =
    .ok (updated [updateEdits[1]] updateText updateDoc) := by decide +kernel

/- the first one has an invalid digest -/
example : Dockerfile.parse Enquote.unquote
      c!"ARG v\nfrom c AS x\nFROM \\\n # d\n reg:5000/${n}@x\nRUN FROM yé\nFROM b\n" =
    .error (.err (.generic .digestInvalid)) := by decide +kernel

/- C43 with the second edit, and with both, where the first is reported -/
example : ∃ sp, (Splicer.ofDockerfile updateDoc).spliceAll [updateEdits[1]] = some sp ∧
    sp.content = c!"ARG v\nfrom c AS x\nFROM \\\n # d\n b\nRUN FROM yé\nFROM b\n" := by
  have h : ((Splicer.ofDockerfile updateDoc).spliceAll [updateEdits[1]]).map Splicer.content =
      some c!"ARG v\nfrom c AS x\nFROM \\\n # d\n b\nRUN FROM yé\nFROM b\n" := by decide +kernel
  cases e : (Splicer.ofDockerfile updateDoc).spliceAll [updateEdits[1]] with
  | none => rw [e] at h; cases h
  | some sp => rw [e] at h; exact ⟨sp, rfl, Option.some.inj h⟩
example : Over IsImageChar updateEdits[0].2 ∧ ¬ DigestOK (ImageRef.parse updateEdits[0].2) := by
  have hi : Over IsImageChar updateEdits[0].2 := ⟨by decide, by unfold IsImageChar IsAlpha IsDigit; decide⟩
  refine ⟨hi, fun h => ?_⟩
  obtain ⟨d, hd⟩ := h c!"x" (by decide +kernel)
  exact absurd (List.cons.inj hd.1).1 (by decide)

end Verif
