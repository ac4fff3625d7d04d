import Verif.Props.Update

/-! # Changing a part of an image (C77) -/

namespace Verif
open Spec

/-! ## which changes are read back -/

/-- a slash in the first part decides what is before the first slash -/
theorem hasRegistry_same {a b c : Str} (ha : '/' ∈ a) :
    (∃ host rest, HasRegistry (a ++ b) host rest) ↔ ∃ host rest, HasRegistry (a ++ c) host rest := by
  cases hs : splitFirst '/' a with
  | none => exact absurd ha (splitFirst_none hs)
  | some x =>
    obtain ⟨host, r⟩ := x
    obtain ⟨rfl, hn⟩ := splitFirst_some hs
    have key : ∀ z : Str, (∃ h rest, HasRegistry ((host ++ '/' :: r) ++ z) h rest) ↔ IsRegistryHost host := by
      intro z
      constructor
      · rintro ⟨h, rest, e, n, hr⟩
        have a1 := splitFirst_append (b := rest) n
        have a2 := splitFirst_append (b := r ++ z) hn
        rw [← e, List.append_assoc, List.cons_append, a2] at a1
        cases a1
        exact hr
      · exact fun hr => ⟨host, r ++ z, by simp, hn, hr⟩
    rw [key, key]

theorem hasRegistry_slash {s : Str} (h : ∃ host rest, HasRegistry s host rest) : '/' ∈ s := by
  obtain ⟨a, b, rfl, -⟩ := h
  simp

/-- C77 (tag): a parsed image with another tag is read back iff its name has no colon (it may have one
in front of a digest), there is no `@` in the tag, and no slash in the tag of an image without any
slash. -/
theorem C77_tag (s t : Str) :
    ImageRef.parse ({ ImageRef.parse s with tag := some t, hash := none } : ImageRef).display =
        { ImageRef.parse s with tag := some t, hash := none } ↔
      ':' ∉ (ImageRef.parse s).image ∧ '@' ∉ t ∧
        ((ImageRef.parse s).registry = none → '/' ∈ (ImageRef.parse s).image ∨ '/' ∉ t) := by
  rw [C20_iff]
  have w := C20_parse_wellFormed s
  generalize ImageRef.parse s = r at w
  obtain ⟨rr, ri, rt, rh⟩ := r
  constructor
  · rintro ⟨-, -, -, h2, h3, h4⟩
    refine ⟨h2 rfl, h3 t rfl, fun hr => Classical.byContradiction fun hc => h4 hr ?_⟩
    simp only [not_or, Classical.not_not] at hc
    cases hs : splitFirst '/' t with
    | none => exact absurd hc.2 (splitFirst_none hs)
    | some x =>
      obtain ⟨a, b⟩ := x
      obtain ⟨rfl, hn⟩ := splitFirst_some hs
      exact ⟨ri ++ ':' :: a, b, by simp [suffixText], by simp [hc.1, hn], .inr (.inr (by simp))⟩
  · rintro ⟨h1, h2, h3⟩
    refine ⟨w.registry, .inr rfl, w.image_at, fun _ => h1, fun t' e => by cases e; exact h2, fun hr hc => ?_⟩
    by_cases hs : '/' ∈ ri
    · exact w.first hr ((hasRegistry_same hs).1 hc)
    · have := hasRegistry_slash hc
      simp only [suffixText, List.mem_append, List.mem_cons] at this
      rcases this with h | h | h
      · exact hs h
      · exact absurd h (by decide)
      · exact (h3 hr).elim hs (· h)

/-- C77 (digest): a parsed image with a digest without slashes is read back, whatever it was. -/
theorem C77_digest (s g : Str) (hg : '/' ∉ g) :
    ImageRef.parse ({ ImageRef.parse s with tag := none, hash := some g } : ImageRef).display =
      { ImageRef.parse s with tag := none, hash := some g } := by
  rw [C20_iff]
  have w := C20_parse_wellFormed s
  generalize ImageRef.parse s = r at w
  obtain ⟨rr, ri, rt, rh⟩ := r
  refine ⟨w.registry, .inl rfl, w.image_at, nofun, nofun, fun hr hc => ?_⟩
  by_cases hs : '/' ∈ ri
  · exact w.first hr ((hasRegistry_same hs).1 hc)
  · have := hasRegistry_slash hc
    simp only [suffixText, List.mem_append, List.mem_cons] at this
    rcases this with h | h | h
    · exact hs h
    · exact absurd h (by decide)
    · exact hg h

/-- C77 (neither): without tag and digest it is read back iff the name has no colon. -/
theorem C77_plain (s : Str) :
    ImageRef.parse ({ ImageRef.parse s with tag := none, hash := none } : ImageRef).display =
        { ImageRef.parse s with tag := none, hash := none } ↔ ':' ∉ (ImageRef.parse s).image := by
  rw [C20_iff]
  have w := C20_parse_wellFormed s
  generalize ImageRef.parse s = r at w
  obtain ⟨rr, ri, rt, rh⟩ := r
  refine ⟨fun h => h.image_colon rfl, fun h1 => ⟨w.registry, .inl rfl, w.image_at, fun _ => h1, nofun, fun hr hc => ?_⟩⟩
  by_cases hs : '/' ∈ ri
  · exact w.first hr ((hasRegistry_same hs).1 hc)
  · have := hasRegistry_slash hc
    simp only [suffixText, List.append_nil] at this
    exact hs this

/-- C77 (registry): with another registry it is read back iff this is a host without slashes that looks
like a registry. -/
theorem C77_registry (s g : Str) :
    ImageRef.parse ({ ImageRef.parse s with registry := some g } : ImageRef).display =
        { ImageRef.parse s with registry := some g } ↔ '/' ∉ g ∧ IsRegistryHost g := by
  rw [C20_iff]
  have w := C20_parse_wellFormed s
  generalize ImageRef.parse s = r at w
  exact ⟨fun h => h.registry g rfl, fun h => ⟨fun h' e => by cases e; exact h, w.exclusive, w.image_at,
    w.image_colon, w.tag_at, nofun⟩⟩

/-- C77 (no registry): without its registry it is read back iff the rest does not start with another
one. -/
theorem C77_no_registry (s : Str) :
    ImageRef.parse ({ ImageRef.parse s with registry := none } : ImageRef).display =
        { ImageRef.parse s with registry := none } ↔
      ¬ ∃ host rest, HasRegistry ({ ImageRef.parse s with registry := none } : ImageRef).display host rest := by
  rw [C20_iff]
  have w := C20_parse_wellFormed s
  generalize ImageRef.parse s = r at w
  rw [display_eq]
  simp only [List.nil_append]
  exact ⟨fun h => h.first rfl, fun h => ⟨nofun, w.exclusive, w.image_at, w.image_colon, w.tag_at, fun _ => h⟩⟩

/-- C77: an image with a tag and a digest keeps the tag in its name; another tag is put behind it. -/
theorem C77_tag_and_digest :
    (ImageRef.parse c!"a:1@sha256:0").image = c!"a:1" ∧ (ImageRef.parse c!"a:1@sha256:0").tag = none ∧
    ({ ImageRef.parse c!"a:1@sha256:0" with tag := some c!"2", hash := none } : ImageRef).display = c!"a:1:2" ∧
    ImageRef.parse c!"a:1:2" = ⟨none, c!"a", some c!"1:2", none⟩ := by decide +kernel

/-! ## in a document -/

/-- C77 (in a document): any image that is read back can be written in place of the image of one
`FROM`; the document then has this image there, and is otherwise the same. -/
theorem C77_document {unq : Unquote} {s : Str} {d : Dockerfile} (h : Dockerfile.parse unq s = .ok d)
    {k : Nat} {f : FromInstruction} (hk : d.instructions[k]? = some (.from f)) {r : ImageRef}
    (hr : ImageRef.parse r.display = r) (ho : Over IsImageChar r.display) (hd : DigestOK r) :
    ∃ sp d', (Splicer.ofDockerfile d).splice f.image.span r.display = some sp ∧
      Dockerfile.parse unq sp.content = .ok d' ∧
      d'.bare.instructions = d.bare.instructions.set k
        (.from { f.remap (fun _ => 0) with image := ⟨⟨0, 0⟩, r.display⟩, image_parsed := r }) := by
  have hm : .from f ∈ d.instructions := List.mem_of_getElem? hk
  obtain ⟨sp, h1, h2⟩ := C43_update h [(f.image.span, r.display)] (by simp) fun e he => by
    cases List.mem_singleton.1 he
    exact ⟨⟨f, hm, rfl⟩, ho, by rw [hr]; exact hd⟩
  refine ⟨sp, _, ?_, h2, ?_⟩
  · simp only [Splicer.spliceAll] at h1
    cases hs : (Splicer.ofDockerfile d).splice f.image.span r.display with
    | none => rw [hs] at h1; cases h1
    | some sp' => rw [hs] at h1; exact h1
  have hord : d.instructions.Pairwise fun i j => i.span.stop < j.span.start :=
    pairwise_split fun a x b y c e => (C05_instructions_in_order unq s d h _ _ _ _ _ e).1
  rw [List.pairwise_iff_getElem] at hord
  obtain ⟨hkl, hke⟩ := List.getElem?_eq_some_iff.1 hk
  refine List.ext_getElem? fun n => ?_
  simp only [Dockerfile.bare, updated, List.map_map, List.getElem?_set, List.getElem?_map, List.length_map]
  by_cases hn : k = n
  · subst hn
    simp only [hk, hkl, if_true, Option.map_some, Function.comp_apply, Instruction.bare_remap, withImage,
      List.find?_cons, beq_self_eq_true, hr]
    rfl
  rw [if_neg hn]
  cases hx : d.instructions[n]? with
  | none => rfl
  | some x =>
    simp only [Option.map_some, Function.comp_apply, Instruction.bare_remap]
    obtain ⟨hnl, hne⟩ := List.getElem?_eq_some_iff.1 hx
    cases x
    case «from» g =>
      have hg : .from g ∈ d.instructions := List.mem_of_getElem? hx
      have w1 := C06_fields_within unq s d h _ hm _ (image_in_spans f)
      have w2 := C06_fields_within unq s d h _ hg _ (image_in_spans g)
      have b := (C04_span_bounds unq s d h _ hm _ (image_in_spans f)).1
      have hspan : (f.image.span == g.image.span) = false := by
        rw [beq_eq_false_iff_ne]
        intro e
        rw [e] at w1 b
        rcases Nat.lt_or_gt_of_ne hn with hlt | hlt
        · have := hord k n hkl hnl hlt
          rw [hke, hne] at this
          have := w1.2; have := w2.1
          omega
        · have := hord n k hnl hkl hlt
          rw [hke, hne] at this
          have := w1.1; have := w2.2
          omega
      simp only [withImage, List.find?_cons, hspan, List.find?_nil]
    all_goals rfl

/-- the characters of tags -/
def IsTagChar (c : Char) : Prop := IsAlpha c ∨ IsDigit c ∨ c = '_' ∨ c = '-' ∨ c = '.'

theorem IsTagChar.image {c : Char} (h : IsTagChar c) : IsImageChar c := by
  rcases h with h | h | h | h | h
  · exact .inl h
  · exact .inr (.inl h)
  · exact .inr (.inr (.inl h))
  · exact .inr (.inr (.inr (.inl h)))
  · exact .inr (.inr (.inr (.inr (.inl h))))

theorem IsTagChar.ne {c : Char} (h : IsTagChar c) : c ≠ '@' ∧ c ≠ '/' := by
  refine ⟨?_, ?_⟩ <;> rintro rfl <;> revert h <;> unfold IsTagChar IsAlpha IsDigit <;> decide

/-- the name and the registry of an image are parts of its text -/
theorem over_parts {s u : Str} (hs : Over IsImageChar s) (hu : Over IsImageChar u) :
    Over IsImageChar ((match (ImageRef.parse s).registry with | some reg => reg ++ ['/'] | none => []) ++
      (ImageRef.parse s).image ++ u) := by
  have hd := C18_display_parse s
  rw [display_eq] at hd
  refine ⟨by simp [hu.1], fun c hc => ?_⟩
  rcases List.mem_append.1 hc with h | h
  · refine hs.2 c ?_
    rw [← hd]
    generalize ImageRef.parse s = r at h
    obtain ⟨rr, ri, rt, rh⟩ := r
    cases rr <;> simp_all
    rcases h with h | h | h <;> simp [h]
  · exact hu.2 c h

/-- C77 (a new tag): in every accepted document the image of any `FROM` can be given any tag over
letters, digits, `_`, `-` and `.`, if its name has no colon. -/
theorem C77_bump {unq : Unquote} {s : Str} {d : Dockerfile} (h : Dockerfile.parse unq s = .ok d)
    {k : Nat} {f : FromInstruction} (hk : d.instructions[k]? = some (.from f)) {t : Str}
    (ht : ∀ c ∈ t, IsTagChar c) (hc : ':' ∉ f.image_parsed.image) :
    ∃ sp d', (Splicer.ofDockerfile d).splice f.image.span
        ({ f.image_parsed with tag := some t, hash := none } : ImageRef).display = some sp ∧
      Dockerfile.parse unq sp.content = .ok d' ∧
      d'.bare.instructions = d.bare.instructions.set k
        (.from { f.remap (fun _ => 0) with
          image := ⟨⟨0, 0⟩, ({ f.image_parsed with tag := some t, hash := none } : ImageRef).display⟩,
          image_parsed := { f.image_parsed with tag := some t, hash := none } }) := by
  have hm : .from f ∈ d.instructions := List.mem_of_getElem? hk
  have hp := C49_image_parsed unq s d h f hm
  have hl := (C50_lexical unq s d h _ hm).2.1
  refine C77_document h hk ?_ ?_ nofun
  · rw [hp] at hc ⊢
    exact (C77_tag _ t).2 ⟨hc, fun hm => (ht _ hm).ne.1 rfl, fun _ => .inr fun hm => (ht _ hm).ne.2 rfl⟩
  · rw [hp]
    exact over_parts hl ⟨nofun, fun c hc => (List.mem_cons.1 hc).elim
      (fun e => e ▸ by unfold IsImageChar; simp) fun hm => (ht c hm).image⟩

/-- C77 (pinning): in every accepted document the image of any `FROM` can be given any digest of 64
hexadecimal digits. -/
theorem C77_pin {unq : Unquote} {s : Str} {d : Dockerfile} (h : Dockerfile.parse unq s = .ok d)
    {k : Nat} {f : FromInstruction} (hk : d.instructions[k]? = some (.from f)) {x : Str}
    (hx : ∀ c ∈ x, HexDigit c) (hlen : x.length = 64) :
    ∃ sp d', (Splicer.ofDockerfile d).splice f.image.span
        ({ f.image_parsed with tag := none, hash := some (c!"sha256:" ++ x) } : ImageRef).display = some sp ∧
      Dockerfile.parse unq sp.content = .ok d' ∧
      d'.bare.instructions = d.bare.instructions.set k
        (.from { f.remap (fun _ => 0) with
          image := ⟨⟨0, 0⟩, ({ f.image_parsed with tag := none, hash := some (c!"sha256:" ++ x) } : ImageRef).display⟩,
          image_parsed := { f.image_parsed with tag := none, hash := some (c!"sha256:" ++ x) } }) := by
  have hm : .from f ∈ d.instructions := List.mem_of_getElem? hk
  have hp := C49_image_parsed unq s d h f hm
  have hl := (C50_lexical unq s d h _ hm).2.1
  have hi : ∀ c ∈ x, IsImageChar c ∧ c ≠ '/' ∧ c ≠ ':' := by
    intro c hc
    have := hx c hc
    refine ⟨?_, ?_, ?_⟩
    · rcases this with h | h | h
      · exact .inr (.inl h)
      · exact .inl (.inl ⟨h.1, Char.le_trans h.2 (by decide)⟩)
      · exact .inl (.inr ⟨h.1, Char.le_trans h.2 (by decide)⟩)
    · rintro rfl; revert this; unfold HexDigit; decide
    · rintro rfl; revert this; unfold HexDigit; decide
  have hsha : ∀ c ∈ c!"sha256:", IsImageChar c ∧ c ≠ '/' := by
    unfold IsImageChar IsAlpha IsDigit; decide
  refine C77_document h hk ?_ ?_ ?_
  · rw [hp]
    refine C77_digest _ _ fun hm => ?_
    rcases List.mem_append.1 hm with h | h
    · exact (hsha _ h).2 rfl
    · exact (hi _ h).2.1 rfl
  · rw [hp]
    refine over_parts hl (u := '@' :: (c!"sha256:" ++ x)) ⟨nofun, fun c hc => ?_⟩
    rcases List.mem_cons.1 hc with rfl | hc
    · unfold IsImageChar; simp
    · rcases List.mem_append.1 hc with h | h
      · exact (hsha _ h).1
      · exact (hi _ h).1
  · rintro g ⟨⟩
    refine ⟨x, rfl, fun hm => (hi _ hm).2.2 rfl, by rw [blen_image fun c hc => (hi c hc).1]; exact hlen, ?_⟩
    cases x with
    | nil => cases hlen
    | cons c cs => exact ⟨c, by simp, hx c (by simp)⟩

/- the third instruction of a document gets another tag -/
example : ((Dockerfile.parse Enquote.unquote c!"FROM a:1\nRUN x\nFROM r.io/b/c:2 AS y").toOption.bind fun d =>
    (d.instructions[2]?.bind Instruction.asFrom).bind fun f =>
      ((Splicer.ofDockerfile d).splice f.image.span
        ({ f.image_parsed with tag := some c!"3.1", hash := none } : ImageRef).display).map (·.content)) =
    some c!"FROM a:1\nRUN x\nFROM r.io/b/c:3.1 AS y" := by decide +kernel

/- the conditions on tags and registries -/
example : ImageRef.parse c!"a:x/y" = ⟨some c!"a:x", c!"y", none, none⟩ ∧
    ({ ImageRef.parse c!"a" with tag := some c!"x/y", hash := none } : ImageRef).display = c!"a:x/y" ∧
    ({ ImageRef.parse c!"a.b/c.d/e" with registry := none } : ImageRef).display = c!"c.d/e" ∧
    ImageRef.parse c!"c.d/e" = ⟨some c!"c.d", c!"e", none, none⟩ := by decide +kernel

end Verif
