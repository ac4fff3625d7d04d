import Verif.Proof.Image

/-! # C18, C19, C20: image references -/

namespace Verif
open Spec

/-- **C19.** `ImageRef::parse` computes exactly the documented decision rules: the parsed reference
is the (unique) one related to the text by `ImageSpec`. -/
theorem C19_parse_iff_spec (s : Str) (r : ImageRef) : ImageRef.parse s = r ↔ ImageSpec s r := by
  have key : ImageSpec s (ImageRef.parse s) := by
    rcases parse_cases s with ⟨host, rest, hr, he⟩ | ⟨hn, he⟩
    · obtain ⟨h1, h2⟩ := parseBody_spec (some host) rest
      rw [he]; unfold ImageSpec; rw [h1]; exact ⟨rest, hr, h2⟩
    · obtain ⟨h1, h2⟩ := parseBody_spec none s
      rw [he]; unfold ImageSpec; rw [h1]; exact ⟨hn, h2⟩
  constructor
  · rintro rfl; exact key
  · intro h
    generalize ImageRef.parse s = q at key
    obtain ⟨qr, qi, qt, qh⟩ := q
    obtain ⟨rr, ri, rt, rh⟩ := r
    cases qr <;> cases rr <;> simp only [ImageSpec] at key h
    · have := bodySpec_unique key.2 h.2
      simp [this]
    · obtain ⟨rest, h1, -⟩ := h; exact absurd ⟨_, _, h1⟩ key.1
    · obtain ⟨rest, h1, -⟩ := key; exact absurd ⟨_, _, h1⟩ h.1
    · obtain ⟨rest, h1, h2⟩ := h
      obtain ⟨rest', h1', h2'⟩ := key
      obtain ⟨rfl, rfl⟩ := hasRegistry_unique h1 h1'
      have := bodySpec_unique h2 h2'
      simp [this]

/-- **C19**, registry part spelled out. -/
theorem C19_registry (s r : Str) :
    (ImageRef.parse s).registry = some r ↔ ∃ rest, HasRegistry s r rest := by
  have h := (C19_parse_iff_spec s _).mp rfl
  unfold ImageSpec at h
  constructor
  · intro hr; rw [hr] at h; obtain ⟨rest, h, -⟩ := h; exact ⟨rest, h⟩
  · rintro ⟨rest, hr⟩
    split at h
    · rename_i host heq
      obtain ⟨rest', h', -⟩ := h
      rw [heq, (hasRegistry_unique h' hr).1]
    · exact absurd ⟨_, _, hr⟩ h.1

/-- **C19**, exclusivity of tag and hash. -/
theorem C19_tag_hash_exclusive (s : Str) :
    (ImageRef.parse s).tag = none ∨ (ImageRef.parse s).hash = none := by
  have h := (C19_parse_iff_spec s _).mp rfl
  have : ∃ b, BodySpec b (ImageRef.parse s).image (ImageRef.parse s).tag (ImageRef.parse s).hash := by
    unfold ImageSpec at h
    split at h
    · obtain ⟨rest, -, h⟩ := h; exact ⟨_, h⟩
    · exact ⟨_, h.2⟩
  obtain ⟨b, hb⟩ := this
  generalize (ImageRef.parse s).tag = t at hb
  generalize (ImageRef.parse s).hash = g at hb
  cases hb <;> simp

/-- Non-trivial instance of C19: registry with port, nested image, tag. -/
example : ImageSpec c!"example.com:1234/foo/bar:baz"
    ⟨some c!"example.com:1234", c!"foo/bar", some c!"baz", none⟩ :=
  (C19_parse_iff_spec _ _).mp (by decide)

/-- **C18.** Displaying a parsed image reference gives back the text, for every text. -/
theorem C18_display_parse (s : Str) : (ImageRef.parse s).display = s := by
  have h := (C19_parse_iff_spec s _).mp rfl
  generalize ImageRef.parse s = r at h
  obtain ⟨rr, ri, rt, rh⟩ := r
  have body : ∀ b, BodySpec b ri rt rh →
      ri ++ suffixText rt rh = b := by
    intro b hb
    cases hb <;> simp_all [suffixText]
  cases rr with
  | none => simpa [display_eq] using body _ h.2
  | some host =>
    obtain ⟨rest, ⟨e, -, -⟩, hb⟩ := h
    have := body _ hb
    simp only [display_eq, List.append_assoc, List.cons_append, List.nil_append] at this ⊢
    rw [this, e]

example : (ImageRef.parse c!"a@b:5000/c").registry = some c!"a@b:5000" ∧
    (ImageRef.parse c!"a@b:5000/c").display = c!"a@b:5000/c" := by decide

/-- **C20.** Parsing the displayed text of a well-formed reference gives back the reference. -/
theorem C20_parse_display (r : ImageRef) (h : WellFormed r) : ImageRef.parse r.display = r := by
  rw [C19_parse_iff_spec]
  obtain ⟨rr, ri, rt, rh⟩ := r
  obtain ⟨hreg, hex, hat, hcol, htag, hfirst⟩ := h
  simp only at hreg hex hat hcol htag hfirst
  have body : BodySpec (ri ++ suffixText rt rh) ri rt rh := by
    cases rt with
    | some t =>
      have : rh = none := by simpa using hex
      subst this
      have := htag t rfl
      exact .tag t (by simp [suffixText, hat, this]) rfl (hcol rfl)
    | none =>
      cases rh with
      | some g => exact .hash g rfl hat
      | none => exact .plain (by simpa [suffixText] using hat) (by simpa [suffixText] using hcol rfl) (by simp [suffixText])
  cases rr with
  | none => exact ⟨by simpa [display_eq] using hfirst rfl, by simpa [display_eq] using body⟩
  | some host =>
    exact ⟨_, ⟨by simp [display_eq], hreg host rfl⟩, body⟩

/-- A well-formed reference (hypothesis of C20) with every kind of part. -/
example : WellFormed ⟨some c!"quay.io", c!"prometheus/node-exporter", some c!"v0.18.1", none⟩ where
  registry := by intro h e; cases e; exact ⟨by decide, Or.inr (Or.inl (by decide))⟩
  exclusive := Or.inr rfl
  image_at := by decide
  image_colon := by intro _; decide
  tag_at := by intro t e; cases e; decide
  first := by intro e; cases e

/-- Every parsed reference is well-formed, except that an image with a hash may contain anything
but `@` — so C20 covers everything `parse` can return. -/
theorem C20_parse_wellFormed (s : Str) : WellFormed (ImageRef.parse s) := by
  have h := (C19_parse_iff_spec s _).mp rfl
  have hd := C18_display_parse s
  generalize hr : ImageRef.parse s = r at h hd
  obtain ⟨rr, ri, rt, rh⟩ := r
  have body : ∀ b, BodySpec b ri rt rh →
      (rt = none ∨ rh = none) ∧ '@' ∉ ri ∧ (rh = none → ':' ∉ ri) ∧ (∀ t, rt = some t → '@' ∉ t) := by
    intro b hb
    cases hb with
    | hash h e n => exact ⟨Or.inl rfl, n, by simp, by simp⟩
    | tag t m e n =>
      subst e
      refine ⟨Or.inr rfl, ?_, fun _ => n, ?_⟩
      · simp at m; exact m.1
      · intro t' e; cases e; simp at m; exact m.2
    | plain m k e => subst e; exact ⟨Or.inl rfl, m, fun _ => k, by simp⟩
  cases rr with
  | none =>
    obtain ⟨hn, hb⟩ := h
    obtain ⟨b1, b2, b3, b4⟩ := body _ hb
    refine ⟨by simp, b1, b2, b3, b4, fun _ => ?_⟩
    have : (ri ++ suffixText rt rh) = s := by simpa [display_eq] using hd
    simp only [this]
    exact hn
  | some host =>
    obtain ⟨rest, ⟨-, g1, g2⟩, hb⟩ := h
    obtain ⟨b1, b2, b3, b4⟩ := body _ hb
    exact ⟨by intro h e; cases e; exact ⟨g1, g2⟩, b1, b2, b3, b4, by simp⟩

/-- **C20**, exactly: the references that parsing gives back from their text are the well-formed ones, and
two of them with the same text are the same. -/
theorem C20_iff (r : ImageRef) : ImageRef.parse r.display = r ↔ WellFormed r :=
  ⟨fun h => h ▸ C20_parse_wellFormed r.display, C20_parse_display r⟩

theorem C20_injective (r r' : ImageRef) (h : WellFormed r) (h' : WellFormed r') (e : r.display = r'.display) :
    r = r' := by rw [← C20_parse_display r h, e, C20_parse_display r' h']

/-- Without it, they may differ: an image with a colon and one with a tag. -/
example : (⟨none, c!"a:b", none, none⟩ : ImageRef).display = (⟨none, c!"a", some c!"b", none⟩ : ImageRef).display := rfl

end Verif
