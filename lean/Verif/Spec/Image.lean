import Verif.Model.Ast

/-! Specification vocabulary for image references (C18-C20). Independent of the parser code: only
list membership and concatenation. -/

namespace Verif.Spec

/-- The documented rule for registry hosts ("localhost is special, `:` or `.` make it
unambiguous", `/repo/src/image.rs:107-112`). -/
def IsRegistryHost (h : Str) : Prop := h = c!"localhost" ∨ '.' ∈ h ∨ ':' ∈ h

/-- `s` has the form `host/rest` with `host` slash-free and a registry host. -/
def HasRegistry (s host rest : Str) : Prop :=
  s = host ++ '/' :: rest ∧ '/' ∉ host ∧ IsRegistryHost host

/-- How the part after the registry is divided into image, tag and hash. -/
inductive BodySpec (body image : Str) : Option Str → Option Str → Prop
  /-- first `@` starts the hash -/
  | hash (h : Str) : body = image ++ '@' :: h → '@' ∉ image → BodySpec body image none (some h)
  /-- without `@`, the first `:` starts the tag -/
  | tag (t : Str) : '@' ∉ body → body = image ++ ':' :: t → ':' ∉ image →
      BodySpec body image (some t) none
  /-- neither -/
  | plain : '@' ∉ body → ':' ∉ body → body = image → BodySpec body image none none

/-- The decision rules of `ImageRef::parse`, as a relation between text and reference. -/
def ImageSpec (s : Str) (r : ImageRef) : Prop :=
  match r.registry with
  | some host => ∃ rest, HasRegistry s host rest ∧ BodySpec rest r.image r.tag r.hash
  | none => (¬ ∃ host rest, HasRegistry s host rest) ∧ BodySpec s r.image r.tag r.hash

/-- the text after the image name: `:tag`, `@hash` or nothing -/
def suffixText : Option Str → Option Str → Str
  | some t, _ => ':' :: t
  | none, some h => '@' :: h
  | none, none => []

/-- Well-formed references, as produced by hand or by `parse`: the parts can be told apart in the
displayed text. -/
structure WellFormed (r : ImageRef) : Prop where
  /-- a registry is a slash-free registry host -/
  registry : ∀ h, r.registry = some h → '/' ∉ h ∧ IsRegistryHost h
  /-- not both a tag and a hash -/
  exclusive : r.tag = none ∨ r.hash = none
  /-- the image does not contain the hash separator -/
  image_at : '@' ∉ r.image
  /-- nor the tag separator, unless a hash follows -/
  image_colon : r.hash = none → ':' ∉ r.image
  /-- the tag does not contain the hash separator -/
  tag_at : ∀ t, r.tag = some t → '@' ∉ t
  /-- without a registry, nothing before the first slash of the text looks like a registry -/
  first : r.registry = none → ¬ ∃ host rest, HasRegistry
    (r.image ++ suffixText r.tag r.hash) host rest

end Verif.Spec
