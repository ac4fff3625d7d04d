import Verif.Model.Dockerfile
import Verif.Model.Enquote

/-! # Documents for examples

The examples beside the theorems use concrete documents; `parsed s` is the document of the text `s`. -/

namespace Verif

/-- the document that `Dockerfile::parse` makes of a text (an empty one, if the text is rejected) -/
def parsed (s : Str) : Dockerfile :=
  match Dockerfile.parse Enquote.unquote s with
  | .ok d => d
  | .error _ => ⟨[], [], []⟩

/-- the text is accepted -/
def accepted (s : Str) : Bool :=
  match Dockerfile.parse Enquote.unquote s with
  | .ok _ => true
  | .error _ => false

theorem parsed_ok {s : Str} (h : accepted s = true) :
    Dockerfile.parse Enquote.unquote s = .ok (parsed s) := by
  unfold accepted at h
  unfold parsed
  split at h
  · rename_i d hd; rw [hd]
  · cases h

end Verif
