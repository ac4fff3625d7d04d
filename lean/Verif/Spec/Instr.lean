import Verif.Model.Dockerfile
import Verif.Spec.Stage

/-! Specification vocabulary for instruction lists (C09-C11, C44) and readers (C31). -/

namespace Verif.Spec

/-- The `ARG` instructions in front of the first `FROM`, in order. -/
def argsBeforeFrom : List Instruction → List ArgInstruction
  | [] => []
  | .from _ :: _ => []
  | .arg a :: is => a :: argsBeforeFrom is
  | _ :: is => argsBeforeFrom is

/-- All bytes a reader delivers. -/
def delivered : List ReadEvent → List UInt8
  | [] => []
  | .data bs :: es => bs ++ delivered es
  | _ :: es => delivered es

/-- A reader that never fails and never reports end of file early: every `read` delivers at least
one byte or is interrupted. -/
def Steady (es : List ReadEvent) : Prop := ∀ e ∈ es, e ≠ .failed ∧ e ≠ .data []

/-- `s` is the text whose UTF-8 encoding is `bs`. -/
def Encodes (s : Str) (bs : List UInt8) : Prop := bs = s.flatMap String.utf8EncodeChar

end Verif.Spec
