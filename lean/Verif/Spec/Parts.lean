import Verif.Spec.Print

/-! # Specification: parts of instructions that are put in, and their values -/

namespace Verif.Spec

/-- a default value, or none -/
def eqText : Option Str → Str
  | none => []
  | some v => '=' :: v

/-- its value at offset `q` -/
def eqValue (q : Nat) : Option Str → Option SpannedString
  | none => none
  | some v => some ⟨⟨q + 1, q + 1 + blen v⟩, v⟩

/-- a flag, with a blank in front -/
def flagText (n v : Str) : Str := c!" --" ++ (n ++ '=' :: v)

/-- its value at offset `q` -/
def flagAt (q : Nat) (n v : Str) : Flag :=
  { span := ⟨q + 1, q + blen (flagText n v)⟩
    name := ⟨⟨q + 3, q + 3 + blen n⟩, n⟩
    value := ⟨⟨q + 3 + blen n + 1, q + blen (flagText n v)⟩, v⟩ }

/-- a pair, with a blank in front -/
def pairText (n v : Str) : Str := ' ' :: (n ++ '=' :: v)

/-- its value at offset `q`, as a variable -/
def envAt (q : Nat) (n v : Str) : EnvVar :=
  let s : Span := ⟨q + 1 + blen n + 1, q + blen (pairText n v)⟩
  { span := ⟨q + 1, q + blen (pairText n v)⟩
    key := ⟨⟨q + 1, q + 1 + blen n⟩, n⟩
    value := ⟨s, [.string ⟨s, v⟩]⟩ }

/-- its value at offset `q`, as a label -/
def labelAt (q : Nat) (n v : Str) : Label :=
  { span := ⟨q + 1, q + blen (pairText n v)⟩
    name := ⟨⟨q + 1, q + 1 + blen n⟩, n⟩
    value := ⟨⟨q + 1 + blen n + 1, q + blen (pairText n v)⟩, v⟩ }

end Verif.Spec
