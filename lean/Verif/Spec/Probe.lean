import Verif.Spec.Join
import Verif.Spec.Split

/-! # Specification: lines that can be put in front of every text (C108, C109) -/

namespace Verif.Spec

/-- `a`, with the instructions `is`, and `z`, with the instructions `is'`, are read together as they are read on their own. -/
def ReadTogether (unq : Unquote) (a z : Str) (is is' : List Instruction) : Prop :=
  Dockerfile.parse unq (a ++ z) = .ok (documentOf (a ++ z) (is ++ is'.map (·.remap (· + blen a))))

/-- no array and no arguments of a keyword are left open in `a`, whatever comes behind -/
def OnlyQuotes (a : Str) (d : Dockerfile) : Prop :=
  ∀ i ∈ d.instructions, (∀ p ∈ arraySpots i, ∀ z, StaysFalse BeginsArray a z p) ∧
    ∀ k ∈ wordSpots i, IsKeyword k.1 → ∀ z, StaysFalse (Src.Begins (lower k.1)) a z k.2

/-- where a text in quotes may start there is one, or there is none, whatever comes behind -/
def QuotesDecided (a : Str) (d : Dockerfile) : Prop :=
  ∀ i ∈ d.instructions, ∀ p ∈ quoteSpots i, ∀ x y, a = x ++ y → blen x = p → BeginsQuoted y ∨ ∀ v, ¬ BeginsQuoted (y ++ v)

/-- the line `X "` or `X '` -/
def probe (q : Char) : Str := ['X', ' ', q, '\n']
def probeIs (q : Char) : List Instruction :=
  [.misc ⟨⟨0, 3⟩, ⟨⟨0, 1⟩, ['X']⟩, ⟨⟨1, 3⟩, [.string ⟨⟨1, 3⟩, [' ', q]⟩]⟩⟩]

/-- the line `X "]` or `X ']` (C109) -/
def closer (q : Char) : Str := ['X', ' ', q, ']', '\n']
def closerIs (q : Char) : List Instruction :=
  [.misc ⟨⟨0, 4⟩, ⟨⟨0, 1⟩, ['X']⟩, ⟨⟨1, 4⟩, [.string ⟨⟨1, 4⟩, [' ', q, ']']⟩]⟩⟩]

/-- `a`, with the instructions `is`, can be put in front of every accepted text that starts on a new line (C109). -/
def GoesInFront (unq : Unquote) (a : Str) (is : List Instruction) : Prop :=
  ∀ z d', Dockerfile.parse unq z = .ok d' → LineStart a z → ReadTogether unq a z is d'.instructions

/-- texts behind each other, with what is behind the last -/
def stackText : List (Str × List Instruction) → Str → Str
  | [], z => z
  | p :: ps, z => p.1 ++ stackText ps z

/-- their instructions behind each other, each moved by the texts before it -/
def stackIs : List (Str × List Instruction) → List Instruction → List Instruction
  | [], is => is
  | p :: ps, is => p.2 ++ (stackIs ps is).map (·.remap (· + blen p.1))

end Verif.Spec
