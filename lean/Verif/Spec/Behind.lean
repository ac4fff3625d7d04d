import Verif.Spec.Probe

/-! # Specification: texts that can be put behind all lines (C110), blank lines and comments (C111) -/

namespace Verif.Spec

/-- behind an opening quote `z` has the closing one -/
def ClosesQuotes (z : Str) : Prop := ∃ q v r, z = v ++ q :: r ∧ (q = '"' ∨ q = '\'') ∧ QuotedBody q v

/-- the same, computed: is the quote `q` found, when quotes and backslashes behind a backslash are left out? -/
def finds (q : Char) : Str → Bool
  | [] => false
  | ['\\'] => false
  | '\\' :: c :: t => if c = '"' ∨ c = '\'' ∨ c = '\\' then finds q t else finds q (c :: t)
  | c :: t => if c = q then true else if c = '\x00' ∨ c = '\x1F' then false else finds q t

/-- `z`, with the instructions `is'`, can be put behind all accepted lines in which no keyword is taken for an unknown instruction. -/
def GoesBehind (unq : Unquote) (z : Str) (is' : List Instruction) : Prop :=
  ∀ a d, Dockerfile.parse unq a = .ok d → LineStart a z → (∀ i ∈ d.instructions, i.span.stop < blen a) →
    (∀ m, .misc m ∈ d.instructions → ¬ IsKeyword m.instruction.content) → ReadTogether unq a z d.instructions is'

/-- There are only blank lines and comments in `z`. -/
def Idle (z : Str) : Prop := ∃ k r, z = k ++ r ∧ Src.SkipLines k r ∧ Blanks r

/-- the same, computed (the flag tells whether we are in a comment): outside of comments there are only blanks and line breaks -/
def idleScan : Bool → Str → Bool
  | _, [] => true
  | true, c :: t => idleScan (decide (c ≠ '\n' ∧ c ≠ '\r')) t
  | false, c :: t =>
    if c = ' ' ∨ c = '\t' ∨ c = '\n' ∨ c = '\r' then idleScan false t else if c = '#' then idleScan true t else false

/-- the line `ENV a="b` or `ENV a='b` -/
def opener (q : Char) : Str := ['E', 'N', 'V', ' ', 'a', '=', q, 'b', '\n']
def openerIs (q : Char) : List Instruction :=
  [.env ⟨⟨0, 8⟩, [⟨⟨4, 8⟩, ⟨⟨4, 5⟩, ['a']⟩, ⟨⟨6, 8⟩, [.string ⟨⟨6, 8⟩, [q, 'b']⟩]⟩⟩]⟩]

end Verif.Spec
