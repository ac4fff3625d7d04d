/-!
# Strings, byte lengths and byte offsets

Rust `str`/`String` values are modelled as `List Char` (`Str`).  A Rust `char` is a Unicode scalar
value, exactly like Lean's `Char`.  All positions in the crate are UTF-8 *byte* offsets
(`/repo/src/splicer.rs:16-21`), so lengths are measured with `Char.utf8Size`.
-/

namespace Verif

/-- A Rust `str`/`String`: its sequence of Unicode scalar values. -/
abbrev Str := List Char

/-- `str::len()`: length in UTF-8 bytes. -/
def blen : Str → Nat
  | [] => 0
  | c :: cs => c.utf8Size + blen cs

/-- `str::split_at(n)` (used in `/repo/src/splicer.rs:175-176`, `/repo/src/image.rs:128`).
`none` is the panic "byte index out of range / not a char boundary". -/
def splitAtByte : Str → Nat → Option (Str × Str)
  | s, 0 => some ([], s)
  | [], _ + 1 => none
  | c :: cs, n + 1 =>
    if c.utf8Size ≤ n + 1 then
      match splitAtByte cs (n + 1 - c.utf8Size) with
      | some (a, b) => some (c :: a, b)
      | none => none
    else none

/-- Strip `w` from the front of `s` (pest `match_string`). -/
def stripPrefix : Str → Str → Option Str
  | [], s => some s
  | _ :: _, [] => none
  | w :: ws, c :: cs => if w = c then stripPrefix ws cs else none

/-- ASCII lower-casing of one character (`char::to_ascii_lowercase`). -/
def lowerChar (c : Char) : Char :=
  if 'A' ≤ c ∧ c ≤ 'Z' then Char.ofNat (c.toNat + 32) else c

/-- `str::to_ascii_lowercase` (used in `/repo/src/stage.rs:133,150,170`). -/
def lower (s : Str) : Str := s.map lowerChar

/-- Strip `w` from the front of `s` ignoring ASCII case (pest `match_insensitive`, which compares
with `eq_ignore_ascii_case`). -/
def stripPrefixI : Str → Str → Option Str
  | [], s => some s
  | _ :: _, [] => none
  | w :: ws, c :: cs => if lowerChar w = lowerChar c then stripPrefixI ws cs else none

open Lean in
/-- `c!"abc"` is the explicit list `['a', 'b', 'c']` (expanded at parse time so that the kernel
never has to look inside a `String`). -/
macro:max "c!" s:str : term => do
  let cs := s.getString.toList.map (fun c => Syntax.mkCharLit c)
  let elems : TSyntaxArray `term := (cs.map (fun c => (⟨c.raw⟩ : TSyntax `term))).toArray
  `(([$elems,*] : List Char))

end Verif
