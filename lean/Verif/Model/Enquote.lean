import Verif.Model.Ast

/-!
# The `enquote` crate (external dependency, version 1.1)

`enquote::unquote` is used in `/repo/src/util.rs:38`, `/repo/src/instructions/env.rs:56,119` and
`/repo/src/instructions/label.rs:42,53`.  Its source is not in `/repo`; the definition below is
the crate's published algorithm as known to the author of this model.  Property theorems are
stated for an *arbitrary* function `unq : Str → Except UnquoteError Str` in its place (so they do
not depend on this file), except where they say otherwise through an explicit hypothesis
(`UndoesQuoting`), which this definition is proved to satisfy.  The concrete definition is used in
the conformance tests and non-vacuity examples.
-/

namespace Verif
namespace Enquote

/-- `take(&mut chars, n)`: the next `n` characters, NUL-padded at the end of input. -/
def takePad : Nat → Str → Str × Str
  | 0, s => ([], s)
  | n + 1, [] => let (a, b) := takePad n []; ('\x00' :: a, b)
  | n + 1, c :: cs => let (a, b) := takePad n cs; (c :: a, b)

/-- `char::to_digit(radix)` -/
def digit? (radix : Nat) (c : Char) : Option Nat :=
  let v :=
    if '0' ≤ c ∧ c ≤ '9' then some (c.toNat - 48)
    else if 'a' ≤ c ∧ c ≤ 'f' then some (c.toNat - 87)
    else if 'A' ≤ c ∧ c ≤ 'F' then some (c.toNat - 55)
    else none
  match v with
  | some d => if d < radix then some d else none
  | none => none

/-- digits of `from_str_radix` -/
def digits? (radix : Nat) : Nat → Str → Option Nat
  | acc, [] => some acc
  | acc, c :: cs =>
    match digit? radix c with
    | some d => digits? radix (acc * radix + d) cs
    | none => none

/-- `uN::from_str_radix(s, radix)` with upper bound `max` (accepts one leading `+`). -/
def fromStrRadix (radix max : Nat) (s : Str) : Option Nat :=
  let ds := match s with
    | '+' :: rest => rest
    | other => other
  match ds with
  | [] => none
  | _ =>
    match digits? radix 0 ds with
    | some n => if n ≤ max then some n else none
    | none => none

/-- `decode_unicode` -/
def decodeUnicode (s : Str) : Except UnquoteError Char :=
  match fromStrRadix 16 4294967295 s with
  | none => .error .unrecognizedEscape
  | some n => if h : n.isValidChar then .ok (Char.ofNatAux n h) else .error .invalidUnicode

/-- the escapes other than octal, hex and unicode -/
def simpleEscape (c : Char) : Option Char :=
  if c = '\\' ∨ c = '"' ∨ c = '\'' ∨ c = '`' then some c
  else if c = 'a' then some '\x07'
  else if c = 'b' then some '\x08'
  else if c = 'f' then some '\x0c'
  else if c = 'n' then some '\n'
  else if c = 'r' then some '\r'
  else if c = 't' then some '\t'
  else if c = 'v' then some '\x0b'
  else none

/-- `unescape(s, Some(illegal))`; the first argument bounds the number of characters left. -/
def unescape (illegal : Char) : Nat → Str → Except UnquoteError Str
  | _, [] => .ok []
  | 0, _ :: _ => .ok []
  | n + 1, c :: cs =>
    if c = illegal then .error .illegalChar
    else if c = '\\' then
      match cs with
      | [] => .error .unexpectedEof
      | e :: rest =>
        match simpleEscape e with
        | some v => do return v :: (← unescape illegal n rest)
        | none =>
          if '0' ≤ e ∧ e ≤ '9' then
            let (ds, rest') := takePad 2 rest
            match fromStrRadix 8 255 (e :: ds) with
            | some v => do return Char.ofNat v :: (← unescape illegal n rest')
            | none => .error .unrecognizedEscape
          else if e = 'x' then
            let (ds, rest') := takePad 2 rest
            match fromStrRadix 16 255 ds with
            | some v => do return Char.ofNat v :: (← unescape illegal n rest')
            | none => .error .unrecognizedEscape
          else if e = 'u' then
            let (ds, rest') := takePad 4 rest
            do return (← decodeUnicode ds) :: (← unescape illegal n rest')
          else if e = 'U' then
            let (ds, rest') := takePad 8 rest
            do return (← decodeUnicode ds) :: (← unescape illegal n rest')
          else .error .unrecognizedEscape
    else do return c :: (← unescape illegal n cs)

/-- `enquote::unquote` -/
def unquote (s : Str) : Except UnquoteError Str :=
  match s with
  | [] => .error .notEnoughChars
  | [_] => .error .notEnoughChars
  | q :: c :: cs =>
    if (c :: cs).getLast? ≠ some q then .error .unmatchedQuotes
    else if q = '"' ∨ q = '\'' ∨ q = '`' then
      unescape q ((c :: cs).dropLast.length) ((c :: cs).dropLast)
    else .error .unrecognizedQuotes

end Enquote
end Verif
