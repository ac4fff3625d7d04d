import Verif.Model.Records

/-!
# Regular expressions and string functions, as they are written

`Model/Image` and `Model/Records` describe the two regular expressions of the crate and the calls of
string functions directly by what they compute.  Here they are taken literally: the pattern is a text,
which is read as the `regex` crate reads it, and matched by a general matcher; `splitn`, `split`,
`find`, `replace`, indexing and slicing are modelled for all arguments, with their panics.  C79 says
that nothing changes.

The `regex` crate is not part of `/repo`; modelled is its documented behaviour (leftmost match; of the
matches that start there, the one that a backtracking matcher finds first) for the part of its syntax
that the two patterns use.
-/

namespace Verif
namespace Rx

/-! ## patterns -/

/-- a pattern -/
inductive Re where
  /-- one character out of some ranges -/
  | cls (ranges : List (Char × Char))
  /-- one after the other -/
  | seq (a b : Re)
  /-- `a|b` -/
  | alt (a b : Re)
  /-- `a+` -/
  | plus (a : Re)
  /-- the group number `k` -/
  | group (k : Nat) (a : Re)
  deriving DecidableEq, Repr

/-- characters with a meaning of their own -/
def special (c : Char) : Bool := c!"\\.+*?()|[]{}^$".contains c

/-- what is in brackets, up to the closing one: characters and ranges -/
def readClass : Nat → Str → Option (List (Char × Char) × Str)
  | 0, _ => none
  | _ + 1, [] => none
  | _ + 1, ']' :: s => some ([], s)
  | n + 1, a :: '-' :: b :: s => (readClass n s).map fun x => ((a, b) :: x.1, x.2)
  | n + 1, a :: s => (readClass n s).map fun x => ((a, a) :: x.1, x.2)

mutual
/-- alternatives; the arguments are a bound for the nesting, the number of the next group, and the
text -/
def readAlt : Nat → Nat → Str → Option (Re × Nat × Str)
  | 0, _, _ => none
  | n + 1, k, s =>
    match readSeq n k s with
    | some (a, k', '|' :: s') => (readAlt n k' s').map fun x => (.alt a x.1, x.2)
    | x => x
/-- a sequence -/
def readSeq : Nat → Nat → Str → Option (Re × Nat × Str)
  | 0, _, _ => none
  | n + 1, k, s =>
    match readPiece n k s with
    | none => none
    | some (a, k', []) => some (a, k', [])
    | some (a, k', c :: s') =>
      if c = '|' ∨ c = ')' then some (a, k', c :: s')
      else (readSeq n k' (c :: s')).map fun x => (.seq a x.1, x.2)
/-- something, possibly with a plus sign -/
def readPiece : Nat → Nat → Str → Option (Re × Nat × Str)
  | 0, _, _ => none
  | n + 1, k, s =>
    match readAtom n k s with
    | some (a, k', '+' :: s') => some (.plus a, k', s')
    | x => x
/-- a character, brackets or parentheses -/
def readAtom : Nat → Nat → Str → Option (Re × Nat × Str)
  | 0, _, _ => none
  | _ + 1, k, '\\' :: c :: s => if special c then some (.cls [(c, c)], k, s) else none
  | n + 1, k, '[' :: s => (readClass n s).map fun x => (.cls x.1, k, x.2)
  | n + 1, k, '(' :: '?' :: ':' :: s =>
    match readAlt n k s with
    | some (a, k', ')' :: s') => some (a, k', s')
    | _ => none
  | n + 1, k, '(' :: s =>
    match readAlt n (k + 1) s with
    | some (a, k', ')' :: s') => some (.group k a, k', s')
    | _ => none
  | _ + 1, k, c :: s => if special c then none else some (.cls [(c, c)], k, s)
  | _ + 1, _, [] => none
end

/-- `Regex::new`; the groups are numbered from 1 in the order of their opening parentheses -/
def pattern (s : Str) : Option Re :=
  match readAlt (4 * s.length + 4) 1 s with
  | some (a, _, []) => some a
  | _ => none

/-- the pattern `VAR` (`/repo/src/image.rs:62`) -/
def varText : Str := c!"\\$(?:([A-Za-z0-9_]+)|\\{([A-Za-z0-9_]+)\\})"

/-- the pattern `HEX` (`/repo/src/instructions/from.rs:75-76`) -/
def hexText : Str := c!"[0-9a-fA-F]+"

/-! ## matching -/

/-- the state of a match: how far it has got, what is left of the text, and the groups with their
places and texts -/
structure State where
  pos : Nat
  rest : Str
  groups : List (Nat × Span × Str)
  deriving DecidableEq, Repr

/-- once or more, preferably more, but not without getting on; `n` is at least the number of further
repetitions -/
def again (f : State → List State) : Nat → State → List State
  | 0, m => f m
  | n + 1, m => (f m).flatMap fun k =>
      (if k.rest.length < m.rest.length then again f n k else []) ++ [k]

/-- all matches at the front of the text, the ones that are preferred first -/
def runs : Re → State → List State
  | .cls rs, m =>
    match m.rest with
    | [] => []
    | c :: cs =>
      if rs.any (fun r => r.1 ≤ c && c ≤ r.2) then [⟨m.pos + c.utf8Size, cs, m.groups⟩] else []
  | .seq a b, m => (runs a m).flatMap (runs b)
  | .alt a b, m => runs a m ++ runs b m
  | .plus a, m => again (runs a) m.rest.length m
  | .group k a, m => (runs a m).map fun n =>
      { n with groups := n.groups ++
          [(k, ⟨m.pos, n.pos⟩, m.rest.take (m.rest.length - n.rest.length))] }

/-- `Captures`: the place of the whole match and the groups -/
structure Caps where
  whole : Span
  groups : List (Nat × Span × Str)
  deriving DecidableEq, Repr

/-- the leftmost match in a text at offset `p`, and the text after it -/
def search (re : Re) : Nat → Str → Option (Caps × Str)
  | p, s =>
    match runs re ⟨p, s, []⟩ with
    | m :: _ => some (⟨⟨p, m.pos⟩, m.groups⟩, m.rest)
    | [] =>
      match s with
      | [] => none
      | c :: cs => search re (p + c.utf8Size) cs

/-- `Regex::is_match` -/
def isMatch (re : Re) (s : Str) : Bool := (search re 0 s).isSome

/-- `Regex::captures_iter`: one match after the other; `n` is at least the number of characters.  (For
patterns that do not match the empty text.) -/
def capturesIter (re : Re) : Nat → Nat → Str → List Caps
  | 0, _, _ => []
  | n + 1, p, s =>
    match search re p s with
    | some (caps, rest) => caps :: capturesIter re n caps.whole.stop rest
    | none => []

/-- `caps.get(k).map(|m| m.as_str())` for `k > 0` -/
def Caps.get (caps : Caps) (k : Nat) : Option Str :=
  (caps.groups.reverse.find? (·.1 = k)).map (·.2.2)

/-! ## string functions -/

/-- `str::splitn(n, c).collect()` -/
def splitn : Nat → Char → Str → List Str
  | 0, _, _ => []
  | 1, _, s => [s]
  | n + 2, c, s =>
    if c ∈ s then s.takeWhile (· ≠ c) :: splitn (n + 1) c ((s.dropWhile (· ≠ c)).drop 1) else [s]

/-- `str::split(c).collect()`: no limit (there are at most `length + 1` parts) -/
def split (c : Char) (s : Str) : List Str := splitn (s.length + 1) c s

/-- `str::find(c)`: a byte offset -/
def find (c : Char) : Str → Option Nat
  | [] => none
  | d :: ds => if d = c then some 0 else (find c ds).map (d.utf8Size + ·)

/-- `&s[n..]`; `none` is a panic -/
def sliceFrom (s : Str) (n : Nat) : Option Str := (splitAtByte s n).map (·.2)

/-- `str::replace(pat, to)` for a `pat` that is not empty: from left to right, not overlapping; `n` is
at least the number of characters -/
def replaceUpTo (pat to : Str) : Nat → Str → Str
  | 0, s => s
  | _ + 1, [] => []
  | n + 1, c :: cs =>
    match stripPrefix pat (c :: cs) with
    | some r => to ++ replaceUpTo pat to n r
    | none => c :: replaceUpTo pat to n cs

/-- `str::replace(pat, to)` for a `pat` that is not empty -/
def replace (pat to s : Str) : Str := replaceUpTo pat to s.length s

/-! ## the code again -/

/-- `ImageRef::parse` (`/repo/src/image.rs:101-144`), line by line; `none` is a panic (an index or a
slice that is out of bounds) -/
def imageParse (s : Str) : Option ImageRef := do
  let parts := splitn 2 '/' s
  let two ← if parts.length = 2 then (parts[0]?).map isRegistry else some false
  let (registry, imageFull) ←
    if two then do
      let head ← parts[0]?
      let rest ← parts[1]?
      some (some head, rest)
    else some (none, s)
  match find '@' imageFull with
  | some atPos => do
    let (image, hash) ← splitAtByte imageFull atPos
    let hash ← sliceFrom hash 1
    some { registry, image, hash := some hash, tag := none }
  | none => do
    let parts := splitn 2 ':' imageFull
    let image ← parts[0]?
    let tag := parts[1]?
    some { registry, image, tag, hash := none }

/-- the check of a digest (`/repo/src/instructions/from.rs:104-113`); `hex` is the pattern `HEX` -/
def digestOk (hex : Re) (r : ImageRef) : Bool :=
  match r.hash with
  | none => true
  | some hash =>
    match split ':' hash with
    | [alg, hexdata] => alg == c!"sha256" && !(!isMatch hex hexdata || blen hexdata != 64)
    | _ => false

/-- `clean_escaped_breaks` (`/repo/src/util.rs:52-54`) -/
def cleanBreaks (s : Str) : Str := replace c!"\\\n" [] s

/-- the loop of `substitute` (`/repo/src/image.rs:72-91`) at depth `d`; `sub` is the recursive call -/
def loop (vars : VarMap) (d : Nat) (sub : Str → List Str → Option (Option Str × List Str)) :
    List Caps → Splicer → List Str → Option (Option Str × List Str)
  | [], sp, used => some (some sp.content, used)
  | caps :: more, sp, used =>
    if d = 0 then some (none, used)
    else
      match (caps.get 1).or (caps.get 2) with
      | none => some (none, used)
      | some name =>
        match vars name with
        | none => some (none, used)
        | some content =>
          match sub content used with
          | none => none
          | some (none, used) => some (none, used)
          | some (some text, used) =>
            let used := setInsert name used
            match sp.splice caps.whole text with
            | none => none
            | some sp => loop vars d sub more sp used

/-- `substitute` (`/repo/src/image.rs:55-94`); `var` is the pattern `VAR` -/
def substitute (var : Re) (vars : VarMap) : Nat → Str → List Str → Option (Option Str × List Str)
  | 0, s, used =>
    loop vars 0 (fun _ _ => none) (capturesIter var (s.length + 1) 0 s) (Splicer.fromStr s) used
  | d + 1, s, used =>
    loop vars (d + 1) (substitute var vars d) (capturesIter var (s.length + 1) 0 s)
      (Splicer.fromStr s) used

end Rx
end Verif
