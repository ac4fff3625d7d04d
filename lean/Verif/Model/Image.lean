import Verif.Model.Ast
import Verif.Model.Splicer

/-!
# `/repo/src/image.rs`
-/

namespace Verif

/-- `is_registry` (`/repo/src/image.rs:44-46`) -/
def isRegistry (token : Str) : Bool :=
  token == ['l', 'o', 'c', 'a', 'l', 'h', 'o', 's', 't'] || token.contains '.' || token.contains ':'

/-- `s.splitn(2, c)` / `s.find(c)` + `split_at`: the text before the first `c` and the text after
it, `none` if `c` does not occur. -/
def splitFirst (c : Char) : Str → Option (Str × Str)
  | [] => none
  | d :: ds =>
    if d = c then some ([], ds)
    else match splitFirst c ds with
      | some (a, b) => some (d :: a, b)
      | none => none

namespace ImageRef

/-- `ImageRef::parse` (`/repo/src/image.rs:101-144`).  `splitn(2, '/')` yields two parts iff `/`
occurs (`splitFirst '/'`); `find('@')`, `split_at`, `hash[1..]` is `splitFirst '@'`;
`splitn(2, ':')` is `splitFirst ':'`. -/
def parse (s : Str) : ImageRef :=
  let (registry, imageFull) :=
    match splitFirst '/' s with
    | some (head, rest) => if isRegistry head then (some head, rest) else (none, s)
    | none => (none, s)
  match splitFirst '@' imageFull with
  | some (image, hash) => { registry, image, hash := some hash, tag := none }
  | none =>
    match splitFirst ':' imageFull with
    | some (image, tag) => { registry, image, tag := some tag, hash := none }
    | none => { registry, image := imageFull, tag := none, hash := none }

/-- `Display for ImageRef` (`/repo/src/image.rs:186-202`) -/
def display (r : ImageRef) : Str :=
  (match r.registry with
    | some reg => reg ++ ['/']
    | none => []) ++
  r.image ++
  (match r.tag with
    | some tag => ':' :: tag
    | none =>
      match r.hash with
      | some hash => '@' :: hash
      | none => [])

end ImageRef

/-! ## Variable substitution -/

/-- `[A-Za-z0-9_]` -/
def isWordChar (c : Char) : Bool :=
  ('A' ≤ c && c ≤ 'Z') || ('a' ≤ c && c ≤ 'z') || ('0' ≤ c && c ≤ '9') || c == '_'

/-- Longest prefix of word characters, and the rest. -/
def spanWord : Str → Str × Str
  | [] => ([], [])
  | c :: cs => if isWordChar c then let (a, b) := spanWord cs; (c :: a, b) else ([], c :: cs)

/-- An anchored match of the regex `\$(?:([A-Za-z0-9_]+)|\{([A-Za-z0-9_]+)\})`
(`/repo/src/image.rs:62`): the captured variable name and the text after the match. -/
def matchVar : Str → Option (Str × Str)
  | '$' :: rest =>
    match spanWord rest with
    | (c :: w, rest') => some (c :: w, rest')
    | ([], _) =>
      match rest with
      | '{' :: rest2 =>
        match spanWord rest2 with
        | (c :: w, '}' :: rest') => some (c :: w, rest')
        | _ => none
      | _ => none
  | _ => none

/-- One capture of `VAR.captures_iter(s)`: the range of the whole match (`caps.get(0)`) and the
captured name (`caps.get(1).or_else(|| caps.get(2))`). -/
structure Capture where
  range : Span
  name : Str
  deriving DecidableEq, Repr

/-- `VAR.captures_iter(s)`: successive non-overlapping leftmost matches.  `n` bounds the number of
characters still to scan, `p` is the byte offset of `s` in the subject. -/
def capturesFrom : Nat → Nat → Str → List Capture
  | 0, _, _ => []
  | _ + 1, _, [] => []
  | n + 1, p, c :: cs =>
    match matchVar (c :: cs) with
    | some (name, rest) =>
      let e := p + (blen (c :: cs) - blen rest)
      { range := ⟨p, e⟩, name } :: capturesFrom n e rest
    | none => capturesFrom n (p + c.utf8Size) cs

/-- all captures of a string -/
def captures (s : Str) : List Capture := capturesFrom s.length 0 s

/-- `HashSet::insert`; a `HashSet<String>` is modelled by the list of its elements in order of
first insertion (iteration order is never observed by the crate). -/
def setInsert (x : Str) (l : List Str) : List Str := if x ∈ l then l else l ++ [x]

/-- A `HashMap<&str, &str>`: only `get` is used. -/
abbrev VarMap := Str → Option Str

/-- The loop over captures in `substitute` (`/repo/src/image.rs:72-91`) when
`max_recursion_depth > 0`; `rec` is the recursive call.  Result: `none` = panic (in `splice`);
otherwise the returned `Option` (the final splicer content) and the final `used_vars`. -/
def substLoop (vars : VarMap) (recSub : Str → List Str → Option (Option Str × List Str)) :
    List Capture → Splicer → List Str → Option (Option Str × List Str)
  | [], sp, used => some (some sp.content, used)
  | cap :: caps, sp, used =>
    match vars cap.name with
    | none => some (none, used)
    | some content =>
      match recSub content used with
      | none => none
      | some (none, used') => some (none, used')
      | some (some sub, used') =>
        match sp.splice cap.range sub with
        | none => none
        | some sp' => substLoop vars recSub caps sp' (setInsert cap.name used')

/-- `substitute` (`/repo/src/image.rs:55-94`).  The depth is a `u8` in Rust; here it is any
natural number (the recursion only ever decreases it).  Outer `none` is a panic; otherwise the
`Option<String>` returned and the final contents of `used_vars`. -/
def substitute (vars : VarMap) : Nat → Str → List Str → Option (Option Str × List Str)
  | 0, s, used =>
    match captures s with
    | [] => some (some s, used)
    | _ :: _ => some (none, used)
  | d + 1, s, used => substLoop vars (substitute vars d) (captures s) (Splicer.fromStr s) used

/-- `HashMap::from_iter` over the global args that have a value
(`/repo/src/image.rs:156-163`): later entries overwrite earlier ones. -/
def argVars (args : List ArgInstruction) : VarMap :=
  args.foldl (fun m a =>
    match a.value with
    | some v => fun k => if k = a.name.content then some v.content else m k
    | none => m) (fun _ => none)

namespace ImageRef

/-- `ImageRef::resolve_vars_with_context` (`/repo/src/image.rs:153-172`); outer `none` = panic. -/
def resolveVarsWithContext (r : ImageRef) (d : Dockerfile) :
    Option (Option (ImageRef × List Str)) :=
  match substitute (argVars d.global_args) 16 r.display [] with
  | none => none
  | some (some s, used) => some (some (parse s, used))
  | some (none, _) => some none

/-- `ImageRef::resolve_vars` (`/repo/src/image.rs:181-183`) -/
def resolveVars (r : ImageRef) (d : Dockerfile) : Option (Option ImageRef) :=
  match r.resolveVarsWithContext d with
  | none => none
  | some o => some (o.map (·.1))

end ImageRef
end Verif
