import Verif.Basic

/-!
# The pest engine

Model of the part of the `pest` crate (2.x) that `/repo/src/dockerfile_parser.pest` uses.  The
crate's source is not part of `/repo` (see DESIGN.md, trusted base); the semantics is the one of
pest's `ParserState`:

* `sequence`, `optional`, `repeat`, `lookahead(false, _)`, ordered choice (`or_else`),
  `match_string`, `match_insensitive`, `match_range`, `skip(1)` (`ANY`), `start_of_input`,
  `end_of_input`;
* `rule(name, f)` emits a token pair unless the current atomicity is `Atomic`;
* the four rule kinds of the generated code: normal `{}`, silent `_{}`, atomic `@{}`
  (`rule(name, atomic(Atomic, e))`) and compound-atomic `${}`
  (`atomic(CompoundAtomic, rule(name, e))`).

No `WHITESPACE`/`COMMENT` rule is defined in the grammar, so the implicit skipping between the
parts of a normal rule is the identity and is not modelled.
-/

namespace Verif

/-- Names of the grammar rules (the `Rule` enum that `pest_derive` generates from
`/repo/src/dockerfile_parser.pest`; `/repo/src/parser.rs:4-6`).  Silent rules never show up as a
token and are omitted. -/
inductive Rule where
  | dockerfile | comment
  | double_quoted_string | inner | escape | unicode
  | single_quoted_string | single_quoted_inner | string
  | any_content | any_breakable
  | from_flag_name | from_flag_value | from_flag | from_image | from_alias | from
  | arg_name | arg_value | arg_quoted_value | arg
  | label_name | label_quoted_name | label_value | label_quoted_value | label_pair
  | label_single_name | label_single_quoted_name | label_single | label
  | run_shell | run_exec | run
  | entrypoint_shell | entrypoint_exec | entrypoint
  | cmd_shell | cmd_exec | cmd
  | copy_flag_name | copy_flag_value | copy_flag | copy_pathspec | copy
  | env_name | env_pair_value | env_pair_quoted_value | env_pair | env_pairs
  | env_single_quoted_value | env_single_value | env_single | env
  | misc_instruction | misc_arguments | misc
  | EOI
  deriving DecidableEq, Repr

/-- Rule kinds: `{}`, `_{}`, `@{}`, `${}`. -/
inductive Kind where
  | normal | silent | atomic | compound
  deriving DecidableEq, Repr

/-- The rules that refer to themselves. -/
inductive RecRule where
  | any_breakable | inner | single_quoted_inner
  deriving DecidableEq, Repr

/-- pest expressions. -/
inductive PExpr where
  /-- `"w"` -/
  | str (w : Str)
  /-- `^"w"` -/
  | istr (w : Str)
  /-- `'a'..'b'` -/
  | range (lo hi : Char)
  /-- `ANY` -/
  | any
  /-- `SOI` -/
  | soi
  /-- `end_of_input()` (the body of `EOI`) -/
  | eoi
  /-- `a ~ b` -/
  | seq (a b : PExpr)
  /-- `a | b` -/
  | alt (a b : PExpr)
  /-- `e*` -/
  | star (e : PExpr)
  /-- `e?` -/
  | opt (e : PExpr)
  /-- `!e` -/
  | neg (e : PExpr)
  /-- a (non-recursive) reference to a rule, carrying the rule's kind and body -/
  | rule (k : Kind) (r : Rule) (e : PExpr)
  /-- a recursive reference -/
  | recur (r : RecRule)

/-- A pest token pair: rule, span, the text of the span (`Pair::as_str`) and inner pairs.
pest recomputes `as_str` from the input and the span; that the stored text is that slice is
theorem `Verif.parse_forest`. -/
inductive Tok where
  | node (r : Rule) (start stop : Nat) (text : Str) (children : List Tok)

namespace Tok
/-- `Pair::as_rule` -/
def rule : Tok → Rule | node r _ _ _ _ => r
/-- `Pair::as_span().start()` -/
def start : Tok → Nat | node _ a _ _ _ => a
/-- `Pair::as_span().end()` -/
def stop : Tok → Nat | node _ _ b _ _ => b
/-- `Pair::as_str()` -/
def text : Tok → Str | node _ _ _ t _ => t
/-- `Pair::into_inner()` -/
def children : Tok → List Tok | node _ _ _ _ c => c
end Tok

/-- Outcome of running an expression: `oof` (the fuel of the interpreter ran out, i.e. the engine
is still running), failure, or success with the new position, remaining input and emitted
tokens. -/
inductive Res where
  | oof
  | fail
  | ok (pos : Nat) (rest : Str) (toks : List Tok)

/-- `ParserState::rule` together with the atomicity handling of the four kinds: given the
atomicity in force outside (`quiet`: it is `Atomic`) and the tokens emitted by the body, the
tokens emitted by the rule. -/
def emitToks (k : Kind) (r : Rule) (quiet : Bool) (p p' : Nat) (text : Str) (ts : List Tok) :
    List Tok :=
  match k with
  | .normal => if quiet then ts else [.node r p p' text ts]
  | .silent => ts
  | .atomic => if quiet then ts else [.node r p p' text ts]
  | .compound => [.node r p p' text ts]

/-- Atomicity in force inside the body of a rule of the given kind. -/
def innerQuiet (k : Kind) (quiet : Bool) : Bool :=
  match k with
  | .normal => quiet
  | .silent => quiet
  | .atomic => true
  | .compound => false

/-- One layer of the interpreter; `again` is used for the next iteration of a repetition and for
recursive rule references.  Arguments: expression, atomicity, byte position, remaining input. -/
def step (body : RecRule → PExpr) (again : PExpr → Bool → Nat → Str → Res) :
    PExpr → Bool → Nat → Str → Res
  | .str w, _, p, s =>
    match stripPrefix w s with
    | some s' => .ok (p + blen w) s' []
    | none => .fail
  | .istr w, _, p, s =>
    match stripPrefixI w s with
    | some s' => .ok (p + blen w) s' []
    | none => .fail
  | .range lo hi, _, p, s =>
    match s with
    | [] => .fail
    | c :: cs => if lo ≤ c ∧ c ≤ hi then .ok (p + c.utf8Size) cs [] else .fail
  | .any, _, p, s =>
    match s with
    | [] => .fail
    | c :: cs => .ok (p + c.utf8Size) cs []
  | .soi, _, p, s => if p = 0 then .ok p s [] else .fail
  | .eoi, _, p, s =>
    match s with
    | [] => .ok p [] []
    | _ :: _ => .fail
  | .seq a b, q, p, s =>
    match step body again a q p s with
    | .ok p1 s1 t1 =>
      match step body again b q p1 s1 with
      | .ok p2 s2 t2 => .ok p2 s2 (t1 ++ t2)
      | .fail => .fail
      | .oof => .oof
    | .fail => .fail
    | .oof => .oof
  | .alt a b, q, p, s =>
    match step body again a q p s with
    | .ok p1 s1 t1 => .ok p1 s1 t1
    | .fail => step body again b q p s
    | .oof => .oof
  | .star e, q, p, s =>
    match step body again e q p s with
    | .ok p1 s1 t1 =>
      match again (.star e) q p1 s1 with
      | .ok p2 s2 t2 => .ok p2 s2 (t1 ++ t2)
      | .fail => .fail
      | .oof => .oof
    | .fail => .ok p s []
    | .oof => .oof
  | .opt e, q, p, s =>
    match step body again e q p s with
    | .ok p1 s1 t1 => .ok p1 s1 t1
    | .fail => .ok p s []
    | .oof => .oof
  | .neg e, q, p, s =>
    match step body again e q p s with
    | .ok _ _ _ => .fail
    | .fail => .ok p s []
    | .oof => .oof
  | .rule k r e, q, p, s =>
    match step body again e (innerQuiet k q) p s with
    | .ok p1 s1 t1 => .ok p1 s1 (emitToks k r q p p1 (s.take (s.length - s1.length)) t1)
    | .fail => .fail
    | .oof => .oof
  | .recur r, q, p, s => again (body r) q p s

/-- The fuel-driven interpreter. -/
def runFuel (body : RecRule → PExpr) : Nat → PExpr → Bool → Nat → Str → Res
  | 0 => fun _ _ _ _ => .oof
  | n + 1 => step body (runFuel body n)

end Verif
