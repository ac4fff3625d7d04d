import Verif.Model.Grammar
import Verif.Model.PestText

/-!
# pest grammars as texts

How pest reads a grammar, what its optimiser does to it, and how the result becomes the expressions
of `Model/Peg`. The crate's source is not part of `/repo` (see DESIGN.md, trusted base); this is the
part of `pest_meta` 2.x (`ast.rs`, `parser.rs`, `optimizer/*.rs`) that the grammar needs.
-/

namespace Verif
namespace Pest

/-- `pest_meta::ast::Expr`, without the forms that do not occur in the grammar -/
inductive Expr where
  /-- `"w"` -/
  | str (w : Str)
  /-- `^"w"` -/
  | insens (w : Str)
  /-- the name of a rule -/
  | ident (n : Str)
  /-- `!e` -/
  | neg (e : Expr)
  /-- `a ~ b` -/
  | seq (a b : Expr)
  /-- `a | b` -/
  | choice (a b : Expr)
  /-- `e?` -/
  | opt (e : Expr)
  /-- `e*` -/
  | rep (e : Expr)
  /-- `e+` -/
  | plus (e : Expr)
  /-- `e{n}` -/
  | exact (e : Expr) (n : Nat)
  /-- `e{n,}` -/
  | atLeast (e : Expr) (n : Nat)
  /-- `Skip`: made by the optimiser only -/
  | skip (ws : List Str)
  deriving DecidableEq, Repr

/-- `pest_meta::ast::Rule` -/
structure RuleDef where
  name : Str
  kind : Kind
  expr : Expr
  deriving DecidableEq, Repr

abbrev Grammar := List RuleDef

/-! ## reading -/

inductive Token where
  | ident (n : Str)
  | str (w : Str)
  | num (n : Nat)
  | punct (c : Char)
  deriving DecidableEq, Repr

def isAlphaChar (c : Char) : Bool := ('a' ≤ c && c ≤ 'z') || ('A' ≤ c && c ≤ 'Z')
def isDigitChar (c : Char) : Bool := '0' ≤ c && c ≤ '9'
def isIdentChar (c : Char) : Bool := isAlphaChar c || isDigitChar c || c == '_'

def hexVal (c : Char) : Option Nat :=
  if '0' ≤ c && c ≤ '9' then some (c.toNat - 48)
  else if 'a' ≤ c && c ≤ 'f' then some (c.toNat - 87)
  else if 'A' ≤ c && c ≤ 'F' then some (c.toNat - 55)
  else none

/-- the digits of `\u{...}` with the closing brace -/
def hexDigits : Nat → Str → Option (Nat × Str)
  | _, [] => none
  | v, c :: s => if c = '}' then some (v, s) else (hexVal c).bind fun d => hexDigits (16 * v + d) s

/-- a text up to the closing quote (`unescape` of `pest_meta::parser`) -/
def readText : Nat → Str → Option (Str × Str)
  | 0, _ => none
  | _ + 1, [] => none
  | n + 1, c :: s =>
    if c = '"' then some ([], s)
    else if c = '\\' then
      match s with
      | [] => none
      | d :: s =>
        if d = 'u' then
          match s with
          | '{' :: s => (hexDigits 0 s).bind fun (v, s) =>
            (readText n s).map fun (w, s) => (Char.ofNat v :: w, s)
          | _ => none
        else
          (if d = '"' then some '"' else if d = '\\' then some '\\' else if d = '\'' then some '\''
            else if d = 'n' then some '\n' else if d = 'r' then some '\r' else if d = 't' then some '\t'
            else if d = '0' then some '\x00' else none).bind fun d =>
          (readText n s).map fun (w, s) => (d :: w, s)
    else (readText n s).map fun (w, s) => (c :: w, s)

/-- blanks, line breaks and comments are between tokens -/
def tokens : Nat → Str → Option (List Token)
  | 0, _ => none
  | _ + 1, [] => some []
  | n + 1, c :: s =>
    if c = ' ' || c = '\t' || c = '\n' || c = '\r' then tokens n s
    else if c = '/' then
      match s with
      | '/' :: s => tokens n (s.dropWhile (· ≠ '\n'))
      | _ => none
    else if c = '"' then (readText (s.length + 1) s).bind fun (w, s) => (tokens n s).map (.str w :: ·)
    else if isDigitChar c then
      let ds := c :: s.takeWhile isDigitChar
      (tokens n (s.dropWhile isDigitChar)).map
        (.num (ds.foldl (fun v d => 10 * v + (d.toNat - 48)) 0) :: ·)
    else if isIdentChar c then
      (tokens n (s.dropWhile isIdentChar)).map (.ident (c :: s.takeWhile isIdentChar) :: ·)
    else if c ∈ c!"=@${}()|~!?*+,^" then (tokens n s).map (.punct c :: ·)
    else none

/-- where we are in an expression; `~` binds more tightly than `|`, both to the left, and postfix
operators more tightly than `!` -/
inductive Level where
  | choice | choices (a : Expr) | seq | seqs (a : Expr) | term | post (a : Expr)

def readExpr : Nat → Level → List Token → Option (Expr × List Token)
  | 0, _, _ => none
  | n + 1, .choice, ts => (readExpr n .seq ts).bind fun (a, ts) => readExpr n (.choices a) ts
  | n + 1, .choices a, ts =>
    match ts with
    | .punct '|' :: ts => (readExpr n .seq ts).bind fun (b, ts) => readExpr n (.choices (.choice a b)) ts
    | ts => some (a, ts)
  | n + 1, .seq, ts => (readExpr n .term ts).bind fun (a, ts) => readExpr n (.seqs a) ts
  | n + 1, .seqs a, ts =>
    match ts with
    | .punct '~' :: ts => (readExpr n .term ts).bind fun (b, ts) => readExpr n (.seqs (.seq a b)) ts
    | ts => some (a, ts)
  | n + 1, .term, ts =>
    match ts with
    | .punct '!' :: ts => (readExpr n .term ts).map fun (a, ts) => (.neg a, ts)
    | .punct '^' :: .str w :: ts => readExpr n (.post (.insens w)) ts
    | .str w :: ts => readExpr n (.post (.str w)) ts
    | .ident i :: ts => readExpr n (.post (.ident i)) ts
    | .punct '(' :: ts => (readExpr n .choice ts).bind fun (a, ts) =>
      match ts with
      | .punct ')' :: ts => readExpr n (.post a) ts
      | _ => none
    | _ => none
  | n + 1, .post a, ts =>
    match ts with
    | .punct '?' :: ts => readExpr n (.post (.opt a)) ts
    | .punct '*' :: ts => readExpr n (.post (.rep a)) ts
    | .punct '+' :: ts => readExpr n (.post (.plus a)) ts
    | .punct '{' :: .num k :: .punct '}' :: ts => readExpr n (.post (.exact a k)) ts
    | .punct '{' :: .num k :: .punct ',' :: .punct '}' :: ts => readExpr n (.post (.atLeast a k)) ts
    | ts => some (a, ts)

/-- `name = kind{ expr }` -/
def readRules : Nat → List Token → Option Grammar
  | 0, _ => none
  | _ + 1, [] => some []
  | n + 1, .ident i :: .punct '=' :: ts =>
    (match ts with
      | .punct '{' :: ts => some (Kind.normal, ts)
      | .ident ['_'] :: .punct '{' :: ts => some (.silent, ts)
      | .punct '@' :: .punct '{' :: ts => some (.atomic, ts)
      | .punct '$' :: .punct '{' :: ts => some (.compound, ts)
      | _ => none).bind fun (k, ts) =>
    (readExpr (10 * ts.length) .choice ts).bind fun (e, ts) =>
      match ts with
      | .punct '}' :: ts => (readRules n ts).map (⟨i, k, e⟩ :: ·)
      | _ => none
  | _ + 1, _ => none

def read (s : Str) : Option Grammar := (tokens (s.length + 1) s).bind fun ts => readRules (ts.length + 1) ts

/-! ## the optimiser -/

def Expr.size : Expr → Nat
  | str _ | insens _ | ident _ | skip _ => 1
  | neg e | opt e | rep e | plus e | exact e _ | atLeast e _ => e.size + 1
  | seq a b | choice a b => a.size + b.size + 1

/-- `Expr::map_top_down` (the number is the depth to go) -/
def mapTop (f : Expr → Expr) : Nat → Expr → Expr
  | 0, e => e
  | n + 1, e =>
    match f e with
    | .neg e => .neg (mapTop f n e)
    | .seq a b => .seq (mapTop f n a) (mapTop f n b)
    | .choice a b => .choice (mapTop f n a) (mapTop f n b)
    | .opt e => .opt (mapTop f n e)
    | .rep e => .rep (mapTop f n e)
    | .plus e => .plus (mapTop f n e)
    | .exact e k => .exact (mapTop f n e) k
    | .atLeast e k => .atLeast (mapTop f n e) k
    | e => e

/-- `Expr::map_bottom_up` -/
def mapBottom (f : Expr → Expr) : Expr → Expr
  | .neg e => f (.neg (mapBottom f e))
  | .seq a b => f (.seq (mapBottom f a) (mapBottom f b))
  | .choice a b => f (.choice (mapBottom f a) (mapBottom f b))
  | .opt e => f (.opt (mapBottom f e))
  | .rep e => f (.rep (mapBottom f e))
  | .plus e => f (.plus (mapBottom f e))
  | .exact e k => f (.exact (mapBottom f e) k)
  | .atLeast e k => f (.atLeast (mapBottom f e) k)
  | e => f e

/-- `rotater.rs`: sequences and choices lean to the right -/
def rotateSeq : Expr → Expr → Expr
  | .seq a b, r => rotateSeq a (.seq b r)
  | l, r => .seq l r
def rotateChoice : Expr → Expr → Expr
  | .choice a b, r => rotateChoice a (.choice b r)
  | l, r => .choice l r
def rotateStep : Expr → Expr
  | .seq a b => rotateSeq a b
  | .choice a b => rotateChoice a b
  | e => e

/-- `skipper.rs`: `(!("a" | "b") ~ ANY)*` skips to the next `a` or `b` -/
def choices : Expr → Option (List Str)
  | .str w => some [w]
  | .choice (.str w) b => (choices b).map (w :: ·)
  | _ => none
def skipStep : Expr → Expr
  | .rep (.seq (.neg e) (.ident i)) =>
    if i = c!"ANY" then
      match choices e with
      | some ws => .skip ws
      | none => .rep (.seq (.neg e) (.ident i))
    else .rep (.seq (.neg e) (.ident i))
  | e => e

/-- the same, looking up names (later versions of `skipper.rs`) -/
def choicesIn (g : Grammar) : Nat → Expr → Option (List Str)
  | 0, _ => none
  | n + 1, e =>
    match e with
    | .str w => some [w]
    | .ident i => (g.find? (·.name = i)).bind fun r => choicesIn g n r.expr
    | .choice a b => (choicesIn g n a).bind fun ws => (choicesIn g n b).map (ws ++ ·)
    | _ => none
def skipStepIn (g : Grammar) : Expr → Expr
  | .rep (.seq (.neg e) (.ident i)) =>
    if i = c!"ANY" then
      match choicesIn g 100 e with
      | some ws => .skip ws
      | none => .rep (.seq (.neg e) (.ident i))
    else .rep (.seq (.neg e) (.ident i))
  | e => e

/-- `unroller.rs`: `e+`, `e{n}` and `e{n,}` are written out -/
def times (e : Expr) : Nat → Expr
  | 0 => .str []
  | 1 => e
  | n + 2 => .seq e (times e (n + 1))
def timesThen (e : Expr) : Nat → Expr
  | 0 => .rep e
  | n + 1 => .seq e (timesThen e n)
def unrollStep : Expr → Expr
  | .plus e => .seq e (.rep e)
  | .exact e n => times e n
  | .atLeast e n => timesThen e n
  | e => e

/-- `concatenator.rs`: adjacent texts become one -/
def concatStep : Expr → Expr
  | .seq (.str a) (.str b) => .str (a ++ b)
  | .seq (.insens a) (.insens b) => .insens (a ++ b)
  | e => e

/-- `factorizer.rs`: what two alternatives have in common at the start is tried once -/
def factorStep : Expr → Expr
  | .choice (.seq a b) (.seq c d) =>
    if a = c then .seq a (.choice b d) else .choice (.seq a b) (.seq c d)
  | .choice (.seq a b) c => if a = c then .seq a (.opt b) else .choice (.seq a b) c
  | .choice a (.seq c d) => if a = c then a else .choice a (.seq c d)
  | e => e

/-- `lister.rs`: `(a ~ b)* ~ a` becomes `a ~ (b ~ a)*` (which is not the same) -/
def listStep : Expr → Expr
  | .seq (.rep (.seq a b)) c => if a = c then .seq a (.rep (.seq b a)) else .seq (.rep (.seq a b)) c
  | e => e

/-- the passes of the optimiser -/
inductive Pass where
  | rotate | skip | unroll | concatenate | factorize | list
  deriving DecidableEq, Repr

/-- A pass on the body of a rule; two of them are for atomic rules only. -/
def Pass.run (x : Pass) (k : Kind) (e : Expr) : Expr :=
  match x with
  | .rotate => mapTop rotateStep e.size e
  | .skip => if k = .atomic then mapTop skipStep e.size e else e
  | .unroll => mapBottom unrollStep e
  | .concatenate => if k = .atomic then mapBottom concatStep e else e
  | .factorize => mapTop factorStep e.size e
  | .list => mapBottom listStep e

def Grammar.map (f : Kind → Expr → Expr) (g : Grammar) : Grammar :=
  List.map (fun r => { r with expr := f r.kind r.expr }) g

/-- some passes, one after the other -/
def Grammar.passes (g : Grammar) (xs : List Pass) : Grammar := xs.foldl (fun g x => g.map x.run) g

/-- `optimizer::optimize` (its last pass, `restorer.rs`, is about a stack the grammar does not use) -/
def Grammar.optimize (g : Grammar) : Grammar :=
  g.passes [.rotate, .skip, .unroll, .concatenate, .factorize, .list]

/-! ## from names to expressions -/

/-- the built-in rules -/
def builtin (n : Str) : Option PExpr :=
  if n = c!"ANY" then some .any
  else if n = c!"SOI" then some .soi
  else if n = c!"EOI" then some G.EOI
  else if n = c!"NEWLINE" then some G.NEWLINE
  else if n = c!"ASCII_ALPHA" then some G.ASCII_ALPHA
  else if n = c!"ASCII_ALPHANUMERIC" then some G.ASCII_ALPHANUMERIC
  else if n = c!"ASCII_HEX_DIGIT" then some G.ASCII_HEX_DIGIT
  else none

/-- the names of the rules -/
def ruleNames : List (Str × Rule) :=
  [(c!"dockerfile", .dockerfile), (c!"comment", .comment),
   (c!"double_quoted_string", .double_quoted_string), (c!"inner", .inner), (c!"escape", .escape),
   (c!"unicode", .unicode), (c!"single_quoted_string", .single_quoted_string),
   (c!"single_quoted_inner", .single_quoted_inner), (c!"string", .string),
   (c!"any_content", .any_content), (c!"any_breakable", .any_breakable),
   (c!"from_flag_name", .from_flag_name), (c!"from_flag_value", .from_flag_value),
   (c!"from_flag", .from_flag), (c!"from_image", .from_image), (c!"from_alias", .from_alias),
   (c!"from", .from), (c!"arg_name", .arg_name), (c!"arg_value", .arg_value),
   (c!"arg_quoted_value", .arg_quoted_value), (c!"arg", .arg), (c!"label_name", .label_name),
   (c!"label_quoted_name", .label_quoted_name), (c!"label_value", .label_value),
   (c!"label_quoted_value", .label_quoted_value), (c!"label_pair", .label_pair),
   (c!"label_single_name", .label_single_name),
   (c!"label_single_quoted_name", .label_single_quoted_name), (c!"label_single", .label_single),
   (c!"label", .label), (c!"run_shell", .run_shell), (c!"run_exec", .run_exec), (c!"run", .run),
   (c!"entrypoint_shell", .entrypoint_shell), (c!"entrypoint_exec", .entrypoint_exec),
   (c!"entrypoint", .entrypoint), (c!"cmd_shell", .cmd_shell), (c!"cmd_exec", .cmd_exec),
   (c!"cmd", .cmd), (c!"copy_flag_name", .copy_flag_name), (c!"copy_flag_value", .copy_flag_value),
   (c!"copy_flag", .copy_flag), (c!"copy_pathspec", .copy_pathspec), (c!"copy", .copy),
   (c!"env_name", .env_name), (c!"env_pair_value", .env_pair_value),
   (c!"env_pair_quoted_value", .env_pair_quoted_value), (c!"env_pair", .env_pair),
   (c!"env_pairs", .env_pairs), (c!"env_single_quoted_value", .env_single_quoted_value),
   (c!"env_single_value", .env_single_value), (c!"env_single", .env_single), (c!"env", .env),
   (c!"misc_instruction", .misc_instruction), (c!"misc_arguments", .misc_arguments), (c!"misc", .misc)]

def ruleOf (n : Str) : Option Rule := (ruleNames.find? (·.1 = n)).map (·.2)

def recNames : List (Str × RecRule) :=
  [(c!"any_breakable", .any_breakable), (c!"inner", .inner), (c!"single_quoted_inner", .single_quoted_inner)]

/-- Put the bodies of rules for their names; a name inside of its own body (`inside` has the names of
the bodies around) is a recursive reference. -/
def inline (g : Grammar) : Nat → List Str → Expr → Option PExpr
  | 0, _, _ => none
  | n + 1, inside, e =>
    match e with
    | .str w => some (.str w)
    | .insens w => some (.istr w)
    | .neg e => (inline g n inside e).map .neg
    | .seq a b => (inline g n inside a).bind fun a => (inline g n inside b).map (.seq a)
    | .choice a b => (inline g n inside a).bind fun a => (inline g n inside b).map (.alt a)
    | .opt e => (inline g n inside e).map .opt
    | .rep e => (inline g n inside e).map .star
    | .ident i =>
      match builtin i with
      | some e => some e
      | none =>
        if i ∈ inside then (recNames.find? (·.1 = i)).map (.recur ·.2)
        else (g.find? (·.name = i)).bind fun r =>
          match r.kind with
          | .silent => inline g n (i :: inside) r.expr
          | k => (ruleOf i).bind fun x => (inline g n (i :: inside) r.expr).map (.rule k x)
    | _ => none

end Pest
end Verif
