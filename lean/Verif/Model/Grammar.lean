import Verif.Model.Peg

/-!
# The grammar `/repo/src/dockerfile_parser.pest`

One definition per grammar rule; the doc comment gives the line(s) and the source text.
`a ~~ b` is `a ~ b`, `a </> b` is `a | b`.  pest's `e+` is `e ~ e*`, `e{2,}` is `e ~ e ~ e*`,
`e{4}` is `e ~ e ~ e ~ e` (the unrolling done by pest's optimizer).
-/

namespace Verif
namespace G

@[inherit_doc] scoped infixr:67 " ~~ " => PExpr.seq
@[inherit_doc] scoped infixr:66 " </> " => PExpr.alt

open PExpr

/-- `e+` -/
abbrev plus (e : PExpr) : PExpr := e ~~ star e
/-- `{ e }` -/
abbrev nrm (r : Rule) (e : PExpr) : PExpr := .rule .normal r e
/-- `@{ e }` -/
abbrev atm (r : Rule) (e : PExpr) : PExpr := .rule .atomic r e
/-- `${ e }` -/
abbrev cmp (r : Rule) (e : PExpr) : PExpr := .rule .compound r e

/-! ## pest built-ins -/

/-- `NEWLINE`: `"\n" | "\r\n" | "\r"` -/
def NEWLINE : PExpr := str ['\n'] </> str ['\r', '\n'] </> str ['\r']
/-- `ASCII_ALPHA`: `'a'..'z' | 'A'..'Z'` -/
def ASCII_ALPHA : PExpr := range 'a' 'z' </> range 'A' 'Z'
/-- `ASCII_ALPHANUMERIC`: `'a'..'z' | 'A'..'Z' | '0'..'9'` -/
def ASCII_ALPHANUMERIC : PExpr := range 'a' 'z' </> range 'A' 'Z' </> range '0' '9'
/-- `ASCII_HEX_DIGIT`: `'0'..'9' | 'a'..'f' | 'A'..'F'` -/
def ASCII_HEX_DIGIT : PExpr := range '0' '9' </> range 'a' 'f' </> range 'A' 'F'
/-- `EOI` (a rule that emits a token) -/
def EOI : PExpr := nrm .EOI eoi

/-! ## whitespace and comments -/

/-- pest:33 `ws = _{ " " | "\t" }` -/
def ws : PExpr := str [' '] </> str ['\t']
/-- pest:35 `comment = @{ "#" ~ (!NEWLINE ~ ANY)* }` -/
def comment : PExpr := atm .comment (str ['#'] ~~ star (neg NEWLINE ~~ any))
/-- pest:36 `comment_line = _{ ws* ~ comment ~ NEWLINE? }` -/
def comment_line : PExpr := star ws ~~ comment ~~ opt NEWLINE
/-- pest:37 `empty_line = _{ ws* ~ NEWLINE }` -/
def empty_line : PExpr := star ws ~~ NEWLINE

/-! ## strings -/

/-- pest:42 `unicode = @{ "u" ~ ASCII_HEX_DIGIT{4} | "U" ~ ASCII_HEX_DIGIT{8} }` -/
def unicode : PExpr := atm .unicode
  ((str ['u'] ~~ ASCII_HEX_DIGIT ~~ ASCII_HEX_DIGIT ~~ ASCII_HEX_DIGIT ~~ ASCII_HEX_DIGIT) </>
   (str ['U'] ~~ ASCII_HEX_DIGIT ~~ ASCII_HEX_DIGIT ~~ ASCII_HEX_DIGIT ~~ ASCII_HEX_DIGIT ~~
      ASCII_HEX_DIGIT ~~ ASCII_HEX_DIGIT ~~ ASCII_HEX_DIGIT ~~ ASCII_HEX_DIGIT))
/-- pest:41 `escape = @{ "\\" ~ ("b" | "t" | "n" | "f" | "r" | "\"" | "\\" | "'" | unicode |
NEWLINE)? }` -/
def escape : PExpr := atm .escape
  (str ['\\'] ~~ opt (str ['b'] </> str ['t'] </> str ['n'] </> str ['f'] </> str ['r'] </>
    str ['"'] </> str ['\\'] </> str ['\''] </> unicode </> NEWLINE))
/-- pest:40 `inner = @{ (!("\"" | "\\" | "\u{0000}" | "\u{001F}") ~ ANY)* ~ (escape ~ inner)? }` -/
def inner : PExpr := atm .inner
  (star (neg (str ['"'] </> str ['\\'] </> str ['\x00'] </> str ['\x1F']) ~~ any) ~~
    opt (escape ~~ recur .inner))
/-- pest:39 `double_quoted_string = @{ "\"" ~ inner ~ "\"" }` -/
def double_quoted_string : PExpr := atm .double_quoted_string (str ['"'] ~~ inner ~~ str ['"'])
/-- pest:45 `single_quoted_inner = @{ (!("'" | "\\" | "\u{0000}" | "\u{001F}") ~ ANY)* ~
(escape ~ single_quoted_inner)? }` -/
def single_quoted_inner : PExpr := atm .single_quoted_inner
  (star (neg (str ['\''] </> str ['\\'] </> str ['\x00'] </> str ['\x1F']) ~~ any) ~~
    opt (escape ~~ recur .single_quoted_inner))
/-- pest:44 `single_quoted_string = @{ "'" ~ single_quoted_inner ~ "'" }` -/
def single_quoted_string : PExpr :=
  atm .single_quoted_string (str ['\''] ~~ single_quoted_inner ~~ str ['\''])
/-- pest:47 `string = ${ single_quoted_string | double_quoted_string }` -/
def string : PExpr := cmp .string (single_quoted_string </> double_quoted_string)

/-! ## continuations -/

/-- pest:50 `line_continuation = _{ "\\" ~ ws* ~ NEWLINE }` -/
def line_continuation : PExpr := str ['\\'] ~~ star ws ~~ NEWLINE
/-- the item repeated in pest:54,57: `ws | line_continuation ~ (comment_line | empty_line)*` -/
def arg_ws_item : PExpr := ws </> (line_continuation ~~ star (comment_line </> empty_line))
/-- pest:54 `arg_ws = _{ (ws | line_continuation ~ (comment_line | empty_line)*)+ }` -/
def arg_ws : PExpr := plus arg_ws_item
/-- pest:57 `arg_ws_maybe = _{ (ws | line_continuation ~ (comment_line | empty_line)*)* }` -/
def arg_ws_maybe : PExpr := star arg_ws_item
/-- pest:63-69 `any_content = @{ ( !NEWLINE ~ !line_continuation ~ ANY )+ }` -/
def any_content : PExpr := atm .any_content (plus (neg NEWLINE ~~ neg line_continuation ~~ any))
/-- pest:70-79 `any_breakable = ${ ( comment_line ~ any_breakable? ) |
( any_content ~ (line_continuation ~ any_breakable)? ) }` -/
def any_breakable : PExpr := cmp .any_breakable
  ((comment_line ~~ opt (recur .any_breakable)) </>
   (any_content ~~ opt (line_continuation ~~ recur .any_breakable)))

/-- pest:85 `any_whitespace = _{ (!(NEWLINE | EOI | arg_ws) ~ ANY)+ }` -/
def any_whitespace : PExpr := plus (neg (NEWLINE </> EOI </> arg_ws) ~~ any)
/-- pest:88 `identifier_whitespace = _{ (!ws ~ (ASCII_ALPHANUMERIC | "_" | "-"))+ }` -/
def identifier_whitespace : PExpr :=
  plus (neg ws ~~ (ASCII_ALPHANUMERIC </> str ['_'] </> str ['-']))
/-- pest:91 `any_equals = _{ (!(NEWLINE | ws | "=") ~ ANY)+ }` -/
def any_equals : PExpr := plus (neg (NEWLINE </> ws </> str ['=']) ~~ any)
/-- pest:94-102 `string_array = _{ ( "[" ~ arg_ws_maybe ~ string ~
(arg_ws_maybe ~ "," ~ arg_ws_maybe ~ string)* ~ ","? ~ arg_ws_maybe ~ "]" ) |
"[" ~ arg_ws_maybe ~ "]" }` -/
def string_array : PExpr :=
  (str ['['] ~~ arg_ws_maybe ~~ string ~~
    star (arg_ws_maybe ~~ str [','] ~~ arg_ws_maybe ~~ string) ~~
    opt (str [',']) ~~ arg_ws_maybe ~~ str [']']) </>
  (str ['['] ~~ arg_ws_maybe ~~ str [']'])

/-! ## FROM -/

/-- pest:104 `from_flag_name = @{ ASCII_ALPHA+ }` -/
def from_flag_name : PExpr := atm .from_flag_name (plus ASCII_ALPHA)
/-- pest:105 `from_flag_value = @{ any_whitespace }` -/
def from_flag_value : PExpr := atm .from_flag_value any_whitespace
/-- pest:106 `from_flag = { "--" ~ from_flag_name ~ "=" ~ from_flag_value }` -/
def from_flag : PExpr :=
  nrm .from_flag (str ['-', '-'] ~~ from_flag_name ~~ str ['='] ~~ from_flag_value)
/-- pest:107 `from_image = @{ (ASCII_ALPHANUMERIC | "_" | "-" | "." | ":" | "/" | "$" | "{" | "}" |
"@")+ }` -/
def from_image : PExpr := atm .from_image
  (plus (ASCII_ALPHANUMERIC </> str ['_'] </> str ['-'] </> str ['.'] </> str [':'] </> str ['/'] </>
    str ['$'] </> str ['{'] </> str ['}'] </> str ['@']))
/-- pest:108 `from_alias = { identifier_whitespace }` -/
def from_alias : PExpr := nrm .from_alias identifier_whitespace
/-- pest:109 `from_alias_outer = _{ arg_ws ~ ^"as" ~ arg_ws ~ from_alias }` -/
def from_alias_outer : PExpr := arg_ws ~~ istr ['a', 's'] ~~ arg_ws ~~ from_alias
/-- pest:110 `from = { ^"from" ~ (arg_ws ~ from_flag)* ~ arg_ws ~ from_image ~
from_alias_outer? }` -/
def «from» : PExpr := nrm .from
  (istr ['f', 'r', 'o', 'm'] ~~ star (arg_ws ~~ from_flag) ~~ arg_ws ~~ from_image ~~
    opt from_alias_outer)

/-! ## ARG -/

/-- pest:112 `arg_name = @{ ASCII_ALPHA ~ (ASCII_ALPHANUMERIC | "_")* }` -/
def arg_name : PExpr := atm .arg_name (ASCII_ALPHA ~~ star (ASCII_ALPHANUMERIC </> str ['_']))
/-- pest:113 `arg_value = ${ any_whitespace }` -/
def arg_value : PExpr := cmp .arg_value any_whitespace
/-- pest:114 `arg_quoted_value = ${ string }` -/
def arg_quoted_value : PExpr := cmp .arg_quoted_value string
/-- pest:115 `arg = { ^"arg" ~ arg_ws ~ arg_name ~ ("=" ~ (arg_quoted_value | arg_value))? }` -/
def arg : PExpr := nrm .arg
  (istr ['a', 'r', 'g'] ~~ arg_ws ~~ arg_name ~~
    opt (str ['='] ~~ (arg_quoted_value </> arg_value)))

/-! ## LABEL -/

/-- pest:117 `label_name = ${ any_equals }` -/
def label_name : PExpr := cmp .label_name any_equals
/-- pest:118 `label_quoted_name = ${ string }` -/
def label_quoted_name : PExpr := cmp .label_quoted_name string
/-- pest:119 `label_value = ${ any_whitespace }` -/
def label_value : PExpr := cmp .label_value any_whitespace
/-- pest:120 `label_quoted_value = ${ string }` -/
def label_quoted_value : PExpr := cmp .label_quoted_value string
/-- pest:121-123 `label_pair = { (label_quoted_name | label_name) ~ "=" ~
(label_quoted_value | label_value) }` -/
def label_pair : PExpr := nrm .label_pair
  ((label_quoted_name </> label_name) ~~ str ['='] ~~ (label_quoted_value </> label_value))
/-- pest:124 `label_single_name = { any_equals }` -/
def label_single_name : PExpr := nrm .label_single_name any_equals
/-- pest:125 `label_single_quoted_name = { string }` -/
def label_single_quoted_name : PExpr := nrm .label_single_quoted_name string
/-- pest:126 `label_single = { arg_ws ~ (label_single_quoted_name | label_single_name) ~ arg_ws ~
(label_quoted_value | label_value) }` -/
def label_single : PExpr := nrm .label_single
  (arg_ws ~~ (label_single_quoted_name </> label_single_name) ~~ arg_ws ~~
    (label_quoted_value </> label_value))
/-- pest:127 `label = { ^"label" ~ (label_single | (arg_ws ~ label_pair?)+) }` -/
def label : PExpr := nrm .label
  (istr ['l', 'a', 'b', 'e', 'l'] ~~ (label_single </> plus (arg_ws ~~ opt label_pair)))

/-! ## RUN, ENTRYPOINT, CMD -/

/-- pest:129 `run_shell = @{ any_breakable }` -/
def run_shell : PExpr := atm .run_shell any_breakable
/-- pest:130 `run_exec = { string_array }` -/
def run_exec : PExpr := nrm .run_exec string_array
/-- pest:131 `run = { ^"run" ~ arg_ws ~ (run_exec | run_shell) }` -/
def run : PExpr := nrm .run (istr ['r', 'u', 'n'] ~~ arg_ws ~~ (run_exec </> run_shell))
/-- pest:133 `entrypoint_shell = @{ any_breakable }` -/
def entrypoint_shell : PExpr := atm .entrypoint_shell any_breakable
/-- pest:134 `entrypoint_exec = { string_array }` -/
def entrypoint_exec : PExpr := nrm .entrypoint_exec string_array
/-- pest:135 `entrypoint = { ^"entrypoint" ~ arg_ws ~ (entrypoint_exec | entrypoint_shell) }` -/
def entrypoint : PExpr := nrm .entrypoint
  (istr ['e', 'n', 't', 'r', 'y', 'p', 'o', 'i', 'n', 't'] ~~ arg_ws ~~
    (entrypoint_exec </> entrypoint_shell))
/-- pest:137 `cmd_shell = @{ any_breakable }` -/
def cmd_shell : PExpr := atm .cmd_shell any_breakable
/-- pest:138 `cmd_exec = { string_array }` -/
def cmd_exec : PExpr := nrm .cmd_exec string_array
/-- pest:139 `cmd = { ^"cmd" ~ arg_ws ~ (cmd_exec | cmd_shell) }` -/
def cmd : PExpr := nrm .cmd (istr ['c', 'm', 'd'] ~~ arg_ws ~~ (cmd_exec </> cmd_shell))

/-! ## COPY -/

/-- pest:141 `copy_flag_name = @{ ASCII_ALPHA+ }` -/
def copy_flag_name : PExpr := atm .copy_flag_name (plus ASCII_ALPHA)
/-- pest:142 `copy_flag_value = @{ any_whitespace }` -/
def copy_flag_value : PExpr := atm .copy_flag_value any_whitespace
/-- pest:143 `copy_flag = { "--" ~ copy_flag_name ~ "=" ~ copy_flag_value }` -/
def copy_flag : PExpr :=
  nrm .copy_flag (str ['-', '-'] ~~ copy_flag_name ~~ str ['='] ~~ copy_flag_value)
/-- pest:144 `copy_pathspec = @{ any_whitespace }` -/
def copy_pathspec : PExpr := atm .copy_pathspec any_whitespace
/-- pest:145 `copy = { ^"copy" ~ (arg_ws ~ copy_flag)* ~ (arg_ws ~ copy_pathspec){2,} }` -/
def copy : PExpr := nrm .copy
  (istr ['c', 'o', 'p', 'y'] ~~ star (arg_ws ~~ copy_flag) ~~
    (arg_ws ~~ copy_pathspec) ~~ (arg_ws ~~ copy_pathspec) ~~ star (arg_ws ~~ copy_pathspec))

/-! ## ENV -/

/-- pest:147 `env_name = ${ (ASCII_ALPHANUMERIC | "_")+ }` -/
def env_name : PExpr := cmp .env_name (plus (ASCII_ALPHANUMERIC </> str ['_']))
/-- pest:148 `env_pair_value = ${ any_whitespace }` -/
def env_pair_value : PExpr := cmp .env_pair_value any_whitespace
/-- pest:149 `env_pair_quoted_value = ${ string }` -/
def env_pair_quoted_value : PExpr := cmp .env_pair_quoted_value string
/-- pest:150 `env_pair = @{ env_name ~ "=" ~ (env_pair_quoted_value | env_pair_value) }` -/
def env_pair : PExpr :=
  atm .env_pair (env_name ~~ str ['='] ~~ (env_pair_quoted_value </> env_pair_value))
/-- pest:151 `env_pairs = { (arg_ws ~ env_pair?)+ }` -/
def env_pairs : PExpr := nrm .env_pairs (plus (arg_ws ~~ opt env_pair))
/-- pest:152 `env_single_quoted_value = ${ string }` -/
def env_single_quoted_value : PExpr := cmp .env_single_quoted_value string
/-- pest:153 `env_single_value = @{ any_breakable }` -/
def env_single_value : PExpr := atm .env_single_value any_breakable
/-- pest:154 `env_single = { arg_ws ~ env_name ~ arg_ws ~
(env_single_quoted_value | env_single_value) }` -/
def env_single : PExpr := nrm .env_single
  (arg_ws ~~ env_name ~~ arg_ws ~~ (env_single_quoted_value </> env_single_value))
/-- pest:155 `env = { ^"env" ~ (env_single | env_pairs) }` -/
def env : PExpr := nrm .env (istr ['e', 'n', 'v'] ~~ (env_single </> env_pairs))

/-! ## everything else -/

/-- pest:157 `misc_instruction = @{ ASCII_ALPHA+ }` -/
def misc_instruction : PExpr := atm .misc_instruction (plus ASCII_ALPHA)
/-- pest:158 `misc_arguments = @{ any_breakable }` -/
def misc_arguments : PExpr := atm .misc_arguments any_breakable
/-- pest:159 `misc = { misc_instruction ~ misc_arguments }` -/
def misc : PExpr := nrm .misc (misc_instruction ~~ misc_arguments)

/-- pest:8-30 `step = _{ ( from | run | arg | label | copy | entrypoint | cmd | env | misc ) }` -/
def step : PExpr :=
  «from» </> run </> arg </> label </> copy </> entrypoint </> cmd </> env </> misc
/-- pest:6 `meta_step = _{ ws* ~ (step | comment)? ~ ws* }` -/
def meta_step : PExpr := star ws ~~ opt (step </> comment) ~~ star ws
/-- pest:5 `dockerfile = { SOI ~ meta_step ~ (NEWLINE ~ meta_step)* ~ EOI }` -/
def dockerfile : PExpr :=
  nrm .dockerfile (soi ~~ meta_step ~~ star (NEWLINE ~~ meta_step) ~~ EOI)

/-- The bodies behind the recursive references. -/
def body : RecRule → PExpr
  | .any_breakable => any_breakable
  | .inner => inner
  | .single_quoted_inner => single_quoted_inner

end G

/-- Run a grammar expression on the whole remaining input.  `s.length + 2` units of fuel are
always enough (`Verif.runFuel_ne_oof`), so `none` means "does not match". -/
def parse (e : PExpr) (quiet : Bool) (p : Nat) (s : Str) : Option (Nat × Str × List Tok) :=
  match runFuel G.body (s.length + 2) e quiet p s with
  | .ok p' s' ts => some (p', s', ts)
  | .fail => none
  | .oof => none

end Verif
