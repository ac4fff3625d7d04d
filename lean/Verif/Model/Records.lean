import Verif.Model.Ast
import Verif.Model.Image

/-!
# From pest pairs to instructions

`/repo/src/util.rs` and the `from_record` functions of `/repo/src/instructions/*.rs`.
Every function takes the `unquote` function of the `enquote` crate as a parameter.
-/

namespace Verif

/-- The type of `enquote::unquote`. -/
abbrev Unquote := Str → Except UnquoteError Str

/-- `Span::from_pair` (`/repo/src/splicer.rs:28-35`) -/
def Tok.span (t : Tok) : Span := ⟨t.start, t.stop⟩

/-- `unexpected_token` (`/repo/src/error.rs:58-62`) -/
def unexpectedToken (t : Tok) : Fault := .err (.generic (.unexpectedToken t.rule))

/-- `unquote(s).context(UnescapeError)?` -/
def unquoteR (unq : Unquote) (s : Str) : Result Str :=
  match unq s with
  | .ok v => .ok v
  | .error e => .error (.err (.unescape e))

/-- first character is `"`, `'` or `` ` `` (`/repo/src/util.rs:37`) -/
def startsWithQuote (s : Str) : Bool :=
  match s with
  | [] => false
  | c :: _ => c == '"' || c == '\'' || c == '`'

/-- `parse_string` (`/repo/src/util.rs:34-47`) -/
def parseString (unq : Unquote) (field : Tok) : Result SpannedString :=
  if startsWithQuote field.text then do
    let content ← unquoteR unq field.text
    return { span := field.span, content }
  else
    return { span := field.span, content := field.text }

/-- loop of `parse_string_array` (`/repo/src/util.rs:18-26`) -/
def stringArrayElems (unq : Unquote) : List Tok → Result (List SpannedString)
  | [] => .ok []
  | field :: fs =>
    match field.rule with
    | .string => do
      let e ← parseString unq field
      let es ← stringArrayElems unq fs
      return e :: es
    | .comment => stringArrayElems unq fs
    | _ => .error (unexpectedToken field)

/-- `parse_string_array` (`/repo/src/util.rs:14-32`) -/
def parseStringArray (unq : Unquote) (array : Tok) : Result StringArray := do
  let elements ← stringArrayElems unq array.children
  return { span := array.span, elements }

/-- `clean_escaped_breaks` (`/repo/src/util.rs:52-54`): `s.replace("\\\n", "")` -/
def cleanEscapedBreaks : Str → Str
  | '\\' :: '\n' :: cs => cleanEscapedBreaks cs
  | c :: cs => c :: cleanEscapedBreaks cs
  | [] => []

mutual
/-- `parse_any_breakable_inner` (`/repo/src/util.rs:252-271`) on a pair -/
def breakableComponents : Tok → Result (List BreakableStringComponent)
  | .node _ _ _ _ children => breakableComponentsList children
/-- the loop of `parse_any_breakable_inner` over the inner pairs -/
def breakableComponentsList : List Tok → Result (List BreakableStringComponent)
  | [] => .ok []
  | field :: fs =>
    match field.rule with
    | .any_breakable => do
      let cs ← breakableComponents field
      let rest ← breakableComponentsList fs
      return cs ++ rest
    | .comment => do
      let rest ← breakableComponentsList fs
      return .comment { span := field.span, content := field.text } :: rest
    | .any_content => do
      let rest ← breakableComponentsList fs
      return .string { span := field.span, content := field.text } :: rest
    | _ => .error (unexpectedToken field)
end

/-- `parse_any_breakable` (`/repo/src/util.rs:273-278`) -/
def parseAnyBreakable (pair : Tok) : Result BreakableString := do
  let components ← breakableComponents pair
  return { span := pair.span, components }

/-- `Display for BreakableString` (`/repo/src/util.rs:194-204`) -/
def BreakableString.display (b : BreakableString) : Str :=
  b.components.flatMap fun
    | .string s => s.content
    | .comment _ => []

/-- `x.ok_or_else(|| GenericParseError { message })?` -/
def require {α : Type} (m : Msg) : Option α → Result α
  | some a => .ok a
  | none => .error (.err (.generic m))

/-! ## FROM -/

/-- loop of `FromFlag::from_record` (`from.rs:32-38`) and `CopyFlag::from_record`
(`copy.rs:29-35`) -/
def flagFields (unq : Unquote) (nameRule valueRule : Rule) :
    List Tok → Option SpannedString → Option SpannedString →
    Result (Option SpannedString × Option SpannedString)
  | [], name, value => .ok (name, value)
  | field :: fs, name, value =>
    if field.rule = nameRule then do
      let n ← parseString unq field
      flagFields unq nameRule valueRule fs (some n) value
    else if field.rule = valueRule then do
      let v ← parseString unq field
      flagFields unq nameRule valueRule fs name (some v)
    else .error (unexpectedToken field)

/-- `FromFlag::from_record` (`/repo/src/instructions/from.rs:27-51`) -/
def fromFlagRecord (unq : Unquote) (record : Tok) : Result Flag := do
  let (name, value) ← flagFields unq .from_flag_name .from_flag_value record.children none none
  let name ← require .fromFlagKey name
  let value ← require .fromFlagValue value
  return { span := record.span, name, value }

/-- loop of `FromInstruction::from_record` (`from.rs:84-92`) -/
def fromFields (unq : Unquote) :
    List Tok → Option Tok → Option Tok → List Flag → Result (Option Tok × Option Tok × List Flag)
  | [], image, alias, flags => .ok (image, alias, flags)
  | field :: fs, image, alias, flags =>
    match field.rule with
    | .from_flag => do
      let f ← fromFlagRecord unq field
      fromFields unq fs image alias (flags ++ [f])
    | .from_image => fromFields unq fs (some field) alias flags
    | .from_alias => fromFields unq fs image (some field) flags
    | .comment => fromFields unq fs image alias flags
    | _ => .error (unexpectedToken field)

/-- `s.split(c).collect()` -/
def splitOn (c : Char) : Str → List Str
  | [] => [[]]
  | d :: ds =>
    if d = c then [] :: splitOn c ds
    else match splitOn c ds with
      | [] => [[d]]
      | x :: xs => (d :: x) :: xs

/-- `[0-9a-fA-F]` -/
def isHexChar (c : Char) : Bool :=
  ('0' ≤ c && c ≤ '9') || ('a' ≤ c && c ≤ 'f') || ('A' ≤ c && c ≤ 'F')

/-- The digest check (`from.rs:104-113`).  `HEX.is_match` is *unanchored*
(`from.rs:74-77`: `[0-9a-fA-F]+`), i.e. "contains a hex digit"; `hexdata.len()` is in bytes. -/
def checkDigest (r : ImageRef) : Bool :=
  match r.hash with
  | none => true
  | some hash =>
    match splitOn ':' hash with
    | [alg, hexdata] =>
      alg == ['s', 'h', 'a', '2', '5', '6'] && (hexdata.any isHexChar && blen hexdata == 64)
    | _ => false

/-- `FromInstruction::from_record` (`/repo/src/instructions/from.rs:73-126`) -/
def fromRecord (unq : Unquote) (record : Tok) (index : Nat) : Result FromInstruction := do
  let (imageField, aliasField, flags) ← fromFields unq record.children none none []
  let image ←
    match imageField with
    | some f => parseString unq f
    | none => .error (.err (.generic .missingFromImage))
  let imageParsed := ImageRef.parse image.content
  if checkDigest imageParsed then
    let alias ←
      match aliasField with
      | some f => do
        let a ← parseString unq f
        pure (some a)
      | none => pure none
    return { span := record.span, flags, image, image_parsed := imageParsed, index, alias }
  else .error (.err (.generic .digestInvalid))

/-! ## ARG -/

/-- loop of `ArgInstruction::from_record` (`arg.rs:37-45`) -/
def argFields (unq : Unquote) :
    List Tok → Option SpannedString → Option SpannedString →
    Result (Option SpannedString × Option SpannedString)
  | [], name, value => .ok (name, value)
  | field :: fs, name, value =>
    match field.rule with
    | .arg_name => do
      let n ← parseString unq field
      argFields unq fs (some n) value
    | .arg_quoted_value => do
      let v ← parseString unq field
      argFields unq fs name (some v)
    | .arg_value => do
      let v ← parseString unq field
      argFields unq fs name (some v)
    | .comment => argFields unq fs name value
    | _ => .error (unexpectedToken field)

/-- `ArgInstruction::from_record` (`/repo/src/instructions/arg.rs:32-59`) -/
def argRecord (unq : Unquote) (record : Tok) : Result ArgInstruction := do
  let (name, value) ← argFields unq record.children none none
  let name ← require .argName name
  return { span := record.span, name, value }

/-! ## LABEL -/

/-- the quoted-string branches of `Label::from_record` (`label.rs:40-49,52-60`) -/
def labelQuoted (unq : Unquote) (field : Tok) : Result SpannedString := do
  let v ← unquoteR unq (cleanEscapedBreaks field.text)
  return { span := field.span, content := v }

/-- loop of `Label::from_record` (`label.rs:37-64`) -/
def labelFields (unq : Unquote) :
    List Tok → Option SpannedString → Option SpannedString →
    Result (Option SpannedString × Option SpannedString)
  | [], name, value => .ok (name, value)
  | field :: fs, name, value =>
    match field.rule with
    | .label_name => do
      let n ← parseString unq field
      labelFields unq fs (some n) value
    | .label_single_name => do
      let n ← parseString unq field
      labelFields unq fs (some n) value
    | .label_quoted_name => do
      let n ← labelQuoted unq field
      labelFields unq fs (some n) value
    | .label_single_quoted_name => do
      let n ← labelQuoted unq field
      labelFields unq fs (some n) value
    | .label_value => do
      let v ← parseString unq field
      labelFields unq fs name (some v)
    | .label_quoted_value => do
      let v ← labelQuoted unq field
      labelFields unq fs name (some v)
    | .comment => labelFields unq fs name value
    | _ => .error (unexpectedToken field)

/-- `Label::from_record` (`/repo/src/instructions/label.rs:32-75`) -/
def labelPairRecord (unq : Unquote) (record : Tok) : Result Label := do
  let (name, value) ← labelFields unq record.children none none
  let name ← require .labelName name
  let value ← require .labelValue value
  return { span := record.span, name, value }

/-- loop of `LabelInstruction::from_record` (`label.rs:94-101`) -/
def labelList (unq : Unquote) : List Tok → Result (List Label)
  | [] => .ok []
  | field :: fs =>
    match field.rule with
    | .label_pair => do
      let l ← labelPairRecord unq field
      let ls ← labelList unq fs
      return l :: ls
    | .label_single => do
      let l ← labelPairRecord unq field
      let ls ← labelList unq fs
      return l :: ls
    | .comment => labelList unq fs
    | _ => .error (unexpectedToken field)

/-- `LabelInstruction::from_record` (`/repo/src/instructions/label.rs:90-107`) -/
def labelRecord (unq : Unquote) (record : Tok) : Result LabelInstruction := do
  let labels ← labelList unq record.children
  return { span := record.span, labels }

/-! ## RUN, CMD, ENTRYPOINT -/

/-- `RunInstruction::from_record` (`run.rs:24-39`), `CmdInstruction::from_record`
(`cmd.rs:24-39`), `EntrypointInstruction::from_record` (`entrypoint.rs:24-39`): the same code with
different rule names.  `record.into_inner().next().unwrap()` panics if there is no inner pair. -/
def execRecord (unq : Unquote) (execRule shellRule : Rule) (record : Tok) :
    Result ExecInstruction :=
  match record.children with
  | [] => .error .panic
  | field :: _ =>
    if field.rule = execRule then do
      let a ← parseStringArray unq field
      return { span := record.span, expr := .exec a }
    else if field.rule = shellRule then do
      let b ← parseAnyBreakable field
      return { span := record.span, expr := .shell b }
    else .error (unexpectedToken field)

/-! ## COPY -/

/-- `CopyFlag::from_record` (`/repo/src/instructions/copy.rs:24-48`) -/
def copyFlagRecord (unq : Unquote) (record : Tok) : Result Flag := do
  let (name, value) ← flagFields unq .copy_flag_name .copy_flag_value record.children none none
  let name ← require .copyFlagKey name
  let value ← require .copyFlagValue value
  return { span := record.span, name, value }

/-- loop of `CopyInstruction::from_record` (`copy.rs:68-75`) -/
def copyFields (unq : Unquote) :
    List Tok → List Flag → List SpannedString → Result (List Flag × List SpannedString)
  | [], flags, paths => .ok (flags, paths)
  | field :: fs, flags, paths =>
    match field.rule with
    | .copy_flag => do
      let f ← copyFlagRecord unq field
      copyFields unq fs (flags ++ [f]) paths
    | .copy_pathspec => do
      let p ← parseString unq field
      copyFields unq fs flags (paths ++ [p])
    | .comment => copyFields unq fs flags paths
    | _ => .error (unexpectedToken field)

/-- `CopyInstruction::from_record` (`/repo/src/instructions/copy.rs:63-93`); `paths.pop().unwrap()`
panics on an empty vector. -/
def copyRecord (unq : Unquote) (record : Tok) : Result CopyInstruction := do
  let (flags, paths) ← copyFields unq record.children [] []
  if paths.length ≥ 2 then
    match paths.getLast? with
    | none => .error .panic
    | some destination =>
      return { span := record.span, flags, sources := paths.dropLast, destination }
  else .error (.err (.generic .copyPaths))

/-! ## ENV -/

/-- `BreakableString::new(&field).add_string(&field, v)` (`/repo/src/util.rs:207-227`) -/
def breakableOf (field : Tok) (v : Str) : BreakableString :=
  { span := field.span, components := [.string { span := field.span, content := v }] }

/-- loop of `parse_env_pair` (`env.rs:47-64`) -/
def envPairFields (unq : Unquote) :
    List Tok → Option SpannedString → Option BreakableString →
    Result (Option SpannedString × Option BreakableString)
  | [], key, value => .ok (key, value)
  | field :: fs, key, value =>
    match field.rule with
    | .env_name => do
      let k ← parseString unq field
      envPairFields unq fs (some k) value
    | .env_pair_value => envPairFields unq fs key (some (breakableOf field field.text))
    | .env_pair_quoted_value => do
      let v ← unquoteR unq field.text
      envPairFields unq fs key (some (breakableOf field v))
    | _ => .error (unexpectedToken field)

/-- `parse_env_pair` (`/repo/src/instructions/env.rs:42-79`) -/
def envPairRecord (unq : Unquote) (record : Tok) : Result EnvVar := do
  let (key, value) ← envPairFields unq record.children none none
  let key ← require .envPairKey key
  let value ← require .envPairValue value
  return { span := record.span, key, value }

/-- loop of `EnvInstruction::from_pairs_record` (`env.rs:96-102`) -/
def envPairList (unq : Unquote) : List Tok → Result (List EnvVar)
  | [] => .ok []
  | field :: fs =>
    match field.rule with
    | .env_pair => do
      let v ← envPairRecord unq field
      let vs ← envPairList unq fs
      return v :: vs
    | .comment => envPairList unq fs
    | _ => .error (unexpectedToken field)

/-- loop of `EnvInstruction::from_single_record` (`env.rs:114-128`) -/
def envSingleFields (unq : Unquote) :
    List Tok → Option SpannedString → Option BreakableString →
    Result (Option SpannedString × Option BreakableString)
  | [], key, value => .ok (key, value)
  | field :: fs, key, value =>
    match field.rule with
    | .env_name => do
      let k ← parseString unq field
      envSingleFields unq fs (some k) value
    | .env_single_value => do
      let v ← parseAnyBreakable field
      envSingleFields unq fs key (some v)
    | .env_single_quoted_value => do
      let v ← unquoteR unq field.text
      envSingleFields unq fs key (some (breakableOf field v))
    | .comment => envSingleFields unq fs key value
    | _ => .error (unexpectedToken field)

/-- `EnvInstruction::from_record`, `from_pairs_record`, `from_single_record`
(`/repo/src/instructions/env.rs:82-146`) -/
def envRecord (unq : Unquote) (record : Tok) : Result EnvInstruction :=
  match record.children with
  | [] => .error .panic
  | field :: _ =>
    match field.rule with
    | .env_single => do
      let (key, value) ← envSingleFields unq field.children none none
      let key ← require .envKey key
      let value ← require .envValue value
      return { span := record.span,
               vars := [{ span := ⟨key.span.start, value.span.stop⟩, key, value }] }
    | .env_pairs => do
      let vars ← envPairList unq field.children
      return { span := record.span, vars }
    | _ => .error (unexpectedToken field)

/-! ## misc -/

/-- loop of `MiscInstruction::from_record` (`misc.rs:31-37`) -/
def miscFields (unq : Unquote) :
    List Tok → Option SpannedString → Option BreakableString →
    Result (Option SpannedString × Option BreakableString)
  | [], name, args => .ok (name, args)
  | field :: fs, name, args =>
    match field.rule with
    | .misc_instruction => do
      let n ← parseString unq field
      miscFields unq fs (some n) args
    | .misc_arguments => do
      let a ← parseAnyBreakable field
      miscFields unq fs name (some a)
    | _ => .error (unexpectedToken field)

/-- `MiscInstruction::from_record` (`/repo/src/instructions/misc.rs:26-51`) -/
def miscRecord (unq : Unquote) (record : Tok) : Result MiscInstruction := do
  let (name, args) ← miscFields unq record.children none none
  let instruction ← require .miscName name
  let arguments ← require .miscArguments args
  return { span := record.span, instruction, arguments }

/-! ## dispatch -/

/-- `TryFrom<Pair> for Instruction` (`/repo/src/dockerfile_parser.rs:249-277`) -/
def instructionOf (unq : Unquote) (record : Tok) : Result Instruction :=
  match record.rule with
  | .from => do return .from (← fromRecord unq record 0)
  | .arg => do return .arg (← argRecord unq record)
  | .label => do return .label (← labelRecord unq record)
  | .run => do return .run (← execRecord unq .run_exec .run_shell record)
  | .entrypoint => do
    return .entrypoint (← execRecord unq .entrypoint_exec .entrypoint_shell record)
  | .cmd => do return .cmd (← execRecord unq .cmd_exec .cmd_shell record)
  | .copy => do return .copy (← copyRecord unq record)
  | .env => do return .env (← envRecord unq record)
  | .misc => do return .misc (← miscRecord unq record)
  | _ => .error (unexpectedToken record)

end Verif
