import Verif.Model.PestRuns

/-!
# The engine of pest

`Model/Peg` and `Model/PestRuns` say what an expression matches and which pairs come out of it. Here
is how pest (2.x) does it: the parser state with its queue of tokens and its record of failed attempts
(`pest/src/parser_state.rs`), the code generated for a grammar (`pest_generator/src/generator.rs`),
and the pairs that are read off the queue (`pest/src/iterators/{pair,pairs}.rs`). The crate's source is
not part of `/repo` (see DESIGN.md, trusted base). Left out: the stack (`PUSH` and the like), tags, the
limit on the number of calls (off unless set) and the line index, none of which this grammar uses.
-/

namespace Verif
namespace Pest

/-- `QueueableToken` -/
inductive QTok where
  /-- `Start { end_token_index, input_pos }` -/
  | start (stop : Nat) (pos : Nat)
  /-- `End { start_token_index, rule, input_pos }` -/
  | stop (start : Nat) (r : Rule) (pos : Nat)
  deriving DecidableEq, Repr

/-- `Lookahead` -/
inductive Look where
  | none | positive | negative
  deriving DecidableEq, Repr

/-- `Atomicity` -/
inductive Atom where
  | nonAtomic | compound | atomic
  deriving DecidableEq, Repr

/-- `ParserState` (the position is the number of bytes before it and the text after it) -/
structure St where
  pos : Nat
  rest : Str
  queue : List QTok
  look : Look
  atom : Atom
  posAttempts : List Rule
  negAttempts : List Rule
  attemptPos : Nat
  deriving DecidableEq, Repr

/-- `ParserState::new` -/
def St.init (input : Str) : St := ⟨0, input, [], .none, .nonAtomic, [], [], 0⟩

/-- A closure from state to state: `Ok` is `true`, `Err` is `false`; `none` is a panic, or that the
number of steps given was not enough. -/
abbrev M := St → Option (Bool × St)

/-- `Result::and_then` -/
def andThen (f g : M) : M := fun st =>
  match f st with
  | some (true, st) => g st
  | r => r

/-- `Result::or_else` -/
def orElse (f g : M) : M := fun st =>
  match f st with
  | some (false, st) => g st
  | r => r

/-! ## `ParserState` -/

/-- `attempts_at` -/
def St.attemptsAt (st : St) (pos : Nat) : Nat :=
  if st.attemptPos = pos then st.posAttempts.length + st.negAttempts.length else 0

/-- `track` -/
def St.track (st : St) (r : Rule) (pos posIndex negIndex before : Nat) : St :=
  if st.atom = .atomic then st
  else if st.attemptsAt pos > before ∧ st.attemptsAt pos - before = 1 then st
  else
    let st := if pos = st.attemptPos then
        { st with posAttempts := st.posAttempts.take posIndex, negAttempts := st.negAttempts.take negIndex }
      else st
    let st := if pos > st.attemptPos then
        { st with posAttempts := [], negAttempts := [], attemptPos := pos }
      else st
    if pos = st.attemptPos then
      if st.look ≠ .negative then { st with posAttempts := st.posAttempts ++ [r] }
      else { st with negAttempts := st.negAttempts ++ [r] }
    else st

/-- are tokens put in the queue? -/
def St.emits (st : St) : Bool := st.look = .none && st.atom ≠ .atomic

/-- `rule` -/
def rule (r : Rule) (f : M) : M := fun st =>
  let pos := st.pos
  let index := st.queue.length
  let posIndex := if pos = st.attemptPos then st.posAttempts.length else 0
  let negIndex := if pos = st.attemptPos then st.negAttempts.length else 0
  let st := if st.emits then { st with queue := st.queue ++ [.start 0 pos] } else st
  let before := st.attemptsAt pos
  match f st with
  | none => none
  | some (true, st) =>
    let st := if st.look = .negative then st.track r pos posIndex negIndex before else st
    if st.emits then
      match st.queue[index]? with
      | some (.start _ p) =>
        some (true, { st with queue := st.queue.set index (.start st.queue.length p) ++ [.stop index r st.pos] })
      | _ => none
    else some (true, st)
  | some (false, st) =>
    let st := if st.look ≠ .negative then st.track r pos posIndex negIndex before else st
    some (false, if st.emits then { st with queue := st.queue.take index } else st)

/-- `sequence` -/
def sequence (f : M) : M := fun st =>
  match f st with
  | some (false, st') => some (false, { st' with pos := st.pos, rest := st.rest, queue := st'.queue.take st.queue.length })
  | r => r

/-- `repeat` (with a limit on the rounds) -/
def repeat_ : Nat → M → M
  | 0, _ => fun _ => none
  | n + 1, f => fun st =>
    match f st with
    | some (true, st) => repeat_ n f st
    | some (false, st) => some (true, st)
    | none => none

/-- `optional` -/
def optional (f : M) : M := fun st => (f st).map fun r => (true, r.2)

/-- the lookahead inside of one that is positive or negative -/
def Look.under : Bool → Look → Look
  | true, .none => .positive
  | true, .positive => .positive
  | true, .negative => .negative
  | false, .none => .negative
  | false, .positive => .negative
  | false, .negative => .positive

/-- `lookahead` -/
def lookahead (positive : Bool) (f : M) : M := fun st =>
  (f { st with look := st.look.under positive }).map fun r =>
    (if positive then r.1 else !r.1, { r.2 with pos := st.pos, rest := st.rest, look := st.look })

/-- `atomic` -/
def atomic (a : Atom) (f : M) : M := fun st =>
  if st.atom ≠ a then (f { st with atom := a }).map fun r => (r.1, { r.2 with atom := st.atom })
  else f st

/-- `match_string` -/
def matchString (w : Str) : M := fun st =>
  match stripPrefix w st.rest with
  | some s => some (true, { st with pos := st.pos + blen w, rest := s })
  | none => some (false, st)

/-- `match_insensitive` -/
def matchInsensitive (w : Str) : M := fun st =>
  match stripPrefixI w st.rest with
  | some s => some (true, { st with pos := st.pos + blen w, rest := s })
  | none => some (false, st)

/-- `match_range` -/
def matchRange (lo hi : Char) : M := fun st =>
  match st.rest with
  | [] => some (false, st)
  | c :: s => if lo ≤ c ∧ c ≤ hi then some (true, { st with pos := st.pos + c.utf8Size, rest := s }) else some (false, st)

/-- `skip(1)` -/
def skipOne : M := fun st =>
  match st.rest with
  | [] => some (false, st)
  | c :: s => some (true, { st with pos := st.pos + c.utf8Size, rest := s })

/-- `skip_until` -/
def skipUntil (ws : List Str) : M := fun st =>
  some (true, { st with pos := (skipTo ws st.pos st.rest).1, rest := (skipTo ws st.pos st.rest).2 })

/-- `start_of_input` -/
def startOfInput : M := fun st => some (st.pos = 0, st)

/-- `end_of_input` -/
def endOfInput : M := fun st => some (st.rest = [], st)

/-! ## generated code -/

/-- the code for the built-in rules -/
def genBuiltin (i : Str) : Option M :=
  if i = c!"ANY" then some skipOne
  else if i = c!"SOI" then some startOfInput
  else if i = c!"EOI" then some (rule .EOI endOfInput)
  else if i = c!"NEWLINE" then
    some (orElse (orElse (matchString ['\n']) (matchString ['\r', '\n'])) (matchString ['\r']))
  else if i = c!"ASCII_ALPHA" then some (orElse (matchRange 'a' 'z') (matchRange 'A' 'Z'))
  else if i = c!"ASCII_ALPHANUMERIC" then
    some (orElse (orElse (matchRange 'a' 'z') (matchRange 'A' 'Z')) (matchRange '0' '9'))
  else if i = c!"ASCII_HEX_DIGIT" then
    some (orElse (orElse (matchRange '0' '9') (matchRange 'a' 'f')) (matchRange 'A' 'F'))
  else none

/-- a sequence leaning to the right, as a list -/
def seqParts : Expr → List Expr
  | .seq a b => a :: seqParts b
  | e => [e]

/-- a choice leaning to the right, as a list -/
def choiceParts : Expr → List Expr
  | .choice a b => a :: choiceParts b
  | e => [e]

mutual
/-- `generate_expr` and `generate_expr_atomic` (`quiet`); between the parts of a sequence the former
skips blanks and comments, which is `Ok(state)` for a grammar without rules for them. -/
def gen (g : Grammar) : Nat → Bool → Expr → M
  | 0, _, _ => fun _ => none
  | n + 1, quiet, e =>
    match e with
    | .str w => matchString w
    | .insens w => matchInsensitive w
    | .ident i => genRule g n i
    | .neg e => lookahead false (gen g n quiet e)
    | .seq a b => sequence ((seqParts b).foldl (fun f e => andThen f (gen g n quiet e)) (gen g n quiet a))
    | .choice a b => (choiceParts b).foldl (fun f e => orElse f (gen g n quiet e)) (gen g n quiet a)
    | .opt e => optional (gen g n quiet e)
    | .rep e =>
      if quiet then repeat_ n (gen g n quiet e)
      else sequence (optional (andThen (gen g n quiet e) (repeat_ n (sequence (gen g n quiet e)))))
    | .skip ws => skipUntil ws
    | .plus _ | .exact _ _ | .atLeast _ _ => fun _ => none
/-- `generate_rule` -/
def genRule (g : Grammar) : Nat → Str → M
  | 0, _ => fun _ => none
  | n + 1, i =>
    match genBuiltin i with
    | some f => f
    | none =>
      match g.rule? i with
      | none => fun _ => none
      | some d =>
        match d.kind with
        | .silent => gen g n false d.expr
        | .normal => fun st => (ruleOf i).bind fun r => rule r (gen g n false d.expr) st
        | .atomic => fun st => (ruleOf i).bind fun r => rule r (atomic .atomic (gen g n true d.expr)) st
        | .compound => fun st => (ruleOf i).bind fun r => atomic .compound (rule r (gen g n true d.expr)) st
end

/-! ## pairs -/

/-- `&input[a..b]` -/
def sliceBytes (input : Str) (a b : Nat) : Option Str :=
  if a ≤ b then (splitAtByte input a).bind fun x => (splitAtByte x.2 (b - a)).map (·.1) else none

/-- The pairs in a part of the queue: `Pairs::next`, and `Pair::into_inner`, `as_rule`, `as_span`,
`as_str` for each of them. (`none`: a panic.) -/
def readPairs (input : Str) (queue : List QTok) : Nat → Nat → Nat → Option (List Tok)
  | 0, _, _ => none
  | n + 1, i, j =>
    if i < j then
      match queue[i]? with
      | some (.start k a) =>
        match queue[k]? with
        | some (.stop _ r b) => do
          let text ← sliceBytes input a b
          let inner ← readPairs input queue n (i + 1) k
          let others ← readPairs input queue n (k + 1) j
          return .node r a b text inner :: others
        | _ => none
      | _ => none
    else some []

/-- `pest::state` with the rule `i`: the pairs, or the position of the error with the rules that were
expected or not expected there (before they are sorted). -/
inductive Outcome where
  | pairs (ts : List Tok)
  | error (pos : Nat) (positives negatives : List Rule)

def state (g : Grammar) (i : Str) (n : Nat) (input : Str) : Option Outcome :=
  match genRule g n i (St.init input) with
  | none => none
  | some (true, st) => (readPairs input st.queue (st.queue.length + 1) 0 st.queue.length).map .pairs
  | some (false, st) => (splitAtByte input st.attemptPos).map fun _ => .error st.attemptPos st.posAttempts st.negAttempts

end Pest
end Verif
