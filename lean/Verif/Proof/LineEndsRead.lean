import Verif.Proof.LineEnds
import Verif.Proof.Remap
import Verif.Model.Dockerfile

/-!
# Reading tokens of the same shape

`Alikes m ts ts'`: the tokens `ts'` are the tokens `ts` with the positions moved by `m`, and the same
texts where the crate looks at the text.  Reading them gives the same values, with moved positions,
or the same error.
-/

namespace Verif
open Spec

/-- the rules of texts in quotes -/
def quotedRule (r : Rule) : Bool :=
  match r with
  | .string | .arg_quoted_value | .label_quoted_name | .label_quoted_value
  | .label_single_quoted_name | .env_pair_quoted_value | .env_single_quoted_value => true
  | _ => false

/-- the rules of texts that are read as they are -/
def plainRule (r : Rule) : Bool :=
  match r with
  | .comment | .any_content | .from_flag_name | .from_flag_value | .from_image | .from_alias
  | .arg_name | .arg_value | .label_name | .label_value | .label_single_name | .copy_flag_name
  | .copy_flag_value | .copy_pathspec | .env_name | .env_pair_value | .misc_instruction => true
  | _ => false

def readRule (r : Rule) : Bool := quotedRule r || plainRule r

/-- Tokens of the same shape: positions moved by `m`, the same texts where texts are read. -/
inductive Alikes (m : Nat → Nat) : List Tok → List Tok → Prop
  | nil : Alikes m [] []
  | cons {r a b x x' ch ch' ts ts'} : (readRule r = true → x' = x) →
      (readRule r = false → Alikes m ch ch') → Alikes m ts ts' →
      Alikes m (.node r a b x ch :: ts) (.node r (m a) (m b) x' ch' :: ts')

section
variable {m : Nat → Nat} {unq : Unquote}

theorem moves_string {t t'} (h : Alikes m [t] [t']) (hr : readRule t.rule = true) :
    parseString unq t' = (parseString unq t).map (SpannedString.remap m) := by
  cases h with
  | @cons r a b x x' ch ch' _ _ h1 h2 h3 =>
    have hx := h1 hr
    subst hx
    unfold parseString
    simp only [Tok.text, Tok.span, Tok.start, Tok.stop]
    by_cases hq : startsWithQuote x' = true
    · simp only [hq, if_true]
      cases unquoteR unq x' <;> rfl
    · simp only [hq]; rfl

theorem moves_quoted {t t'} (h : Alikes m [t] [t']) (hr : readRule t.rule = true) :
    labelQuoted unq t' = (labelQuoted unq t).map (SpannedString.remap m) := by
  cases h with
  | cons h1 h2 h3 =>
    have hx := h1 hr
    subst hx
    unfold labelQuoted
    simp only [Tok.text, Tok.span, Tok.start, Tok.stop]
    cases unquoteR unq _ <;> rfl

/-- the step of a loop -/
theorem bind_moved {α β : Type} {re : α → α} {x : Result α} {k k' : α → Result β}
    {g : β → β} (h : ∀ a, x = .ok a → k' (re a) = (k a).map g) :
    (x.map re >>= k') = (x >>= k).map g := by
  cases x with
  | error e => rfl
  | ok a => exact h a rfl

theorem moves_elems {ts ts'} (h : Alikes m ts ts') :
    stringArrayElems unq ts' = (stringArrayElems unq ts).map (List.map (SpannedString.remap m)) := by
  induction h with
  | nil => rfl
  | @cons r a b x x' ch ch' ts ts' h1 h2 h3 _ ih =>
    by_cases hs : r = .string
    · subst hs
      simp only [stringArrayElems, Tok.rule]
      rw [moves_string (.cons h1 h2 .nil) rfl]
      refine bind_moved fun a _ => ?_
      rw [ih]
      cases stringArrayElems unq ts <;> rfl
    · by_cases hc : r = .comment
      · subst hc
        simp only [stringArrayElems, Tok.rule]
        exact ih
      · unfold stringArrayElems
        cases r <;> first | exact absurd rfl hs | exact absurd rfl hc | rfl

theorem moves_array {t t'} (h : Alikes m [t] [t']) (hr : readRule t.rule = false) :
    parseStringArray unq t' = (parseStringArray unq t).map (StringArray.remap m) := by
  cases h with
  | cons h1 h2 h3 =>
    unfold parseStringArray
    simp only [Tok.children]
    rw [moves_elems (h2 hr)]
    exact bind_moved fun a _ => rfl

theorem moves_breakables {ts ts'} (h : Alikes m ts ts') :
    breakableComponentsList ts' =
      (breakableComponentsList ts).map (List.map (BreakableStringComponent.remap m)) := by
  induction h with
  | nil => rfl
  | @cons r a b x x' ch ch' ts ts' h1 h2 h3 ih1 ih2 =>
    by_cases ha : r = .any_breakable
    · subst ha
      simp only [breakableComponentsList, breakableComponents, Tok.rule]
      rw [ih1 rfl]
      refine bind_moved fun a _ => ?_
      rw [ih2]
      cases breakableComponentsList ts with
      | error e => rfl
      | ok l => simp [Except.map, bind, Except.bind, pure, Except.pure]
    · by_cases hc : r = .comment
      · subst hc
        have hx := h1 rfl
        subst hx
        simp only [breakableComponentsList, Tok.rule, ih2]
        cases breakableComponentsList ts <;> rfl
      · by_cases hn : r = .any_content
        · subst hn
          have hx := h1 rfl
          subst hx
          simp only [breakableComponentsList, Tok.rule, ih2]
          cases breakableComponentsList ts <;> rfl
        · unfold breakableComponentsList
          cases r <;> first | exact absurd rfl ha | exact absurd rfl hc | exact absurd rfl hn | rfl

theorem moves_breakable {t t'} (h : Alikes m [t] [t']) (hr : readRule t.rule = false) :
    parseAnyBreakable t' = (parseAnyBreakable t).map (BreakableString.remap m) := by
  cases h with
  | cons h1 h2 h3 =>
    unfold parseAnyBreakable breakableComponents
    rw [moves_breakables (h2 hr)]
    exact bind_moved fun a _ => rfl

theorem moves_unquote {t t'} (h : Alikes m [t] [t']) (hr : readRule t.rule = true) :
    (do let v ← unquoteR unq t'.text; pure (breakableOf t' v)) =
      (do let v ← unquoteR unq t.text; pure (breakableOf t v) : Result _).map
        (BreakableString.remap m) := by
  cases h with
  | cons h1 h2 h3 =>
    have hx := h1 hr
    subst hx
    simp only [Tok.text]
    cases unquoteR unq _ <;> rfl

/-! ## the loops that fill two slots -/

/-- what a token says -/
inductive Says (K V : Type) where
  | key (k : K)
  | val (v : V)
  | skip

def Says.remap {K V : Type} (f : K → K) (g : V → V) : Says K V → Says K V
  | .key k => .key (f k)
  | .val v => .val (g v)
  | .skip => .skip

/-- a loop that fills two slots -/
def slots {K V : Type} (act : Tok → Result (Says K V)) :
    List Tok → Option K → Option V → Result (Option K × Option V)
  | [], k, v => .ok (k, v)
  | t :: ts, k, v =>
    match act t with
    | .error e => .error e
    | .ok (.key x) => slots act ts (some x) v
    | .ok (.val x) => slots act ts k (some x)
    | .ok .skip => slots act ts k v

theorem moves_slots {K V : Type} {act : Tok → Result (Says K V)} {f : K → K} {g : V → V}
    (hact : ∀ t t', Alikes m [t] [t'] → act t' = (act t).map (Says.remap f g)) {ts ts'}
    (h : Alikes m ts ts') : ∀ k v, slots act ts' (k.map f) (v.map g) =
      (slots act ts k v).map fun r => (r.1.map f, r.2.map g) := by
  induction h with
  | nil => intro k v; rfl
  | @cons r a b x x' ch ch' ts ts' h1 h2 h3 _ ih =>
    intro k v
    unfold slots
    rw [hact _ _ (.cons h1 h2 .nil)]
    cases act (.node r a b x ch) with
    | error e => rfl
    | ok s =>
      cases s with
      | key k' => exact ih (some k') v
      | val v' => exact ih k (some v')
      | skip => exact ih k v

def flagAct (unq : Unquote) (n v : Rule) (t : Tok) : Result (Says SpannedString SpannedString) :=
  if t.rule = n then (parseString unq t).map .key
  else if t.rule = v then (parseString unq t).map .val
  else .error (unexpectedToken t)

theorem flagFields_slots (n v : Rule) (ts : List Tok) : ∀ k w,
    flagFields unq n v ts k w = slots (flagAct unq n v) ts k w := by
  induction ts with
  | nil => intro k w; rfl
  | cons t ts ih =>
    intro k w
    unfold flagFields slots flagAct
    split
    · cases parseString unq t with
      | error e => rfl
      | ok x => exact ih _ _
    · split
      · cases parseString unq t with
        | error e => rfl
        | ok x => exact ih _ _
      · rfl

theorem moves_flag {n v : Rule} (hn : readRule n = true) (hv : readRule v = true) {ts ts'}
    (h : Alikes m ts ts') :
    flagFields unq n v ts' none none = (flagFields unq n v ts none none).map
      fun r => (r.1.map (SpannedString.remap m), r.2.map (SpannedString.remap m)) := by
  rw [flagFields_slots, flagFields_slots]
  refine moves_slots (k := none) (v := none) ?_ h
  intro t t' ht
  have hr : t'.rule = t.rule := by cases ht; rfl
  unfold flagAct
  rw [hr]
  split
  · rename_i e
    rw [moves_string ht (by rw [e]; exact hn)]
    cases parseString unq t <;> rfl
  · split
    · rename_i e
      rw [moves_string ht (by rw [e]; exact hv)]
      cases parseString unq t <;> rfl
    · simp [unexpectedToken, hr, Except.map]

def argAct (unq : Unquote) (t : Tok) : Result (Says SpannedString SpannedString) :=
  match t.rule with
  | .arg_name => (parseString unq t).map .key
  | .arg_quoted_value => (parseString unq t).map .val
  | .arg_value => (parseString unq t).map .val
  | .comment => .ok .skip
  | _ => .error (unexpectedToken t)

theorem argFields_slots (ts : List Tok) : ∀ k w,
    argFields unq ts k w = slots (argAct unq) ts k w := by
  induction ts with
  | nil => intro k w; rfl
  | cons t ts ih =>
    intro k w
    obtain ⟨r, a, b, x, ch⟩ := t
    cases r <;> first
      | rfl
      | exact ih _ _
      | (simp only [argFields, slots, argAct, Tok.rule]
         first
         | (cases parseString unq _ with
            | error e => rfl
            | ok x => exact ih _ _)
         | (cases labelQuoted unq _ with
            | error e => rfl
            | ok x => exact ih _ _)
         | (cases parseAnyBreakable _ with
            | error e => rfl
            | ok x => exact ih _ _)
         | (cases unquoteR unq _ with
            | error e => rfl
            | ok x => exact ih _ _))

theorem moves_arg {ts ts'} (h : Alikes m ts ts') :
    argFields unq ts' none none = (argFields unq ts none none).map
      fun r => (r.1.map (SpannedString.remap m), r.2.map (SpannedString.remap m)) := by
  rw [argFields_slots, argFields_slots]
  refine moves_slots (k := none) (v := none) ?_ h
  intro t t' ht
  have hr : t'.rule = t.rule := by cases ht; rfl
  unfold argAct
  rw [hr]
  split
  · rename_i e; rw [moves_string ht (by rw [e]; rfl)]; cases parseString unq t <;> rfl
  · rename_i e; rw [moves_string ht (by rw [e]; rfl)]; cases parseString unq t <;> rfl
  · rename_i e; rw [moves_string ht (by rw [e]; rfl)]; cases parseString unq t <;> rfl
  · rfl
  · simp [unexpectedToken, hr, Except.map]

def labelAct (unq : Unquote) (t : Tok) : Result (Says SpannedString SpannedString) :=
  match t.rule with
  | .label_name => (parseString unq t).map .key
  | .label_single_name => (parseString unq t).map .key
  | .label_quoted_name => (labelQuoted unq t).map .key
  | .label_single_quoted_name => (labelQuoted unq t).map .key
  | .label_value => (parseString unq t).map .val
  | .label_quoted_value => (labelQuoted unq t).map .val
  | .comment => .ok .skip
  | _ => .error (unexpectedToken t)

theorem labelFields_slots (ts : List Tok) : ∀ k w,
    labelFields unq ts k w = slots (labelAct unq) ts k w := by
  induction ts with
  | nil => intro k w; rfl
  | cons t ts ih =>
    intro k w
    obtain ⟨r, a, b, x, ch⟩ := t
    cases r <;> first
      | rfl
      | exact ih _ _
      | (simp only [labelFields, slots, labelAct, Tok.rule]
         first
         | (cases parseString unq _ with
            | error e => rfl
            | ok x => exact ih _ _)
         | (cases labelQuoted unq _ with
            | error e => rfl
            | ok x => exact ih _ _)
         | (cases parseAnyBreakable _ with
            | error e => rfl
            | ok x => exact ih _ _)
         | (cases unquoteR unq _ with
            | error e => rfl
            | ok x => exact ih _ _))

theorem moves_label {ts ts'} (h : Alikes m ts ts') :
    labelFields unq ts' none none = (labelFields unq ts none none).map
      fun r => (r.1.map (SpannedString.remap m), r.2.map (SpannedString.remap m)) := by
  rw [labelFields_slots, labelFields_slots]
  refine moves_slots (k := none) (v := none) ?_ h
  intro t t' ht
  have hr : t'.rule = t.rule := by cases ht; rfl
  unfold labelAct
  rw [hr]
  split
  · rename_i e; rw [moves_string ht (by rw [e]; rfl)]; cases parseString unq t <;> rfl
  · rename_i e; rw [moves_string ht (by rw [e]; rfl)]; cases parseString unq t <;> rfl
  · rename_i e; rw [moves_quoted ht (by rw [e]; rfl)]; cases labelQuoted unq t <;> rfl
  · rename_i e; rw [moves_quoted ht (by rw [e]; rfl)]; cases labelQuoted unq t <;> rfl
  · rename_i e; rw [moves_string ht (by rw [e]; rfl)]; cases parseString unq t <;> rfl
  · rename_i e; rw [moves_quoted ht (by rw [e]; rfl)]; cases labelQuoted unq t <;> rfl
  · rfl
  · simp [unexpectedToken, hr, Except.map]

def envPairAct (unq : Unquote) (t : Tok) : Result (Says SpannedString BreakableString) :=
  match t.rule with
  | .env_name => (parseString unq t).map .key
  | .env_pair_value => .ok (.val (breakableOf t t.text))
  | .env_pair_quoted_value => (do
      let v ← unquoteR unq t.text
      pure (breakableOf t v) : Result _).map .val
  | _ => .error (unexpectedToken t)

theorem envPairFields_slots (ts : List Tok) : ∀ k w,
    envPairFields unq ts k w = slots (envPairAct unq) ts k w := by
  induction ts with
  | nil => intro k w; rfl
  | cons t ts ih =>
    intro k w
    obtain ⟨r, a, b, x, ch⟩ := t
    cases r <;> first
      | rfl
      | exact ih _ _
      | (simp only [envPairFields, slots, envPairAct, Tok.rule]
         first
         | (cases parseString unq _ with
            | error e => rfl
            | ok x => exact ih _ _)
         | (cases labelQuoted unq _ with
            | error e => rfl
            | ok x => exact ih _ _)
         | (cases parseAnyBreakable _ with
            | error e => rfl
            | ok x => exact ih _ _)
         | (cases unquoteR unq _ with
            | error e => rfl
            | ok x => exact ih _ _))

theorem moves_envPair {ts ts'} (h : Alikes m ts ts') :
    envPairFields unq ts' none none = (envPairFields unq ts none none).map
      fun r => (r.1.map (SpannedString.remap m), r.2.map (BreakableString.remap m)) := by
  rw [envPairFields_slots, envPairFields_slots]
  refine moves_slots (k := none) (v := none) ?_ h
  intro t t' ht
  have hr : t'.rule = t.rule := by cases ht; rfl
  unfold envPairAct
  rw [hr]
  split
  · rename_i e; rw [moves_string ht (by rw [e]; rfl)]; cases parseString unq t <;> rfl
  · rename_i e
    cases ht with
    | cons h1 h2 h3 =>
      have e' : _ = Rule.env_pair_value := e
      simp only [Tok.rule] at e'
      have hx := h1 (by rw [e']; rfl)
      subst hx; rfl
  · rename_i e; rw [moves_unquote ht (by rw [e]; rfl)]; cases unquoteR unq t.text <;> rfl
  · simp [unexpectedToken, hr, Except.map]

def envSingleAct (unq : Unquote) (t : Tok) : Result (Says SpannedString BreakableString) :=
  match t.rule with
  | .env_name => (parseString unq t).map .key
  | .env_single_value => (parseAnyBreakable t).map .val
  | .env_single_quoted_value => (do
      let v ← unquoteR unq t.text
      pure (breakableOf t v) : Result _).map .val
  | .comment => .ok .skip
  | _ => .error (unexpectedToken t)

theorem envSingleFields_slots (ts : List Tok) : ∀ k w,
    envSingleFields unq ts k w = slots (envSingleAct unq) ts k w := by
  induction ts with
  | nil => intro k w; rfl
  | cons t ts ih =>
    intro k w
    obtain ⟨r, a, b, x, ch⟩ := t
    cases r <;> first
      | rfl
      | exact ih _ _
      | (simp only [envSingleFields, slots, envSingleAct, Tok.rule]
         first
         | (cases parseString unq _ with
            | error e => rfl
            | ok x => exact ih _ _)
         | (cases labelQuoted unq _ with
            | error e => rfl
            | ok x => exact ih _ _)
         | (cases parseAnyBreakable _ with
            | error e => rfl
            | ok x => exact ih _ _)
         | (cases unquoteR unq _ with
            | error e => rfl
            | ok x => exact ih _ _))

theorem moves_envSingle {ts ts'} (h : Alikes m ts ts') :
    envSingleFields unq ts' none none = (envSingleFields unq ts none none).map
      fun r => (r.1.map (SpannedString.remap m), r.2.map (BreakableString.remap m)) := by
  rw [envSingleFields_slots, envSingleFields_slots]
  refine moves_slots (k := none) (v := none) ?_ h
  intro t t' ht
  have hr : t'.rule = t.rule := by cases ht; rfl
  unfold envSingleAct
  rw [hr]
  split
  · rename_i e; rw [moves_string ht (by rw [e]; rfl)]; cases parseString unq t <;> rfl
  · rename_i e; rw [moves_breakable ht (by rw [e]; rfl)]; cases parseAnyBreakable t <;> rfl
  · rename_i e; rw [moves_unquote ht (by rw [e]; rfl)]; cases unquoteR unq t.text <;> rfl
  · rfl
  · simp [unexpectedToken, hr, Except.map]

def miscAct (unq : Unquote) (t : Tok) : Result (Says SpannedString BreakableString) :=
  match t.rule with
  | .misc_instruction => (parseString unq t).map .key
  | .misc_arguments => (parseAnyBreakable t).map .val
  | _ => .error (unexpectedToken t)

theorem miscFields_slots (ts : List Tok) : ∀ k w,
    miscFields unq ts k w = slots (miscAct unq) ts k w := by
  induction ts with
  | nil => intro k w; rfl
  | cons t ts ih =>
    intro k w
    obtain ⟨r, a, b, x, ch⟩ := t
    cases r <;> first
      | rfl
      | exact ih _ _
      | (simp only [miscFields, slots, miscAct, Tok.rule]
         first
         | (cases parseString unq _ with
            | error e => rfl
            | ok x => exact ih _ _)
         | (cases labelQuoted unq _ with
            | error e => rfl
            | ok x => exact ih _ _)
         | (cases parseAnyBreakable _ with
            | error e => rfl
            | ok x => exact ih _ _)
         | (cases unquoteR unq _ with
            | error e => rfl
            | ok x => exact ih _ _))

theorem moves_misc {ts ts'} (h : Alikes m ts ts') :
    miscFields unq ts' none none = (miscFields unq ts none none).map
      fun r => (r.1.map (SpannedString.remap m), r.2.map (BreakableString.remap m)) := by
  rw [miscFields_slots, miscFields_slots]
  refine moves_slots (k := none) (v := none) ?_ h
  intro t t' ht
  have hr : t'.rule = t.rule := by cases ht; rfl
  unfold miscAct
  rw [hr]
  split
  · rename_i e; rw [moves_string ht (by rw [e]; rfl)]; cases parseString unq t <;> rfl
  · rename_i e; rw [moves_breakable ht (by rw [e]; rfl)]; cases parseAnyBreakable t <;> rfl
  · simp [unexpectedToken, hr, Except.map]

/-! ## records -/

theorem require_moved {α : Type} (g : Msg) (f : α → α) (x : Option α) :
    require g (x.map f) = (require g x).map f := by
  cases x <;> rfl

theorem moves_fromFlag {t t'} (h : Alikes m [t] [t']) (hr : readRule t.rule = false) :
    fromFlagRecord unq t' = (fromFlagRecord unq t).map (Flag.remap m) := by
  cases h with
  | cons h1 h2 h3 =>
    unfold fromFlagRecord
    simp only [Tok.children]
    rw [moves_flag rfl rfl (h2 hr)]
    refine bind_moved fun r _ => ?_
    simp only [require_moved]
    refine bind_moved fun n _ => ?_
    refine bind_moved fun v _ => ?_
    rfl

theorem moves_copyFlag {t t'} (h : Alikes m [t] [t']) (hr : readRule t.rule = false) :
    copyFlagRecord unq t' = (copyFlagRecord unq t).map (Flag.remap m) := by
  cases h with
  | cons h1 h2 h3 =>
    unfold copyFlagRecord
    simp only [Tok.children]
    rw [moves_flag rfl rfl (h2 hr)]
    refine bind_moved fun r _ => ?_
    simp only [require_moved]
    refine bind_moved fun n _ => ?_
    refine bind_moved fun v _ => ?_
    rfl

theorem moves_argRecord {t t'} (h : Alikes m [t] [t']) (hr : readRule t.rule = false) :
    argRecord unq t' = (argRecord unq t).map (ArgInstruction.remap m) := by
  cases h with
  | cons h1 h2 h3 =>
    unfold argRecord
    simp only [Tok.children]
    rw [moves_arg (h2 hr)]
    refine bind_moved fun r _ => ?_
    simp only [require_moved]
    refine bind_moved fun n _ => ?_
    rfl

theorem moves_labelPair {t t'} (h : Alikes m [t] [t']) (hr : readRule t.rule = false) :
    labelPairRecord unq t' = (labelPairRecord unq t).map (Label.remap m) := by
  cases h with
  | cons h1 h2 h3 =>
    unfold labelPairRecord
    simp only [Tok.children]
    rw [moves_label (h2 hr)]
    refine bind_moved fun r _ => ?_
    simp only [require_moved]
    refine bind_moved fun n _ => ?_
    refine bind_moved fun v _ => ?_
    rfl

theorem moves_labelList {ts ts'} (h : Alikes m ts ts') :
    labelList unq ts' = (labelList unq ts).map (List.map (Label.remap m)) := by
  induction h with
  | nil => rfl
  | @cons r a b x x' ch ch' ts ts' h1 h2 h3 _ ih =>
    unfold labelList
    simp only [Tok.rule]
    split
    · rw [moves_labelPair (.cons h1 h2 .nil) rfl, ih]
      refine bind_moved fun l _ => ?_
      cases labelList unq ts <;> rfl
    · rw [moves_labelPair (.cons h1 h2 .nil) rfl, ih]
      refine bind_moved fun l _ => ?_
      cases labelList unq ts <;> rfl
    · exact ih
    · rfl

theorem moves_labelRecord {t t'} (h : Alikes m [t] [t']) (hr : readRule t.rule = false) :
    labelRecord unq t' = (labelRecord unq t).map (LabelInstruction.remap m) := by
  cases h with
  | cons h1 h2 h3 =>
    unfold labelRecord
    simp only [Tok.children]
    rw [moves_labelList (h2 hr)]
    exact bind_moved fun r _ => rfl

theorem moves_exec {e s : Rule} (he : readRule e = false) (hs : readRule s = false) {t t'}
    (h : Alikes m [t] [t']) (hr : readRule t.rule = false) :
    execRecord unq e s t' = (execRecord unq e s t).map (ExecInstruction.remap m) := by
  cases h with
  | cons h1 h2 h3 =>
    have hc := h2 hr
    unfold execRecord
    simp only [Tok.children]
    cases hc with
    | nil => rfl
    | @cons r a b x x' ch ch' ts ts' g1 g2 g3 =>
      simp only [Tok.rule]
      by_cases h1 : r = e
      · simp only [h1, if_true]
        rw [← h1]
        rw [moves_array (.cons g1 g2 .nil) (by simp only [Tok.rule]; rw [h1]; exact he)]
        exact bind_moved fun r _ => rfl
      · by_cases h2 : r = s
        · subst h2
          simp only [h1, if_true, if_false]
          rw [moves_breakable (.cons g1 g2 .nil) hs]
          exact bind_moved fun r _ => rfl
        · simp only [h1, h2, if_false]
          rfl

theorem moves_copyFields {ts ts'} (h : Alikes m ts ts') : ∀ fl ps,
    copyFields unq ts' (fl.map (Flag.remap m)) (ps.map (SpannedString.remap m)) =
      (copyFields unq ts fl ps).map
        fun r => (r.1.map (Flag.remap m), r.2.map (SpannedString.remap m)) := by
  induction h with
  | nil => intro fl ps; rfl
  | @cons r a b x x' ch ch' ts ts' h1 h2 h3 _ ih =>
    intro fl ps
    unfold copyFields
    simp only [Tok.rule]
    split
    · rw [moves_copyFlag (.cons h1 h2 .nil) rfl]
      refine bind_moved fun l _ => ?_
      rw [← ih]; simp
    · rw [moves_string (.cons h1 h2 .nil) rfl]
      refine bind_moved fun l _ => ?_
      rw [← ih]; simp
    · exact ih _ _
    · rfl

theorem moves_copyRecord {t t'} (h : Alikes m [t] [t']) (hr : readRule t.rule = false) :
    copyRecord unq t' = (copyRecord unq t).map (CopyInstruction.remap m) := by
  cases h with
  | cons h1 h2 h3 =>
    unfold copyRecord
    simp only [Tok.children]
    have := moves_copyFields (unq := unq) (h2 hr) [] []
    simp only [List.map_nil] at this
    rw [this]
    refine bind_moved fun r _ => ?_
    obtain ⟨fl, ps⟩ := r
    simp only [List.length_map, List.getLast?_map]
    split
    · cases hl : ps.getLast? with
      | none => rfl
      | some d => simp [Except.map, pure, Except.pure, CopyInstruction.remap, Tok.span, Span.remap, Tok.start, Tok.stop]
    · rfl

theorem moves_envPairRecord {t t'} (h : Alikes m [t] [t']) (hr : readRule t.rule = false) :
    envPairRecord unq t' = (envPairRecord unq t).map (EnvVar.remap m) := by
  cases h with
  | cons h1 h2 h3 =>
    unfold envPairRecord
    simp only [Tok.children]
    rw [moves_envPair (h2 hr)]
    refine bind_moved fun r _ => ?_
    simp only [require_moved]
    refine bind_moved fun n _ => ?_
    refine bind_moved fun v _ => ?_
    rfl

theorem moves_envPairList {ts ts'} (h : Alikes m ts ts') :
    envPairList unq ts' = (envPairList unq ts).map (List.map (EnvVar.remap m)) := by
  induction h with
  | nil => rfl
  | @cons r a b x x' ch ch' ts ts' h1 h2 h3 _ ih =>
    unfold envPairList
    simp only [Tok.rule]
    split
    · rw [moves_envPairRecord (.cons h1 h2 .nil) rfl, ih]
      refine bind_moved fun l _ => ?_
      cases envPairList unq ts <;> rfl
    · exact ih
    · rfl

theorem moves_envRecord {t t'} (h : Alikes m [t] [t']) (hr : readRule t.rule = false) :
    envRecord unq t' = (envRecord unq t).map (EnvInstruction.remap m) := by
  cases h with
  | cons h1 h2 h3 =>
    have hc := h2 hr
    unfold envRecord
    simp only [Tok.children]
    cases hc with
    | nil => rfl
    | @cons r a b x x' ch ch' ts ts' g1 g2 g3 =>
      simp only [Tok.rule]
      split
      · rw [moves_envSingle (g2 rfl)]
        refine bind_moved fun r _ => ?_
        simp only [require_moved]
        refine bind_moved fun n _ => ?_
        refine bind_moved fun v _ => ?_
        rfl
      · rw [moves_envPairList (g2 rfl)]
        exact bind_moved fun r _ => rfl
      · rfl

theorem moves_miscRecord {t t'} (h : Alikes m [t] [t']) (hr : readRule t.rule = false) :
    miscRecord unq t' = (miscRecord unq t).map (MiscInstruction.remap m) := by
  cases h with
  | cons h1 h2 h3 =>
    unfold miscRecord
    simp only [Tok.children]
    rw [moves_misc (h2 hr)]
    refine bind_moved fun r _ => ?_
    simp only [require_moved]
    refine bind_moved fun n _ => ?_
    refine bind_moved fun v _ => ?_
    rfl

/-! ## FROM -/

/-- a token of the image or the alias, and the one like it -/
def OptAlike (m : Nat → Nat) : Option Tok → Option Tok → Prop
  | none, none => True
  | some t, some t' => Alikes m [t] [t'] ∧ readRule t.rule = true
  | _, _ => False

theorem moves_fromFields {ts ts'} (h : Alikes m ts ts') : ∀ i i' a a' fl, OptAlike m i i' →
    OptAlike m a a' →
    match fromFields unq ts i a fl, fromFields unq ts' i' a' (fl.map (Flag.remap m)) with
    | .ok r, .ok r' => OptAlike m r.1 r'.1 ∧ OptAlike m r.2.1 r'.2.1 ∧
        r'.2.2 = r.2.2.map (Flag.remap m)
    | .error e, .error e' => e' = e
    | _, _ => False := by
  induction h with
  | nil => intro i i' a a' fl hi ha; exact ⟨hi, ha, rfl⟩
  | @cons r p q x x' ch ch' ts ts' h1 h2 h3 _ ih =>
    intro i i' a a' fl hi ha
    unfold fromFields
    simp only [Tok.rule]
    cases r
    case from_flag =>
      simp only
      rw [moves_fromFlag (.cons h1 h2 .nil) rfl]
      cases fromFlagRecord unq (.node .from_flag p q x ch) with
      | error e => rfl
      | ok f =>
        have := ih i i' a a' (fl ++ [f]) hi ha
        rw [List.map_append] at this
        exact this
    case from_image => exact ih (some _) (some _) _ _ _ ⟨.cons h1 h2 .nil, rfl⟩ ha
    case from_alias => exact ih _ _ (some _) (some _) _ hi ⟨.cons h1 h2 .nil, rfl⟩
    case comment => exact ih _ _ _ _ _ hi ha
    all_goals rfl

theorem moves_fromRecord {t t'} (h : Alikes m [t] [t']) (hr : readRule t.rule = false) (n : Nat) :
    fromRecord unq t' n = (fromRecord unq t n).map (FromInstruction.remap m) := by
  cases h with
  | @cons r p q x x' ch ch' _ _ h1 h2 h3 =>
    have hf := moves_fromFields (unq := unq) (h2 hr) none none none none [] trivial trivial
    unfold fromRecord
    simp only [Tok.children]
    simp only [List.map_nil] at hf
    cases hr1 : fromFields unq ch none none [] with
    | error e =>
      cases hr2 : fromFields unq ch' none none [] with
      | error e' => rw [hr1, hr2] at hf; rw [show e' = e from hf]; rfl
      | ok r' => rw [hr1, hr2] at hf; exact hf.elim
    | ok res =>
      cases hr2 : fromFields unq ch' none none [] with
      | error e' => rw [hr1, hr2] at hf; exact hf.elim
      | ok res' =>
        rw [hr1, hr2] at hf
        obtain ⟨i, a, fl⟩ := res
        obtain ⟨i', a', fl'⟩ := res'
        obtain ⟨hi, ha, hfl⟩ := hf
        simp only at hi ha hfl
        subst hfl
        simp only [bind, Except.bind]
        cases i with
        | none => cases i' with
          | none => rfl
          | some t' => exact hi.elim
        | some u => cases i' with
          | none => exact hi.elim
          | some u' =>
            simp only
            rw [moves_string hi.1 hi.2]
            cases parseString unq u with
            | error e => rfl
            | ok im =>
              simp only [Except.map, SpannedString.remap]
              split
              · cases a with
                | none => cases a' with
                  | none => rfl
                  | some t' => exact ha.elim
                | some v => cases a' with
                  | none => exact ha.elim
                  | some v' =>
                    simp only
                    rw [moves_string ha.1 ha.2]
                    cases parseString unq v <;> rfl
              · rfl

/-! ## the document -/

theorem moves_instruction {t t'} (h : Alikes m [t] [t']) :
    instructionOf unq t' = (instructionOf unq t).map (Instruction.remap m) := by
  have hr : t'.rule = t.rule := by cases h; rfl
  unfold instructionOf
  rw [hr]
  split <;> rename_i e
  · rw [moves_fromRecord h (by rw [e]; rfl)]; exact bind_moved fun r _ => rfl
  · rw [moves_argRecord h (by rw [e]; rfl)]; exact bind_moved fun r _ => rfl
  · rw [moves_labelRecord h (by rw [e]; rfl)]; exact bind_moved fun r _ => rfl
  · rw [moves_exec rfl rfl h (by rw [e]; rfl)]; exact bind_moved fun r _ => rfl
  · rw [moves_exec rfl rfl h (by rw [e]; rfl)]; exact bind_moved fun r _ => rfl
  · rw [moves_exec rfl rfl h (by rw [e]; rfl)]; exact bind_moved fun r _ => rfl
  · rw [moves_copyRecord h (by rw [e]; rfl)]; exact bind_moved fun r _ => rfl
  · rw [moves_envRecord h (by rw [e]; rfl)]; exact bind_moved fun r _ => rfl
  · rw [moves_miscRecord h (by rw [e]; rfl)]; exact bind_moved fun r _ => rfl
  · simp [unexpectedToken, hr, Except.map]

def LoopState.remap (f : Nat → Nat) (st : LoopState) : LoopState :=
  { st with instructions := st.instructions.map (·.remap f)
            globalArgs := st.globalArgs.map (·.remap f) }

theorem loopStep_remap (f : Nat → Nat) (st : LoopState) (i : Instruction) :
    loopStep (st.remap f) (i.remap f) = (loopStep st i).remap f := by
  cases i with
  | «from» i => simp [loopStep, LoopState.remap, Instruction.remap, FromInstruction.remap]
  | arg i =>
    obtain ⟨is, gs, ff, fi⟩ := st
    cases ff <;> simp [loopStep, LoopState.remap, Instruction.remap]
  | _ => simp [loopStep, LoopState.remap, Instruction.remap]

theorem moves_loop {ts ts'} (h : Alikes m ts ts') : ∀ st,
    recordLoop unq ts' (st.remap m) = (recordLoop unq ts st).map (LoopState.remap m) := by
  induction h with
  | nil => intro st; rfl
  | @cons r a b x x' ch ch' ts ts' h1 h2 h3 _ ih =>
    intro st
    unfold recordLoop
    simp only [Tok.rule]
    split
    · exact ih st
    · exact ih st
    · rw [moves_instruction (.cons h1 h2 .nil)]
      refine bind_moved fun i _ => ?_
      rw [loopStep_remap]
      exact ih _

end

end Verif
