import Verif.Spec.Shift
import Verif.Spec.Instr
import Verif.Proof.Peg

/-!
# The parser does not depend on where a text is

* `Sem.shift`: the engine, for expressions without `SOI`;
* `instructionOf_shift`: the `from_record` functions.
-/

namespace Verif

mutual
/-- The token with all positions moved `k` bytes to the right. -/
def Tok.shift (k : Nat) : Tok → Tok
  | .node r a b t ch => .node r (a + k) (b + k) t (Tok.shiftAll k ch)
def Tok.shiftAll (k : Nat) : List Tok → List Tok
  | [] => []
  | t :: ts => Tok.shift k t :: Tok.shiftAll k ts
end

theorem shiftAll_append (k : Nat) (a b : List Tok) :
    Tok.shiftAll k (a ++ b) = Tok.shiftAll k a ++ Tok.shiftAll k b := by
  induction a with
  | nil => simp [Tok.shiftAll]
  | cons t ts ih => simp [Tok.shiftAll, ih]

/-- No `SOI` in the expression (recursive references have none, `noSoi_body`). -/
def noSoi : PExpr → Bool
  | .soi => false
  | .seq a b => noSoi a && noSoi b
  | .alt a b => noSoi a && noSoi b
  | .star e => noSoi e
  | .opt e => noSoi e
  | .neg e => noSoi e
  | .rule _ _ e => noSoi e
  | _ => true

theorem noSoi_body (r : RecRule) : noSoi (G.body r) = true := by cases r <;> decide +kernel

def outShift (k : Nat) : Out → Out
  | none => none
  | some (p, s, ts) => some (p + k, s, Tok.shiftAll k ts)

theorem emitToks_shift (k : Nat) (kd : Kind) (r : Rule) (q : Bool) (p p' : Nat) (t : Str)
    (ts : List Tok) :
    emitToks kd r q (p + k) (p' + k) t (Tok.shiftAll k ts) =
      Tok.shiftAll k (emitToks kd r q p p' t ts) := by
  cases kd <;> cases q <;> simp [emitToks, Tok.shiftAll, Tok.shift]

theorem Sem.shift (k : Nat) {e : PExpr} {q : Bool} {p : Nat} {s : Str} {o : Out}
    (h : Sem e q p s o) (hn : noSoi e = true) : Sem e q (p + k) s (outShift k o) := by
  have hc : ∀ a b : Nat, a + b + k = a + k + b := by omega
  induction h with
  | str_ok h => simp only [outShift, hc, Tok.shiftAll]; exact .str_ok h
  | str_fail h => exact .str_fail h
  | istr_ok h => simp only [outShift, hc, Tok.shiftAll]; exact .istr_ok h
  | istr_fail h => exact .istr_fail h
  | range_ok h => simp only [outShift, hc, Tok.shiftAll]; exact .range_ok h
  | range_fail h => exact .range_fail h
  | range_nil => exact .range_nil
  | any_ok => simp only [outShift, hc, Tok.shiftAll]; exact .any_ok
  | any_nil => exact .any_nil
  | soi_ok => cases hn
  | soi_fail => cases hn
  | eoi_ok => exact .eoi_ok
  | eoi_fail => exact .eoi_fail
  | seq_ok _ _ ih1 ih2 =>
    simp only [noSoi, Bool.and_eq_true] at hn
    simp only [outShift, shiftAll_append]
    exact .seq_ok (ih1 hn.1) (ih2 hn.2)
  | seq_fail1 _ ih =>
    simp only [noSoi, Bool.and_eq_true] at hn
    exact .seq_fail1 (ih hn.1)
  | seq_fail2 _ _ ih1 ih2 =>
    simp only [noSoi, Bool.and_eq_true] at hn
    exact .seq_fail2 (ih1 hn.1) (ih2 hn.2)
  | alt_left _ ih =>
    simp only [noSoi, Bool.and_eq_true] at hn
    exact .alt_left (ih hn.1)
  | alt_right _ _ ih1 ih2 =>
    simp only [noSoi, Bool.and_eq_true] at hn
    exact .alt_right (ih1 hn.1) (ih2 hn.2)
  | star_nil _ ih => exact .star_nil (ih hn)
  | star_cons _ _ ih1 ih2 =>
    simp only [outShift, shiftAll_append]
    exact .star_cons (ih1 hn) (ih2 hn)
  | opt_some _ ih => exact .opt_some (ih hn)
  | opt_none _ ih => exact .opt_none (ih hn)
  | neg_ok _ ih => exact .neg_ok (ih hn)
  | neg_fail _ ih => exact .neg_fail (ih hn)
  | rule_ok _ ih =>
    simp only [outShift, ← emitToks_shift]
    exact .rule_ok (ih hn)
  | rule_fail _ ih => exact .rule_fail (ih hn)
  | recur _ ih => exact .recur (ih (noSoi_body _))

theorem parse_shift (k : Nat) {e : PExpr} (he : safe false e = true) (hn : noSoi e = true)
    (q : Bool) (p : Nat) (s : Str) : parse e q (p + k) s = outShift k (parse e q p s) :=
  (parse_eq_iff he).2 ((parse_sem he q p s).shift k hn)

/-! ## records -/

@[simp] theorem Tok.shift_rule (k : Nat) (t : Tok) : (t.shift k).rule = t.rule := by
  cases t; simp [Tok.shift, Tok.rule]
@[simp] theorem Tok.shift_text (k : Nat) (t : Tok) : (t.shift k).text = t.text := by
  cases t; simp [Tok.shift, Tok.text]
@[simp] theorem Tok.shift_children (k : Nat) (t : Tok) :
    (t.shift k).children = Tok.shiftAll k t.children := by
  cases t; simp [Tok.shift, Tok.children]
@[simp] theorem Tok.shift_span (k : Nat) (t : Tok) : (t.shift k).span = t.span.shift k := by
  cases t; simp [Tok.shift, Tok.span, Tok.start, Tok.stop, Span.shift]

@[simp] theorem unexpectedToken_shift (k : Nat) (t : Tok) :
    unexpectedToken (t.shift k) = unexpectedToken t := by simp [unexpectedToken]

/-- `Except.map`, the way it unfolds best. -/
def Result.mapped {α β : Type} (f : α → β) : Result α → Result β
  | .ok a => .ok (f a)
  | .error e => .error e

@[simp] theorem mapped_ok {α β : Type} (f : α → β) (a : α) :
    Result.mapped f (.ok a) = .ok (f a) := rfl
@[simp] theorem mapped_error {α β : Type} (f : α → β) (e : Fault) :
    Result.mapped f (.error e) = .error e := rfl
@[simp] theorem ok_bind {α β : Type} (a : α) (f : α → Result β) :
    ((.ok a : Result α) >>= f) = f a := rfl
@[simp] theorem error_bind {α β : Type} (e : Fault) (f : α → Result β) :
    ((.error e : Result α) >>= f) = .error e := rfl
@[simp] theorem pure_ok {α : Type} (a : α) : (pure a : Result α) = .ok a := rfl

theorem parseString_shift (unq : Unquote) (k : Nat) (t : Tok) :
    parseString unq (t.shift k) = (parseString unq t).mapped (·.shift k) := by
  unfold parseString
  simp only [Tok.shift_text, Tok.shift_span]
  split
  · cases unquoteR unq t.text <;> rfl
  · rfl

theorem stringArrayElems_shift (unq : Unquote) (k : Nat) (ts : List Tok) :
    stringArrayElems unq (Tok.shiftAll k ts) =
      (stringArrayElems unq ts).mapped (List.map (·.shift k)) := by
  induction ts with
  | nil => rfl
  | cons t ts ih =>
    simp only [Tok.shiftAll, stringArrayElems, Tok.shift_rule, parseString_shift, ih,
      unexpectedToken_shift]
    split
    · cases parseString unq t with | error => rfl | ok => (cases stringArrayElems unq ts <;> rfl)
    · rfl
    · rfl

theorem parseStringArray_shift (unq : Unquote) (k : Nat) (t : Tok) :
    parseStringArray unq (t.shift k) = (parseStringArray unq t).mapped (·.shift k) := by
  simp only [parseStringArray, Tok.shift_children, Tok.shift_span, stringArrayElems_shift]
  cases stringArrayElems unq t.children <;> rfl

mutual
theorem breakableComponents_shift (k : Nat) (t : Tok) :
    breakableComponents (t.shift k) = (breakableComponents t).mapped (List.map (·.shift k)) := by
  cases t with
  | node r a b x ch =>
    simp only [Tok.shift, breakableComponents]
    exact breakableComponentsList_shift k ch
theorem breakableComponentsList_shift (k : Nat) (ts : List Tok) :
    breakableComponentsList (Tok.shiftAll k ts) =
      (breakableComponentsList ts).mapped (List.map (·.shift k)) := by
  cases ts with
  | nil => rfl
  | cons t ts =>
    have h1 := breakableComponents_shift k t
    have h2 := breakableComponentsList_shift k ts
    simp only [Tok.shiftAll, breakableComponentsList, Tok.shift_rule, h1, h2, Tok.shift_span,
      Tok.shift_text, unexpectedToken_shift]
    split
    · cases breakableComponents t
      · rfl
      · cases breakableComponentsList ts <;> simp
    · cases breakableComponentsList ts <;> rfl
    · cases breakableComponentsList ts <;> rfl
    · rfl
end

theorem parseAnyBreakable_shift (k : Nat) (t : Tok) :
    parseAnyBreakable (t.shift k) = (parseAnyBreakable t).mapped (·.shift k) := by
  simp only [parseAnyBreakable, breakableComponents_shift, Tok.shift_span]
  cases breakableComponents t <;> rfl

theorem require_map {α β : Type} (m : Msg) (f : α → β) (o : Option α) :
    require m (o.map f) = (require m o).mapped f := by cases o <;> rfl

theorem flagFields_shift (unq : Unquote) (k : Nat) (nr vr : Rule) (ts : List Tok)
    (n v : Option SpannedString) :
    flagFields unq nr vr (Tok.shiftAll k ts) (n.map (·.shift k)) (v.map (·.shift k)) =
      (flagFields unq nr vr ts n v).mapped
        (fun x => (x.1.map (·.shift k), x.2.map (·.shift k))) := by
  induction ts generalizing n v with
  | nil => rfl
  | cons t ts ih =>
    simp only [Tok.shiftAll, flagFields, Tok.shift_rule, parseString_shift, unexpectedToken_shift]
    split
    · cases parseString unq t with | error => rfl | ok => exact ih (some _) v
    · split
      · cases parseString unq t with | error => rfl | ok => exact ih n (some _)
      · rfl

theorem fromFlagRecord_shift (unq : Unquote) (k : Nat) (t : Tok) :
    fromFlagRecord unq (t.shift k) = (fromFlagRecord unq t).mapped (·.shift k) := by
  simp only [fromFlagRecord, Tok.shift_children, Tok.shift_span]
  have h := flagFields_shift unq k .from_flag_name .from_flag_value t.children none none
  simp only [Option.map_none] at h
  rw [h]
  cases flagFields unq .from_flag_name .from_flag_value t.children none none with
  | error e => rfl
  | ok x => obtain ⟨_ | n, _ | v⟩ := x <;> rfl

theorem copyFlagRecord_shift (unq : Unquote) (k : Nat) (t : Tok) :
    copyFlagRecord unq (t.shift k) = (copyFlagRecord unq t).mapped (·.shift k) := by
  simp only [copyFlagRecord, Tok.shift_children, Tok.shift_span]
  have h := flagFields_shift unq k .copy_flag_name .copy_flag_value t.children none none
  simp only [Option.map_none] at h
  rw [h]
  cases flagFields unq .copy_flag_name .copy_flag_value t.children none none with
  | error e => rfl
  | ok x => obtain ⟨_ | n, _ | v⟩ := x <;> rfl

theorem fromFields_shift (unq : Unquote) (k : Nat) (ts : List Tok) (i a : Option Tok)
    (fl : List Flag) :
    fromFields unq (Tok.shiftAll k ts) (i.map (·.shift k)) (a.map (·.shift k))
        (fl.map (·.shift k)) =
      (fromFields unq ts i a fl).mapped
        (fun x => (x.1.map (·.shift k), x.2.1.map (·.shift k), x.2.2.map (·.shift k))) := by
  induction ts generalizing i a fl with
  | nil => rfl
  | cons t ts ih =>
    simp only [Tok.shiftAll, fromFields, Tok.shift_rule, fromFlagRecord_shift,
      unexpectedToken_shift]
    split
    · cases fromFlagRecord unq t with
      | error e => rfl
      | ok f =>
        have := ih i a (fl ++ [f])
        simpa using this
    · exact ih (some t) a fl
    · exact ih i (some t) fl
    · exact ih i a fl
    · rfl

theorem fromRecord_shift (unq : Unquote) (k : Nat) (t : Tok) (n : Nat) :
    fromRecord unq (t.shift k) n = (fromRecord unq t n).mapped (·.shift k) := by
  simp only [fromRecord, Tok.shift_children, Tok.shift_span]
  have h := fromFields_shift unq k t.children none none []
  simp only [Option.map_none, List.map_nil] at h
  rw [h]
  cases fromFields unq t.children none none [] with
  | error e => rfl
  | ok x =>
    obtain ⟨_ | i, a, fl⟩ := x
    · rfl
    · simp only [mapped_ok, ok_bind, Option.map_some, parseString_shift]
      cases parseString unq i with
      | error e => rfl
      | ok im =>
        simp only [mapped_ok, ok_bind, SpannedString.shift]
        split
        · cases a with
          | none => rfl
          | some a =>
            simp only [Option.map_some, parseString_shift]
            cases parseString unq a <;> rfl
        · rfl

theorem argFields_shift (unq : Unquote) (k : Nat) (ts : List Tok) (n v : Option SpannedString) :
    argFields unq (Tok.shiftAll k ts) (n.map (·.shift k)) (v.map (·.shift k)) =
      (argFields unq ts n v).mapped (fun x => (x.1.map (·.shift k), x.2.map (·.shift k))) := by
  induction ts generalizing n v with
  | nil => rfl
  | cons t ts ih =>
    simp only [Tok.shiftAll, argFields, Tok.shift_rule, parseString_shift, unexpectedToken_shift]
    split
    · cases parseString unq t with | error => rfl | ok => exact ih (some _) v
    · cases parseString unq t with | error => rfl | ok => exact ih n (some _)
    · cases parseString unq t with | error => rfl | ok => exact ih n (some _)
    · exact ih n v
    · rfl

theorem argRecord_shift (unq : Unquote) (k : Nat) (t : Tok) :
    argRecord unq (t.shift k) = (argRecord unq t).mapped (·.shift k) := by
  simp only [argRecord, Tok.shift_children, Tok.shift_span]
  have h := argFields_shift unq k t.children none none
  simp only [Option.map_none] at h
  rw [h]
  cases argFields unq t.children none none with
  | error e => rfl
  | ok x => obtain ⟨_ | n, v⟩ := x <;> rfl

theorem labelQuoted_shift (unq : Unquote) (k : Nat) (t : Tok) :
    labelQuoted unq (t.shift k) = (labelQuoted unq t).mapped (·.shift k) := by
  simp only [labelQuoted, Tok.shift_text, Tok.shift_span]
  cases unquoteR unq (cleanEscapedBreaks t.text) <;> rfl

theorem labelFields_shift (unq : Unquote) (k : Nat) (ts : List Tok)
    (n v : Option SpannedString) :
    labelFields unq (Tok.shiftAll k ts) (n.map (·.shift k)) (v.map (·.shift k)) =
      (labelFields unq ts n v).mapped (fun x => (x.1.map (·.shift k), x.2.map (·.shift k))) := by
  induction ts generalizing n v with
  | nil => rfl
  | cons t ts ih =>
    simp only [Tok.shiftAll, labelFields, Tok.shift_rule, parseString_shift, labelQuoted_shift,
      unexpectedToken_shift]
    split
    · cases parseString unq t with | error => rfl | ok => exact ih (some _) v
    · cases parseString unq t with | error => rfl | ok => exact ih (some _) v
    · cases labelQuoted unq t with | error => rfl | ok => exact ih (some _) v
    · cases labelQuoted unq t with | error => rfl | ok => exact ih (some _) v
    · cases parseString unq t with | error => rfl | ok => exact ih n (some _)
    · cases labelQuoted unq t with | error => rfl | ok => exact ih n (some _)
    · exact ih n v
    · rfl

theorem labelPairRecord_shift (unq : Unquote) (k : Nat) (t : Tok) :
    labelPairRecord unq (t.shift k) = (labelPairRecord unq t).mapped (·.shift k) := by
  simp only [labelPairRecord, Tok.shift_children, Tok.shift_span]
  have h := labelFields_shift unq k t.children none none
  simp only [Option.map_none] at h
  rw [h]
  cases labelFields unq t.children none none with
  | error e => rfl
  | ok x => obtain ⟨_ | n, _ | v⟩ := x <;> rfl

theorem labelList_shift (unq : Unquote) (k : Nat) (ts : List Tok) :
    labelList unq (Tok.shiftAll k ts) = (labelList unq ts).mapped (List.map (·.shift k)) := by
  induction ts with
  | nil => rfl
  | cons t ts ih =>
    simp only [Tok.shiftAll, labelList, Tok.shift_rule, labelPairRecord_shift, ih,
      unexpectedToken_shift]
    split
    · cases labelPairRecord unq t with | error => rfl | ok => (cases labelList unq ts <;> rfl)
    · cases labelPairRecord unq t with | error => rfl | ok => (cases labelList unq ts <;> rfl)
    · rfl
    · rfl

theorem labelRecord_shift (unq : Unquote) (k : Nat) (t : Tok) :
    labelRecord unq (t.shift k) = (labelRecord unq t).mapped (·.shift k) := by
  simp only [labelRecord, Tok.shift_children, Tok.shift_span, labelList_shift]
  cases labelList unq t.children <;> rfl

theorem execRecord_shift (unq : Unquote) (er sr : Rule) (k : Nat) (t : Tok) :
    execRecord unq er sr (t.shift k) = (execRecord unq er sr t).mapped (·.shift k) := by
  simp only [execRecord, Tok.shift_children, Tok.shift_span]
  cases t.children with
  | nil => rfl
  | cons f fs =>
    simp only [Tok.shiftAll, Tok.shift_rule, parseStringArray_shift, parseAnyBreakable_shift,
      unexpectedToken_shift]
    split
    · cases parseStringArray unq f <;> rfl
    · split
      · cases parseAnyBreakable f <;> rfl
      · rfl

theorem copyFields_shift (unq : Unquote) (k : Nat) (ts : List Tok) (fl : List Flag)
    (ps : List SpannedString) :
    copyFields unq (Tok.shiftAll k ts) (fl.map (·.shift k)) (ps.map (·.shift k)) =
      (copyFields unq ts fl ps).mapped (fun x => (x.1.map (·.shift k), x.2.map (·.shift k))) := by
  induction ts generalizing fl ps with
  | nil => rfl
  | cons t ts ih =>
    simp only [Tok.shiftAll, copyFields, Tok.shift_rule, parseString_shift, copyFlagRecord_shift,
      unexpectedToken_shift]
    split
    · cases copyFlagRecord unq t with
      | error e => rfl
      | ok f => simpa using ih (fl ++ [f]) ps
    · cases parseString unq t with
      | error e => rfl
      | ok p => simpa using ih fl (ps ++ [p])
    · exact ih fl ps
    · rfl

theorem copyRecord_shift (unq : Unquote) (k : Nat) (t : Tok) :
    copyRecord unq (t.shift k) = (copyRecord unq t).mapped (·.shift k) := by
  simp only [copyRecord, Tok.shift_children, Tok.shift_span]
  have h := copyFields_shift unq k t.children [] []
  simp only [List.map_nil] at h
  rw [h]
  cases copyFields unq t.children [] [] with
  | error e => rfl
  | ok x =>
    obtain ⟨fl, ps⟩ := x
    simp only [mapped_ok, ok_bind, List.length_map, List.getLast?_map]
    split
    · cases ps.getLast? with
      | none => rfl
      | some d => simp [CopyInstruction.shift]
    · rfl

theorem breakableOf_shift (k : Nat) (t : Tok) (v : Str) :
    breakableOf (t.shift k) v = (breakableOf t v).shift k := by
  simp [breakableOf, BreakableString.shift, BreakableStringComponent.shift, SpannedString.shift]

theorem envPairFields_shift (unq : Unquote) (k : Nat) (ts : List Tok) (n : Option SpannedString)
    (v : Option BreakableString) :
    envPairFields unq (Tok.shiftAll k ts) (n.map (·.shift k)) (v.map (·.shift k)) =
      (envPairFields unq ts n v).mapped
        (fun x => (x.1.map (·.shift k), x.2.map (·.shift k))) := by
  induction ts generalizing n v with
  | nil => rfl
  | cons t ts ih =>
    simp only [Tok.shiftAll, envPairFields, Tok.shift_rule, parseString_shift, Tok.shift_text,
      breakableOf_shift, unexpectedToken_shift]
    split
    · cases parseString unq t with | error => rfl | ok => exact ih (some _) v
    · exact ih n (some _)
    · cases unquoteR unq t.text with | error => rfl | ok => exact ih n (some _)
    · rfl

theorem envPairRecord_shift (unq : Unquote) (k : Nat) (t : Tok) :
    envPairRecord unq (t.shift k) = (envPairRecord unq t).mapped (·.shift k) := by
  simp only [envPairRecord, Tok.shift_children, Tok.shift_span]
  have h := envPairFields_shift unq k t.children none none
  simp only [Option.map_none] at h
  rw [h]
  cases envPairFields unq t.children none none with
  | error e => rfl
  | ok x => obtain ⟨_ | n, _ | v⟩ := x <;> rfl

theorem envPairList_shift (unq : Unquote) (k : Nat) (ts : List Tok) :
    envPairList unq (Tok.shiftAll k ts) = (envPairList unq ts).mapped (List.map (·.shift k)) := by
  induction ts with
  | nil => rfl
  | cons t ts ih =>
    simp only [Tok.shiftAll, envPairList, Tok.shift_rule, envPairRecord_shift, ih,
      unexpectedToken_shift]
    split
    · cases envPairRecord unq t with | error => rfl | ok => (cases envPairList unq ts <;> rfl)
    · rfl
    · rfl

theorem envSingleFields_shift (unq : Unquote) (k : Nat) (ts : List Tok) (n : Option SpannedString)
    (v : Option BreakableString) :
    envSingleFields unq (Tok.shiftAll k ts) (n.map (·.shift k)) (v.map (·.shift k)) =
      (envSingleFields unq ts n v).mapped
        (fun x => (x.1.map (·.shift k), x.2.map (·.shift k))) := by
  induction ts generalizing n v with
  | nil => rfl
  | cons t ts ih =>
    simp only [Tok.shiftAll, envSingleFields, Tok.shift_rule, parseString_shift, Tok.shift_text,
      breakableOf_shift, parseAnyBreakable_shift, unexpectedToken_shift]
    split
    · cases parseString unq t with | error => rfl | ok => exact ih (some _) v
    · cases parseAnyBreakable t with | error => rfl | ok => exact ih n (some _)
    · cases unquoteR unq t.text with | error => rfl | ok => exact ih n (some _)
    · exact ih n v
    · rfl

theorem envRecord_shift (unq : Unquote) (k : Nat) (t : Tok) :
    envRecord unq (t.shift k) = (envRecord unq t).mapped (·.shift k) := by
  simp only [envRecord, Tok.shift_children, Tok.shift_span]
  cases t.children with
  | nil => rfl
  | cons f fs =>
    simp only [Tok.shiftAll, Tok.shift_rule, Tok.shift_children, unexpectedToken_shift]
    split
    · have h := envSingleFields_shift unq k f.children none none
      simp only [Option.map_none] at h
      rw [h]
      cases envSingleFields unq f.children none none with
      | error e => rfl
      | ok x => obtain ⟨_ | n, _ | v⟩ := x <;> rfl
    · rw [envPairList_shift]
      cases envPairList unq f.children <;> rfl
    · rfl

theorem miscFields_shift (unq : Unquote) (k : Nat) (ts : List Tok) (n : Option SpannedString)
    (v : Option BreakableString) :
    miscFields unq (Tok.shiftAll k ts) (n.map (·.shift k)) (v.map (·.shift k)) =
      (miscFields unq ts n v).mapped
        (fun x => (x.1.map (·.shift k), x.2.map (·.shift k))) := by
  induction ts generalizing n v with
  | nil => rfl
  | cons t ts ih =>
    simp only [Tok.shiftAll, miscFields, Tok.shift_rule, parseString_shift,
      parseAnyBreakable_shift, unexpectedToken_shift]
    split
    · cases parseString unq t with | error => rfl | ok => exact ih (some _) v
    · cases parseAnyBreakable t with | error => rfl | ok => exact ih n (some _)
    · rfl

theorem miscRecord_shift (unq : Unquote) (k : Nat) (t : Tok) :
    miscRecord unq (t.shift k) = (miscRecord unq t).mapped (·.shift k) := by
  simp only [miscRecord, Tok.shift_children, Tok.shift_span]
  have h := miscFields_shift unq k t.children none none
  simp only [Option.map_none] at h
  rw [h]
  cases miscFields unq t.children none none with
  | error e => rfl
  | ok x => obtain ⟨_ | n, _ | v⟩ := x <;> rfl

theorem instructionOf_shift (unq : Unquote) (k : Nat) (t : Tok) :
    instructionOf unq (t.shift k) = (instructionOf unq t).mapped (·.shift k) := by
  simp only [instructionOf, Tok.shift_rule, unexpectedToken_shift, fromRecord_shift,
    argRecord_shift, labelRecord_shift, execRecord_shift, copyRecord_shift, envRecord_shift,
    miscRecord_shift]
  split
  · cases fromRecord unq t 0 <;> rfl
  · cases argRecord unq t <;> rfl
  · cases labelRecord unq t <;> rfl
  · cases execRecord unq .run_exec .run_shell t <;> rfl
  · cases execRecord unq .entrypoint_exec .entrypoint_shell t <;> rfl
  · cases execRecord unq .cmd_exec .cmd_shell t <;> rfl
  · cases copyRecord unq t <;> rfl
  · cases envRecord unq t <;> rfl
  · cases miscRecord unq t <;> rfl
  · rfl

/-! ## the record loop -/

def LoopState.shift (k : Nat) (st : LoopState) : LoopState :=
  { st with instructions := st.instructions.map (·.shift k)
            globalArgs := st.globalArgs.map (·.shift k) }

theorem loopStep_shift (k : Nat) (st : LoopState) (i : Instruction) :
    loopStep (st.shift k) (i.shift k) = (loopStep st i).shift k := by
  cases i <;> simp [loopStep, LoopState.shift, Instruction.shift, FromInstruction.shift]
  rcases Bool.eq_false_or_eq_true st.fromFound with h | h <;> simp [h]

theorem recordLoop_shift (unq : Unquote) (k : Nat) (ts : List Tok) (st : LoopState) :
    recordLoop unq (Tok.shiftAll k ts) (st.shift k) =
      (recordLoop unq ts st).mapped (·.shift k) := by
  induction ts generalizing st with
  | nil => rfl
  | cons t ts ih =>
    simp only [Tok.shiftAll, recordLoop, Tok.shift_rule, instructionOf_shift]
    split
    · exact ih st
    · exact ih st
    · cases instructionOf unq t with
      | error e => rfl
      | ok i =>
        simp only [mapped_ok, ok_bind, loopStep_shift]
        exact ih _

/-- The state of the loop before the first record. -/
def LoopState.init : LoopState :=
  { instructions := [], globalArgs := [], fromFound := false, fromIndex := 0 }

/-- The state after the records of `a` and then those of `b`, given the states after each. -/
def LoopState.join (a b : LoopState) : LoopState :=
  { instructions := a.instructions ++ b.instructions.map (·.renumber a.fromIndex)
    globalArgs := if a.fromFound then a.globalArgs else a.globalArgs ++ b.globalArgs
    fromFound := a.fromFound || b.fromFound
    fromIndex := b.fromIndex + a.fromIndex }

theorem loopStep_join (a b : LoopState) (i : Instruction) :
    loopStep (a.join b) i = a.join (loopStep b i) := by
  cases i <;> simp [loopStep, LoopState.join, Instruction.renumber]
  · omega
  · rcases Bool.eq_false_or_eq_true a.fromFound with h | h <;> simp [h]
    split <;> simp

theorem recordLoop_join (unq : Unquote) (ts : List Tok) (a b : LoopState) :
    recordLoop unq ts (a.join b) = (recordLoop unq ts b).mapped (a.join ·) := by
  induction ts generalizing b with
  | nil => rfl
  | cons t ts ih =>
    simp only [recordLoop]
    split
    · exact ih b
    · exact ih b
    · cases instructionOf unq t with
      | error e => rfl
      | ok i =>
        simp only [ok_bind, loopStep_join]
        exact ih _

theorem join_init (a : LoopState) : a.join .init = a := by
  cases a; simp [LoopState.join, LoopState.init]

theorem recordLoop_from (unq : Unquote) (ts : List Tok) (a : LoopState) :
    recordLoop unq ts a = (recordLoop unq ts .init).mapped (a.join ·) := by
  conv => lhs; rw [← join_init a]
  exact recordLoop_join unq ts a .init

theorem recordLoop_append (unq : Unquote) (ts us : List Tok) (st : LoopState) :
    recordLoop unq (ts ++ us) st = recordLoop unq ts st >>= recordLoop unq us := by
  induction ts generalizing st with
  | nil => rfl
  | cons t ts ih =>
    simp only [List.cons_append, recordLoop]
    split
    · exact ih st
    · exact ih st
    · cases instructionOf unq t with
      | error e => rfl
      | ok i => simp only [ok_bind]; exact ih _

/-! ## documents -/

namespace G
open PExpr
/-- The grammar's `dockerfile` without `SOI` and without its own token. -/
def lines : PExpr := .seq meta_step (.seq (.star (.seq NEWLINE meta_step)) EOI)
end G

theorem safe_lines : safe false G.lines = true := by decide +kernel
theorem noSoi_lines : noSoi G.lines = true := by decide +kernel

/-- The tokens of the document text `s` at offset `p`. -/
def docToks (p : Nat) (s : Str) : Option (List Tok) := (parse G.lines false p s).map (·.2.2)

theorem docToks_shift (p k : Nat) (s : Str) :
    docToks (p + k) s = (docToks p s).map (Tok.shiftAll k) := by
  simp only [docToks, parse_shift k safe_lines noSoi_lines]
  rcases parse G.lines false p s with _ | ⟨p', s', ts⟩ <;> rfl

theorem docToks_at (k : Nat) (s : Str) : docToks k s = (docToks 0 s).map (Tok.shiftAll k) := by
  have := docToks_shift 0 k s
  simpa using this

/-- The document that a finished loop yields. -/
def LoopState.done (st : LoopState) (s : Str) : Dockerfile :=
  { content := s, global_args := st.globalArgs, instructions := st.instructions }

theorem parse_dockerfile_lines (s : Str) : parse G.dockerfile false 0 s =
    match parse G.lines false 0 s with
    | none => none
    | some (p', s', ts) => some (p', s', [.node .dockerfile 0 p'
        (s.take (s.length - s'.length)) ts]) := by
  have h := parse_sem safe_lines false 0 s
  apply (parse_eq_iff safe_dockerfile).2
  rcases hl : parse G.lines false 0 s with _ | ⟨p', s', ts⟩
  · rw [hl] at h
    exact .rule_fail (.seq_fail2 .soi_ok h)
  · rw [hl] at h
    exact .rule_ok (.seq_ok .soi_ok h)

theorem parse_docToks (unq : Unquote) (s : Str) :
    Dockerfile.parse unq s = match docToks 0 s with
      | none => .error (.err .parseError)
      | some ts => (recordLoop unq ts .init).mapped (·.done s) := by
  unfold Dockerfile.parse docToks
  rw [parse_dockerfile_lines]
  rcases parse G.lines false 0 s with _ | ⟨p', s', ts⟩
  · rfl
  · simp only [Option.map_some, Tok.children]
    show (recordLoop unq ts .init >>= _) = _
    cases recordLoop unq ts .init <;> rfl

end Verif
