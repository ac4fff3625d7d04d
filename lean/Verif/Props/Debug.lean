import Verif.Proof.Debug
import Verif.Props.PestError
import Verif.Props.Parse

/-!
# C67: `Debug` output and the texts of errors
-/

namespace Verif
open Dbg

variable (plain : Char → Bool)

/-! ## `Debug` -/

/-- C67 (`Debug`): different values have different `Debug` texts, whichever characters are shown as
they are. -/
theorem C67_debug :
    (∀ s t : Str, debugStr plain s = debugStr plain t → s = t) ∧
    (∀ a b : Span, a.debug = b.debug → a = b) ∧
    (∀ a b : SpannedString, a.debug plain = b.debug plain → a = b) ∧
    (∀ a b : BreakableString, a.debug plain = b.debug plain → a = b) ∧
    (∀ a b : StringArray, a.debug plain = b.debug plain → a = b) ∧
    (∀ a b : ShellOrExecExpr, a.debug plain = b.debug plain → a = b) ∧
    (∀ a b : ImageRef, a.debug plain = b.debug plain → a = b) ∧
    (∀ a b : Instruction, a.debug plain = b.debug plain → a = b) ∧
    (∀ a b : Dockerfile, a.debug plain = b.debug plain → a = b) :=
  ⟨(reads_str plain).inj, reads_span.inj, (reads_spannedString plain).inj,
    (reads_breakable plain).inj, (reads_array plain).inj, (reads_expr plain).inj,
    (Dbg.reads_image plain).inj, (reads_instruction plain).inj, (reads_dockerfile plain).inj⟩

/-- C67 (in other texts): the end of such a text can be seen, whatever follows. -/
theorem C67_debug_end (i j : Instruction) (r r' : Str)
    (h : i.debug plain ++ r = j.debug plain ++ r') : i = j ∧ r = r' := instruction_inj plain i j r r' h

/- a character that is not shown as it is -/
example : debugStr (fun c => 32 ≤ c.toNat ∧ c.toNat < 127) c!"a\"b\\\n'\x00\x1fé" =
    c!"\"a\\\"b\\\\\\n'\\0\\u{1f}\\u{e9}\"" := by decide +kernel

example : (match Dockerfile.parse Enquote.unquote c!"ARG a=\"b c\"" with
    | .ok d => d.instructions.map (·.debug fun _ => true)
    | .error _ => []) =
    [c!"Arg(ArgInstruction { span: (0, 11), name: SpannedString { span: (4, 5), content: \"a\" }, value: Some(SpannedString { span: (6, 11), content: \"b c\" }) })"] := by
  decide +kernel

example : (match Dockerfile.parse Enquote.unquote c!"FROM a:b\nRUN c" with
    | .ok d => d.instructions.map (·.debug fun _ => true)
    | .error _ => []) =
    [c!"From(FromInstruction { span: (0, 8), flags: [], image: SpannedString { span: (5, 8), content: \"a:b\" }, image_parsed: ImageRef { registry: None, image: \"a\", tag: Some(\"b\"), hash: None }, index: 0, alias: None })",
     c!"Run(RunInstruction { span: (9, 14), expr: Shell(BreakableString { span: (13, 14), components: [String(SpannedString { span: (13, 14), content: \"c\" })] }) })"] := by
  decide +kernel

/-- the name of the variant of an instruction -/
def Instruction.variant : Instruction → Str
  | .from _ => c!"From" | .arg _ => c!"Arg" | .label _ => c!"Label" | .run _ => c!"Run"
  | .entrypoint _ => c!"Entrypoint" | .cmd _ => c!"Cmd" | .copy _ => c!"Copy" | .env _ => c!"Env"
  | .misc _ => c!"Misc"

/-- C67 (names): the text starts with the name of the variant, the name of its type, and the span. -/
theorem C67_debug_name (i : Instruction) : ∃ r,
    i.debug plain = i.variant ++ c!"(" ++ i.variant ++ c!"Instruction { span: " ++ i.span.debug ++ r := by
  have key : ∀ (v n sp : Str) (fs : List (Str × Str)),
      ∃ r, debugTuple v [debugStruct n ((c!"span", sp) :: fs)] =
        v ++ c!"(" ++ n ++ c!" { span: " ++ sp ++ r := by
    intro v n sp fs
    cases fs with
    | nil => exact ⟨c!" })", by simp [debugTuple, debugStruct, commas]⟩
    | cons f fs => exact ⟨_, by simp [debugTuple, debugStruct, commas]; rfl⟩
  cases i with
  | «from» i => exact key c!"From" c!"FromInstruction" _ _
  | arg i => exact key c!"Arg" c!"ArgInstruction" _ _
  | label i => exact key c!"Label" c!"LabelInstruction" _ _
  | run i => exact key c!"Run" c!"RunInstruction" _ _
  | entrypoint i => exact key c!"Entrypoint" c!"EntrypointInstruction" _ _
  | cmd i => exact key c!"Cmd" c!"CmdInstruction" _ _
  | copy i => exact key c!"Copy" c!"CopyInstruction" _ _
  | env i => exact key c!"Env" c!"EnvInstruction" _ _
  | misc i => exact key c!"Misc" c!"MiscInstruction" _ _

/-! ## conversions -/

/-- `conv` gives the payload of the variant `mk`, or an error with the instruction and `name` -/
def Converts {α : Type} (conv : Instruction → Except FullError α) (mk : α → Instruction)
    (name : Str) : Prop :=
  ∀ i, (∀ a, conv i = .ok a ↔ i = mk a) ∧
    ∀ e, conv i = .error e ↔ (∀ a, i ≠ mk a) ∧ e = .conversion (i.debug plain) name

theorem converts_of {α : Type} {acc : Instruction → Option α} {mk : α → Instruction} {name : Str}
    (h : ∀ i a, acc i = some a ↔ i = mk a) :
    Converts plain (Instruction.tryFrom plain acc name) mk name := by
  intro i
  unfold Instruction.tryFrom
  cases hi : acc i with
  | some a =>
    refine ⟨fun b => ?_, fun e => ?_⟩
    · rw [← h, hi]
      simp
    · simp only [reduceCtorEq, false_iff, not_and]
      exact fun hn => absurd ((h i a).1 hi) (hn a)
  | none =>
    refine ⟨fun b => ?_, fun e => ?_⟩
    · rw [← h, hi]
      simp
    · simp only [Except.error.injEq]
      constructor
      · rintro rfl
        refine ⟨fun a ha => ?_, rfl⟩
        rw [(h i a).2 ha] at hi
        cases hi
      · exact fun h => h.2.symm

/-- C67 (conversions): each `TryFrom` gives the payload of its variant; for any other instruction the
error has the `Debug` text of the instruction and the name of the type. -/
theorem C67_conversion :
    Converts plain (Instruction.tryFromFrom plain) .from c!"FromInstruction" ∧
    Converts plain (Instruction.tryFromArg plain) .arg c!"ArgInstruction" ∧
    Converts plain (Instruction.tryFromLabel plain) .label c!"LabelInstruction" ∧
    Converts plain (Instruction.tryFromRun plain) .run c!"RunInstruction" ∧
    Converts plain (Instruction.tryFromEntrypoint plain) .entrypoint c!"EntrypointInstruction" ∧
    Converts plain (Instruction.tryFromCmd plain) .cmd c!"CmdInstruction" ∧
    Converts plain (Instruction.tryFromCopy plain) .copy c!"CopyInstruction" ∧
    Converts plain (Instruction.tryFromEnv plain) .env c!"EnvInstruction" ∧
    Converts plain (Instruction.tryFromMisc plain) .misc c!"MiscInstruction" := by
  refine ⟨?_, ?_, ?_, ?_, ?_, ?_, ?_, ?_, ?_⟩ <;> refine converts_of plain fun i a => ?_ <;> cases i <;>
    simp [Instruction.asFrom, Instruction.asArg, Instruction.asLabel, Instruction.asRun,
      Instruction.asEntrypoint, Instruction.asCmd, Instruction.asCopy, Instruction.asEnv,
      Instruction.asMisc]

/-- C67 (their texts): the text of such an error determines the instruction and the type. -/
theorem C67_conversion_text (i j : Instruction) (t u : Str)
    (h : (FullError.conversion (i.debug plain) t).display plain =
      (FullError.conversion (j.debug plain) u).display plain) : i = j ∧ t = u := by
  simp only [FullError.display, List.append_assoc, Option.some.injEq] at h
  obtain ⟨h1, h2⟩ := debugStr_inj plain (List.append_cancel_left h)
  exact ⟨(reads_instruction plain).inj _ _ h1,
    List.append_cancel_right (List.append_cancel_left h2)⟩

/- a quote of the instruction appears with two levels of escapes -/
example : ((Instruction.arg ⟨⟨0, 9⟩, ⟨⟨4, 5⟩, c!"a"⟩, some ⟨⟨6, 9⟩, c!"\""⟩⟩).tryFromRun
      (fun _ => true)).isOk = false ∧
    (FullError.conversion (Span.debug ⟨4, 5⟩ ++ debugStr (fun _ => true) c!"\"") c!"X").display
      (fun _ => true) =
      some c!"could not convert instruction '\"(4, 5)\\\"\\\\\\\"\\\"\"' to desired type 'X'" := by
  decide +kernel

/-! ## errors of parsing -/

theorem ruleOf_ruleName (r : Rule) : r = .EOI ∨ Pest.ruleOf (Pest.ruleName r) = some r := by
  cases r <;> first | exact .inl rfl | exact .inr rfl

theorem ruleName_inj {r r' : Rule} (h : Pest.ruleName r = Pest.ruleName r') : r = r' := by
  have e : Pest.ruleOf (Pest.ruleName .EOI) = none := by decide
  rcases ruleOf_ruleName r with rfl | h1 <;> rcases ruleOf_ruleName r' with rfl | h2
  · rfl
  · rw [← h, e] at h2
    cases h2
  · rw [h, e] at h1
    cases h1
  · rw [h, h2] at h1
    cases h1
    rfl

/-- C67 (messages): different messages have different texts. -/
theorem C67_messages (m m' : Msg) (h : m.text = m'.text) : m = m' := by
  by_cases hm : ∃ r, m = .unexpectedToken r
  · obtain ⟨r, rfl⟩ := hm
    cases m' with
    | unexpectedToken r' =>
      rw [Msg.text, Msg.text] at h
      rw [ruleName_inj (List.append_cancel_left h)]
    | _ => simp [Msg.text] at h
  · by_cases hm' : ∃ r, m' = .unexpectedToken r
    · obtain ⟨r, rfl⟩ := hm'
      cases m with
      | unexpectedToken r' => exact absurd ⟨r', rfl⟩ hm
      | _ => simp [Msg.text] at h
    · cases m <;> cases m' <;> first
        | rfl
        | exact absurd ⟨_, rfl⟩ hm
        | exact absurd ⟨_, rfl⟩ hm'
        | exact absurd h (by decide)

theorem unquoteError_debug_inj {u v : UnquoteError} (h : u.debug = v.debug) : u = v := by
  cases u <;> cases v <;> first | rfl | exact absurd h (by decide)

/-- C67 (texts of errors): errors with the same text are equal, or both are reports of pest. -/
theorem C67_texts (e f : FullError) (t : Str) (h : e.display plain = some t)
    (h' : f.display plain = some t) : e = f ∨ (∃ p, e = .parse p) ∧ ∃ q, f = .parse q := by
  cases e <;> cases f
  case parse.parse => exact .inr ⟨⟨_, rfl⟩, _, rfl⟩
  all_goals left
  case generic.generic m n =>
    simp only [FullError.display, Option.some.injEq] at h h'
    rw [List.append_cancel_left (h.trans h'.symm)]
  case unescape.unescape u v =>
    simp only [FullError.display, Option.some.injEq] at h h'
    rw [unquoteError_debug_inj (List.append_cancel_left (h.trans h'.symm))]
  case read.read m n =>
    simp only [FullError.display, Option.some.injEq] at h h'
    rw [List.append_cancel_left (h.trans h'.symm)]
  case conversion.conversion a b c d =>
    simp only [FullError.display, List.append_assoc, Option.some.injEq] at h h'
    obtain ⟨h1, h2⟩ := debugStr_inj plain (List.append_cancel_left (h.trans h'.symm))
    rw [h1, List.append_cancel_right (List.append_cancel_left h2)]
  case unknown.unknown => rfl
  all_goals
    exfalso
    simp only [FullError.display, Option.map_eq_some_iff, Option.some.injEq] at h h'
    first
    | (obtain ⟨x, _, rfl⟩ := h; simp at h')
    | (obtain ⟨x, _, rfl⟩ := h'; simp at h)
    | (subst h; simp at h')

open Pest in
/-- the payloads of an error of `Dockerfile::parse` on the text `s` -/
inductive FullOf (s : Str) : Error → FullError → Prop
  | parse {p : Nat} {pos neg : List Rule} {e : PestError} : Reports s (.error p pos neg) →
      newFromPos s p pos neg = some e → FullOf s .parseError (.parse e)
  | generic (m : Msg) : FullOf s (.generic m) (.generic m.text)
  | unescape (e : UnquoteError) : FullOf s (.unescape e) (.unescape e)
  | unknown : FullOf s .unknownParseError .unknown

theorem fullOf_unique {s : Str} {e : Error} {f g : FullError} (h : FullOf s e f) (h' : FullOf s e g) :
    f = g := by
  cases h with
  | parse h1 h2 =>
    cases h' with
    | parse h3 h4 =>
      cases h1.det h3
      rw [h2] at h4
      cases h4
      rfl
  | generic => cases h'; rfl
  | unescape => cases h'; rfl
  | unknown => cases h'; rfl

open Pest in
/-- C67 (errors of parsing): if `Dockerfile::parse` fails, the error and its payloads are determined by
the text, and `to_string` shows: the report of pest, the complaint about a digest, the complaint about
a comment, or the kind of failure to unquote. -/
theorem C67_parse (unq : Unquote) (s : Str) (x : Fault) (h : Dockerfile.parse unq s = .error x) :
    ∃ e f t, x = .err e ∧ FullOf s e f ∧ (∀ g, FullOf s e g → g = f) ∧ f.display plain = some t ∧
      ((e = .parseError ∧ ∃ p pos neg, Reports s (.error p pos neg) ∧
          parseErrorText s p pos neg = some t ∧ ∃ u, t = c!"could not parse Dockerfile: " ++ u) ∨
       t = c!"unable to parse Dockerfile: image reference digest is invalid" ∨
       t = c!"unable to parse Dockerfile: unexpected token comment" ∨
       ∃ q u, unq q = .error u ∧ t = c!"error unescaping string: " ++ u.debug) := by
  rcases C02_errors unq s x h with rfl | ⟨q, u, hq, rfl⟩ | rfl | rfl
  · obtain ⟨N, out, hN, ho⟩ := C61_engine s
    have hp : parse G.dockerfile false 0 s = none := by
      have h1 : parse G.lines false 0 s = none := by simpa [docToks] using parse_error_iff.1 h
      have h2 := parse_dockerfile_lines s
      rw [h1] at h2
      exact h2
    rw [hp] at ho
    obtain ⟨p, pos, neg, rfl, -⟩ := ho
    have hr : Reports s (.error p pos neg) := ⟨N, hN⟩
    obtain ⟨⟨l, m, k, r, hc, he⟩, ht⟩ := C64_text hr
    obtain ⟨P, N', w, -, -, -, h1, h2⟩ := ht l m k r hc he
    have h3 := h2
    simp only [parseErrorText, h1, Option.bind_eq_bind, Option.bind_some] at h3
    generalize hd : PestError.display _ = o at h3
    cases o with
    | none => cases h3
    | some u =>
      have hf : FullOf s .parseError (.parse _) := .parse hr h1
      refine ⟨_, _, c!"could not parse Dockerfile: " ++ u, rfl, hf, fun g hg => fullOf_unique hg hf, ?_,
        .inl ⟨rfl, p, pos, neg, hr, ?_, u, rfl⟩⟩
      · rw [FullError.display, hd, Option.map_some]
      · rw [h2, ← h3]
        rfl
  · exact ⟨_, _, _, rfl, .unescape u, fun g hg => fullOf_unique hg (.unescape u), rfl,
      .inr (.inr (.inr ⟨q, u, hq, rfl⟩))⟩
  · exact ⟨_, _, _, rfl, .generic _, fun g hg => fullOf_unique hg (.generic _), rfl,
      .inr (.inl rfl)⟩
  · exact ⟨_, _, _, rfl, .generic _, fun g hg => fullOf_unique hg (.generic _), rfl,
      .inr (.inr (.inl rfl))⟩

/- a comment in a place where the grammar allows it and the conversion does not -/
example : Dockerfile.parse Enquote.unquote c!"RUN \\\n#c\nx" =
      .error (.err (.generic (.unexpectedToken .comment))) ∧
    (FullError.generic (Msg.unexpectedToken .comment).text).display (fun _ => true) =
      some c!"unable to parse Dockerfile: unexpected token comment" := by decide +kernel

example : Dockerfile.parse Enquote.unquote c!"ENV a=\"\\q\"" =
      .error (.err (.unescape .unrecognizedEscape)) ∧
    (FullError.unescape .unrecognizedEscape).display (fun _ => true) =
      some c!"error unescaping string: UnrecognizedEscape" := by decide +kernel

end Verif
