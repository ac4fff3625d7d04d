import Verif.Proof.Loop
import Verif.Model.Splicer
import Verif.Model.Enquote

/-! # Document-level bookkeeping (C03, C09, C10, C11, C31, C44) -/

namespace Verif
open Spec

/-- Example: `ARG`s before and after the first `FROM`, an unknown instruction and a comment between
them. -/
def exampleDoc : Str := c!"ARG a=1\n# c\nSHELL x\nARG b\nFROM i\nARG c=2\nFROM j AS k\n"

/-- the example, parsed -/
def exampleParsed : Dockerfile :=
  match Dockerfile.parse Enquote.unquote exampleDoc with
  | .ok d => d
  | .error _ => ⟨[], [], []⟩

theorem exampleParsed_ok : Dockerfile.parse Enquote.unquote exampleDoc = .ok exampleParsed := by
  decide +kernel

/-! ## C03: content -/

/-- C03: a parsed document carries the input text unchanged, and its splicer starts with it. -/
theorem C03_content (unq : Unquote) (s : Str) (d : Dockerfile) (h : Dockerfile.parse unq s = .ok d) :
    d.content = s ∧ (Splicer.ofDockerfile d).content = s := by
  have := (parse_ok_inv h).1
  exact ⟨this, this⟩

example : exampleParsed.content = exampleDoc := (C03_content _ _ _ exampleParsed_ok).1

/-! ## C09: global args -/

/-- C09: the global args are, in order, the `ARG`s in front of the first `FROM`. -/
theorem C09_global_args (unq : Unquote) (s : Str) (d : Dockerfile)
    (h : Dockerfile.parse unq s = .ok d) : d.global_args = argsBeforeFrom d.instructions := by
  obtain ⟨-, st, inv, h1, h2⟩ := parse_ok_inv h
  rw [h1, h2]
  exact inv.args

example : argsBeforeFrom exampleParsed.instructions = exampleParsed.global_args ∧
    exampleParsed.global_args.map (·.name.content) = [c!"a", c!"b"] :=
  ⟨(C09_global_args _ _ _ exampleParsed_ok).symm, by decide +kernel⟩

/-! ## C10: indices of `FROM`s -/

/-- C10: a `FROM` with `k` `FROM`s in front of it has index `k`. -/
theorem C10_from_index (unq : Unquote) (s : Str) (d : Dockerfile)
    (h : Dockerfile.parse unq s = .ok d) (pre post : List Instruction) (f : FromInstruction)
    (hs : d.instructions = pre ++ .from f :: post) : f.index = pre.countP isFrom := by
  obtain ⟨-, st, inv, -, h2⟩ := parse_ok_inv h
  rw [h2] at hs
  exact inv.froms pre f post hs

/- the second `FROM` of the example has five instructions in front of it, one of which is a `FROM` -/
example : ∃ f, exampleParsed.instructions = exampleParsed.instructions.take 5 ++ .from f :: [] ∧
    f.index = 1 := by
  refine ⟨((exampleParsed.instructions[5]?).bind Instruction.asFrom).getD
    ⟨⟨0, 0⟩, [], ⟨⟨0, 0⟩, []⟩, ⟨none, [], none, none⟩, 0, none⟩, ?_, ?_⟩ <;> decide +kernel

theorem countP_segs (segs : List Seg) (h : ∀ x ∈ segs, ∀ i ∈ x.2, isFrom i = false) :
    (segs.flatMap Seg.list).countP isFrom = segs.length := by
  induction segs with
  | nil => rfl
  | cons x xs ih =>
    have hx : x.2.countP isFrom = 0 := by
      rw [List.countP_eq_zero]
      intro i hi
      simp [h x (by simp) i hi]
    have := ih (fun y hy => h y (by simp [hy]))
    simp only [List.length_cons, List.flatMap_cons, List.countP_append, Seg.list,
      List.countP_cons, isFrom, hx] at this ⊢
    simp
    omega

/-- C10 (stages): the index stored in the `FROM` that opens a stage is the index of the stage. -/
theorem C10_from_index_is_stage_index (unq : Unquote) (s : Str) (d : Dockerfile)
    (h : Dockerfile.parse unq s = .ok d) (ss : List Stage) (hss : d.stages = some ss) (i : Nat)
    (st : Stage) (hst : ss[i]? = some st) (f : FromInstruction) (hf : OpenedBy st f) :
    f.index = i ∧ st.index = i := by
  obtain ⟨pre, segs, ss', h1, h2, h3, h4, inv⟩ := stages_inv d
  rw [hss] at h4; cases h4
  obtain ⟨x, hx, ok⟩ := inv.get hst
  have hfx : x.1 = f := by
    unfold OpenedBy at hf
    rw [ok.instructions] at hf
    simpa [Seg.list] using hf
  refine ⟨?_, ok.index⟩
  have hi : i < segs.length := (List.getElem?_eq_some_iff.mp hx).1
  have hsplit : segs = segs.take i ++ x :: segs.drop (i + 1) := by
    have hg : segs[i] = x := (List.getElem?_eq_some_iff.mp hx).2
    conv => lhs; rw [← List.take_append_drop i segs, List.drop_eq_getElem_cons hi, hg]
  have hd : d.instructions = (pre ++ (segs.take i).flatMap Seg.list) ++
      .from f :: (x.2 ++ (segs.drop (i + 1)).flatMap Seg.list) := by
    rw [h1]
    conv => lhs; rw [hsplit]
    simp [Seg.list, hfx]
  rw [C10_from_index unq s d h _ _ f hd, List.countP_append,
    countP_segs _ (fun y hy => h3 y (List.mem_of_mem_take hy))]
  have hp : pre.countP isFrom = 0 := by
    rw [List.countP_eq_zero]
    intro j hj
    simp [h2 j hj]
  rw [hp, List.length_take]
  omega

example : ∃ ss st f, exampleParsed.stages = some ss ∧ ss[1]? = some st ∧ OpenedBy st f ∧ f.index = 1 := by
  have h : ((exampleParsed.stages.bind (fun ss => ss[1]?)).bind
      (fun st => st.instructions.head?)).bind Instruction.asFrom ≠ none := by decide +kernel
  cases h1 : exampleParsed.stages with
  | none => simp [h1] at h
  | some ss =>
    cases h2 : ss[1]? with
    | none => simp [h1, h2] at h
    | some st =>
      cases h3 : st.instructions.head? with
      | none => simp [h1, h2, h3] at h
      | some i =>
        cases i with
        | «from» f =>
          exact ⟨ss, st, f, rfl, h2, h3,
            (C10_from_index_is_stage_index _ _ _ exampleParsed_ok ss h1 1 st h2 f h3).1⟩
        | _ => simp [h1, h2, h3, Instruction.asFrom] at h

example : (match Dockerfile.parse Enquote.unquote exampleDoc with
    | .ok d => some (d.global_args.map (·.name.content),
        d.instructions.filterMap (fun i => i.asFrom.map (·.index)), d.instructions.length)
    | .error _ => none) = some ([c!"a", c!"b"], [0, 1], 6) := by decide +kernel

/-! ## C11: `get_global_arg` -/

/-- C11 (full statement, false of the code): `get_global_arg` finds the first global `ARG` of that
name. -/
def C11_statement : Prop :=
  ∀ (unq : Unquote) (s : Str) (d : Dockerfile), Dockerfile.parse unq s = .ok d → ∀ name,
    d.getGlobalArg name = d.global_args.find? (fun a => a.name.content = name)

/-- C11 fails: `get_global_arg` stops at the first instruction that is not an `ARG`, here `SHELL`,
and does not find `b`. -/
theorem C11_negation : ¬ C11_statement := by
  intro h
  have : ∃ d, Dockerfile.parse Enquote.unquote exampleDoc = .ok d ∧
      d.getGlobalArg c!"b" = none ∧ (d.global_args.find? (fun a => a.name.content = c!"b")).isSome := by
    have : (match Dockerfile.parse Enquote.unquote exampleDoc with
      | .ok d => decide (d.getGlobalArg c!"b" = none) &&
          (d.global_args.find? (fun a => a.name.content = c!"b")).isSome
      | .error _ => false) = true := by decide +kernel
    split at this
    · rename_i d hd
      refine ⟨d, hd, ?_⟩
      simpa using this
    · cases this
  obtain ⟨d, h1, h2, h3⟩ := this
  have := h _ _ d h1 c!"b"
  rw [← this, h2] at h3
  cases h3

/-- C11 (always true part): whatever `get_global_arg` returns is the first global `ARG` of that
name. -/
theorem C11_sound (unq : Unquote) (s : Str) (d : Dockerfile) (h : Dockerfile.parse unq s = .ok d)
    (name : Str) (a : ArgInstruction) (ha : d.getGlobalArg name = some a) :
    d.global_args.find? (fun a => a.name.content = name) = some a := by
  rw [C09_global_args unq s d h]
  unfold Dockerfile.getGlobalArg at ha
  suffices ∀ is, getGlobalArgLoop name is = some a →
      (argsBeforeFrom is).find? (fun a => a.name.content = name) = some a from this _ ha
  intro is
  induction is with
  | nil => intro h; cases h
  | cons i is ih =>
    intro h
    cases i with
    | arg b =>
      simp only [getGlobalArgLoop] at h
      simp only [argsBeforeFrom, List.find?_cons]
      by_cases hb : b.name.content = name
      · rw [if_pos hb] at h
        simp [hb, h]
      · rw [if_neg hb] at h
        simp [hb, ih h]
    | _ => cases h

example : ∃ a, exampleParsed.getGlobalArg c!"a" = some a ∧
    exampleParsed.global_args.find? (fun a => a.name.content = c!"a") = some a := by
  cases h : exampleParsed.getGlobalArg c!"a" with
  | none => exact absurd h (by decide +kernel)
  | some a => exact ⟨a, rfl, C11_sound _ _ _ exampleParsed_ok _ a h⟩

/-- C11 when only `ARG`s precede the first `FROM` (missing: documents with other instructions in
front of a global `ARG`, where the claim is false). -/
theorem C11_get_global_arg_partial (unq : Unquote) (s : Str) (d : Dockerfile)
    (h : Dockerfile.parse unq s = .ok d)
    (hargs : ∀ pre i post, d.instructions = pre ++ i :: post → pre.any isFrom = false →
      (∃ a, i = .arg a) ∨ isFrom i = true) (name : Str) :
    d.getGlobalArg name = d.global_args.find? (fun a => a.name.content = name) := by
  rw [C09_global_args unq s d h]
  unfold Dockerfile.getGlobalArg
  suffices ∀ is, (∀ pre i post, is = pre ++ i :: post → pre.any isFrom = false →
      (∃ a, i = .arg a) ∨ isFrom i = true) →
      getGlobalArgLoop name is = (argsBeforeFrom is).find? (fun a => a.name.content = name) from
    this _ hargs
  intro is
  induction is with
  | nil => intro _; rfl
  | cons i is ih =>
    intro hargs
    rcases hargs [] i is rfl rfl with ⟨a, rfl⟩ | hf
    · have := ih (by
        intro pre j post hs hp
        exact hargs (.arg a :: pre) j post (by rw [hs]; rfl) (by simpa [isFrom] using hp))
      simp only [getGlobalArgLoop, argsBeforeFrom, List.find?_cons, this]
      by_cases hb : a.name.content = name
      · simp [hb]
      · simp [hb]
    · cases i <;> simp [isFrom] at hf
      rfl

/- two `ARG`s, a `FROM` and a `RUN`: no other instruction in front of the first `FROM` -/
example : ∃ d, Dockerfile.parse Enquote.unquote c!"ARG a\nARG b=1\nFROM i\nRUN x\n" = .ok d ∧
    d.instructions.length = 4 ∧
    (∀ pre i post, d.instructions = pre ++ i :: post → pre.any isFrom = false →
      (∃ a, i = .arg a) ∨ isFrom i = true) := by
  have key : (match Dockerfile.parse Enquote.unquote c!"ARG a\nARG b=1\nFROM i\nRUN x\n" with
    | .ok d => (match d.instructions with
      | [.arg _, .arg _, .from _, .run _] => true
      | _ => false)
    | .error _ => false) = true := by decide +kernel
  split at key
  · rename_i d hd
    refine ⟨d, hd, ?_⟩
    split at key
    · rename_i a b c e h4
      refine ⟨by rw [h4]; rfl, ?_⟩
      rw [h4]
      intro pre i post hs hp
      match pre with
      | [] => injection hs with h; subst h; exact .inl ⟨_, rfl⟩
      | [_] =>
        simp only [List.cons_append, List.nil_append, List.cons.injEq] at hs
        obtain ⟨-, rfl, -⟩ := hs; exact .inl ⟨_, rfl⟩
      | [_, _] =>
        simp only [List.cons_append, List.nil_append, List.cons.injEq] at hs
        obtain ⟨-, -, rfl, -⟩ := hs; exact .inr rfl
      | _ :: _ :: z :: _ =>
        simp only [List.cons_append, List.cons.injEq] at hs
        obtain ⟨-, -, rfl, -⟩ := hs
        simp [isFrom] at hp
    · cases key
  · cases key

/-! ## C31: readers -/

/-- C31: a reader that delivers the UTF-8 encoding of `s`, in any chunks and with any number of
interruptions, parses like `s`. -/
theorem C31_from_reader (unq : Unquote) (es : List ReadEvent) (s : Str) (hs : Steady es)
    (he : Encodes s (delivered es)) : Dockerfile.fromReader unq es = Dockerfile.parse unq s := by
  unfold Dockerfile.fromReader
  simp only [readToEnd_steady es [] hs, List.nil_append, (decodeUtf8_iff _ s).mpr he]

/- `FROM é` in three chunks, splitting the two-byte character, with an interruption -/
example : Steady [.data [70, 82, 79, 77], .interrupted, .data [32, 0xc3], .data [0xa9]] ∧
    Encodes c!"FROM é" (delivered
      [.data [70, 82, 79, 77], .interrupted, .data [32, 0xc3], .data [0xa9]]) := by
  constructor
  · intro e he
    simp at he
    rcases he with rfl | rfl | rfl | rfl <;> simp
  · show _ = _
    decide +kernel

/-- C31 (invalid UTF-8): bytes that encode no text give a read error. -/
theorem C31_invalid_utf8 (unq : Unquote) (es : List ReadEvent) (hs : Steady es)
    (he : ∀ s, ¬ Encodes s (delivered es)) :
    Dockerfile.fromReader unq es = .error (.err .readError) := by
  unfold Dockerfile.fromReader
  rw [readToEnd_steady es [] hs, List.nil_append]
  cases hd : decodeUtf8 (delivered es) with
  | none => simp only [hd]
  | some s => exact absurd ((decodeUtf8_iff _ s).mp hd) (he s)

/- the first byte of a two-byte character, and then no more -/
example : Steady [.data [32, 0xc3]] ∧ ∀ s, ¬ Encodes s (delivered [.data [32, 0xc3]]) := by
  constructor
  · intro e he
    simp at he
    subst he; simp
  · intro s hs
    have := (decodeUtf8_iff _ s).mpr hs
    revert this
    have : decodeUtf8 (delivered [.data [32, 0xc3]]) = none := by decide +kernel
    rw [this]; simp

/-- C31 (I/O error): a reader that fails, after any steady prefix, gives a read error. -/
theorem C31_io_error (unq : Unquote) (es rest : List ReadEvent) (hs : Steady es) :
    Dockerfile.fromReader unq (es ++ .failed :: rest) = .error (.err .readError) := by
  unfold Dockerfile.fromReader
  rw [readToEnd_failed es rest [] hs]

example : Dockerfile.fromReader Enquote.unquote ([.data [70, 82], .interrupted] ++ .failed :: [.data [79]]) =
    .error (.err .readError) :=
  C31_io_error _ _ _ (by intro e he; simp at he; rcases he with rfl | rfl <;> simp)

/-- C31 (chunking): two steady readers delivering the same bytes give the same result. -/
theorem C31_chunking (unq : Unquote) (es es' : List ReadEvent) (hs : Steady es) (hs' : Steady es')
    (h : delivered es = delivered es') :
    Dockerfile.fromReader unq es = Dockerfile.fromReader unq es' := by
  unfold Dockerfile.fromReader
  rw [readToEnd_steady es [] hs, readToEnd_steady es' [] hs', h]

example : Dockerfile.fromReader Enquote.unquote [.data [35, 0xc3], .interrupted, .data [0xa9]] =
    Dockerfile.fromReader Enquote.unquote [.data [35], .data [0xc3, 0xa9]] :=
  C31_chunking _ _ _ (by intro e he; simp at he; rcases he with rfl | rfl | rfl <;> simp)
    (by intro e he; simp at he; rcases he with rfl | rfl <;> simp) rfl

/-- C31 (`FromStr`). -/
theorem C31_from_str (unq : Unquote) (s : Str) : Dockerfile.fromStr unq s = Dockerfile.parse unq s :=
  rfl

/-! ## C44: accessors -/

/-- C44: every accessor returns the payload exactly when the instruction is of its kind. -/
theorem C44_accessors (i : Instruction) :
    (∀ x, i.asFrom = some x ↔ i = .from x) ∧ (∀ x, i.asArg = some x ↔ i = .arg x) ∧
    (∀ x, i.asLabel = some x ↔ i = .label x) ∧ (∀ x, i.asRun = some x ↔ i = .run x) ∧
    (∀ x, i.asEntrypoint = some x ↔ i = .entrypoint x) ∧ (∀ x, i.asCmd = some x ↔ i = .cmd x) ∧
    (∀ x, i.asCopy = some x ↔ i = .copy x) ∧ (∀ x, i.asEnv = some x ↔ i = .env x) ∧
    (∀ x, i.asMisc = some x ↔ i = .misc x) := by
  cases i <;> simp [Instruction.asFrom, Instruction.asArg, Instruction.asLabel, Instruction.asRun,
    Instruction.asEntrypoint, Instruction.asCmd, Instruction.asCopy, Instruction.asEnv,
    Instruction.asMisc]

/-- C44 (exactly one): exactly one of the nine accessors succeeds. -/
theorem C44_exactly_one (i : Instruction) :
    ([i.asFrom.isSome, i.asArg.isSome, i.asLabel.isSome, i.asRun.isSome, i.asEntrypoint.isSome,
      i.asCmd.isSome, i.asCopy.isSome, i.asEnv.isSome, i.asMisc.isSome].count true) = 1 := by
  cases i <;> rfl

/-- C44 (`TryFrom`): a conversion yields the accessor's payload, or a conversion error. -/
theorem C44_try_from {α : Type} (acc : Instruction → Option α) (i : Instruction) :
    (∀ x, Instruction.tryInto acc i = .ok x ↔ acc i = some x) ∧
    (acc i = none ↔ Instruction.tryInto acc i = .error (.err .conversion)) := by
  unfold Instruction.tryInto
  cases h : acc i <;> simp

/-- C44 (`span`): the span of an instruction is the span of its payload. -/
theorem C44_span (i : Instruction) :
    (∀ x, i = .from x → i.span = x.span) ∧ (∀ x, i = .arg x → i.span = x.span) ∧
    (∀ x, i = .label x → i.span = x.span) ∧
    (∀ x, i = .run x ∨ i = .entrypoint x ∨ i = .cmd x → i.span = x.span) ∧
    (∀ x, i = .copy x → i.span = x.span) ∧ (∀ x, i = .env x → i.span = x.span) ∧
    (∀ x, i = .misc x → i.span = x.span) := by
  cases i <;> simp [Instruction.span]

example : (Instruction.misc ⟨⟨3, 9⟩, ⟨⟨3, 5⟩, c!"X"⟩, ⟨⟨6, 9⟩, []⟩⟩).span = ⟨3, 9⟩ := rfl

end Verif
