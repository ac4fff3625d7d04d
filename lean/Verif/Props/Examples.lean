import Verif.Proof.SpliceProgram
import Verif.Proof.StagesProgram
import Verif.Props.Debug
import Verif.Props.Loop

/-! # The example programs (C69) -/

namespace Verif
open Spec

variable (plain : Char → Bool)

/-- the image that the program `splice` puts everywhere -/
theorem splice_image : Over IsImageChar c!"splice:test" ∧ DigestOK (ImageRef.parse c!"splice:test") := by
  refine ⟨⟨by simp, ?_⟩, ?_⟩
  · simp [IsImageChar, IsAlpha, IsDigit]
  · intro h e
    rw [show (ImageRef.parse c!"splice:test").hash = none by decide] at e
    cases e

/-! ## how they end -/

theorem fromReader_cases (unq : Unquote) (reader : List ReadEvent) :
    (∃ e, Dockerfile.fromReader unq reader = .error (.err e)) ∨
    ∃ d, Dockerfile.fromReader unq reader = .ok d ∧ Dockerfile.parse unq d.content = .ok d := by
  unfold Dockerfile.fromReader
  split
  · exact .inl ⟨_, rfl⟩
  · split
    · exact .inl ⟨_, rfl⟩
    · rename_i s _
      cases h : Dockerfile.parse unq s with
      | error f =>
        cases f with
        | err e => exact .inl ⟨e, rfl⟩
        | panic => exact absurd h (C01_no_panic unq s)
      | ok d =>
        have e : d.content = s := by
          obtain ⟨l, ms, is, -, rfl, -, rfl⟩ := C51_accepted.1 h
          rfl
        exact .inr ⟨d, rfl, by rw [e]; exact h⟩

/-- what the program `splice` puts in place of the images -/
abbrev spliceEdits (d : Dockerfile) : List Edit := imageEdits c!"splice:test" d

theorem spliceEdits_good {d : Dockerfile} : ∀ e ∈ spliceEdits d,
    (∃ f, .from f ∈ d.instructions ∧ e.1 = f.image.span) ∧ Over IsImageChar e.2 := by
  intro e he
  obtain ⟨f, h1, rfl⟩ := mem_imageEdits.1 he
  exact ⟨⟨f, h1, rfl⟩, splice_image.1⟩

/-- the result of the splicer for an accepted text -/
theorem splice_parsed {unq : Unquote} {s : Str} {d : Dockerfile} (h : Dockerfile.parse unq s = .ok d) :
    spliceRest d = some (simul (spliceEdits d) 0 s ++ c!"\n") ∧
      Dockerfile.parse unq (simul (spliceEdits d) 0 s) = .ok (updated (spliceEdits d) s d) := by
  obtain ⟨sp, h1, h2, h3, -⟩ := C43_both h (spliceEdits d) (imageEdits_nodup h _) spliceEdits_good
  rw [spliceRest_eq, h1, ← h2]
  refine ⟨rfl, h3 fun e he => ?_⟩
  obtain ⟨f, -, rfl⟩ := mem_imageEdits.1 he
  exact splice_image.2

/-- C69 (panics): the programs panic without an argument or when the file cannot be opened, and in no
other case. -/
theorem C69_panic (unq : Unquote) (arg : ExampleArg) :
    (runSplice unq arg = .panic ↔ arg = .missing ∨ arg = .unreadable) ∧
    (runStages plain unq arg = .panic ↔ arg = .missing ∨ arg = .unreadable) := by
  cases arg with
  | missing => simp [runSplice, runStages, runExample]
  | unreadable => simp [runSplice, runStages, runExample]
  | file reader =>
    rcases fromReader_cases unq reader with ⟨e, h⟩ | ⟨d, h, hp⟩
    · simp [runSplice, runStages, runExample, h]
    · obtain ⟨ss, hs, -⟩ := C12_partition d
      simp [runSplice, runStages, runExample, h, (splice_parsed hp).1, stagesRest, hs]

/-- C69 (errors): the programs fail exactly when the file cannot be read as a Dockerfile, with that
error. -/
theorem C69_failed (unq : Unquote) (reader : List ReadEvent) (e : Error) :
    (runSplice unq (.file reader) = .failed e ↔ Dockerfile.fromReader unq reader = .error (.err e)) ∧
    (runStages plain unq (.file reader) = .failed e ↔
      Dockerfile.fromReader unq reader = .error (.err e)) := by
  rcases fromReader_cases unq reader with ⟨e, h⟩ | ⟨d, h, hp⟩
  · simp [runSplice, runStages, runExample, h]
  · obtain ⟨ss, hs, -⟩ := C12_partition d
    simp [runSplice, runStages, runExample, h, (splice_parsed hp).1, stagesRest, hs]

/-! ## `splice` -/

/-- C69 (`splice`): for an accepted text the program prints the text with `splice:test` for the image of
every stage, and a line feed.  Without the line feed, this is a Dockerfile with the same instructions
and these images; its end is open if and only if that of the text is. -/
theorem C69_splice (unq : Unquote) (reader : List ReadEvent) (d : Dockerfile)
    (h : Dockerfile.fromReader unq reader = .ok d) :
    ∃ t d', runSplice unq (.file reader) = .done (t ++ c!"\n") ∧ t = simul (spliceEdits d) 0 d.content ∧
      (OpenEnd t ↔ OpenEnd d.content) ∧ Dockerfile.parse unq t = .ok d' ∧
      d'.bare.instructions = d.bare.instructions.map fun
        | .from f => .from { f with image := { f.image with content := c!"splice:test" },
                                    image_parsed := ImageRef.parse c!"splice:test" }
        | i => i := by
  rcases fromReader_cases unq reader with ⟨e, h'⟩ | ⟨d', h', hp⟩
  · rw [h] at h'; cases h'
  · rw [h] at h'
    cases h'
    obtain ⟨h1, h2⟩ := splice_parsed hp
    refine ⟨_, _, by simp only [runSplice, runExample, h, h1], rfl,
      open_updated hp (imageEdits_nodup hp _) spliceEdits_good, h2, ?_⟩
    obtain ⟨sp, d', g1, g2, g3⟩ := C43_example hp splice_image.1 splice_image.2
    obtain ⟨sp', g4, g5, g6, -⟩ := C43_both hp (spliceEdits d) (imageEdits_nodup hp _) spliceEdits_good
    rw [g1] at g4
    cases g4
    rw [g5, h2] at g2
    cases g2
    exact g3

/-- every image of the new text is `splice:test` -/
theorem updated_images {unq : Unquote} {s : Str} {d : Dockerfile} (h : Dockerfile.parse unq s = .ok d)
    {f : FromInstruction} (hf : .from f ∈ (updated (spliceEdits d) s d).instructions) :
    f.image.content = c!"splice:test" := by
  obtain ⟨i, hi, e⟩ := List.mem_map.1 hf
  cases i
  case «from» g =>
    have hm : (g.image.span, c!"splice:test") ∈ spliceEdits d := mem_imageEdits.2 ⟨g, hi, rfl⟩
    cases hx : (spliceEdits d).find? (fun e => e.1 == g.image.span) with
    | none =>
      have := List.find?_eq_none.1 hx _ hm
      simp at this
    | some x =>
      obtain ⟨g', -, rfl⟩ := mem_imageEdits.1 (List.mem_of_find?_eq_some hx)
      simp only [withImage, hx] at e
      cases e
      rfl
  all_goals cases e

/-- C69 (again): if the end of the text is not open, the program accepts its own output, and changes
nothing but adding a line feed. -/
theorem C69_again (unq : Unquote) (reader reader' : List ReadEvent) (d : Dockerfile) (out : Str)
    (h : Dockerfile.fromReader unq reader = .ok d) (ho : ¬ OpenEnd d.content)
    (hr : runSplice unq (.file reader) = .done out) (hs : Steady reader')
    (he : Encodes out (delivered reader')) :
    runSplice unq (.file reader') = .done (out ++ c!"\n") := by
  rcases fromReader_cases unq reader with ⟨e, h'⟩ | ⟨d', h', hp⟩
  · rw [h] at h'; cases h'
  · rw [h] at h'
    cases h'
    obtain ⟨h1, h2⟩ := splice_parsed hp
    simp only [runSplice, runExample, h, h1] at hr
    cases hr
    have ho' : ¬ OpenEnd (simul (spliceEdits d) 0 d.content) := fun hx =>
      ho ((open_updated hp (imageEdits_nodup hp _) spliceEdits_good).1 hx)
    obtain ⟨d2, h3, h4, -, h5⟩ := C68_final_break ho' h2
    have himg : ∀ f, .from f ∈ d2.instructions → f.image.content = c!"splice:test" := by
      intro f hf
      refine updated_images hp (f := f) ?_
      rcases h5 with h5 | ⟨pre, x, y, e1, e2, hx, -, hy, -⟩
      · rw [← h5]; exact hf
      · rw [e2] at hf
        rw [e1]
        rcases List.mem_append.1 hf with hf | hf
        · exact List.mem_append_left _ hf
        · rw [List.mem_singleton] at hf
          subst hf
          cases x
          case «from» g => exact absurd rfl (hx g)
          all_goals simp [Instruction.remap] at hy
    have h6 : spliceRest d2 = some (d2.content ++ c!"\n") := by
      rw [spliceRest_eq]
      obtain ⟨sp, e1, e2⟩ := splice_still (imageEdits c!"splice:test" d2) (Splicer.ofDockerfile d2)
        (fun o ho => by cases ho) (fun e he => by
          obtain ⟨f, hf, rfl⟩ := mem_imageEdits.1 he
          have := image_slice h3 hf
          rw [himg f hf] at this
          rw [← h4] at this
          exact this)
      rw [e1, Option.map_some, e2]
      rfl
    simp only [runSplice, runExample, C31_from_reader unq reader' _ hs he, h3, h6, h4]

/-- a file with this text, read at once -/
def asFile (s : Str) : List ReadEvent := [.data (s.flatMap String.utf8EncodeChar)]

/-- C69 (the condition is needed): a text whose end is open, for which the program prints a text that it
does not accept. -/
theorem C69_again_open : ∃ (s out : Str), OpenEnd s ∧
    runSplice Enquote.unquote (.file (asFile s)) = .done out ∧
    runSplice Enquote.unquote (.file (asFile out)) = .failed .parseError :=
  ⟨c!"FROM a\nRUN b \\", c!"FROM splice:test\nRUN b \\\n", ⟨c!"FROM a\nRUN b ", [], rfl, fun _ h => by cases h⟩,
    by decide +kernel, by decide +kernel⟩

example : runSplice Enquote.unquote (.file (asFile c!"FROM a AS b\nFROM b\n")) =
    .done c!"FROM splice:test AS b\nFROM splice:test\n\n" := by decide +kernel

/- the second run -/
example : ¬ OpenEnd c!"FROM a AS b\nFROM b\n" ∧
    Steady (asFile c!"FROM splice:test AS b\nFROM splice:test\n\n") ∧
    runSplice Enquote.unquote (.file (asFile c!"FROM splice:test AS b\nFROM splice:test\n\n")) =
      .done c!"FROM splice:test AS b\nFROM splice:test\n\n\n" := by
  refine ⟨openEnd_lf c!"FROM a AS b\nFROM b", ?_, by decide +kernel⟩
  intro e he
  rw [asFile, List.mem_singleton] at he
  subst he
  decide

/-! ## `stages` -/

/-- C69 (`stages`): for an accepted text the program prints one line for each stage and, after it, one
line for each of its instructions, with no other line feeds. -/
theorem C69_stages (unq : Unquote) (reader : List ReadEvent) (d : Dockerfile)
    (h : Dockerfile.fromReader unq reader = .ok d) :
    ∃ ss out, d.stages = some ss ∧ runStages plain unq (.file reader) = .done out ∧
      out = ss.flatMap (fun s => (c!"stage #" ++ decimal s.index ++ c!" (parent: " ++ s.parent.debug plain ++
        c!", root: " ++ s.root.debug plain ++ c!")\n") ++
          s.instructions.flatMap fun i => c!"  " ++ i.debug plain ++ c!"\n") ∧
      out.count '\n' = d.instructions.countP isFrom + (d.instructions.dropWhile fun i => !isFrom i).length := by
  obtain ⟨ss, h1, h2, -, h3⟩ := C12_partition d
  refine ⟨ss, ss.flatMap (stageLines plain), h1,
    by simp only [runStages, runExample, h, stagesRest, h1, Option.map_some], rfl, ?_⟩
  rw [← h3, ← h2]
  clear h1 h2 h3
  induction ss with
  | nil => rfl
  | cons s ss ih =>
    rw [List.flatMap_cons, List.count_append, ih, Dbg.count_stage, List.length_cons, List.flatMap_cons,
      List.length_append]
    omega

theorem stagesLoop_drop (is : List Instruction) :
    stagesLoop is [] 0 = stagesLoop (is.dropWhile fun i => !isFrom i) [] 0 := by
  induction is with
  | nil => rfl
  | cons i is ih =>
    cases i
    case «from» f => rfl
    all_goals exact ih

/-- C69 (what the output tells): two files give the same output if and only if they have the same
instructions from the first `FROM` on, and then the same stages. -/
theorem C69_stages_same (unq : Unquote) (reader reader' : List ReadEvent) (d d' : Dockerfile)
    (h : Dockerfile.fromReader unq reader = .ok d) (h' : Dockerfile.fromReader unq reader' = .ok d') :
    (runStages plain unq (.file reader) = runStages plain unq (.file reader') ↔
      d.instructions.dropWhile (fun i => !isFrom i) = d'.instructions.dropWhile (fun i => !isFrom i)) ∧
    (runStages plain unq (.file reader) = runStages plain unq (.file reader') → d.stages = d'.stages) := by
  have key : runStages plain unq (.file reader) = runStages plain unq (.file reader') ↔
      d.instructions.dropWhile (fun i => !isFrom i) = d'.instructions.dropWhile (fun i => !isFrom i) := by
    obtain ⟨ss, h1, h2, -⟩ := C12_partition d
    obtain ⟨ss', h1', h2', -⟩ := C12_partition d'
    simp only [runStages, runExample, h, h', stagesRest, h1, h1', Option.map_some, ExampleRun.done.injEq]
    constructor
    · intro e
      have e1 := Dbg.stages_inj plain ss ss' e
      have e2 : ss.map (·.instructions) = ss'.map (·.instructions) := by
        have := congrArg (List.map fun x => x.2.2.2) e1
        simpa [List.map_map, Function.comp_def, Dbg.shown] using this
      rw [← h2, ← h2', List.flatMap_def, List.flatMap_def, e2]
    · intro e
      have : d.stages = d'.stages := by
        rw [Dockerfile.stages, Dockerfile.stages, stagesLoop_drop, stagesLoop_drop d'.instructions, e]
      rw [h1, h1'] at this
      cases this
      rfl
  refine ⟨key, fun e => ?_⟩
  rw [Dockerfile.stages, Dockerfile.stages, stagesLoop_drop, stagesLoop_drop d'.instructions, key.1 e]

example : runStages (fun _ => true) Enquote.unquote (.file (asFile c!"ARG x\nFROM a:b AS c\nFROM C\n")) =
    .done (c!"stage #0 (parent: Image(ImageRef { registry: None, image: \"a\", tag: Some(\"b\"), hash: None }), root: Image(ImageRef { registry: None, image: \"a\", tag: Some(\"b\"), hash: None }))\n" ++
      c!"  From(FromInstruction { span: (6, 19), flags: [], image: SpannedString { span: (11, 14), content: \"a:b\" }, image_parsed: ImageRef { registry: None, image: \"a\", tag: Some(\"b\"), hash: None }, index: 0, alias: Some(SpannedString { span: (18, 19), content: \"c\" }) })\n" ++
      c!"stage #1 (parent: Stage(0), root: Image(ImageRef { registry: None, image: \"a\", tag: Some(\"b\"), hash: None }))\n" ++
      c!"  From(FromInstruction { span: (20, 26), flags: [], image: SpannedString { span: (25, 26), content: \"C\" }, image_parsed: ImageRef { registry: None, image: \"C\", tag: None, hash: None }, index: 1, alias: None })\n") := by
  decide +kernel

end Verif
