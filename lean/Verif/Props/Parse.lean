import Verif.Proof.Spans
import Verif.Props.Splicer
import Verif.Props.Image
import Verif.Model.Enquote

/-! # What `Dockerfile::parse` returns (C01, C02, C04-C08, C25, C32, C41, C45-C47, C49, C50) -/

namespace Verif
open Spec

/-- A document used as example below: quotes, continuations, comments, all kinds of
instructions. -/
def sample : Str :=
  c!"ARG v=\"1\"\n # c\nFROM --k=l a:é$v AS b \r\nRUN x \\\n # in\n  y\nCMD [\"a\", 'b']\n" ++
  c!"COPY --f=g s t d\nLABEL a=b \"c d\"=e\nENV k v \\\n w\nENTRYPOINT z\nFOO bar"

def sample2 : Str :=
  c!"ARG v=\"1\"\n # c\nFROM --k=l a:$v AS b \r\nRUN x \\\n # in\n  yé\nCMD [\"a\", 'b']\n" ++
  c!"COPY --f=g s t d\nLABEL a=b \"c d\"=e\nENV k v \\\n w\nENTRYPOINT z\nFOO bar"

/-- the parsed example -/
def sampleDoc : Dockerfile :=
  match Dockerfile.parse Enquote.unquote sample2 with
  | .ok d => d
  | .error _ => ⟨[], [], []⟩

theorem sampleDoc_parse : Dockerfile.parse Enquote.unquote sample2 = .ok sampleDoc := by
  decide +kernel

example : sampleDoc.instructions.length = 9 := by decide +kernel

/- an image with a character outside the alphabet is a syntax error -/
example : Dockerfile.parse Enquote.unquote sample = .error (.err .parseError) := by decide +kernel

/-! ## C01: totality -/

/-- C01: parsing never panics, whatever the unquoting function returns. -/
theorem C01_no_panic (unq : Unquote) (s : Str) : Dockerfile.parse unq s ≠ .error .panic := by
  intro h
  rcases (ens_parse unq s).error_of h with (⟨_, _, _, h⟩ | h | h) | h <;> cases h

/-- C01 (termination): the model's interpreter of the grammar is bounded by fuel; the fuel never
runs out, so the bound does not hide non-termination. -/
theorem C01_fuel (s : Str) : runFuel G.body (s.length + 2) G.dockerfile false 0 s ≠ .oof :=
  runFuel_ne_oof _ _ _ _ _ safe_dockerfile (by omega)

/-! ## C02: kinds of errors -/

/-- C02: the four ways in which parsing can fail. -/
theorem C02_errors (unq : Unquote) (s : Str) (f : Fault) (h : Dockerfile.parse unq s = .error f) :
    f = .err .parseError ∨
    (∃ t e, unq t = .error e ∧ f = .err (.unescape e)) ∨
    f = .err (.generic .digestInvalid) ∨
    f = .err (.generic (.unexpectedToken .comment)) := by
  rcases (ens_parse unq s).error_of h with (h | h | h) | h
  · exact .inr (.inl h)
  · exact .inr (.inr (.inl h))
  · exact .inr (.inr (.inr h))
  · exact .inl h

/- each of the four occurs -/
example : Dockerfile.parse Enquote.unquote c!"RUN" = .error (.err .parseError) := by
  decide +kernel
example : Dockerfile.parse Enquote.unquote c!"RUN [\"\\\n\"]" =
    .error (.err (.unescape .unrecognizedEscape)) := by decide +kernel
example : Dockerfile.parse Enquote.unquote c!"FROM a@sha256:0" =
    .error (.err (.generic .digestInvalid)) := by decide +kernel
example : Dockerfile.parse Enquote.unquote c!"RUN \\\n#c\nx" =
    .error (.err (.generic (.unexpectedToken .comment))) := by decide +kernel

/-! ## C08: all text is accounted for -/

/-- C08: the input is made of items separated by line breaks and surrounded by blanks; an item is
nothing, a comment, or the text of an instruction, and the parsed instructions are these, in
order.  In particular the text outside the instructions consists of blanks, line breaks and
comments only. -/
theorem C08_document (unq : Unquote) (s : Str) (d : Dockerfile)
    (h : Dockerfile.parse unq s = .ok d) : DocText unq 0 s d.instructions :=
  ((ens_parse unq s).ok_of h).2.1

example : DocText Enquote.unquote 0 sample2 sampleDoc.instructions :=
  C08_document _ _ _ sampleDoc_parse

/-! ## C04: spans -/

/-- C04: every span of a parsed document is a non-empty range of its text on character
boundaries. -/
theorem C04_spans_valid (unq : Unquote) (s : Str) (d : Dockerfile)
    (h : Dockerfile.parse unq s = .ok d) (i : Instruction) (hi : i ∈ d.instructions) (sp : Span)
    (hsp : sp ∈ spansOf i) : ∃ t, SliceOf s sp t ∧ t ≠ [] := by
  obtain ⟨n, hn, rfl⟩ := inside_span (unq := unq) hsp
  obtain ⟨t, h1, h2, _⟩ := docText_node (C08_document unq s d h) hi hn
  exact ⟨t, h1, h2⟩

/- a span of the example, and the text at it -/
example : (∃ i ∈ sampleDoc.instructions, (⟨52, 57⟩ : Span) ∈ spansOf i) ∧
    SliceOf sample2 ⟨52, 57⟩ c!"  yé" :=
  ⟨by decide +kernel, sample2.take 52, sample2.drop 56, by decide +kernel, by decide +kernel,
    by decide +kernel⟩

/-- C04 (numbers): `start < end <= content.len()`. -/
theorem C04_span_bounds (unq : Unquote) (s : Str) (d : Dockerfile)
    (h : Dockerfile.parse unq s = .ok d) (i : Instruction) (hi : i ∈ d.instructions) (sp : Span)
    (hsp : sp ∈ spansOf i) : sp.start < sp.stop ∧ sp.stop ≤ blen d.content := by
  obtain ⟨t, ⟨a, c, e, h1, h2⟩, h3⟩ := C04_spans_valid unq s d h i hi sp hsp
  have := blen_pos h3
  rw [((ens_parse unq s).ok_of h).1, e, h1, h2]
  simp only [blen_append]
  omega

example : ∃ i ∈ sampleDoc.instructions, (⟨134, 141⟩ : Span) ∈ spansOf i ∧
    141 = blen sampleDoc.content := by decide +kernel

/-- the same for the spans of the global args, which are instructions too -/
theorem C04_global_args (unq : Unquote) (s : Str) (d : Dockerfile)
    (h : Dockerfile.parse unq s = .ok d) (a : ArgInstruction) (ha : a ∈ d.global_args) :
    .arg a ∈ d.instructions := by
  obtain ⟨-, st, inv, h1, h2⟩ := parse_ok_inv h
  rw [h1, inv.args] at ha
  rw [h2]
  generalize st.instructions = is at ha
  induction is with
  | nil => cases ha
  | cons i is ih =>
    cases i with
    | arg b =>
      simp only [argsBeforeFrom, List.mem_cons] at ha
      rcases ha with rfl | ha
      · simp
      · exact List.mem_cons_of_mem _ (ih ha)
    | «from» f => cases ha
    | _ => exact List.mem_cons_of_mem _ (ih ha)

example : ∃ i ∈ sampleDoc.instructions, (spansOf i).length = 5 ∧
    (⟨52, 57⟩ : Span) ∈ spansOf i := by decide +kernel

/-! ## C05: instructions are in order -/

/-- C05: between two instructions there is a line break. -/
theorem C05_instructions_in_order (unq : Unquote) (s : Str) (d : Dockerfile)
    (h : Dockerfile.parse unq s = .ok d) (pre mid post : List Instruction) (i j : Instruction)
    (hs : d.instructions = pre ++ i :: (mid ++ j :: post)) :
    i.span.stop < j.span.start ∧
    ∃ a g c, s = a ++ g ++ c ∧ blen a = i.span.stop ∧ blen (a ++ g) = j.span.start ∧
      ('\n' ∈ g ∨ '\r' ∈ g) := by
  have hd := C08_document unq s d h
  obtain ⟨a, t, w, r, rfl, _, hc, hr⟩ := docText_split hd hs
  rcases hr with ⟨_, hr⟩ | ⟨n, r', rfl, hn, hr⟩
  · simp at hr
  obtain ⟨a', t', w', r'', rfl, _, hc', _⟩ := docText_split hr rfl
  obtain ⟨_, e1, _⟩ := covers_sits hc
  obtain ⟨_, e2, _⟩ := covers_sits hc'
  rw [tree_span] at e1 e2
  have hnl : '\n' ∈ n ∨ '\r' ∈ n := by
    rcases hn with rfl | rfl | ⟨rfl, _⟩ <;> simp
  have hpos : 0 < blen n := blen_pos (by rintro rfl; simp at hnl)
  rw [e1, e2]
  simp only [blen_nil]
  refine ⟨by omega, a ++ t, w ++ n ++ a', t' ++ w' ++ r'', by simp, ?_, ?_, ?_⟩
  · simp only [blen_append]; omega
  · simp only [blen_append]; omega
  · rcases hnl with h | h
    · exact .inl (by simp [h])
    · exact .inr (by simp [h])

example : sampleDoc.instructions.map Instruction.span =
    [⟨0, 9⟩, ⟨15, 35⟩, ⟨38, 57⟩, ⟨58, 72⟩, ⟨73, 89⟩, ⟨90, 107⟩, ⟨108, 120⟩, ⟨121, 133⟩,
     ⟨134, 141⟩] := by
  decide +kernel

/-! ## C06: fields nest -/

/-- C06: every span of an instruction lies in the instruction's span. -/
theorem C06_fields_within (unq : Unquote) (s : Str) (d : Dockerfile)
    (h : Dockerfile.parse unq s = .ok d) (i : Instruction) (hi : i ∈ d.instructions) (sp : Span)
    (hsp : sp ∈ spansOf i) : Within sp i.span := by
  obtain ⟨n, hn, rfl⟩ := inside_span (unq := unq) hsp
  exact docText_within (C08_document unq s d h) hi hn

example : ∃ i ∈ sampleDoc.instructions, i.span = ⟨15, 35⟩ ∧ (⟨26, 30⟩ : Span) ∈ spansOf i ∧
    (⟨34, 35⟩ : Span) ∈ spansOf i := by decide +kernel

/-- C06 (siblings): the fields of an instruction are in the order of the text and disjoint. -/
theorem C06_fields_ordered (unq : Unquote) (s : Str) (d : Dockerfile)
    (h : Dockerfile.parse unq s = .ok d) (i : Instruction) (hi : i ∈ d.instructions) :
    (topSpans i).Pairwise (fun a b => a.stop ≤ b.start) := by
  rw [topSpans_eq unq]
  exact List.pairwise_map.2 (docText_kids (C08_document unq s d h) hi .self).1

example : ∃ i ∈ sampleDoc.instructions, topSpans i = [⟨20, 25⟩, ⟨26, 30⟩, ⟨34, 35⟩] := by
  decide +kernel

/-- C06 (second level): name and value of flags, labels and variables, elements of arrays and
components of strings lie in their parent, in the order of the text and disjoint. -/
theorem C06_subfields_ordered (unq : Unquote) (s : Str) (d : Dockerfile)
    (h : Dockerfile.parse unq s = .ok d) (i : Instruction) (hi : i ∈ d.instructions)
    (g : Span × List Span) (hg : g ∈ subSpans i) :
    g.2.Pairwise (fun a b => a.stop ≤ b.start) ∧ ∀ sp ∈ g.2, Within sp g.1 := by
  obtain ⟨n, hn, e1, e2⟩ := inside_sub (unq := unq) hg
  have := docText_kids (C08_document unq s d h) hi hn
  rw [← e2, ← e1]
  refine ⟨List.pairwise_map.2 this.1, fun sp hsp => ?_⟩
  obtain ⟨m, hm, rfl⟩ := List.mem_map.1 hsp
  exact this.2 m hm

example : ∃ i ∈ sampleDoc.instructions, (⟨20, 25⟩, [⟨22, 23⟩, ⟨24, 25⟩]) ∈ subSpans i := by
  decide +kernel

/-! ## C07: contents -/

/-- C07: names, values, images, aliases, paths, words: the content is the text at the span, unless
that starts with a quote; then the content is its unquoting. -/
theorem C07_plain_strings (unq : Unquote) (s : Str) (d : Dockerfile)
    (h : Dockerfile.parse unq s = .ok d) (i : Instruction) (hi : i ∈ d.instructions)
    (f : SpannedString) (hf : f ∈ plainStrings i) :
    ∃ t, SliceOf s f.span t ∧ Reads unq t f.content := by
  obtain ⟨t, h1, _, h2⟩ := docText_node (C08_document unq s d h) hi (inside_plain (unq := unq) hf)
  exact ⟨t, h1, h2⟩

example : ∃ i ∈ sampleDoc.instructions, (⟨⟨6, 9⟩, c!"1"⟩ : SpannedString) ∈ plainStrings i := by
  decide +kernel

/-- C07 (labels): the same for names and values of labels, after deleting backslash-newline
pairs from a quoted text. -/
theorem C07_label_strings (unq : Unquote) (s : Str) (d : Dockerfile)
    (h : Dockerfile.parse unq s = .ok d) (i : Instruction) (hi : i ∈ d.instructions)
    (f : SpannedString) (hf : f ∈ labelStrings i) :
    ∃ t, SliceOf s f.span t ∧ LabelReads unq t f.content := by
  obtain ⟨t, h1, _, h2⟩ := docText_node (C08_document unq s d h) hi (inside_label (unq := unq) hf)
  exact ⟨t, h1, h2⟩

example : ∃ i ∈ sampleDoc.instructions, (⟨⟨100, 105⟩, c!"c d"⟩ : SpannedString) ∈ labelStrings i := by
  decide +kernel

/-- C07 (shell text): components of shell text are verbatim and on one line. -/
theorem C07_shell_components (unq : Unquote) (s : Str) (d : Dockerfile)
    (h : Dockerfile.parse unq s = .ok d) (i : Instruction) (hi : i ∈ d.instructions)
    (b : BreakableString) (hb : b ∈ shells i) :
    (∀ f, .string f ∈ b.components →
      SliceOf s f.span f.content ∧ ∀ c ∈ f.content, c ≠ '\n' ∧ c ≠ '\r') ∧
    (∀ f, .comment f ∈ b.components → SliceOf s f.span f.content ∧ CommentText f.content) := by
  have hin := inside_shell (unq := unq) hb
  refine ⟨fun f hf => ?_, fun f hf => ?_⟩
  · obtain ⟨t, h1, _, h2, h3⟩ := docText_node (C08_document unq s d h) hi
      (Inside.trans (.child (List.mem_map_of_mem hf) .self) hin)
    rw [h2]
    exact ⟨h1, fun c hc => isBreak_false.1 (h3 c hc)⟩
  · obtain ⟨t, h1, _, h2, ⟨r, h3⟩, h4⟩ := docText_node (C08_document unq s d h) hi
      (Inside.trans (.child (List.mem_map_of_mem hf) .self) hin)
    rw [← h2]
    exact ⟨h1, r, h3, fun c hc => isBreak_false.1 (h4 c (by rw [h3]; exact List.mem_cons_of_mem _ hc))⟩

example : ∃ i ∈ sampleDoc.instructions, ∃ b ∈ shells i, b.components =
    [.string ⟨⟨42, 44⟩, c!"x "⟩, .comment ⟨⟨47, 51⟩, c!"# in"⟩, .string ⟨⟨52, 57⟩, c!"  yé"⟩] := by
  decide +kernel

/-- C07 (values of `ENV`): a component of a value is verbatim, or the unquoting of quoted text;
and the value as a whole is the unquoting of its quoted text, or its text, or its text without
continuations and comments. -/
theorem C07_env_values (unq : Unquote) (s : Str) (d : Dockerfile)
    (h : Dockerfile.parse unq s = .ok d) (i : Instruction) (hi : i ∈ d.instructions)
    (b : BreakableString) (hb : b ∈ envValues i) :
    (∃ t, SliceOf s b.span t ∧
      ((Quoted t ∧ unq t = .ok b.display) ∨ b.display = t ∨ b.display = stripShell t)) ∧
    (∀ f, .string f ∈ b.components → ∃ t, SliceOf s f.span t ∧
      (f.content = t ∨ (Quoted t ∧ unq t = .ok f.content))) ∧
    (∀ f, .comment f ∈ b.components → SliceOf s f.span f.content ∧ CommentText f.content) := by
  have hin := inside_envValue (unq := unq) hb
  refine ⟨?_, fun f hf => ?_, fun f hf => ?_⟩
  · obtain ⟨t, h1, _, h2⟩ := docText_node (C08_document unq s d h) hi hin
    exact ⟨t, h1, h2⟩
  · obtain ⟨t, h1, _, h2⟩ := docText_node (C08_document unq s d h) hi
      (Inside.trans (.child (List.mem_map_of_mem hf) .self) hin)
    exact ⟨t, h1, h2⟩
  · obtain ⟨t, h1, _, h2, ⟨r, h3⟩, h4⟩ := docText_node (C08_document unq s d h) hi
      (Inside.trans (.child (List.mem_map_of_mem hf) .self) hin)
    rw [← h2]
    exact ⟨h1, r, h3, fun c hc => isBreak_false.1 (h4 c (by rw [h3]; exact List.mem_cons_of_mem _ hc))⟩

example : ∃ i ∈ sampleDoc.instructions, ∃ b ∈ envValues i, b.components =
    [.string ⟨⟨114, 116⟩, c!"v "⟩, .string ⟨⟨118, 120⟩, c!" w"⟩] := by decide +kernel

/-- Why the values of `ENV` are not covered by `C07_plain_strings`: a value starting with a quote
that is not closed is taken verbatim. -/
theorem C07_env_unterminated :
    (match Dockerfile.parse Enquote.unquote c!"ENV a=\"b" with
     | .ok d => d.instructions.flatMap envValues |>.map BreakableString.display
     | .error _ => []) = [c!"\"b"] := by decide +kernel

example : (sampleDoc.instructions.flatMap plainStrings).map SpannedString.content =
    [c!"v", c!"1", c!"k", c!"l", c!"a:$v", c!"b", c!"f", c!"g", c!"s", c!"t", c!"d", c!"k",
     c!"FOO"] := by decide +kernel
example : (sampleDoc.instructions.flatMap labelStrings).map SpannedString.content =
    [c!"a", c!"b", c!"c d", c!"e"] := by decide +kernel
example : (sampleDoc.instructions.flatMap shells).map (·.components.length) = [3, 1, 1] := by
  decide +kernel
example : (sampleDoc.instructions.flatMap envValues).map BreakableString.display = [c!"v  w"] := by
  decide +kernel

/-! ## C25: splicing what the parser returns -/

/-- C25: splicing any pairwise disjoint spans of a parsed document, in any order, does not panic
and replaces exactly these spans. -/
theorem C25_splice_parsed (unq : Unquote) (s : Str) (d : Dockerfile)
    (h : Dockerfile.parse unq s = .ok d) (es : List Edit)
    (hes : ∀ e ∈ es, ∃ i ∈ d.instructions, e.1 ∈ spansOf i)
    (hd : es.Pairwise (fun e f => Disjoint e.1 f.1)) :
    ∃ sp, (Splicer.ofDockerfile d).spliceAll es = some sp ∧ sp.content = simul es 0 s := by
  have e : Splicer.ofDockerfile d = Splicer.fromStr s := by
    rw [← ((ens_parse unq s).ok_of h).1]; rfl
  rw [e]
  refine C22_disjoint_splices s es (fun e he => ?_) hd
  obtain ⟨i, hi, hsp⟩ := hes e he
  obtain ⟨t, h1, _⟩ := C04_spans_valid unq s d h i hi e.1 hsp
  exact ⟨⟨t, h1⟩, (C04_span_bounds unq s d h i hi e.1 hsp).1⟩

example : (∀ e ∈ ([(⟨82, 83⟩, c!"long"), (⟨26, 30⟩, c!"x"), (⟨52, 57⟩, [])] : List Edit),
      ∃ i ∈ sampleDoc.instructions, e.1 ∈ spansOf i) ∧
    ([(⟨82, 83⟩, c!"long"), (⟨26, 30⟩, c!"x"), (⟨52, 57⟩, [])] : List Edit).Pairwise
      (fun e f => Disjoint e.1 f.1) :=
  ⟨by decide +kernel, by simp [Disjoint]⟩

/-- C25 (all fields at once): the direct fields of all instructions may be spliced together. -/
theorem C25_fields_disjoint (unq : Unquote) (s : Str) (d : Dockerfile)
    (h : Dockerfile.parse unq s = .ok d) (i : Instruction) (hi : i ∈ d.instructions) :
    (topSpans i).Pairwise Disjoint :=
  (C06_fields_ordered unq s d h i hi).imp fun h => .inl h

example : ∃ i ∈ sampleDoc.instructions, topSpans i = [⟨78, 83⟩, ⟨84, 85⟩, ⟨86, 87⟩, ⟨88, 89⟩] := by
  decide +kernel

example : ((Splicer.ofDockerfile sampleDoc).spliceAll
    [(⟨82, 83⟩, c!"long"), (⟨26, 30⟩, c!"x"), (⟨52, 57⟩, [])]).map Splicer.content = some
  (c!"ARG v=\"1\"\n # c\nFROM --k=l x AS b \r\nRUN x \\\n # in\n\nCMD [\"a\", 'b']\n" ++
   c!"COPY --f=long s t d\nLABEL a=b \"c d\"=e\nENV k v \\\n w\nENTRYPOINT z\nFOO bar") := by
  decide +kernel

/-! ## C32: shell text -/

/-- C32: shell text is the source text without continuations and comment lines, its components
are the pieces in between and the comments, in order, and it has no line break. -/
theorem C32_shell_text (unq : Unquote) (s : Str) (d : Dockerfile)
    (h : Dockerfile.parse unq s = .ok d) (i : Instruction) (hi : i ∈ d.instructions)
    (b : BreakableString) (hb : b ∈ shells i) :
    ∃ t, SliceOf s b.span t ∧ b.display = stripShell t ∧
      b.components.map pieceOf = shellPieces t ∧ ∀ c ∈ b.display, c ≠ '\n' ∧ c ≠ '\r' := by
  obtain ⟨t, h1, _, h2, h3⟩ := docText_node (C08_document unq s d h) hi
    (inside_shell (unq := unq) hb)
  refine ⟨t, h1, h2, h3, ?_⟩
  have hc := (C07_shell_components unq s d h i hi b hb).1
  intro c hcm
  simp only [BreakableString.display, List.mem_flatMap] at hcm
  obtain ⟨comp, hcomp, hcm⟩ := hcm
  cases comp with
  | string f => exact (hc f hcomp).2 c hcm
  | comment f => cases hcm

example : stripShell c!"x \\\n # in\n  y" = c!"x   y" ∧
    shellPieces c!"x \\\n # in\n  y" = [.text c!"x ", .comment c!"# in", .text c!"  y"] := by
  exact ⟨rfl, rfl⟩

/-! ## C45: exec form -/

/-- C45: an exec-form array is written in brackets and its elements are the unquotings of the
quoted texts at their spans. -/
theorem C45_exec_form (unq : Unquote) (s : Str) (d : Dockerfile)
    (h : Dockerfile.parse unq s = .ok d) (i : Instruction) (hi : i ∈ d.instructions)
    (a : StringArray) (ha : a ∈ arrays i) :
    (∃ m, SliceOf s a.span ('[' :: m ++ [']'])) ∧
    ∀ e ∈ a.elements, ∃ t, SliceOf s e.span t ∧ Quoted t ∧ unq t = .ok e.content := by
  have hin := inside_array (unq := unq) ha
  refine ⟨?_, fun e he => ?_⟩
  · obtain ⟨t, h1, _, m, rfl⟩ := docText_node (C08_document unq s d h) hi hin
    exact ⟨m, h1⟩
  · obtain ⟨t, h1, _, h2⟩ := docText_node (C08_document unq s d h) hi
      (Inside.trans (.child (List.mem_map_of_mem he) .self) hin)
    exact ⟨t, h1, h2⟩

example : (sampleDoc.instructions.flatMap arrays).map (fun a => a.elements.map (·.content)) =
    [[c!"a", c!"b"]] := by decide +kernel

/-! ## C46: COPY -/

/-- C46: `COPY` has a source, sources come before the destination, flags before both. -/
theorem C46_copy (unq : Unquote) (s : Str) (d : Dockerfile)
    (h : Dockerfile.parse unq s = .ok d) (c : CopyInstruction) (hc : .copy c ∈ d.instructions) :
    c.sources ≠ [] ∧
    (∀ p ∈ c.sources, p.span.stop ≤ c.destination.span.start) ∧
    (∀ f ∈ c.flags, ∀ p ∈ c.sources ++ [c.destination], f.span.stop ≤ p.span.start) := by
  have h1 := C06_fields_ordered unq s d h _ hc
  simp only [topSpans, List.pairwise_append] at h1
  obtain ⟨_, ⟨_, _, h2⟩, h3⟩ := h1
  refine ⟨(((ens_parse unq s).ok_of h).2.2 _ hc).2, fun p hp => ?_, fun f hf p hp => ?_⟩
  · exact h2 _ (List.mem_map_of_mem hp) _ (by simp)
  · refine h3 _ (List.mem_map_of_mem hf) _ ?_
    rcases List.mem_append.1 hp with hp | hp
    · exact List.mem_append_left _ (List.mem_map_of_mem hp)
    · rw [List.mem_singleton.1 hp]; simp

example : (match sampleDoc.instructions with
    | [_, _, _, _, .copy c, _, _, _, _] => c.sources.map (·.content)
    | _ => []) = [c!"s", c!"t"] := by decide +kernel

/-! ## C47: keywords -/

/-- the keyword of an instruction, in lower case -/
def keywordOf : Instruction → Option Str
  | .from _ => some c!"from"
  | .arg _ => some c!"arg"
  | .label _ => some c!"label"
  | .run _ => some c!"run"
  | .entrypoint _ => some c!"entrypoint"
  | .cmd _ => some c!"cmd"
  | .copy _ => some c!"copy"
  | .env _ => some c!"env"
  | .misc _ => none

/-- C47: the text of an instruction starts with its keyword in some casing, followed by a blank
or a line continuation; the text of a misc instruction starts with its word, which is a maximal
non-empty run of letters. -/
theorem C47_keyword (unq : Unquote) (s : Str) (d : Dockerfile)
    (h : Dockerfile.parse unq s = .ok d) (i : Instruction) (hi : i ∈ d.instructions) :
    ∃ t, SliceOf s i.span t ∧ (∀ w, keywordOf i = some w → StartsWithKeyword w t) ∧
      ∀ m, i = .misc m → ∃ r, t = m.instruction.content ++ r ∧ m.instruction.content ≠ [] ∧
        (∀ c ∈ m.instruction.content, IsAlpha c) ∧ ∀ c r', r = c :: r' → ¬ IsAlpha c := by
  obtain ⟨t, h1, _, h2⟩ := docText_node (C08_document unq s d h) hi .self
  rw [tree_span] at h1
  refine ⟨t, h1, ?_, ?_⟩
  · intro w hw
    cases i <;> simp only [keywordOf, Option.some.injEq, reduceCtorEq] at hw <;> subst hw <;> exact h2
  · rintro m rfl
    exact h2

/- the keywords of `sampleDoc` -/
example : sampleDoc.instructions.map keywordOf =
    [some c!"arg", some c!"from", some c!"run", some c!"cmd", some c!"copy", some c!"label",
     some c!"env", some c!"entrypoint", none] := by decide +kernel

/-! ## C49: image references of FROM -/

/-- C49: `image_parsed` is the parse of the image text. -/
theorem C49_image_parsed (unq : Unquote) (s : Str) (d : Dockerfile)
    (h : Dockerfile.parse unq s = .ok d) (f : FromInstruction) (hf : .from f ∈ d.instructions) :
    f.image_parsed = ImageRef.parse f.image.content :=
  (((ens_parse unq s).ok_of h).2.2 _ hf).2.1

example : ∃ f ∈ sampleDoc.instructions.filterMap Instruction.asFrom, f.image.content = c!"a:$v" ∧
    f.image_parsed = ⟨none, c!"a", some c!"$v", none⟩ := by decide +kernel

/-! ## C41: digests -/

/-- hexadecimal digits -/
def HexDigit (c : Char) : Prop :=
  ('0' ≤ c ∧ c ≤ '9') ∨ ('a' ≤ c ∧ c ≤ 'f') ∨ ('A' ≤ c ∧ c ≤ 'F')

/-- C41 (full statement, false of the code): the digest of an accepted image is `sha256:` followed
by 64 hexadecimal digits. -/
def C41_statement : Prop :=
  ∀ (unq : Unquote) (s : Str) (d : Dockerfile), Dockerfile.parse unq s = .ok d →
    ∀ f, .from f ∈ d.instructions → ∀ g, f.image_parsed.hash = some g →
      ∃ x, g = c!"sha256:" ++ x ∧ x.length = 64 ∧ ∀ c ∈ x, HexDigit c

def notHex : Str :=
  c!"FROM a@sha256:0zzzzzzzzzzzzzzzzzzzzzzzzzzzzzzzzzzzzzzzzzzzzzzzzzzzzzzzzzzzzzzz"

def notHexDoc : Dockerfile :=
  match Dockerfile.parse Enquote.unquote notHex with
  | .ok d => d
  | .error _ => ⟨[], [], []⟩

/-- C41 fails: the check is not anchored. -/
theorem C41_not_hex : ¬ C41_statement := by
  intro h
  have h1 : Dockerfile.parse Enquote.unquote notHex = .ok notHexDoc := by decide +kernel
  have h2 : ∃ f, .from f ∈ notHexDoc.instructions ∧ f.image_parsed.hash =
      some c!"sha256:0zzzzzzzzzzzzzzzzzzzzzzzzzzzzzzzzzzzzzzzzzzzzzzzzzzzzzzzzzzzzzzz" := by
    refine ⟨⟨⟨0, 78⟩, [], ⟨⟨5, 78⟩, c!"a@sha256:0zzzzzzzzzzzzzzzzzzzzzzzzzzzzzzzzzzzzzzzzzzzzzzzzzzzzzzzzzzzzzzz"⟩, ?_, 0, none⟩, ?_, ?_⟩
    · exact ImageRef.parse c!"a@sha256:0zzzzzzzzzzzzzzzzzzzzzzzzzzzzzzzzzzzzzzzzzzzzzzzzzzzzzzzzzzzzzzz"
    · decide +kernel
    · decide +kernel
  obtain ⟨f, hf, hg⟩ := h2
  obtain ⟨x, e, _, hx⟩ := h _ _ _ h1 f hf _ hg
  have : 'z' ∈ x := by
    have e' : c!"sha256:" ++ c!"0zzzzzzzzzzzzzzzzzzzzzzzzzzzzzzzzzzzzzzzzzzzzzzzzzzzzzzzzzzzzzzz" =
        c!"sha256:" ++ x := e
    rw [← List.append_cancel_left e']; decide
  have := hx _ this
  revert this
  unfold HexDigit
  decide

theorem splitOn_flat (c : Char) (s : Str) :
    ∃ x xs, splitOn c s = x :: xs ∧ s = x ++ xs.flatMap (c :: ·) ∧ ∀ y ∈ x :: xs, c ∉ y := by
  induction s with
  | nil => exact ⟨[], [], rfl, rfl, by simp⟩
  | cons d ds ih =>
    obtain ⟨x, xs, h1, h2, h3⟩ := ih
    simp only [splitOn, h1]
    by_cases hd : d = c
    · refine ⟨[], x :: xs, by simp [hd], ?_, ?_⟩
      · simp [hd, ← h2]
      · intro y hy
        rcases List.mem_cons.1 hy with rfl | hy
        · simp
        · exact h3 y hy
    · refine ⟨d :: x, xs, by simp [hd], by simp [← h2], ?_⟩
      intro y hy
      rcases List.mem_cons.1 hy with rfl | hy
      · simp only [List.mem_cons, not_or]
        exact ⟨fun h => hd h.symm, h3 x (by simp)⟩
      · exact h3 y (by simp [hy])

theorem isHexChar_iff {c : Char} : isHexChar c = true ↔ HexDigit c := by
  simp [isHexChar, HexDigit, or_assoc]

theorem checkDigest_hash {r : ImageRef} {g : Str} (h : checkDigest r = true)
    (hg : r.hash = some g) :
    ∃ x, g = c!"sha256:" ++ x ∧ ':' ∉ x ∧ blen x = 64 ∧ ∃ c ∈ x, HexDigit c := by
  obtain ⟨a, xs, h1, h2, h3⟩ := splitOn_flat ':' g
  simp only [checkDigest, hg, h1] at h
  match xs, h1, h2, h3, h with
  | [x], _, h2, h3, h =>
    simp only [Bool.and_eq_true, beq_iff_eq, List.any_eq_true] at h
    obtain ⟨ha, ⟨c, hc, hx⟩, hl⟩ := h
    subst ha
    exact ⟨x, by simpa using h2, h3 x (by simp), hl, c, hc, isHexChar_iff.1 hx⟩

/-- every character of an image is one byte -/
theorem image_char_size {c : Char} (h : IsImageChar c) : c.utf8Size = 1 := by
  have h2 : c.val ≤ 127 := by
    rcases h with (⟨_, h⟩ | ⟨_, h⟩) | ⟨_, h⟩ | h | h | h | h | h | h | h | h | h
    · exact UInt32.le_trans h (by decide)
    · exact UInt32.le_trans h (by decide)
    · exact UInt32.le_trans h (by decide)
    all_goals subst h; decide
  simp [Char.utf8Size, h2]

theorem blen_image {x : Str} (h : ∀ c ∈ x, IsImageChar c) : blen x = x.length := by
  induction x with
  | nil => rfl
  | cons c x ih =>
    have h1 := image_char_size (h c (by simp))
    have h2 := ih fun d hd => h d (by simp [hd])
    simp only [blen_cons, h1, h2, List.length_cons]
    omega

/-- the hash is a part of the image text -/
theorem hash_mem {s g : Str} {c : Char} (h : (ImageRef.parse s).hash = some g) (hc : c ∈ g) :
    c ∈ s := by
  have h1 := C19_tag_hash_exclusive s
  rw [h] at h1
  have h2 := C18_display_parse s
  rw [← h2, display_eq]
  have ht : (ImageRef.parse s).tag = none := by simpa using h1
  simp [h, ht, suffixText, hc]

/-- C41, the part that holds: the digest of an accepted image is `sha256:` followed by exactly 64
characters of the image alphabet without colon, *one* of them (instead of all, see `C41_not_hex`)
a hexadecimal digit. -/
theorem C41_digest_partial (unq : Unquote) (s : Str) (d : Dockerfile)
    (h : Dockerfile.parse unq s = .ok d) (f : FromInstruction) (hf : .from f ∈ d.instructions)
    (g : Str) (hg : f.image_parsed.hash = some g) :
    ∃ x, g = c!"sha256:" ++ x ∧ x.length = 64 ∧ (∀ c ∈ x, IsImageChar c ∧ c ≠ ':') ∧
      ∃ c ∈ x, HexDigit c := by
  obtain ⟨hl, hp, hc⟩ := ((ens_parse unq s).ok_of h).2.2 _ hf
  obtain ⟨x, e, hx, hb, hh⟩ := checkDigest_hash hc hg
  have hi : ∀ c ∈ x, IsImageChar c := by
    intro c hcx
    refine hl.2.1.2 c (hash_mem (g := g) (by rw [← hp]; exact hg) ?_)
    rw [e]; exact List.mem_append_right _ hcx
  refine ⟨x, e, by rw [← blen_image hi]; exact hb, fun c hcx => ⟨hi c hcx, ?_⟩, hh⟩
  rintro rfl; exact hx hcx

/- hypotheses met: the digest of `notHexDoc` -/
example : Dockerfile.parse Enquote.unquote notHex = .ok notHexDoc ∧
    (match notHexDoc.instructions with
     | [.from f] => f.image_parsed.hash.isSome
     | _ => false) = true := by decide +kernel

/-! ## C50: lexical classes -/

/-- C50: flag names and misc words are non-empty runs of letters, images, aliases and `ENV` keys are
non-empty runs of their documented alphabets, `ARG` names are a letter followed by letters, digits
and underscores. -/
theorem C50_lexical (unq : Unquote) (s : Str) (d : Dockerfile)
    (h : Dockerfile.parse unq s = .ok d) (i : Instruction) (hi : i ∈ d.instructions) : Lexical i :=
  (((ens_parse unq s).ok_of h).2.2 _ hi).1

/- `sampleDoc` has instructions of all the kinds concerned -/
example : (match sampleDoc.instructions with
    | [.arg a, .from f, .run _, .cmd _, .copy c, .label _, .env e, .entrypoint _, .misc m] =>
      [a.name.content, f.image.content, c.destination.content, m.instruction.content] ++
        (e.vars.map (·.key.content)) ++ (f.flags ++ c.flags).map (·.name.content)
    | _ => []) = [c!"v", c!"a:$v", c!"d", c!"FOO", c!"k", c!"k", c!"f"] := by decide +kernel

end Verif
