import Verif.Proof.Plain

/-! # Round trips: what is written down is read back (C35-C40) -/

namespace Verif
open Spec

/-! ## any layout -/

/-- C40: a document written line by line, each line with any layout, is read back exactly. -/
theorem C40_roundtrip {unq : Unquote} {l : LineText} {ms : List (Str × LineText)}
    (h : DocOK unq l ms) :
    Dockerfile.parse unq (docText l ms) =
      .ok (documentOf (docText l ms) (docInstrs 0 l ms)) :=
  parse_docText h

/-- C40, one line: `i` with blanks around it. -/
theorem C40_single_line {unq : Unquote} {w t : Str} {i : Item} (hw : Blanks w) (ht : Blanks t)
    (h : i.OK unq) (hg : i.Greedy → t = []) :
    Dockerfile.parse unq (w ++ (i.text ++ t)) =
      .ok (documentOf (w ++ (i.text ++ t)) (i.instr (blen w)).toList) :=
  lineText_doc hw ht h hg

example : Blanks c!" \t" ∧ (Item.comment c!"# é").OK Enquote.unquote ∧ ¬ (Item.blank).Greedy := by
  refine ⟨by intro c hc; simp at hc; rcases hc with rfl | rfl <;> simp, ⟨c!" é", rfl, by decide⟩, ?_⟩
  simp [Item.Greedy]

/-! ## C35 -/

/-- C35: `FROM [--k=v ...] image [AS alias]` -/
theorem C35_from {unq : Unquote} {flags : List (Str × Str)} {image : Str} {alias : Option Str}
    (hf : ∀ f ∈ flags, (f.1 ≠ [] ∧ ∀ c ∈ f.1, IsAlpha c) ∧ PlainWord f.2)
    (hi : image ≠ [] ∧ ∀ c ∈ image, IsImageChar c) (hd : DigestOK (ImageRef.parse image))
    (ha : ∀ a, alias = some a → a ≠ [] ∧ ∀ c ∈ a, IsIdent c) :
    ∃ f : FromInstruction,
      Dockerfile.parse unq (fromLine flags image alias) =
        .ok (oneInstruction (fromLine flags image alias) (.from f)) ∧
      f.span = ⟨0, blen (fromLine flags image alias)⟩ ∧
      f.flags.map (fun x => (x.name.content, x.value.content)) = flags ∧
      f.image = ⟨⟨5 + blen (plainFlags flags), 5 + blen (plainFlags flags) + blen image⟩, image⟩ ∧
      f.image_parsed = ImageRef.parse image ∧
      f.alias = alias.map (fun a => ⟨⟨9 + blen (plainFlags flags) + blen image,
        9 + blen (plainFlags flags) + blen image + blen a⟩, a⟩) ∧
      f.index = 0 := by
  have ht : (Item.from c!"FROM" (flags.map flagOf) [' '] image
      (alias.map fun a => ⟨[' '], c!"AS", [' '], a⟩)).text = fromLine flags image alias := by
    cases alias <;> simp [Item.text, fromLine, flagsText_of, AliasText.text]
  have h := item_doc (unq := unq) (i := .from c!"FROM" (flags.map flagOf) [' '] image
      (alias.map fun a => ⟨[' '], c!"AS", [' '], a⟩)) (by
    refine ⟨rfl, ?_, gap_space _, hi.1, hi.2, hd, ?_⟩
    · intro f hf'
      obtain ⟨g, hg, rfl⟩ := List.mem_map.1 hf'
      exact flagOf_ok (hf g hg)
    · intro x hx
      obtain ⟨a, ha', rfl⟩ := Option.map_eq_some_iff.1 hx
      have := ha a ha'
      exact ⟨gap_space _, rfl, gap_space _, this.1, this.2⟩)
  rw [ht] at h
  refine ⟨_, h, ?_, flagsAt_of flags _, ?_, rfl, ?_, rfl⟩
  · simp only [ht, Nat.zero_add]
  · simp only [flagsText_of, Nat.zero_add]
    have : blen c!"FROM" + blen (plainFlags flags) + blen [' '] = 5 + blen (plainFlags flags) := by
      show 4 + _ + 1 = _; omega
    rw [this]
  · simp only [flagsText_of, Nat.zero_add, Option.map_map]
    have : blen c!"FROM" + blen (plainFlags flags) + blen [' '] + blen image + blen [' '] +
        blen c!"AS" + blen [' '] = 9 + blen (plainFlags flags) + blen image := by
      show 4 + _ + 1 + _ + 1 + 2 + 1 = _; omega
    cases alias with
    | none => rfl
    | some a => simp only [Option.map_some, Function.comp, AliasText.name_at, this]

/-! ## C36 -/

/-- C36: `ARG name` and `ARG name=value` -/
theorem C36_arg {unq : Unquote} {name : Str} {value : Option Str}
    (hn : ∃ c r, name = c :: r ∧ IsAlpha c ∧ ∀ d ∈ r, IsWord d)
    (hv : ∀ v, value = some v → PlainWord v) :
    Dockerfile.parse unq (argLine name value) =
      let a : ArgInstruction :=
        { span := ⟨0, blen (argLine name value)⟩
          name := ⟨⟨4, 4 + blen name⟩, name⟩
          value := value.map fun v =>
            ⟨⟨5 + blen name, 5 + blen name + blen v⟩, v⟩ }
      .ok { content := argLine name value, global_args := [a], instructions := [.arg a] } := by
  have ht : (Item.arg c!"ARG" [' '] name (value.map fun v => (v, v))).text =
      argLine name value := by
    cases value <;> simp [Item.text, argLine]
  have h := item_doc (unq := unq) (i := .arg c!"ARG" [' '] name (value.map fun v => (v, v))) (by
    refine ⟨rfl, gap_space _, hn, ?_⟩
    intro x hx
    obtain ⟨a, ha', rfl⟩ := Option.map_eq_some_iff.1 hx
    exact ⟨.inr ⟨(hv a ha').1, plain_noquote (hv a ha')⟩, reads_plain (hv a ha')⟩)
  rw [ht] at h
  rw [h]
  have e : blen c!"ARG" + blen [' '] = 4 := rfl
  have e5 : 4 + blen name + 1 = 5 + blen name := by omega
  cases value <;> simp only [Option.map_none, Option.map_some] at ht ⊢ <;>
    simp only [documentOf, Item.instr, Option.toList, globalArgs, numberStages, ht, Nat.zero_add, e,
      e5, Option.map_none, Option.map_some]

/-- C36: `ENV k1=v1 ... kn=vn` -/
theorem C36_env {unq : Unquote} {ps : List (Str × Str)} (hne : ps ≠ [])
    (h : ∀ p ∈ ps, (p.1 ≠ [] ∧ ∀ c ∈ p.1, IsWord c) ∧ PlainWord p.2) :
    ∃ e : EnvInstruction,
      Dockerfile.parse unq (envLine ps) = .ok (oneInstruction (envLine ps) (.env e)) ∧
      e.span = ⟨0, blen (envLine ps)⟩ ∧
      e.vars.map (fun x => (x.key.content, x.value.display)) = ps := by
  have ht : (Item.env c!"ENV" (ps.map pairOf) []).text = envLine ps := by
    simp [Item.text, envLine, pairsText_of]
  have h := item_doc (unq := unq) (i := .env c!"ENV" (ps.map pairOf) []) (by
    refine ⟨rfl, ?_, by intro c hc; simp at hc, .inl (by simpa using hne)⟩
    intro f hf
    obtain ⟨p, hp, rfl⟩ := List.mem_map.1 hf
    have := h p hp
    exact ⟨gap_space _, this.1.1, this.1.2, rfl, .inr ⟨this.2.1, plain_noquote this.2, rfl⟩⟩)
  rw [ht] at h
  refine ⟨_, h, ?_, envVarsAt_of ps _⟩
  simp only [ht, Nat.zero_add]

/-- C36: `LABEL k1=v1 ... kn=vn` -/
theorem C36_label {unq : Unquote} {ps : List (Str × Str)} (hne : ps ≠ [])
    (h : ∀ p ∈ ps, LabelWord p.1 ∧ PlainWord p.2) :
    ∃ e : LabelInstruction,
      Dockerfile.parse unq (labelLine ps) = .ok (oneInstruction (labelLine ps) (.label e)) ∧
      e.span = ⟨0, blen (labelLine ps)⟩ ∧
      e.labels.map (fun x => (x.name.content, x.value.content)) = ps := by
  have ht : (Item.label c!"LABEL" (ps.map pairOf) []).text = labelLine ps := by
    simp [Item.text, labelLine, pairsText_of]
  have h := item_doc (unq := unq) (i := .label c!"LABEL" (ps.map pairOf) []) (by
    refine ⟨rfl, ?_, by intro c hc; simp at hc, .inl (by simpa using hne)⟩
    intro f hf
    obtain ⟨p, hp, rfl⟩ := List.mem_map.1 hf
    have := h p hp
    exact ⟨gap_space _, .inr ⟨this.1, rfl⟩,
      .inr ⟨this.2.1, plain_noquote this.2, reads_plain this.2⟩⟩)
  rw [ht] at h
  refine ⟨_, h, ?_, labelsAt_of ps _⟩
  simp only [ht, Nat.zero_add]

/-! ## C37 -/

/-- C37: `COPY [--k=v ...] s1 ... sn dest` -/
theorem C37_copy {unq : Unquote} {flags : List (Str × Str)} {sources : List Str} {dest : Str}
    (hf : ∀ f ∈ flags, (f.1 ≠ [] ∧ ∀ c ∈ f.1, IsAlpha c) ∧ PlainWord f.2)
    (hne : sources ≠ []) (hs : ∀ s ∈ sources, PlainWord s) (hd : PlainWord dest)
    (hflag : ∀ s r, sources = s :: r → ¬ LooksLikeFlag s) :
    ∃ c : CopyInstruction,
      Dockerfile.parse unq (copyLine flags sources dest) =
        .ok (oneInstruction (copyLine flags sources dest) (.copy c)) ∧
      c.span = ⟨0, blen (copyLine flags sources dest)⟩ ∧
      c.flags.map (fun x => (x.name.content, x.value.content)) = flags ∧
      c.sources.map (·.content) = sources ∧
      c.destination.content = dest ∧
      c.destination.span.stop = blen (copyLine flags sources dest) := by
  have ht : (Item.copy c!"COPY" (flags.map flagOf) (sources.map fieldOf) (fieldOf dest)).text =
      copyLine flags sources dest := by
    simp [Item.text, copyLine, flagsText_of, fieldsText_of, fieldOf, FieldText.text]
  have h := item_doc (unq := unq)
      (i := .copy c!"COPY" (flags.map flagOf) (sources.map fieldOf) (fieldOf dest)) (by
    refine ⟨rfl, ?_, by simpa using hne, ?_, fieldOf_ok hd, ?_⟩
    · intro f hf'
      obtain ⟨g, hg, rfl⟩ := List.mem_map.1 hf'
      exact flagOf_ok (hf g hg)
    · intro f hf'
      obtain ⟨g, hg, rfl⟩ := List.mem_map.1 hf'
      exact fieldOf_ok (hs g hg)
    · intro f r e
      cases sources with
      | nil => cases e
      | cons s r =>
        simp only [List.map_cons, List.cons.injEq] at e
        rw [← e.1]
        exact hflag s r rfl)
  have hl := congrArg blen ht
  rw [ht] at h
  refine ⟨_, h, ?_, flagsAt_of flags _, fieldsAt_of sources _, rfl, ?_⟩
  · simp only [ht, Nat.zero_add]
  · rw [← hl]
    simp only [Item.text, FieldText.field, FieldText.text, blen_append]
    omega

/-! ## C38 -/

/-- C38: `RUN text`, `CMD text`, `ENTRYPOINT text` -/
theorem C38_shell {unq : Unquote} {k : ExecKind} {text : Str} (h : SingleLine text)
    (ha : NotArray text) :
    ∃ b : BreakableString,
      Dockerfile.parse unq (shellLine k text) = .ok (oneInstruction (shellLine k text)
        (k.instr { span := ⟨0, blen (shellLine k text)⟩, expr := .shell b })) ∧
      b.span = ⟨blen k.word + 1, blen (shellLine k text)⟩ ∧ b.display = text := by
  have ht : (Item.shell k k.word [' '] (.last text)).text = shellLine k text := by
    simp [Item.text, shellLine, Shell.text]
  obtain ⟨⟨c, r, rfl, h1, h2, h3⟩, hl, hb⟩ := h
  have h := item_doc (unq := unq) (i := .shell k k.word [' '] (.last (c :: r))) (by
    refine ⟨by cases k <;> rfl, gap_space _, by simp, ⟨⟨by simp, hl, ?_⟩, hb⟩, trivial,
      ⟨c, r, rfl, h1, h2, h3⟩, ha⟩
    intro w r' hw e
    cases w with
    | nil => simp only [List.nil_append, List.cons.injEq] at e; exact h3 e.1
    | cons d w =>
      simp only [List.cons_append, List.cons.injEq] at e
      rcases hw d (by simp) with h | h
      · exact h1 (e.1.trans h)
      · exact h2 (e.1.trans h))
  rw [ht] at h
  refine ⟨Shell.string (blen k.word + 1) (.last (c :: r)), ?_, ?_, ?_⟩
  · rw [h]
    simp only [Item.instr, ht, Nat.zero_add]
    cases k <;> rfl
  · simp only [Shell.string, Shell.text, shellLine, blen_append]
    have : blen (' ' :: c :: r) = 1 + blen (c :: r) := rfl
    rw [this, Nat.add_assoc]
  · simp [Shell.string, Shell.components, BreakableString.display]

/-- C38: `WORD args` for an unknown word. -/
theorem C38_misc {unq : Unquote} {word args : Str} (hw : word ≠ [] ∧ ∀ c ∈ word, IsAlpha c)
    (hk : ¬ IsKeyword word) (hne : args ≠ []) (hl : ∀ c ∈ args, c ≠ '\n' ∧ c ≠ '\r')
    (hc : ∀ w r, Blanks w → args ≠ w ++ '#' :: r) (hb : ∀ a w, Blanks w → args ≠ a ++ '\\' :: w)
    (hf : ∀ c r, args = c :: r → ¬ IsAlpha c) :
    ∃ b : BreakableString,
      Dockerfile.parse unq (word ++ args) = .ok (oneInstruction (word ++ args)
        (.misc { span := ⟨0, blen (word ++ args)⟩, instruction := ⟨⟨0, blen word⟩, word⟩,
                 arguments := b })) ∧
      b.span = ⟨blen word, blen (word ++ args)⟩ ∧ b.display = args := by
  have h := item_doc (unq := unq) (i := .misc word (.last args))
    ⟨hw.1, hw.2, hk, ⟨⟨hne, hl, hc⟩, hb⟩, hf⟩
  refine ⟨Shell.string (blen word) (.last args), ?_, ?_, ?_⟩
  · simp only [Item.text, Shell.text, Item.instr, Nat.zero_add] at h
    exact h
  · simp only [Shell.string, Shell.text, blen_append]
  · simp [Shell.string, Shell.components, BreakableString.display]

/-! ## C39 -/

/-- C39: `RUN ["a", "b", ...]`, `CMD ...`, `ENTRYPOINT ...`, for all strings without the two
control characters. -/
theorem C39_exec {unq : Unquote} (hu : UndoesQuoting unq) {k : ExecKind} {ts : List Str}
    (h : ∀ t ∈ ts, ∀ c ∈ t, c ≠ '\x00' ∧ c ≠ '\x1F') :
    ∃ a : StringArray,
      Dockerfile.parse unq (execLine k ts) = .ok (oneInstruction (execLine k ts)
        (k.instr { span := ⟨0, blen (execLine k ts)⟩, expr := .exec a })) ∧
      a.span = ⟨blen k.word + 1, blen (execLine k ts)⟩ ∧ a.elements.map (·.content) = ts := by
  have main : ∀ a : ArrayText, k.word ++ ([' '] ++ a.text) = execLine k ts → a.OK unq →
      (∀ p, (a.elements p).map (·.content) = ts) → ∃ a : StringArray,
      Dockerfile.parse unq (execLine k ts) = .ok (oneInstruction (execLine k ts)
        (k.instr { span := ⟨0, blen (execLine k ts)⟩, expr := .exec a })) ∧
      a.span = ⟨blen k.word + 1, blen (execLine k ts)⟩ ∧ a.elements.map (·.content) = ts := by
    intro a ht ha he
    have h := item_doc (unq := unq) (i := .exec k k.word [' '] a)
      ⟨by cases k <;> rfl, gap_space _, by simp, ha⟩
    have hl := congrArg blen ht
    rw [show (Item.exec k k.word [' '] a).text = _ from ht] at h
    refine ⟨⟨⟨blen k.word + 1, blen k.word + 1 + blen a.text⟩, a.elements (blen k.word + 1)⟩,
      ?_, ?_, he _⟩
    · rw [h]
      simp only [Item.instr, show (Item.exec k k.word [' '] a).text = _ from ht, Nat.zero_add]
      cases k <;> rfl
    · rw [← hl]
      simp only [blen_append]
      have : blen [' '] = 1 := rfl
      rw [this, Nat.add_assoc]
  cases ts with
  | nil => exact main (.empty []) (by cases k <;> rfl) .nil (fun _ => rfl)
  | cons t ts =>
    refine main (.full [] (quoteWith '"' t) t (ts.map elemOf) false []) ?_ ?_ ?_
    · simp [ArrayText.text, execLine, arrayBody, elemsText, List.flatMap_map, elemOf, ElemText.text]
    · refine ⟨.nil, quotedText_quoteWith (.inl rfl) (h t (by simp)), hu _ _ (.inl rfl), ?_, .nil⟩
      intro e he
      obtain ⟨x, hx, rfl⟩ := List.mem_map.1 he
      exact ⟨.nil, .blank (.inl rfl) .nil, quotedText_quoteWith (.inl rfl) (h x (by simp [hx])),
        hu _ _ (.inl rfl)⟩
    · intro p
      simp only [ArrayText.elements, List.map_cons, elemsAt_of]

/-- what C39 assumes about unquoting holds of `enquote::unquote` -/
theorem C39_unquote : UndoesQuoting Enquote.unquote := unquote_undoes

/-! ## examples -/

section Examples

local instance : DecidablePred IsAlpha := fun c => by unfold IsAlpha; infer_instance
local instance : DecidablePred IsDigit := fun c => by unfold IsDigit; infer_instance
local instance : DecidablePred IsWord := fun c => by unfold IsWord; infer_instance
local instance : DecidablePred IsIdent := fun c => by unfold IsIdent; infer_instance
local instance : DecidablePred IsImageChar := fun c => by unfold IsImageChar; infer_instance
local instance (w : Str) : Decidable (NoSpace w) := by unfold NoSpace; infer_instance
local instance (w : Str) : Decidable (WordText w) := by unfold WordText; infer_instance
local instance (w : Str) : Decidable (Blanks w) := by unfold Blanks; infer_instance
local instance (w : Str) : Decidable (IsKeyword w) := by unfold IsKeyword; infer_instance

theorem plainWord_of {w : Str} (h : WordText w) (c : Char) (r : Str) (e : w = c :: r)
    (hc : ¬ QuoteChar c) : PlainWord w :=
  ⟨h, fun ⟨d, r', e', hd⟩ => by rw [e] at e'; cases e'; exact hc hd⟩

local macro "plain" : tactic =>
  `(tactic| exact plainWord_of (by decide) _ _ rfl (by unfold QuoteChar; decide))

/-- C35 with two flags, a digest and an alias -/
example : let image := c!"quay.io/a@sha256:" ++ List.replicate 64 'a'
    ∃ f : FromInstruction,
      Dockerfile.parse Enquote.unquote
          (fromLine [(c!"platform", c!"$BUILDPLATFORM"), (c!"x", c!"y")] image (some c!"b-1")) =
        .ok (oneInstruction (fromLine [(c!"platform", c!"$BUILDPLATFORM"), (c!"x", c!"y")] image
          (some c!"b-1")) (.from f)) ∧ f.image.content = image := by
  intro image
  obtain ⟨f, h, -, -, hi, -⟩ := C35_from (unq := Enquote.unquote)
    (flags := [(c!"platform", c!"$BUILDPLATFORM"), (c!"x", c!"y")]) (image := image)
    (alias := some c!"b-1")
    (by
      intro f hf
      simp only [List.mem_cons, List.not_mem_nil, or_false] at hf
      rcases hf with rfl | rfl
      · exact ⟨by decide, by plain⟩
      · exact ⟨by decide, by plain⟩)
    ⟨by decide, by decide +kernel⟩
    (by
      intro h e
      have : (ImageRef.parse image).hash = some (c!"sha256:" ++ List.replicate 64 'a') := by
        decide +kernel
      rw [this] at e
      cases e
      exact ⟨List.replicate 64 'a', rfl, by decide +kernel, by decide +kernel, 'a',
        by decide +kernel, by decide⟩)
    (by intro a e; cases e; decide)
  exact ⟨f, h, by rw [hi]⟩

/-- C36 -/
example : ∃ a, Dockerfile.parse Enquote.unquote c!"ARG a_1=b=\"c\"" =
    .ok { content := c!"ARG a_1=b=\"c\"", global_args := [a], instructions := [.arg a] } :=
  ⟨_, C36_arg (name := c!"a_1") (value := some c!"b=\"c\"")
    ⟨'a', c!"_1", rfl, by decide, by decide⟩ (by intro v e; cases e; plain)⟩

example : ∃ e : EnvInstruction,
    Dockerfile.parse Enquote.unquote c!"ENV A=1 2_b=x\\y" =
      .ok (oneInstruction c!"ENV A=1 2_b=x\\y" (.env e)) ∧
    e.vars.map (fun x => (x.key.content, x.value.display)) = [(c!"A", c!"1"), (c!"2_b", c!"x\\y")] := by
  obtain ⟨e, h, -, h'⟩ := C36_env (unq := Enquote.unquote)
    (ps := [(c!"A", c!"1"), (c!"2_b", c!"x\\y")]) (by simp) (by
      intro f hf
      simp only [List.mem_cons, List.not_mem_nil, or_false] at hf
      rcases hf with rfl | rfl
      · exact ⟨by decide, by plain⟩
      · exact ⟨by decide, by plain⟩)
  exact ⟨e, h, h'⟩

example : ∃ e : LabelInstruction,
    Dockerfile.parse Enquote.unquote c!"LABEL a.b=1 #\\==" =
      .ok (oneInstruction c!"LABEL a.b=1 #\\==" (.label e)) ∧
    e.labels.map (fun x => (x.name.content, x.value.content)) =
      [(c!"a.b", c!"1"), (c!"#\\", c!"=")] := by
  obtain ⟨e, h, -, h'⟩ := C36_label (unq := Enquote.unquote)
    (ps := [(c!"a.b", c!"1"), (c!"#\\", c!"=")]) (by simp) (by
      intro f hf
      simp only [List.mem_cons, List.not_mem_nil, or_false] at hf
      rcases hf with rfl | rfl
      · exact ⟨⟨by decide, by decide, by decide,
          (plainWord_of (by decide) _ _ rfl (by unfold QuoteChar; decide)).2⟩, by plain⟩
      · exact ⟨⟨by decide, by decide, by decide, by
          rintro ⟨c, r, e, h⟩; cases e; revert h; unfold QuoteChar; decide⟩, by plain⟩)
  exact ⟨e, h, h'⟩

/-- C37 with a flag among the sources but the first -/
example : ∃ c : CopyInstruction,
    Dockerfile.parse Enquote.unquote c!"COPY --from=x a --b=c /d" =
      .ok (oneInstruction c!"COPY --from=x a --b=c /d" (.copy c)) ∧
    c.sources.map (·.content) = [c!"a", c!"--b=c"] ∧ c.destination.content = c!"/d" := by
  obtain ⟨c, h, -, -, hs, hd, -⟩ := C37_copy (unq := Enquote.unquote)
    (flags := [(c!"from", c!"x")]) (sources := [c!"a", c!"--b=c"]) (dest := c!"/d")
    (by
      intro f hf
      simp only [List.mem_cons, List.not_mem_nil, or_false] at hf
      cases hf
      exact ⟨by decide, by plain⟩)
    (by simp)
    (by
      intro f hf
      simp only [List.mem_cons, List.not_mem_nil, or_false] at hf
      rcases hf with rfl | rfl
      · plain
      · plain)
    (by plain)
    (by
      intro s r e
      cases e
      rintro ⟨n, v, e, -⟩
      cases e)
  exact ⟨c, h, hs, hd⟩

theorem no_backslash {t : Str} (h : '\\' ∉ t) : ∀ a w, Blanks w → t ≠ a ++ '\\' :: w := by
  rintro a w - rfl
  simp at h

/-- C38 -/
example : ∃ b : BreakableString,
    Dockerfile.parse Enquote.unquote c!"ENTRYPOINT [ -f x ] # y" =
      .ok (oneInstruction c!"ENTRYPOINT [ -f x ] # y"
        (.entrypoint { span := ⟨0, 23⟩, expr := .shell b })) ∧
    b.display = c!"[ -f x ] # y" := by
  obtain ⟨b, h, -, h'⟩ := C38_shell (unq := Enquote.unquote) (k := .entrypoint)
    (text := c!"[ -f x ] # y")
    ⟨⟨_, _, rfl, by decide, by decide, by decide⟩, by decide, no_backslash (by decide)⟩
    (by
      intro w c r hw e
      cases w with
      | nil => cases e; exact .inl rfl
      | cons d w =>
        simp only [List.cons_append, List.cons.injEq, true_and] at e
        cases w with
        | nil => cases e.2; decide
        | cons d' w =>
          simp only [List.cons_append, List.cons.injEq] at e
          have := hw d' (by simp)
          rw [← e.2.1] at this
          exact absurd this (by decide))
  exact ⟨b, h, h'⟩

example : ∃ b : BreakableString,
    Dockerfile.parse Enquote.unquote c!"Expose 80/tcp # x" =
      .ok (oneInstruction c!"Expose 80/tcp # x"
        (.misc { span := ⟨0, 17⟩, instruction := ⟨⟨0, 6⟩, c!"Expose"⟩, arguments := b })) ∧
    b.display = c!" 80/tcp # x" := by
  obtain ⟨b, h, -, h'⟩ := C38_misc (unq := Enquote.unquote) (word := c!"Expose")
    (args := c!" 80/tcp # x") (by decide) (by decide) (by decide) (by decide)
    (by
      intro w r hw e
      cases w with
      | nil => cases e
      | cons d w =>
        simp only [List.cons_append, List.cons.injEq] at e
        cases w with
        | nil => cases e.2
        | cons d' w =>
          simp only [List.cons_append, List.cons.injEq] at e
          have := hw d' (by simp)
          rw [← e.2.1] at this
          exact absurd this (by decide))
    (no_backslash (by decide)) (by intro c r e; cases e; decide)
  exact ⟨b, h, h'⟩

/-- C39, also for the empty list -/
example : ∃ a : StringArray,
    Dockerfile.parse Enquote.unquote c!"CMD [\"a b\", \"\", \"\\\\n\\\"\"]" =
      .ok (oneInstruction c!"CMD [\"a b\", \"\", \"\\\\n\\\"\"]"
        (.cmd { span := ⟨0, 24⟩, expr := .exec a })) ∧
    a.elements.map (·.content) = [c!"a b", [], c!"\\n\""] := by
  obtain ⟨a, h, -, h'⟩ := C39_exec (k := .cmd) (ts := [c!"a b", [], c!"\\n\""]) C39_unquote
    (by decide)
  exact ⟨a, h, h'⟩

example : ∃ a : StringArray,
    Dockerfile.parse Enquote.unquote c!"RUN []" =
      .ok (oneInstruction c!"RUN []" (.run { span := ⟨0, 6⟩, expr := .exec a })) ∧
    a.elements = [] := by
  obtain ⟨a, h, -, h'⟩ := C39_exec (k := .run) (ts := []) C39_unquote (by simp)
  exact ⟨a, h, by simpa using h'⟩

/-! ### a document -/

theorem no_comment {t : Str} (h : '#' ∉ t) : ∀ w r, Blanks w → t ≠ w ++ '#' :: r := by
  rintro w r - rfl
  simp at h

theorem break_lf : Break ['\n'] := .inl rfl

theorem blanks_nil : Blanks [] := by intro c hc; cases hc

theorem quoted_word {q : Char} {b : Str} (hq : q = '"' ∨ q = '\'')
    (h : ∀ c ∈ b, c ≠ q ∧ c ≠ '\\' ∧ c ≠ '\x00' ∧ c ≠ '\x1F') : QuotedText (q :: (b ++ [q])) := by
  refine ⟨q, b, rfl, hq, ?_⟩
  induction b with
  | nil => exact .nil
  | cons c b ih =>
    have := h c (by simp)
    exact .chr this.1 this.2.1 this.2.2.1 this.2.2.2 (ih fun c hc => h c (by simp [hc]))

def exampleFirst : LineText := ⟨[], .comment c!"# build", []⟩

def exampleRest : List (Str × LineText) :=
  [(c!"\n", ⟨c!" ", .from c!"From" [⟨c!" ", c!"platform", c!"linux/amd64", c!"linux/amd64"⟩]
      c!" \\ \n  # c\n  " c!"alpine:3.18" (some ⟨c!"\t", c!"as", c!" ", c!"Base"⟩), c!"  "⟩),
   (c!"\r\n", ⟨c!"\t", .blank, []⟩),
   (c!"\n", ⟨[], .arg c!"arg" c!" " c!"V" (some (c!"'1 2'", c!"1 2")), c!" "⟩),
   (c!"\n", ⟨[], .env c!"Env" [⟨c!" ", c!"A", c!"A", c!"1", c!"1"⟩,
      ⟨c!" \\\n ", c!"B", c!"B", c!"'x y'", c!"x y"⟩] c!" ", []⟩),
   (c!"\r", ⟨[], .env1 c!"ENV" c!" " c!"A" c!" " (.more c!"1 " c!"" c!"\n" (.last c!" 2 ")), []⟩),
   (c!"\n", ⟨[], .shell .run c!"RUN" c!" " (.more c!"foo " c!" " c!"\r\n"
      (.comment c!" " c!"# c \\" c!"\n" (.last c!" bar"))), []⟩),
   (c!"\n", ⟨[], .exec .cmd c!"CMD" c!" " (.full c!"" c!"\"a\"" c!"a"
      [⟨c!" ", c!"\\\n", c!"'b'", c!"b"⟩] true c!" "), c!" "⟩),
   (c!"\n", ⟨[], .copy c!"COPY" [⟨c!" ", c!"from", c!"Base", c!"Base"⟩]
      [⟨c!" ", c!"a", c!"a"⟩, ⟨c!" ", c!"#b", c!"#b"⟩] ⟨c!"  ", c!"\"c\"", c!"c"⟩, []⟩),
   (c!"\n", ⟨[], .label c!"LABEL" [⟨c!" ", c!"\"x y\"", c!"x y", c!"z", c!"z"⟩] c!"", []⟩),
   (c!"\n", ⟨[], .misc c!"MAINTAINER" (.last c!" me"), []⟩),
   (c!"\n", ⟨[], .blank, []⟩)]

theorem exampleOK : DocOK Enquote.unquote exampleFirst exampleRest := by
  have hq : ∀ {w : Str} {c : Char} {r : Str}, w = c :: r → ¬ QuoteChar c →
      Reads Enquote.unquote w w := fun e hc =>
    .inr ⟨fun ⟨d, r', e', hd⟩ => by rw [e] at e'; cases e'; exact hc hd, rfl⟩
  have nl : ∀ r, LineBreak ['\n'] r := fun r => .inl rfl
  have nc : ∀ {a : Str} {c : Char} {r : Str}, a = c :: r → c ≠ '#' → ∀ r, a ≠ '#' :: r := by
    intro a c r e hc r' e'; rw [e] at e'; cases e'; exact hc rfl
  have nq : ∀ {a : Str} {c : Char} {r : Str}, a = c :: r → c ≠ '"' → c ≠ '\'' →
      ∀ r, a ≠ '"' :: r ∧ a ≠ '\'' :: r := by
    intro a c r e hc hc' r'
    constructor <;> (intro e'; rw [e] at e'; cases e')
    · exact hc rfl
    · exact hc' rfl
  have bs : ∀ {w g : Str}, Blanks w → Space g → Space (w ++ g) := by
    intro w g hw hg
    induction w with
    | nil => exact hg
    | cons c w ih => exact .blank (hw c (by simp)) (ih fun c hc => hw c (by simp [hc]))
  refine ⟨⟨blanks_nil, ⟨c!" build", rfl, by decide⟩, blanks_nil, fun _ => rfl⟩, nl _, ?_⟩
  -- FROM
  refine ⟨⟨by decide, ⟨rfl, ?_, ⟨?_, by decide, .inr (nc rfl (by decide))⟩, by decide, by decide,
    ?_, ?_⟩, by decide, fun h => h.elim⟩, .inr (.inl rfl), ?_⟩
  · intro f hf
    rw [List.mem_singleton] at hf
    cases hf
    exact ⟨gap_space _, by decide, by decide, by decide, hq rfl (by unfold QuoteChar; decide)⟩
  · exact .blank (.inl rfl) (.continuation (w := c!" ") (n := c!"\n") (l := c!"  # c\n") (g := c!"  ")
      (by decide) break_lf
      (.comment (w := c!"  ") (t := c!"# c") (n := c!"\n") (r := []) (by decide)
        ⟨c!" c", rfl, by decide⟩ break_lf .nil)
      (.blank (.inl rfl) (.blank (.inl rfl) .nil)))
  · intro h e
    have : (ImageRef.parse c!"alpine:3.18").hash = none := by decide +kernel
    rw [this] at e
    cases e
  · intro x e
    cases e
    exact ⟨⟨.blank (.inr rfl) .nil, by decide, .inl (by decide)⟩, rfl, gap_space _, by decide,
      by decide⟩
  -- blank line
  refine ⟨⟨by decide, trivial, blanks_nil, fun _ => rfl⟩, nl _, ?_⟩
  -- ARG
  refine ⟨⟨blanks_nil, ⟨rfl, gap_space _, ⟨'V', [], rfl, by decide, by decide⟩, ?_⟩, by decide,
    fun h => h.elim⟩, nl _, ?_⟩
  · intro x e
    cases e
    exact ⟨.inl (quoted_word (b := c!"1 2") (.inr rfl) (by decide)),
      .inl ⟨⟨'\'', _, rfl, by unfold QuoteChar; decide⟩, by decide +kernel⟩⟩
  -- ENV
  refine ⟨⟨blanks_nil, ⟨rfl, ?_, by decide, .inl (by simp)⟩, blanks_nil, fun _ => rfl⟩,
    .inr (.inr ⟨rfl, by intro r' e; cases e⟩), ?_⟩
  · intro f hf
    simp only [List.mem_cons, List.not_mem_nil, or_false] at hf
    rcases hf with rfl | rfl
    · exact ⟨gap_space _, by decide, by decide, rfl,
        .inr ⟨by decide, nq rfl (by decide) (by decide), rfl⟩⟩
    · exact ⟨⟨.blank (.inl rfl) (.continuation (w := []) (n := c!"\n") (l := []) (g := c!" ")
          blanks_nil break_lf .nil (.blank (.inl rfl) .nil)), by decide,
          .inr (nc rfl (by decide))⟩, by decide, by decide, rfl,
        .inl ⟨quoted_word (b := c!"x y") (.inr rfl) (by decide), by decide +kernel⟩⟩
  -- ENV with a single variable
  refine ⟨⟨blanks_nil, ⟨rfl, gap_space _, by decide, by decide, gap_space _,
    ⟨⟨by decide, by decide, no_comment (by decide)⟩, blanks_nil, break_lf,
      ⟨by decide, by decide, no_comment (by decide)⟩, no_backslash (by decide)⟩, trivial,
    ⟨_, _, rfl, by decide, by decide, by decide⟩, nq rfl (by decide) (by decide)⟩, blanks_nil,
    fun _ => rfl⟩, nl _, ?_⟩
  -- RUN
  refine ⟨⟨blanks_nil, ⟨rfl, gap_space _, by decide,
    ⟨⟨by decide, by decide, no_comment (by decide)⟩, by decide, .inr rfl,
      by decide, ⟨c!" c \\", rfl, by decide⟩, break_lf,
      ⟨by decide, by decide, no_comment (by decide)⟩, no_backslash (by decide)⟩, trivial,
    ⟨_, _, rfl, by decide, by decide, by decide⟩, by intro w c r hw e; cases e⟩, blanks_nil,
    fun _ => rfl⟩, nl _, ?_⟩
  -- CMD
  refine ⟨⟨blanks_nil, ⟨rfl, gap_space _, by decide,
    .nil, quoted_word (b := c!"a") (.inl rfl) (by decide), by decide +kernel, ?_,
    .blank (.inl rfl) .nil⟩, by decide, fun h => h.elim⟩, nl _, ?_⟩
  · intro e he
    rw [List.mem_singleton] at he
    cases he
    exact ⟨.blank (.inl rfl) .nil, .continuation (w := []) (n := c!"\n") (l := []) (g := [])
      blanks_nil break_lf .nil .nil, quoted_word (b := c!"b") (.inr rfl) (by decide),
      by decide +kernel⟩
  -- COPY
  refine ⟨⟨blanks_nil, ⟨rfl, ?_, by simp, ?_, ⟨⟨bs (w := c!"  ") (by decide) .nil, by decide,
    .inl (by decide)⟩, by decide, .inl ⟨⟨'"', _, rfl, by unfold QuoteChar; decide⟩,
    by decide +kernel⟩⟩, ?_⟩, blanks_nil, fun h => h.elim⟩, nl _, ?_⟩
  · intro f hf
    rw [List.mem_singleton] at hf
    cases hf
    exact ⟨gap_space _, by decide, by decide, by decide, hq rfl (by unfold QuoteChar; decide)⟩
  · intro f hf
    simp only [List.mem_cons, List.not_mem_nil, or_false] at hf
    rcases hf with rfl | rfl <;>
      exact ⟨gap_space _, by decide, hq rfl (by unfold QuoteChar; decide)⟩
  · intro f r e
    cases e
    rintro ⟨n, v, e, -⟩
    cases e
  -- LABEL
  refine ⟨⟨blanks_nil, ⟨rfl, ?_, by decide, .inl (by simp)⟩, blanks_nil, fun _ => rfl⟩, nl _, ?_⟩
  · intro f hf
    rw [List.mem_singleton] at hf
    cases hf
    refine ⟨gap_space _, .inl ⟨quoted_word (b := c!"x y") (.inl rfl) (by decide), .inl
      ⟨⟨'"', _, rfl, by unfold QuoteChar; decide⟩, c!"\"x y\"", ?_, by decide +kernel⟩⟩,
      .inr ⟨by decide, nq rfl (by decide) (by decide), hq rfl (by unfold QuoteChar; decide)⟩⟩
    exact joined_self (by decide)
  -- misc
  refine ⟨⟨blanks_nil, ⟨by decide, by decide, by decide,
    ⟨⟨by decide, by decide, no_comment (by decide)⟩, no_backslash (by decide)⟩,
    by intro c r e; cases e; decide⟩, blanks_nil, fun _ => rfl⟩, nl _, ?_⟩
  exact ⟨blanks_nil, trivial, blanks_nil, fun _ => rfl⟩

example : Dockerfile.parse Enquote.unquote (docText exampleFirst exampleRest) =
    .ok (documentOf (docText exampleFirst exampleRest) (docInstrs 0 exampleFirst exampleRest)) :=
  C40_roundtrip exampleOK

example : (docInstrs 0 exampleFirst exampleRest).length = 9 := by decide +kernel

end Examples

end Verif
