import Verif.Proof.Write
import Verif.Props.Source
import Verif.Props.Parse
import Verif.Proof.CutDoc

/-! # Writing down any document (C73) -/

namespace Verif
open Spec

/-- C73: if all the instructions are `Writable`, the text written for them is accepted, and what is
read are these instructions (numbered, without positions). -/
theorem C73_write {unq : Unquote} (h : UndoesEscapes unq) {is : List Instruction}
    (hs : ∀ i ∈ is, Writable i) :
    ∃ d, Dockerfile.parse unq (writeDoc is) = .ok d ∧ d.content = writeDoc is ∧
      d.bare = (documentOf [] is).bare :=
  parse_writeDoc h hs

/-- C73: the unquoting that is used has the property needed. -/
theorem C73_enquote : UndoesEscapes Enquote.unquote := unquote_undoesEscapes

/-! ## instructions of a document -/

namespace Src

theorem space_end {g r : Str} (h : Space g r) : ¬ StartsSpace r := by
  induction h with
  | nil h => exact h
  | blank _ _ ih => exact ih
  | continuation _ _ _ _ ih => exact ih

theorem piece_line {t r : Str} (h : Shell.Piece t r) : Spec.Shell.LineOK t :=
  ⟨h.1, h.2.1, fun w u hw e => h.2.2.2 w (u ++ r) hw (by rw [e]; simp)⟩

theorem components_ne (s : Shell) (p : Nat) : s.components p ≠ [] := by cases s <;> simp [Shell.components]

theorem shell_lines : ∀ (s : Shell) {r : Str} {p : Nat}, s.Fits r → EndsText (s.components p) →
    LinesOK (s.components p)
  | .last t, _, _, h, he => ⟨piece_line h.1, he⟩
  | .lastComment w t n, _, _, _, he => he.elim
  | .more t w n s, r, p, h, he => by
    simp only [Shell.components] at he ⊢
    have hne := components_ne s (p + blen t + 1 + blen w + blen n)
    have ih := shell_lines s (p := p + blen t + 1 + blen w + blen n) h.2.2.2
    revert he hne ih
    cases s.components (p + blen t + 1 + blen w + blen n) with
    | nil => intro _ hne; exact absurd rfl hne
    | cons c cs => intro he _ ih; exact ⟨piece_line h.1, ih he⟩
  | .comment w t n s, r, p, h, he => by
    simp only [Shell.components] at he ⊢
    have hne := components_ne s (p + blen w + blen t + blen n)
    have ih := shell_lines s (p := p + blen w + blen t + blen n) h.2.2.2
    revert he hne ih
    cases s.components (p + blen w + blen t + blen n) with
    | nil => intro _ hne; exact absurd rfl hne
    | cons c cs => intro he _ ih; exact ⟨h.2.1, ih he⟩

theorem starts_argument {t u : Str} (hp : Shell.Piece t u) (hs : ¬ StartsSpace (t ++ u)) : StartsArgument t := by
  cases t with
  | nil => exact absurd rfl hp.1
  | cons c t =>
    refine ⟨c, t, rfl, ?_, ?_, ?_⟩
    · rintro rfl; exact hs (.inl ⟨_, _, rfl, .inl rfl⟩)
    · rintro rfl; exact hs (.inl ⟨_, _, rfl, .inr rfl⟩)
    · rintro rfl; exact hp.2.2.2 [] (t ++ u) .nil rfl

theorem shell_argument {s : Shell} {g r : Str} {p : Nat} (h : s.Fits r) (hg : Space g (s.text ++ r))
    (h1 : StartsText (s.components p)) (h2 : EndsText (s.components p)) : ArgumentOK (s.components p) := by
  refine ⟨shell_lines s h h2, ?_⟩
  have hs := space_end hg
  obtain ⟨x, l, e⟩ := h1
  refine ⟨x, l, e, ?_⟩
  cases s with
  | last t => cases e; exact starts_argument h.1 hs
  | lastComment w t n => cases e
  | more t w n s =>
    cases e
    refine starts_argument h.1 ?_
    simpa [Shell.text] using hs
  | comment w t n s => cases e

/-- the first character stays, or is a hash -/
theorem written_first {s : Shell} {r : Str} {p : Nat} (h : s.Fits r)
    (ha : ∀ c b, s.text = c :: b → ¬ IsAlpha c) :
    ∀ c b, (writtenShell (s.components p)).text = c :: b → ¬ IsAlpha c := by
  have hash : ∀ {t : Str}, CommentText t → ∀ {u c b}, t ++ u = c :: b → ¬ IsAlpha c := by
    rintro _ ⟨x, rfl, -⟩ u c b e
    obtain ⟨rfl, -⟩ := List.cons.inj e
    unfold IsAlpha; decide
  have first : ∀ {t u v : Str}, t ≠ [] → (∀ c b, t ++ u = c :: b → ¬ IsAlpha c) →
      ∀ {c b}, t ++ v = c :: b → ¬ IsAlpha c := by
    intro t u v hne ht c b e
    cases t with
    | nil => exact absurd rfl hne
    | cons d t => obtain ⟨rfl, -⟩ := List.cons.inj e; exact ht _ _ rfl
  cases s with
  | last t => exact ha
  | lastComment w t n => exact fun c b e => hash h.2.1 e
  | more t w n s =>
    intro c b e
    have hne := components_ne s (p + blen t + 1 + blen w + blen n)
    simp only [Shell.components] at e
    revert e hne
    cases s.components (p + blen t + 1 + blen w + blen n) with
    | nil => intro _ hne; exact absurd rfl hne
    | cons d cs => intro e _; exact first h.1.1 ha e
  | comment w t n s => exact fun c b e => hash h.2.1 e

theorem digest_ok {i : Str} {u : Unit} (h : checkDigest i = .ok u) : DigestOK (ImageRef.parse i) := by
  unfold checkDigest at h
  split at h
  · assumption
  · cases h

theorem args_ne {unq : Unquote} {ss : List Arg} {p : Nat} {xs} (h : evalArgs unq p ss = .ok xs) (hne : ss ≠ []) :
    xs ≠ [] := by
  cases ss with
  | nil => exact absurd rfl hne
  | cons a ss =>
    obtain ⟨_, -, h⟩ := bind_some h
    obtain ⟨_, -, h⟩ := bind_some h
    cases h
    simp

theorem vars_one {unq : Unquote} (ps : List Pair) : ∀ {p : Nat} {xs : List EnvVar},
    evalPairs (Pair.evalEnv unq) p ps = .ok xs → ∀ v ∈ xs, ∃ t, oneValue v.value.components = some t := by
  induction ps with
  | nil => intro p xs h v hv; cases h; cases hv
  | cons a ps ih =>
    intro p xs h v hv
    obtain ⟨x, h1, h⟩ := bind_some h
    obtain ⟨ys, h2, h⟩ := bind_some h
    cases h
    rcases List.mem_cons.1 hv with rfl | hv
    · obtain ⟨c, -, h1⟩ := bind_some h1
      cases h1
      exact ⟨c, rfl⟩
    · exact ih h2 v hv

theorem item_writable {unq : Unquote} {i : Item} {r : Str} {p : Nat} {x : Instruction} (hf : i.Fits r)
    (h : i.eval unq p = .ok (some x)) (hl : Lexical x) (ht : Tame x) : Writable x := by
  cases i with
  | blank => cases h
  | comment t => cases h
  | «from» kw fs g i a =>
    obtain ⟨_, -, h⟩ := bind_some h
    obtain ⟨_, hd, h⟩ := bind_some h
    cases h
    exact ⟨hl.1, hl.2.1, rfl, digest_ok hd, hl.2.2⟩
  | arg kw g n v =>
    cases v with
    | none => cases h; exact hl
    | some v =>
      obtain ⟨_, -, h⟩ := bind_some h
      cases h
      exact hl
  | label kw ps t =>
    obtain ⟨_, -, h⟩ := bind_some h
    cases h
    trivial
  | label1 kw g n g' v =>
    obtain ⟨_, -, h⟩ := bind_some h
    obtain ⟨_, -, h⟩ := bind_some h
    cases h
    trivial
  | shell k kw g s =>
    simp only [Item.eval] at h
    split at h
    · cases h
    · cases k <;> (cases h; obtain ⟨h1, h2, h3⟩ := ht _ rfl; exact ⟨shell_argument hf.2.2.1 hf.2.1.2 h1 h2, h3⟩)
  | exec k kw g a =>
    simp only [Item.eval] at h
    split at h
    · cases h
    · obtain ⟨_, -, h⟩ := bind_some h
      cases k <;> (cases h; trivial)
  | copy kw fs ss d =>
    obtain ⟨_, -, h⟩ := bind_some h
    obtain ⟨_, hs, h⟩ := bind_some h
    obtain ⟨_, -, h⟩ := bind_some h
    cases h
    exact ⟨hl, args_ne hs hf.2.2.1⟩
  | env kw ps t =>
    obtain ⟨_, hv, h⟩ := bind_some h
    cases h
    exact ⟨hl, .inl (vars_one ps hv)⟩
  | env1 kw g n g' s =>
    cases h
    refine ⟨hl, ?_⟩
    cases ho : oneValue (s.components (p + blen kw + blen g + blen n + blen g')) with
    | some t =>
      refine .inl fun v hv => ?_
      cases List.mem_singleton.1 hv
      exact ⟨t, ho⟩
    | none =>
      obtain ⟨h1, h2, h3⟩ := ht _ (List.mem_singleton.2 rfl) ho
      exact .inr ⟨_, rfl, shell_argument hf.2.2.2.2.2.1 hf.2.2.2.2.1.2 h1 h2, h3⟩
  | env1q kw g n g' v =>
    obtain ⟨c, -, h⟩ := bind_some h
    cases h
    refine ⟨hl, .inl fun v hv => ?_⟩
    cases List.mem_singleton.1 hv
    exact ⟨c, rfl⟩
  | misc w a =>
    cases h
    exact ⟨hl, ht.2, shell_lines a hf.2.2.1 ht.1, written_first hf.2.2.1 hf.2.2.2.1⟩

/-- every instruction is that of a line -/
theorem doc_items {unq : Unquote} (ms : List (Str × Line)) : ∀ (l : Line) (p : Nat) (is : List Instruction),
    DocFits l ms → evalDoc unq p l ms = .ok is → ∀ x ∈ is, ∃ (i : Item) (r : Str) (q : Nat),
      i.Fits r ∧ i.eval unq q = .ok (some x) := by
  induction ms with
  | nil =>
    intro l p is hf he x hx
    obtain ⟨o, h1, h2⟩ := bind_some he
    cases h2
    cases o with
    | none => cases hx
    | some y => cases List.mem_singleton.1 hx; exact ⟨_, _, _, hf.2.1, h1⟩
  | cons m ms ih =>
    intro l p is hf he x hx
    obtain ⟨n, m⟩ := m
    obtain ⟨o, h1, he⟩ := bind_some he
    obtain ⟨js, h2, h3⟩ := bind_some he
    cases h3
    rcases List.mem_append.1 hx with hx | hx
    · cases o with
      | none => cases hx
      | some y => cases List.mem_singleton.1 hx; exact ⟨_, _, _, hf.1.2.1, h1⟩
    · exact ih m _ js hf.2.2 h2 x hx

end Src

theorem numbered_of {is : List Instruction} : ∀ {n i}, i ∈ numberStages n is →
    ∃ x ∈ is, unnumbered x = unnumbered i := by
  induction is with
  | nil => intro n i h; cases h
  | cons j is ih =>
    intro n i h
    have next : ∀ {m}, i ∈ numberStages m is → ∃ x ∈ j :: is, unnumbered x = unnumbered i := fun h => by
      obtain ⟨x, h1, h2⟩ := ih h
      exact ⟨x, by simp [h1], h2⟩
    cases j <;> (rcases List.mem_cons.1 h with rfl | h; exact ⟨_, List.mem_cons_self, rfl⟩; exact next h)

theorem lexical_unnumbered (i : Instruction) : Lexical (unnumbered i) = Lexical i := by cases i <;> rfl
theorem tame_unnumbered (i : Instruction) : Tame (unnumbered i) = Tame i := by cases i <;> rfl
theorem writable_unnumbered (i : Instruction) : Writable (unnumbered i) = Writable i := by cases i <;> rfl

/-- C73: all instructions of an accepted text are `Writable`, except for peculiar shell text. -/
theorem C73_parsed {unq : Unquote} {s : Str} {d : Dockerfile} (h : Dockerfile.parse unq s = .ok d)
    {i : Instruction} (hi : i ∈ d.instructions) (ht : Tame i) : Writable i := by
  have hl := C50_lexical unq s d h i hi
  obtain ⟨l, ms, is, hf, -, he, rfl⟩ := C51_accepted.1 h
  obtain ⟨x, hx, e⟩ := numbered_of hi
  obtain ⟨it, r, q, h1, h2⟩ := Src.doc_items ms l 0 is hf he x hx
  rw [← writable_unnumbered, ← e, writable_unnumbered]
  refine Src.item_writable h1 h2 ?_ ?_
  · rw [← lexical_unnumbered, e, lexical_unnumbered]; exact hl
  · rw [← tame_unnumbered, e, tame_unnumbered]; exact ht

/-! ## a normal form -/

theorem shell_remap (f : Nat → Nat) : ∀ cs : List BreakableStringComponent,
    writtenShell (cs.map (·.remap f)) = writtenShell cs
  | [] => rfl
  | [.string s] => rfl
  | .string s :: c :: cs => congrArg (Shell.more _ _ _) (shell_remap f (c :: cs))
  | .comment s :: cs => congrArg (Shell.comment _ _ _) (shell_remap f cs)

theorem oneValue_remap (f : Nat → Nat) (cs : List BreakableStringComponent) :
    oneValue (cs.map (·.remap f)) = oneValue cs := by
  rcases cs with _ | ⟨c, _ | ⟨d, cs⟩⟩ <;> first | rfl | (cases c <;> rfl)

theorem array_remap (f : Nat → Nat) (a : StringArray) : writtenArray (a.remap f) = writtenArray a := by
  obtain ⟨sp, es⟩ := a
  cases es with
  | nil => rfl
  | cons e es => simp only [writtenArray, StringArray.remap, List.map_cons, List.map_map]; rfl

theorem expr_remap (f : Nat → Nat) (k : ExecKind) (e : ShellOrExecExpr) :
    writtenExpr k (e.remap f) = writtenExpr k e := by
  cases e with
  | shell b => exact congrArg (Item.shell k _ _) (shell_remap f b.components)
  | exec a => exact congrArg (Item.exec k _ _) (array_remap f a)

theorem var_remap (f : Nat → Nat) (v : EnvVar) : writtenVar (v.remap f) = writtenVar v := by
  show PairText.mk _ _ _ _ _ = PairText.mk _ _ _ _ _
  simp only [EnvVar.remap, BreakableString.remap, oneValue_remap]
  rfl

/-- What is written does not depend on positions. -/
theorem itemOf_remap (f : Nat → Nat) (i : Instruction) : itemOf (i.remap f) = itemOf i := by
  cases i with
  | «from» i =>
    simp only [Instruction.remap, FromInstruction.remap, itemOf, List.map_map, Option.map_map]
    rfl
  | arg i =>
    simp only [Instruction.remap, ArgInstruction.remap, itemOf, Option.map_map]
    rfl
  | label i =>
    simp only [Instruction.remap, LabelInstruction.remap, itemOf, List.map_map, List.map_eq_nil_iff]
    rfl
  | run i => exact expr_remap f _ _
  | cmd i => exact expr_remap f _ _
  | entrypoint i => exact expr_remap f _ _
  | copy i =>
    simp only [Instruction.remap, CopyInstruction.remap, itemOf, List.map_map]
    rfl
  | env i =>
    obtain ⟨sp, vs⟩ := i
    simp only [Instruction.remap, EnvInstruction.remap, itemOf]
    have h1 : (∀ v ∈ vs.map (·.remap f), (oneValue v.value.components).isSome) ↔
        ∀ v ∈ vs, (oneValue v.value.components).isSome := by
      simp only [List.forall_mem_map]
      exact forall_congr' fun v => forall_congr' fun _ => by
        show (oneValue (v.value.components.map (·.remap f))).isSome ↔ _
        rw [oneValue_remap]
    have h2 : (vs.map (·.remap f)).map writtenVar = vs.map writtenVar := by
      rw [List.map_map]
      exact List.map_congr_left fun v _ => var_remap f v
    by_cases hp : ∀ v ∈ vs, (oneValue v.value.components).isSome
    · rw [if_pos hp, if_pos (h1.2 hp), h2]
      simp only [List.map_eq_nil_iff]
    · rw [if_neg hp, if_neg (fun h => hp (h1.1 h))]
      cases vs with
      | nil => rfl
      | cons v vs => exact congrArg (Item.env1 _ _ _ _) (shell_remap f v.value.components)
  | misc i => exact congrArg (Item.misc _) (shell_remap f i.arguments.components)

theorem writeDoc_congr : ∀ {is js : List Instruction}, is.map itemOf = js.map itemOf → writeDoc is = writeDoc js
  | [], [], _ => rfl
  | [], _ :: _, h => by cases h
  | _ :: _, [], h => by cases h
  | [i], [j], h => by
    simp only [List.map_cons, List.map_nil, List.cons.injEq, and_true] at h
    simp only [writeDoc, h]
  | [_], _ :: _ :: _, h => by simp at h
  | _ :: _ :: _, [_], h => by simp at h
  | i :: i' :: is, j :: j' :: js, h => by
    have h1 := (List.cons.inj h).1
    have h2 := writeDoc_congr (is := i' :: is) (js := j' :: js) (List.cons.inj h).2
    simp only [writeDoc, h1] at h2 ⊢
    rw [h2]

theorem writeDoc_of_bare {d e : Dockerfile} (h : d.bare = e.bare) :
    writeDoc d.instructions = writeDoc e.instructions := by
  refine writeDoc_congr ?_
  have h := congrArg Dockerfile.instructions h
  have h' := congrArg (List.map itemOf) h
  simp only [Dockerfile.bare, List.map_map] at h'
  have k : itemOf ∘ (fun x : Instruction => x.remap fun _ => 0) = itemOf :=
    funext fun i => itemOf_remap _ i
  rw [k] at h'
  exact h'

/-- C73: such a document can be written anew, and is read again as the same document (without text
and positions); writing that one gives the same text. -/
theorem C73_normal {unq : Unquote} (hu : UndoesEscapes unq) {s : Str} {d : Dockerfile}
    (h : Dockerfile.parse unq s = .ok d) (ht : ∀ i ∈ d.instructions, Tame i) :
    ∃ d', Dockerfile.parse unq (writeDoc d.instructions) = .ok d' ∧ d'.bare = d.bare ∧
      writeDoc d'.instructions = writeDoc d.instructions := by
  obtain ⟨d', h1, -, h2⟩ := C73_write hu fun i hi => C73_parsed h hi (ht i hi)
  have h3 : d'.bare = d.bare := by
    refine h2.trans ?_
    obtain ⟨l, ms, is, -, -, -, rfl⟩ := C51_accepted.1 h
    simp only [documentOf, Dockerfile.bare, Src.numberStages_twice, Src.globalArgs_numbered]
  exact ⟨d', h1, h3, writeDoc_of_bare h3⟩

/-- C73: two such documents have the same values iff the same text is written for them. -/
theorem C73_canonical {unq : Unquote} (hu : UndoesEscapes unq) {s t : Str} {d e : Dockerfile}
    (hd : Dockerfile.parse unq s = .ok d) (he : Dockerfile.parse unq t = .ok e)
    (htd : ∀ i ∈ d.instructions, Tame i) (hte : ∀ i ∈ e.instructions, Tame i) :
    d.bare = e.bare ↔ writeDoc d.instructions = writeDoc e.instructions := by
  refine ⟨writeDoc_of_bare, fun h => ?_⟩
  obtain ⟨d', h1, h2, -⟩ := C73_normal hu hd htd
  obtain ⟨e', h3, h4, -⟩ := C73_normal hu he hte
  rw [h, h3] at h1
  cases h1
  rw [← h2, h4]

/-! ## examples -/

/-- a string at no place -/
def at0 (t : Str) : SpannedString := ⟨⟨0, 0⟩, t⟩

/-- an image, a path with a blank, a line feed and a quote, an empty value, shell text with a comment,
an array, labels with odd names -/
def oddInstructions : List Instruction :=
  [ .arg ⟨⟨0, 0⟩, at0 c!"v", some (at0 [])⟩,
    .from ⟨⟨0, 0⟩, [⟨⟨0, 0⟩, at0 c!"platform", at0 c!"a b"⟩], at0 c!"a:$v", ImageRef.parse c!"a:$v", 7, some (at0 c!"x")⟩,
    .copy ⟨⟨0, 0⟩, [], [at0 c!"a \"\n", at0 c!"--x=y"], at0 c!"\\"⟩,
    .label ⟨⟨0, 0⟩, [⟨⟨0, 0⟩, at0 c!"=", at0 c!"#\t\r"⟩]⟩,
    .label ⟨⟨0, 0⟩, []⟩,
    .env ⟨⟨0, 0⟩, [⟨⟨0, 0⟩, at0 c!"k", ⟨⟨0, 0⟩, [.string (at0 ['\x00', '\x1F'])]⟩⟩]⟩,
    .env ⟨⟨0, 0⟩, [⟨⟨0, 0⟩, at0 c!"k", ⟨⟨0, 0⟩, [.string (at0 c!"a"), .comment ⟨⟨0, 0⟩, c!"#c"⟩, .string (at0 c!"b")]⟩⟩]⟩,
    .run ⟨⟨0, 0⟩, .shell ⟨⟨0, 0⟩, [.string (at0 c!"a"), .comment ⟨⟨0, 0⟩, c!"#c"⟩, .string (at0 c!" b")]⟩⟩,
    .cmd ⟨⟨0, 0⟩, .exec ⟨⟨0, 0⟩, [at0 [], at0 c!"é'"]⟩⟩,
    .misc ⟨⟨0, 0⟩, at0 c!"USER", ⟨⟨0, 0⟩, [.string (at0 c!" me")]⟩⟩ ]

example : writeDoc oddInstructions =
    c!"ARG v=\"\"\nFROM --platform=\"a\\x20b\" a:$v AS x\nCOPY \"a\\x20\\\"\\n\" \"--x=y\" \"\\\\\"\nLABEL \"=\"=\"#\\t\\r\"\nLABEL \nENV k=\"\\x00\\x1f\"\nENV k a\\\n#c\nb\nRUN a\\\n#c\n b\nCMD [\"\", \"é'\"]\nUSER me" := by
  decide +kernel

example : ((Dockerfile.parse Enquote.unquote (writeDoc oddInstructions)).toOption.map (·.bare)) =
    some (documentOf [] oddInstructions).bare := by decide +kernel

theorem line_plain {t : Str} (h1 : t ≠ []) (h2 : ∀ c ∈ t, c ≠ '\n' ∧ c ≠ '\r') (h3 : '#' ∉ t) : Shell.LineOK t :=
  ⟨h1, h2, fun w r _ e => h3 (by rw [e]; simp)⟩

/-- the hypothesis of C73_write -/
theorem odd_writable : ∀ i ∈ oddInstructions, Writable i := by
  have end_plain : ∀ {t : Str}, '\\' ∉ t → ∀ a w, Blanks w → t ≠ a ++ '\\' :: w :=
    fun h a w _ e => h (by rw [e]; simp)
  have lines : ∀ t u : Str, t ≠ [] → u ≠ [] → (∀ c ∈ t, c ≠ '\n' ∧ c ≠ '\r') → (∀ c ∈ u, c ≠ '\n' ∧ c ≠ '\r') →
      '#' ∉ t → '#' ∉ u → '\\' ∉ u →
      LinesOK [.string (at0 t), .comment ⟨⟨0, 0⟩, c!"#c"⟩, .string (at0 u)] :=
    fun t u h1 h2 h3 h4 h5 h6 h7 => ⟨line_plain h1 h3 h5, ⟨c!"c", rfl, by decide⟩, line_plain h2 h4 h6, end_plain h7⟩
  intro i hi
  simp only [oddInstructions, List.mem_cons, List.not_mem_nil, or_false] at hi
  rcases hi with rfl | rfl | rfl | rfl | rfl | rfl | rfl | rfl | rfl | rfl
  · exact ⟨'v', [], rfl, by unfold IsAlpha; decide, by intro d hd; cases hd⟩
  · refine ⟨?_, ⟨by decide, ?_⟩, rfl, ?_, ?_⟩
    · intro f hf
      cases List.mem_singleton.1 hf
      exact ⟨by decide, by unfold IsAlpha; decide⟩
    · unfold IsImageChar IsAlpha IsDigit; decide
    · intro h e; revert e; simp only [show (ImageRef.parse c!"a:$v").hash = none by decide]; intro e; cases e
    · rintro a ⟨⟩; exact ⟨by decide, by unfold IsIdent IsAlpha IsDigit; decide⟩
  · exact ⟨fun f hf => (by cases hf), by simp⟩
  · trivial
  · trivial
  · refine ⟨?_, .inl ?_⟩
    · intro v hv; cases List.mem_singleton.1 hv; exact ⟨by decide, by unfold IsWord IsAlpha IsDigit; decide⟩
    · intro v hv; cases List.mem_singleton.1 hv; exact ⟨_, rfl⟩
  · refine ⟨?_, .inr ⟨_, rfl, ⟨lines _ _ (by decide) (by decide) (by decide) (by decide) (by decide) (by decide)
      (by decide), _, _, rfl, 'a', [], rfl, by decide⟩, ?_⟩⟩
    · intro v hv; cases List.mem_singleton.1 hv; exact ⟨by decide, by unfold IsWord IsAlpha IsDigit; decide⟩
    · intro r; exact ⟨fun e => absurd (List.cons.inj e).1 (by decide), fun e => absurd (List.cons.inj e).1 (by decide)⟩
  · refine ⟨⟨lines _ _ (by decide) (by decide) (by decide) (by decide) (by decide) (by decide)
      (by decide), _, _, rfl, 'a', [], rfl, by decide⟩, ?_⟩
    intro w c r _ e
    exact absurd (List.cons.inj e).1 (by decide)
  · trivial
  · refine ⟨⟨by decide, by unfold IsAlpha; decide⟩, by unfold IsKeyword; decide,
      ⟨line_plain (by decide) (by decide) (by decide), end_plain (by decide)⟩, ?_⟩
    intro c r e
    cases (List.cons.inj e).1
    unfold IsAlpha; decide

/-- C73: a backslash at the end swallows the next line. -/
theorem C73_backslash :
    let is : List Instruction := [.run ⟨⟨0, 0⟩, .shell ⟨⟨0, 0⟩, [.string (at0 c!"a\\")]⟩⟩,
      .run ⟨⟨0, 0⟩, .shell ⟨⟨0, 0⟩, [.string (at0 c!"b")]⟩⟩]
    (Dockerfile.parse Enquote.unquote (writeDoc is)).toOption.map (·.instructions.length) = some 1 := by
  decide +kernel

/-- C73: shell text that looks like an array is read as one. -/
theorem C73_array :
    let is : List Instruction := [.run ⟨⟨0, 0⟩, .shell ⟨⟨0, 0⟩, [.string (at0 c!"[\"a\""), .string (at0 c!"]")]⟩⟩]
    (Dockerfile.parse Enquote.unquote (writeDoc is)).toOption.map (·.bare) =
      some (documentOf [] [.run ⟨⟨0, 0⟩, .exec ⟨⟨0, 0⟩, [at0 c!"a"]⟩⟩]).bare := by
  decide +kernel

/-- C73: a keyword is not an unknown word. -/
theorem C73_keyword :
    let is : List Instruction := [.misc ⟨⟨0, 0⟩, at0 c!"ARG", ⟨⟨0, 0⟩, [.string (at0 c!" a")]⟩⟩]
    (Dockerfile.parse Enquote.unquote (writeDoc is)).toOption.map (·.bare) =
      some (documentOf [] [.arg ⟨⟨0, 0⟩, at0 c!"a", none⟩]).bare := by
  decide +kernel

/-- C73: without digest checks: an image whose digest is invalid cannot be written. -/
theorem C73_digest :
    let is : List Instruction := [.from ⟨⟨0, 0⟩, [], at0 c!"a@b", ImageRef.parse c!"a@b", 0, none⟩]
    (Dockerfile.parse Enquote.unquote (writeDoc is)).toOption.isNone := by
  decide +kernel

end Verif
