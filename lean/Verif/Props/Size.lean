import Verif.Spec.Size
import Verif.Props.Parse
import Verif.Props.Image
import Verif.Props.Loop
import Verif.Props.Growth

/-!
# How large a document can get (C82)
-/

namespace Verif
open Spec
set_option linter.unusedSimpArgs false

/-! ## bytes in trees -/

/-- the text of a tree has at least `w` bytes -/
def Weighs (n : SpanTree) (w : Nat) : Prop := ∀ p t, Covers p t n → w ≤ blen t
/-- the same for trees one after the other -/
def WeighsL (ns : List SpanTree) (w : Nat) : Prop := ∀ p x, Laid p x ns → w ≤ blen x

theorem WeighsL.nil : WeighsL [] 0 := fun _ _ _ => Nat.zero_le _

theorem WeighsL.cons {n ns w v} (h : Weighs n w) (h' : WeighsL ns v) : WeighsL (n :: ns) (w + v) := by
  intro p x hl
  cases hl with
  | cons h1 h2 h3 h4 =>
    have a := h _ _ ⟨_, _, rfl, h1, h2, h3⟩
    have b := h' _ _ h4
    simp only [blen_append]
    omega

theorem laid_append {ns ms : List SpanTree} : ∀ {p x}, Laid p x (ns ++ ms) →
    ∃ y z, x = y ++ z ∧ Laid p y ns ∧ Laid (p + blen y) z ms := by
  induction ns with
  | nil => intro p x h; exact ⟨[], x, rfl, .nil, by simpa using h⟩
  | cons n ns ih =>
    intro p x h
    cases h with
    | @cons _ a b c _ _ _ h1 h2 h3 h4 =>
      obtain ⟨y, z, rfl, h5, h6⟩ := ih h4
      refine ⟨a ++ b ++ y, z, by simp, .cons h1 h2 h3 h5, ?_⟩
      rw [blen_append, blen_append]
      have e : p + blen a + blen b + blen y = p + (blen a + blen b + blen y) := by omega
      rw [← e]; exact h6

theorem WeighsL.append {ns ms w v} (h : WeighsL ns w) (h' : WeighsL ms v) : WeighsL (ns ++ ms) (w + v) := by
  intro p x hl
  obtain ⟨y, z, rfl, h1, h2⟩ := laid_append hl
  have := h _ _ h1
  have := h' _ _ h2
  rw [blen_append]; omega

theorem WeighsL.map {α : Type} (g : α → SpanTree) (w : α → Nat) (h : ∀ a, Weighs (g a) (w a)) (xs : List α) :
    WeighsL (xs.map g) (xs.map w).sum := by
  induction xs with
  | nil => exact .nil
  | cons a xs ih => simpa using WeighsL.cons (h a) ih

theorem WeighsL.toList {α : Type} (g : α → SpanTree) (w : α → Nat) (h : ∀ a, Weighs (g a) (w a)) (x : Option α) :
    WeighsL (x.map g).toList (x.toList.map w).sum := by
  cases x with
  | none => exact .nil
  | some a => simpa using WeighsL.cons (h a) .nil

theorem Weighs.node {sp P ch w} (h : WeighsL ch w) : Weighs (.node sp P ch) w := by
  rintro p t ⟨P', ch', e, -, -, h4⟩
  cases e
  exact h _ _ h4

theorem Weighs.leaf {sp ch w} {P : Str → Prop} (h : ∀ t, P t → w ≤ blen t) : Weighs (.node sp P ch) w := by
  rintro p t ⟨P', ch', e, -, h3, -⟩
  cases e
  exact h _ h3

theorem Weighs.mono {n w v} (h : Weighs n w) (hv : v ≤ w) : Weighs n v := fun p t ht => Nat.le_trans hv (h p t ht)
theorem WeighsL.mono {n w v} (h : WeighsL n w) (hv : v ≤ w) : WeighsL n v := fun p t ht => Nat.le_trans hv (h p t ht)

/-! ## texts -/

theorem joined_le {t j : Str} (h : Joined t j) : blen j ≤ blen t := by
  induction h with
  | nil => exact Nat.le_refl _
  | @brk t j _ ih =>
    have : blen ('\\' :: '\n' :: t) = blen ['\\', '\n'] + blen t := blen_append ['\\', '\n'] t
    omega
  | @chr c t j _ _ ih =>
    have h1 : blen (c :: t) = blen [c] + blen t := blen_append [c] t
    have h2 : blen (c :: j) = blen [c] + blen j := blen_append [c] j
    omega

section
variable {unq : Unquote} (hu : Shortens unq)
include hu

theorem reads_le {t c : Str} (h : Reads unq t c) : blen c ≤ blen t := by
  rcases h with ⟨-, h⟩ | ⟨-, rfl⟩
  · exact hu _ _ h
  · exact Nat.le_refl _

theorem labelReads_le {t c : Str} (h : LabelReads unq t c) : blen c ≤ blen t := by
  rcases h with ⟨-, j, hj, h⟩ | ⟨-, rfl⟩
  · exact Nat.le_trans (hu _ _ h) (joined_le hj)
  · exact Nat.le_refl _

theorem str_weighs (s : SpannedString) : Weighs (strTree unq s) (blen s.content) :=
  .leaf fun _ h => reads_le hu h

theorem labelStr_weighs (s : SpannedString) : Weighs (labelStrTree unq s) (blen s.content) :=
  .leaf fun _ h => labelReads_le hu h

theorem flag_weighs (f : Flag) : Weighs (flagTree unq f) (blen f.name.content + blen f.value.content) :=
  .node (.cons (str_weighs hu _) (by simpa using WeighsL.cons (str_weighs hu f.value) .nil))

theorem label_weighs (l : Label) : Weighs (labelTree unq l) (blen l.name.content + blen l.value.content) :=
  .node (.cons (labelStr_weighs hu _) (by simpa using WeighsL.cons (labelStr_weighs hu l.value) .nil))

omit hu in
theorem comp_weighs {rd : Str → Str → Prop} (h : ∀ t c, rd t c → blen c ≤ blen t) (x : BreakableStringComponent) :
    Weighs (compTree rd x) (blen (componentText x)) := by
  cases x with
  | string s => exact .leaf fun t ht => h _ _ ht
  | comment c => exact .leaf fun t ht => by rw [ht.1]; exact Nat.le_refl _

omit hu in
theorem shell_weighs (b : BreakableString) : Weighs (shellTree b) (bytesOf (b.components.map componentText)) := by
  rw [bytesOf, List.map_map]
  exact .node (.map _ _ (comp_weighs fun t c h => by rw [h.1]; exact Nat.le_refl _) _)

theorem value_weighs (b : BreakableString) : Weighs (valueTree unq b) (bytesOf (b.components.map componentText)) := by
  rw [bytesOf, List.map_map]
  refine .node (.map _ _ (comp_weighs fun t c h => ?_) _)
  rcases h with rfl | ⟨-, h⟩
  · exact Nat.le_refl _
  · exact hu _ _ h

theorem exec_weighs (a : StringArray) : Weighs (execTree unq a) (bytesOf (a.elements.map (·.content))) := by
  rw [bytesOf, List.map_map]
  exact .node (.map _ _ (fun e => .leaf fun t ht => hu _ _ ht.2) _)

theorem env_weighs (v : EnvVar) : Weighs (envTree unq v) (blen v.key.content + bytesOf (v.value.components.map componentText)) :=
  .node (.cons (str_weighs hu _) (by simpa using WeighsL.cons (value_weighs hu v.value) .nil))

omit hu in
theorem bytesOf_append (a b : List Str) : bytesOf (a ++ b) = bytesOf a + bytesOf b := by simp [bytesOf]
omit hu in
theorem bytesOf_nil : bytesOf [] = 0 := rfl
omit hu in
theorem bytesOf_cons (a : Str) (b : List Str) : bytesOf (a :: b) = blen a + bytesOf b := by simp [bytesOf]
omit hu in
theorem bytesOf_flatMap {α : Type} (f : α → List Str) (xs : List α) : bytesOf (xs.flatMap f) = (xs.map fun x => bytesOf (f x)).sum := by
  induction xs with
  | nil => rfl
  | cons x xs ih => simp [bytesOf_append, ih]
omit hu in
theorem bytesOf_map {α : Type} (f : α → Str) (xs : List α) : bytesOf (xs.map f) = (xs.map fun x => blen (f x)).sum := by
  simp [bytesOf, Function.comp_def]

theorem tree_weighs (i : Instruction) : Weighs (tree unq i) (bytesOf (storedTexts i)) := by
  cases i with
  | «from» i =>
    refine (Weighs.node ((WeighsL.map _ _ (flag_weighs hu) i.flags).append ((WeighsL.cons (str_weighs hu i.image)
      (.toList _ _ (str_weighs hu) i.alias))))).mono ?_
    simp [storedTexts, plainStrings, labelStrings, arrays, shells, exprOf, envValues, bytesOf_append, bytesOf_flatMap, bytesOf_map,
      bytesOf_cons, flagStrings, List.map_flatMap, bytesOf_nil]
  | arg i =>
    refine (Weighs.node ((WeighsL.cons (str_weighs hu i.name) (.toList _ _ (str_weighs hu) i.value)))).mono ?_
    simp [storedTexts, plainStrings, labelStrings, arrays, shells, exprOf, envValues, bytesOf_append, bytesOf_flatMap, bytesOf_map,
      bytesOf_cons, bytesOf_nil]
  | label i =>
    refine (Weighs.node (WeighsL.map _ _ (label_weighs hu) i.labels)).mono ?_
    simp [storedTexts, plainStrings, labelStrings, arrays, shells, exprOf, envValues, bytesOf_append, bytesOf_flatMap, bytesOf_map,
      bytesOf_cons, List.map_flatMap, bytesOf_nil]
  | copy i =>
    refine (Weighs.node ((WeighsL.map _ _ (flag_weighs hu) i.flags).append ((WeighsL.map _ _ (str_weighs hu) i.sources).append
      (.cons (str_weighs hu i.destination) .nil)))).mono ?_
    simp [storedTexts, plainStrings, labelStrings, arrays, shells, exprOf, envValues, bytesOf_append, bytesOf_flatMap, bytesOf_map,
      bytesOf_cons, flagStrings, List.map_flatMap, bytesOf_nil]
  | env i =>
    refine (Weighs.node (WeighsL.map _ _ (env_weighs hu) i.vars)).mono ?_
    simp [storedTexts, plainStrings, labelStrings, arrays, shells, exprOf, envValues, bytesOf_append, bytesOf_flatMap, bytesOf_map,
      bytesOf_nil, Function.comp_def]
    generalize i.vars = vs
    induction vs with
    | nil => exact Nat.le_refl _
    | cons v vs ih => simp only [List.map_cons, List.sum_cons]; omega
  | misc i =>
    refine (Weighs.node (.cons (str_weighs hu i.instruction) (.cons (shell_weighs i.arguments) .nil))).mono ?_
    simp [storedTexts, plainStrings, labelStrings, arrays, shells, exprOf, envValues, bytesOf_append, bytesOf_cons, bytesOf_nil]
  | run i => exact expr i.span i.expr _ (by
      cases h : i.expr <;> simp [storedTexts, plainStrings, labelStrings, arrays, shells, exprOf, envValues, h]) _
  | cmd i => exact expr i.span i.expr _ (by
      cases h : i.expr <;> simp [storedTexts, plainStrings, labelStrings, arrays, shells, exprOf, envValues, h]) _
  | entrypoint i => exact expr i.span i.expr _ (by
      cases h : i.expr <;> simp [storedTexts, plainStrings, labelStrings, arrays, shells, exprOf, envValues, h]) _
where
  expr (sp : Span) (e : ShellOrExecExpr) (ts : List Str)
      (h : ts = match e with
        | .shell b => b.components.map componentText
        | .exec a => a.elements.map (·.content)) (P : Str → Prop) : Weighs (.node sp P [exprTree unq e]) (bytesOf ts) := by
    subst h
    cases e with
    | shell b => exact (Weighs.node (.cons (shell_weighs b) .nil)).mono (Nat.le_refl _)
    | exec a => exact (Weighs.node (.cons (exec_weighs hu a) .nil)).mono (Nat.le_refl _)

end

/-! ## documents -/

/-- what holds of single instructions holds of documents -/
theorem docText_sum {unq : Unquote} {f : Instruction → Nat} {k : Nat}
    (hf : ∀ i p t, Covers p t (tree unq i) → f i ≤ k * blen t) {p s is} (h : DocText unq p s is) :
    (is.map f).sum ≤ k * blen s := by
  have item : ∀ {p t is}, ItemText unq p t is → (is.map f).sum ≤ k * blen t := by
    intro p t is h
    cases h with
    | none => exact Nat.zero_le _
    | comment _ => exact Nat.zero_le _
    | instruction h => simpa using hf _ _ _ h
  induction h with
  | last _ _ h =>
    have := item h
    simp only [blen_append, Nat.mul_add]; omega
  | line _ _ h _ _ ih =>
    have := item h
    simp only [blen_append, Nat.mul_add, List.map_append, List.sum_append]; omega

/-- C82: the texts stored in a document together are no longer than the text it was parsed from.
The hypothesis holds of `enquote::unquote` (`C82_unquote`). -/
theorem C82_texts (unq : Unquote) (hu : Shortens unq) (s : Str) (d : Dockerfile) (h : Dockerfile.parse unq s = .ok d) :
    bytesOf (d.instructions.flatMap storedTexts) ≤ blen s := by
  have := docText_sum (f := fun i => bytesOf (storedTexts i)) (k := 1) (fun i p t ht => by have := tree_weighs hu i p t ht; omega) (C08_document unq s d h)
  rw [bytesOf_flatMap]; omega

/-- C82: the parts of an image together are no longer than the image. -/
theorem C82_image (s : Str) : bytesOf (imageTexts (ImageRef.parse s)) ≤ blen s := by
  have h := congrArg blen (C18_display_parse s)
  have h' := C19_tag_hash_exclusive s
  generalize ImageRef.parse s = r at h h'
  obtain ⟨rr, ri, rt, rh⟩ := r
  rw [← h]
  cases rr <;> cases rt <;> cases rh <;>
    simp [ImageRef.display, imageTexts, bytesOf_append, bytesOf_cons, bytesOf_nil, blen_append] at h' ⊢ <;> omega

/-- C82: so are the parts of all images of a document. -/
theorem C82_images (unq : Unquote) (hu : Shortens unq) (s : Str) (d : Dockerfile) (h : Dockerfile.parse unq s = .ok d) :
    bytesOf (d.instructions.flatMap storedImages) ≤ blen s := by
  refine Nat.le_trans ?_ (C82_texts unq hu s d h)
  have hi := C49_image_parsed unq s d h
  revert hi
  generalize d.instructions = is
  intro hi
  induction is with
  | nil => exact Nat.le_refl _
  | cons i is ih =>
    have h1 := ih fun f hf => hi f (List.mem_cons_of_mem _ hf)
    simp only [List.flatMap_cons, bytesOf_append]
    have h2 : bytesOf (storedImages i) ≤ bytesOf (storedTexts i) := by
      cases i with
      | «from» f =>
        have h3 := C82_image f.image.content
        rw [← hi f (List.mem_cons_self ..)] at h3
        refine Nat.le_trans h3 ?_
        simp [storedTexts, plainStrings, bytesOf_append, bytesOf_cons]
        omega
      | _ => exact Nat.zero_le _
    omega

/-- C82: the global arguments, which are copied, are no longer either. -/
theorem C82_global_args (unq : Unquote) (hu : Shortens unq) (s : Str) (d : Dockerfile) (h : Dockerfile.parse unq s = .ok d) :
    bytesOf (d.global_args.flatMap fun a => storedTexts (.arg a)) ≤ blen s := by
  refine Nat.le_trans ?_ (C82_texts unq hu s d h)
  rw [C09_global_args unq s d h]
  generalize d.instructions = is
  induction is with
  | nil => exact Nat.le_refl _
  | cons i is ih =>
    cases i <;> simp [argsBeforeFrom, bytesOf_append, bytesOf_nil] at ih ⊢ <;> omega

/-- C82: all texts of a document together, including its source. -/
theorem C82_document (unq : Unquote) (hu : Shortens unq) (s : Str) (d : Dockerfile) (h : Dockerfile.parse unq s = .ok d) :
    blen d.content + bytesOf (d.instructions.flatMap storedTexts) + bytesOf (d.instructions.flatMap storedImages) +
      bytesOf (d.global_args.flatMap fun a => storedTexts (.arg a)) ≤ 4 * blen s := by
  have h1 := C82_texts unq hu s d h
  have h2 := C82_images unq hu s d h
  have h3 := C82_global_args unq hu s d h
  have hc : d.content = s := ((ens_parse unq s).ok_of h).1
  rw [hc]
  omega

/-- C82: `enquote::unquote` never makes texts longer. -/
theorem C82_unquote : Shortens Enquote.unquote := fun q t h => C62_enquote q t h

/-! ## numbers of fields -/

theorem blen_pos' {t : Str} (h : t ≠ []) : 1 ≤ blen t := by
  cases t with
  | nil => exact absurd rfl h
  | cons c t =>
    have h1 : blen (c :: t) = blen [c] + blen t := blen_append [c] t
    have h2 : 1 ≤ blen [c] := by simp [blen]; exact Char.utf8Size_pos c
    omega

theorem Weighs.one (n : SpanTree) : Weighs n 1 := by
  rintro p t ⟨_, _, -, h, -, -⟩
  exact blen_pos' h

theorem WeighsL.length (ns : List SpanTree) : WeighsL ns ns.length := by
  induction ns with
  | nil => exact .nil
  | cons n ns ih => exact (WeighsL.cons (.one n) ih).mono (by simp; omega)

theorem Weighs.both {n w v} (h : Weighs n w) (h' : Weighs n v) : Weighs n (max w v) := fun p t ht => by
  exact Nat.max_le.2 ⟨h p t ht, h' p t ht⟩

/-- a node with `k` leaves has at least `k` bytes, and at least one -/
theorem Weighs.leaves {sp P ch k} (h : ch.length = k) : Weighs (.node sp P ch) (max 1 k) :=
  .both (.one _) (h ▸ .node (.length ch))

theorem sum_le_sum {α : Type} (f g : α → Nat) (h : ∀ a, f a ≤ g a) (xs : List α) : (xs.map f).sum ≤ (xs.map g).sum := by
  induction xs with
  | nil => exact Nat.le_refl _
  | cons a xs ih => have := h a; simp only [List.map_cons, List.sum_cons]; omega

theorem sum_two {α : Type} (f : α → Nat) (xs : List α) : (xs.map fun a => 2 * f a).sum = 2 * (xs.map f).sum := by
  induction xs with
  | nil => rfl
  | cons a xs ih => simp only [List.map_cons, List.sum_cons, ih]; omega

theorem sum_const {α : Type} (k : Nat) (xs : List α) : (xs.map fun _ => k).sum = k * xs.length := by
  induction xs with
  | nil => rfl
  | cons a xs ih => simp only [List.map_cons, List.sum_cons, ih, List.length_cons, Nat.mul_add]; omega

/-- half as many bytes as fields -/
theorem fields_weigh (unq : Unquote) (i : Instruction) (p : Nat) (t : Str) (h : Covers p t (tree unq i)) :
    (fieldSpans i).length ≤ 2 * blen t := by
  have flags : ∀ fs : List Flag, WeighsL (fs.map (flagTree unq)) (2 * fs.length) := fun fs =>
    (WeighsL.map (flagTree unq) (fun _ => 2) (fun f => Weighs.node (WeighsL.length [strTree unq f.name, strTree unq f.value])) fs).mono
      (by rw [sum_const]; exact Nat.le_refl _)
  have flags' : ∀ fs : List Flag, (fs.flatMap flagSpans).length = 3 * fs.length := fun fs => by
    simp only [List.length_flatMap]
    exact sum_const 3 fs
  cases i with
  | «from» i =>
    have := Weighs.node ((flags i.flags).append (.length (strTree unq i.image :: (i.alias.map (strTree unq)).toList))) p t h
    cases ha : i.alias <;> simp [fieldSpans, flags', ha] at this ⊢ <;> omega
  | arg i =>
    have := Weighs.node (.length (strTree unq i.name :: (i.value.map (strTree unq)).toList)) p t h
    cases ha : i.value <;> simp [fieldSpans, ha] at this ⊢ <;> omega
  | label i =>
    have := Weighs.node (WeighsL.map (labelTree unq) (fun _ => 2) (fun l => Weighs.node (WeighsL.length [labelStrTree unq l.name, labelStrTree unq l.value])) i.labels) p t h
    rw [sum_const] at this
    have e : (fieldSpans (.label i)).length = 3 * i.labels.length := by
      simp only [fieldSpans, List.length_flatMap]
      exact sum_const 3 i.labels
    omega
  | copy i =>
    have := Weighs.node ((flags i.flags).append (.length (i.sources.map (strTree unq) ++ [strTree unq i.destination]))) p t h
    simp [fieldSpans, flags'] at this ⊢
    omega
  | env i =>
    have := Weighs.node (WeighsL.map (envTree unq) (fun v : EnvVar => 1 + max 1 v.value.components.length) (fun v => .node (by
      exact WeighsL.cons (.one (strTree unq v.key)) (.cons (Weighs.leaves (k := v.value.components.length) (by simp)) .nil))) i.vars) p t h
    have e : (fieldSpans (.env i)).length ≤ 2 * (i.vars.map fun v => 1 + max 1 v.value.components.length).sum := by
      rw [← sum_two, fieldSpans, List.length_flatMap]
      exact sum_le_sum _ _ (fun v => by simp [breakableSpans]; omega) _
    omega
  | misc i =>
    have := Weighs.node (WeighsL.cons (.one (strTree unq i.instruction)) (.cons (Weighs.leaves (k := i.arguments.components.length) (by simp)) .nil)) p t h
    simp [fieldSpans, breakableSpans] at this ⊢
    omega
  | run i => exact expr h
  | cmd i => exact expr h
  | entrypoint i => exact expr h
where
  expr {p t sp} {P : Str → Prop} {e : ShellOrExecExpr} (h : Covers p t (.node sp P [exprTree unq e])) : (exprSpans e).length ≤ 2 * blen t := by
    cases e with
    | shell b =>
      have := Weighs.node (.cons (Weighs.leaves (k := b.components.length) (by simp)) .nil) p t h
      simp [exprSpans, breakableSpans] at this ⊢
      omega
    | exec a =>
      have := Weighs.node (.cons (Weighs.leaves (k := a.elements.length) (by simp)) .nil) p t h
      simp [exprSpans] at this ⊢
      omega

/-- C82: the number of instructions, fields and parts of fields of a document (of everything that has a span) is at most
three times the number of bytes of its text. -/
theorem C82_spans (unq : Unquote) (s : Str) (d : Dockerfile) (h : Dockerfile.parse unq s = .ok d) :
    (d.instructions.flatMap spansOf).length ≤ 3 * blen s := by
  rw [List.length_flatMap]
  refine docText_sum (fun i p t ht => ?_) (C08_document unq s d h)
  have h1 := fields_weigh unq i p t ht
  have h2 := Weighs.one _ p t ht
  simp only [spansOf, List.length_cons]
  omega

/-- the texts of the instructions, of the images and of the global arguments, and the number of spans -/
example : (Dockerfile.parse Enquote.unquote c!"ARG v='1.0'\nFROM --platform=x r.io/a:$v\nCMD [\"\\u0041\"]").toOption.map (fun d =>
      (d.instructions.flatMap storedTexts, d.instructions.flatMap storedImages,
        d.global_args.flatMap (fun a => storedTexts (.arg a)), (d.instructions.flatMap spansOf).length)) =
    some ([c!"v", c!"1.0", c!"platform", c!"x", c!"r.io/a:$v", c!"A"], [c!"r.io", c!"a", c!"$v"], [c!"v", c!"1.0"], 11) := by
  decide +kernel

/-- more things with a span than bytes -/
example : (Dockerfile.parse Enquote.unquote c!"A-").toOption.map (fun d => d.instructions.flatMap spansOf) =
    some [⟨0, 2⟩, ⟨0, 1⟩, ⟨1, 2⟩, ⟨1, 2⟩] := by
  decide +kernel

/- the theorems for the document of `sample2`, with the unquoting of `enquote` -/
example : bytesOf (sampleDoc.instructions.flatMap storedTexts) ≤ blen sample2 :=
  C82_texts _ C82_unquote _ _ sampleDoc_parse
example : bytesOf (sampleDoc.instructions.flatMap storedImages) ≤ blen sample2 :=
  C82_images _ C82_unquote _ _ sampleDoc_parse
example : bytesOf (sampleDoc.global_args.flatMap fun a => storedTexts (.arg a)) ≤ blen sample2 :=
  C82_global_args _ C82_unquote _ _ sampleDoc_parse
example : blen sampleDoc.content + bytesOf (sampleDoc.instructions.flatMap storedTexts) +
      bytesOf (sampleDoc.instructions.flatMap storedImages) +
      bytesOf (sampleDoc.global_args.flatMap fun a => storedTexts (.arg a)) ≤ 4 * blen sample2 :=
  C82_document _ C82_unquote _ _ sampleDoc_parse

end Verif
