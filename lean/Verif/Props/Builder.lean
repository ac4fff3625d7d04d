import Verif.Model.Builder
import Verif.Props.Parse

/-!
# C65: building and comparing strings
-/

namespace Verif

open Spec

/-! ## building -/

/-- the text that a component contributes -/
def BreakableStringComponent.text : BreakableStringComponent → Str
  | .string s => s.content
  | .comment _ => []

/-- C65: what the builder does: the components are those added, in order; the text is that of the strings
among them; the span is the one given. -/
theorem C65_builder (span : Span) (cs : List BreakableStringComponent) :
    (cs.foldl .add (BreakableString.new span)).iterComponents = cs ∧
    (cs.foldl .add (BreakableString.new span)).span = span ∧
    (cs.foldl .add (BreakableString.new span)).display = (cs.map (·.text)).flatten := by
  have key : ∀ b : BreakableString, cs.foldl .add b = ⟨b.span, b.components ++ cs⟩ := by
    induction cs with
    | nil => intro b; simp
    | cons c cs ih => intro b; rw [List.foldl_cons, ih]; simp [BreakableString.add]
  rw [key]
  refine ⟨by simp [BreakableString.iterComponents, BreakableString.new], rfl, ?_⟩
  simp only [BreakableString.display, BreakableString.new, List.nil_append, List.flatMap]
  congr 2

/-- C65: adding strings, comments and pairs are all `add`; adding a comment leaves the text as it is. -/
theorem C65_add (b : BreakableString) (span : Span) (start stop : Nat) (content : Str) :
    b.addString span content = b.add (.string ⟨span, content⟩) ∧
    b.addComment span content = b.add (.comment ⟨span, content⟩) ∧
    (b.addComment span content).display = b.display ∧
    (b.addString span content).display = b.display ++ content ∧
    b.add (.ofTuple start stop content) = b.addString ⟨start, stop⟩ content ∧
    BreakableString.ofTuple start stop content = (BreakableString.new ⟨start, stop⟩).add (.ofTuple start stop content) ∧
    (BreakableString.ofTuple start stop content).display = content := by
  refine ⟨rfl, rfl, ?_, ?_, rfl, rfl, ?_⟩ <;>
    simp [BreakableString.addComment, BreakableString.addString, BreakableString.display, BreakableString.ofTuple,
      BreakableString.new]

/-- C65: every string is built from its span and its components, so that also the strings of a document
are what a caller gets by building them. -/
theorem C65_rebuild (b : BreakableString) :
    b.components.foldl .add (BreakableString.new b.span) = b ∧
    ∀ span cs, cs.foldl .add (BreakableString.new span) = b → span = b.span ∧ cs = b.components := by
  have h := fun span cs => C65_builder span cs
  refine ⟨?_, fun span cs e => ?_⟩
  · obtain ⟨h1, h2, -⟩ := h b.span b.components
    cases b; cases hx : List.foldl _ _ _; rw [hx] at h1 h2
    simp only [BreakableString.iterComponents] at h1 h2
    rw [h1, h2]
  · obtain ⟨h1, h2, -⟩ := h span cs
    rw [e] at h1 h2
    exact ⟨h2.symm, h1.symm⟩

/-- the values of variables in pairs are built with `new` and `add_string` -/
theorem C65_env_value (field : Tok) (v : Str) :
    breakableOf field v = (BreakableString.new field.span).addString field.span v ∧
    breakableOf field v = .ofTuple field.start field.stop v ∧ (breakableOf field v).display = v := by
  refine ⟨rfl, rfl, ?_⟩
  simp [breakableOf, BreakableString.display]

example : ((((BreakableString.new ⟨0, 9⟩).addString ⟨0, 2⟩ c!"a ").addComment ⟨3, 5⟩ c!"# x").add
    (.ofTuple 7 9 c!"b")).display = c!"a b" := by decide +kernel

/-! ## laws -/

/-- a total order with which equality agrees -/
structure TotalCmp {α : Type} (cmp : α → α → Ordering) : Prop where
  eq : ∀ a b, cmp a b = .eq ↔ a = b
  swap : ∀ a b, cmp b a = (cmp a b).swap
  trans : ∀ a b c, cmp a b = .lt → cmp b c = .lt → cmp a c = .lt

theorem totalCmp_nat : TotalCmp (fun a b : Nat => compare a b) where
  eq _ _ := Nat.compare_eq_eq
  swap a b := (Nat.compare_swap a b).symm
  trans _ _ _ h1 h2 := by rw [Nat.compare_eq_lt] at *; omega

theorem TotalCmp.pull {α β : Type} {cmp : β → β → Ordering} (h : TotalCmp cmp) (f : α → β)
    (hf : ∀ a b, f a = f b → a = b) : TotalCmp fun a b => cmp (f a) (f b) where
  eq a b := (h.eq _ _).trans ⟨hf a b, congrArg f⟩
  swap _ _ := h.swap _ _
  trans _ _ _ := h.trans _ _ _

theorem TotalCmp.pair {α β : Type} {c1 : α → α → Ordering} {c2 : β → β → Ordering} (h1 : TotalCmp c1)
    (h2 : TotalCmp c2) : TotalCmp fun a b : α × β => (c1 a.1 b.1).then (c2 a.2 b.2) where
  eq a b := by
    rw [Ordering.then_eq_eq, h1.eq, h2.eq]
    exact ⟨fun h => Prod.ext h.1 h.2, fun h => h ▸ ⟨rfl, rfl⟩⟩
  swap a b := by rw [Ordering.swap_then, h1.swap, h2.swap]
  trans a b c := by
    simp only [Ordering.then_eq_lt, h1.eq]
    rintro (x | ⟨x, x'⟩) (y | ⟨y, y'⟩)
    · exact .inl (h1.trans _ _ _ x y)
    · exact .inl (y ▸ x)
    · exact .inl (x ▸ y)
    · exact .inr ⟨x.trans y, h2.trans _ _ _ x' y'⟩

theorem TotalCmp.list {α : Type} {cmp : α → α → Ordering} (h : TotalCmp cmp) : TotalCmp (lexList cmp) where
  eq a b := by
    induction a generalizing b with
    | nil => cases b <;> simp [lexList]
    | cons x a ih => cases b <;> simp [lexList, Ordering.then_eq_eq, h.eq, ih]
  swap a b := by
    induction a generalizing b with
    | nil => cases b <;> rfl
    | cons x a ih =>
      cases b with
      | nil => rfl
      | cons y b => rw [lexList, lexList, Ordering.swap_then, h.swap, ih]
  trans a b c := by
    induction a generalizing b c with
    | nil => cases b <;> cases c <;> simp [lexList]
    | cons x a ih =>
      cases b <;> cases c <;> simp only [lexList, Ordering.then_eq_lt, h.eq, reduceCtorEq, false_implies, implies_true,
        imp_self]
      rename_i y b z c
      rintro (u | ⟨u, u'⟩) (v | ⟨v, v'⟩)
      · exact .inl (h.trans _ _ _ u v)
      · exact .inl (v ▸ u)
      · exact .inl (u ▸ v)
      · exact .inr ⟨u.trans v, ih _ _ u' v'⟩

theorem totalCmp_byte : TotalCmp byteCmp := totalCmp_nat.pull UInt8.toNat fun _ _ h => UInt8.toNat_inj.1 h

/-- the digits of a character of four bytes -/
theorem digits4 (v : Nat) (h : v < 0x110000) : ∃ p q r t, v = 262144 * p + 4096 * q + 64 * r + t ∧ q < 64 ∧ r < 64 ∧ t < 64 ∧
    (v / 262144 % 8 + 0xf0) % 256 = p + 0xf0 ∧ (v / 4096 % 64 + 0x80) % 256 = q + 0x80 ∧
    (v / 64 % 64 + 0x80) % 256 = r + 0x80 ∧ (v % 64 + 0x80) % 256 = t + 0x80 :=
  ⟨v / 262144, v / 4096 % 64, v / 64 % 64, v % 64, by omega, by omega, by omega, by omega, by omega, by omega, by omega,
    by omega⟩

theorem charCmp_lt {c d : Char} (h : c.toNat < d.toNat) (x y : List UInt8) :
    lexList byteCmp (String.utf8EncodeChar c ++ x) (String.utf8EncodeChar d ++ y) = .lt := by
  have hc : c.val.toNat = c.toNat := rfl
  have hd : d.val.toNat = d.toNat := rfl
  have hd2 : d.toNat < 0x110000 := by
    have := d.valid
    rcases this with h | ⟨-, h⟩ <;> simp only [Char.toNat] <;> omega
  obtain ⟨p, q, r, t, e, b1, b2, b3, e1, e2, e3, e4⟩ := digits4 d.toNat hd2
  obtain ⟨p', q', r', t', e', b1', b2', b3', e1', e2', e3', e4'⟩ := digits4 c.toNat (by omega)
  unfold String.utf8EncodeChar
  simp only [hc, hd]
  split <;> split <;> (try split) <;> (try split) <;> (try split) <;> (try split) <;>
    simp only [List.cons_append, List.nil_append, lexList, byteCmp, Ordering.then_eq_lt, Nat.compare_eq_lt, Nat.compare_eq_eq,
      UInt8.toNat_ofNat'] <;> first
    | (clear e1 e2 e3 e4 e1' e2' e3' e4' e e'; omega)
    | (simp only [Nat.reducePow, e1, e2, e3, e4, e1', e2', e3', e4']; omega)

/-- C65: the order of texts, byte by byte, is the order of their characters. -/
theorem C65_str_order (a b : Str) : strCmp a b = lexList (fun c d : Char => compare c.toNat d.toNat) a b := by
  unfold strCmp
  have hne : ∀ (d : Char) (b : Str), bytes (d :: b) ≠ [] := by
    intro d b e
    have := congrArg List.length e
    have h1 := utf8Size_pos d
    simp only [bytes, List.flatMap_cons, List.length_append, String.length_utf8EncodeChar, List.length_nil] at this
    omega
  induction a generalizing b with
  | nil =>
    cases b with
    | nil => rfl
    | cons d b =>
      cases h : bytes (d :: b) with
      | nil => exact absurd h (hne d b)
      | cons => rfl
  | cons c a ih =>
    cases b with
    | nil =>
      cases h : bytes (c :: a) with
      | nil => exact absurd h (hne c a)
      | cons => rfl
    | cons d b =>
      have e : ∀ (c : Char) (a : Str), bytes (c :: a) = String.utf8EncodeChar c ++ bytes a := fun _ _ => rfl
      rw [e, e, lexList]
      rcases Nat.lt_trichotomy c.toNat d.toNat with h | h | h
      · rw [charCmp_lt h, Nat.compare_eq_lt.2 h]; rfl
      · obtain rfl : c = d := Char.ext (UInt32.toNat_inj.1 h)
        have hs : ∀ (l : List UInt8) x y, lexList byteCmp (l ++ x) (l ++ y) = lexList byteCmp x y := by
          intro l x y
          induction l with
          | nil => rfl
          | cons u l ih => rw [List.cons_append, List.cons_append, lexList, ih, (totalCmp_byte.eq _ _).2 rfl]; rfl
        rw [hs, ih, Nat.compare_eq_eq.2 rfl]
        rfl
      · rw [totalCmp_byte.list.swap, charCmp_lt h, Nat.compare_eq_gt.2 h]; rfl

theorem totalCmp_str : TotalCmp strCmp := by
  have h : strCmp = lexList (fun c d : Char => compare c.toNat d.toNat) := by
    funext a b; exact C65_str_order a b
  rw [h]
  exact (totalCmp_nat.pull Char.toNat fun c d h => Char.ext (UInt32.toNat_inj.1 h)).list

theorem totalCmp_span : TotalCmp Span.cmp :=
  (totalCmp_nat.pair totalCmp_nat).pull (fun s : Span => (s.start, s.stop)) fun a b h => by
    cases a; cases b; cases h; rfl

theorem totalCmp_string : TotalCmp SpannedString.cmp :=
  (totalCmp_span.pair totalCmp_str).pull (fun s : SpannedString => (s.span, s.content)) fun a b h => by
    cases a; cases b; cases h; rfl

theorem totalCmp_comment : TotalCmp SpannedComment.cmp :=
  (totalCmp_span.pair totalCmp_str).pull (fun s : SpannedComment => (s.span, s.content)) fun a b h => by
    cases a; cases b; cases h; rfl

theorem totalCmp_component : TotalCmp BreakableStringComponent.cmp where
  eq a b := by
    cases a <;> cases b <;> simp [BreakableStringComponent.cmp, totalCmp_string.eq, totalCmp_comment.eq]
  swap a b := by
    cases a <;> cases b <;> simp only [BreakableStringComponent.cmp]
    · exact totalCmp_string.swap _ _
    · rfl
    · rfl
    · exact totalCmp_comment.swap _ _
  trans a b c := by
    cases a <;> cases b <;> cases c <;> simp only [BreakableStringComponent.cmp, reduceCtorEq, false_implies, implies_true,
      imp_self]
    · exact totalCmp_string.trans _ _ _
    · exact totalCmp_comment.trans _ _ _

/-- C65: all derived orders are total orders that agree with equality. -/
theorem C65_orders : TotalCmp Span.cmp ∧ TotalCmp SpannedString.cmp ∧ TotalCmp SpannedComment.cmp ∧
    TotalCmp BreakableStringComponent.cmp ∧ TotalCmp BreakableString.cmp ∧ TotalCmp StringArray.cmp :=
  ⟨totalCmp_span, totalCmp_string, totalCmp_comment, totalCmp_component,
    (totalCmp_span.pair totalCmp_component.list).pull (fun b : BreakableString => (b.span, b.components)) fun a b h => by
      cases a; cases b; cases h; rfl,
    (totalCmp_span.pair totalCmp_string.list).pull (fun b : StringArray => (b.span, b.elements)) fun a b h => by
      cases a; cases b; cases h; rfl⟩

/-- `a` comes before `b` in a dictionary: `b` goes on after `a`, or the first difference decides. -/
def Before {α : Type} (lt : α → α → Prop) (a b : List α) : Prop :=
  (∃ x r, b = a ++ x :: r) ∨ ∃ pre x y r r', a = pre ++ x :: r ∧ b = pre ++ y :: r' ∧ lt x y

theorem lexList_before {α : Type} {cmp : α → α → Ordering} (h : TotalCmp cmp) (a b : List α) :
    lexList cmp a b = .lt ↔ Before (fun x y => cmp x y = .lt) a b := by
  induction a generalizing b with
  | nil =>
    cases b with
    | nil => simp [lexList, Before]
    | cons y b => simp [lexList, Before]
  | cons x a ih =>
    cases b with
    | nil => simp [lexList, Before]
    | cons y b =>
      rw [lexList, Ordering.then_eq_lt, ih, h.eq]
      constructor
      · rintro (hl | ⟨rfl, ⟨z, r, rfl⟩ | ⟨pre, u, v, r, r', rfl, rfl, hl⟩⟩)
        · exact .inr ⟨[], x, y, a, b, rfl, rfl, hl⟩
        · exact .inl ⟨z, r, rfl⟩
        · exact .inr ⟨x :: pre, u, v, r, r', rfl, rfl, hl⟩
      · rintro (⟨z, r, e⟩ | ⟨pre, u, v, r, r', e1, e2, hl⟩)
        · obtain ⟨rfl, rfl⟩ := List.cons.inj e
          exact .inr ⟨rfl, .inl ⟨z, r, rfl⟩⟩
        · cases pre with
          | nil =>
            obtain ⟨rfl, rfl⟩ := List.cons.inj e1
            obtain ⟨rfl, rfl⟩ := List.cons.inj e2
            exact .inl hl
          | cons w pre =>
            obtain ⟨rfl, rfl⟩ := List.cons.inj e1
            obtain ⟨rfl, rfl⟩ := List.cons.inj e2
            exact .inr ⟨rfl, .inr ⟨pre, u, v, r, r', rfl, rfl, hl⟩⟩

/-- C65: texts, lists of components and lists of elements are in the order of a dictionary. -/
theorem C65_dictionary :
    (∀ a b : Str, strCmp a b = .lt ↔ Before (fun c d => c.toNat < d.toNat) a b) ∧
    (∀ a b : BreakableString, a.cmp b = .lt ↔ a.span.cmp b.span = .lt ∨
      a.span = b.span ∧ Before (fun x y => x.cmp y = .lt) a.components b.components) ∧
    (∀ a b : StringArray, a.cmp b = .lt ↔ a.span.cmp b.span = .lt ∨
      a.span = b.span ∧ Before (fun x y => x.cmp y = .lt) a.elements b.elements) := by
  refine ⟨fun a b => ?_, fun a b => ?_, fun a b => ?_⟩
  · rw [C65_str_order,
      lexList_before (totalCmp_nat.pull Char.toNat fun c d h => Char.ext (UInt32.toNat_inj.1 h))]
    simp only [Nat.compare_eq_lt]
  · rw [BreakableString.cmp, Ordering.then_eq_lt, lexList_before totalCmp_component, totalCmp_span.eq]
  · rw [StringArray.cmp, Ordering.then_eq_lt, lexList_before totalCmp_string, totalCmp_span.eq]

/-- C65: a shown string is its content; variables and labels are made of what is given. -/
theorem C65_values (span : Span) (s key name value : SpannedString) (v : BreakableString) :
    s.display = s.content ∧
    (EnvVar.new span key v).span = span ∧ (EnvVar.new span key v).key = key ∧
    (EnvVar.new span key v).value = v ∧
    (Label.new span name value).span = span ∧ (Label.new span name value).name = name ∧
    (Label.new span name value).value = value :=
  ⟨rfl, rfl, rfl, rfl, rfl, rfl, rfl⟩

example : strCmp c!"a" c!"ab" = .lt ∧ strCmp c!"b" c!"ab" = .gt ∧ strCmp c!"z" c!"é" = .lt := by
  decide +kernel

/-! ## documents -/

theorem Span.cmp_lt_of_start {a b : Span} (h : a.start < b.start) : a.cmp b = .lt := by
  rw [Span.cmp, Nat.compare_eq_lt.2 h]; rfl

theorem pairwise_of_split {α : Type} {R : α → α → Prop} {l : List α}
    (h : ∀ pre mid post i j, l = pre ++ i :: (mid ++ j :: post) → R i j) : l.Pairwise R := by
  induction l with
  | nil => exact .nil
  | cons x l ih =>
    refine .cons (fun y hy => ?_) (ih fun pre mid post i j e => h (x :: pre) mid post i j (by rw [e]; rfl))
    obtain ⟨mid, post, rfl⟩ := List.append_of_mem hy
    exact h [] mid post x y rfl

theorem topSpans_sub {i : Instruction} {sp : Span} (h : sp ∈ topSpans i) : sp ∈ spansOf i := by
  refine List.mem_cons_of_mem _ ?_
  unfold topSpans at h
  split at h <;> simp only [fieldSpans, exprSpans, flagSpans, breakableSpans] at h ⊢
  all_goals first
    | exact h
    | (split at h <;> simp_all)
    | (simp only [List.mem_append, List.mem_cons, List.mem_map, List.mem_flatMap] at h ⊢; grind [flagSpans])

theorem subSpans_sub {i : Instruction} {g : Span × List Span} (h : g ∈ subSpans i) {sp : Span} (hs : sp ∈ g.2) :
    sp ∈ spansOf i := by
  refine List.mem_cons_of_mem _ ?_
  unfold subSpans at h
  split at h <;> simp only [fieldSpans, exprSpans, flagSpans, breakableSpans] at h ⊢
  all_goals first
    | (cases h; done)
    | (split at h <;> simp_all; done)
    | (simp only [List.mem_append, List.mem_cons, List.mem_map, List.mem_flatMap] at h ⊢; grind [flagSpans])

/-- C65: the order of spans is the order of the text: the instructions of a document are in order, and so
are the fields of an instruction, and all fields of an instruction come after those of the instructions
before. -/
theorem C65_document (unq : Unquote) (s : Str) (d : Dockerfile) (h : Dockerfile.parse unq s = .ok d) :
    (d.instructions.map Instruction.span).Pairwise (fun a b => a.cmp b = .lt) ∧
    (d.instructions.flatMap topSpans).Pairwise (fun a b => a.cmp b = .lt) := by
  have hb := C04_span_bounds unq s d h
  have ho : d.instructions.Pairwise fun i j => i.span.stop < j.span.start :=
    pairwise_of_split fun pre mid post i j e => (C05_instructions_in_order unq s d h pre mid post i j e).1
  refine ⟨List.pairwise_map.2 (ho.imp_of_mem fun {i j} hi hj hij => ?_), ?_⟩
  · have := hb i hi i.span (List.mem_cons_self ..)
    exact Span.cmp_lt_of_start (by omega)
  · rw [List.pairwise_flatMap]
    refine ⟨fun i hi => ?_, ho.imp_of_mem fun {i j} hi hj hij x hx y hy => ?_⟩
    · refine (C06_fields_ordered unq s d h i hi).imp_of_mem fun {x y} hx _ hxy => ?_
      have := hb i hi x (topSpans_sub hx)
      exact Span.cmp_lt_of_start (by omega)
    · have h1 := hb i hi x (topSpans_sub hx)
      have h2 := C06_fields_within unq s d h i hi x (topSpans_sub hx)
      have h3 := C06_fields_within unq s d h j hj y (topSpans_sub hy)
      have h4 := hb j hj y (topSpans_sub hy)
      obtain ⟨-, h2⟩ := h2
      obtain ⟨h3, -⟩ := h3
      exact Span.cmp_lt_of_start (by omega)

/-- C65: components of shell text are in the order of the text, but the derived order puts all strings before
all comments: the components are in that order exactly if no comment comes before a string. -/
theorem C65_components (unq : Unquote) (s : Str) (d : Dockerfile) (h : Dockerfile.parse unq s = .ok d)
    (i : Instruction) (hi : i ∈ d.instructions) (b : BreakableString) (hb : b ∈ shells i ++ envValues i) :
    (b.components.map componentSpan).Pairwise (fun x y => x.cmp y = .lt) ∧
    (b.components.Pairwise (fun x y => x.cmp y = .lt) ↔
      ∃ (ss : List SpannedString) (cs : List SpannedComment), b.components = ss.map .string ++ cs.map .comment) := by
  have hg : ∃ g ∈ subSpans i, g.2 = b.components.map componentSpan := by
    refine ⟨(b.span, b.components.map componentSpan), ?_, rfl⟩
    rcases List.mem_append.1 hb with hb | hb
    · cases i with
      | run i | cmd i | entrypoint i =>
        obtain ⟨sp, e⟩ := i
        cases e <;> simp_all [shells, exprOf, subSpans]
      | misc i => simp_all [shells, exprOf, subSpans]
      | _ => simp [shells, exprOf] at hb
    · cases i with
      | env i =>
        simp only [envValues, List.mem_map] at hb
        obtain ⟨v, hv, rfl⟩ := hb
        simp only [subSpans, List.mem_append, List.mem_map]
        exact .inr ⟨v, hv, rfl⟩
      | _ => simp [envValues] at hb
  obtain ⟨g, hg, e⟩ := hg
  have h1 : (b.components.map componentSpan).Pairwise (fun x y => x.cmp y = .lt) := by
    rw [← e]
    refine (C06_subfields_ordered unq s d h i hi g hg).1.imp_of_mem fun {x y} hx _ hxy => ?_
    have := C04_span_bounds unq s d h i hi x (subSpans_sub hg hx)
    exact Span.cmp_lt_of_start (by omega)
  refine ⟨h1, ?_⟩
  rw [List.pairwise_map] at h1
  generalize b.components = l at h1
  clear e hg hb
  constructor
  · intro h2
    clear h1
    induction h2 with
    | nil => exact ⟨[], [], rfl⟩
    | @cons x l hx _ ih =>
      obtain ⟨ss, cs, rfl⟩ := ih
      cases x with
      | string x => exact ⟨x :: ss, cs, rfl⟩
      | comment x =>
        cases ss with
        | nil => exact ⟨[], x :: cs, rfl⟩
        | cons y ss =>
          have := hx (.string y) (by simp)
          cases this
  · rintro ⟨ss, cs, rfl⟩
    have hc : ∀ x y : BreakableStringComponent, (componentSpan x).cmp (componentSpan y) = .lt →
        ((∃ u, x = .string u) ∨ ∃ v, y = .comment v) → x.cmp y = .lt := by
      intro x y h3 h4
      cases x <;> cases y <;> simp only [BreakableStringComponent.cmp, componentSpan] at *
      · rw [SpannedString.cmp, h3]; rfl
      · rcases h4 with ⟨_, h4⟩ | ⟨_, h4⟩ <;> cases h4
      · rw [SpannedComment.cmp, h3]; rfl
    rw [List.pairwise_append] at h1 ⊢
    refine ⟨h1.1.imp_of_mem fun hx hy hxy => hc _ _ hxy ?_, h1.2.1.imp_of_mem fun hx hy hxy => hc _ _ hxy ?_,
      fun x hx y hy => hc _ _ (h1.2.2 x hx y hy) ?_⟩
    · obtain ⟨u, -, rfl⟩ := List.mem_map.1 hx; exact .inl ⟨u, rfl⟩
    · obtain ⟨u, -, rfl⟩ := List.mem_map.1 hy; exact .inr ⟨u, rfl⟩
    · obtain ⟨u, -, rfl⟩ := List.mem_map.1 hx; exact .inl ⟨u, rfl⟩

/-- Sorting the components of a string may move comments behind the text that follows them. -/
theorem C65_components_unsorted :
    (match Dockerfile.parse (fun w => .ok w) c!"FROM x\nRUN a \\\n# c\n b" with
     | .ok d => (d.instructions.flatMap shells).map (·.components)
     | .error _ => []) =
      [[.string ⟨⟨11, 13⟩, c!"a "⟩, .comment ⟨⟨15, 18⟩, c!"# c"⟩, .string ⟨⟨19, 21⟩, c!" b"⟩]] ∧
    (BreakableStringComponent.comment ⟨⟨15, 18⟩, c!"# c"⟩).cmp (.string ⟨⟨19, 21⟩, c!" b"⟩) = .gt := by
  decide +kernel

end Verif
