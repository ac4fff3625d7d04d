import Verif.Proof.Document
import Verif.Spec.Fields
import Verif.Spec.Splice

/-! # Consequences of the layout of a document -/

namespace Verif

open Spec

def SpanTree.span : SpanTree → Span | .node sp _ _ => sp
def SpanTree.req : SpanTree → Str → Prop | .node _ P _ => P
def SpanTree.kids : SpanTree → List SpanTree | .node _ _ ch => ch

/-- `n` lies in the text `x` at offset `p`, at the text `b` -/
def Sits (p : Nat) (x : Str) (n : SpanTree) (a b c : Str) : Prop :=
  x = a ++ b ++ c ∧ SpanTree.span n = ⟨p + blen a, p + blen a + blen b⟩ ∧ b ≠ [] ∧ SpanTree.req n b ∧
    Laid (p + blen a) b (SpanTree.kids n)

theorem Sits.shift {p x y z n a b c} (h : Sits (p + blen y) x n a b c) :
    Sits p (y ++ x ++ z) n (y ++ a) b (c ++ z) := by
  obtain ⟨rfl, h1, h2, h3, h4⟩ := h
  refine ⟨by simp, ?_, h2, h3, ?_⟩
  · rw [h1, blen_append, Nat.add_assoc]
  · rw [blen_append, ← Nat.add_assoc]; exact h4

theorem laid_mem {p x ns} (h : Laid p x ns) {n} (hn : n ∈ ns) : ∃ a b c, Sits p x n a b c := by
  induction h with
  | nil => cases hn
  | @cons p a b c P ch ns h0 hP h1 h2 ih1 ih2 =>
    rcases List.mem_cons.1 hn with rfl | hn
    · exact ⟨a, b, c, rfl, rfl, h0, hP, h1⟩
    · obtain ⟨a', b', c', hs⟩ := ih2 hn
      rw [show p + blen a + blen b = p + blen (a ++ b) by rw [blen_append]; omega] at hs
      have := hs.shift (z := [])
      rw [List.append_nil] at this
      exact ⟨_, _, _, this⟩

theorem laid_inside {m n : SpanTree} (h : Inside m n) :
    ∀ {p x ns}, Laid p x ns → n ∈ ns → ∃ a b c, Sits p x m a b c := by
  induction h with
  | self => intro p x ns hl hn; exact laid_mem hl hn
  | child hm hi ih =>
    intro p x ns hl hn
    obtain ⟨a, b, c, rfl, h1, h2, h3, h4⟩ := laid_mem hl hn
    obtain ⟨a', b', c', hs⟩ := ih h4 hm
    exact ⟨_, _, _, hs.shift⟩

theorem laid_pairwise {p x ns} (h : Laid p x ns) :
    ns.Pairwise (fun m n => (SpanTree.span m).stop ≤ (SpanTree.span n).start) ∧
    ∀ n ∈ ns, p ≤ (SpanTree.span n).start ∧ (SpanTree.span n).start < (SpanTree.span n).stop ∧
      (SpanTree.span n).stop ≤ p + blen x := by
  induction h with
  | nil => exact ⟨.nil, by simp⟩
  | @cons p a b c P ch ns h0 hP h1 h2 ih1 ih2 =>
    have hb := blen_pos h0
    refine ⟨List.pairwise_cons.2 ⟨fun n hn => (ih2.2 n hn).1, ih2.1⟩, fun n hn => ?_⟩
    simp only [blen_append]
    rcases List.mem_cons.1 hn with rfl | hn
    · simp only [SpanTree.span]; omega
    · have := ih2.2 n hn
      omega

/-- An instruction of a document sits in its text. -/
theorem docText_split {unq p s is} (h : DocText unq p s is) : ∀ {pre i post},
    is = pre ++ i :: post → ∃ a t w r, s = a ++ t ++ w ++ r ∧ Blanks w ∧
      Covers (p + blen a) t (tree unq i) ∧
      ((r = [] ∧ post = []) ∨ ∃ n r', r = n ++ r' ∧ LineBreak n r' ∧
        DocText unq (p + blen a + blen t + blen w + blen n) r' post) := by
  induction h with
  | @last p w t w' is hw hw' hi =>
    intro pre i post e
    cases hi with
    | none => exact absurd e.symm (by simp)
    | comment => exact absurd e.symm (by simp)
    | instruction hc =>
      cases pre with
      | nil =>
        simp only [List.nil_append, List.cons.injEq] at e
        obtain ⟨rfl, rfl⟩ := e
        exact ⟨w, t, w', [], by simp, hw', hc, .inl ⟨rfl, rfl⟩⟩
      | cons _ pre => exact absurd e (by simp)
  | @line p w t w' n r is js hw hw' hi hn hr ih =>
    intro pre i post e
    have tail : ∀ {pre}, js = pre ++ i :: post → ∃ a t_1 w_1 r_1,
        w ++ t ++ w' ++ n ++ r = a ++ t_1 ++ w_1 ++ r_1 ∧ Blanks w_1 ∧
        Covers (p + blen a) t_1 (tree unq i) ∧
        ((r_1 = [] ∧ post = []) ∨ ∃ n r', r_1 = n ++ r' ∧ LineBreak n r' ∧
          DocText unq (p + blen a + blen t_1 + blen w_1 + blen n) r' post) := by
      intro pre e
      obtain ⟨a, t1, w1, r1, rfl, h1, h2, h3⟩ := ih e
      have ep : p + blen w + blen t + blen w' + blen n + blen a =
          p + blen (w ++ t ++ w' ++ n ++ a) := by simp only [blen_append]; omega
      rw [ep] at h2 h3
      exact ⟨w ++ t ++ w' ++ n ++ a, t1, w1, r1, by simp, h1, h2, h3⟩
    cases hi with
    | none => exact tail e
    | comment => exact tail e
    | instruction hc =>
      cases pre with
      | nil =>
        simp only [List.nil_append, List.singleton_append, List.cons.injEq] at e
        obtain ⟨rfl, rfl⟩ := e
        exact ⟨w, t, w', n ++ r, by simp, hw', hc, .inr ⟨n, r, rfl, hn, hr⟩⟩
      | cons _ pre =>
        simp only [List.cons_append, List.cons.injEq] at e
        exact tail e.2

theorem tree_span (unq : Unquote) (i : Instruction) : SpanTree.span (tree unq i) = i.span := by
  cases i <;> rfl

theorem covers_sits {p t n} (h : Covers p t n) : Sits p t n [] t [] := by
  obtain ⟨P, ch, rfl, h0, hP, hl⟩ := h
  exact ⟨by simp, by simp [SpanTree.span, blen], h0, hP, by simpa [blen, SpanTree.kids] using hl⟩

theorem covers_laid {p t n} (h : Covers p t n) : Laid p t [n] := by
  obtain ⟨P, ch, rfl, h0, hP, hl⟩ := h
  exact .single h0 hP hl

theorem docText_mem {unq s is} (h : DocText unq 0 s is) {i} (hi : i ∈ is) :
    ∃ a t c, s = a ++ t ++ c ∧ Laid (blen a) t [tree unq i] ∧ Covers (blen a) t (tree unq i) := by
  obtain ⟨pre, post, rfl⟩ := List.append_of_mem hi
  obtain ⟨a, t, w, r, rfl, _, hc, _⟩ := docText_split h rfl
  rw [Nat.zero_add] at hc
  exact ⟨a, t, w ++ r, by simp, covers_laid hc, hc⟩

/-- Every node of the tree of an instruction has a text meeting its requirement. -/
theorem docText_node {unq s is} (h : DocText unq 0 s is) {i} (hi : i ∈ is) {n : SpanTree}
    (hn : Inside n (tree unq i)) :
    ∃ t, SliceOf s (SpanTree.span n) t ∧ t ≠ [] ∧ SpanTree.req n t := by
  obtain ⟨a, t, c, rfl, hl, _⟩ := docText_mem h hi
  obtain ⟨a', b, c', hs⟩ := laid_inside hn hl (by simp)
  obtain ⟨rfl, h1, h2, h3, _⟩ := hs
  refine ⟨b, ⟨a ++ a', c' ++ c, by simp, ?_, ?_⟩, h2, h3⟩
  · rw [h1, blen_append]
  · rw [h1, blen_append]

/-- Siblings are in order, and inside their parent. -/
theorem docText_kids {unq s is} (h : DocText unq 0 s is) {i} (hi : i ∈ is) {n : SpanTree}
    (hn : Inside n (tree unq i)) :
    (SpanTree.kids n).Pairwise
      (fun a b => (SpanTree.span a).stop ≤ (SpanTree.span b).start) ∧
    ∀ m ∈ SpanTree.kids n, Within (SpanTree.span m) (SpanTree.span n) := by
  obtain ⟨a, t, c, rfl, hl, _⟩ := docText_mem h hi
  obtain ⟨a', b, c', _, h1, h2, h3, h4⟩ := laid_inside hn hl (by simp)
  have := laid_pairwise h4
  refine ⟨this.1, fun m hm => ?_⟩
  have := this.2 m hm
  rw [h1]
  exact ⟨this.1, this.2.2⟩

theorem Inside.trans {a b c : SpanTree} (h : Inside a b) (h' : Inside b c) : Inside a c := by
  induction h' with
  | self => exact h
  | child hm _ ih => exact .child hm ih

theorem inside_kid {a b c : SpanTree} (h : Inside a b) (hb : b ∈ SpanTree.kids c) : Inside a c := by
  cases c with
  | node sp P ch => exact .child hb h

/-- Everything inside an instruction lies in its span. -/
theorem docText_within {unq s is} (h : DocText unq 0 s is) {i} (hi : i ∈ is) {n : SpanTree}
    (hn : Inside n (tree unq i)) : Within (SpanTree.span n) i.span := by
  obtain ⟨a, t, c, rfl, hl, hc⟩ := docText_mem h hi
  obtain ⟨a', b, c', rfl, h1, h2, h3, h4⟩ := laid_inside hn hl (by simp)
  obtain ⟨_, e, _⟩ := covers_sits hc
  rw [tree_span] at e
  rw [h1, e]
  simp only [Within, blen_append, blen_nil]
  omega

/-! ## where the fields are in the tree -/

theorem inside_flag {unq : Unquote} {f : Flag} {g : SpannedString} (hg : g ∈ flagStrings f) :
    Inside (strTree unq g) (flagTree unq f) := by
  simp only [flagStrings, List.mem_cons, List.not_mem_nil, or_false] at hg
  rcases hg with rfl | rfl
  · exact .child (by simp) .self
  · exact .child (by simp) .self

theorem inside_plain {unq : Unquote} {i : Instruction} {g : SpannedString}
    (hg : g ∈ plainStrings i) : Inside (strTree unq g) (tree unq i) := by
  cases i with
  | «from» i =>
    simp only [plainStrings, List.mem_append, List.mem_flatMap, List.mem_cons] at hg
    rcases hg with ⟨f, hf, hg⟩ | rfl | hg
    · exact .child (by simp; exact .inl ⟨f, hf, rfl⟩) (inside_flag hg)
    · exact .child (by simp) .self
    · refine .child ?_ .self
      simp only [Option.mem_toList] at hg
      rw [hg]; simp
  | arg i =>
    simp only [plainStrings, List.mem_cons] at hg
    rcases hg with rfl | hg
    · exact .child (by simp) .self
    · refine .child ?_ .self
      simp only [Option.mem_toList] at hg
      rw [hg]; simp
  | copy i =>
    simp only [plainStrings, List.mem_append, List.mem_flatMap, List.mem_singleton] at hg
    rcases hg with ⟨f, hf, hg⟩ | hg | rfl
    · exact .child (by simp; exact .inl ⟨f, hf, rfl⟩) (inside_flag hg)
    · exact .child (by simp; exact .inr (.inl ⟨g, hg, rfl⟩)) .self
    · exact .child (by simp) .self
  | env i =>
    simp only [plainStrings, List.mem_map] at hg
    obtain ⟨v, hv, rfl⟩ := hg
    exact .child (List.mem_map_of_mem hv) (.child (by simp) .self)
  | misc i =>
    simp only [plainStrings, List.mem_singleton] at hg
    subst hg
    exact .child (by simp) .self
  | _ => simp [plainStrings] at hg

theorem inside_label {unq : Unquote} {i : Instruction} {g : SpannedString}
    (hg : g ∈ labelStrings i) : Inside (labelStrTree unq g) (tree unq i) := by
  cases i with
  | label i =>
    simp only [labelStrings, List.mem_flatMap] at hg
    obtain ⟨l, hl, hg⟩ := hg
    refine .child (List.mem_map_of_mem hl) ?_
    simp only [List.mem_cons, List.not_mem_nil, or_false] at hg
    rcases hg with rfl | rfl
    · exact .child (by simp) .self
    · exact .child (by simp) .self
  | _ => simp [labelStrings] at hg

theorem inside_expr {unq : Unquote} {i : Instruction} {e : ShellOrExecExpr}
    (h : exprOf i = some e) : Inside (exprTree unq e) (tree unq i) := by
  cases i <;> simp only [exprOf] at h <;> cases h <;> exact .child (by simp) .self

theorem inside_array {unq : Unquote} {i : Instruction} {a : StringArray} (h : a ∈ arrays i) :
    Inside (execTree unq a) (tree unq i) := by
  unfold arrays at h
  split at h
  · rw [List.mem_singleton.1 h]; exact inside_expr ‹_›
  · cases h

theorem inside_shell {unq : Unquote} {i : Instruction} {b : BreakableString} (h : b ∈ shells i) :
    Inside (shellTree b) (tree unq i) := by
  unfold shells at h
  split at h
  · rw [List.mem_singleton.1 h]; exact .child (by simp) .self
  · split at h
    · rw [List.mem_singleton.1 h]
      rename_i e
      exact inside_expr (e := .shell _) e
    · cases h

theorem inside_envValue {unq : Unquote} {i : Instruction} {b : BreakableString}
    (h : b ∈ envValues i) : Inside (valueTree unq b) (tree unq i) := by
  cases i with
  | env i =>
    simp only [envValues, List.mem_map] at h
    obtain ⟨v, hv, rfl⟩ := h
    exact .child (List.mem_map_of_mem hv) (.child (by simp) .self)
  | _ => simp [envValues] at h

theorem compTree_span (rd : Str → Str → Prop) (c : BreakableStringComponent) :
    SpanTree.span (compTree rd c) = componentSpan c := by
  cases c <;> rfl

/-- A span of the listing is a node of the tree. -/
theorem inside_span {unq : Unquote} {i : Instruction} {sp : Span} (h : sp ∈ spansOf i) :
    ∃ n, Inside n (tree unq i) ∧ SpanTree.span n = sp := by
  have flags : ∀ {fs : List Flag} {sp}, sp ∈ fs.flatMap flagSpans →
      ∃ f ∈ fs, ∃ n, Inside n (flagTree unq f) ∧ SpanTree.span n = sp := by
    intro fs sp h
    obtain ⟨f, hf, h⟩ := List.mem_flatMap.1 h
    refine ⟨f, hf, ?_⟩
    simp only [flagSpans, List.mem_cons, List.not_mem_nil, or_false] at h
    rcases h with rfl | rfl | rfl
    · exact ⟨_, .self, rfl⟩
    · exact ⟨strTree unq f.name, .child (by simp) .self, rfl⟩
    · exact ⟨strTree unq f.value, .child (by simp) .self, rfl⟩
  have comps : ∀ {b : BreakableString} {sp sp' P rd}, sp ∈ b.components.map componentSpan →
      ∃ n, Inside n (.node sp' P (b.components.map (compTree rd))) ∧ SpanTree.span n = sp := by
    intro b sp sp' P rd h
    obtain ⟨c, hc, rfl⟩ := List.mem_map.1 h
    exact ⟨compTree rd c, .child (List.mem_map_of_mem hc) .self, compTree_span rd c⟩
  have expr : ∀ {e : ShellOrExecExpr} {sp}, sp ∈ exprSpans e →
      ∃ n, Inside n (exprTree unq e) ∧ SpanTree.span n = sp := by
    intro e sp h
    cases e with
    | shell b =>
      simp only [exprSpans, breakableSpans, List.mem_cons] at h
      rcases h with rfl | h
      · exact ⟨_, .self, rfl⟩
      · exact comps h
    | exec a =>
      simp only [exprSpans, List.mem_cons, List.mem_map] at h
      rcases h with rfl | ⟨e, he, rfl⟩
      · exact ⟨_, .self, rfl⟩
      · exact ⟨_, .child (List.mem_map_of_mem he) .self, rfl⟩
  simp only [spansOf, List.mem_cons] at h
  rcases h with rfl | h
  · exact ⟨_, .self, tree_span unq i⟩
  have lift : ∀ {m : SpanTree}, m ∈ SpanTree.kids (tree unq i) →
      (∃ n, Inside n m ∧ SpanTree.span n = sp) →
      ∃ n, Inside n (tree unq i) ∧ SpanTree.span n = sp := by
    rintro m hm ⟨n, hn, e⟩
    exact ⟨n, inside_kid hn hm, e⟩
  cases i with
  | «from» i =>
    simp only [fieldSpans, List.mem_append, List.mem_cons, Option.mem_toList,
      Option.map_eq_some_iff] at h
    rcases h with h | rfl | ⟨a, ha, rfl⟩
    · obtain ⟨f, hf, h⟩ := flags h
      exact lift (List.mem_append_left _ (List.mem_map_of_mem hf)) h
    · exact lift (by simp [tree, SpanTree.kids]) ⟨strTree unq i.image, .self, rfl⟩
    · exact lift (m := strTree unq a) (by simp [tree, SpanTree.kids, ha]) ⟨_, .self, rfl⟩
  | arg i =>
    simp only [fieldSpans, List.mem_cons, Option.mem_toList, Option.map_eq_some_iff] at h
    rcases h with rfl | ⟨a, ha, rfl⟩
    · exact lift (by simp [tree, SpanTree.kids]) ⟨strTree unq i.name, .self, rfl⟩
    · exact lift (m := strTree unq a) (by simp [tree, SpanTree.kids, ha]) ⟨_, .self, rfl⟩
  | label i =>
    simp only [fieldSpans, List.mem_flatMap] at h
    obtain ⟨l, hl, h⟩ := h
    refine lift (List.mem_map_of_mem hl) ?_
    simp only [List.mem_cons, List.not_mem_nil, or_false] at h
    rcases h with rfl | rfl | rfl
    · exact ⟨_, .self, rfl⟩
    · exact ⟨labelStrTree unq l.name, .child (by simp) .self, rfl⟩
    · exact ⟨labelStrTree unq l.value, .child (by simp) .self, rfl⟩
  | run i => exact lift (by simp [tree, SpanTree.kids]) (expr h)
  | entrypoint i => exact lift (by simp [tree, SpanTree.kids]) (expr h)
  | cmd i => exact lift (by simp [tree, SpanTree.kids]) (expr h)
  | copy i =>
    simp only [fieldSpans, List.mem_append, List.mem_map, List.mem_singleton] at h
    rcases h with h | ⟨p, hp, rfl⟩ | rfl
    · obtain ⟨f, hf, h⟩ := flags h
      exact lift (List.mem_append_left _ (List.mem_map_of_mem hf)) h
    · exact lift (m := strTree unq p)
        (List.mem_append_right _ (List.mem_append_left _ (List.mem_map_of_mem hp))) ⟨_, .self, rfl⟩
    · exact lift (by simp [tree, SpanTree.kids]) ⟨strTree unq i.destination, .self, rfl⟩
  | env i =>
    simp only [fieldSpans, List.mem_flatMap] at h
    obtain ⟨v, hv, h⟩ := h
    refine lift (List.mem_map_of_mem hv) ?_
    simp only [breakableSpans, List.mem_cons] at h
    rcases h with rfl | rfl | rfl | h
    · exact ⟨_, .self, rfl⟩
    · exact ⟨strTree unq v.key, .child (by simp) .self, rfl⟩
    · exact ⟨valueTree unq v.value, .child (by simp) .self, rfl⟩
    · obtain ⟨n, hn, e⟩ := comps h
      exact ⟨n, .child (m := valueTree unq v.value) (by simp) hn, e⟩
  | misc i =>
    simp only [fieldSpans, breakableSpans, List.mem_cons] at h
    rcases h with rfl | rfl | h
    · exact lift (by simp [tree, SpanTree.kids]) ⟨strTree unq i.instruction, .self, rfl⟩
    · exact lift (by simp [tree, SpanTree.kids]) ⟨shellTree i.arguments, .self, rfl⟩
    · exact lift (m := shellTree i.arguments) (by simp [tree, SpanTree.kids]) (comps h)

theorem topSpans_eq (unq : Unquote) (i : Instruction) :
    topSpans i = (SpanTree.kids (tree unq i)).map SpanTree.span := by
  cases i with
  | run i => cases h : i.expr <;> simp [topSpans, tree, SpanTree.kids, h, exprTree] <;> rfl
  | cmd i => cases h : i.expr <;> simp [topSpans, tree, SpanTree.kids, h, exprTree] <;> rfl
  | entrypoint i => cases h : i.expr <;> simp [topSpans, tree, SpanTree.kids, h, exprTree] <;> rfl
  | «from» i =>
    cases h : i.alias <;> simp [topSpans, tree, SpanTree.kids, h, Function.comp_def, SpanTree.span, flagTree, strTree]
  | arg i => cases h : i.value <;> simp [topSpans, tree, SpanTree.kids, h, SpanTree.span, strTree]
  | _ => simp [topSpans, tree, SpanTree.kids, SpanTree.span, strTree, flagTree, labelTree, envTree,
      shellTree, Function.comp_def] <;> try rfl

theorem inside_sub {unq : Unquote} {i : Instruction} {g : Span × List Span} (h : g ∈ subSpans i) :
    ∃ n, Inside n (tree unq i) ∧ SpanTree.span n = g.1 ∧
      (SpanTree.kids n).map SpanTree.span = g.2 := by
  have comps : ∀ {b : BreakableString} {rd}, (b.components.map (compTree rd)).map SpanTree.span =
      b.components.map componentSpan := by
    intro b rd
    rw [List.map_map]
    exact List.map_congr_left fun c _ => compTree_span rd c
  have expr : ∀ {e : ShellOrExecExpr}, (g ∈ (match e with
      | .shell b => [(b.span, b.components.map componentSpan)]
      | .exec a => [(a.span, a.elements.map SpannedString.span)])) →
      SpanTree.span (exprTree unq e) = g.1 ∧
      (SpanTree.kids (exprTree unq e)).map SpanTree.span = g.2 := by
    intro e h
    cases e with
    | shell b => rw [List.mem_singleton.1 h]; exact ⟨rfl, comps⟩
    | exec a =>
      rw [List.mem_singleton.1 h]
      exact ⟨rfl, by simp [exprTree, execTree, SpanTree.kids, SpanTree.span, Function.comp_def]⟩
  cases i with
  | «from» i =>
    obtain ⟨f, hf, rfl⟩ := List.mem_map.1 h
    exact ⟨flagTree unq f, .child (List.mem_append_left _ (List.mem_map_of_mem hf)) .self, rfl, rfl⟩
  | arg i => cases h
  | label i =>
    obtain ⟨f, hf, rfl⟩ := List.mem_map.1 h
    exact ⟨labelTree unq f, .child (List.mem_map_of_mem hf) .self, rfl, rfl⟩
  | run i => exact ⟨_, inside_expr (i := .run i) rfl, expr h⟩
  | cmd i => exact ⟨_, inside_expr (i := .cmd i) rfl, expr h⟩
  | entrypoint i => exact ⟨_, inside_expr (i := .entrypoint i) rfl, expr h⟩
  | copy i =>
    obtain ⟨f, hf, rfl⟩ := List.mem_map.1 h
    exact ⟨flagTree unq f, .child (List.mem_append_left _ (List.mem_map_of_mem hf)) .self, rfl, rfl⟩
  | env i =>
    rcases List.mem_append.1 h with h | h
    · obtain ⟨v, hv, rfl⟩ := List.mem_map.1 h
      exact ⟨envTree unq v, .child (List.mem_map_of_mem hv) .self, rfl, rfl⟩
    · obtain ⟨v, hv, rfl⟩ := List.mem_map.1 h
      exact ⟨valueTree unq v.value, .child (List.mem_map_of_mem hv) (.child (by simp) .self),
        rfl, comps⟩
  | misc i =>
    rw [List.mem_singleton.1 h]
    exact ⟨shellTree i.arguments, .child (by simp) .self, rfl, comps⟩

end Verif
