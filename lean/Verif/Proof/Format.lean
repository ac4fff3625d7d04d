import Verif.Spec.Format
import Verif.Proof.StagesProgram

/-! # Proofs about formatting (C86) -/

namespace Verif
namespace Fmt

open Spec Dbg

/-! ## padding -/

theorem around_padding (o : FmtOpts) (d : FmtAlign) (t : Str) (w : Nat) (hw : o.width = some w)
    (_ : ¬ w ≤ t.length) : Around o d t (o.padding (w - t.length) d t) := by
  unfold FmtOpts.padding Around
  rw [hw]
  cases o.align.getD d with
  | left => exact ⟨0, w - t.length, by simp, by simp, rfl⟩
  | right => exact ⟨w - t.length, 0, by simp, by simp, rfl⟩
  | center =>
    refine ⟨(w - t.length) / 2, w - t.length - (w - t.length) / 2, rfl, ?_, ?_⟩
    · simp only [Option.getD_some]; omega
    · show _ ∨ _
      omega

theorem around_self (o : FmtOpts) (d : FmtAlign) (t : Str) (h : o.width.getD 0 ≤ t.length) :
    Around o d t t := by
  refine ⟨0, 0, by simp, by omega, ?_⟩
  cases o.align.getD d <;> simp

theorem around_unique {o : FmtOpts} {d : FmtAlign} {t u v : Str} (hu : Around o d t u)
    (hv : Around o d t v) : u = v := by
  obtain ⟨a, b, rfl, h1, h2⟩ := hu
  obtain ⟨a', b', rfl, h3, h4⟩ := hv
  have : a = a' ∧ b = b' := by
    cases h : o.align.getD d <;> rw [h] at h2 h4 <;> dsimp only at h2 h4 <;> omega
  rw [this.1, this.2]

/-! ## `{:?}` -/

theorem flat_commas (o : FmtOpts) : ∀ (t : DebugTree) (ts : List DebugTree),
    t.plainFmt o ++ (DebugTrees.ofList ts).plainFmt o = commas ((t :: ts).map (·.plainFmt o)) := by
  intro t ts
  induction ts generalizing t with
  | nil => simp [DebugTrees.ofList, DebugTrees.plainFmt, commas]
  | cons u us ih =>
    have := ih u
    simp only [DebugTrees.ofList, DebugTrees.plainFmt, List.map_cons, commas, List.append_assoc,
      List.append_nil] at this ⊢
    simp only [this]

theorem fields_commas (o : FmtOpts) : ∀ (l : Str) (t : DebugTree) (ts : List (Str × DebugTree)),
    (l ++ c!": ") ++ t.plainFmt o ++ (DebugTrees.ofFields ts).plainFmt o =
      commas (((l, t) :: ts).map fun x => x.1 ++ c!": " ++ x.2.plainFmt o) := by
  intro l t ts
  induction ts generalizing l t with
  | nil => simp [DebugTrees.ofFields, DebugTrees.plainFmt, commas]
  | cons u us ih =>
    have := ih u.1 u.2
    simp only [DebugTrees.ofFields, DebugTrees.plainFmt, List.map_cons, commas, List.append_assoc,
      List.append_nil] at this ⊢
    simp only [this]

theorem flat_struct (o : FmtOpts) (name : Str) (fs : List (Str × DebugTree)) (h : fs ≠ []) :
    (DebugTree.struct name fs).plainFmt o =
      debugStruct name (fs.map fun x => (x.1, x.2.plainFmt o)) := by
  cases fs with
  | nil => exact absurd rfl h
  | cons f fs =>
    have := fields_commas o f.1 f.2 fs
    simp only [DebugTree.struct, DebugTrees.ofFields, DebugTree.plainFmt, debugStruct,
      DebugKind.opening, DebugKind.gap, DebugKind.closing, List.map_cons, List.map_map,
      List.append_assoc, Function.comp_def] at this ⊢
    rw [← this]
    simp

theorem flat_tuple (o : FmtOpts) (name : Str) (ts : List DebugTree) :
    (DebugTree.tuple name ts).plainFmt o = debugTuple name (ts.map (·.plainFmt o)) := by
  cases ts with
  | nil => simp [DebugTree.tuple, DebugTrees.ofList, DebugTree.plainFmt, debugTuple, commas,
      DebugKind.opening, DebugKind.closing]
  | cons t ts =>
    have := flat_commas o t ts
    simp only [DebugTree.tuple, DebugTrees.ofList, DebugTree.plainFmt, debugTuple,
      DebugKind.opening, DebugKind.gap, DebugKind.closing, List.append_assoc, List.nil_append,
      List.append_nil] at this ⊢
    rw [← this]
    simp

theorem flat_list (o : FmtOpts) (ts : List DebugTree) :
    (DebugTree.list ts).plainFmt o = debugList (ts.map (·.plainFmt o)) := by
  cases ts with
  | nil => rfl
  | cons t ts =>
    have := flat_commas o t ts
    simp only [DebugTree.list, DebugTrees.ofList, DebugTree.plainFmt, debugList,
      DebugKind.opening, DebugKind.gap, DebugKind.closing, List.append_assoc, List.nil_append,
      List.append_nil] at this ⊢
    rw [← this]
    simp

theorem flat_option (o : FmtOpts) (x : Option DebugTree) :
    (DebugTree.option x).plainFmt o = debugOption (x.map (·.plainFmt o)) := by
  cases x with
  | none => rfl
  | some t => exact flat_tuple o c!"Some" [t]

/-! ## `{:#?}` -/

/-- a text that can start a line -/
def Starts (x : Str) : Prop := ∀ c ∈ x.head?, c ∉ [' ', '}', ')', ']']

mutual

/-- the shape of the trees of the crate -/
def Good : DebugTree → Prop
  | .num _ => True
  | .text t => OneLine t ∧ Starts t ∧ ∃ r c, t = r ++ [c] ∧ c ∉ ['{', '(', '[']
  | .node name k fs => OneLine name ∧ Starts name ∧ (k = .brace → name ≠ []) ∧ Goods fs

def Goods : DebugTrees → Prop
  | .nil => True
  | .cons l t r => OneLine l ∧ Starts l ∧ Good t ∧ Goods r

end

/-- lines with their depths -/
def deeper (ls : List (Nat × Str)) : List (Nat × Str) := ls.map fun x => (x.1 + 1, x.2)

mutual

/-- the lines of a tree, with a text before and one behind it -/
def linesOf (pre suf : Str) : DebugTree → List (Nat × Str)
  | .num n => [(0, pre ++ decimal n ++ suf)]
  | .text t => [(0, pre ++ t ++ suf)]
  | .node name k .nil => [(0, pre ++ name ++ k.opening ++ [k.closing] ++ suf)]
  | .node name k (.cons l t r) => (0, pre ++ name ++ k.opening) ::
      (deeper (linesOf l c!"," t) ++ linesOfs r) ++ [(0, k.closing :: suf)]

def linesOfs : DebugTrees → List (Nat × Str)
  | .nil => []
  | .cons l t r => deeper (linesOf l c!"," t) ++ linesOfs r

end

/-- a line with its blanks -/
def render (x : Nat × Str) : Str := List.replicate (4 * x.1) ' ' ++ x.2

def renders (ls : List (Nat × Str)) : Str := ls.flatMap fun x => render x ++ c!"\n"

theorem padAdapter_line : ∀ (x : Str) (r : Str), OneLine x →
    padAdapter false (x ++ '\n' :: r) = x ++ '\n' :: padAdapter true r := by
  intro x
  induction x with
  | nil => intro r _; simp [padAdapter]
  | cons c x ih =>
    intro r h
    obtain ⟨h1, h2⟩ := ol_cons.1 h
    have : (c == '\n') = false := by simpa using h1
    simp only [List.cons_append, padAdapter, this, ih r h2]
    simp

theorem padAdapter_true (x : Str) (r : Str) (h : OneLine x) :
    padAdapter true (x ++ '\n' :: r) = c!"    " ++ x ++ '\n' :: padAdapter true r := by
  cases x with
  | nil => simp [padAdapter]
  | cons c x =>
    obtain ⟨h1, h2⟩ := ol_cons.1 h
    have : (c == '\n') = false := by simpa using h1
    simp only [List.cons_append, padAdapter, this, padAdapter_line x r h2]
    simp

theorem ol_blanks (n : Nat) : OneLine (List.replicate n ' ') := by
  intro c hc
  rw [(List.mem_replicate.1 hc).2]
  decide

theorem ol_render {x : Nat × Str} (h : OneLine x.2) : OneLine (render x) :=
  ol_append.2 ⟨ol_blanks _, h⟩

theorem linesOfs_cons (l : Str) (t : DebugTree) (r : DebugTrees) :
    deeper (linesOf l c!"," t) ++ linesOfs r = linesOfs (.cons l t r) := by rw [linesOfs]

theorem padAdapter_renders : ∀ (ls : List (Nat × Str)), (∀ x ∈ ls, OneLine x.2) →
    padAdapter true (renders ls) = renders (deeper ls) := by
  intro ls
  induction ls with
  | nil => intro _; rfl
  | cons x ls ih =>
    intro h
    have e : renders (x :: ls) = render x ++ '\n' :: renders ls := by simp [renders]
    have e' : renders (deeper (x :: ls)) = render (x.1 + 1, x.2) ++ '\n' :: renders (deeper ls) := by
      simp [renders, deeper]
    rw [e, padAdapter_true _ _ (ol_render (h x List.mem_cons_self)),
      ih fun y hy => h y (List.mem_cons_of_mem _ hy), e']
    have : render (x.1 + 1, x.2) = c!"    " ++ render x := by
      simp only [render]
      rw [show 4 * (x.1 + 1) = 4 + 4 * x.1 by omega, ← List.replicate_append_replicate]
      rfl
    rw [this]

theorem renders_append (a b : List (Nat × Str)) : renders (a ++ b) = renders a ++ renders b := by
  simp [renders]

theorem renders_cons (x : Nat × Str) (b : List (Nat × Str)) :
    renders (x :: b) = render x ++ c!"\n" ++ renders b := by
  simp [renders]

theorem ol_kind (k : DebugKind) : OneLine k.opening ∧ k.closing ≠ '\n' := by
  cases k <;> exact ⟨by simp [OneLine, DebugKind.opening], by decide⟩

mutual

theorem ol_linesOf (pre suf : Str) (hp : OneLine pre) (hs : OneLine suf) : ∀ (t : DebugTree), Good t →
    ∀ x ∈ linesOf pre suf t, OneLine x.2
  | .num n, _, x, hx => by
    rw [linesOf, List.mem_singleton] at hx
    subst hx
    exact ol_append.2 ⟨ol_append.2 ⟨hp, ol_decimal n⟩, hs⟩
  | .text t, h, x, hx => by
    rw [linesOf, List.mem_singleton] at hx
    subst hx
    exact ol_append.2 ⟨ol_append.2 ⟨hp, h.1⟩, hs⟩
  | .node name k .nil, h, x, hx => by
    rw [linesOf, List.mem_singleton] at hx
    subst hx
    exact ol_append.2 ⟨ol_append.2 ⟨ol_append.2 ⟨ol_append.2 ⟨hp, h.1⟩, (ol_kind k).1⟩,
      ol_cons.2 ⟨(ol_kind k).2, ol_nil⟩⟩, hs⟩
  | .node name k (.cons l t r), h, x, hx => by
    rw [linesOf] at hx
    obtain ⟨h1, -, -, h4⟩ := h
    rcases List.mem_append.1 hx with hx | hx
    · rcases List.mem_cons.1 hx with rfl | hx
      · exact ol_append.2 ⟨ol_append.2 ⟨hp, h1⟩, (ol_kind k).1⟩
      · exact ol_linesOfs (.cons l t r) h4 x (by rw [linesOfs]; exact hx)
    · rw [List.mem_singleton] at hx
      subst hx
      exact ol_cons.2 ⟨(ol_kind k).2, hs⟩

theorem ol_linesOfs : ∀ (ts : DebugTrees), Goods ts → ∀ x ∈ linesOfs ts, OneLine x.2
  | .nil, _, x, hx => by rw [linesOfs] at hx; cases hx
  | .cons l t r, h, x, hx => by
    obtain ⟨h1, -, h3, h4⟩ := h
    rw [linesOfs] at hx
    rcases List.mem_append.1 hx with hx | hx
    · obtain ⟨y, hy, rfl⟩ := List.mem_map.1 hx
      exact ol_linesOf l c!"," h1 (by simp [OneLine]) t h3 y hy
    · exact ol_linesOfs r h4 x hx

end

/-- options that leave numbers alone -/
def Bare (o : FmtOpts) : Prop := o.width = none ∧ o.plus = false

theorem fmtNum_bare {o : FmtOpts} (h : Bare o) (n : Nat) : fmtNum o n = decimal n := by
  simp [fmtNum, FmtOpts.padIntegral, h.1, h.2]

mutual

theorem pretty_lines {o : FmtOpts} (ho : Bare o) (pre suf : Str) : ∀ (t : DebugTree), Good t →
    pre ++ t.prettyFmt o ++ suf ++ c!"\n" = renders (linesOf pre suf t)
  | .num n, _ => by simp [DebugTree.prettyFmt, linesOf, renders, render, fmtNum_bare ho]
  | .text t, _ => by simp [DebugTree.prettyFmt, linesOf, renders, render]
  | .node name k .nil, _ => by simp [DebugTree.prettyFmt, linesOf, renders, render]
  | .node name k (.cons l t r), h => by
    have := pretty_lineses ho (.cons l t r) h.2.2.2
    rw [DebugTree.prettyFmt, linesOf, linesOfs_cons, List.cons_append, renders_cons,
      renders_append, ← this, DebugTrees.prettyFmt]
    simp [renders, render]

theorem pretty_lineses {o : FmtOpts} (ho : Bare o) : ∀ (ts : DebugTrees), Goods ts →
    ts.prettyFmt o = renders (linesOfs ts)
  | .nil, _ => by rw [DebugTrees.prettyFmt, linesOfs]; rfl
  | .cons l t r, h => by
    have h1 := pretty_lines ho l c!"," t h.2.2.1
    have h2 := pretty_lineses ho r h.2.2.2
    rw [DebugTrees.prettyFmt, linesOfs, renders_append, ← h2,
      ← padAdapter_renders _ (ol_linesOf l c!"," h.1 (by simp [OneLine]) t h.2.2.1), ← h1]
    simp

end

theorem lines_one (x : Str) (r : Str) (h : OneLine x) :
    allLines (x ++ '\n' :: r) = x :: allLines r := by
  unfold allLines
  induction x with
  | nil => simp [lines]
  | cons c x ih =>
    obtain ⟨h1, h2⟩ := ol_cons.1 h
    have := ih h2
    simp only [List.cons.injEq] at this
    simp [lines, h1, this]

theorem lines_last (x : Str) (h : OneLine x) : allLines x = [x] := by
  unfold allLines
  induction x with
  | nil => simp [lines]
  | cons c x ih =>
    obtain ⟨h1, h2⟩ := ol_cons.1 h
    have := ih h2
    simp only [List.cons.injEq] at this
    simp [lines, h1, this]

theorem lines_renders : ∀ (ls : List (Nat × Str)) (s : Str), ls ≠ [] → (∀ x ∈ ls, OneLine x.2) →
    s ++ c!"\n" = renders ls → allLines s = ls.map render := by
  intro ls
  induction ls with
  | nil => intro s h; exact absurd rfl h
  | cons x ls ih =>
    intro s _ h e
    have hx := ol_render (h x List.mem_cons_self)
    cases ls with
    | nil =>
      have : s = render x := by
        simp only [renders, List.flatMap_cons, List.flatMap_nil, List.append_nil] at e
        exact List.append_cancel_right e
      rw [this, lines_last _ hx]
      rfl
    | cons y ls =>
      have e1 : renders (x :: y :: ls) = render x ++ '\n' :: renders (y :: ls) := by simp [renders]
      rw [e1] at e
      -- `renders (y :: ls)` ends with a line feed
      obtain ⟨q, hq⟩ : ∃ q, renders (y :: ls) = q ++ c!"\n" := by
        have : ∀ (zs : List (Nat × Str)), zs ≠ [] → ∃ q, renders zs = q ++ c!"\n" := by
          intro zs hz
          refine ⟨renders zs.dropLast ++ render (zs.getLast hz), ?_⟩
          conv => lhs; rw [← List.dropLast_concat_getLast hz, renders_append]
          simp [renders]
        exact this _ (by simp)
      rw [hq, ← List.cons_append, ← List.append_assoc] at e
      have e2 := List.append_cancel_right e
      rw [e2, lines_one _ _ hx, ih q (by simp) (fun z hz => h z (List.mem_cons_of_mem _ hz)) hq.symm]
      rfl

theorem linesOf_ne (pre suf : Str) (t : DebugTree) : linesOf pre suf t ≠ [] := by
  cases t with
  | num n => simp [linesOf]
  | text t => simp [linesOf]
  | node name k fs => cases fs <;> simp [linesOf]

/-! ### indentation -/

theorem not_closes {x : Str} (h : Starts x) : ¬ Closes x := by
  rintro ⟨c, r, rfl, hc⟩
  exact h c (by simp) (by simp only [List.mem_cons] at hc ⊢; exact .inr hc)

theorem starts_append {a b : Str} (ha : Starts a) (hb : Starts b) : Starts (a ++ b) := by
  cases a with
  | nil => exact hb
  | cons c a => exact ha

theorem starts_append_left {a b : Str} (ha : Starts a) (hn : a ≠ []) : Starts (a ++ b) := by
  cases a with
  | nil => exact absurd rfl hn
  | cons c a => exact ha

theorem starts_decimal (n : Nat) : Starts (decimal n) := by
  intro c hc
  have := (C63_decimal n).2.1 c (List.mem_of_mem_head? hc)
  intro hm
  simp only [List.mem_cons, List.not_mem_nil, or_false] at hm
  rcases hm with rfl | rfl | rfl | rfl <;> exact absurd this (by decide)

theorem starts_open {pre name : Str} {k : DebugKind} (h1 : Starts pre) (h2 : Starts name)
    (h3 : k = .brace → name ≠ []) (s : Str) : Starts (pre ++ name ++ k.opening ++ s) := by
  rw [List.append_assoc, List.append_assoc]
  refine starts_append h1 ?_
  cases name with
  | cons c r => exact h2
  | nil =>
    cases k with
    | brace => exact absurd rfl (h3 rfl)
    | paren => simp [Starts, DebugKind.opening]
    | bracket => simp [Starts, DebugKind.opening]

open Classical in
/-- `Indented` for lines with their depths -/
def Nest : Nat → List (Nat × Str) → Nat → Prop
  | d, [], e => d = e
  | d, x :: rest, e => (∀ r, x.2 ≠ ' ' :: r) ∧ (Closes x.2 → 0 < d) ∧
      x.1 = (if Closes x.2 then d - 1 else d) ∧ Nest (x.1 + if Opens x.2 then 1 else 0) rest e

theorem nest_append : ∀ (a b : List (Nat × Str)) (d e f : Nat), Nest d a e → Nest e b f →
    Nest d (a ++ b) f := by
  intro a
  induction a with
  | nil => intro b d e f h1 h2; cases (h1 : d = e); exact h2
  | cons x a ih =>
    intro b d e f h1 h2
    exact ⟨h1.1, h1.2.1, h1.2.2.1, ih b _ e f h1.2.2.2 h2⟩

theorem nest_deeper : ∀ (a : List (Nat × Str)) (d e : Nat), Nest d a e →
    Nest (d + 1) (deeper a) (e + 1) := by
  intro a
  induction a with
  | nil => intro d e h; cases (h : d = e); exact rfl
  | cons x a ih =>
    intro d e h
    refine ⟨h.1, fun _ => by omega, ?_, ?_⟩
    · have h2 := h.2.1
      have h3 := h.2.2.1
      show x.1 + 1 = _
      split at h3
      · rename_i hc
        have := h2 hc
        simp only [hc, if_true]
        omega
      · rename_i hc
        simp only [hc, if_false]
        omega
    · have := ih _ _ h.2.2.2
      rw [Nat.add_right_comm] at this
      exact this

theorem nest_indented : ∀ (a : List (Nat × Str)) (d : Nat), Nest d a 0 → Indented d (a.map render) := by
  intro a
  induction a with
  | nil => intro d h; exact h
  | cons x a ih =>
    intro d h
    refine ⟨x.2, h.1, h.2.1, ?_, ?_⟩
    · rw [← h.2.2.1]; rfl
    · rw [← h.2.2.1]; exact ih _ h.2.2.2

theorem not_opens {r : Str} {c : Char} (h : c ∉ ['{', '(', '[']) : ¬ Opens (r ++ [c]) := by
  rintro ⟨q, d, e, hd⟩
  obtain ⟨-, e⟩ := List.append_inj' e rfl
  cases e
  exact h hd

theorem opens_kind (x : Str) (k : DebugKind) : Opens (x ++ k.opening) := by
  cases k
  · exact ⟨x ++ c!" ", '{', by simp [DebugKind.opening], by simp⟩
  · exact ⟨x, '(', by simp [DebugKind.opening], by simp⟩
  · exact ⟨x, '[', by simp [DebugKind.opening], by simp⟩

theorem closes_kind (k : DebugKind) (s : Str) : Closes (k.closing :: s) :=
  ⟨k.closing, s, rfl, by cases k <;> simp [DebugKind.closing]⟩

/-- what may stand behind a tree -/
def Ends (s : Str) : Prop := s = [] ∨ s = c!","

theorem not_opens_ends {x s : Str} (hx : ∃ r c, x = r ++ [c] ∧ c ∉ ['{', '(', '[']) (hs : Ends s) :
    ¬ Opens (x ++ s) := by
  rcases hs with rfl | rfl
  · obtain ⟨r, c, rfl, hc⟩ := hx
    rw [List.append_nil]
    exact not_opens hc
  · exact not_opens (by decide)

theorem nest_one {x : Str} (h1 : Starts x) (h2 : ¬ Opens x) : Nest 0 [(0, x)] 0 := by
  have hc := not_closes h1
  refine ⟨?_, fun h => absurd h hc, ?_, ?_⟩
  · rintro r rfl
    exact h1 ' ' (by simp) (by simp)
  · show 0 = _
    split <;> rfl
  · show 0 + _ = 0
    simp only [h2, if_false]

theorem decimal_last (n : Nat) : ∃ r c, decimal n = r ++ [c] ∧ c ∉ ['{', '(', '['] := by
  have hne : decimal n ≠ [] := by
    intro h
    obtain ⟨ds, -, h1, -⟩ := decimalUpTo_digits n n (lt_ten_pow n)
    unfold decimal at h
    unfold decimalUpTo at h
    cases n with
    | zero => simp at h
    | succ n =>
      dsimp only at h
      split at h <;> simp at h
  refine ⟨(decimal n).dropLast, (decimal n).getLast hne, (List.dropLast_concat_getLast hne).symm, ?_⟩
  have := (C63_decimal n).2.1 _ (List.getLast_mem hne)
  intro hm
  simp only [List.mem_cons, List.not_mem_nil, or_false] at hm
  rcases hm with h | h | h <;> rw [h] at this <;> exact absurd this (by decide)

theorem last_append {a x : Str} (hx : ∃ r c, x = r ++ [c] ∧ c ∉ ['{', '(', '[']) :
    ∃ r c, a ++ x = r ++ [c] ∧ c ∉ ['{', '(', '['] := by
  obtain ⟨r, c, rfl, hc⟩ := hx
  exact ⟨a ++ r, c, by simp, hc⟩

theorem starts_nonempty {a x s : Str} (h1 : Starts a) (h2 : Starts x)
    (h3 : ∃ r c, x = r ++ [c] ∧ c ∉ ['{', '(', '[']) : Starts (a ++ x ++ s) := by
  obtain ⟨r, c, rfl, hc⟩ := h3
  exact starts_append_left (starts_append h1 h2) (by simp)

theorem starts_nil : Starts [] := by
  intro c hc
  cases hc

mutual

theorem nest_linesOf (pre suf : Str) (hp : Starts pre) (hs : Ends suf) : ∀ (t : DebugTree), Good t →
    Nest 0 (linesOf pre suf t) 0
  | .num n, _ => nest_one (starts_nonempty hp (starts_decimal n) (decimal_last n))
      (not_opens_ends (last_append (decimal_last n)) hs)
  | .text t, h => nest_one (starts_nonempty hp h.2.1 h.2.2) (not_opens_ends (last_append h.2.2) hs)
  | .node name k .nil, h => by
    rw [linesOf]
    refine nest_one ?_ (not_opens_ends ⟨_, k.closing, rfl, by cases k <;> decide⟩ hs)
    rw [List.append_assoc _ [k.closing]]
    exact starts_open hp h.2.1 h.2.2.1 _
  | .node name k (.cons l t r), h => by
    have h1 := nest_linesOfs (.cons l t r) h.2.2.2
    have hst : Starts (pre ++ name ++ k.opening) := by
      simpa using starts_open hp h.2.1 h.2.2.1 []
    rw [linesOf, linesOfs_cons]
    refine nest_append _ _ 0 1 0 ?_ ?_
    · refine ⟨?_, fun hc => absurd hc (not_closes hst), ?_, ?_⟩
      · intro r e
        have e : pre ++ name ++ k.opening = ' ' :: r := e
        exact hst ' ' (by rw [e]; simp) (by simp)
      · show 0 = _
        split <;> rfl
      · show Nest (0 + _) _ _
        rw [if_pos (opens_kind _ k)]
        exact h1
    · refine ⟨?_, fun _ => by decide, ?_, ?_⟩
      · intro r e
        obtain ⟨c, r', e', hc⟩ := closes_kind k suf
        have e : k.closing :: suf = ' ' :: r := e
        rw [e] at e'
        cases e'
        exact absurd hc (by decide)
      · show 0 = _
        rw [if_pos (closes_kind k suf)]
      · show 0 + _ = 0
        have : ¬ Opens (k.closing :: suf) := by
          have := @not_opens_ends [k.closing] suf ⟨[], k.closing, rfl, by cases k <;> decide⟩ hs
          exact this
        rw [if_neg this]

theorem nest_linesOfs : ∀ (ts : DebugTrees), Goods ts → Nest 1 (linesOfs ts) 1
  | .nil, _ => by rw [linesOfs]; exact rfl
  | .cons l t r, h => by
    rw [linesOfs]
    exact nest_append _ _ 1 1 1 (nest_deeper _ 0 0 (nest_linesOf l c!"," h.2.1 (.inr rfl) t h.2.2.1))
      (nest_linesOfs r h.2.2.2)

end

/-! ### one line -/

/-- what stands between a text and a line that does not close -/
def sep (acc : Str) : Str :=
  match acc.getLast? with
  | none | some '(' | some '[' => []
  | _ => [' ']

theorem joinLine_starts (acc x : Str) (h : Starts x) : joinLine acc x = acc ++ sep acc ++ x := by
  have hr : (match acc.getLast? with
      | none | some '(' | some '[' => acc ++ x
      | _ => acc ++ ' ' :: x) = acc ++ sep acc ++ x := by
    unfold sep
    split <;> simp
  rw [← hr]
  cases x with
  | nil => rfl
  | cons c x =>
    have hc := h c (by simp)
    simp only [List.mem_cons, List.not_mem_nil, or_false, not_or] at hc
    unfold joinLine
    simp only [List.head?_cons]
    split
    · rename_i e; simp only [Option.some.injEq] at e; exact absurd e hc.2.1
    · rename_i e; simp only [Option.some.injEq] at e; exact absurd e hc.2.2.1
    · rename_i e; simp only [Option.some.injEq] at e; exact absurd e hc.2.2.2
    · rfl

theorem joinLine_closing (acc : Str) (k : DebugKind) (s : Str) :
    joinLine (acc ++ c!",") (k.closing :: s) = acc ++ k.gap ++ k.closing :: s := by
  cases k <;> simp [joinLine, DebugKind.closing, DebugKind.gap]

theorem sep_opening (x : Str) (k : DebugKind) : sep (x ++ k.opening) = k.gap := by
  cases k
  · have : x ++ DebugKind.brace.opening = (x ++ c!" ") ++ ['{'] := by simp [DebugKind.opening]
    rw [this]
    simp only [sep, List.getLast?_concat]
    rfl
  · simp only [sep, DebugKind.opening, List.getLast?_concat]
    rfl
  · simp only [sep, DebugKind.opening, List.getLast?_concat]
    rfl

theorem sep_comma (x : Str) : sep (x ++ c!",") = c!" " := by
  simp only [sep, List.getLast?_concat]
  rfl

theorem map_deeper (ls : List (Nat × Str)) : (deeper ls).map (·.2) = ls.map (·.2) := by
  simp [deeper]

mutual

theorem fold_linesOf {o : FmtOpts} (ho : Bare o) (pre suf : Str) (hp : Starts pre) :
    ∀ (t : DebugTree), Good t → ∀ acc,
    ((linesOf pre suf t).map (·.2)).foldl joinLine acc = acc ++ sep acc ++ pre ++ t.plainFmt o ++ suf
  | .num n, _, acc => by
    have := joinLine_starts acc (pre ++ decimal n ++ suf)
      (starts_nonempty hp (starts_decimal n) (decimal_last n))
    simp only [linesOf, List.map_cons, List.map_nil, List.foldl_cons, List.foldl_nil, this,
      DebugTree.plainFmt, fmtNum_bare ho]
    simp only [List.append_assoc]
  | .text t, h, acc => by
    have := joinLine_starts acc (pre ++ t ++ suf) (starts_nonempty hp h.2.1 h.2.2)
    simp only [linesOf, List.map_cons, List.map_nil, List.foldl_cons, List.foldl_nil, this,
      DebugTree.plainFmt]
    simp only [List.append_assoc]
  | .node name k .nil, h, acc => by
    have := joinLine_starts acc (pre ++ name ++ k.opening ++ [k.closing] ++ suf) (by
      rw [List.append_assoc _ [k.closing]]
      exact starts_open hp h.2.1 h.2.2.1 _)
    simp only [linesOf, List.map_cons, List.map_nil, List.foldl_cons, List.foldl_nil, this,
      DebugTree.plainFmt]
    simp only [List.append_assoc]
  | .node name k (.cons l t r), h, acc => by
    have hst : Starts (pre ++ name ++ k.opening) := by
      simpa using starts_open hp h.2.1 h.2.2.1 []
    have h1 := fold_linesOf ho l c!"," h.2.2.2.2.1 t h.2.2.2.2.2.1
    have h2 := fold_linesOfs ho r h.2.2.2.2.2.2
    rw [linesOf]
    simp only [List.map_cons, List.map_append, List.map_nil, List.foldl_cons, List.foldl_append,
      List.foldl_nil, List.cons_append, joinLine_starts acc _ hst, map_deeper]
    have hsep : sep (acc ++ sep acc ++ (pre ++ name ++ k.opening)) = k.gap := by
      rw [← List.append_assoc]
      exact sep_opening _ k
    rw [h1, h2, joinLine_closing, hsep]
    simp only [DebugTree.plainFmt, List.append_assoc, List.cons_append, List.nil_append]

theorem fold_linesOfs {o : FmtOpts} (ho : Bare o) : ∀ (ts : DebugTrees), Goods ts → ∀ acc,
    ((linesOfs ts).map (·.2)).foldl joinLine (acc ++ c!",") = acc ++ ts.plainFmt o ++ c!","
  | .nil, _, acc => by simp [linesOfs, DebugTrees.plainFmt]
  | .cons l t r, h, acc => by
    have h1 := fold_linesOf ho l c!"," h.2.1 t h.2.2.1
    have h2 := fold_linesOfs ho r h.2.2.2
    rw [linesOfs, List.map_append, List.foldl_append, map_deeper, h1, sep_comma, h2]
    simp [DebugTrees.plainFmt]

end

theorem strip_render {x : Nat × Str} (h : ∀ r, x.2 ≠ ' ' :: r) :
    (render x).dropWhile (· == ' ') = x.2 := by
  unfold render
  generalize 4 * x.1 = n
  induction n with
  | zero =>
    cases e : x.2 with
    | nil => rfl
    | cons c r =>
      have : c ≠ ' ' := by rintro rfl; exact h r e
      simp [this]
  | succ n ih => simpa [List.replicate_succ] using ih

theorem nest_strip : ∀ (a : List (Nat × Str)) (d e : Nat), Nest d a e →
    (a.map render).map (·.dropWhile (· == ' ')) = a.map (·.2) := by
  intro a
  induction a with
  | nil => intro d e _; rfl
  | cons x a ih =>
    intro d e h
    simp only [List.map_cons, strip_render h.1, ih _ _ h.2.2.2]

/-- lines of a tree -/
theorem pretty_allLines {o : FmtOpts} (ho : Bare o) (t : DebugTree) (h : Good t) :
    allLines (t.prettyFmt o) = (linesOf [] [] t).map render := by
  refine lines_renders _ _ (linesOf_ne [] [] t) (ol_linesOf [] [] ol_nil ol_nil t h) ?_
  simpa using pretty_lines ho [] [] t h

theorem oneLine_pretty {o : FmtOpts} (ho : Bare o) (t : DebugTree) (h : Good t) :
    oneLine (t.prettyFmt o) = t.plainFmt o := by
  unfold oneLine
  rw [pretty_allLines ho t h, nest_strip _ 0 0 (nest_linesOf [] [] starts_nil (.inl rfl) t h),
    fold_linesOf ho [] [] starts_nil t h]
  simp [sep]

theorem indented_pretty {o : FmtOpts} (ho : Bare o) (t : DebugTree) (h : Good t) :
    Indented 0 (allLines (t.prettyFmt o)) := by
  rw [pretty_allLines ho t h]
  exact nest_indented _ 0 (nest_linesOf [] [] starts_nil (.inl rfl) t h)

end Fmt
end Verif
