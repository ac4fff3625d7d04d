import Verif.Proof.AlikeSkel

/-!
# Lines that look alike and agree where the texts are
-/

namespace Verif
namespace Src
open Spec

local notation "A" => AlikeText
local notation "Q" => (fun x y : Str => x = y)

/-- `t` is written at offset `p` of `S` -/
def At (S : Str) (p : Nat) (t : Str) : Prop := ∃ a c, S = a ++ (t ++ c) ∧ blen a = p

theorem At.append {S : Str} {p : Nat} {x y : Str} (h : At S p (x ++ y)) : At S p x ∧ At S (p + blen x) y := by
  obtain ⟨a, c, rfl, rfl⟩ := h
  exact ⟨⟨a, y ++ c, by simp only [List.append_assoc], rfl⟩,
    ⟨a ++ x, c, by simp only [List.append_assoc], by rw [blen_append]⟩⟩

theorem At.cons {S : Str} {p : Nat} {x : Char} {y : Str} (h : At S p (x :: y)) : At S (p + blen [x]) y :=
  (At.append (x := [x]) h).2

theorem At.slice {S : Str} {p : Nat} {t : Str} (h : At S p t) : SliceOf S ⟨p, p + blen t⟩ t := by
  obtain ⟨a, c, rfl, rfl⟩ := h
  exact ⟨a, c, by simp only [List.append_assoc], rfl, rfl⟩

theorem At.of {S : Str} {p q : Nat} {t : Str} (h : At S p t) (e : p = q) : At S q t := e ▸ h

theorem Agree.mono {S S' : Str} {L M : List Span} (h : Agree S S' L) (hs : ∀ sp ∈ M, sp ∈ L) : Agree S S' M :=
  fun sp hm => h sp (hs sp hm)

theorem Agree.left {S S' : Str} {L M : List Span} (h : Agree S S' (L ++ M)) : Agree S S' L :=
  h.mono fun _ h => List.mem_append_left _ h

theorem Agree.right {S S' : Str} {L M : List Span} (h : Agree S S' (L ++ M)) : Agree S S' M :=
  h.mono fun _ h => List.mem_append_right _ h

theorem Agree.tail {S S' : Str} {sp : Span} {M : List Span} (h : Agree S S' (sp :: M)) : Agree S S' M :=
  h.mono fun _ h => List.mem_cons_of_mem _ h

theorem Agree.eq {S S' : Str} {L : List Span} (h : Agree S S' L) {sp : Span} (hm : sp ∈ L) {p : Nat}
    {t t' : Str} (h1 : At S p t) (h2 : At S' p t') (hA : A t t') (e1 : sp.start = p)
    (e2 : sp.stop = p + blen t) : t = t' := by
  have hsp : sp = ⟨p, p + blen t⟩ := by
    cases sp; dsimp only at e1 e2; rw [e1, e2]
  subst hsp
  refine h _ hm _ _ h1.slice ?_
  have := h2.slice
  rw [hA.blen]
  exact this

theorem Agree.head {S S' : Str} {sp : Span} {M : List Span} (h : Agree S S' (sp :: M)) {p : Nat}
    {t t' : Str} (h1 : At S p t) (h2 : At S' p t') (hA : A t t') (e1 : sp.start = p)
    (e2 : sp.stop = p + blen t) : t = t' := h.eq (List.mem_cons_self) h1 h2 hA e1 e2

theorem bind_ok {α β : Type} {x : Result α} {k : α → Result β} {b : β} (h : (x >>= k) = .ok b) :
    ∃ a, x = .ok a ∧ k a = .ok b := by
  cases x with
  | error e => cases h
  | ok a => exact ⟨a, rfl, h⟩

section
variable {unq : Unquote} {S S' : Str}

theorem flag_leaf {f f' : Flag} (h : FlagR A f f') {p : Nat} (h1 : At S p f.text) (h2 : At S' p f'.text)
    {x : Verif.Flag} (hx : f.eval unq p = .ok x) (ha : Agree S S' (flagLeaves x)) : FlagR Q f f' := by
  obtain ⟨c, -, hx⟩ := bind_ok hx
  cases hx
  have hg := h.gap.blen
  have hn := AlikeText.blen h.name
  have a1 := h1.append.2.cons.cons
  have a2 := h2.append.2.cons.cons
  rw [← hg] at a2
  refine ⟨h.gap, ?_, ?_⟩
  · exact ha.head a1.append.1 a2.append.1 h.name rfl rfl
  · have b1 := a1.append.2.cons
    have b2 := a2.append.2.cons
    rw [← hn] at b2
    refine ha.tail.head b1 b2 h.value rfl ?_
    simp only [Flag.body, blen_cons, blen_append, blen_nil]
    omega

theorem flags_leaf {fs fs' : List Flag} (h : Each (FlagR A) fs fs') {p : Nat} (h1 : At S p (flagsText fs))
    (h2 : At S' p (flagsText fs')) {xs : List Verif.Flag} (hx : evalFlags unq p fs = .ok xs)
    (ha : Agree S S' (xs.flatMap flagLeaves)) : Each (FlagR Q) fs fs' := by
  induction h generalizing p xs with
  | nil => exact .nil
  | cons h _ ih =>
    obtain ⟨y, hy, hx⟩ := bind_ok hx
    obtain ⟨ys, hys, hx⟩ := bind_ok hx
    cases hx
    rw [flagsText, List.flatMap_cons] at h1 h2
    rw [List.flatMap_cons] at ha
    have h2' := h2.append.2
    rw [← (h.text hA).blen] at h2'
    exact .cons (flag_leaf h h1.append.1 h2.append.1 hy ha.left) (ih h1.append.2 h2' hys ha.right)

theorem arg_leaf {f f' : Arg} (h : ArgR A f f') {p : Nat} (h1 : At S p f.text) (h2 : At S' p f'.text)
    {x : SpannedString} (hx : f.eval unq p = .ok x) (ha : Agree S S' [x.span]) : ArgR Q f f' := by
  obtain ⟨c, -, hx⟩ := bind_ok hx
  cases hx
  have a1 := h1.append.2
  have a2 := h2.append.2
  rw [← h.gap.blen] at a2
  exact ⟨h.gap, ha.head a1 a2 h.value rfl rfl⟩

theorem args_leaf {fs fs' : List Arg} (h : Each (ArgR A) fs fs') {p : Nat} (h1 : At S p (argsText fs))
    (h2 : At S' p (argsText fs')) {xs : List SpannedString} (hx : evalArgs unq p fs = .ok xs)
    (ha : Agree S S' (xs.map (·.span))) : Each (ArgR Q) fs fs' := by
  induction h generalizing p xs with
  | nil => exact .nil
  | cons h _ ih =>
    obtain ⟨y, hy, hx⟩ := bind_ok hx
    obtain ⟨ys, hys, hx⟩ := bind_ok hx
    cases hx
    rw [argsText, List.flatMap_cons] at h1 h2
    rw [List.map_cons] at ha
    have h2' := h2.append.2
    rw [← (h.text hA).blen] at h2'
    exact .cons (arg_leaf h h1.append.1 h2.append.1 hy (Agree.left (L := [_]) ha)) (ih h1.append.2 h2' hys ha.tail)

theorem value_leaf {v v' : Value} (h : ValueR A v v') {p : Nat} (h1 : At S p v.text) (h2 : At S' p v'.text)
    {L : List Span} {sp : Span} (ha : Agree S S' L) (hm : sp ∈ L) (e1 : sp.start = p)
    (e2 : sp.stop = p + blen v.text) : ValueR Q v v' := by
  cases h with
  | quoted h => exact .quoted (ha.eq hm h1 h2 h e1 e2)
  | bare h => exact .bare (ha.eq hm h1 h2 h e1 e2)

theorem pair_leaf {f f' : Pair} (h : PairR A f f') {p : Nat} (h1 : At S p f.text) (h2 : At S' p f'.text)
    (ha : Agree S S' [f.nameSpan p, f.valueSpan p]) : PairR Q f f' := by
  have a1 := h1.append.2
  have a2 := h2.append.2
  rw [← h.gap.blen] at a2
  have b1 := a1.append.2.cons
  have b2 := a2.append.2.cons
  rw [← (h.name.text hA).blen] at b2
  refine ⟨h.gap, value_leaf h.name a1.append.1 a2.append.1 ha (.head _) rfl rfl,
    value_leaf h.value b1 b2 ha (.tail _ (.head _)) rfl ?_⟩
  simp only [Pair.valueSpan, Pair.body, blen_cons, blen_append, blen_nil]
  omega

theorem pairs_leaf {α : Type} {ev : Nat → Pair → Result α} {lv : α → List Span}
    (hev : ∀ {p f x}, ev p f = .ok x → lv x = [f.nameSpan p, f.valueSpan p])
    {fs fs' : List Pair} (h : Each (PairR A) fs fs') {p : Nat} (h1 : At S p (pairsText fs))
    (h2 : At S' p (pairsText fs')) {xs : List α} (hx : evalPairs ev p fs = .ok xs)
    (ha : Agree S S' (xs.flatMap lv)) : Each (PairR Q) fs fs' := by
  induction h generalizing p xs with
  | nil => exact .nil
  | cons h _ ih =>
    obtain ⟨y, hy, hx⟩ := bind_ok hx
    obtain ⟨ys, hys, hx⟩ := bind_ok hx
    cases hx
    rw [pairsText, List.flatMap_cons] at h1 h2
    rw [List.flatMap_cons] at ha
    have h2' := h2.append.2
    rw [← (h.text hA).blen] at h2'
    exact .cons (pair_leaf h h1.append.1 h2.append.1 (hev hy ▸ ha.left)) (ih h1.append.2 h2' hys ha.right)

theorem label_spans {p : Nat} {f : Pair} {x : Label} (h : f.evalLabel unq p = .ok x) :
    [x.name.span, x.value.span] = [f.nameSpan p, f.valueSpan p] := by
  obtain ⟨_, -, h⟩ := bind_ok h
  obtain ⟨_, -, h⟩ := bind_ok h
  cases h; rfl

theorem env_spans {p : Nat} {f : Pair} {x : EnvVar} (h : f.evalEnv unq p = .ok x) :
    x.key.span :: x.value.components.map componentSpan = [f.nameSpan p, f.valueSpan p] := by
  obtain ⟨_, -, h⟩ := bind_ok h
  cases h; rfl

theorem shell_leaf {s s' : Shell} (h : ShellR A s s') {p : Nat} (h1 : At S p s.text) (h2 : At S' p s'.text)
    (ha : Agree S S' ((s.components p).map componentSpan)) : ShellR Q s s' := by
  induction h generalizing p with
  | last h => exact .last (ha.head h1 h2 h rfl rfl)
  | lastComment k1 k2 k3 =>
    have a1 := h1.append.2
    have a2 := h2.append.2
    rw [← k1.blen] at a2
    exact .lastComment k1 (ha.head a1.append.1 a2.append.1 k2 rfl rfl) k3
  | more k1 k2 k3 _ ih =>
    have a1 := h1.append.2.cons
    have a2 := h2.append.2.cons
    rw [← AlikeText.blen k1] at a2
    have b1 := a1.append.2.append.2
    have b2 := a2.append.2.append.2
    rw [← k2.blen, ← k3.blen] at b2
    exact .more (ha.head h1.append.1 h2.append.1 k1 rfl rfl) k2 k3 (ih b1 b2 ha.tail)
  | comment k1 k2 k3 _ ih =>
    have a1 := h1.append.2
    have a2 := h2.append.2
    rw [← k1.blen] at a2
    have b1 := a1.append.2.append.2
    have b2 := a2.append.2.append.2
    rw [← AlikeText.blen k2, ← k3.blen] at b2
    exact .comment k1 (ha.head a1.append.1 a2.append.1 k2 rfl rfl) k3 (ih b1 b2 ha.tail)

theorem elem_leaf {f f' : Elem} (h : ElemR A f f') {p : Nat} (h1 : At S p f.text) (h2 : At S' p f'.text)
    {x : SpannedString} (hx : f.eval unq p = .ok x) (ha : Agree S S' [x.span]) : ElemR Q f f' := by
  obtain ⟨c, -, hx⟩ := bind_ok hx
  cases hx
  have a1 := h1.append.2.cons.append.2
  have a2 := h2.append.2.cons.append.2
  rw [← h.before.blen, ← h.after.blen] at a2
  exact ⟨h.before, h.after, ha.head a1 a2 h.value rfl rfl⟩

theorem elems_leaf {fs fs' : List Elem} (h : Each (ElemR A) fs fs') {p : Nat} (h1 : At S p (elemsText fs))
    (h2 : At S' p (elemsText fs')) {xs : List SpannedString} (hx : evalElems unq p fs = .ok xs)
    (ha : Agree S S' (xs.map (·.span))) : Each (ElemR Q) fs fs' := by
  induction h generalizing p xs with
  | nil => exact .nil
  | cons h _ ih =>
    obtain ⟨y, hy, hx⟩ := bind_ok hx
    obtain ⟨ys, hys, hx⟩ := bind_ok hx
    cases hx
    rw [elemsText, List.flatMap_cons] at h1 h2
    rw [List.map_cons] at ha
    have h2' := h2.append.2
    rw [← (h.text hA).blen] at h2'
    exact .cons (elem_leaf h h1.append.1 h2.append.1 hy (Agree.left (L := [_]) ha)) (ih h1.append.2 h2' hys ha.tail)

theorem array_leaf {a a' : Array} (h : ArrayR A a a') {p : Nat} (h1 : At S p a.text) (h2 : At S' p a'.text)
    {xs : List SpannedString} (hx : a.eval unq p = .ok xs) (ha : Agree S S' (xs.map (·.span))) :
    ArrayR Q a a' := by
  cases h with
  | empty h => exact .empty h
  | full k1 k2 k3 k4 =>
    obtain ⟨c, -, hx⟩ := bind_ok hx
    obtain ⟨ys, hys, hx⟩ := bind_ok hx
    cases hx
    have a1 := h1.cons.append.2
    have a2 := h2.cons.append.2
    rw [← k1.blen] at a2
    have b1 := a1.append.2.append.1
    have b2 := a2.append.2.append.1
    rw [← AlikeText.blen k2] at b2
    exact .full k1 (ha.head a1.append.1 a2.append.1 k2 rfl rfl) (elems_leaf k3 b1 b2 hys ha.tail) k4

theorem alias_leaf {a a' : Option AliasText} (h : AliasR A a a') {p : Nat} (h1 : At S p (aliasText a))
    (h2 : At S' p (aliasText a')) (ha : Agree S S' ((a.map (·.name_at p)).map (·.span)).toList) :
    AliasR Q a a' := by
  cases h with
  | none => exact .none
  | some k1 k2 k3 k4 =>
    have a1 := h1.append.2.append.2.append.2
    have a2 := h2.append.2.append.2.append.2
    rw [← k1.blen, ← k2.blen, ← k3.blen] at a2
    exact .some k1 k2 k3 (ha.head a1 a2 k4 rfl rfl)

theorem execKind_leaves (k : ExecKind) (i : ExecInstruction) :
    leaves (k.instr i) = match i.expr with
      | .shell b => b.components.map componentSpan
      | .exec a => a.elements.map (·.span) := by
  cases k <;> rfl

theorem item_leaf {i i' : Item} (h : ItemR A i i') {p : Nat} (h1 : At S p i.text) (h2 : At S' p i'.text)
    {o : Option Instruction} (hx : i.eval unq p = .ok o) (ha : Agree S S' (o.toList.flatMap leaves)) :
    ItemR Q i i' := by
  have hone : ∀ x : Instruction, (some x).toList.flatMap leaves = leaves x := fun x => by
    rw [Option.toList_some, List.flatMap_cons, List.flatMap_nil, List.append_nil]
  cases h with
  | blank => exact .blank
  | comment h => exact .comment h
  | «from» k1 k2 k3 k4 k5 =>
    obtain ⟨fl, hfl, hx⟩ := bind_ok hx
    obtain ⟨_, -, hx⟩ := bind_ok hx
    cases hx
    rw [hone] at ha
    have a1 := h1.append.2
    have a2 := h2.append.2
    rw [← k1.blen] at a2
    have b1 := a1.append.2.append.2
    have b2 := a2.append.2.append.2
    rw [← (flagsR_text hA k2).blen, ← k3.blen] at b2
    have c2 := b2.append.2
    rw [← AlikeText.blen k4] at c2
    exact .from k1 (flags_leaf k2 a1.append.1 a2.append.1 hfl ha.left) k3
      (ha.right.head b1.append.1 b2.append.1 k4 rfl rfl) (alias_leaf k5 b1.append.2 c2 ha.right.tail)
  | arg k1 k2 k3 k4 =>
    have a1 := h1.append.2.append.2
    have a2 := h2.append.2.append.2
    rw [← k1.blen, ← k2.blen] at a2
    cases k4 with
    | none =>
      cases hx
      rw [hone] at ha
      exact .arg k1 k2 (ha.head a1.append.1 a2.append.1 k3 rfl rfl) .none
    | some k4 =>
      obtain ⟨_, -, hx⟩ := bind_ok hx
      cases hx
      rw [hone] at ha
      have b1 := a1.append.2.cons
      have b2 := a2.append.2.cons
      rw [← AlikeText.blen k3] at b2
      exact .arg k1 k2 (ha.head a1.append.1 a2.append.1 k3 rfl rfl)
        (.some (value_leaf k4 b1 b2 ha (.tail _ (.head _)) rfl rfl))
  | label k1 k2 k3 =>
    obtain ⟨fl, hfl, hx⟩ := bind_ok hx
    cases hx
    rw [hone] at ha
    have a1 := h1.append.2
    have a2 := h2.append.2
    rw [← k1.blen] at a2
    exact .label k1 (pairs_leaf label_spans k2 a1.append.1 a2.append.1 hfl ha) k3
  | label1 k1 k2 k3 k4 k5 =>
    obtain ⟨_, -, hx⟩ := bind_ok hx
    obtain ⟨_, -, hx⟩ := bind_ok hx
    cases hx
    rw [hone] at ha
    have a1 := h1.append.2.append.2
    have a2 := h2.append.2.append.2
    rw [← k1.blen, ← k2.blen] at a2
    have b1 := a1.append.2.append.2
    have b2 := a2.append.2.append.2
    rw [← (k3.text hA).blen, ← k4.blen] at b2
    exact .label1 k1 k2 (value_leaf k3 a1.append.1 a2.append.1 ha (.head _) rfl rfl) k4
      (value_leaf k5 b1 b2 ha (.tail _ (.head _)) rfl rfl)
  | @shell k kw kw' g g' s s' k1 k2 k3 =>
    simp only [Item.eval] at hx
    by_cases hh : '#' ∈ g
    · rw [if_pos hh] at hx; cases hx
    · rw [if_neg hh] at hx
      cases hx
      rw [hone, execKind_leaves] at ha
      have a1 := h1.append.2.append.2
      have a2 := h2.append.2.append.2
      rw [← k1.blen, ← k2.blen] at a2
      exact .shell k1 k2 (shell_leaf k3 a1 a2 ha)
  | @exec k kw kw' g g' s s' k1 k2 k3 =>
    simp only [Item.eval] at hx
    by_cases hh : '#' ∈ g
    · rw [if_pos hh] at hx; cases hx
    · rw [if_neg hh] at hx
      obtain ⟨fl, hfl, hx⟩ := bind_ok hx
      cases hx
      rw [hone, execKind_leaves] at ha
      have a1 := h1.append.2.append.2
      have a2 := h2.append.2.append.2
      rw [← k1.blen, ← k2.blen] at a2
      exact .exec k1 k2 (array_leaf k3 a1 a2 hfl ha)
  | copy k1 k2 k3 k4 =>
    obtain ⟨fl, hfl, hx⟩ := bind_ok hx
    obtain ⟨ss, hss, hx⟩ := bind_ok hx
    obtain ⟨d, hd, hx⟩ := bind_ok hx
    cases hx
    rw [hone] at ha
    have a1 := h1.append.2
    have a2 := h2.append.2
    rw [← k1.blen] at a2
    have b1 := a1.append.2
    have b2 := a2.append.2
    rw [← (flagsR_text hA k2).blen] at b2
    have c2 := b2.append.2
    rw [← (argsR_text hA k3).blen] at c2
    exact .copy k1 (flags_leaf k2 a1.append.1 a2.append.1 hfl ha.left)
      (args_leaf k3 b1.append.1 b2.append.1 hss ha.right.left) (arg_leaf k4 b1.append.2 c2 hd ha.right.right)
  | env k1 k2 k3 =>
    obtain ⟨fl, hfl, hx⟩ := bind_ok hx
    cases hx
    rw [hone] at ha
    have a1 := h1.append.2
    have a2 := h2.append.2
    rw [← k1.blen] at a2
    exact .env k1 (pairs_leaf env_spans k2 a1.append.1 a2.append.1 hfl ha) k3
  | env1 k1 k2 k3 k4 k5 =>
    cases hx
    rw [hone] at ha
    have a1 := h1.append.2.append.2
    have a2 := h2.append.2.append.2
    rw [← k1.blen, ← k2.blen] at a2
    have b1 := a1.append.2.append.2
    have b2 := a2.append.2.append.2
    rw [← AlikeText.blen k3, ← k4.blen] at b2
    simp only [leaves, List.flatMap_cons, List.flatMap_nil, List.append_nil] at ha
    exact .env1 k1 k2 (ha.head a1.append.1 a2.append.1 k3 rfl rfl) k4 (shell_leaf k5 b1 b2 ha.tail)
  | env1q k1 k2 k3 k4 k5 =>
    obtain ⟨_, -, hx⟩ := bind_ok hx
    cases hx
    rw [hone] at ha
    have a1 := h1.append.2.append.2
    have a2 := h2.append.2.append.2
    rw [← k1.blen, ← k2.blen] at a2
    have b1 := a1.append.2.append.2
    have b2 := a2.append.2.append.2
    rw [← AlikeText.blen k3, ← k4.blen] at b2
    exact .env1q k1 k2 (ha.head a1.append.1 a2.append.1 k3 rfl rfl) k4 (ha.tail.head b1 b2 k5 rfl rfl)
  | misc k1 k2 =>
    cases hx
    rw [hone] at ha
    have a2 := h2.append.2
    rw [← AlikeText.blen k1] at a2
    exact .misc (ha.head h1.append.1 h2.append.1 k1 rfl rfl) (shell_leaf k2 h1.append.2 a2 ha.tail)

theorem line_leaf {l l' : Line} (h : LineR A l l') {p : Nat} (h1 : At S p l.text) (h2 : At S' p l'.text)
    {o : Option Instruction} (hx : l.item.eval unq (p + blen l.indent) = .ok o)
    (ha : Agree S S' (o.toList.flatMap leaves)) :
    l'.item.eval unq (p + blen l'.indent) = .ok o := by
  have a1 := h1.append.2
  have a2 := h2.append.2
  rw [← h.indent.blen] at a2 ⊢
  rw [item_same (item_leaf h.item a1.append.1 a2.append.1 hx ha), hx]

/-- Documents that look alike and agree on all texts that are shown have the same instructions. -/
theorem doc_leaf {ms ms' : List (Str × Line)} (h : LinesR A ms ms') {l l' : Line} (hl : LineR A l l') {p : Nat}
    (h1 : At S p (docText l ms)) (h2 : At S' p (docText l' ms')) {is : List Instruction}
    (hx : evalDoc unq p l ms = .ok is) (ha : Agree S S' (is.flatMap leaves)) :
    evalDoc unq p l' ms' = .ok is := by
  induction h generalizing l l' p is with
  | nil =>
    obtain ⟨o, ho, hx⟩ := bind_ok hx
    cases hx
    simp only [evalDoc, line_leaf hl h1 h2 ho ha]
    rfl
  | cons k1 k2 _ ih =>
    obtain ⟨o, ho, hx⟩ := bind_ok hx
    obtain ⟨js, hjs, hx⟩ := bind_ok hx
    cases hx
    rw [List.flatMap_append] at ha
    have a1 := h1.append.2.append.2
    have a2 := h2.append.2.append.2
    have e := line_leaf hl h1.append.1 h2.append.1 ho ha.left
    have ht := (hl.text hA).blen
    rw [← ht, ← k1.blen] at a2
    have e' := ih k2 a1 a2 hjs ha.right
    simp only [evalDoc, e, ← ht, ← k1.blen, e']
    rfl

end
end Src
end Verif
