import Verif.Proof.SrcDoc
import Verif.Spec.Relayout

/-!
# Layout does not matter
-/

namespace Verif
namespace Src
open Spec

/-- results that are equal after a map -/
theorem bind_map {α β γ δ : Type} {f : α → γ} {g : β → δ} {x x' : Result α} {k k' : α → Result β}
    (h : x.map f = x'.map f) (hk : ∀ a a', f a = f a' → (k a).map g = (k' a').map g) :
    (x >>= k).map g = (x' >>= k').map g := by
  cases x <;> cases x' <;> simp [Except.map, Except.bind, bind] at h ⊢
  · exact h
  · exact hk _ _ h

theorem bind_self {α β δ : Type} {g : β → δ} {x : Result α} {k k' : α → Result β}
    (hk : ∀ a, (k a).map g = (k' a).map g) : (x >>= k).map g = (x >>= k').map g :=
  bind_map (f := id) rfl fun _ _ h => by cases h; exact hk _

/-- positions do not matter -/
abbrev zero : Nat → Nat := fun _ => 0

theorem flags_bare (unq : Unquote) (fs : List Flag) (p q : Nat) :
    (evalFlags unq p fs).map (List.map (·.remap zero)) =
      (evalFlags unq q (fs.map (·.bare))).map (List.map (·.remap zero)) := by
  induction fs generalizing p q with
  | nil => rfl
  | cons f fs ih =>
    refine bind_map (f := (·.remap zero)) (bind_self fun a => rfl) fun a a' h => ?_
    refine bind_map (ih _ _) fun b b' h' => ?_
    show Except.ok _ = Except.ok _
    rw [List.map_cons, List.map_cons, h, h']

theorem args_bare (unq : Unquote) (fs : List Arg) (p q : Nat) :
    (evalArgs unq p fs).map (List.map (·.remap zero)) =
      (evalArgs unq q (fs.map (·.bare))).map (List.map (·.remap zero)) := by
  induction fs generalizing p q with
  | nil => rfl
  | cons f fs ih =>
    refine bind_map (f := (·.remap zero)) (bind_self fun a => rfl) fun a a' h => ?_
    refine bind_map (ih _ _) fun b b' h' => ?_
    show Except.ok _ = Except.ok _
    rw [List.map_cons, List.map_cons, h, h']

theorem pairs_bare {α : Type} {ev : Nat → Pair → Result α} {g : α → α}
    (hev : ∀ p q f, (ev p f).map g = (ev q f.bare).map g) (fs : List Pair) (p q : Nat) :
    (evalPairs ev p fs).map (List.map g) =
      (evalPairs ev q (fs.map (·.bare))).map (List.map g) := by
  induction fs generalizing p q with
  | nil => rfl
  | cons f fs ih =>
    refine bind_map (f := g) (hev _ _ _) fun a a' h => ?_
    refine bind_map (ih _ _) fun b b' h' => ?_
    show Except.ok _ = Except.ok _
    rw [List.map_cons, List.map_cons, h, h']

theorem elems_bare (unq : Unquote) (fs : List Elem) (p q : Nat) :
    (evalElems unq p fs).map (List.map (·.remap zero)) =
      (evalElems unq q (fs.map (·.bare))).map (List.map (·.remap zero)) := by
  induction fs generalizing p q with
  | nil => rfl
  | cons f fs ih =>
    refine bind_map (f := (·.remap zero)) (bind_self fun a => rfl) fun a a' h => ?_
    refine bind_map (ih _ _) fun b b' h' => ?_
    show Except.ok _ = Except.ok _
    rw [List.map_cons, List.map_cons, h, h']

theorem array_bare (unq : Unquote) (a : Array) (p q : Nat) :
    (a.eval unq p).map (List.map (·.remap zero)) =
      (a.bare.eval unq q).map (List.map (·.remap zero)) := by
  cases a with
  | empty g => rfl
  | full g v es c g' =>
    refine bind_self fun a => ?_
    refine bind_map (elems_bare _ _ _ _) fun b b' h => ?_
    show Except.ok _ = Except.ok _
    rw [List.map_cons, List.map_cons, h]; rfl

theorem shell_bare (s : Shell) (p q : Nat) :
    (s.components p).map (·.remap zero) = (s.bare.components q).map (·.remap zero) := by
  induction s generalizing p q with
  | last => rfl
  | lastComment => rfl
  | more t w n s ih => simp only [Shell.components, Shell.bare, List.map_cons]; rw [ih]; rfl
  | comment w t n s ih => simp only [Shell.components, Shell.bare, List.map_cons]; rw [ih]; rfl

theorem string_bare (s : Shell) (p q : Nat) :
    (s.string p).remap zero = (s.bare.string q).remap zero := by
  simp only [Shell.string, BreakableString.remap, shell_bare s p q, Span.remap]

theorem alias_bare (a : Option AliasText) (p q : Nat) :
    (a.map (·.name_at p)).map (·.remap zero) =
      ((a.map aliasBare).map (·.name_at q)).map (·.remap zero) := by
  cases a <;> rfl

/-- The layout of an item has no influence on its value. -/
theorem item_bare (unq : Unquote) (i : Item) (h : ¬ i.CommentFirst) (p q : Nat) :
    (i.eval unq p).map (Option.map (·.remap zero)) =
      (i.bare.eval unq q).map (Option.map (·.remap zero)) := by
  cases i with
  | blank => rfl
  | comment t => rfl
  | «from» kw fs g i a =>
    refine bind_map (flags_bare _ _ _ _) fun f f' hf => bind_self fun _ => ?_
    show Except.ok _ = Except.ok _
    simp only [Option.map_some, Instruction.remap, FromInstruction.remap]
    rw [hf, alias_bare a _ (q + blen c!"from" + blen (flagsText (fs.map (·.bare))) + blen [' '] +
      blen i)]
    rfl
  | arg kw g n v =>
    cases v with
    | none => rfl
    | some v => exact bind_self fun _ => rfl
  | label kw ps t =>
    refine bind_map (pairs_bare (g := (·.remap zero)) (fun p q f => ?_) _ _ _) fun b b' h => ?_
    · exact bind_self fun _ => bind_self fun _ => rfl
    · show Except.ok _ = Except.ok _
      simp only [Option.map_some, Instruction.remap, LabelInstruction.remap]
      rw [h]; rfl
  | label1 kw g n g' v => exact bind_self fun _ => bind_self fun _ => rfl
  | shell k kw g s =>
    have h : '#' ∉ g := h
    simp only [Item.eval, Item.bare]
    rw [if_neg h, if_neg (by decide)]
    show Except.ok _ = Except.ok _
    have hs := string_bare s (p + blen kw + blen g) (q + blen k.keyword + blen [' '])
    cases k <;> simp only [Option.map_some, ExecKind.instr, Instruction.remap, ExecInstruction.remap,
      ShellOrExecExpr.remap] <;> rw [hs] <;> rfl
  | exec k kw g a =>
    have h : '#' ∉ g := h
    simp only [Item.eval, Item.bare]
    rw [if_neg h, if_neg (by decide)]
    refine bind_map (array_bare _ _ _ _) fun b b' hb => ?_
    show Except.ok _ = Except.ok _
    cases k <;> simp only [Option.map_some, ExecKind.instr, Instruction.remap, ExecInstruction.remap,
      ShellOrExecExpr.remap, StringArray.remap] <;> rw [hb] <;> rfl
  | copy kw fs ss d =>
    refine bind_map (flags_bare _ _ _ _) fun f f' hf => bind_map (args_bare _ _ _ _) fun b b' hb =>
      bind_map (f := (·.remap zero)) (bind_self fun a => rfl) fun c c' hc => ?_
    show Except.ok _ = Except.ok _
    simp only [Option.map_some, Instruction.remap, CopyInstruction.remap]
    rw [hf, hb, hc]; rfl
  | env kw ps t =>
    refine bind_map (pairs_bare (g := (·.remap zero)) (fun p q f => ?_) _ _ _) fun b b' h => ?_
    · exact bind_self fun _ => rfl
    · show Except.ok _ = Except.ok _
      simp only [Option.map_some, Instruction.remap, EnvInstruction.remap]
      rw [h]; rfl
  | env1 kw g n g' s =>
    show Except.ok _ = Except.ok _
    simp only [Option.map_some, Instruction.remap, EnvInstruction.remap, List.map_cons, List.map_nil,
      EnvVar.remap]
    rw [string_bare s _ (q + blen c!"env" + blen [' '] + blen n + blen [' '])]
    rfl
  | env1q kw g n g' v => exact bind_self fun _ => rfl
  | misc w a =>
    show Except.ok _ = Except.ok _
    simp only [Option.map_some, Instruction.remap, MiscInstruction.remap]
    rw [string_bare a _ (q + blen w)]
    rfl

/-- the value of a list of items, without positions -/
noncomputable def evalItems (unq : Unquote) : List Item → Result (List Instruction)
  | [] => .ok []
  | i :: is => do
    let x ← (i.eval unq 0).map (Option.map (·.remap zero))
    let xs ← evalItems unq is
    return x.toList ++ xs

theorem evalItems_filter (unq : Unquote) (is : List Item) :
    evalItems unq (is.map Item.bare) = evalItems unq ((is.filter Item.IsInstr).map Item.bare) := by
  induction is with
  | nil => rfl
  | cons i is ih =>
    have e : ∀ x : Result (List Instruction), (do
      let x ← (Except.ok none : Result (Option Instruction)).map (Option.map (·.remap zero))
      let xs ← evalItems unq (is.map Item.bare)
      return x.toList ++ xs : Result _) = evalItems unq (is.map Item.bare) := by
      intro _
      cases h : evalItems unq (is.map Item.bare) <;> rfl
    have e := e (.ok [])
    cases i
    case blank => exact (e.trans ih)
    case comment => exact (e.trans ih)
    all_goals
      simp only [List.map_cons, List.filter_cons, Item.IsInstr, if_true, evalItems]
      rw [ih]

theorem doc_bare (unq : Unquote) (l : Line) (ms : List (Str × Line)) (p : Nat)
    (h : ∀ i ∈ docItems l ms, ¬ i.CommentFirst) :
    (evalDoc unq p l ms).map (List.map (·.remap zero)) =
      evalItems unq ((docItems l ms).map Item.bare) := by
  induction ms generalizing p l with
  | nil =>
    have h0 := item_bare unq l.item (h _ (by simp [docItems])) (p + blen l.indent) 0
    simp only [docItems, List.map_cons, List.map_nil, evalItems, evalDoc]
    rw [← h0]
    cases l.item.eval unq (p + blen l.indent) with
    | error e => rfl
    | ok o => cases o <;> rfl
  | cons m ms ih =>
    obtain ⟨n, m⟩ := m
    have h0 := item_bare unq l.item (h _ (by simp [docItems])) (p + blen l.indent) 0
    have h1 := ih m (p + blen l.text + blen n) fun i hi => h i (by
      simp only [docItems, List.map_cons, List.mem_cons] at hi ⊢; exact .inr hi)
    simp only [docItems, List.map_cons, evalItems, evalDoc] at h1 ⊢
    rw [← h0, ← h1]
    cases l.item.eval unq (p + blen l.indent) with
    | error e => rfl
    | ok o =>
      cases evalDoc unq (p + blen l.text + blen n) m ms with
      | error e => rfl
      | ok is => cases o <;> rfl

theorem globalArgs_remap (f : Nat → Nat) (is : List Instruction) :
    globalArgs (is.map (·.remap f)) = (globalArgs is).map (·.remap f) := by
  induction is with
  | nil => rfl
  | cons i is ih =>
    cases i <;> rw [List.map_cons] <;> first
      | rfl
      | exact ih
      | exact congrArg (_ :: ·) ih

theorem numberStages_remap (f : Nat → Nat) (is : List Instruction) : ∀ n,
    numberStages n (is.map (·.remap f)) = (numberStages n is).map (·.remap f) := by
  induction is with
  | nil => intro n; rfl
  | cons i is ih =>
    intro n
    cases i <;> rw [List.map_cons] <;> exact congrArg (_ :: ·) (ih _)

theorem parse_bare {unq : Unquote} {l : Line} {ms : List (Str × Line)} (hf : DocFits l ms)
    (h : ∀ i ∈ docItems l ms, ¬ i.CommentFirst) :
    (Dockerfile.parse unq (docText l ms)).map Dockerfile.bare =
      (evalItems unq ((docItems l ms).map Item.bare)).map (documentOf []) := by
  rw [parse_fits hf, ← doc_bare unq l ms 0 h]
  cases evalDoc unq 0 l ms with
  | error e => rfl
  | ok is =>
    show Except.ok _ = Except.ok _
    simp only [documentOf, Dockerfile.bare, globalArgs_remap, numberStages_remap]

theorem parse_same {unq : Unquote} {l l' : Line} {ms ms' : List (Str × Line)} (hf : DocFits l ms)
    (hf' : DocFits l' ms') (h : ∀ i ∈ docItems l ms, ¬ i.CommentFirst)
    (h' : ∀ i ∈ docItems l' ms', ¬ i.CommentFirst) (hs : SameItems (docItems l ms) (docItems l' ms')) :
    (Dockerfile.parse unq (docText l ms)).map Dockerfile.bare =
      (Dockerfile.parse unq (docText l' ms')).map Dockerfile.bare := by
  rw [parse_bare hf h, parse_bare hf' h', evalItems_filter, hs, ← evalItems_filter]

/-! ## comments in front of the arguments of RUN, CMD and ENTRYPOINT -/

theorem item_commentFirst {unq : Unquote} {i : Item} (h : i.CommentFirst) (p : Nat) :
    i.eval unq p = .error (.err (.generic (.unexpectedToken .comment))) := by
  cases i with
  | shell k kw g s => exact if_pos h
  | exec k kw g a => exact if_pos h
  | _ => exact h.elim

theorem doc_commentFirst {unq : Unquote} {l : Line} {ms : List (Str × Line)} {p : Nat}
    (h : ∃ i ∈ docItems l ms, i.CommentFirst) {is : List Instruction} :
    evalDoc unq p l ms ≠ .ok is := by
  obtain ⟨i, hi, hc⟩ := h
  induction ms generalizing l p is with
  | nil =>
    simp only [docItems, List.map_nil, List.mem_singleton] at hi
    subst hi
    rw [evalDoc, item_commentFirst hc]
    nofun
  | cons m ms ih =>
    obtain ⟨n, m⟩ := m
    rw [evalDoc]
    rcases List.mem_cons.1 hi with rfl | hi
    · rw [item_commentFirst hc]; nofun
    · cases l.item.eval unq (p + blen l.indent) with
      | error e => nofun
      | ok o =>
        have this := fun js => ih (l := m) (p := p + blen l.text + blen n) (is := js) hi
        cases he : evalDoc unq (p + blen l.text + blen n) m ms with
        | error e => rw [ok_bind]; nofun
        | ok is => exact absurd he (this is)

theorem doc_error {unq : Unquote} {l : Line} {ms : List (Str × Line)} {is js : List Item} {i : Item}
    (he : docItems l ms = is ++ i :: js) (hc : i.CommentFirst)
    (hb : ∀ j ∈ is, ∀ p, ∃ o, j.eval unq p = .ok o) {p : Nat} :
    evalDoc unq p l ms = .error (.err (.generic (.unexpectedToken .comment))) := by
  induction is generalizing l ms p with
  | nil =>
    have : l.item = i := (List.cons.inj he).1
    cases ms <;> rw [evalDoc, this, item_commentFirst hc] <;> rfl
  | cons j is ih =>
    obtain ⟨e1, e2⟩ := List.cons.inj he
    obtain ⟨o, ho⟩ := hb j (by simp) (p + blen l.indent)
    cases ms with
    | nil => simp at e2
    | cons m ms =>
      rw [evalDoc, e1, ho]
      have := ih (l := m.2) (ms := ms) (p := p + blen l.text + blen m.1) e2
        fun j hj => hb j (by simp [hj])
      simp only [ok_bind]
      rw [this]
      rfl

end Src
end Verif
