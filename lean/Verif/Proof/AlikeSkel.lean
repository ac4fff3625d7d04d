import Verif.Proof.AlikeEval

/-!
# Lines that look alike: the same skeleton
-/

namespace Verif
namespace Src
open Spec

local notation "A" => AlikeText

/-- If the first result is a value, then so is the second, and they are equal up to `g`; or the second
is an error about what a text says. -/
def Near {α β : Type} (g : α → β) (x x' : Result α) : Prop :=
  ∀ a, x = .ok a → (∃ a', x' = .ok a' ∧ g a' = g a) ∨ ∃ e, x' = .error e ∧ TextFault e

theorem Near.pure {α β : Type} {g : α → β} {a a' : α} (h : g a' = g a) : Near g (.ok a) (.ok a') := by
  rintro b ⟨⟩
  exact .inl ⟨a', rfl, h⟩

theorem Near.bind {α β γ δ : Type} {f : α → γ} {g : β → δ} {x x' : Result α} {k k' : α → Result β}
    (h : Near f x x') (hk : ∀ a a', f a' = f a → Near g (k a) (k' a')) : Near g (x >>= k) (x' >>= k') := by
  intro b hb
  cases x with
  | error e => cases hb
  | ok a =>
    rcases h a rfl with ⟨a', rfl, h1⟩ | ⟨e, rfl, h1⟩
    · exact hk a a' h1 b hb
    · exact .inr ⟨e, rfl, h1⟩

/-- nothing is said about texts -/
abbrev any {α : Type} : α → Unit := fun _ => ()

theorem unquoted_near (unq : Unquote) (t t' : Str) : Near any (unquoted unq t) (unquoted unq t') := by
  intro a _
  unfold unquoted
  cases unq t' with
  | ok c => exact .inl ⟨c, rfl, rfl⟩
  | error e => exact .inr ⟨_, rfl, .inr ⟨e, rfl⟩⟩

theorem read_near (unq : Unquote) (t t' : Str) : Near any (read unq t) (read unq t') := by
  intro a _
  cases t' with
  | nil => exact .inl ⟨[], rfl, rfl⟩
  | cons c t' =>
    have he : read unq (c :: t') =
        if c = '"' ∨ c = '\'' ∨ c = '`' then unquoted unq (c :: t') else .ok (c :: t') := rfl
    rw [he]
    by_cases hc : c = '"' ∨ c = '\'' ∨ c = '`'
    · rw [if_pos hc]
      unfold unquoted
      cases unq (c :: t') with
      | ok c => exact .inl ⟨c, rfl, rfl⟩
      | error e => exact .inr ⟨_, rfl, .inr ⟨e, rfl⟩⟩
    · rw [if_neg hc]
      exact .inl ⟨_, rfl, rfl⟩

theorem readLabel_near (unq : Unquote) {v v' : Value} (h : ValueR A v v') :
    Near any (v.readLabel unq) (v'.readLabel unq) := by
  cases h with
  | quoted h => exact unquoted_near unq _ _
  | bare h => exact read_near unq _ _

theorem readEnv_near (unq : Unquote) {v v' : Value} (h : ValueR A v v') :
    Near any (v.readEnv unq) (v'.readEnv unq) := by
  cases h with
  | quoted h => exact unquoted_near unq _ _
  | bare h => exact Near.pure rfl

theorem digest_near (i i' : Str) : Near any (checkDigest i) (checkDigest i') := by
  intro a _
  unfold checkDigest
  by_cases h : DigestOK (ImageRef.parse i')
  · rw [if_pos h]; exact .inl ⟨_, rfl, rfl⟩
  · rw [if_neg h]; exact .inr ⟨_, rfl, .inl rfl⟩

theorem flag_near {unq : Unquote} {f f' : Flag} (h : FlagR A f f') (p : Nat) :
    Near flagSkel (f.eval unq p) (f'.eval unq p) := by
  refine Near.bind (read_near unq _ _) fun a a' _ => Near.pure ?_
  simp only [flagSkel, strSkel, h.gap.blen, (h.body hA).blen, AlikeText.blen h.name]

theorem flags_near {unq : Unquote} {fs fs' : List Flag} (h : Each (FlagR A) fs fs') (p : Nat) :
    Near (List.map flagSkel) (evalFlags unq p fs) (evalFlags unq p fs') := by
  induction h generalizing p with
  | nil => exact Near.pure rfl
  | cons h1 _ ih =>
    refine Near.bind (flag_near h1 p) fun a a' e => ?_
    rw [← (h1.text hA).blen]
    exact Near.bind (ih _) fun b b' e' => Near.pure (by rw [List.map_cons, List.map_cons, e, e'])

theorem arg_near {unq : Unquote} {f f' : Arg} (h : ArgR A f f') (p : Nat) :
    Near strSkel (f.eval unq p) (f'.eval unq p) := by
  refine Near.bind (read_near unq _ _) fun a a' _ => Near.pure ?_
  simp only [strSkel, h.gap.blen, AlikeText.blen h.value]

theorem args_near {unq : Unquote} {fs fs' : List Arg} (h : Each (ArgR A) fs fs') (p : Nat) :
    Near (List.map strSkel) (evalArgs unq p fs) (evalArgs unq p fs') := by
  induction h generalizing p with
  | nil => exact Near.pure rfl
  | cons h1 _ ih =>
    refine Near.bind (arg_near h1 p) fun a a' e => ?_
    rw [← (h1.text hA).blen]
    exact Near.bind (ih _) fun b b' e' => Near.pure (by rw [List.map_cons, List.map_cons, e, e'])

def labelSkel (l : Label) : Label := { l with name := strSkel l.name, value := strSkel l.value }
def envSkel (v : EnvVar) : EnvVar := { v with key := strSkel v.key, value := breakableSkel v.value }

theorem label_near {unq : Unquote} {f f' : Pair} (h : PairR A f f') (p : Nat) :
    Near labelSkel (f.evalLabel unq p) (f'.evalLabel unq p) := by
  refine Near.bind (readLabel_near unq h.name) fun a a' _ =>
    Near.bind (readLabel_near unq h.value) fun b b' _ => Near.pure ?_
  simp only [labelSkel, strSkel, Pair.nameSpan, Pair.valueSpan, h.gap.blen, (h.body hA).blen,
    (h.name.text hA).blen]

theorem env_near {unq : Unquote} {f f' : Pair} (h : PairR A f f') (p : Nat) :
    Near envSkel (f.evalEnv unq p) (f'.evalEnv unq p) := by
  refine Near.bind (readEnv_near unq h.value) fun b b' _ => Near.pure ?_
  simp only [envSkel, strSkel, breakableSkel, componentSkel, List.map_cons, List.map_nil, Pair.nameSpan,
    Pair.valueSpan, h.gap.blen, (h.body hA).blen, (h.name.text hA).blen]

theorem pairs_near {α β : Type} {ev : Nat → Pair → Result α} {g : α → β}
    (hev : ∀ {f f' : Pair}, PairR A f f' → ∀ p, Near g (ev p f) (ev p f'))
    {fs fs' : List Pair} (h : Each (PairR A) fs fs') (p : Nat) :
    Near (List.map g) (evalPairs ev p fs) (evalPairs ev p fs') := by
  induction h generalizing p with
  | nil => exact Near.pure rfl
  | cons h1 _ ih =>
    refine Near.bind (hev h1 p) fun a a' e => ?_
    rw [← (h1.text hA).blen]
    exact Near.bind (ih _) fun b b' e' => Near.pure (by rw [List.map_cons, List.map_cons, e, e'])

theorem shell_near {s s' : Shell} (h : ShellR A s s') (p : Nat) :
    (s'.components p).map componentSkel = (s.components p).map componentSkel := by
  induction h generalizing p with
  | last h => simp only [Shell.components, List.map_cons, List.map_nil, componentSkel, AlikeText.blen h]
  | lastComment h1 h2 h3 =>
    simp only [Shell.components, List.map_cons, List.map_nil, componentSkel, AlikeText.blen h2, h1.blen]
  | more h1 h2 h3 _ ih =>
    simp only [Shell.components, List.map_cons, componentSkel, AlikeText.blen h1, h2.blen, h3.blen, ih]
  | comment h1 h2 h3 _ ih =>
    simp only [Shell.components, List.map_cons, componentSkel, AlikeText.blen h2, h1.blen, h3.blen, ih]

theorem string_near {s s' : Shell} (h : ShellR A s s') (p : Nat) :
    breakableSkel (s'.string p) = breakableSkel (s.string p) := by
  simp only [Shell.string, breakableSkel, shell_near h, (h.text hA).blen]

theorem elem_near {unq : Unquote} {f f' : Elem} (h : ElemR A f f') (p : Nat) :
    Near strSkel (f.eval unq p) (f'.eval unq p) := by
  refine Near.bind (unquoted_near unq _ _) fun a a' _ => Near.pure ?_
  simp only [strSkel, h.before.blen, h.after.blen, AlikeText.blen h.value]

theorem elems_near {unq : Unquote} {fs fs' : List Elem} (h : Each (ElemR A) fs fs') (p : Nat) :
    Near (List.map strSkel) (evalElems unq p fs) (evalElems unq p fs') := by
  induction h generalizing p with
  | nil => exact Near.pure rfl
  | cons h1 _ ih =>
    refine Near.bind (elem_near h1 p) fun a a' e => ?_
    rw [← (h1.text hA).blen]
    exact Near.bind (ih _) fun b b' e' => Near.pure (by rw [List.map_cons, List.map_cons, e, e'])

theorem array_near {unq : Unquote} {a a' : Array} (h : ArrayR A a a') (p : Nat) :
    Near (List.map strSkel) (a.eval unq p) (a'.eval unq p) := by
  cases h with
  | empty h => exact Near.pure rfl
  | full h1 h2 h3 h4 =>
    refine Near.bind (unquoted_near unq _ _) fun a a' _ => ?_
    rw [← h1.blen, ← AlikeText.blen h2]
    refine Near.bind (elems_near h3 _) fun b b' e' => Near.pure ?_
    rw [List.map_cons, List.map_cons, e']
    rfl

theorem alias_near {a a' : Option AliasText} (h : AliasR A a a') (p : Nat) :
    (a'.map (·.name_at p)).map strSkel = (a.map (·.name_at p)).map strSkel := by
  cases h with
  | none => rfl
  | some k1 k2 k3 k4 =>
    simp only [Option.map_some, AliasText.name_at, strSkel, k1.blen, k2.blen, k3.blen, AlikeText.blen k4]

theorem execKind_skel (k : ExecKind) (i : ExecInstruction) :
    skeleton (k.instr i) = k.instr { i with expr := exprSkel i.expr } := by
  cases k <;> rfl

/-- Items that look alike have the same skeleton. -/
theorem item_near {unq : Unquote} {i i' : Item} (h : ItemR A i i') (p : Nat) :
    Near (Option.map skeleton) (i.eval unq p) (i'.eval unq p) := by
  have ht := (h.text hA).blen
  cases h with
  | blank => exact Near.pure rfl
  | comment h => exact Near.pure rfl
  | «from» h1 h2 h3 h4 h5 =>
    simp only [Item.eval, ← ht, ← h1.blen, ← (flagsR_text hA h2).blen, ← h3.blen, ← AlikeText.blen h4]
    refine Near.bind (flags_near h2 _) fun a a' e => Near.bind (digest_near _ _) fun _ _ _ => Near.pure ?_
    simp only [Option.map_some, skeleton, e, alias_near h5]
    rfl
  | arg h1 h2 h3 h4 =>
    cases h4 with
    | none =>
      simp only [Item.eval, ← ht, ← h1.blen, ← h2.blen, ← AlikeText.blen h3]
      exact Near.pure rfl
    | some h =>
      simp only [Item.eval, ← ht, ← h1.blen, ← h2.blen, ← AlikeText.blen h3, ← (h.text hA).blen]
      exact Near.bind (read_near unq _ _) fun _ _ _ => Near.pure rfl
  | label h1 h2 h3 =>
    simp only [Item.eval, ← ht, ← h1.blen]
    refine Near.bind (pairs_near label_near h2 _) fun a a' e => Near.pure ?_
    have : ∀ (sp : Span) (l : List Label), skeleton (.label ⟨sp, l⟩) = .label ⟨sp, l.map labelSkel⟩ := fun _ _ => rfl
    simp only [Option.map_some, this, e]
  | label1 h1 h2 h3 h4 h5 =>
    simp only [Item.eval, ← ht, ← h1.blen, ← h2.blen, ← (h3.text hA).blen, ← h4.blen, ← (h5.text hA).blen]
    exact Near.bind (readLabel_near unq h3) fun _ _ _ => Near.bind (readLabel_near unq h5) fun _ _ _ => Near.pure rfl
  | @shell k kw kw' g g' s s' h1 h2 h3 =>
    simp only [Item.eval, ← ht, ← h1.blen, ← h2.blen, hash_same h2]
    by_cases hh : '#' ∈ g
    · rw [if_pos hh]; nofun
    · rw [if_neg hh, if_neg hh]
      refine Near.pure ?_
      simp only [Option.map_some, execKind_skel, exprSkel, string_near h3]
  | @exec k kw kw' g g' s s' h1 h2 h3 =>
    simp only [Item.eval, ← ht, ← h1.blen, ← h2.blen, hash_same h2, ← (h3.text hA).blen]
    by_cases hh : '#' ∈ g
    · rw [if_pos hh]; nofun
    · rw [if_neg hh, if_neg hh]
      refine Near.bind (array_near h3 _) fun a a' e => Near.pure ?_
      simp only [Option.map_some, execKind_skel, exprSkel, e]
  | copy h1 h2 h3 h4 =>
    simp only [Item.eval, ← ht, ← h1.blen, ← (flagsR_text hA h2).blen, ← (argsR_text hA h3).blen]
    refine Near.bind (flags_near h2 _) fun a a' e => Near.bind (args_near h3 _) fun b b' e' =>
      Near.bind (arg_near h4 _) fun c c' e'' => Near.pure ?_
    simp only [Option.map_some, skeleton, e, e', e'']
  | env h1 h2 h3 =>
    simp only [Item.eval, ← ht, ← h1.blen]
    refine Near.bind (pairs_near env_near h2 _) fun a a' e => Near.pure ?_
    have : ∀ (sp : Span) (l : List EnvVar), skeleton (.env ⟨sp, l⟩) = .env ⟨sp, l.map envSkel⟩ := fun _ _ => rfl
    simp only [Option.map_some, this, e]
  | env1 h1 h2 h3 h4 h5 =>
    simp only [Item.eval, ← ht, ← h1.blen, ← h2.blen, ← AlikeText.blen h3, ← h4.blen, ← (h5.text hA).blen]
    refine Near.pure ?_
    simp only [Option.map_some, skeleton, List.map_cons, List.map_nil, string_near h5]
    rfl
  | env1q h1 h2 h3 h4 h5 =>
    simp only [Item.eval, ← ht, ← h1.blen, ← h2.blen, ← AlikeText.blen h3, ← h4.blen, ← AlikeText.blen h5]
    exact Near.bind (unquoted_near unq _ _) fun _ _ _ => Near.pure rfl
  | misc h1 h2 =>
    simp only [Item.eval, ← ht, ← AlikeText.blen h1]
    refine Near.pure ?_
    simp only [Option.map_some, skeleton, string_near h2]
    rfl

theorem doc_near {unq : Unquote} {ms ms' : List (Str × Line)} (h : LinesR A ms ms') {l l' : Line}
    (hl : LineR A l l') (p : Nat) :
    Near (List.map skeleton) (evalDoc unq p l ms) (evalDoc unq p l' ms') := by
  have ho : ∀ {o o' : Option Instruction}, o'.map skeleton = o.map skeleton →
      o'.toList.map skeleton = o.toList.map skeleton := by
    intro o o' h
    cases o <;> cases o' <;> simp_all
  induction h generalizing l l' p with
  | nil =>
    simp only [evalDoc, ← hl.indent.blen]
    exact Near.bind (item_near hl.item _) fun a a' e => Near.pure (ho e)
  | cons h1 h2 _ ih =>
    simp only [evalDoc, ← hl.indent.blen, ← (hl.text hA).blen, ← h1.blen]
    refine Near.bind (item_near hl.item _) fun a a' e => Near.bind (ih h2 _) fun b b' e' => Near.pure ?_
    rw [List.map_append, List.map_append, ho e, e']

end Src
end Verif
