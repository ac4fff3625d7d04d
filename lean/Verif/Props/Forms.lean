import Verif.Spec.Forms
import Verif.Props.Word
import Verif.Proof.AlikeLeaf

/-! # How the forms of an instruction are told apart (C91) -/

namespace Verif
open Spec

namespace Src

theorem run_unique {P : Char → Prop} {n r n' r' : Str} (h : ∀ c ∈ n, P c) (h' : ∀ c ∈ n', P c)
    (hr : ∀ c b, r = c :: b → ¬ P c) (hr' : ∀ c b, r' = c :: b → ¬ P c) (e : n ++ r = n' ++ r') :
    n = n' ∧ r = r' := by
  induction n generalizing n' with
  | nil =>
    cases n' with
    | nil => exact ⟨rfl, e⟩
    | cons c n' => exact absurd (h' c (by simp)) (hr _ _ e)
  | cons c n ih =>
    cases n' with
    | nil => exact absurd (h c (by simp)) (hr' _ _ e.symm)
    | cons c' n' =>
      obtain ⟨rfl, e2⟩ := List.cons.inj e
      obtain ⟨rfl, rfl⟩ := ih (n' := n') (fun c hc => h c (by simp [hc]))
        (fun c hc => h' c (by simp [hc])) e2
      exact ⟨rfl, rfl⟩

theorem StartsSpace.not_word {u : Str} (h : StartsSpace u) : ∀ c b, u = c :: b → ¬ IsWord c := by
  rintro c b rfl
  rcases h with ⟨_, _, e, hc⟩ | ⟨_, _, _, e, -⟩
  · cases e; rcases hc with rfl | rfl <;> (unfold IsWord IsAlpha IsDigit; decide)
  · cases e; unfold IsWord IsAlpha IsDigit; decide

theorem equals_not_space {u : Str} : ¬ StartsSpace ('=' :: u) := by
  rintro (⟨_, _, e, hc⟩ | ⟨_, _, _, e, -⟩)
  · cases e; rcases hc with h | h <;> cases h
  · cases e

/-- the item of an instruction of a document -/
theorem doc_item_of {unq : Unquote} {l : Line} {ms : List (Str × Line)} (hf : DocFits l ms) :
    ∀ {p is}, evalDoc unq p l ms = .ok is → ∀ x ∈ is, ∃ a, ∃ i : Item, ∃ r, docText l ms = a ++ (i.text ++ r) ∧
      i.Fits r ∧ Rest r ∧ i.eval unq (p + blen a) = .ok (some x) := by
  induction ms generalizing l with
  | nil =>
    intro p is h x hx
    obtain ⟨o, h7, h8⟩ := bind_ok h
    cases h8
    cases o with
    | none => cases hx
    | some y =>
      obtain rfl := List.mem_singleton.1 hx
      exact ⟨l.indent, l.item, _, rfl, by simpa using hf.2.1, ⟨l.trail, [], by simp, hf.2.2, AtEnd.nil⟩, h7⟩
  | cons m ms ih =>
    obtain ⟨n, m⟩ := m
    obtain ⟨h1, h2, h3⟩ := hf
    intro p is h x hx
    obtain ⟨o, h7, h8⟩ := bind_ok h
    obtain ⟨js, h10, h9⟩ := bind_ok h8
    cases h9
    rcases List.mem_append.1 hx with hx | hx
    · cases o with
      | none => cases hx
      | some y =>
        obtain rfl := List.mem_singleton.1 hx
        exact ⟨l.indent, l.item, l.trail ++ (n ++ docText m ms), by simp [docText, Line.text], h1.2.1,
          ⟨_, _, rfl, h1.2.2, AtEnd.break h2⟩, h7⟩
    · obtain ⟨a, i, r, k1, k2, k3, k4⟩ := ih h3 h10 x hx
      refine ⟨l.text ++ (n ++ a), i, r, by simp [docText, k1], k2, k3, ?_⟩
      rw [← k4]; congr 1; simp [blen_append]; omega

/-- the kind of an instruction, as a number -/
def tag : Instruction → Nat
  | .from _ => 0
  | .arg _ => 1
  | .label _ => 2
  | .run _ => 3
  | .entrypoint _ => 4
  | .cmd _ => 5
  | .copy _ => 6
  | .env _ => 7
  | .misc _ => 8

/-- the kind of the instruction that an item stands for -/
def Item.tag : Item → Nat
  | .from .. => 0
  | .arg .. => 1
  | .label .. | .label1 .. => 2
  | .shell k .. | .exec k .. => Src.tag (k.instr ⟨⟨0, 0⟩, .shell ⟨⟨0, 0⟩, []⟩⟩)
  | .copy .. => 6
  | .env .. | .env1 .. | .env1q .. => 7
  | .misc .. => 8
  | .blank | .comment _ => 9

theorem Item.eval_tag {unq : Unquote} {i : Item} {p : Nat} {x : Instruction}
    (h : i.eval unq p = .ok (some x)) : Src.tag x = i.tag := by
  cases i with
  | blank => cases h
  | comment => cases h
  | misc => cases h; rfl
  | env1 => cases h; rfl
  | shell k =>
    simp only [Item.eval] at h
    split at h
    · cases h
    · cases h; cases k <;> rfl
  | exec k =>
    simp only [Item.eval] at h
    split at h
    · cases h
    · obtain ⟨_, -, h⟩ := bind_ok h
      cases h; cases k <;> rfl
  | env1q => obtain ⟨_, -, h⟩ := bind_ok h; cases h; rfl
  | env => obtain ⟨_, -, h⟩ := bind_ok h; cases h; rfl
  | label => obtain ⟨_, -, h⟩ := bind_ok h; cases h; rfl
  | label1 =>
    obtain ⟨_, -, h⟩ := bind_ok h
    obtain ⟨_, -, h⟩ := bind_ok h
    cases h; rfl
  | copy =>
    obtain ⟨_, -, h⟩ := bind_ok h
    obtain ⟨_, -, h⟩ := bind_ok h
    obtain ⟨_, -, h⟩ := bind_ok h
    cases h; rfl
  | «from» =>
    obtain ⟨_, -, h⟩ := bind_ok h
    obtain ⟨_, -, h⟩ := bind_ok h
    cases h; rfl
  | arg kw g n v =>
    cases v with
    | none => cases h; rfl
    | some v => obtain ⟨_, -, h⟩ := bind_ok h; cases h; rfl

end Src

/-- the item of an instruction that is not a `FROM` -/
theorem source_item {unq : Unquote} {s : Str} {d : Dockerfile} (h : Dockerfile.parse unq s = .ok d)
    (x : Instruction) (hx : x ∈ d.instructions) (hn : ∀ f, x ≠ .from f) :
    ∃ a, ∃ i : Src.Item, ∃ r, s = a ++ (i.text ++ r) ∧ i.Fits r ∧ Rest r ∧ i.eval unq (blen a) = .ok (some x) := by
  obtain ⟨l, ms, is, h1, rfl, h3, rfl⟩ := C51_accepted.1 h
  have key : ∀ {is : List Instruction} {n}, x ∈ numberStages n is → x ∈ is := by
    intro is
    induction is with
    | nil => intro n h; exact h
    | cons y is ih =>
      intro n h
      cases y with
      | «from» f =>
        rcases List.mem_cons.1 h with rfl | h
        · exact absurd rfl (hn _)
        · exact List.mem_cons_of_mem _ (ih h)
      | _ =>
        rcases List.mem_cons.1 h with rfl | h
        · exact List.mem_cons_self
        · exact List.mem_cons_of_mem _ (ih h)
  obtain ⟨a, i, r, k1, k2, k3, k4⟩ := Src.doc_item_of h1 h3 x (key hx)
  exact ⟨a, i, r, k1, k2, k3, by simpa using k4⟩

/-- C91: The arguments of `RUN`, `CMD` and `ENTRYPOINT` are in exec form if and only if, after the
keyword and the space, the text goes on with an array. -/
theorem C91_exec {unq : Unquote} {s : Str} {d : Dockerfile} (h : Dockerfile.parse unq s = .ok d)
    (k : ExecKind) (e : ExecInstruction) (he : k.instr e ∈ d.instructions) :
    ∃ w g u, Onwards s e.span.start (w ++ (g ++ u)) ∧ lower w = k.keyword ∧ Src.Gap g u ∧
      (BeginsArray u → ∃ a, e.expr = .exec a ∧ a.span.start = e.span.start + blen w + blen g) ∧
      (¬ BeginsArray u → ∃ b, e.expr = .shell b ∧ b.span.start = e.span.start + blen w + blen g) := by
  obtain ⟨a, i, r, rfl, h1, h2, h3⟩ := source_item h _ he (by cases k <;> intro f e <;> cases e)
  have inj : ∀ {k' e'}, k'.instr e' = k.instr e → k' = k ∧ e' = e := by
    intro k' e' h
    cases k <;> cases k' <;> cases h <;> exact ⟨rfl, rfl⟩
  have ht := Src.Item.eval_tag h3
  cases i with
  | shell k' kw g t =>
    simp only [Src.Item.eval] at h3
    split at h3
    · cases h3
    · simp only [Except.ok.injEq, Option.some.injEq] at h3
      obtain ⟨rfl, rfl⟩ := inj h3
      obtain ⟨f1, f2, f3, f4⟩ := h1
      refine ⟨kw, g, t.text ++ r, ⟨a, by simp [Src.Item.text], rfl⟩, f1, f2, ?_, fun _ => ⟨_, rfl, rfl⟩⟩
      rintro ⟨arr, r', e, hf⟩
      exact absurd hf (f4 arr r' e)
  | exec k' kw g t =>
    simp only [Src.Item.eval] at h3
    split at h3
    · cases h3
    · obtain ⟨xs, -, h3⟩ := Src.bind_ok h3
      simp only [pure, Except.pure, Except.ok.injEq, Option.some.injEq] at h3
      obtain ⟨rfl, rfl⟩ := inj h3
      obtain ⟨f1, f2, f3⟩ := h1
      refine ⟨kw, g, t.text ++ r, ⟨a, by simp [Src.Item.text], rfl⟩, f1, f2, fun _ => ⟨_, rfl, rfl⟩, ?_⟩
      intro hn
      exact absurd ⟨t, r, rfl, f3⟩ hn
  | _ => cases k <;> exact absurd ht (by simp [Src.tag, Src.Item.tag, ExecKind.instr])

/-- an array makes the exec form; what is nearly an array is a text for the shell -/
example : (Dockerfile.parse Enquote.unquote c!"FROM a\nRUN [\"b\", \"c\"]\nRUN [\"b\"\nCMD [b]\nENTRYPOINT \\\n['d']").toOption.map
    (fun d => d.instructions.map fun
      | .run e | .cmd e | .entrypoint e => match e.expr with
        | .exec a => some (true, a.span.start)
        | .shell b => some (false, b.span.start)
      | _ => none) =
    some [none, some (true, 11), some (false, 26), some (false, 35), some (true, 52)] := by
  decide +kernel


/-! ## pairs -/

namespace Src

theorem pairs_mem {α : Type} {ev : Nat → Pair → Result α} {ps : List Pair} {F : Pair → Str → Prop} {r : Str} :
    ∀ {p xs}, PairsFit F ps r → evalPairs ev p ps = .ok xs → ∀ x ∈ xs, ∃ a f b, pairsText ps = a ++ (f.text ++ b) ∧
      ev (p + blen a) f = .ok x := by
  induction ps with
  | nil => intro p xs _ h x hx; cases h; cases hx
  | cons f fs ih =>
    intro p xs hf h x hx
    obtain ⟨y, h1, h2⟩ := bind_ok h
    obtain ⟨ys, h3, h4⟩ := bind_ok h2
    cases h4
    rcases List.mem_cons.1 hx with rfl | hx
    · exact ⟨[], f, pairsText fs, rfl, by simpa using h1⟩
    · obtain ⟨a, f', b, e, k⟩ := ih hf.2 h3 x hx
      refine ⟨f.text ++ a, f', b, ?_, ?_⟩
      · show f.text ++ pairsText fs = _
        rw [e]; simp
      · rw [← k]; congr 1; simp [blen_append]; omega

theorem word_not_eol {n r : Str} (hn : n ≠ []) (h : ∀ c ∈ n, IsWord c) : ¬ Eol (n ++ r) := by
  cases n with
  | nil => exact absurd rfl hn
  | cons c n =>
    intro he
    have := h c (by simp)
    rcases he _ _ rfl with rfl | rfl <;> revert this <;> (unfold IsWord IsAlpha IsDigit; decide)

theorem env_not_spaced {ps : List Pair} {t r n : Str} (h : PairsFit Pair.FitsEnv ps (t ++ r))
    (ht : Space t r) (hr : Eol r) : ¬ SpacedKey n (pairsText ps ++ (t ++ r)) := by
  rintro ⟨g, r', e, hg, hn, hw, hs⟩
  cases ps with
  | nil =>
    obtain ⟨-, rfl⟩ := ht.unique hg.2 e
    exact word_not_eol hn hw hr
  | cons f fs =>
    obtain ⟨⟨h1, ⟨m, hm, hm1, hm2⟩, -⟩, -⟩ := h
    obtain ⟨-, e⟩ := h1.2.unique hg.2 (show f.gap ++ (f.body ++ (pairsText fs ++ (t ++ r))) = _ by
      rw [← e]; simp [pairsText, Pair.text])
    have e : m ++ ('=' :: (f.value.text ++ (pairsText fs ++ (t ++ r)))) = n ++ r' := by
      rw [← e]; simp [Pair.body, hm, Value.text]
    obtain ⟨-, rfl⟩ := run_unique hm2 hw (by
      rintro c b ⟨⟩; unfold IsWord IsAlpha IsDigit; decide) hs.not_word e
    exact equals_not_space hs

theorem spaced_unique {g n r g' n' r' : Str} (h : Gap g (n ++ r)) (h' : Gap g' (n' ++ r'))
    (hn : ∀ c ∈ n, IsWord c) (hn' : ∀ c ∈ n', IsWord c) (hs : StartsSpace r) (hs' : StartsSpace r')
    (e : g ++ (n ++ r) = g' ++ (n' ++ r')) : n = n' := by
  obtain ⟨-, e⟩ := h.2.unique h'.2 e
  exact (run_unique hn hn' hs.not_word hs'.not_word e).1

theorem name_not_eol {v : Value} {r : Str} (h : v.FitsName r) : ¬ Eol (v.text ++ r) := by
  intro he
  cases v with
  | quoted t =>
    obtain ⟨q, b, rfl, hq, -⟩ := h
    rcases he q _ rfl with rfl | rfl <;> rcases hq with hq | hq <;> cases hq
  | bare t =>
    cases t with
    | nil => exact h.2.1 rfl
    | cons c b =>
      refine h.2.2.1 c (by simp) ?_
      rcases he c _ rfl with rfl | rfl
      · exact .inr (.inr (.inl rfl))
      · exact .inr (.inr (.inr (.inl rfl)))

theorem label_not_spaced {ps : List Pair} {t r : Str} (h : PairsFit Pair.FitsLabel ps (t ++ r))
    (ht : Space t r) (hr : Eol r) : ¬ SpacedName (pairsText ps ++ (t ++ r)) := by
  rintro ⟨g, v, r', e, hg, hv, hs⟩
  cases ps with
  | nil =>
    obtain ⟨-, rfl⟩ := ht.unique hg.2 e
    exact name_not_eol hv hr
  | cons f fs =>
    obtain ⟨⟨h1, h2, -⟩, -⟩ := h
    obtain ⟨-, e⟩ := h1.2.unique hg.2 (show f.gap ++ (f.body ++ (pairsText fs ++ (t ++ r))) = _ by
      rw [← e]; simp [pairsText, Pair.text])
    have e : f.name.text ++ ('=' :: (f.value.text ++ (pairsText fs ++ (t ++ r)))) = v.text ++ r' := by
      rw [← e]; simp [Pair.body]
    generalize f.name = m at h2 e
    cases m with
    | quoted m =>
      cases v with
      | quoted v => obtain ⟨-, rfl⟩ := quoted_unique h2 hv e; exact equals_not_space hs
      | bare v => exact hv.1 _ _ e.symm h2
    | bare m =>
      cases v with
      | quoted v => exact h2.1 _ _ e hv
      | bare v =>
        obtain ⟨-, rfl⟩ := run_unique (P := fun c => ¬ EndsName c) h2.2.2.1 hv.2.2.1
          (fun c b hc => fun k => k (h2.2.2.2 c b hc)) (fun c b hc => fun k => k (hv.2.2.2 c b hc)) e
        exact equals_not_space hs

end Src

/-- C91: An `ENV` is the variable with the name `n` and the rest of the line as its value if the name and
then space come after the keyword.  If that is not so for any name then each of its variables has its
value right after an equals sign. -/
theorem C91_env {unq : Unquote} {s : Str} {d : Dockerfile} (h : Dockerfile.parse unq s = .ok d)
    (e : EnvInstruction) (he : .env e ∈ d.instructions) :
    ∃ w u, Onwards s e.span.start (w ++ u) ∧ lower w = c!"env" ∧
      (∀ n, SpacedKey n u → ∃ v, e.vars = [v] ∧ v.key.content = n ∧
        SpaceBetween s v.key.span.stop v.value.span.start ∧ v.value.span.stop = e.span.stop) ∧
      ((∀ n, ¬ SpacedKey n u) → ∀ v ∈ e.vars, EqualsBetween s v.key.span.stop v.value.span.start) := by
  obtain ⟨a, i, r, rfl, h1, h2, h3⟩ := source_item h _ he (by intro f e; cases e)
  have ht := Src.Item.eval_tag h3
  cases i with
  | env kw ps t =>
    obtain ⟨vars, h4, h5⟩ := Src.bind_ok h3
    cases h5
    obtain ⟨f1, f2, f3, f4, f5⟩ := h1
    refine ⟨kw, Src.pairsText ps ++ (t ++ r), ⟨a, by simp [Src.Item.text], rfl⟩, f1,
      fun n hn => absurd hn (Src.env_not_spaced f2 f3 f5), fun _ v hv => ?_⟩
    obtain ⟨b, f, b', k1, k2⟩ := Src.pairs_mem f2 h4 v hv
    obtain ⟨c, -, k3⟩ := Src.bind_ok k2
    cases k3
    refine ⟨f.value.text ++ (b' ++ (t ++ r)), ⟨a ++ (kw ++ (b ++ (f.gap ++ f.name.text))), ?_, ?_⟩, ?_⟩
    · simp [Src.Item.text, k1, Src.Pair.text, Src.Pair.body]
    · simp [Src.Pair.nameSpan, blen_append]; omega
    · simp [Src.Pair.nameSpan, Src.Pair.valueSpan]
  | env1 kw g n g' t =>
    cases h3
    obtain ⟨f1, f2, f3, f4, f5, f6, f7⟩ := h1
    have hs : Src.StartsSpace (g' ++ (t.text ++ r)) := f5.starts
    refine ⟨kw, g ++ (n ++ (g' ++ (t.text ++ r))), ⟨a, by simp [Src.Item.text], rfl⟩, f1, ?_,
      fun hn => absurd ⟨g, _, rfl, f2, f3, f4, hs⟩ (hn n)⟩
    rintro n' ⟨g₂, r₂, e, k1, k2, k3, k4⟩
    refine ⟨_, rfl, Src.spaced_unique f2 k1 f4 k3 hs k4 e, ⟨g', t.text ++ r,
      ⟨a ++ (kw ++ (g ++ n)), by simp [Src.Item.text], ?_⟩, f5, rfl⟩, ?_⟩
    · simp [blen_append]; omega
    · simp [Src.Item.text, Src.Shell.string, blen_append]; omega
  | env1q kw g n g' t =>
    obtain ⟨c, -, h5⟩ := Src.bind_ok h3
    cases h5
    obtain ⟨f1, f2, f3, f4, f5, f6⟩ := h1
    have hs : Src.StartsSpace (g' ++ (t ++ r)) := f5.starts
    refine ⟨kw, g ++ (n ++ (g' ++ (t ++ r))), ⟨a, by simp [Src.Item.text], rfl⟩, f1, ?_,
      fun hn => absurd ⟨g, _, rfl, f2, f3, f4, hs⟩ (hn n)⟩
    rintro n' ⟨g₂, r₂, e, k1, k2, k3, k4⟩
    refine ⟨_, rfl, Src.spaced_unique f2 k1 f4 k3 hs k4 e, ⟨g', t ++ r,
      ⟨a ++ (kw ++ (g ++ n)), by simp [Src.Item.text], ?_⟩, f5, rfl⟩, ?_⟩
    · simp [blen_append]; omega
    · simp [Src.Item.text, blen_append]; omega
  | shell k => cases k <;> exact absurd ht (by simp [Src.tag, Src.Item.tag, ExecKind.instr])
  | exec k => cases k <;> exact absurd ht (by simp [Src.tag, Src.Item.tag, ExecKind.instr])
  | _ => exact absurd ht (by simp [Src.tag, Src.Item.tag])

/-- in the form with a space an equals sign is part of the value -/
example : (Dockerfile.parse Enquote.unquote c!"FROM a\nENV b c=d e=f\nENV b=c d=e\nENV b =c").toOption.map
    (fun d => d.instructions.map fun
      | .env e => some (e.vars.map fun v => (v.key.content, v.value.display))
      | _ => none) =
    some [none, some [(c!"b", c!"c=d e=f")], some [(c!"b", c!"c"), (c!"d", c!"e")], some [(c!"b", c!"=c")]] := by
  decide +kernel
example : SpacedKey c!"b" c!" b c=d" := by
  refine ⟨c!" ", c!" c=d", rfl, ⟨by decide, .blank (.inl rfl) (.nil ?_)⟩, by decide, ?_, .inl ⟨_, _, rfl, .inl rfl⟩⟩
  · rintro (⟨_, _, e, h⟩ | ⟨_, _, _, e, -⟩)
    · cases e; revert h; decide
    · cases e
  · unfold IsWord IsAlpha IsDigit; decide
example : ¬ SpacedKey c!"b" c!" b=c d=e" := by
  rintro ⟨g, r, e, h, -, -, k⟩
  have hs : ∀ t, ¬ Src.StartsSpace ('b' :: t) := by
    rintro t (⟨_, _, e, h⟩ | ⟨_, _, _, e, -⟩)
    · cases e; revert h; decide
    · cases e
  obtain ⟨-, e⟩ := (show Src.Space c!" " c!"b=c d=e" from .blank (.inl rfl) (.nil (hs _))).unique h.2 e
  cases e
  exact Src.equals_not_space k

/-- C91: A `LABEL` is one label with its name and its value separated by space if a name and then
space come after the keyword.  Otherwise each of its labels has its value right after an equals sign. -/
theorem C91_label {unq : Unquote} {s : Str} {d : Dockerfile} (h : Dockerfile.parse unq s = .ok d)
    (e : LabelInstruction) (he : .label e ∈ d.instructions) :
    ∃ w u, Onwards s e.span.start (w ++ u) ∧ lower w = c!"label" ∧
      (SpacedName u → ∃ v, e.labels = [v] ∧
        SpaceBetween s v.name.span.stop v.value.span.start ∧ v.value.span.stop = e.span.stop) ∧
      (¬ SpacedName u → ∀ v ∈ e.labels, EqualsBetween s v.name.span.stop v.value.span.start) := by
  obtain ⟨a, i, r, rfl, h1, h2, h3⟩ := source_item h _ he (by intro f e; cases e)
  have ht := Src.Item.eval_tag h3
  cases i with
  | label kw ps t =>
    obtain ⟨vars, h4, h5⟩ := Src.bind_ok h3
    cases h5
    obtain ⟨f1, f2, f3, f4, f5⟩ := h1
    refine ⟨kw, Src.pairsText ps ++ (t ++ r), ⟨a, by simp [Src.Item.text], rfl⟩, f1,
      fun hn => absurd hn (Src.label_not_spaced f2 f3 f5), fun _ v hv => ?_⟩
    obtain ⟨b, f, b', k1, k2⟩ := Src.pairs_mem f2 h4 v hv
    obtain ⟨c, -, k3⟩ := Src.bind_ok k2
    obtain ⟨c, -, k3⟩ := Src.bind_ok k3
    cases k3
    refine ⟨f.value.text ++ (b' ++ (t ++ r)), ⟨a ++ (kw ++ (b ++ (f.gap ++ f.name.text))), ?_, ?_⟩, ?_⟩
    · simp [Src.Item.text, k1, Src.Pair.text, Src.Pair.body]
    · simp [Src.Pair.nameSpan, blen_append]; omega
    · simp [Src.Pair.nameSpan, Src.Pair.valueSpan]
  | label1 kw g n g' t =>
    obtain ⟨_, -, h3⟩ := Src.bind_ok h3
    obtain ⟨_, -, h3⟩ := Src.bind_ok h3
    cases h3
    obtain ⟨f1, f2, f3, f4, f5⟩ := h1
    refine ⟨kw, g ++ (n.text ++ (g' ++ (t.text ++ r))), ⟨a, by simp [Src.Item.text], rfl⟩, f1,
      fun _ => ⟨_, rfl, ⟨g', t.text ++ r, ⟨a ++ (kw ++ (g ++ n.text)), by simp [Src.Item.text], ?_⟩, f4, rfl⟩, ?_⟩,
      fun hn => absurd ⟨g, n, _, rfl, f2, f3, f4.starts⟩ hn⟩
    · simp [blen_append]; omega
    · simp [Src.Item.text, blen_append]; omega
  | shell k => cases k <;> exact absurd ht (by simp [Src.tag, Src.Item.tag, ExecKind.instr])
  | exec k => cases k <;> exact absurd ht (by simp [Src.tag, Src.Item.tag, ExecKind.instr])
  | _ => exact absurd ht (by simp [Src.tag, Src.Item.tag])

example : (Dockerfile.parse Enquote.unquote c!"FROM a\nLABEL \"b c\" d=e\nLABEL \"b c\"=d e=f\nLABEL b =c").toOption.map
    (fun d => d.instructions.map fun
      | .label e => some (e.labels.map fun v => (v.name.content, v.value.content))
      | _ => none) =
    some [none, some [(c!"b c", c!"d=e")], some [(c!"b c", c!"d"), (c!"e", c!"f")], some [(c!"b", c!"=c")]] := by
  decide +kernel


/-! ## flags, values and aliases -/

/-- C91: An `ARG` has a value if and only if an equals sign comes right after its name. -/
theorem C91_arg {unq : Unquote} {s : Str} {d : Dockerfile} (h : Dockerfile.parse unq s = .ok d)
    (e : ArgInstruction) (he : .arg e ∈ d.instructions) :
    ∃ u, Onwards s e.name.span.stop u ∧ (e.value = none → LineDone u) ∧
      ∀ v, e.value = some v → ∃ t, u = '=' :: t ∧ v.span.start = e.name.span.stop + 1 := by
  obtain ⟨a, i, r, rfl, h1, h2, h3⟩ := source_item h _ he (by intro f e; cases e)
  have ht := Src.Item.eval_tag h3
  cases i with
  | arg kw g n v =>
    cases v with
    | none =>
      cases h3
      refine ⟨r, ⟨a ++ (kw ++ (g ++ n)), by simp [Src.Item.text, Src.valueText], ?_⟩, fun _ => h2,
        fun v e => by cases e⟩
      simp [blen_append]; omega
    | some v =>
      obtain ⟨_, -, h3⟩ := Src.bind_ok h3
      cases h3
      refine ⟨'=' :: (v.text ++ r), ⟨a ++ (kw ++ (g ++ n)), by simp [Src.Item.text, Src.valueText], ?_⟩,
        fun e => (by cases e), ?_⟩
      · simp [blen_append]; omega
      · rintro v ⟨⟩; exact ⟨_, rfl, rfl⟩
  | shell k => cases k <;> exact absurd ht (by simp [Src.tag, Src.Item.tag, ExecKind.instr])
  | exec k => cases k <;> exact absurd ht (by simp [Src.tag, Src.Item.tag, ExecKind.instr])
  | _ => exact absurd ht (by simp [Src.tag, Src.Item.tag])

example : (Dockerfile.parse Enquote.unquote c!"ARG a\nARG b=c\nARG d  \nFROM a").toOption.map
    (fun d => d.instructions.map fun
      | .arg e => some (e.name.span.stop, e.value.map (·.span.start))
      | _ => none) =
    some [some (5, none), some (11, some 12), some (19, none), none] := by
  decide +kernel

namespace Src

theorem flags_mem {unq : Unquote} {fs : List Flag} {r : Str} : ∀ {p xs}, FlagsFit fs r →
    evalFlags unq p fs = .ok xs → ∀ x ∈ xs, ∃ a u, flagsText fs ++ r = a ++ u ∧
      x.span.start = p + blen a ∧ StartsFlag u := by
  induction fs with
  | nil => intro p xs _ h x hx; cases h; cases hx
  | cons f fs ih =>
    intro p xs hf h x hx
    obtain ⟨y, h1, h2⟩ := bind_ok h
    obtain ⟨ys, h3, h4⟩ := bind_ok h2
    cases h4
    rcases List.mem_cons.1 hx with rfl | hx
    · obtain ⟨c, -, h5⟩ := bind_ok h1
      cases h5
      obtain ⟨⟨k1, k2, k3, k4⟩, -⟩ := hf
      exact ⟨f.gap, f.body ++ (flagsText fs ++ r), by simp [flagsText, Flag.text], rfl,
        f.name, f.value, _, by simp [Flag.body], k2, k3, k4⟩
    · obtain ⟨a, u, e, k1, k2⟩ := ih hf.2 h3 x hx
      refine ⟨f.text ++ a, u, ?_, ?_, k2⟩
      · show f.text ++ flagsText fs ++ r = _
        rw [List.append_assoc, e]; simp
      · rw [k1]; simp [blen_append]; omega

end Src

/-- C91: What a `COPY` has as its flags is written as a flag, and its first source is not. -/
theorem C91_copy {unq : Unquote} {s : Str} {d : Dockerfile} (h : Dockerfile.parse unq s = .ok d)
    (e : CopyInstruction) (he : .copy e ∈ d.instructions) :
    (∀ f ∈ e.flags, ∃ u, Onwards s f.span.start u ∧ Src.StartsFlag u) ∧
      ∀ x xs, e.sources = x :: xs → ∃ u, Onwards s x.span.start u ∧ ¬ Src.StartsFlag u := by
  obtain ⟨a, i, r, rfl, h1, h2, h3⟩ := source_item h _ he (by intro f e; cases e)
  have ht := Src.Item.eval_tag h3
  cases i with
  | copy kw fs ss dst =>
    obtain ⟨fl, k1, h3⟩ := Src.bind_ok h3
    obtain ⟨so, k2, h3⟩ := Src.bind_ok h3
    obtain ⟨de, k3, h3⟩ := Src.bind_ok h3
    cases h3
    obtain ⟨f1, f2, f3, f4, f5⟩ := h1
    refine ⟨fun f hf => ?_, fun x xs e => ?_⟩
    · obtain ⟨b, u, e, k4, k5⟩ := Src.flags_mem f2 k1 f hf
      refine ⟨u, ⟨a ++ (kw ++ b), ?_, ?_⟩, k5⟩
      · simp only [List.append_assoc]
        rw [← e]; simp [Src.Item.text, Src.argsText]
      · rw [k4]; simp [blen_append]; omega
    · cases ss with
      | nil => exact absurd rfl f3
      | cons f ss =>
        obtain ⟨y, h4, h5⟩ := Src.bind_ok k2
        obtain ⟨ys, h6, h7⟩ := Src.bind_ok h5
        obtain ⟨c, -, h8⟩ := Src.bind_ok h4
        cases h8; cases h7; cases e
        refine ⟨_, ⟨a ++ (kw ++ (Src.flagsText fs ++ f.gap)), ?_, ?_⟩, f5 f ss rfl⟩
        · simp [Src.Item.text, Src.argsText, Src.Arg.text]
        · simp [blen_append]; omega
  | shell k => cases k <;> exact absurd ht (by simp [Src.tag, Src.Item.tag, ExecKind.instr])
  | exec k => cases k <;> exact absurd ht (by simp [Src.tag, Src.Item.tag, ExecKind.instr])
  | _ => exact absurd ht (by simp [Src.tag, Src.Item.tag])

/-- a second source may look like a flag -/
example : (Dockerfile.parse Enquote.unquote c!"FROM a\nCOPY --b=c d --e=f g\nCOPY --b c").toOption.map
    (fun d => d.instructions.map fun
      | .copy e => some (e.flags.map (·.name.content), e.sources.map (·.content))
      | _ => none) =
    some [none, some ([c!"b"], [c!"d", c!"--e=f"]), some ([], [c!"--b"])] := by
  decide +kernel

/-- the item of a `FROM` -/
theorem source_from {unq : Unquote} {s : Str} {d : Dockerfile} (h : Dockerfile.parse unq s = .ok d)
    (f : FromInstruction) (hx : .from f ∈ d.instructions) :
    ∃ a, ∃ i : Src.Item, ∃ r, s = a ++ (i.text ++ r) ∧ i.Fits r ∧ Rest r ∧
      ∃ j, i.eval unq (blen a) = .ok (some (.from { f with index := j })) := by
  obtain ⟨l, ms, is, h1, rfl, h3, rfl⟩ := C51_accepted.1 h
  have key : ∀ {is : List Instruction} {n}, .from f ∈ numberStages n is →
      ∃ j, .from { f with index := j } ∈ is := by
    intro is
    induction is with
    | nil => intro n h; cases h
    | cons y is ih =>
      intro n h
      cases y with
      | «from» f' =>
        rcases List.mem_cons.1 h with e | h
        · cases e; exact ⟨f'.index, List.mem_cons_self⟩
        · obtain ⟨j, k⟩ := ih h; exact ⟨j, List.mem_cons_of_mem _ k⟩
      | _ =>
        rcases List.mem_cons.1 h with e | h
        · cases e
        · obtain ⟨j, k⟩ := ih h; exact ⟨j, List.mem_cons_of_mem _ k⟩
  obtain ⟨j, hj⟩ := key hx
  obtain ⟨a, i, r, k1, k2, k3, k4⟩ := Src.doc_item_of h1 h3 _ hj
  exact ⟨a, i, r, k1, k2, k3, j, by simpa using k4⟩

/-- C91: What a `FROM` has as its flags is written as a flag, and its image is not.  It has no alias if
and only if nothing but blanks come after the image in its line. -/
theorem C91_from {unq : Unquote} {s : Str} {d : Dockerfile} (h : Dockerfile.parse unq s = .ok d)
    (e : FromInstruction) (he : .from e ∈ d.instructions) :
    (∀ f ∈ e.flags, ∃ u, Onwards s f.span.start u ∧ Src.StartsFlag u) ∧
      (∃ u, Onwards s e.image.span.start u ∧ ¬ Src.StartsFlag u) ∧
      ∃ u, Onwards s e.image.span.stop u ∧ (e.alias = none ↔ LineDone u) := by
  obtain ⟨a, i, r, rfl, h1, h2, j, h3⟩ := source_from h _ he
  have ht := Src.Item.eval_tag h3
  cases i with
  | «from» kw fs g im al =>
    obtain ⟨fl, k1, h3⟩ := Src.bind_ok h3
    obtain ⟨_, -, h3⟩ := Src.bind_ok h3
    cases e
    cases h3
    obtain ⟨f1, f2, f3, f4, f5, f6⟩ := h1
    refine ⟨fun f hf => ?_, ⟨im ++ (Src.aliasText al ++ r),
      ⟨a ++ (kw ++ (Src.flagsText fs ++ g)), by simp [Src.Item.text], ?_⟩,
      Src.image_no_flag (fun c hc => isImageChar_iff.2 (f5 c hc)) (Src.alias_sep f6 h2)⟩,
      Src.aliasText al ++ r, ⟨a ++ (kw ++ (Src.flagsText fs ++ (g ++ im))), by simp [Src.Item.text], ?_⟩, ?_⟩
    · obtain ⟨b, u, e, k4, k5⟩ := Src.flags_mem f2 k1 f hf
      refine ⟨u, ⟨a ++ (kw ++ b), ?_, ?_⟩, k5⟩
      · simp only [List.append_assoc]
        rw [← e]; simp [Src.Item.text]
      · rw [k4]; simp [blen_append]; omega
    · simp [blen_append]; omega
    · simp [blen_append]; omega
    · cases al with
      | none => exact ⟨fun _ => h2, fun _ => rfl⟩
      | some x =>
        refine ⟨fun e => (by cases e), fun hr => ?_⟩
        obtain ⟨k1, k2, -⟩ := f6 x rfl
        have hg : x.gap ++ (x.kw ++ (x.gap' ++ (x.name ++ r))) = Src.aliasText (some x) ++ r := by
          simp [Src.aliasText, AliasText.text]
        obtain ⟨w, t, e, hw, ht⟩ := hr
        have hsp : Src.Space w t := by
          clear e
          induction w with
          | nil =>
            refine .nil ?_
            rintro (⟨c, b, rfl, hc⟩ | ⟨_, _, _, rfl, -⟩)
            · rcases ht _ _ rfl with rfl | rfl <;> rcases hc with hc | hc <;> cases hc
            · rcases ht _ _ rfl with hc | hc <;> cases hc
          | cons c w ih => exact .blank (hw c (by simp)) (ih fun c hc => hw c (by simp [hc]))
        obtain ⟨-, rfl⟩ := k1.2.unique hsp (hg.trans e)
        cases hk : x.kw with
        | nil => rw [hk] at k2; cases k2
        | cons c b =>
          rw [hk] at k2 ht
          rcases ht _ _ rfl with rfl | rfl <;> cases (List.cons.inj k2).1
  | shell k => cases k <;> exact absurd ht (by simp [Src.tag, Src.Item.tag, ExecKind.instr])
  | exec k => cases k <;> exact absurd ht (by simp [Src.tag, Src.Item.tag, ExecKind.instr])
  | _ => exact absurd ht (by simp [Src.tag, Src.Item.tag])

example : (Dockerfile.parse Enquote.unquote c!"FROM --a=b c  \nFROM --d AS e").toOption.map
    (fun d => d.instructions.map fun
      | .from e => some (e.flags.length, e.image.content, e.alias.isSome)
      | _ => none) =
    some [some (1, c!"c", false), some (0, c!"--d", true)] := by
  decide +kernel

end Verif
