import Verif.Props.Forms
import Verif.Props.Split
import Verif.Props.Settled

/-! # C107: exactly when lines can be put in front of others -/

namespace Verif
open Spec

namespace Src

theorem value_closed {v : Value} {r : Str} (h : v.Fits r) : NoQuoted (v.text ++ r) ∨ QuotedText v.text := by
  cases v with
  | quoted t => exact .inr h
  | bare t => exact .inl h.1

theorem name_closed {v : Value} {r : Str} (h : v.FitsName r) : NoQuoted (v.text ++ r) ∨ QuotedText v.text := by
  cases v with
  | quoted t => exact .inr h
  | bare t => exact .inl h.1

theorem pairs_fitting {α : Type} {ev : Nat → Pair → Result α} {ps : List Pair} {F : Pair → Str → Prop} {r : Str} :
    ∀ {p xs}, PairsFit F ps r → evalPairs ev p ps = .ok xs → ∀ x ∈ xs, ∃ a f b, pairsText ps = a ++ (f.text ++ b) ∧
      ev (p + blen a) f = .ok x ∧ F f (b ++ r) := by
  induction ps with
  | nil => intro p xs _ h x hx; cases h; cases hx
  | cons f fs ih =>
    intro p xs hf h x hx
    obtain ⟨y, h1, h2⟩ := bind_ok h
    obtain ⟨ys, h3, h4⟩ := bind_ok h2
    cases h4
    rcases List.mem_cons.1 hx with rfl | hx
    · exact ⟨[], f, pairsText fs, by simp [pairsText], by simpa using h1, hf.1⟩
    · obtain ⟨a, g, b, e, h5, h6⟩ := ih hf.2 h3 x hx
      refine ⟨f.text ++ a, g, b, by simp [pairsText] at e ⊢; exact e, ?_, h6⟩
      rwa [blen_append, ← Nat.add_assoc]

/-- At `p` there is a text in quotes up to `q` or before, or none. -/
def Decided (s : Str) (p q : Nat) : Prop :=
  ∃ b c, s = b ++ c ∧ blen b = p ∧ (NoQuoted c ∨ ∃ t c', c = t ++ c' ∧ QuotedText t ∧ p + blen t ≤ q)

theorem decided_of {s b v c : Str} {p q : Nat} (e : s = b ++ (v ++ c)) (hp : blen b = p) (hq : p + blen v ≤ q)
    (h : NoQuoted (v ++ c) ∨ QuotedText v) : Decided s p q :=
  ⟨b, v ++ c, e, hp, h.imp id fun h => ⟨v, c, rfl, h, hq⟩⟩

set_option linter.unusedSimpArgs false in
theorem quote_decided {unq : Unquote} {i : Item} {a r : Str} {x : Instruction} (hf : i.Fits r)
    (h : i.eval unq (blen a) = .ok (some x)) : ∀ p ∈ quoteSpots x, Decided (a ++ (i.text ++ r)) p x.span.stop := by
  intro p hp
  have hsp := (item_at h).1
  rw [hsp]
  have heq : Char.utf8Size '=' = 1 := by decide
  cases i with
  | blank => cases h
  | comment => cases h
  | «from» kw fs g im al =>
    obtain ⟨fl, k1, h⟩ := bind_ok h
    obtain ⟨_, -, h⟩ := bind_ok h
    cases h
    cases hp
  | arg kw g n v =>
    cases v with
    | none => cases h; cases hp
    | some v =>
      obtain ⟨c, -, h⟩ := bind_ok h
      cases h
      have hp : p = blen a + blen kw + blen g + blen n + 1 := by simpa [quoteSpots] using hp
      subst hp
      exact decided_of (b := a ++ (kw ++ (g ++ (n ++ ['='])))) (v := v.text) (c := r) (by simp [Item.text, valueText])
        (by simp [blen_append, heq] <;> omega) (by simp [Item.text, valueText, blen_append, heq] <;> omega) (value_closed (hf.2.2.2 v rfl))
  | label kw ps t =>
    obtain ⟨ls, k1, h⟩ := bind_ok h
    cases h
    obtain ⟨l, hl, hp⟩ := List.mem_flatMap.1 hp
    obtain ⟨b, f, b', e, k2, k3, k4, k5⟩ := pairs_fitting hf.2.1 k1 l hl
    obtain ⟨c, -, k2⟩ := bind_ok k2
    obtain ⟨c', -, k2⟩ := bind_ok k2
    cases k2
    rcases List.mem_cons.1 hp with rfl | hp
    · exact decided_of (b := a ++ (kw ++ (b ++ f.gap))) (v := f.name.text) (c := '=' :: (f.value.text ++ (b' ++ (t ++ r))))
        (by simp [Item.text, e, Pair.text, Pair.body]) (by simp [Pair.nameSpan, blen_append, heq] <;> omega)
        (by simp [Item.text, e, Pair.text, Pair.body, Pair.nameSpan, blen_append, heq] <;> omega) (name_closed k4)
    · cases List.mem_singleton.1 hp
      exact decided_of (b := a ++ (kw ++ (b ++ (f.gap ++ (f.name.text ++ ['=']))))) (v := f.value.text) (c := b' ++ (t ++ r))
        (by simp [Item.text, e, Pair.text, Pair.body]) (by simp [Pair.valueSpan, blen_append, heq] <;> omega)
        (by simp [Item.text, e, Pair.text, Pair.body, Pair.valueSpan, blen_append, heq] <;> omega) (value_closed k5)
  | label1 kw g n g' v =>
    obtain ⟨c, -, h⟩ := bind_ok h
    obtain ⟨c', -, h⟩ := bind_ok h
    cases h
    rcases List.mem_cons.1 hp with rfl | hp
    · exact decided_of (b := a ++ (kw ++ g)) (v := n.text) (c := g' ++ (v.text ++ r)) (by simp [Item.text])
        (by simp [blen_append, heq] <;> omega) (by simp [Item.text, blen_append, heq] <;> omega) (name_closed hf.2.2.1)
    · have hp : p = blen a + blen kw + blen g + blen n.text + blen g' := by simpa using hp
      subst hp
      exact decided_of (b := a ++ (kw ++ (g ++ (n.text ++ g')))) (v := v.text) (c := r) (by simp [Item.text])
        (by simp [blen_append, heq] <;> omega) (by simp [Item.text, blen_append, heq] <;> omega) (value_closed hf.2.2.2.2)
  | shell k kw g t =>
    simp only [Item.eval] at h
    split at h
    · cases h
    · cases k <;> (cases h; cases hp)
  | exec k kw g ar =>
    simp only [Item.eval] at h
    split at h
    · cases h
    · obtain ⟨_, -, h⟩ := bind_ok h
      cases k <;> (cases h; cases hp)
  | copy kw fs ss d =>
    obtain ⟨_, -, h⟩ := bind_ok h
    obtain ⟨_, -, h⟩ := bind_ok h
    obtain ⟨_, -, h⟩ := bind_ok h
    cases h
    cases hp
  | env kw ps t =>
    obtain ⟨ls, k1, h⟩ := bind_ok h
    cases h
    obtain ⟨l, hl, rfl⟩ := List.mem_map.1 hp
    obtain ⟨b, f, b', e, k2, k3, k4, k5⟩ := pairs_fitting hf.2.1 k1 l hl
    obtain ⟨c, -, k2⟩ := bind_ok k2
    cases k2
    exact decided_of (b := a ++ (kw ++ (b ++ (f.gap ++ (f.name.text ++ ['=']))))) (v := f.value.text) (c := b' ++ (t ++ r))
      (by simp [Item.text, e, Pair.text, Pair.body]) (by simp [Pair.valueSpan, blen_append, heq] <;> omega)
      (by simp [Item.text, e, Pair.text, Pair.body, Pair.valueSpan, blen_append, heq] <;> omega) (value_closed k5)
  | env1 kw g n g' t =>
    cases h
    have hp : p = blen a + blen kw + blen g + blen n + blen g' := by simpa [quoteSpots, Shell.string] using hp
    subst hp
    exact decided_of (b := a ++ (kw ++ (g ++ (n ++ g')))) (v := t.text) (c := r) (by simp [Item.text])
      (by simp [blen_append, heq] <;> omega) (by simp [Item.text, blen_append, heq] <;> omega) (.inl hf.2.2.2.2.2.2)
  | env1q kw g n g' t =>
    obtain ⟨_, -, h⟩ := bind_ok h
    cases h
    have hp : p = blen a + blen kw + blen g + blen n + blen g' := by simpa [quoteSpots] using hp
    subst hp
    exact decided_of (b := a ++ (kw ++ (g ++ (n ++ g')))) (v := t) (c := r) (by simp [Item.text])
      (by simp [blen_append, heq] <;> omega) (by simp [Item.text, blen_append, heq] <;> omega) (.inr hf.2.2.2.2.2)
  | misc w t => cases h; cases hp

theorem array_decided {unq : Unquote} {i : Item} {a r : Str} {x : Instruction} (hf : i.Fits r)
    (h : i.eval unq (blen a) = .ok (some x)) :
    ∀ p ∈ arraySpots x, ∃ b c, a ++ (i.text ++ r) = b ++ c ∧ blen b = p ∧ ¬ BeginsArray c := by
  intro p hp
  cases i with
  | shell k kw g t =>
    simp only [Item.eval] at h
    split at h
    · cases h
    · have e : p = blen a + blen kw + blen g := by
        cases k <;> (cases h; simpa [arraySpots, Shell.string, ExecKind.instr] using hp)
      refine ⟨a ++ (kw ++ g), t.text ++ r, by simp [Item.text], by simp [blen_append, e]; omega, ?_⟩
      rintro ⟨ar, r', e, h⟩
      exact hf.2.2.2 ar r' e h
  | exec k kw g ar =>
    simp only [Item.eval] at h
    split at h
    · cases h
    · obtain ⟨_, -, h⟩ := bind_ok h
      cases k <;> (cases h; cases hp)
  | blank => cases h
  | comment => cases h
  | «from» kw fs g im al =>
    obtain ⟨fl, k1, h⟩ := bind_ok h
    obtain ⟨_, -, h⟩ := bind_ok h
    cases h
    cases hp
  | arg kw g n v =>
    cases v with
    | none => cases h; cases hp
    | some v =>
      obtain ⟨c, -, h⟩ := bind_ok h
      cases h
      cases hp
  | label kw ps t =>
    obtain ⟨ls, k1, h⟩ := bind_ok h
    cases h; cases hp
  | label1 kw g n g' v =>
    obtain ⟨c, -, h⟩ := bind_ok h
    obtain ⟨c', -, h⟩ := bind_ok h
    cases h; cases hp
  | copy kw fs ss d =>
    obtain ⟨_, -, h⟩ := bind_ok h
    obtain ⟨_, -, h⟩ := bind_ok h
    obtain ⟨_, -, h⟩ := bind_ok h
    cases h; cases hp
  | env kw ps t =>
    obtain ⟨ls, k1, h⟩ := bind_ok h
    cases h; cases hp
  | env1 kw g n g' t => cases h; cases hp
  | env1q kw g n g' t =>
    obtain ⟨_, -, h⟩ := bind_ok h
    cases h; cases hp
  | misc w t => cases h; cases hp

theorem word_decided {unq : Unquote} {i : Item} {a r : Str} {m : MiscInstruction} (hf : i.Fits r)
    (h : i.eval unq (blen a) = .ok (some (.misc m))) (hk : IsKeyword m.instruction.content) :
    ∃ b c, a ++ (i.text ++ r) = b ++ c ∧ blen b = m.arguments.span.start ∧ ¬ Begins (lower m.instruction.content) c := by
  have ht := Item.eval_tag h
  cases i with
  | misc w t =>
    cases h
    exact ⟨a ++ w, t.text ++ r, by simp [Item.text], by simp [Shell.string, blen_append], hf.2.2.2.2 hk⟩
  | shell k => cases k <;> exact absurd ht (by simp [tag, Item.tag, ExecKind.instr])
  | exec k => cases k <;> exact absurd ht (by simp [tag, Item.tag, ExecKind.instr])
  | _ => exact absurd ht (by simp [tag, Item.tag])

end Src

/-- C107: Lines `a` that are accepted, in front of a text `z` that is accepted.  Together they are read as the instructions of `a` and
those of `z`, moved, exactly if nothing that is left open in `a` is closed in `z`: no quotes, no array, no arguments of a keyword. -/
theorem C107_join {unq : Unquote} {a z : Str} {d d' : Dockerfile} (h : Dockerfile.parse unq a = .ok d)
    (h' : Dockerfile.parse unq z = .ok d') (ha : LineStart a z) (hl : ∀ i ∈ d.instructions, i.span.stop < blen a) :
    Dockerfile.parse unq (a ++ z) = .ok (documentOf (a ++ z) (d.instructions ++ d'.instructions.map (·.remap (· + blen a)))) ↔
      Undisturbed a z d := by
  constructor
  · intro hj i hi
    by_cases hfr : ∃ f, i = .from f
    · obtain ⟨f, rfl⟩ := hfr
      exact ⟨fun p (hp : p ∈ []) => (List.not_mem_nil hp).elim, fun p (hp : p ∈ []) => (List.not_mem_nil hp).elim,
        fun k (hk : k ∈ []) => (List.not_mem_nil hk).elim⟩
    have hn : ∀ f, i ≠ .from f := fun f e => hfr ⟨f, e⟩
    have hi' : i ∈ (documentOf (a ++ z) (d.instructions ++ d'.instructions.map (·.remap (· + blen a)))).instructions := by
      have key : ∀ {is : List Instruction} {n}, i ∈ is → i ∈ numberStages n is := by
        intro is
        induction is with
        | nil => intro n h; cases h
        | cons j is ih =>
          intro n h
          rcases List.mem_cons.1 h with rfl | hm
          · cases i <;> first | exact absurd rfl (hn _) | exact List.mem_cons_self
          · cases j <;> exact List.mem_cons_of_mem _ (ih hm)
      exact key (List.mem_append_left _ hi)
    obtain ⟨b, it, r, e, hf, -, he⟩ := source_item hj i hi' hn
    have hlt := hl i hi
    refine ⟨fun p hp x y ex hx hnot hb => ?_, fun p hp x y ex hx _ hb => ?_, fun k hk hkw x y ex hx _ hb => ?_⟩
    · obtain ⟨b', c, e1, e2, e3⟩ := Src.quote_decided hf he p hp
      rw [← e, ex, List.append_assoc] at e1
      obtain ⟨-, rfl⟩ := append_inj_blen e1 (by omega)
      rcases e3 with e3 | ⟨t, c', e4, e5, e6⟩
      · obtain ⟨t, r', e4, e5⟩ := hb
        exact e3 t r' e4 e5
      · refine hnot ?_
        obtain ⟨w, rfl⟩ : ∃ w, y = t ++ w := by
          rcases List.append_eq_append_iff.1 e4 with ⟨w, e7, -⟩ | ⟨w, e7, -⟩
          · have : blen a = p + blen y := by rw [ex, blen_append, hx]
            have e8 := congrArg blen e7
            rw [blen_append] at e8
            have hw : w = [] := by
              cases w with
              | nil => rfl
              | cons q w =>
                exfalso
                rw [blen_cons] at e8
                have := Char.utf8Size_pos q
                omega
            exact ⟨[], by rw [e7, hw]; simp⟩
          · exact ⟨w, e7⟩
        exact ⟨t, w, rfl, e5⟩
    · obtain ⟨b', c, e1, e2, e3⟩ := Src.array_decided hf he p hp
      rw [← e, ex, List.append_assoc] at e1
      obtain ⟨-, rfl⟩ := append_inj_blen e1 (by omega)
      exact e3 hb
    · cases i with
      | misc m =>
        cases List.mem_singleton.1 hk
        obtain ⟨b', c, e1, e2, e3⟩ := Src.word_decided hf he hkw
        rw [← e, ex, List.append_assoc] at e1
        obtain ⟨-, rfl⟩ := append_inj_blen e1 (by rw [e2]; exact hx)
        exact e3 hb
      | _ => cases hk
  · intro hu
    rw [join_lines h ha hl hu, h']
    rfl

/-- a line in which an array is left open -/
def openA : Str := c!"RUN [\"a\n"
def openDoc : Dockerfile := documentOf openA [.run ⟨⟨0, 7⟩, .shell ⟨⟨4, 7⟩, [.string ⟨⟨4, 7⟩, c!"[\"a"⟩]⟩⟩]

/-- a text that does not close it, although there are quotes and a bracket in it -/
example : Undisturbed openA c!"CMD [\"b\"]\n" openDoc :=
  (C107_join (unq := Enquote.unquote) (d' := documentOf c!"CMD [\"b\"]\n" [.cmd ⟨⟨0, 9⟩, .exec ⟨⟨4, 9⟩, [⟨⟨5, 8⟩, c!"b"⟩]⟩⟩])
    (by decide +kernel) (by decide +kernel) (.inr ⟨c!"RUN [\"a", ['\n'], rfl, .inl rfl⟩) (by decide +kernel)).1
    (by decide +kernel)

/-- a text that closes it -/
example : ¬ Undisturbed openA c!"X \"]\n" openDoc := fun h =>
  absurd ((C107_join (unq := Enquote.unquote)
    (d' := documentOf c!"X \"]\n" [.misc ⟨⟨0, 4⟩, ⟨⟨0, 1⟩, c!"X"⟩, ⟨⟨1, 4⟩, [.string ⟨⟨1, 4⟩, c!" \"]"⟩]⟩⟩])
    (by decide +kernel) (by decide +kernel) (.inr ⟨c!"RUN [\"a", ['\n'], rfl, .inl rfl⟩) (by decide +kernel)).2 h)
    (by decide +kernel)

/-- C107: An accepted document can be cut in front of a line exactly if what is before the cut is accepted, ends there, and leaves
nothing open that is closed behind it, and what is behind the cut is accepted: then no instruction is on both sides. -/
theorem C107_cut {unq : Unquote} {a z : Str} {d : Dockerfile} (h : Dockerfile.parse unq (a ++ z) = .ok d) (ha : LineStart a z) :
    Apart d (blen a) ↔ ∃ d1 d2, Dockerfile.parse unq a = .ok d1 ∧ Dockerfile.parse unq z = .ok d2 ∧
      (∀ i ∈ d1.instructions, i.span.stop < blen a) ∧ Undisturbed a z d1 := by
  constructor
  · intro hs
    obtain ⟨d1, d2, h1, h2, h3, e⟩ := C71_split h ha hs
    exact ⟨d1, d2, h1, h2, h3, (C107_join h1 h2 ha h3).1 (by rw [h, e])⟩
  · rintro ⟨d1, d2, h1, h2, h3, hu⟩
    have := (C107_join h1 h2 ha h3).2 hu
    cases h.symm.trans this
    intro i hi
    obtain ⟨x, hx, e⟩ := of_numbered hi
    rw [← e]
    rcases List.mem_append.1 hx with hx | hx
    · exact .inl (h3 x hx)
    · obtain ⟨y, -, rfl⟩ := List.mem_map.1 hx
      right
      rw [Instruction.remap_span]
      exact Nat.le_add_left _ _

/-- a cut behind a line with an open array; and one that is not possible -/
example : ∃ d, Dockerfile.parse Enquote.unquote (openA ++ c!"CMD [\"b\"]\n") = .ok d ∧ Apart d (blen openA) := by
  refine ⟨documentOf (openA ++ c!"CMD [\"b\"]\n") [.run ⟨⟨0, 7⟩, .shell ⟨⟨4, 7⟩, [.string ⟨⟨4, 7⟩, c!"[\"a"⟩]⟩⟩,
    .cmd ⟨⟨8, 17⟩, .exec ⟨⟨12, 17⟩, [⟨⟨13, 16⟩, c!"b"⟩]⟩⟩], by decide +kernel, by unfold Apart; decide +kernel⟩

example : ∃ d, Dockerfile.parse Enquote.unquote (openA ++ c!"X \"]\n") = .ok d ∧ ¬ Apart d (blen openA) := by
  refine ⟨documentOf (openA ++ c!"X \"]\n") [.run ⟨⟨0, 12⟩, .exec ⟨⟨4, 12⟩, [⟨⟨5, 11⟩, c!"a\nX "⟩]⟩⟩], by decide +kernel,
    by unfold Apart; decide +kernel⟩

end Verif
