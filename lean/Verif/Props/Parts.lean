import Verif.Props.Place
import Verif.Spec.Parts
import Verif.Spec.Like

/-! # Putting parts into instructions and taking them out (C99) -/

namespace Verif
open Spec

namespace Src

/-- `z` does not start with blanks and a line break -/
def Snug (z : Str) : Prop := ∀ w n t, z = w ++ (n ++ t) → Blanks w → ¬ LineBreak n t

theorem Snug.closed {z : Str} (h : Snug z) (x : Str) : ¬ Open x z := fun ⟨_, w, n, t, e, hw, hn⟩ => h w n t e hw hn

theorem brk_head {n t : Str} (h : LineBreak n t) : ∃ c b, n = c :: b ∧ (c = '\n' ∨ c = '\r') := by
  rcases h with rfl | rfl | ⟨rfl, -⟩
  · exact ⟨_, _, rfl, .inl rfl⟩
  · exact ⟨_, _, rfl, .inr rfl⟩
  · exact ⟨_, _, rfl, .inr rfl⟩

theorem Space.snug {g r : Str} (h : Space g r) (hr : ¬ Eol r) : Snug (g ++ r) := by
  induction h with
  | nil hs =>
    intro w n t e hw hn
    cases w with
    | nil =>
      obtain ⟨c, b, rfl, hc⟩ := brk_head hn
      refine hr fun d u e' => ?_
      rw [List.nil_append] at e
      rw [e] at e'
      obtain ⟨rfl, -⟩ := List.cons.inj e'
      exact hc
    | cons c w => exact hs (.inl ⟨c, _, e, hw c (by simp)⟩)
  | blank hc hg ih =>
    intro w n t e hw hn
    cases w with
    | nil =>
      obtain ⟨d, b, rfl, hd⟩ := brk_head hn
      obtain ⟨rfl, -⟩ := List.cons.inj e
      rcases hc with rfl | rfl <;> exact absurd hd (by decide)
    | cons d w =>
      exact ih hr w n t (List.cons.inj e).2 (fun c hc => hw c (by simp [hc])) hn
  | continuation hw hn hl hg ih =>
    intro w n t e hw hn
    cases w with
    | nil =>
      obtain ⟨d, b, rfl, hd⟩ := brk_head hn
      obtain ⟨rfl, -⟩ := List.cons.inj e
      exact absurd hd (by decide)
    | cons d w =>
      obtain ⟨rfl, -⟩ := List.cons.inj e
      exact absurd (hw '\\' (by simp)) (by decide)

theorem word_moved {w k z z' : Str} (h : Word w (k ++ z)) (hz : Snug z) (hz' : Snug z') (hs : StartsSpace z') :
    Word w (k ++ z') := by
  have ext : ∀ b, b ≠ [] → WordEnd b → ∀ z, WordEnd (b ++ z) := fun b hb h z =>
    h.elim (fun h => .inl (h.ext hb)) fun h => .inr h.ext
  refine ⟨h.1, fun a b e hb hc => h.2.1 a b e hb ?_, ?_⟩
  · rw [← List.append_assoc] at hc ⊢
    exact ext _ (by simp [hb]) (hc.cut (hz'.closed _)) z
  · by_cases hk : k = []
    · subst hk; exact .inr hs
    · exact ext k hk (h.2.2.cut (hz.closed k)) z'

theorem gap_moved {g k z z' : Str} (h : Gap g (k ++ z)) (hk : k ≠ []) (hz' : Snug z') : Gap g (k ++ z') :=
  h.cut.ext hk (hz'.closed _)

theorem flag_moved {f : Flag} {k z z' : Str} (h : f.Fits (k ++ z)) (hz : Snug z) (hz' : Snug z') (hs : StartsSpace z') :
    f.Fits (k ++ z') := by
  obtain ⟨h1, h2, h3, h4⟩ := h
  refine ⟨?_, h2, h3, word_moved h4 hz hz' hs⟩
  rw [← List.append_assoc] at h1 ⊢
  exact gap_moved h1 (by simp [Flag.body]) hz'

theorem flags_moved {fs : List Flag} {z z' : Str} (h : FlagsFit fs z) (hz : Snug z) (hz' : Snug z') (hs : StartsSpace z') :
    FlagsFit fs z' := by
  induction fs with
  | nil => trivial
  | cons f fs ih => exact ⟨flag_moved h.1 hz hz' hs, ih h.2⟩

theorem flagsText_app (a b : List Flag) : flagsText (a ++ b) = flagsText a ++ flagsText b := by simp [flagsText]

theorem flags_app {a b : List Flag} {z : Str} : FlagsFit (a ++ b) z ↔ FlagsFit a (flagsText b ++ z) ∧ FlagsFit b z := by
  induction a with
  | nil => exact ⟨fun h => ⟨trivial, h⟩, fun h => h.2⟩
  | cons f a ih =>
    show f.Fits (flagsText (a ++ b) ++ z) ∧ FlagsFit (a ++ b) z ↔ _
    rw [ih, flagsText_app, List.append_assoc]
    exact ⟨fun h => ⟨⟨h.1, h.2.1⟩, h.2.2⟩, fun h => ⟨h.1.1, h.1.2, h.2⟩⟩

/-- what starts with flags and space -/
theorem flags_start {fs : List Flag} {z : Str} (h : FlagsFit fs z) (hz : Snug z) (hs : StartsSpace z) :
    Snug (flagsText fs ++ z) ∧ StartsSpace (flagsText fs ++ z) := by
  cases fs with
  | nil => exact ⟨hz, hs⟩
  | cons f fs =>
    have h1 := h.1.1
    have e : flagsText (f :: fs) ++ z = f.gap ++ (f.body ++ (flagsText fs ++ z)) := by
      rw [flagsText_cons]; simp [Flag.text]
    rw [e]
    refine ⟨h1.2.snug fun he => ?_, h1.starts⟩
    exact absurd (he _ _ rfl) (by decide)

/-- one of several flags is left out -/
theorem flags_without {a b : List Flag} {f : Flag} {z : Str} (h : FlagsFit (a ++ f :: b) z) (hz : Snug z) (hs : StartsSpace z) :
    FlagsFit (a ++ b) z := by
  obtain ⟨h1, h2⟩ := flags_app.1 h
  obtain ⟨s1, -⟩ := flags_start h2 hz hs
  obtain ⟨s2, t2⟩ := flags_start h2.2 hz hs
  exact flags_app.2 ⟨flags_moved h1 s1 s2 t2, h2.2⟩

theorem plain_facts {c : Char} (h : Spec.Plain c) : ¬ (c = '\n' ∨ c = '\r') ∧ ¬ (c = ' ' ∨ c = '\t') ∧ c ≠ '\\' ∧
    c ≠ '"' ∧ c ≠ '\'' ∧ c ≠ '`' ∧ c ≠ '=' ∧ c ≠ '#' ∧ c ≠ '\x00' ∧ c ≠ '\x1F' := by
  unfold Spec.Plain at h
  refine ⟨?_, ?_, ?_, ?_, ?_, ?_, ?_, ?_, ?_, ?_⟩
  · rintro (rfl | rfl) <;> exact h (by decide)
  · rintro (rfl | rfl) <;> exact h (by decide)
  all_goals (rintro rfl; exact h (by decide))

theorem plain_word {v r : Str} (h : Over Spec.Plain v) (hr : WordEnd r) : Word v r := by
  refine ⟨h.1, fun a b e hb hc => ?_, hr⟩
  subst e
  cases b with
  | nil => exact hb rfl
  | cons c b =>
    obtain ⟨h1, h2, h3, -⟩ := plain_facts (h.2 c (by simp))
    rcases hc with hc | ⟨d, t, e, hd⟩ | ⟨w, n, t, e, -⟩
    · exact h1 (hc c _ rfl)
    · obtain ⟨rfl, -⟩ := List.cons.inj e; exact h2 hd
    · exact h3 (List.cons.inj e).1

theorem plain_noQuoted {v : Str} (h : Over Spec.Plain v) (r : Str) : NoQuoted (v ++ r) := by
  cases v with
  | nil => exact absurd rfl h.1
  | cons c v =>
    obtain ⟨-, -, -, h1, h2, -⟩ := plain_facts (h.2 c (by simp))
    exact noQuoted_char h1 h2 _

theorem plain_read {unq : Unquote} {v : Str} (h : Over Spec.Plain v) : read unq v = .ok v := by
  cases v with
  | nil => rfl
  | cons c v =>
    obtain ⟨-, -, -, h1, h2, h3, -⟩ := plain_facts (h.2 c (by simp))
    rw [read, if_neg (by simp [h1, h2, h3])]

/-- a blank in front of a character that is neither space nor a backslash -/
theorem one_blank {c : Char} (u : Str) (h : ¬ (c = ' ' ∨ c = '\t')) (h' : c ≠ '\\') : Gap c!" " (c :: u) :=
  ⟨by decide, .blank (.inl rfl) (.nil (by
    rintro (⟨c', t, e, hc⟩ | ⟨w, n, t, e, -⟩)
    · obtain ⟨rfl, -⟩ := List.cons.inj e; exact h hc
    · exact h' (List.cons.inj e).1))⟩

/-- a flag, as a part of an item -/
def newFlag (n v : Str) : Flag := ⟨c!" ", n, v⟩

theorem newFlag_text (n v : Str) : (newFlag n v).text = flagText n v := by simp [newFlag, Flag.text, Flag.body, flagText]

theorem newFlag_eval {unq : Unquote} {n v : Str} (hv : Over Spec.Plain v) (q : Nat) :
    (newFlag n v).eval unq q = .ok (flagAt q n v) := by
  simp only [Flag.eval, newFlag, plain_read hv, ok_bind]
  have : blen (flagText n v) = 1 + blen (Flag.mk c!" " n v).body := by
    rw [← newFlag_text, flag_blen]; rfl
  simp only [flagAt, this]
  have e1 : blen c!" " = 1 := rfl
  rw [e1]
  refine congrArg Except.ok ?_
  simp only [← Nat.add_assoc]

theorem newFlag_fits {n v z : Str} (hn : Over IsAlpha n) (hv : Over Spec.Plain v) (hz : StartsSpace z) : (newFlag n v).Fits z :=
  ⟨one_blank _ (by decide) (by decide), hn.1, hn.2, plain_word hv (.inr hz)⟩

theorem evalFlags_app {unq : Unquote} {a b : List Flag} {p : Nat} {xs : List Verif.Flag}
    (h : evalFlags unq p (a ++ b) = .ok xs) : ∃ A B, xs = A ++ B ∧ evalFlags unq p a = .ok A ∧
      evalFlags unq (p + blen (flagsText a)) b = .ok B := by
  induction a generalizing p xs with
  | nil => exact ⟨[], xs, rfl, rfl, h⟩
  | cons f a ih =>
    obtain ⟨x, h1, h2⟩ := bind_some h
    obtain ⟨ys, h3, h4⟩ := bind_some h2
    obtain ⟨A, B, rfl, h5, h6⟩ := ih h3
    cases h4
    refine ⟨x :: A, B, rfl, by simp only [evalFlags, h1, h5, ok_bind]; rfl, ?_⟩
    rw [flagsText_cons, blen_append, ← Nat.add_assoc]; exact h6

theorem evalFlags_join {unq : Unquote} {a b : List Flag} {p : Nat} {A B : List Verif.Flag}
    (h : evalFlags unq p a = .ok A) (h' : evalFlags unq (p + blen (flagsText a)) b = .ok B) :
    evalFlags unq p (a ++ b) = .ok (A ++ B) := by
  induction a generalizing p A with
  | nil => cases h; exact h'
  | cons f a ih =>
    obtain ⟨x, h1, h2⟩ := bind_some h
    obtain ⟨ys, h3, h4⟩ := bind_some h2
    cases h4
    rw [flagsText_cons, blen_append, ← Nat.add_assoc] at h'
    have := ih h3 h'
    simp only [List.cons_append, evalFlags, h1, this, ok_bind]; rfl

theorem evalFlags_len {unq : Unquote} {a : List Flag} {p : Nat} {A : List Verif.Flag} (h : evalFlags unq p a = .ok A) :
    A.length = a.length := by
  induction a generalizing p A with
  | nil => cases h; rfl
  | cons f a ih =>
    obtain ⟨x, h1, h2⟩ := bind_some h
    obtain ⟨ys, h3, h4⟩ := bind_some h2
    cases h4
    simp [ih h3]

/-- the source of one of several flags -/
theorem evalFlags_at {unq : Unquote} {fs : List Flag} {p : Nat} {A C : List Verif.Flag} {b : Verif.Flag}
    (h : evalFlags unq p fs = .ok (A ++ b :: C)) : ∃ a f c, fs = a ++ f :: c ∧ evalFlags unq p a = .ok A ∧
      f.eval unq (p + blen (flagsText a)) = .ok b ∧ evalFlags unq (p + blen (flagsText a) + blen f.text) c = .ok C := by
  have hl := evalFlags_len h
  have hlt : A.length < fs.length := by rw [← hl]; simp
  have e : fs = fs.take A.length ++ fs[A.length] :: fs.drop (A.length + 1) := by
    rw [← List.drop_eq_getElem_cons hlt, List.take_append_drop]
  rw [e] at h
  obtain ⟨A', B', e1, h1, h2⟩ := evalFlags_app h
  have hA := evalFlags_len h1
  obtain ⟨rfl, rfl⟩ := List.append_inj e1.symm (by rw [hA, List.length_take]; omega)
  obtain ⟨x, h3, h4⟩ := bind_some h2
  obtain ⟨ys, h5, h6⟩ := bind_some h4
  cases h6
  exact ⟨_, _, _, e, h1, h3, h5⟩

theorem flag_stop {unq : Unquote} {f : Flag} {p : Nat} {b : Verif.Flag} (h : f.eval unq p = .ok b) :
    b.span.stop = p + blen f.text := by
  obtain ⟨x, -, h2⟩ := bind_some h
  cases h2
  rw [flag_blen, ← Nat.add_assoc]

/-- where a list of flags ends -/
theorem evalFlags_stop {unq : Unquote} {fs : List Flag} {p : Nat} {A : List Verif.Flag} (h : evalFlags unq p fs = .ok A) :
    ((A.getLast?.map (·.span.stop)).getD p) = p + blen (flagsText fs) := by
  induction fs generalizing p A with
  | nil => cases h; rfl
  | cons f fs ih =>
    obtain ⟨x, h1, h2⟩ := bind_some h
    obtain ⟨ys, h3, h4⟩ := bind_some h2
    cases h4
    have := ih h3
    rw [flagsText_cons, blen_append, ← Nat.add_assoc, ← this]
    cases ys with
    | nil => exact flag_stop h1
    | cons y ys => rw [List.getLast?_cons_cons, List.getLast?_eq_some_getLast (l := y :: ys) (by simp)]; rfl

end Src

theorem documentOf_number (s : Str) (pre post : List Instruction) (y : Instruction) (m : Nat) (i : Instruction)
    (h : numberStages m [y] = [i]) : documentOf s (pre ++ i :: post) = documentOf s (pre ++ y :: post) := by
  have e : pre ++ i :: post = pre ++ numberStages m [y] ++ post := by rw [h]; simp
  rw [e, show pre ++ y :: post = pre ++ [y] ++ post by simp]
  simp only [documentOf, ← numberStages_app_left (pre ++ numberStages m [y]) post 0 0, numberStages_app_right,
    ← globalArgs_app_left (pre ++ numberStages m [y]) post 0, numberStages_app_left, globalArgs_app_left]

theorem numbered_other {m : Nat} {y i : Instruction} (h : numberStages m [y] = [i]) (hi : ∀ f, i ≠ .from f) : y = i := by
  cases y
  case «from» f => exact absurd (List.cons.inj h).1.symm (hi _)
  all_goals exact (List.cons.inj h).1

theorem numbered_from {m : Nat} {y : Instruction} {f : FromInstruction} (h : numberStages m [y] = [.from f]) :
    ∃ f0, y = .from f0 ∧ f = { f0 with index := m } := by
  cases y
  case «from» f0 =>
    have := (List.cons.inj h).1
    injection this with this
    exact ⟨f0, rfl, this.symm⟩
  all_goals cases (List.cons.inj h).1

/-- What it is to exchange the item of an instruction.  The new text has no quotes if the old one has none. -/
def Exchanges (unq : Unquote) (x u z : Str) (pre post : List Instruction) (i : Instruction) : Prop :=
    ∃ (it : Src.Item) (y0 : Instruction) (m : Nat), u = it.text ∧ it.eval unq (blen x) = .ok (some y0) ∧ numberStages m [y0] = [i] ∧ (∃ r, it.Fits r) ∧
      ∀ (t : Src.Item) (y1 : Instruction), (Mild u → Mild t.text) →
        (∀ g b, Blanks g → Src.Eol b → it.Fits (g ++ b) → t.Fits (g ++ b)) → t.eval unq (blen x) = .ok (some y1) →
        Dockerfile.parse unq (x ++ (t.text ++ z)) = .ok (documentOf (x ++ (t.text ++ z))
          (pre ++ y1 :: post.map (·.remap fun q => q - blen (x ++ u) + blen (x ++ t.text))))

/-- The item of an instruction is exchanged, where the text can be. -/
theorem exchanges_of {unq : Unquote} {x u z : Str} {d : Dockerfile} {pre post : List Instruction} {i : Instruction}
    (h : Dockerfile.parse unq (x ++ (u ++ z)) = .ok d) (e : d.instructions = pre ++ i :: post)
    (h1 : i.span.start = blen x) (h2 : i.span.stop = blen (x ++ u))
    (hx : ∀ w d2, (Mild u → Mild w) → Dockerfile.parse unq (w ++ z) = .ok d2 → (∀ y, x = y ++ ['\r'] → ∀ t, w ++ z ≠ '\n' :: t) →
      Dockerfile.parse unq (x ++ (w ++ z)) = .ok (documentOf (x ++ (w ++ z)) (pre ++ d2.instructions.map (·.remap (· + blen x))))) :
    Exchanges unq x u z pre post i := by
  obtain ⟨ps, l, ms, js, i0, ks, m, ex, eu, ez, g1, g2, g3, g4, g5, g6, g7⟩ := place_text h e h1 h2
  have hP : blen (Src.preText ps) + blen l.indent = blen x := by rw [ex, blen_append]
  rw [hP] at g5
  obtain ⟨e1, m', e2⟩ : numberStages m [i0] = [i] ∧ ∃ m', post = numberStages m' ks := by
    cases i0 <;> exact ⟨congrArg (· :: []) (List.cons.inj g7).1.symm, _, (List.cons.inj g7).2⟩
  obtain ⟨r, hfits, hgl⟩ : ∃ r, l.item.Fits r ∧ ∀ t : Src.Item,
      (∀ g b, Blanks g → Src.Eol b → l.item.Fits (g ++ b) → t.Fits (g ++ b)) → t.Fits r := by
    cases ms with
    | nil => exact ⟨_, g2.2.1, fun t ht => ht _ _ g2.2.2 (fun _ _ h => by cases h) g2.2.1⟩
    | cons m ms => exact ⟨_, g2.1.2.1, fun t ht => ht _ _ g2.1.2.2 (Src.brk_eol g2.2.1) g2.1.2.1⟩
  refine ⟨l.item, i0, m, eu, g5, e1, ⟨r, hfits⟩, fun t y1 hmt ht hy => ?_⟩
  obtain ⟨i1, p1, p2⟩ : ∃ i1, t.eval unq 0 = .ok (some i1) ∧ i1.remap (· + blen x) = y1 := by
    have := Src.item_move (m := (· + blen x)) unq t (p := 0) (p' := blen x) (by intro k _; simp only []; omega)
    rw [hy] at this
    cases he : t.eval unq 0 with
    | error e => rw [he] at this; cases this
    | ok o =>
      rw [he] at this
      cases o with
      | none => cases this
      | some i1 => exact ⟨i1, rfl, (Option.some.inj (Except.ok.inj this)).symm⟩
  have hp := Src.after_line g2 (by rw [hP]; exact g5) g6 (t := t) (o := some i1) (fun r h1 h2 h3 => ht _ _ h1 h2 h3) p1
  rw [← ez] at hp
  have hcr : ∀ y', x = y' ++ ['\r'] → ∀ t', t.text ++ z ≠ '\n' :: t' := by
    intro y' _ t' et
    rcases Src.item_letter (hgl t ht) with h | ⟨c, h⟩ | ⟨c, b, h, hc⟩
    · rw [h] at hy; cases hy
    · rw [h] at hy; cases hy
    · rw [h] at et
      obtain ⟨rfl, -⟩ := List.cons.inj et
      exact absurd hc (by unfold IsAlpha; decide)
  refine (hx _ _ hmt hp hcr).trans (congrArg Except.ok ?_)
  have hF : ∀ i : Instruction, ((fun x_1 => Instruction.remap (fun x_2 => x_2 + blen x) x_1) ∘ fun x_1 =>
      Instruction.remap (fun k => k - (blen (Src.preText ps) + blen l.indent + blen l.item.text) + blen t.text) x_1) i =
      i.remap fun q => q - blen (x ++ u) + blen (x ++ t.text) := fun i => by
    rw [Function.comp, Instruction.remap_remap]
    refine congrArg (Instruction.remap · i) (funext fun q => ?_)
    rw [hP, eu]
    simp only [blen_append, Function.comp]
    omega
  rw [e2, ← p2]
  rw [show pre ++ Instruction.remap (fun x_1 => x_1 + blen x) i1 ::
      List.map (fun x_1 => Instruction.remap (fun q => q - blen (x ++ u) + blen (x ++ t.text)) x_1) (numberStages m' ks) =
    (pre ++ [Instruction.remap (fun x_1 => x_1 + blen x) i1]) ++
      List.map (fun x_1 => Instruction.remap (fun q => q - blen (x ++ u) + blen (x ++ t.text)) x_1) (numberStages m' ks) by simp]
  simp only [documentOf, Option.toList, List.cons_append, List.nil_append, ← Src.numberStages_remap, numberStages_app_right,
    globalArgs_app_right, List.map_cons, List.map_map]
  rw [List.map_congr_left fun i _ => hF i]
  simp

/-- The item of an instruction is exchanged. -/
theorem place_item {unq : Unquote} {x u z : Str} {d : Dockerfile} {pre post : List Instruction} {i : Instruction}
    (h : Dockerfile.parse unq (x ++ (u ++ z)) = .ok d) (e : d.instructions = pre ++ i :: post)
    (h1 : i.span.start = blen x) (h2 : i.span.stop = blen (x ++ u)) (hq : Mild u)
    (hk : ∀ m, .misc m ∈ pre → ¬ IsKeyword m.instruction.content) : Exchanges unq x u z pre post i :=
  exchanges_of h e h1 h2 fun _ _ hw hp hcr => (C98_replace h e h1 h2 hq (hw hq) hp hcr hk).2

namespace Src

/-- the item of an `ARG` -/
theorem item_arg {unq : Unquote} {it : Item} {p : Nat} {f : ArgInstruction} (h : it.eval unq p = .ok (some (.arg f))) :
    ∃ kw g n v, it = .arg kw g n v ∧ f.name = ⟨⟨p + blen kw + blen g, p + blen kw + blen g + blen n⟩, n⟩ := by
  cases it
  case arg kw g n v =>
    cases v with
    | none => cases h; exact ⟨kw, g, n, none, rfl, rfl⟩
    | some v =>
      obtain ⟨c, -, h⟩ := bind_some h
      cases h
      exact ⟨kw, g, n, some v, rfl, rfl⟩
  case shell k kw g s =>
    simp only [Item.eval] at h
    split at h
    · cases h
    · cases k <;> cases h
  case exec k kw g a =>
    simp only [Item.eval] at h
    split at h
    · cases h
    · cases ha : a.eval unq (p + blen kw + blen g) with
      | error e => rw [ha] at h; cases h
      | ok c => rw [ha] at h; cases k <;> cases h
  all_goals
    exfalso
    simp only [Item.eval, bind, Except.bind, pure, Except.pure] at h
    repeat' split at h
    all_goals cases h

/-- the item of a `COPY` -/
theorem item_copy {unq : Unquote} {it : Item} {p : Nat} {f : CopyInstruction} (h : it.eval unq p = .ok (some (.copy f))) :
    ∃ kw fs ss d, it = .copy kw fs ss d ∧ f.span = ⟨p, p + blen it.text⟩ ∧ evalFlags unq (p + blen kw) fs = .ok f.flags ∧
      evalArgs unq (p + blen kw + blen (flagsText fs)) ss = .ok f.sources ∧
      d.eval unq (p + blen kw + blen (flagsText fs) + blen (argsText ss)) = .ok f.destination := by
  cases it
  case copy kw fs ss d =>
    obtain ⟨fl, h1, h⟩ := bind_some h
    obtain ⟨sl, h2, h⟩ := bind_some h
    obtain ⟨dl, h3, h⟩ := bind_some h
    cases h
    exact ⟨kw, fs, ss, d, rfl, rfl, h1, h2, h3⟩
  case shell k kw g s =>
    simp only [Item.eval] at h
    split at h
    · cases h
    · cases k <;> cases h
  case exec k kw g a =>
    simp only [Item.eval] at h
    split at h
    · cases h
    · cases ha : a.eval unq (p + blen kw + blen g) with
      | error e => rw [ha] at h; cases h
      | ok c => rw [ha] at h; cases k <;> cases h
  all_goals
    exfalso
    simp only [Item.eval, bind, Except.bind, pure, Except.pure] at h
    repeat' split at h
    all_goals cases h

/-- the item of an `ENV` -/
theorem item_env {unq : Unquote} {it : Item} {p : Nat} {f : EnvInstruction} (h : it.eval unq p = .ok (some (.env f))) :
    f.span = ⟨p, p + blen it.text⟩ ∧
    ((∃ kw ps t, it = .env kw ps t ∧ evalPairs (Pair.evalEnv unq) (p + blen kw) ps = .ok f.vars) ∨
      ∃ kw g n g' r, it.text = kw ++ (g ++ (n ++ (g' ++ r))) ∧ (∀ z, it.Fits z → Gap g' (r ++ z)) ∧
        (∀ v ∈ f.vars, v.key.span.stop = p + blen (kw ++ (g ++ n))) ∧ f.vars.length = 1) := by
  cases it
  case env kw ps t =>
    obtain ⟨fl, h1, h⟩ := bind_some h
    cases h
    exact ⟨rfl, .inl ⟨kw, ps, t, rfl, h1⟩⟩
  case env1 kw g n g' s =>
    cases h
    refine ⟨rfl, .inr ⟨kw, g, n, g', s.text, rfl, fun z h => h.2.2.2.2.1, fun v hv => ?_, rfl⟩⟩
    cases List.mem_singleton.1 hv
    simp only [blen_append]; omega
  case env1q kw g n g' w =>
    obtain ⟨c, h1, h⟩ := bind_some h
    cases h
    refine ⟨rfl, .inr ⟨kw, g, n, g', w, rfl, fun z h => h.2.2.2.2.1, fun v hv => ?_, rfl⟩⟩
    cases List.mem_singleton.1 hv
    simp only [blen_append]; omega
  case shell k kw g s =>
    simp only [Item.eval] at h
    split at h
    · cases h
    · cases k <;> cases h
  case exec k kw g a =>
    simp only [Item.eval] at h
    split at h
    · cases h
    · cases ha : a.eval unq (p + blen kw + blen g) with
      | error e => rw [ha] at h; cases h
      | ok c => rw [ha] at h; cases k <;> cases h
  all_goals
    exfalso
    simp only [Item.eval, bind, Except.bind, pure, Except.pure] at h
    repeat' split at h
    all_goals cases h

/-- the item of a `LABEL` -/
theorem item_label {unq : Unquote} {it : Item} {p : Nat} {f : LabelInstruction} (h : it.eval unq p = .ok (some (.label f))) :
    f.span = ⟨p, p + blen it.text⟩ ∧
    ((∃ kw ps t, it = .label kw ps t ∧ evalPairs (Pair.evalLabel unq) (p + blen kw) ps = .ok f.labels) ∨
      ∃ kw g n g' r, it.text = kw ++ (g ++ (n ++ (g' ++ r))) ∧ (∀ z, it.Fits z → Gap g' (r ++ z)) ∧
        (∀ v ∈ f.labels, v.name.span.stop = p + blen (kw ++ (g ++ n))) ∧ f.labels.length = 1) := by
  cases it
  case label kw ps t =>
    obtain ⟨fl, h1, h⟩ := bind_some h
    cases h
    exact ⟨rfl, .inl ⟨kw, ps, t, rfl, h1⟩⟩
  case label1 kw g n g' w =>
    obtain ⟨c, h1, h⟩ := bind_some h
    obtain ⟨d, h2, h⟩ := bind_some h
    cases h
    refine ⟨rfl, .inr ⟨kw, g, n.text, g', w.text, rfl, fun z h => h.2.2.2.1, fun v hv => ?_, rfl⟩⟩
    cases List.mem_singleton.1 hv
    simp only [blen_append]; omega
  case shell k kw g s =>
    simp only [Item.eval] at h
    split at h
    · cases h
    · cases k <;> cases h
  case exec k kw g a =>
    simp only [Item.eval] at h
    split at h
    · cases h
    · cases ha : a.eval unq (p + blen kw + blen g) with
      | error e => rw [ha] at h; cases h
      | ok c => rw [ha] at h; cases k <;> cases h
  all_goals
    exfalso
    simp only [Item.eval, bind, Except.bind, pure, Except.pure] at h
    repeat' split at h
    all_goals cases h

theorem plain_unquoted {v : Str} (h : ∀ c ∈ v, Spec.Plain c) : Unquoted v := fun c hc => by
  obtain ⟨-, -, -, h1, h2, -, -, -, h3, h4⟩ := plain_facts (h c hc)
  exact ⟨h1, h2, h3, h4⟩

theorem alpha_isPlain {c : Char} (h : IsAlpha c) : Spec.Plain c := by
  intro hc
  simp only [List.mem_cons, List.not_mem_nil, or_false] at hc
  rcases hc with rfl | rfl | rfl | rfl | rfl | rfl | rfl | rfl | rfl | rfl | rfl | rfl | rfl | rfl | rfl <;>
    exact absurd h (by unfold IsAlpha; decide)

theorem word_isPlain {c : Char} (h : IsWord c) : Spec.Plain c := by
  intro hc
  simp only [List.mem_cons, List.not_mem_nil, or_false] at hc
  rcases hc with rfl | rfl | rfl | rfl | rfl | rfl | rfl | rfl | rfl | rfl | rfl | rfl | rfl | rfl | rfl <;>
    exact absurd h (by unfold IsWord IsAlpha IsDigit; decide)

theorem unquoted_app {a b : Str} (ha : Unquoted a) (hb : Unquoted b) : Unquoted (a ++ b) := fun c hc =>
  (List.mem_append.1 hc).elim (ha c) (hb c)

/-- a text without quotes, the end of which is not changed -/
theorem mild_tail {a b t : Str} (h : Mild (a ++ t)) (ht : t ≠ []) (hb : Unquoted b) : Mild (b ++ t) := by
  refine ⟨unquoted_app hb fun c hc => h.1 c (by simp [hc]), ?_⟩
  have := h.2
  rw [List.getLast?_append, List.getLast?_eq_some_getLast ht] at this ⊢
  exact this

theorem mild_plain {a b : Str} {c : Char} (ha : Unquoted a) (hb : ∀ c ∈ b, Spec.Plain c) (hc : Spec.Plain c) : Mild (a ++ (b ++ [c])) := by
  have hp : ∀ d ∈ b ++ [c], Spec.Plain d := fun d hd => (List.mem_append.1 hd).elim (hb d) fun h => by
    rw [List.mem_singleton.1 h]; exact hc
  refine ⟨unquoted_app ha (plain_unquoted hp), fun h => ?_⟩
  rw [← List.append_assoc, List.getLast?_append] at h
  simp at h
  exact (plain_facts hc).2.2.1 h

end Src

/-- The default of an `ARG` is set, replaced or taken away, by splicing.  `y` is the text of the instruction up to the end of
the name. -/
theorem default_core {unq : Unquote} {x y t z : Str} {d : Dockerfile} {pre post : List Instruction} {a : ArgInstruction}
    (h : Dockerfile.parse unq (x ++ (y ++ t ++ z)) = .ok d) (e : d.instructions = pre ++ .arg a :: post)
    (h1 : a.span.start = blen x) (h2 : a.span.stop = blen (x ++ (y ++ t))) (h3 : a.name.span.stop = blen (x ++ y))
    (hx : Exchanges unq x (y ++ t) z pre post (.arg a)) (o : Option Str) (ho : ∀ v, o = some v → Over Spec.Plain v) :
    ((Splicer.ofDockerfile d).splice ⟨a.name.span.stop, a.span.stop⟩ (eqText o)).map Splicer.content =
      some (x ++ (y ++ eqText o ++ z)) ∧
    Dockerfile.parse unq (x ++ (y ++ eqText o ++ z)) = .ok (documentOf (x ++ (y ++ eqText o ++ z))
      (pre ++ .arg { span := ⟨blen x, blen (x ++ (y ++ eqText o))⟩, name := a.name, value := eqValue (blen (x ++ y)) o } ::
        post.map (·.remap fun q => q - blen (x ++ (y ++ t)) + blen (x ++ (y ++ eqText o))))) := by
  refine ⟨?_, ?_⟩
  · have hc : d.content = x ++ y ++ t ++ z := by
      rw [show d.content = _ from ((ens_parse unq _).ok_of h).1]; simp
    have := C21_single_splice d.content ⟨a.name.span.stop, a.span.stop⟩ (eqText o) (x ++ y) t z hc h3
      (by rw [h2]; simp only [blen_append]; omega)
    rw [show Splicer.ofDockerfile d = Splicer.fromStr d.content from rfl, this]
    simp
  obtain ⟨it, y0, m, eu, hy, hn, ⟨r, hr⟩, key⟩ := hx
  obtain rfl := numbered_other hn (fun f h => by cases h)
  obtain ⟨kw, g, n, v, rfl, e3⟩ := Src.item_arg hy
  replace eu : y ++ t = (kw ++ (g ++ n)) ++ Src.valueText v := by rw [eu]; simp [Src.Item.text]
  obtain ⟨rfl, rfl⟩ := append_inj_blen eu (by
    rw [e3] at h3
    simp only [blen_append] at h3 ⊢
    omega)
  have hname : ∃ b c, n = b ++ [c] ∧ (∀ c ∈ b, Spec.Plain c) ∧ Spec.Plain c := by
    obtain ⟨c, b, rfl, h4, h5⟩ := hr.2.2.1
    have hp : ∀ d ∈ c :: b, Spec.Plain d := fun d hd => by
      rcases List.mem_cons.1 hd with rfl | hd
      · exact Src.alpha_isPlain h4
      · exact Src.word_isPlain (h5 d hd)
    exact ⟨(c :: b).dropLast, (c :: b).getLast (by simp), (List.dropLast_concat_getLast _).symm,
      fun d hd => hp d (List.dropLast_subset _ hd), hp _ (List.getLast_mem _)⟩
  have htext : (Src.Item.arg kw g n (o.map .bare)).text = kw ++ (g ++ n) ++ eqText o := by
    cases o <;> simp [Src.Item.text, Src.valueText, eqText, Src.Value.text]
  have hun : Mild (kw ++ (g ++ n) ++ Src.valueText v) → Unquoted (kw ++ (g ++ n)) := fun hq c hc => hq.1 c (by rw [List.mem_append]; exact .inl hc)
  have hmild : Mild (kw ++ (g ++ n) ++ Src.valueText v) → Mild (kw ++ (g ++ n) ++ eqText o) := by
    intro hq
    replace hun := hun hq
    cases o with
    | none =>
      obtain ⟨b, c, rfl, hb, hc⟩ := hname
      rw [eqText, List.append_nil, ← List.append_assoc]
      exact Src.mild_plain (fun d hd => hun d (by rw [← List.append_assoc, List.mem_append]; exact .inl hd)) hb hc
    | some v =>
      obtain ⟨hv1, hv2⟩ := ho v rfl
      rw [eqText, show kw ++ (g ++ n) ++ '=' :: v = (kw ++ (g ++ n) ++ ['=']) ++ (v.dropLast ++ [v.getLast hv1]) by
        rw [List.dropLast_concat_getLast]; simp]
      exact Src.mild_plain (Src.unquoted_app hun (by unfold Unquoted; decide)) (fun c hc => hv2 c (List.dropLast_subset _ hc)) (hv2 _ (List.getLast_mem _))
  have := key (.arg kw g n (o.map .bare)) (.arg { span := ⟨blen x, blen (x ++ (kw ++ (g ++ n) ++ eqText o))⟩, name := a.name, value := eqValue (blen (x ++ (kw ++ (g ++ n)))) o })
    (by rw [htext]; exact hmild) (fun g' b hg hb hfit => ?_) ?_
  · rw [htext] at this; exact this
  · obtain ⟨f1, f2, f3, f4⟩ := hfit
    have hs : Src.Solid n := by
      obtain ⟨b, c, rfl, hb, hc⟩ := hname
      obtain ⟨-, p2, p3, -⟩ := Src.plain_facts hc
      exact ⟨b, c, rfl, fun h => p2 (.inl h), fun h => p2 (.inr h), p3⟩
    refine ⟨f1, hs.gap f2, f3, fun w hw => ?_⟩
    cases o with
    | none => cases hw
    | some v =>
      cases hw
      refine ⟨Src.plain_noQuoted (ho v rfl) _, Src.plain_word (ho v rfl) ?_⟩
      cases g' with
      | nil => exact .inl hb
      | cons c g' => exact .inr (.inl ⟨c, _, rfl, hg c (by simp)⟩)
  · cases o with
    | none =>
      simp only [Src.Item.eval, Option.map_none]
      rw [e3]
      simp only [eqText, eqValue, blen_append, List.append_nil, Src.Item.text, Src.valueText]
      rfl
    | some v =>
      simp only [Src.Item.eval, Option.map_some, Src.Value.text, Src.plain_read (ho v rfl), ok_bind]
      rw [e3]
      simp only [eqText, eqValue, blen_append, Src.Item.text, Src.valueText, Src.Value.text, Nat.add_assoc]
      rfl

/-- C99: The default of an `ARG` is set, replaced or taken away, by splicing.  `y` is the text of the instruction up to the end of
the name. -/
theorem C99_default {unq : Unquote} {x y t z : Str} {d : Dockerfile} {pre post : List Instruction} {a : ArgInstruction}
    (h : Dockerfile.parse unq (x ++ (y ++ t ++ z)) = .ok d) (e : d.instructions = pre ++ .arg a :: post)
    (h1 : a.span.start = blen x) (h2 : a.span.stop = blen (x ++ (y ++ t))) (h3 : a.name.span.stop = blen (x ++ y))
    (hq : Mild (y ++ t)) (o : Option Str) (ho : ∀ v, o = some v → Over Spec.Plain v)
    (hk : ∀ m, .misc m ∈ pre → ¬ IsKeyword m.instruction.content) :
    ((Splicer.ofDockerfile d).splice ⟨a.name.span.stop, a.span.stop⟩ (eqText o)).map Splicer.content =
      some (x ++ (y ++ eqText o ++ z)) ∧
    Dockerfile.parse unq (x ++ (y ++ eqText o ++ z)) = .ok (documentOf (x ++ (y ++ eqText o ++ z))
      (pre ++ .arg { span := ⟨blen x, blen (x ++ (y ++ eqText o))⟩, name := a.name, value := eqValue (blen (x ++ y)) o } ::
        post.map (·.remap fun q => q - blen (x ++ (y ++ t)) + blen (x ++ (y ++ eqText o))))) :=
  default_core h e h1 h2 h3 (place_item h e h1 h2 hq hk) o ho

namespace Src

theorem newFlag_unquoted {n v : Str} (hn : Over IsAlpha n) (hv : Over Spec.Plain v) : Unquoted (flagText n v) := by
  refine unquoted_app (by unfold Unquoted; decide) (unquoted_app (plain_unquoted fun c hc => alpha_isPlain (hn.2 c hc)) ?_)
  exact unquoted_app (a := ['=']) (by unfold Unquoted; decide) (plain_unquoted hv.2)

/-- what is behind the flags of a `FROM` -/
theorem from_rest {kw g i : Str} {fs : List Flag} {a : Option AliasText} {r : Str} (h : Item.Fits (.from kw fs g i a) r) :
    Snug (g ++ (i ++ (aliasText a ++ r))) ∧ StartsSpace (g ++ (i ++ (aliasText a ++ r))) := by
  obtain ⟨h1, h2, h3, h4, h5, -⟩ := h
  refine ⟨h3.2.snug fun he => ?_, h3.starts⟩
  cases i with
  | nil => exact h4 rfl
  | cons c i =>
    have hc := h5 c (by simp)
    rcases he c _ rfl with rfl | rfl <;> exact absurd hc (by unfold IsImageChar IsAlpha IsDigit; decide)

theorem word_noEol {w r : Str} (h : Word w r) : ¬ Eol (w ++ r) := fun he => h.2.1 [] w rfl h.1 (.inl he)

/-- what is behind the flags of a `COPY` -/
theorem copy_rest {kw : Str} {fs : List Flag} {ss : List Arg} {d : Arg} {r : Str} (h : Item.Fits (.copy kw fs ss d) r) :
    Snug (argsText (ss ++ [d]) ++ r) ∧ StartsSpace (argsText (ss ++ [d]) ++ r) := by
  obtain ⟨h1, h2, h3, h4, -⟩ := h
  cases ss with
  | nil => exact absurd rfl h3
  | cons a ss =>
    have ha := h4.1
    have e : argsText (a :: ss ++ [d]) ++ r = a.gap ++ (a.value ++ (argsText (ss ++ [d]) ++ r)) := by
      simp [argsText, Arg.text]
    rw [e]
    exact ⟨ha.1.2.snug (word_noEol ha.2), ha.1.starts⟩

theorem kw_len {kw k : Str} (h : lower kw = k) (hk : lower k = k) : blen kw = blen k := blen_eq_of_lower (h.trans hk.symm)

end Src

/-- A flag is put into a `FROM`, in front of the others, by splicing it in behind the keyword. -/
theorem flag_from_core {unq : Unquote} {x y t z : Str} {d : Dockerfile} {pre post : List Instruction} {f : FromInstruction}
    (h : Dockerfile.parse unq (x ++ (y ++ t ++ z)) = .ok d) (e : d.instructions = pre ++ .from f :: post)
    (h1 : f.span.start = blen x) (h2 : f.span.stop = blen (x ++ (y ++ t))) (h3 : blen y = 4) (hx : Exchanges unq x (y ++ t) z pre post (.from f))
    {n v : Str} (hn : Over IsAlpha n) (hv : Over Spec.Plain v) :
    ((Splicer.ofDockerfile d).splice ⟨f.span.start + 4, f.span.start + 4⟩ (flagText n v)).map Splicer.content =
      some (x ++ (y ++ flagText n v ++ t ++ z)) ∧
    Dockerfile.parse unq (x ++ (y ++ flagText n v ++ t ++ z)) = .ok (documentOf (x ++ (y ++ flagText n v ++ t ++ z))
      (pre ++ .from { f with
          span := ⟨blen x, blen (x ++ (y ++ flagText n v ++ t))⟩
          flags := flagAt (blen (x ++ y)) n v :: f.flags.map (·.remap (· + blen (flagText n v)))
          image := f.image.remap (· + blen (flagText n v))
          alias := f.alias.map (·.remap (· + blen (flagText n v))) } ::
        post.map (·.remap fun q => q - blen (x ++ (y ++ t)) + blen (x ++ (y ++ flagText n v ++ t))))) := by
  refine ⟨?_, ?_⟩
  · have hc : d.content = x ++ y ++ [] ++ (t ++ z) := by
      rw [show d.content = _ from ((ens_parse unq _).ok_of h).1]; simp
    have := C21_single_splice d.content ⟨f.span.start + 4, f.span.start + 4⟩ (flagText n v) (x ++ y) [] (t ++ z) hc
      (by rw [h1]; simp only [blen_append]; omega) (by rw [h1]; simp only [blen_append, blen]; omega)
    rw [show Splicer.ofDockerfile d = Splicer.fromStr d.content from rfl, this]
    simp
  obtain ⟨it, y0, m, eu, hy, hnum, ⟨r, hr⟩, key⟩ := hx
  obtain ⟨f0, rfl, ef⟩ := numbered_from hnum
  obtain ⟨kw, fs, g, im, a, rfl, -, -⟩ := Src.item_from hy
  have hkw : blen kw = 4 := Src.kw_len hr.1 rfl
  replace eu : y ++ t = kw ++ (Src.flagsText fs ++ (g ++ (im ++ Src.aliasText a))) := eu
  obtain ⟨rfl, rfl⟩ := append_inj_blen eu (by rw [h3, hkw])
  have htext : (Src.Item.from y (Src.newFlag n v :: fs) g im a).text =
      y ++ flagText n v ++ (Src.flagsText fs ++ (g ++ (im ++ Src.aliasText a))) := by
    simp [Src.Item.text, Src.flagsText_cons, Src.newFlag_text]
  have hun : ∀ q, Mild (y ++ q) → Unquoted y := fun q hq c hc => hq.1 c (by simp [hc])
  have hne : Src.flagsText fs ++ (g ++ (im ++ Src.aliasText a)) ≠ [] := by
    have := hr.2.2.2.1
    simp [this]
  have := key (.from y (Src.newFlag n v :: fs) g im a) (by
      rw [htext]
      exact fun hq => Src.mild_tail hq hne (Src.unquoted_app (hun _ hq) (Src.newFlag_unquoted hn hv))) (fun g' b hg hb hfit => ?_)
    (y1 := .from { f0 with
          span := ⟨blen x, blen (x ++ (y ++ flagText n v ++ (Src.flagsText fs ++ (g ++ (im ++ Src.aliasText a)))))⟩
          flags := flagAt (blen (x ++ y)) n v :: f0.flags.map (·.remap (· + blen (flagText n v)))
          image := f0.image.remap (· + blen (flagText n v))
          alias := f0.alias.map (·.remap (· + blen (flagText n v))) }) ?_
  · rw [htext] at this
    rw [this]
    refine congrArg Except.ok (Eq.symm ?_)
    refine documentOf_number _ _ _ _ m _ ?_
    rw [ef]
    rfl
  · obtain ⟨s1, s2⟩ := Src.from_rest hfit
    obtain ⟨f1, f2, f3⟩ := hfit
    exact ⟨f1, ⟨Src.newFlag_fits hn hv (Src.flags_start f2 s1 s2).2, f2⟩, f3⟩
  · obtain ⟨fl, q1, hy⟩ := Src.bind_some hy
    obtain ⟨_, q2, hy⟩ := Src.bind_some hy
    cases hy
    have q3 := Src.flags_move (m := (· + blen (flagText n v))) unq fs (p := blen x + blen y)
      (p' := blen x + blen y + blen (flagText n v)) (by intro k _; simp only []; omega)
    rw [q1] at q3
    have q4 := Src.alias_move (m := (· + blen (flagText n v))) a
      (p := blen x + blen y + blen (Src.flagsText fs) + blen g + blen im)
      (p' := blen x + blen y + blen (Src.flagsText (Src.newFlag n v :: fs)) + blen g + blen im) (by
        rw [Src.flagsText_cons, blen_append, Src.newFlag_text]
        intro k _; simp only []; omega)
    simp only [Src.Item.eval, Src.evalFlags, Src.newFlag_eval hv, Src.newFlag_text, ok_bind, q3, q2, Except.map]
    refine congrArg (fun i => Except.ok (some (Instruction.from i))) ?_
    rw [q4]
    simp only [htext, SpannedString.remap, Span.remap, Src.flagsText_cons, Src.newFlag_text, blen_append]
    congr 2
    congr 1 <;> omega

/-- C99: A flag is put into a `FROM`, in front of the others, by splicing it in behind the keyword. -/
theorem C99_flag_from {unq : Unquote} {x y t z : Str} {d : Dockerfile} {pre post : List Instruction} {f : FromInstruction}
    (h : Dockerfile.parse unq (x ++ (y ++ t ++ z)) = .ok d) (e : d.instructions = pre ++ .from f :: post)
    (h1 : f.span.start = blen x) (h2 : f.span.stop = blen (x ++ (y ++ t))) (h3 : blen y = 4) (hq : Mild (y ++ t))
    {n v : Str} (hn : Over IsAlpha n) (hv : Over Spec.Plain v)
    (hk : ∀ m, .misc m ∈ pre → ¬ IsKeyword m.instruction.content) :
    ((Splicer.ofDockerfile d).splice ⟨f.span.start + 4, f.span.start + 4⟩ (flagText n v)).map Splicer.content =
      some (x ++ (y ++ flagText n v ++ t ++ z)) ∧
    Dockerfile.parse unq (x ++ (y ++ flagText n v ++ t ++ z)) = .ok (documentOf (x ++ (y ++ flagText n v ++ t ++ z))
      (pre ++ .from { f with
          span := ⟨blen x, blen (x ++ (y ++ flagText n v ++ t))⟩
          flags := flagAt (blen (x ++ y)) n v :: f.flags.map (·.remap (· + blen (flagText n v)))
          image := f.image.remap (· + blen (flagText n v))
          alias := f.alias.map (·.remap (· + blen (flagText n v))) } ::
        post.map (·.remap fun q => q - blen (x ++ (y ++ t)) + blen (x ++ (y ++ flagText n v ++ t))))) :=
  flag_from_core h e h1 h2 h3 (place_item h e h1 h2 hq hk) hn hv

/-- A flag is put into a `COPY`, in front of the others, by splicing it in behind the keyword. -/
theorem flag_copy_core {unq : Unquote} {x y t z : Str} {d : Dockerfile} {pre post : List Instruction} {f : CopyInstruction}
    (h : Dockerfile.parse unq (x ++ (y ++ t ++ z)) = .ok d) (e : d.instructions = pre ++ .copy f :: post)
    (h1 : f.span.start = blen x) (h2 : f.span.stop = blen (x ++ (y ++ t))) (h3 : blen y = 4) (hx : Exchanges unq x (y ++ t) z pre post (.copy f))
    {n v : Str} (hn : Over IsAlpha n) (hv : Over Spec.Plain v) :
    ((Splicer.ofDockerfile d).splice ⟨f.span.start + 4, f.span.start + 4⟩ (flagText n v)).map Splicer.content =
      some (x ++ (y ++ flagText n v ++ t ++ z)) ∧
    Dockerfile.parse unq (x ++ (y ++ flagText n v ++ t ++ z)) = .ok (documentOf (x ++ (y ++ flagText n v ++ t ++ z))
      (pre ++ .copy {
          span := ⟨blen x, blen (x ++ (y ++ flagText n v ++ t))⟩
          flags := flagAt (blen (x ++ y)) n v :: f.flags.map (·.remap (· + blen (flagText n v)))
          sources := f.sources.map (·.remap (· + blen (flagText n v)))
          destination := f.destination.remap (· + blen (flagText n v)) } ::
        post.map (·.remap fun q => q - blen (x ++ (y ++ t)) + blen (x ++ (y ++ flagText n v ++ t))))) := by
  refine ⟨?_, ?_⟩
  · have hc : d.content = x ++ y ++ [] ++ (t ++ z) := by
      rw [show d.content = _ from ((ens_parse unq _).ok_of h).1]; simp
    have := C21_single_splice d.content ⟨f.span.start + 4, f.span.start + 4⟩ (flagText n v) (x ++ y) [] (t ++ z) hc
      (by rw [h1]; simp only [blen_append]; omega) (by rw [h1]; simp only [blen_append, blen]; omega)
    rw [show Splicer.ofDockerfile d = Splicer.fromStr d.content from rfl, this]
    simp
  obtain ⟨it, y0, m, eu, hy, hnum, ⟨r, hr⟩, key⟩ := hx
  obtain rfl := numbered_other hnum (fun f h => by cases h)
  obtain ⟨kw, fs, ss, ds, rfl, -, q1, q2, q5⟩ := Src.item_copy hy
  have hkw : blen kw = 4 := Src.kw_len hr.1 rfl
  replace eu : y ++ t = kw ++ (Src.flagsText fs ++ (Src.argsText ss ++ ds.text)) := eu
  obtain ⟨rfl, rfl⟩ := append_inj_blen eu (by rw [h3, hkw])
  have htext : (Src.Item.copy y (Src.newFlag n v :: fs) ss ds).text =
      y ++ flagText n v ++ (Src.flagsText fs ++ (Src.argsText ss ++ ds.text)) := by
    simp [Src.Item.text, Src.flagsText_cons, Src.newFlag_text]
  have hun : ∀ q, Mild (y ++ q) → Unquoted y := fun q hq c hc => hq.1 c (by simp [hc])
  have hne : Src.flagsText fs ++ (Src.argsText ss ++ ds.text) ≠ [] := by
    intro h0
    obtain ⟨-, s2⟩ := Src.copy_rest hr
    have := hr.2.2.2.1
    obtain ⟨a, b, rfl⟩ : ∃ a b, ss = a :: b := by
      cases ss with
      | nil => exact absurd rfl hr.2.2.1
      | cons a b => exact ⟨a, b, rfl⟩
    have h4 := this.1.2.1
    simp [Src.argsText, Src.Arg.text, h4] at h0
  have := key (.copy y (Src.newFlag n v :: fs) ss ds) (by
      rw [htext]
      exact fun hq => Src.mild_tail hq hne (Src.unquoted_app (hun _ hq) (Src.newFlag_unquoted hn hv))) (fun g' b hg hb hfit => ?_)
    (y1 := .copy {
          span := ⟨blen x, blen (x ++ (y ++ flagText n v ++ (Src.flagsText fs ++ (Src.argsText ss ++ ds.text))))⟩
          flags := flagAt (blen (x ++ y)) n v :: f.flags.map (·.remap (· + blen (flagText n v)))
          sources := f.sources.map (·.remap (· + blen (flagText n v)))
          destination := f.destination.remap (· + blen (flagText n v)) }) ?_
  · rw [htext] at this
    exact this
  · obtain ⟨s1, s2⟩ := Src.copy_rest hfit
    obtain ⟨f1, f2, f3⟩ := hfit
    exact ⟨f1, ⟨Src.newFlag_fits hn hv (Src.flags_start f2 s1 s2).2, f2⟩, f3⟩
  · have q3 := Src.flags_move (m := (· + blen (flagText n v))) unq fs (p := blen x + blen y)
      (p' := blen x + blen y + blen (flagText n v)) (by intro k _; simp only []; omega)
    rw [q1] at q3
    have q4 := Src.args_move (m := (· + blen (flagText n v))) unq ss
      (p := blen x + blen y + blen (Src.flagsText fs))
      (p' := blen x + blen y + blen (Src.flagsText (Src.newFlag n v :: fs))) (by
        rw [Src.flagsText_cons, blen_append, Src.newFlag_text]
        intro k _; simp only []; omega)
    rw [q2] at q4
    have q6 := Src.arg_move (m := (· + blen (flagText n v))) unq ds
      (p := blen x + blen y + blen (Src.flagsText fs) + blen (Src.argsText ss))
      (p' := blen x + blen y + blen (Src.flagsText (Src.newFlag n v :: fs)) + blen (Src.argsText ss)) (by
        rw [Src.flagsText_cons, blen_append, Src.newFlag_text]
        intro k _; simp only []; omega)
    rw [q5] at q6
    simp only [Src.Item.eval, Src.evalFlags, Src.newFlag_eval hv, Src.newFlag_text, ok_bind, q3, q4, q6, Except.map]
    refine congrArg (fun i => Except.ok (some (Instruction.copy i))) ?_
    rw [htext]
    simp only [blen_append]

/-- C99: A flag is put into a `COPY`, in front of the others, by splicing it in behind the keyword. -/
theorem C99_flag_copy {unq : Unquote} {x y t z : Str} {d : Dockerfile} {pre post : List Instruction} {f : CopyInstruction}
    (h : Dockerfile.parse unq (x ++ (y ++ t ++ z)) = .ok d) (e : d.instructions = pre ++ .copy f :: post)
    (h1 : f.span.start = blen x) (h2 : f.span.stop = blen (x ++ (y ++ t))) (h3 : blen y = 4) (hq : Mild (y ++ t))
    {n v : Str} (hn : Over IsAlpha n) (hv : Over Spec.Plain v)
    (hk : ∀ m, .misc m ∈ pre → ¬ IsKeyword m.instruction.content) :
    ((Splicer.ofDockerfile d).splice ⟨f.span.start + 4, f.span.start + 4⟩ (flagText n v)).map Splicer.content =
      some (x ++ (y ++ flagText n v ++ t ++ z)) ∧
    Dockerfile.parse unq (x ++ (y ++ flagText n v ++ t ++ z)) = .ok (documentOf (x ++ (y ++ flagText n v ++ t ++ z))
      (pre ++ .copy {
          span := ⟨blen x, blen (x ++ (y ++ flagText n v ++ t))⟩
          flags := flagAt (blen (x ++ y)) n v :: f.flags.map (·.remap (· + blen (flagText n v)))
          sources := f.sources.map (·.remap (· + blen (flagText n v)))
          destination := f.destination.remap (· + blen (flagText n v)) } ::
        post.map (·.remap fun q => q - blen (x ++ (y ++ t)) + blen (x ++ (y ++ flagText n v ++ t))))) :=
  flag_copy_core h e h1 h2 h3 (place_item h e h1 h2 hq hk) hn hv

/-- where the text of a flag starts that is behind the flags `A`: at the end of the last of them, or of the keyword -/
def flagStart (s : Nat) (A : List Flag) : Nat := (A.getLast?.map (·.span.stop)).getD (s + 4)

/-- A flag is taken out of a `FROM`, with the space in front of it. -/
theorem unflag_from_core {unq : Unquote} {x y s t z : Str} {d : Dockerfile} {pre post : List Instruction} {f : FromInstruction}
    (h : Dockerfile.parse unq (x ++ (y ++ s ++ t ++ z)) = .ok d) (e : d.instructions = pre ++ .from f :: post)
    (h1 : f.span.start = blen x) (h2 : f.span.stop = blen (x ++ (y ++ s ++ t))) {A C : List Flag} {b : Flag}
    (hf : f.flags = A ++ b :: C) (h3 : flagStart (blen x) A = blen (x ++ y)) (h4 : b.span.stop = blen (x ++ (y ++ s)))
    (hx : Exchanges unq x (y ++ s ++ t) z pre post (.from f)) :
    ((Splicer.ofDockerfile d).splice ⟨flagStart (blen x) A, b.span.stop⟩ []).map Splicer.content =
      some (x ++ (y ++ t ++ z)) ∧
    Dockerfile.parse unq (x ++ (y ++ t ++ z)) = .ok (documentOf (x ++ (y ++ t ++ z))
      (pre ++ .from { f with
          span := ⟨blen x, blen (x ++ (y ++ t))⟩
          flags := A ++ C.map (·.remap (· - blen s))
          image := f.image.remap (· - blen s)
          alias := f.alias.map (·.remap (· - blen s)) } ::
        post.map (·.remap fun q => q - blen (x ++ (y ++ s ++ t)) + blen (x ++ (y ++ t))))) := by
  refine ⟨?_, ?_⟩
  · have hc : d.content = x ++ y ++ s ++ (t ++ z) := by
      rw [show d.content = _ from ((ens_parse unq _).ok_of h).1]; simp
    have := C21_single_splice d.content ⟨flagStart (blen x) A, b.span.stop⟩ [] (x ++ y) s (t ++ z) hc
      h3 (by rw [h4]; simp only [blen_append]; omega)
    rw [show Splicer.ofDockerfile d = Splicer.fromStr d.content from rfl, this]
    simp
  obtain ⟨it, y0, m, eu, hy, hnum, ⟨r, hr⟩, key⟩ := hx
  obtain ⟨f0, rfl, ef⟩ := numbered_from hnum
  obtain ⟨kw, fs, g, im, al, rfl, -, -⟩ := Src.item_from hy
  have hkw : blen kw = 4 := Src.kw_len hr.1 rfl
  obtain ⟨fl, q1, hy⟩ := Src.bind_some hy
  obtain ⟨_, q2, hy⟩ := Src.bind_some hy
  cases hy
  rw [ef] at hf
  replace hf : fl = A ++ b :: C := hf
  rw [hf] at q1
  obtain ⟨a, u, c, rfl, k1, k2, k3⟩ := Src.evalFlags_at q1
  have p1 := Src.evalFlags_stop k1
  have p2 := Src.flag_stop k2
  rw [hkw] at p1
  rw [flagStart, p1] at h3
  replace eu : y ++ s ++ t = kw ++ (Src.flagsText (a ++ u :: c) ++ (g ++ (im ++ Src.aliasText al))) := eu
  rw [Src.flagsText_app, Src.flagsText_cons] at eu
  replace eu : y ++ (s ++ t) = (kw ++ Src.flagsText a) ++ (u.text ++ (Src.flagsText c ++ (g ++ (im ++ Src.aliasText al)))) := by
    rw [← List.append_assoc, eu]; simp
  obtain ⟨rfl, ev⟩ := append_inj_blen eu (by simp only [blen_append] at h3 ⊢; omega)
  obtain ⟨rfl, rfl⟩ := append_inj_blen ev (by simp only [blen_append] at h4 p2; omega)
  have htext : (Src.Item.from kw (a ++ c) g im al).text =
      kw ++ Src.flagsText a ++ (Src.flagsText c ++ (g ++ (im ++ Src.aliasText al))) := by
    simp [Src.Item.text, Src.flagsText_app]
  have hun : ∀ q q', Mild (kw ++ Src.flagsText a ++ q ++ q') → Unquoted (kw ++ Src.flagsText a) := fun q q' hq c hc => hq.1 c (by
    rw [List.append_assoc, List.mem_append]; exact .inl hc)
  have hne : Src.flagsText c ++ (g ++ (im ++ Src.aliasText al)) ≠ [] := by
    have := hr.2.2.2.1
    simp [this]
  have := key (.from kw (a ++ c) g im al) (by
      rw [htext]
      exact fun hq => Src.mild_tail hq hne (hun _ _ hq)) (fun g' b hg hb hfit => ?_)
    (y1 := .from { 
          span := ⟨blen x, blen (x ++ (kw ++ Src.flagsText a ++ (Src.flagsText c ++ (g ++ (im ++ Src.aliasText al)))))⟩
          flags := A ++ C.map (·.remap (· - blen u.text))
          image := ⟨⟨blen x + blen kw + blen (Src.flagsText (a ++ u :: c)) + blen g - blen u.text,
            blen x + blen kw + blen (Src.flagsText (a ++ u :: c)) + blen g + blen im - blen u.text⟩, im⟩
          image_parsed := ImageRef.parse im
          index := 0
          alias := (al.map (·.name_at (blen x + blen kw + blen (Src.flagsText (a ++ u :: c)) + blen g + blen im))).map
            (·.remap (· - blen u.text)) }) ?_
  · rw [htext] at this
    rw [this]
    refine congrArg Except.ok (Eq.symm ?_)
    refine documentOf_number _ _ _ _ m _ ?_
    rw [ef]
    rfl
  · obtain ⟨s1, s2⟩ := Src.from_rest hfit
    obtain ⟨f1, f2, f3⟩ := hfit
    exact ⟨f1, Src.flags_without f2 s1 s2, f3⟩
  · have hlen : blen (Src.flagsText (a ++ u :: c)) = blen (Src.flagsText (a ++ c)) + blen u.text := by
      simp only [Src.flagsText_app, Src.flagsText_cons, blen_append]; omega
    have q3 := Src.flags_move (m := (· - blen u.text)) unq c (p := blen x + blen kw + blen (Src.flagsText a) + blen u.text)
      (p' := blen x + blen kw + blen (Src.flagsText a)) (by intro k _; simp only []; omega)
    rw [k3] at q3
    have q4 := Src.alias_move (m := (· - blen u.text)) al
      (p := blen x + blen kw + blen (Src.flagsText (a ++ u :: c)) + blen g + blen im)
      (p' := blen x + blen kw + blen (Src.flagsText (a ++ c)) + blen g + blen im) (by
        rw [hlen]
        intro k _; simp only []; omega)
    simp only [Src.Item.eval, Src.evalFlags_join k1 q3, q2, ok_bind]
    refine congrArg (fun i => Except.ok (some (Instruction.from i))) ?_
    rw [q4, htext, hlen, blen_append x]
    congr 2
    congr 1 <;> omega

/-- C99: A flag is taken out of a `FROM`, with the space in front of it. -/
theorem C99_unflag_from {unq : Unquote} {x y s t z : Str} {d : Dockerfile} {pre post : List Instruction} {f : FromInstruction}
    (h : Dockerfile.parse unq (x ++ (y ++ s ++ t ++ z)) = .ok d) (e : d.instructions = pre ++ .from f :: post)
    (h1 : f.span.start = blen x) (h2 : f.span.stop = blen (x ++ (y ++ s ++ t))) {A C : List Flag} {b : Flag}
    (hf : f.flags = A ++ b :: C) (h3 : flagStart (blen x) A = blen (x ++ y)) (h4 : b.span.stop = blen (x ++ (y ++ s)))
    (hq : Mild (y ++ s ++ t)) (hk : ∀ m, .misc m ∈ pre → ¬ IsKeyword m.instruction.content) :
    ((Splicer.ofDockerfile d).splice ⟨flagStart (blen x) A, b.span.stop⟩ []).map Splicer.content =
      some (x ++ (y ++ t ++ z)) ∧
    Dockerfile.parse unq (x ++ (y ++ t ++ z)) = .ok (documentOf (x ++ (y ++ t ++ z))
      (pre ++ .from { f with
          span := ⟨blen x, blen (x ++ (y ++ t))⟩
          flags := A ++ C.map (·.remap (· - blen s))
          image := f.image.remap (· - blen s)
          alias := f.alias.map (·.remap (· - blen s)) } ::
        post.map (·.remap fun q => q - blen (x ++ (y ++ s ++ t)) + blen (x ++ (y ++ t))))) :=
  unflag_from_core h e h1 h2 hf h3 h4 (place_item h e h1 h2 hq hk)

/-- A flag is taken out of a `COPY`, with the space in front of it. -/
theorem unflag_copy_core {unq : Unquote} {x y s t z : Str} {d : Dockerfile} {pre post : List Instruction} {f : CopyInstruction}
    (h : Dockerfile.parse unq (x ++ (y ++ s ++ t ++ z)) = .ok d) (e : d.instructions = pre ++ .copy f :: post)
    (h1 : f.span.start = blen x) (h2 : f.span.stop = blen (x ++ (y ++ s ++ t))) {A C : List Flag} {b : Flag}
    (hf : f.flags = A ++ b :: C) (h3 : flagStart (blen x) A = blen (x ++ y)) (h4 : b.span.stop = blen (x ++ (y ++ s)))
    (hx : Exchanges unq x (y ++ s ++ t) z pre post (.copy f)) :
    ((Splicer.ofDockerfile d).splice ⟨flagStart (blen x) A, b.span.stop⟩ []).map Splicer.content =
      some (x ++ (y ++ t ++ z)) ∧
    Dockerfile.parse unq (x ++ (y ++ t ++ z)) = .ok (documentOf (x ++ (y ++ t ++ z))
      (pre ++ .copy {
          span := ⟨blen x, blen (x ++ (y ++ t))⟩
          flags := A ++ C.map (·.remap (· - blen s))
          sources := f.sources.map (·.remap (· - blen s))
          destination := f.destination.remap (· - blen s) } ::
        post.map (·.remap fun q => q - blen (x ++ (y ++ s ++ t)) + blen (x ++ (y ++ t))))) := by
  refine ⟨?_, ?_⟩
  · have hc : d.content = x ++ y ++ s ++ (t ++ z) := by
      rw [show d.content = _ from ((ens_parse unq _).ok_of h).1]; simp
    have := C21_single_splice d.content ⟨flagStart (blen x) A, b.span.stop⟩ [] (x ++ y) s (t ++ z) hc
      h3 (by rw [h4]; simp only [blen_append]; omega)
    rw [show Splicer.ofDockerfile d = Splicer.fromStr d.content from rfl, this]
    simp
  obtain ⟨it, y0, m, eu, hy, hnum, ⟨r, hr⟩, key⟩ := hx
  obtain rfl := numbered_other hnum (fun f h => by cases h)
  obtain ⟨kw, fs, ss, ds, rfl, -, q1, q2, q5⟩ := Src.item_copy hy
  have hkw : blen kw = 4 := Src.kw_len hr.1 rfl
  rw [hf] at q1
  obtain ⟨a, u, c, rfl, k1, k2, k3⟩ := Src.evalFlags_at q1
  have p1 := Src.evalFlags_stop k1
  have p2 := Src.flag_stop k2
  rw [hkw] at p1
  rw [flagStart, p1] at h3
  replace eu : y ++ s ++ t = kw ++ (Src.flagsText (a ++ u :: c) ++ (Src.argsText ss ++ ds.text)) := eu
  rw [Src.flagsText_app, Src.flagsText_cons] at eu
  replace eu : y ++ (s ++ t) = (kw ++ Src.flagsText a) ++ (u.text ++ (Src.flagsText c ++ (Src.argsText ss ++ ds.text))) := by
    rw [← List.append_assoc, eu]; simp
  obtain ⟨rfl, ev⟩ := append_inj_blen eu (by simp only [blen_append] at h3 ⊢; omega)
  obtain ⟨rfl, rfl⟩ := append_inj_blen ev (by simp only [blen_append] at h4 p2; omega)
  have htext : (Src.Item.copy kw (a ++ c) ss ds).text =
      kw ++ Src.flagsText a ++ (Src.flagsText c ++ (Src.argsText ss ++ ds.text)) := by
    simp [Src.Item.text, Src.flagsText_app]
  have hun : ∀ q q', Mild (kw ++ Src.flagsText a ++ q ++ q') → Unquoted (kw ++ Src.flagsText a) := fun q q' hq c hc => hq.1 c (by
    rw [List.append_assoc, List.mem_append]; exact .inl hc)
  have hne : Src.flagsText c ++ (Src.argsText ss ++ ds.text) ≠ [] := by
    intro h0
    have := hr.2.2.2.1
    obtain ⟨a, b, rfl⟩ : ∃ a b, ss = a :: b := by
      cases ss with
      | nil => exact absurd rfl hr.2.2.1
      | cons a b => exact ⟨a, b, rfl⟩
    have h4 := this.1.2.1
    simp [Src.argsText, Src.Arg.text, h4] at h0
  have := key (.copy kw (a ++ c) ss ds) (by
      rw [htext]
      exact fun hq => Src.mild_tail hq hne (hun _ _ hq)) (fun g' b hg hb hfit => ?_)
    (y1 := .copy { 
          span := ⟨blen x, blen (x ++ (kw ++ Src.flagsText a ++ (Src.flagsText c ++ (Src.argsText ss ++ ds.text))))⟩
          flags := A ++ C.map (·.remap (· - blen u.text))
          sources := f.sources.map (·.remap (· - blen u.text))
          destination := f.destination.remap (· - blen u.text) }) ?_
  · rw [htext] at this
    exact this
  · obtain ⟨s1, s2⟩ := Src.copy_rest hfit
    obtain ⟨f1, f2, f3⟩ := hfit
    exact ⟨f1, Src.flags_without f2 s1 s2, f3⟩
  · have hlen : blen (Src.flagsText (a ++ u :: c)) = blen (Src.flagsText (a ++ c)) + blen u.text := by
      simp only [Src.flagsText_app, Src.flagsText_cons, blen_append]; omega
    have q3 := Src.flags_move (m := (· - blen u.text)) unq c (p := blen x + blen kw + blen (Src.flagsText a) + blen u.text)
      (p' := blen x + blen kw + blen (Src.flagsText a)) (by intro k _; simp only []; omega)
    rw [k3] at q3
    have q4 := Src.args_move (m := (· - blen u.text)) unq ss
      (p := blen x + blen kw + blen (Src.flagsText (a ++ u :: c)))
      (p' := blen x + blen kw + blen (Src.flagsText (a ++ c))) (by
        rw [hlen]
        intro k _; simp only []; omega)
    rw [q2] at q4
    have q6 := Src.arg_move (m := (· - blen u.text)) unq ds
      (p := blen x + blen kw + blen (Src.flagsText (a ++ u :: c)) + blen (Src.argsText ss))
      (p' := blen x + blen kw + blen (Src.flagsText (a ++ c)) + blen (Src.argsText ss)) (by
        rw [hlen]
        intro k _; simp only []; omega)
    rw [q5] at q6
    simp only [Src.Item.eval, Src.evalFlags_join k1 q3, q4, q6, ok_bind, Except.map]
    refine congrArg (fun i => Except.ok (some (Instruction.copy i))) ?_
    rw [htext, blen_append x]

/-- C99: A flag is taken out of a `COPY`, with the space in front of it. -/
theorem C99_unflag_copy {unq : Unquote} {x y s t z : Str} {d : Dockerfile} {pre post : List Instruction} {f : CopyInstruction}
    (h : Dockerfile.parse unq (x ++ (y ++ s ++ t ++ z)) = .ok d) (e : d.instructions = pre ++ .copy f :: post)
    (h1 : f.span.start = blen x) (h2 : f.span.stop = blen (x ++ (y ++ s ++ t))) {A C : List Flag} {b : Flag}
    (hf : f.flags = A ++ b :: C) (h3 : flagStart (blen x) A = blen (x ++ y)) (h4 : b.span.stop = blen (x ++ (y ++ s)))
    (hq : Mild (y ++ s ++ t)) (hk : ∀ m, .misc m ∈ pre → ¬ IsKeyword m.instruction.content) :
    ((Splicer.ofDockerfile d).splice ⟨flagStart (blen x) A, b.span.stop⟩ []).map Splicer.content =
      some (x ++ (y ++ t ++ z)) ∧
    Dockerfile.parse unq (x ++ (y ++ t ++ z)) = .ok (documentOf (x ++ (y ++ t ++ z))
      (pre ++ .copy {
          span := ⟨blen x, blen (x ++ (y ++ t))⟩
          flags := A ++ C.map (·.remap (· - blen s))
          sources := f.sources.map (·.remap (· - blen s))
          destination := f.destination.remap (· - blen s) } ::
        post.map (·.remap fun q => q - blen (x ++ (y ++ s ++ t)) + blen (x ++ (y ++ t))))) :=
  unflag_copy_core h e h1 h2 hf h3 h4 (place_item h e h1 h2 hq hk)

namespace Src

/-- a pair, as a part of an item -/
def newPair (n v : Str) : Pair := ⟨c!" ", .bare n, .bare v⟩

theorem newPair_text (n v : Str) : (newPair n v).text = pairText n v := by
  simp [newPair, Pair.text, Pair.body, Value.text, pairText]

theorem newPair_blen (n v : Str) : blen (pairText n v) = 1 + blen (newPair n v).body := by
  rw [← newPair_text, Pair.text, blen_append]; rfl

theorem newPair_env {unq : Unquote} {n v : Str} (q : Nat) : (newPair n v).evalEnv unq q = .ok (envAt q n v) := by
  simp only [envAt, newPair_blen, ← Nat.add_assoc]
  rfl

theorem newPair_label {unq : Unquote} {n v : Str} (hn : Over Spec.Plain n) (hv : Over Spec.Plain v) (q : Nat) :
    (newPair n v).evalLabel unq q = .ok (labelAt q n v) := by
  have e1 : (newPair n v).name.readLabel unq = .ok n := plain_read hn
  have e2 : (newPair n v).value.readLabel unq = .ok v := plain_read hv
  simp only [Pair.evalLabel, e1, e2, ok_bind]
  simp only [labelAt, newPair_blen, ← Nat.add_assoc]
  rfl

theorem newPair_gap {n : Str} (hn : Over Spec.Plain n) (v z : Str) : Gap (newPair n v).gap ((newPair n v).body ++ z) := by
  obtain ⟨h1, h2⟩ := hn
  cases n with
  | nil => exact absurd rfl h1
  | cons c n =>
    obtain ⟨-, p2, p3, -⟩ := plain_facts (h2 c (by simp))
    exact one_blank _ p2 p3

theorem newPair_value {v z : Str} (hv : Over Spec.Plain v) (hz : WordEnd z) : Value.Fits z (.bare v) :=
  ⟨plain_noQuoted hv _, plain_word hv hz⟩

theorem newPair_fitsEnv {n v z : Str} (hn : Over IsWord n) (hv : Over Spec.Plain v) (hz : WordEnd z) : (newPair n v).FitsEnv z :=
  ⟨newPair_gap ⟨hn.1, fun c hc => word_isPlain (hn.2 c hc)⟩ v z, ⟨n, rfl, hn.1, hn.2⟩, newPair_value hv hz⟩

theorem newPair_fitsLabel {n v z : Str} (hn : Over Spec.Plain n) (hv : Over Spec.Plain v) (hz : WordEnd z) : (newPair n v).FitsLabel z := by
  refine ⟨newPair_gap hn v z, ⟨plain_noQuoted hn _, hn.1, fun c hc => ?_, fun c b e => ?_⟩, newPair_value hv hz⟩
  · obtain ⟨p1, p2, -, -, -, -, p3, -⟩ := plain_facts (hn.2 c hc)
    rintro (h | h | h | h | h)
    · exact p2 (.inl h)
    · exact p2 (.inr h)
    · exact p1 (.inl h)
    · exact p1 (.inr h)
    · exact p3 h
  · obtain ⟨rfl, -⟩ := List.cons.inj e
    exact .inr (.inr (.inr (.inr rfl)))

theorem newPair_unquoted {n v : Str} (hn : Over Spec.Plain n) (hv : Over Spec.Plain v) : Unquoted (pairText n v) := by
  refine unquoted_app (a := [' ']) (by unfold Unquoted; decide) (unquoted_app (plain_unquoted hn.2) ?_)
  exact unquoted_app (a := ['=']) (by unfold Unquoted; decide) (plain_unquoted hv.2)

/-- what is behind the keyword of an instruction with pairs starts with space -/
theorem pairs_wordEnd {F : Pair → Str → Prop} (hF : ∀ f z, F f z → Gap f.gap (f.body ++ z)) {ps : List Pair} {t r : Str}
    (h1 : PairsFit F ps (t ++ r)) (h2 : Space t r) (h3 : ps ≠ [] ∨ t ≠ []) : WordEnd (pairsText ps ++ (t ++ r)) := by
  cases ps with
  | nil => exact .inr (h2.starts (h3.resolve_left fun h => h rfl))
  | cons f ps =>
    have := (hF _ _ h1.1).starts
    rw [pairsText_cons, show f.text ++ pairsText ps ++ (t ++ r) = f.gap ++ (f.body ++ (pairsText ps ++ (t ++ r))) by
      simp [Pair.text]]
    exact .inr this

/-- a gap does not start with an equals sign -/
theorem gap_noEq {g r b : Str} (h : Gap g r) (b' : Str) (e : g ++ b' = '=' :: b) : False := by
  obtain ⟨hg, hs⟩ := h
  cases hs with
  | nil _ => exact hg rfl
  | blank hc _ =>
    obtain ⟨rfl, -⟩ := List.cons.inj e
    exact absurd hc (by decide)
  | continuation _ _ _ _ => exact absurd (List.cons.inj e).1 (by decide)

end Src

/-- A variable is put into an `ENV` of the form with equals signs, in front of the others, by splicing it in behind the keyword. -/
theorem pair_env_core {unq : Unquote} {x y t z : Str} {d : Dockerfile} {pre post : List Instruction} {f : EnvInstruction}
    (h : Dockerfile.parse unq (x ++ (y ++ t ++ z)) = .ok d) (e : d.instructions = pre ++ .env f :: post)
    (h1 : f.span.start = blen x) (h2 : f.span.stop = blen (x ++ (y ++ t))) (h3 : blen y = 3) (hx : Exchanges unq x (y ++ t) z pre post (.env f))
    (hp : ∃ w ∈ f.vars, ∃ a b, y ++ t = a ++ '=' :: b ∧ w.key.span.stop = blen (x ++ a))
    {n v : Str} (hn : Over IsWord n) (hv : Over Spec.Plain v) :
    ((Splicer.ofDockerfile d).splice ⟨f.span.start + 3, f.span.start + 3⟩ (pairText n v)).map Splicer.content =
      some (x ++ (y ++ pairText n v ++ t ++ z)) ∧
    Dockerfile.parse unq (x ++ (y ++ pairText n v ++ t ++ z)) = .ok (documentOf (x ++ (y ++ pairText n v ++ t ++ z))
      (pre ++ .env {
          span := ⟨blen x, blen (x ++ (y ++ pairText n v ++ t))⟩
          vars := envAt (blen (x ++ y)) n v :: f.vars.map (·.remap (· + blen (pairText n v))) } ::
        post.map (·.remap fun q => q - blen (x ++ (y ++ t)) + blen (x ++ (y ++ pairText n v ++ t))))) := by
  refine ⟨?_, ?_⟩
  · have hc : d.content = x ++ y ++ [] ++ (t ++ z) := by
      rw [show d.content = _ from ((ens_parse unq _).ok_of h).1]; simp
    have := C21_single_splice d.content ⟨f.span.start + 3, f.span.start + 3⟩ (pairText n v) (x ++ y) [] (t ++ z) hc
      (by rw [h1]; simp only [blen_append]; omega) (by rw [h1]; simp only [blen_append, blen]; omega)
    rw [show Splicer.ofDockerfile d = Splicer.fromStr d.content from rfl, this]
    simp
  obtain ⟨it, y0, m, eu, hy, hnum, ⟨r, hr⟩, key⟩ := hx
  obtain rfl := numbered_other hnum (fun f h => by cases h)
  obtain ⟨-, ⟨kw, ps, tr, rfl, q1⟩ | ⟨kw, g, k, g', u, k1, k2, k3, -⟩⟩ := Src.item_env hy
  rotate_left
  · obtain ⟨w, hw, a, b, e1, e2⟩ := hp
    rw [k3 w hw, blen_append x] at e2
    rw [eu, k1] at e1
    obtain ⟨-, e3⟩ := append_inj_blen (a := kw ++ (g ++ k)) (b := g' ++ u) (c := a) (d := '=' :: b) (by rw [← e1]; simp) (by omega)
    exact (Src.gap_noEq (k2 r hr) u e3).elim
  have hkw : blen kw = 3 := Src.kw_len hr.1 rfl
  replace eu : y ++ t = kw ++ (Src.pairsText ps ++ tr) := eu
  obtain ⟨rfl, rfl⟩ := append_inj_blen eu (by rw [h3, hkw])
  have htext : (Src.Item.env y (Src.newPair n v :: ps) tr).text = y ++ pairText n v ++ (Src.pairsText ps ++ tr) := by
    simp [Src.Item.text, Src.pairsText_cons, Src.newPair_text]
  have hun : ∀ q, Mild (y ++ q) → Unquoted y := fun q hq c hc => hq.1 c (by simp [hc])
  have hne : Src.pairsText ps ++ tr ≠ [] := by
    intro h0
    obtain ⟨-, h5, h6, h7, -⟩ := hr
    rcases List.append_eq_nil_iff.1 h0 with ⟨h8, h9⟩
    cases ps with
    | nil => exact h7.elim (fun h => h rfl) fun h => h h9
    | cons f ps =>
      have := h5.1.1.1
      rw [Src.pairsText_cons, Src.Pair.text] at h8
      simp [this] at h8
  have := key (.env y (Src.newPair n v :: ps) tr) (by
      rw [htext]
      exact fun hq => Src.mild_tail hq hne (Src.unquoted_app (hun _ hq) (Src.newPair_unquoted (⟨hn.1, fun c hc => Src.word_isPlain (hn.2 c hc)⟩ : Over Spec.Plain n) hv))) (fun g' b hg hb hfit => ?_)
    (y1 := .env {
          span := ⟨blen x, blen (x ++ (y ++ pairText n v ++ (Src.pairsText ps ++ tr)))⟩
          vars := envAt (blen (x ++ y)) n v :: f.vars.map (·.remap (· + blen (pairText n v))) }) ?_
  · rw [htext] at this
    exact this
  · obtain ⟨f1, f2, f3, f4, f5⟩ := hfit
    exact ⟨f1, ⟨Src.newPair_fitsEnv hn hv (Src.pairs_wordEnd (fun _ _ h => h.1) f2 f3 f4), f2⟩, f3, .inl (by simp), f5⟩
  · have q3 := Src.pairs_move (m := (· + blen (pairText n v))) (Src.env_move unq) ps (p := blen x + blen y)
      (p' := blen x + blen y + blen (pairText n v)) (by intro k _; simp only []; omega)
    rw [q1] at q3
    simp only [Src.Item.eval, Src.evalPairs, Src.newPair_env, Src.newPair_text, ok_bind, q3, Except.map]
    refine congrArg (fun i => Except.ok (some (Instruction.env i))) ?_
    rw [htext]
    simp only [blen_append]

/-- C99: A variable is put into an `ENV` of the form with equals signs, in front of the others, by splicing it in behind the keyword. -/
theorem C99_pair_env {unq : Unquote} {x y t z : Str} {d : Dockerfile} {pre post : List Instruction} {f : EnvInstruction}
    (h : Dockerfile.parse unq (x ++ (y ++ t ++ z)) = .ok d) (e : d.instructions = pre ++ .env f :: post)
    (h1 : f.span.start = blen x) (h2 : f.span.stop = blen (x ++ (y ++ t))) (h3 : blen y = 3) (hq : Mild (y ++ t))
    (hp : ∃ w ∈ f.vars, ∃ a b, y ++ t = a ++ '=' :: b ∧ w.key.span.stop = blen (x ++ a))
    {n v : Str} (hn : Over IsWord n) (hv : Over Spec.Plain v)
    (hk : ∀ m, .misc m ∈ pre → ¬ IsKeyword m.instruction.content) :
    ((Splicer.ofDockerfile d).splice ⟨f.span.start + 3, f.span.start + 3⟩ (pairText n v)).map Splicer.content =
      some (x ++ (y ++ pairText n v ++ t ++ z)) ∧
    Dockerfile.parse unq (x ++ (y ++ pairText n v ++ t ++ z)) = .ok (documentOf (x ++ (y ++ pairText n v ++ t ++ z))
      (pre ++ .env {
          span := ⟨blen x, blen (x ++ (y ++ pairText n v ++ t))⟩
          vars := envAt (blen (x ++ y)) n v :: f.vars.map (·.remap (· + blen (pairText n v))) } ::
        post.map (·.remap fun q => q - blen (x ++ (y ++ t)) + blen (x ++ (y ++ pairText n v ++ t))))) :=
  pair_env_core h e h1 h2 h3 (place_item h e h1 h2 hq hk) hp hn hv

/-- A label is put into a `LABEL` of the form with equals signs, in front of the others, by splicing it in behind the keyword. -/
theorem pair_label_core {unq : Unquote} {x y t z : Str} {d : Dockerfile} {pre post : List Instruction} {f : LabelInstruction}
    (h : Dockerfile.parse unq (x ++ (y ++ t ++ z)) = .ok d) (e : d.instructions = pre ++ .label f :: post)
    (h1 : f.span.start = blen x) (h2 : f.span.stop = blen (x ++ (y ++ t))) (h3 : blen y = 5) (hx : Exchanges unq x (y ++ t) z pre post (.label f))
    (hp : ∃ w ∈ f.labels, ∃ a b, y ++ t = a ++ '=' :: b ∧ w.name.span.stop = blen (x ++ a))
    {n v : Str} (hn : Over Spec.Plain n) (hv : Over Spec.Plain v) :
    ((Splicer.ofDockerfile d).splice ⟨f.span.start + 5, f.span.start + 5⟩ (pairText n v)).map Splicer.content =
      some (x ++ (y ++ pairText n v ++ t ++ z)) ∧
    Dockerfile.parse unq (x ++ (y ++ pairText n v ++ t ++ z)) = .ok (documentOf (x ++ (y ++ pairText n v ++ t ++ z))
      (pre ++ .label {
          span := ⟨blen x, blen (x ++ (y ++ pairText n v ++ t))⟩
          labels := labelAt (blen (x ++ y)) n v :: f.labels.map (·.remap (· + blen (pairText n v))) } ::
        post.map (·.remap fun q => q - blen (x ++ (y ++ t)) + blen (x ++ (y ++ pairText n v ++ t))))) := by
  refine ⟨?_, ?_⟩
  · have hc : d.content = x ++ y ++ [] ++ (t ++ z) := by
      rw [show d.content = _ from ((ens_parse unq _).ok_of h).1]; simp
    have := C21_single_splice d.content ⟨f.span.start + 5, f.span.start + 5⟩ (pairText n v) (x ++ y) [] (t ++ z) hc
      (by rw [h1]; simp only [blen_append]; omega) (by rw [h1]; simp only [blen_append, blen]; omega)
    rw [show Splicer.ofDockerfile d = Splicer.fromStr d.content from rfl, this]
    simp
  obtain ⟨it, y0, m, eu, hy, hnum, ⟨r, hr⟩, key⟩ := hx
  obtain rfl := numbered_other hnum (fun f h => by cases h)
  obtain ⟨-, ⟨kw, ps, tr, rfl, q1⟩ | ⟨kw, g, k, g', u, k1, k2, k3, -⟩⟩ := Src.item_label hy
  rotate_left
  · obtain ⟨w, hw, a, b, e1, e2⟩ := hp
    rw [k3 w hw, blen_append x] at e2
    rw [eu, k1] at e1
    obtain ⟨-, e3⟩ := append_inj_blen (a := kw ++ (g ++ k)) (b := g' ++ u) (c := a) (d := '=' :: b) (by rw [← e1]; simp) (by omega)
    exact (Src.gap_noEq (k2 r hr) u e3).elim
  have hkw : blen kw = 5 := Src.kw_len hr.1 rfl
  replace eu : y ++ t = kw ++ (Src.pairsText ps ++ tr) := eu
  obtain ⟨rfl, rfl⟩ := append_inj_blen eu (by rw [h3, hkw])
  have htext : (Src.Item.label y (Src.newPair n v :: ps) tr).text = y ++ pairText n v ++ (Src.pairsText ps ++ tr) := by
    simp [Src.Item.text, Src.pairsText_cons, Src.newPair_text]
  have hun : ∀ q, Mild (y ++ q) → Unquoted y := fun q hq c hc => hq.1 c (by simp [hc])
  have hne : Src.pairsText ps ++ tr ≠ [] := by
    intro h0
    obtain ⟨-, h5, h6, h7, -⟩ := hr
    rcases List.append_eq_nil_iff.1 h0 with ⟨h8, h9⟩
    cases ps with
    | nil => exact h7.elim (fun h => h rfl) fun h => h h9
    | cons f ps =>
      have := h5.1.1.1
      rw [Src.pairsText_cons, Src.Pair.text] at h8
      simp [this] at h8
  have := key (.label y (Src.newPair n v :: ps) tr) (by
      rw [htext]
      exact fun hq => Src.mild_tail hq hne (Src.unquoted_app (hun _ hq) (Src.newPair_unquoted hn hv))) (fun g' b hg hb hfit => ?_)
    (y1 := .label {
          span := ⟨blen x, blen (x ++ (y ++ pairText n v ++ (Src.pairsText ps ++ tr)))⟩
          labels := labelAt (blen (x ++ y)) n v :: f.labels.map (·.remap (· + blen (pairText n v))) }) ?_
  · rw [htext] at this
    exact this
  · obtain ⟨f1, f2, f3, f4, f5⟩ := hfit
    exact ⟨f1, ⟨Src.newPair_fitsLabel hn hv (Src.pairs_wordEnd (fun _ _ h => h.1) f2 f3 f4), f2⟩, f3, .inl (by simp), f5⟩
  · have q3 := Src.pairs_move (m := (· + blen (pairText n v))) (Src.label_move unq) ps (p := blen x + blen y)
      (p' := blen x + blen y + blen (pairText n v)) (by intro k _; simp only []; omega)
    rw [q1] at q3
    simp only [Src.Item.eval, Src.evalPairs, Src.newPair_label hn hv, Src.newPair_text, ok_bind, q3, Except.map]
    refine congrArg (fun i => Except.ok (some (Instruction.label i))) ?_
    rw [htext]
    simp only [blen_append]

/-- C99: A label is put into a `LABEL` of the form with equals signs, in front of the others, by splicing it in behind the keyword. -/
theorem C99_pair_label {unq : Unquote} {x y t z : Str} {d : Dockerfile} {pre post : List Instruction} {f : LabelInstruction}
    (h : Dockerfile.parse unq (x ++ (y ++ t ++ z)) = .ok d) (e : d.instructions = pre ++ .label f :: post)
    (h1 : f.span.start = blen x) (h2 : f.span.stop = blen (x ++ (y ++ t))) (h3 : blen y = 5) (hq : Mild (y ++ t))
    (hp : ∃ w ∈ f.labels, ∃ a b, y ++ t = a ++ '=' :: b ∧ w.name.span.stop = blen (x ++ a))
    {n v : Str} (hn : Over Spec.Plain n) (hv : Over Spec.Plain v)
    (hk : ∀ m, .misc m ∈ pre → ¬ IsKeyword m.instruction.content) :
    ((Splicer.ofDockerfile d).splice ⟨f.span.start + 5, f.span.start + 5⟩ (pairText n v)).map Splicer.content =
      some (x ++ (y ++ pairText n v ++ t ++ z)) ∧
    Dockerfile.parse unq (x ++ (y ++ pairText n v ++ t ++ z)) = .ok (documentOf (x ++ (y ++ pairText n v ++ t ++ z))
      (pre ++ .label {
          span := ⟨blen x, blen (x ++ (y ++ pairText n v ++ t))⟩
          labels := labelAt (blen (x ++ y)) n v :: f.labels.map (·.remap (· + blen (pairText n v))) } ::
        post.map (·.remap fun q => q - blen (x ++ (y ++ t)) + blen (x ++ (y ++ pairText n v ++ t))))) :=
  pair_label_core h e h1 h2 h3 (place_item h e h1 h2 hq hk) hp hn hv

/-! ## samples -/

theorem over_plain {v : Str} (h : (!v.isEmpty && v.all fun c => c ∉ [' ', '\t', '\n', '\r', '\\', '#', '=', '"', '\'', '`', ',', '[', ']', '\x00', '\x1F']) = true) :
    Over Spec.Plain v := by
  rw [Bool.and_eq_true] at h
  refine ⟨by rintro rfl; simp at h, fun c hc => ?_⟩
  have := List.all_eq_true.1 h.2 c hc
  simpa [Spec.Plain] using this

/-- The default of an `ARG` is taken away, and set to `1.2`. -/
example (o : Option Str) (ho : ∀ b, o = some b → b = c!"1.2") : ∃ d', Dockerfile.parse Enquote.unquote
      (c!"RUN '\n" ++ (c!"arg \\\n v" ++ eqText o ++ c!" \nFROM f\n")) = .ok d' := by
  obtain ⟨d, pre, i, post, h, e, h1, h2, h4, -, h3⟩ := placeOK_iff
    (s := c!"RUN '\n" ++ (c!"arg \\\n v" ++ c!"=0" ++ c!" \nFROM f\n")) (k := 1) (a := 6) (b := 16)
    (Q := fun | .arg f => decide (f.name.span.stop = 14) | _ => false) (R := fun _ => true) (by decide +kernel)
  cases i
  case arg f =>
    exact ⟨_, (C99_default h e h1 h2 (of_decide_eq_true h4) (by unfold Mild Unquoted; decide +kernel) o
      (fun b hb => by rw [ho b hb]; exact over_plain (by decide)) h3).2⟩
  all_goals cases h4

/-- A flag is put into a `FROM` that has one. -/
example : ∃ d', Dockerfile.parse Enquote.unquote
      (c!"RUN '\n" ++ (c!"from" ++ flagText c!"x" c!"y" ++ c!" \\\n# c\n --a=b i AS j" ++ c!" \nCMD f\n")) = .ok d' := by
  obtain ⟨d, pre, i, post, h, e, h1, h2, h4, -, h3⟩ := placeOK_iff
    (s := c!"RUN '\n" ++ (c!"from" ++ c!" \\\n# c\n --a=b i AS j" ++ c!" \nCMD f\n")) (k := 1) (a := 6) (b := 30)
    (Q := fun | .from f => decide (f.flags.length = 1) | _ => false) (R := fun _ => true) (by decide +kernel)
  cases i
  case «from» f =>
    exact ⟨_, (C99_flag_from h e h1 h2 rfl (by unfold Mild Unquoted; decide +kernel)
      (n := c!"x") (v := c!"y") ⟨by decide, by unfold IsAlpha; decide⟩ (over_plain (by decide)) h3).2⟩
  all_goals cases h4

/-- A flag is put into a `COPY`. -/
example : ∃ d', Dockerfile.parse Enquote.unquote
      (c!"RUN '\n" ++ (c!"COPY" ++ flagText c!"from" c!"y" ++ c!" a \\\n b" ++ c!" \nCMD f\n")) = .ok d' := by
  obtain ⟨d, pre, i, post, h, e, h1, h2, h4, -, h3⟩ := placeOK_iff
    (s := c!"RUN '\n" ++ (c!"COPY" ++ c!" a \\\n b" ++ c!" \nCMD f\n")) (k := 1) (a := 6) (b := 17)
    (Q := fun | .copy f => decide (f.flags.length = 0) | _ => false) (R := fun _ => true) (by decide +kernel)
  cases i
  case copy f =>
    exact ⟨_, (C99_flag_copy h e h1 h2 rfl (by unfold Mild Unquoted; decide +kernel)
      (n := c!"from") (v := c!"y") ⟨by decide, by unfold IsAlpha; decide⟩ (over_plain (by decide)) h3).2⟩
  all_goals cases h4

/-- The second of three flags is taken out of a `FROM`, and of a `COPY`. -/
example : ∃ d', Dockerfile.parse Enquote.unquote
      (c!"RUN '\n" ++ (c!"FROM --a=b" ++ c!" \\\n# c\n --e=f i AS j" ++ c!" \nCMD f\n")) = .ok d' := by
  obtain ⟨d, pre, i, post, h, e, h1, h2, h4, -, h3⟩ := placeOK_iff
    (s := c!"RUN '\n" ++ (c!"FROM --a=b" ++ c!"\t--c=d" ++ c!" \\\n# c\n --e=f i AS j" ++ c!" \nCMD f\n")) (k := 1) (a := 6) (b := 42)
    (Q := fun | .from f => decide (f.flags.map (·.span) = [⟨11, 16⟩, ⟨17, 22⟩, ⟨30, 35⟩]) | _ => false) (R := fun _ => true)
    (by decide +kernel)
  cases i
  case «from» f =>
    obtain ⟨a, l, hf, ha, h4⟩ := List.map_eq_cons_iff.1 (of_decide_eq_true h4)
    obtain ⟨b, l, rfl, hb, h4⟩ := List.map_eq_cons_iff.1 h4
    refine ⟨_, (C99_unflag_from h e h1 h2 (A := [a]) (b := b) (C := l) hf ?_ ?_ (by unfold Mild Unquoted; decide +kernel) h3).2⟩
    · simp [flagStart, ha]; decide +kernel
    · rw [hb]; decide +kernel
  all_goals cases h4

example : ∃ d', Dockerfile.parse Enquote.unquote
      (c!"RUN '\n" ++ (c!"COPY --a=b" ++ c!" \\\n# c\n --e=f i j" ++ c!" \nCMD f\n")) = .ok d' := by
  obtain ⟨d, pre, i, post, h, e, h1, h2, h4, -, h3⟩ := placeOK_iff
    (s := c!"RUN '\n" ++ (c!"COPY --a=b" ++ c!"\t--c=d" ++ c!" \\\n# c\n --e=f i j" ++ c!" \nCMD f\n")) (k := 1) (a := 6) (b := 39)
    (Q := fun | .copy f => decide (f.flags.map (·.span) = [⟨11, 16⟩, ⟨17, 22⟩, ⟨30, 35⟩]) | _ => false) (R := fun _ => true)
    (by decide +kernel)
  cases i
  case copy f =>
    obtain ⟨a, l, hf, ha, h4⟩ := List.map_eq_cons_iff.1 (of_decide_eq_true h4)
    obtain ⟨b, l, rfl, hb, h4⟩ := List.map_eq_cons_iff.1 h4
    refine ⟨_, (C99_unflag_copy h e h1 h2 (A := [a]) (b := b) (C := l) hf ?_ ?_ (by unfold Mild Unquoted; decide +kernel) h3).2⟩
    · simp [flagStart, ha]; decide +kernel
    · rw [hb]; decide +kernel
  all_goals cases h4

/-- A variable and a label are put in. -/
example : ∃ d', Dockerfile.parse Enquote.unquote
      (c!"RUN '\n" ++ (c!"ENV" ++ pairText c!"x" c!"y" ++ c!" \\\n# c\n a=b c=d " ++ c!"\nCMD f\n")) = .ok d' := by
  obtain ⟨d, pre, i, post, h, e, h1, h2, h4, -, h3⟩ := placeOK_iff
    (s := c!"RUN '\n" ++ (c!"ENV" ++ c!" \\\n# c\n a=b c=d " ++ c!"\nCMD f\n")) (k := 1) (a := 6) (b := 25)
    (Q := fun | .env f => f.vars.any (fun v => decide (v.key.span.stop = 18)) | _ => false) (R := fun _ => true) (by decide +kernel)
  cases i
  case env f =>
    obtain ⟨v, hv, h5⟩ := List.any_eq_true.1 h4
    exact ⟨_, (C99_pair_env h e h1 h2 rfl (by unfold Mild Unquoted; decide +kernel)
      ⟨v, hv, c!"ENV \\\n# c\n a", c!"b c=d ", by decide, of_decide_eq_true h5⟩
      (n := c!"x") (v := c!"y") ⟨by decide, by unfold IsWord IsAlpha IsDigit; decide⟩ (over_plain (by decide)) h3).2⟩
  all_goals cases h4

example : ∃ d', Dockerfile.parse Enquote.unquote
      (c!"RUN '\n" ++ (c!"LABEL" ++ pairText c!"x.y" c!"z" ++ c!" a.b=c " ++ c!"\nCMD f\n")) = .ok d' := by
  obtain ⟨d, pre, i, post, h, e, h1, h2, h4, -, h3⟩ := placeOK_iff
    (s := c!"RUN '\n" ++ (c!"LABEL" ++ c!" a.b=c " ++ c!"\nCMD f\n")) (k := 1) (a := 6) (b := 18)
    (Q := fun | .label f => f.labels.any (fun v => decide (v.name.span.stop = 15)) | _ => false) (R := fun _ => true) (by decide +kernel)
  cases i
  case label f =>
    obtain ⟨v, hv, h5⟩ := List.any_eq_true.1 h4
    exact ⟨_, (C99_pair_label h e h1 h2 rfl (by unfold Mild Unquoted; decide +kernel)
      ⟨v, hv, c!"LABEL a.b", c!"c ", by decide, of_decide_eq_true h5⟩
      (n := c!"x.y") (v := c!"z") (over_plain (by decide)) (over_plain (by decide)) h3).2⟩
  all_goals cases h4

/-- C99: Why the variables must be of the form with equals signs: otherwise the text is refused.  Why a flag cannot be put behind the
image or the paths: there it is not one. -/
theorem C99_forms :
    (Dockerfile.parse Enquote.unquote c!"ENV a b\n").toOption.isSome = true ∧
    (Dockerfile.parse Enquote.unquote c!"ENV x=y a b\n").toOption = none ∧
    (Dockerfile.parse Enquote.unquote c!"FROM i --x=y\n").toOption = none ∧
    (Dockerfile.parse Enquote.unquote c!"COPY a b --x=y\n").toOption.map
        (·.instructions.map fun | .copy f => (f.flags.length, f.sources.length) | _ => (0, 0)) = some [(0, 2)] := by
  decide +kernel

end Verif
