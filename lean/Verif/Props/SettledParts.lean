import Verif.Spec.SettledParts
import Verif.Props.Settled
import Verif.Props.Parts

/-! # Parts of instructions, in documents in which nothing is left open (C104) -/

namespace Verif
open Spec

namespace Src

/-! ## pairs taken out -/

theorem shut_part {a b z : Str} (h : ¬ Open (a ++ b) z) : ¬ Open b z := fun h' => h (h'.pre a)

theorem word_shift {w k z z' : Str} (h : Word w (k ++ z)) (hz : Snug z) (hz' : ¬ Open (w ++ k) z') (he : WordEnd z') :
    Word w (k ++ z') := by
  have ext : ∀ b, b ≠ [] → WordEnd b → ∀ z, WordEnd (b ++ z) := fun b hb h z =>
    h.elim (fun h => .inl (h.ext hb)) fun h => .inr h.ext
  refine ⟨h.1, fun a b e hb hc => h.2.1 a b e hb ?_, ?_⟩
  · rw [← List.append_assoc] at hc ⊢
    refine ext _ (by simp [hb]) (hc.cut (shut_part (a := a) ?_)) z
    rw [← List.append_assoc, ← e]; exact hz'
  · by_cases hk : k = []
    · subst hk; exact he
    · exact ext k hk (h.2.2.cut (hz.closed k)) z'

/-- it does not start with a quote unless it is in quotes -/
def Value.Still (v : Value) : Prop := ∀ t, v = .bare t → ∀ r, t ≠ '"' :: r ∧ t ≠ '\'' :: r

theorem noQuoted_of {t : Str} (ht : t ≠ []) (h : ∀ r, t ≠ '"' :: r ∧ t ≠ '\'' :: r) (z : Str) : NoQuoted (t ++ z) := by
  rintro t' r e ⟨q, b, rfl, hq, -⟩
  cases t with
  | nil => exact ht rfl
  | cons c t =>
    obtain ⟨rfl, -⟩ := List.cons.inj e
    rcases hq with rfl | rfl
    · exact (h t).1 rfl
    · exact (h t).2 rfl

theorem value_shift {v : Value} {k z z' : Str} (hv : v.Still) (h : v.Fits (k ++ z)) (hz : Snug z) (hz' : ¬ Open (v.text ++ k) z')
    (he : WordEnd z') : v.Fits (k ++ z') := by
  cases v with
  | quoted t => exact h
  | bare t => exact ⟨noQuoted_of h.2.1 (hv t rfl) _, word_shift h.2 hz hz' he⟩

theorem pairsText_app (a b : List Pair) : pairsText (a ++ b) = pairsText a ++ pairsText b := by simp [pairsText]

theorem pairs_app {F : Pair → Str → Prop} {a b : List Pair} {z : Str} :
    PairsFit F (a ++ b) z ↔ PairsFit F a (pairsText b ++ z) ∧ PairsFit F b z := by
  induction a with
  | nil => exact ⟨fun h => ⟨trivial, h⟩, fun h => h.2⟩
  | cons f a ih =>
    show F f (pairsText (a ++ b) ++ z) ∧ PairsFit F (a ++ b) z ↔ _
    rw [ih, pairsText_app, List.append_assoc]
    exact ⟨fun h => ⟨⟨h.1, h.2.1⟩, h.2.2⟩, fun h => ⟨h.1.1, h.1.2, h.2⟩⟩

/-- how variables and labels fit -/
structure Shifts (F : Pair → Str → Prop) (Q : Pair → Prop) : Prop where
  gap : ∀ f z, F f z → Gap f.gap (f.body ++ z) ∧ ¬ Eol (f.body ++ z)
  shift : ∀ f k z z', Q f → F f (k ++ z) → Snug z → ¬ Open (f.text ++ k) z' → WordEnd z' → F f (k ++ z')

theorem pairs_shift {F : Pair → Str → Prop} {Q : Pair → Prop} (hF : Shifts F Q) {fs : List Pair} {z z' : Str} (h : PairsFit F fs z)
    (hq : ∀ f ∈ fs, Q f) (hz : Snug z) (hz' : ¬ Open (pairsText fs) z') (he : WordEnd z') : PairsFit F fs z' := by
  induction fs with
  | nil => trivial
  | cons f fs ih =>
    rw [pairsText_cons] at hz'
    exact ⟨hF.shift f _ _ _ (hq f (by simp)) h.1 hz hz' he, ih h.2 (fun f hf => hq f (by simp [hf])) (shut_part hz')⟩

theorem pairs_start {F : Pair → Str → Prop} {Q : Pair → Prop} (hF : Shifts F Q) {f : Pair} {fs : List Pair} {z : Str}
    (h : PairsFit F (f :: fs) z) : Snug (pairsText (f :: fs) ++ z) ∧ WordEnd (pairsText (f :: fs) ++ z) := by
  obtain ⟨h1, h2⟩ := hF.gap _ _ h.1
  have e : pairsText (f :: fs) ++ z = f.gap ++ (f.body ++ (pairsText fs ++ z)) := by
    rw [pairsText_cons]; simp [Pair.text]
  rw [e]
  exact ⟨h1.2.snug h2, .inr h1.starts⟩

theorem pairs_without {F : Pair → Str → Prop} {Q : Pair → Prop} (hF : Shifts F Q) {a c : List Pair} {f : Pair} {t r : Str}
    (h : PairsFit F (a ++ f :: c) (t ++ r)) (hq : ∀ f ∈ a, Q f) (ht : Space t r) (hr : Eol r)
    (hc : c ≠ [] ∨ ¬ OpenEnd (pairsText a)) : PairsFit F (a ++ c) (t ++ r) := by
  obtain ⟨h1, h2⟩ := pairs_app.1 h
  obtain ⟨s1, -⟩ := pairs_start hF h2
  refine pairs_app.2 ⟨?_, h2.2⟩
  cases c with
  | nil =>
    refine pairs_shift hF h1 hq s1 (fun ho => hc.elim (fun h => h rfl) fun h => h ho.1) ?_
    show WordEnd (t ++ r)
    by_cases h0 : t = []
    · subst h0; exact .inl hr
    · exact .inr (ht.starts h0)
  | cons g c =>
    obtain ⟨s2, t2⟩ := pairs_start hF h2.2
    exact pairs_shift hF h1 hq s1 (s2.closed _) t2

theorem gap_shift {f : Pair} {k z z' : Str} (h : Gap f.gap (f.body ++ (k ++ z))) (hz' : ¬ Open (f.text ++ k) z') :
    Gap f.gap (f.body ++ (k ++ z')) := by
  rw [← List.append_assoc] at h ⊢
  refine h.cut.ext (by simp [Pair.body]) (shut_part (a := f.gap) ?_)
  rwa [← List.append_assoc]

theorem env_shifts : Shifts Pair.FitsEnv (·.value.Still) := by
  refine ⟨fun f z h => ⟨h.1, fun hc => ?_⟩, fun f k z z' hq h hz hz' he => ⟨gap_shift h.1 hz', h.2.1, value_shift hq h.2.2 hz ?_ he⟩⟩
  · obtain ⟨n, e, h1, h2⟩ := h.2.1
    cases n with
    | nil => exact h1 rfl
    | cons c n =>
      have := hc c (n ++ '=' :: f.value.text ++ z) (by simp [Pair.body, e, Value.text])
      have hw := h2 c (by simp)
      rcases this with rfl | rfl <;> exact absurd hw (by unfold IsWord IsAlpha IsDigit; decide)
  · refine shut_part (a := f.gap ++ (f.name.text ++ ['='])) ?_
    simpa [Pair.text, Pair.body] using hz'

theorem label_shifts : Shifts Pair.FitsLabel fun f => f.name.Still ∧ f.value.Still := by
  refine ⟨fun f z h => ⟨h.1, fun hc => ?_⟩, fun f k z z' hq h hz hz' he => ⟨gap_shift h.1 hz', ?_, value_shift hq.2 h.2.2 hz ?_ he⟩⟩
  · have h1 := h.2.1
    cases hn : f.name with
    | quoted t =>
      rw [hn] at h1
      obtain ⟨q, b, rfl, h2, -⟩ := h1
      have := hc q _ (by simp [Pair.body, hn, Value.text]; rfl)
      rcases h2 with rfl | rfl <;> exact absurd this (by decide)
    | bare t =>
      rw [hn] at h1
      obtain ⟨-, h2, h3, -⟩ := h1
      cases t with
      | nil => exact h2 rfl
      | cons c t =>
        refine h3 c (by simp) ?_
        have := hc c _ (by simp [Pair.body, hn, Value.text]; rfl)
        rcases this with rfl | rfl <;> simp [EndsName]
  · have h1 := h.2.1
    have h2 := hq.1
    cases hn : f.name with
    | quoted t => rw [hn] at h1; exact h1
    | bare t =>
      rw [hn] at h1 h2
      obtain ⟨-, h3, h4, h5⟩ := h1
      refine ⟨noQuoted_of h3 (h2 t rfl) _, h3, h4, fun c b e => ?_⟩
      obtain ⟨rfl, -⟩ := List.cons.inj e
      simp [EndsName]
  · refine shut_part (a := f.gap ++ (f.name.text ++ ['='])) ?_
    simpa [Pair.text, Pair.body] using hz'

/-! ## their values -/

theorem evalPairs_app {α : Type} {ev : Nat → Pair → Result α} {a b : List Pair} {p : Nat} {xs : List α}
    (h : evalPairs ev p (a ++ b) = .ok xs) : ∃ A B, xs = A ++ B ∧ evalPairs ev p a = .ok A ∧
      evalPairs ev (p + blen (pairsText a)) b = .ok B := by
  induction a generalizing p xs with
  | nil => exact ⟨[], xs, rfl, rfl, h⟩
  | cons f a ih =>
    obtain ⟨x, h1, h2⟩ := bind_some h
    obtain ⟨ys, h3, h4⟩ := bind_some h2
    obtain ⟨A, B, rfl, h5, h6⟩ := ih h3
    cases h4
    refine ⟨x :: A, B, rfl, by simp only [evalPairs, h1, h5, ok_bind]; rfl, ?_⟩
    rw [pairsText_cons, blen_append, ← Nat.add_assoc]; exact h6

theorem evalPairs_join {α : Type} {ev : Nat → Pair → Result α} {a b : List Pair} {p : Nat} {A B : List α}
    (h : evalPairs ev p a = .ok A) (h' : evalPairs ev (p + blen (pairsText a)) b = .ok B) :
    evalPairs ev p (a ++ b) = .ok (A ++ B) := by
  induction a generalizing p A with
  | nil => cases h; exact h'
  | cons f a ih =>
    obtain ⟨x, h1, h2⟩ := bind_some h
    obtain ⟨ys, h3, h4⟩ := bind_some h2
    cases h4
    rw [pairsText_cons, blen_append, ← Nat.add_assoc] at h'
    have := ih h3 h'
    simp only [List.cons_append, evalPairs, h1, this, ok_bind]; rfl

theorem evalPairs_len {α : Type} {ev : Nat → Pair → Result α} {a : List Pair} {p : Nat} {A : List α} (h : evalPairs ev p a = .ok A) :
    A.length = a.length := by
  induction a generalizing p A with
  | nil => cases h; rfl
  | cons f a ih =>
    obtain ⟨x, h1, h2⟩ := bind_some h
    obtain ⟨ys, h3, h4⟩ := bind_some h2
    cases h4
    simp [ih h3]

/-- the source of one of several pairs -/
theorem evalPairs_at {α : Type} {ev : Nat → Pair → Result α} {fs : List Pair} {p : Nat} {A C : List α} {b : α}
    (h : evalPairs ev p fs = .ok (A ++ b :: C)) : ∃ a f c, fs = a ++ f :: c ∧ evalPairs ev p a = .ok A ∧
      ev (p + blen (pairsText a)) f = .ok b ∧ evalPairs ev (p + blen (pairsText a) + blen f.text) c = .ok C := by
  have hl := evalPairs_len h
  have hlt : A.length < fs.length := by rw [← hl]; simp
  have e : fs = fs.take A.length ++ fs[A.length] :: fs.drop (A.length + 1) := by
    rw [← List.drop_eq_getElem_cons hlt, List.take_append_drop]
  rw [e] at h
  obtain ⟨A', B', e1, h1, h2⟩ := evalPairs_app h
  have hA := evalPairs_len h1
  obtain ⟨rfl, rfl⟩ := List.append_inj e1.symm (by rw [hA, List.length_take]; omega)
  obtain ⟨x, h3, h4⟩ := bind_some h2
  obtain ⟨ys, h5, h6⟩ := bind_some h4
  cases h6
  exact ⟨_, _, _, e, h1, h3, h5⟩

theorem evalPairs_stop {α : Type} {ev : Nat → Pair → Result α} {sp : α → Span} (hev : ∀ p f x, ev p f = .ok x → (sp x).stop = p + blen f.text)
    {fs : List Pair} {p : Nat} {A : List α} (h : evalPairs ev p fs = .ok A) :
    ((A.getLast?.map fun x => (sp x).stop).getD p) = p + blen (pairsText fs) := by
  induction fs generalizing p A with
  | nil => cases h; rfl
  | cons f fs ih =>
    obtain ⟨x, h1, h2⟩ := bind_some h
    obtain ⟨ys, h3, h4⟩ := bind_some h2
    cases h4
    have := ih h3
    rw [pairsText_cons, blen_append, ← Nat.add_assoc, ← this]
    cases ys with
    | nil => exact hev _ _ _ h1
    | cons y ys => rw [List.getLast?_cons_cons, List.getLast?_eq_some_getLast (l := y :: ys) (by simp)]; rfl

/-- where the texts that may be in quotes are -/
theorem evalPairs_in {α : Type} {ev : Nat → Pair → Result α} {qs : α → List Span}
    (hev : ∀ p f x, ev p f = .ok x → ∀ sp ∈ qs x, p ≤ sp.start ∧ sp.start ≤ sp.stop ∧ sp.stop ≤ p + blen f.text)
    {fs : List Pair} {p : Nat} {A : List α} (h : evalPairs ev p fs = .ok A) :
    ∀ x ∈ A, ∀ sp ∈ qs x, p ≤ sp.start ∧ sp.start ≤ sp.stop ∧ sp.stop ≤ p + blen (pairsText fs) := by
  induction fs generalizing p A with
  | nil => cases h; intro x hx; cases hx
  | cons f fs ih =>
    obtain ⟨y, h1, h2⟩ := bind_some h
    obtain ⟨ys, h3, h4⟩ := bind_some h2
    cases h4
    intro x hx sp hsp
    rw [pairsText_cons, blen_append]
    rcases List.mem_cons.1 hx with rfl | hx
    · have := hev _ _ _ h1 sp hsp; omega
    · have := ih h3 x hx sp hsp; omega

/-- pairs of which every text that starts with a quote is in quotes -/
theorem evalPairs_still {α : Type} {ev : Nat → Pair → Result α} {qs : α → List Span} {F : Pair → Str → Prop} {Q : Pair → Prop} {s : Str}
    (hev : ∀ x f z y r, s = x ++ (f.text ++ z) → ev (blen x) f = .ok y → F f r →
      (∀ sp ∈ qs y, ∀ t, SliceOf s sp t → QuotedText t ∨ ∀ r, t ≠ '"' :: r ∧ t ≠ '\'' :: r) → Q f)
    {fs : List Pair} {x z : Str} {A : List α} {r : Str} (hs : s = x ++ (pairsText fs ++ z)) (h : evalPairs ev (blen x) fs = .ok A)
    (hf : PairsFit F fs r)
    (hq : ∀ y ∈ A, ∀ sp ∈ qs y, ∀ t, SliceOf s sp t → QuotedText t ∨ ∀ r, t ≠ '"' :: r ∧ t ≠ '\'' :: r) : ∀ f ∈ fs, Q f := by
  induction fs generalizing x A with
  | nil => intro f hf; cases hf
  | cons f fs ih =>
    obtain ⟨y, h1, h2⟩ := bind_some h
    obtain ⟨ys, h3, h4⟩ := bind_some h2
    cases h4
    intro g hg
    rw [pairsText_cons] at hs
    rcases List.mem_cons.1 hg with rfl | hg
    · exact hev x g (pairsText fs ++ z) y _ (by rw [hs]; simp) h1 hf.1 (hq y (by simp))
    · exact ih (x := x ++ f.text) (by rw [hs]; simp) (by rw [blen_append]; exact h3) hf.2 (fun y hy => hq y (by simp [hy])) g hg

theorem still_of {v : Value} {s x z r : Str} {sp : Span} (hs : s = x ++ (v.text ++ z)) (e1 : sp.start = blen x)
    (e2 : sp.stop = blen x + blen v.text) (hv : ∀ t, v = .bare t → NoQuoted (t ++ r))
    (hq : ∀ t, SliceOf s sp t → QuotedText t ∨ ∀ r, t ≠ '"' :: r ∧ t ≠ '\'' :: r) : v.Still := by
  rintro t rfl
  exact (hq t ⟨x, z, by rw [hs]; simp [Value.text], e1, e2⟩).resolve_left (hv t rfl t r rfl)

theorem env_still {unq : Unquote} {s : Str} (x : Str) (f : Pair) (z : Str) (y : EnvVar) (r : Str) (hs : s = x ++ (f.text ++ z))
    (h : f.evalEnv unq (blen x) = .ok y) (hf : f.FitsEnv r)
    (hq : ∀ sp ∈ [y.value.span], ∀ t, SliceOf s sp t → QuotedText t ∨ ∀ r, t ≠ '"' :: r ∧ t ≠ '\'' :: r) : f.value.Still := by
  obtain ⟨c, h1, h2⟩ := bind_some h
  cases h2
  refine still_of (sp := f.valueSpan (blen x)) (x := x ++ (f.gap ++ (f.name.text ++ ['=']))) (z := z) (r := r) (by rw [hs]; simp [Pair.text, Pair.body]) ?_ ?_ ?_
    (hq _ (by simp))
  · simp only [Pair.valueSpan, blen_append, blen]; show _ = _ + (_ + (_ + 1)); omega
  · simp only [Pair.valueSpan, Pair.body, blen_append, blen]; omega
  · intro t e
    have := hf.2.2
    rw [e] at this
    exact this.1

theorem label_still {unq : Unquote} {s : Str} (x : Str) (f : Pair) (z : Str) (y : Label) (r : Str) (hs : s = x ++ (f.text ++ z))
    (h : f.evalLabel unq (blen x) = .ok y) (hf : f.FitsLabel r)
    (hq : ∀ sp ∈ [y.name.span, y.value.span], ∀ t, SliceOf s sp t → QuotedText t ∨ ∀ r, t ≠ '"' :: r ∧ t ≠ '\'' :: r) :
    f.name.Still ∧ f.value.Still := by
  obtain ⟨n, h1, h2⟩ := bind_some h
  obtain ⟨c, h3, h4⟩ := bind_some h2
  cases h4
  constructor
  · refine still_of (sp := f.nameSpan (blen x)) (x := x ++ f.gap) (z := '=' :: (f.value.text ++ z)) (r := '=' :: (f.value.text ++ r))
      (by rw [hs]; simp [Pair.text, Pair.body]) ?_ ?_ ?_ (hq _ (by simp))
    · simp only [Pair.nameSpan, blen_append]
    · simp only [Pair.nameSpan, blen_append]
    · intro t e
      have := hf.2.1
      rw [e] at this
      exact this.1
  · refine still_of (sp := f.valueSpan (blen x)) (x := x ++ (f.gap ++ (f.name.text ++ ['=']))) (z := z) (r := r) (by rw [hs]; simp [Pair.text, Pair.body]) ?_ ?_ ?_
      (hq _ (by simp))
    · simp only [Pair.valueSpan, blen_append, blen]; show _ = _ + (_ + (_ + 1)); omega
    · simp only [Pair.valueSpan, Pair.body, blen_append, blen]; omega
    · intro t e
      have := hf.2.2
      rw [e] at this
      exact this.1

theorem env_place {unq : Unquote} (p : Nat) (f : Pair) (y : EnvVar) (h : f.evalEnv unq p = .ok y) :
    y.span.stop = p + blen f.text ∧ ∀ sp ∈ [y.value.span], p ≤ sp.start ∧ sp.start ≤ sp.stop ∧ sp.stop ≤ p + blen f.text := by
  obtain ⟨c, h1, h2⟩ := bind_some h
  cases h2
  refine ⟨by simp only [Pair.text, blen_append]; omega, fun sp hsp => ?_⟩
  rw [List.mem_singleton.1 hsp]
  have : ('=' : Char).utf8Size = 1 := rfl
  simp only [Pair.valueSpan, Pair.text, Pair.body, blen_append, blen_cons]
  omega

theorem label_place {unq : Unquote} (p : Nat) (f : Pair) (y : Label) (h : f.evalLabel unq p = .ok y) :
    y.span.stop = p + blen f.text ∧
      ∀ sp ∈ [y.name.span, y.value.span], p ≤ sp.start ∧ sp.start ≤ sp.stop ∧ sp.stop ≤ p + blen f.text := by
  obtain ⟨n, h1, h2⟩ := bind_some h
  obtain ⟨c, h3, h4⟩ := bind_some h2
  cases h4
  refine ⟨by simp only [Pair.text, blen_append]; omega, fun sp hsp => ?_⟩
  have : ('=' : Char).utf8Size = 1 := rfl
  simp only [List.mem_cons, List.not_mem_nil, or_false] at hsp
  rcases hsp with rfl | rfl
  · simp only [Pair.nameSpan, Pair.text, Pair.body, blen_append, blen_cons]
    omega
  · simp only [Pair.valueSpan, Pair.text, Pair.body, blen_append, blen_cons]
    omega

end Src

/-- The item of an instruction is exchanged. -/
theorem settled_item {unq : Unquote} {x u z : Str} {d : Dockerfile} {pre post : List Instruction} {i : Instruction}
    (h : Dockerfile.parse unq (x ++ (u ++ z)) = .ok d) (e : d.instructions = pre ++ i :: post)
    (h1 : i.span.start = blen x) (h2 : i.span.stop = blen (x ++ u)) (hs : Settled (x ++ (u ++ z)) d.instructions) :
    Exchanges unq x u z pre post i :=
  exchanges_of h e h1 h2 fun _ _ _ hp hcr => settled_front h e h1 h2 (by rw [e] at hs; exact (settled_append.1 hs).1) hcr hp

/-- Nothing is left open when one instruction is replaced by one that leaves nothing open. -/
theorem settled_exchange {unq : Unquote} {x u z w : Str} {d : Dockerfile} {pre post : List Instruction} {i y : Instruction}
    (h : Dockerfile.parse unq (x ++ (u ++ z)) = .ok d) (e : d.instructions = pre ++ i :: post)
    (h1 : i.span.start = blen x) (h2 : i.span.stop = blen (x ++ u)) (hs : Settled (x ++ (u ++ z)) d.instructions)
    (hy : Settled (x ++ (w ++ z)) [y]) : Settled (x ++ (w ++ z)) (pre ++ y :: post.map (·.remap fun q => q - blen (x ++ u) + blen (x ++ w))) := by
  rw [e, ← List.singleton_append, settled_append, settled_append] at hs
  rw [← List.singleton_append, settled_append, settled_append]
  refine ⟨?_, hy, ?_⟩
  · refine settled_keep hs.1 fun j hj sp hsp t ht => ?_
    have w := C06_fields_within unq _ d h j (by rw [e]; simp [hj]) sp hsp
    obtain ⟨p1, p2, ep⟩ := List.append_of_mem hj
    have o := (C05_instructions_in_order unq _ d h p1 p2 post j i (by rw [e, ep]; simp)).1
    exact slice_front ht (by unfold Within at w; omega)
  · refine settled_move hs.2.2 fun j hj sp hsp t ht => ?_
    have hsp : sp ∈ spansOf j := by
      rcases List.mem_append.1 hsp with hsp | hsp
      · exact quoteSpans_of hsp
      · exact shellSpans_of hsp
    have w1 := C06_fields_within unq _ d h j (by rw [e]; simp [hj]) sp hsp
    have b := C04_span_bounds unq _ d h j (by rw [e]; simp [hj]) sp hsp
    obtain ⟨p1, p2, ep⟩ := List.append_of_mem hj
    have o := (C05_instructions_in_order unq _ d h pre p1 p2 i j (by rw [e, ep])).1
    unfold Within at w1
    have g := slice_part (a := x ++ w) (b := z) (k := sp.start - blen (x ++ u)) (m := sp.stop - blen (x ++ u)) (t := t) (by
      rw [List.append_assoc]
      simpa only [Span.remap, Nat.add_comm, blen_append] using ht)
    have g2 := slice_whole (a := x ++ u) g
    rw [List.append_assoc, Nat.add_sub_cancel' (by omega), Nat.add_sub_cancel' (by omega)] at g2
    exact g2

theorem settled_none {s : Str} {i : Instruction} (h1 : quoteSpans i = []) (h2 : shellSpans i = []) (h3 : ∀ m, i ≠ .misc m) :
    Settled s [i] := by
  intro j hj
  rw [List.mem_singleton.1 hj, h1, h2]
  exact ⟨fun _ h => (by cases h), fun _ h => (by cases h), fun m h => absurd h (h3 m)⟩

theorem settled_quotes {s : Str} {i : Instruction} (h2 : shellSpans i = []) (h3 : ∀ m, i ≠ .misc m) :
    Settled s [i] ↔ ∀ sp ∈ quoteSpans i, ∀ t, SliceOf s sp t → QuotedText t ∨ ∀ r, t ≠ '"' :: r ∧ t ≠ '\'' :: r := by
  refine ⟨fun h => (h i (by simp)).1, fun h j hj => ?_⟩
  rw [List.mem_singleton.1 hj, h2]
  exact ⟨h, fun _ h => (by cases h), fun m h => absurd h (h3 m)⟩

theorem plain_open {v : Str} (hv : Over Spec.Plain v) (r : Str) : v ≠ '"' :: r ∧ v ≠ '\'' :: r := by
  constructor <;> rintro rfl
  · exact (Src.plain_facts (hv.2 _ (by simp))).2.2.2.1 rfl
  · exact (Src.plain_facts (hv.2 _ (by simp))).2.2.2.2.1 rfl

/-- what is behind a place, in a text in which other things are in front of it -/
theorem slice_behind {a b r t : Str} {sp : Span} {m : Nat → Nat} (h : SliceOf (b ++ r) (sp.remap m) t)
    (h1 : blen a ≤ sp.start) (h2 : sp.start ≤ sp.stop) (hm : ∀ q, blen a ≤ q → m q = q - blen a + blen b) : SliceOf (a ++ r) sp t := by
  have g := slice_part (a := b) (b := r) (k := sp.start - blen a) (m := sp.stop - blen a) (t := t) (by
    simpa only [Span.remap, hm _ h1, hm _ (Nat.le_trans h1 h2), Nat.add_comm] using h)
  have g2 := slice_whole (a := a) g
  rwa [Nat.add_sub_cancel' h1, Nat.add_sub_cancel' (by omega)] at g2

/-- C104: The default of an `ARG` is set, replaced or taken away, by splicing.  `y` is the text of the instruction up to the end of
the name. -/
theorem C104_default {unq : Unquote} {x y t z : Str} {d : Dockerfile} {pre post : List Instruction} {a : ArgInstruction}
    (h : Dockerfile.parse unq (x ++ (y ++ t ++ z)) = .ok d) (e : d.instructions = pre ++ .arg a :: post)
    (h1 : a.span.start = blen x) (h2 : a.span.stop = blen (x ++ (y ++ t))) (h3 : a.name.span.stop = blen (x ++ y))
    (hs : Settled (x ++ (y ++ t ++ z)) d.instructions) (o : Option Str) (ho : ∀ v, o = some v → Over Spec.Plain v) :
    ((Splicer.ofDockerfile d).splice ⟨a.name.span.stop, a.span.stop⟩ (eqText o)).map Splicer.content =
      some (x ++ (y ++ eqText o ++ z)) ∧
    Yields unq (x ++ (y ++ eqText o ++ z))
      (pre ++ .arg { span := ⟨blen x, blen (x ++ (y ++ eqText o))⟩, name := a.name, value := eqValue (blen (x ++ y)) o } ::
        post.map (·.remap fun q => q - blen (x ++ (y ++ t)) + blen (x ++ (y ++ eqText o)))) := by
  obtain ⟨g1, g2⟩ := default_core h e h1 h2 h3 (settled_item h e h1 h2 hs) o ho
  refine ⟨g1, g2, settled_exchange h e h1 h2 hs ?_⟩
  refine (settled_quotes rfl fun m h => by cases h).2 fun sp hsp t' ht => .inr ?_
  cases o with
  | none => cases hsp
  | some v =>
    rw [show sp = ⟨blen (x ++ y) + 1, blen (x ++ y) + 1 + blen v⟩ from List.mem_singleton.1 hsp] at ht
    rw [slice_unique ht (w := v) ⟨x ++ (y ++ ['=']), z, by simp [eqText], by
      simp only [blen_append, blen]; show _ = _ + (_ + 1); omega, by simp only [blen_append, blen]; show _ = _ + (_ + 1) + _; omega⟩]
    exact plain_open (ho v rfl)

/-- C104: A flag is put into a `FROM`, in front of the others, by splicing it in behind the keyword. -/
theorem C104_flag_from {unq : Unquote} {x y t z : Str} {d : Dockerfile} {pre post : List Instruction} {f : FromInstruction}
    (h : Dockerfile.parse unq (x ++ (y ++ t ++ z)) = .ok d) (e : d.instructions = pre ++ .from f :: post)
    (h1 : f.span.start = blen x) (h2 : f.span.stop = blen (x ++ (y ++ t))) (h3 : blen y = 4) (hs : Settled (x ++ (y ++ t ++ z)) d.instructions)
    {n v : Str} (hn : Over IsAlpha n) (hv : Over Spec.Plain v) :
    ((Splicer.ofDockerfile d).splice ⟨f.span.start + 4, f.span.start + 4⟩ (flagText n v)).map Splicer.content =
      some (x ++ (y ++ flagText n v ++ t ++ z)) ∧
    Yields unq (x ++ (y ++ flagText n v ++ t ++ z))
      (pre ++ .from { f with
          span := ⟨blen x, blen (x ++ (y ++ flagText n v ++ t))⟩
          flags := flagAt (blen (x ++ y)) n v :: f.flags.map (·.remap (· + blen (flagText n v)))
          image := f.image.remap (· + blen (flagText n v))
          alias := f.alias.map (·.remap (· + blen (flagText n v))) } ::
        post.map (·.remap fun q => q - blen (x ++ (y ++ t)) + blen (x ++ (y ++ flagText n v ++ t)))) := by
  obtain ⟨g1, g2⟩ := flag_from_core h e h1 h2 h3 (settled_item h e h1 h2 hs) hn hv
  refine ⟨g1, g2, settled_exchange h e h1 h2 hs ?_⟩
  exact settled_none rfl rfl fun m h => by cases h

/-- C104: A flag is put into a `COPY`, in front of the others, by splicing it in behind the keyword. -/
theorem C104_flag_copy {unq : Unquote} {x y t z : Str} {d : Dockerfile} {pre post : List Instruction} {f : CopyInstruction}
    (h : Dockerfile.parse unq (x ++ (y ++ t ++ z)) = .ok d) (e : d.instructions = pre ++ .copy f :: post)
    (h1 : f.span.start = blen x) (h2 : f.span.stop = blen (x ++ (y ++ t))) (h3 : blen y = 4) (hs : Settled (x ++ (y ++ t ++ z)) d.instructions)
    {n v : Str} (hn : Over IsAlpha n) (hv : Over Spec.Plain v) :
    ((Splicer.ofDockerfile d).splice ⟨f.span.start + 4, f.span.start + 4⟩ (flagText n v)).map Splicer.content =
      some (x ++ (y ++ flagText n v ++ t ++ z)) ∧
    Yields unq (x ++ (y ++ flagText n v ++ t ++ z))
      (pre ++ .copy {
          span := ⟨blen x, blen (x ++ (y ++ flagText n v ++ t))⟩
          flags := flagAt (blen (x ++ y)) n v :: f.flags.map (·.remap (· + blen (flagText n v)))
          sources := f.sources.map (·.remap (· + blen (flagText n v)))
          destination := f.destination.remap (· + blen (flagText n v)) } ::
        post.map (·.remap fun q => q - blen (x ++ (y ++ t)) + blen (x ++ (y ++ flagText n v ++ t)))) := by
  obtain ⟨g1, g2⟩ := flag_copy_core h e h1 h2 h3 (settled_item h e h1 h2 hs) hn hv
  refine ⟨g1, g2, settled_exchange h e h1 h2 hs ?_⟩
  exact settled_none rfl rfl fun m h => by cases h

/-- C104: A flag is taken out of a `FROM`, with the space in front of it. -/
theorem C104_unflag_from {unq : Unquote} {x y s t z : Str} {d : Dockerfile} {pre post : List Instruction} {f : FromInstruction}
    (h : Dockerfile.parse unq (x ++ (y ++ s ++ t ++ z)) = .ok d) (e : d.instructions = pre ++ .from f :: post)
    (h1 : f.span.start = blen x) (h2 : f.span.stop = blen (x ++ (y ++ s ++ t))) {A C : List Flag} {b : Flag}
    (hf : f.flags = A ++ b :: C) (h3 : flagStart (blen x) A = blen (x ++ y)) (h4 : b.span.stop = blen (x ++ (y ++ s)))
    (hs : Settled (x ++ (y ++ s ++ t ++ z)) d.instructions) :
    ((Splicer.ofDockerfile d).splice ⟨flagStart (blen x) A, b.span.stop⟩ []).map Splicer.content =
      some (x ++ (y ++ t ++ z)) ∧
    Yields unq (x ++ (y ++ t ++ z))
      (pre ++ .from { f with
          span := ⟨blen x, blen (x ++ (y ++ t))⟩
          flags := A ++ C.map (·.remap (· - blen s))
          image := f.image.remap (· - blen s)
          alias := f.alias.map (·.remap (· - blen s)) } ::
        post.map (·.remap fun q => q - blen (x ++ (y ++ s ++ t)) + blen (x ++ (y ++ t)))) := by
  obtain ⟨g1, g2⟩ := unflag_from_core h e h1 h2 hf h3 h4 (settled_item h e h1 h2 hs)
  refine ⟨g1, g2, settled_exchange h e h1 h2 hs ?_⟩
  exact settled_none rfl rfl fun m h => by cases h

/-- C104: A flag is taken out of a `COPY`, with the space in front of it. -/
theorem C104_unflag_copy {unq : Unquote} {x y s t z : Str} {d : Dockerfile} {pre post : List Instruction} {f : CopyInstruction}
    (h : Dockerfile.parse unq (x ++ (y ++ s ++ t ++ z)) = .ok d) (e : d.instructions = pre ++ .copy f :: post)
    (h1 : f.span.start = blen x) (h2 : f.span.stop = blen (x ++ (y ++ s ++ t))) {A C : List Flag} {b : Flag}
    (hf : f.flags = A ++ b :: C) (h3 : flagStart (blen x) A = blen (x ++ y)) (h4 : b.span.stop = blen (x ++ (y ++ s)))
    (hs : Settled (x ++ (y ++ s ++ t ++ z)) d.instructions) :
    ((Splicer.ofDockerfile d).splice ⟨flagStart (blen x) A, b.span.stop⟩ []).map Splicer.content =
      some (x ++ (y ++ t ++ z)) ∧
    Yields unq (x ++ (y ++ t ++ z))
      (pre ++ .copy {
          span := ⟨blen x, blen (x ++ (y ++ t))⟩
          flags := A ++ C.map (·.remap (· - blen s))
          sources := f.sources.map (·.remap (· - blen s))
          destination := f.destination.remap (· - blen s) } ::
        post.map (·.remap fun q => q - blen (x ++ (y ++ s ++ t)) + blen (x ++ (y ++ t)))) := by
  obtain ⟨g1, g2⟩ := unflag_copy_core h e h1 h2 hf h3 h4 (settled_item h e h1 h2 hs)
  refine ⟨g1, g2, settled_exchange h e h1 h2 hs ?_⟩
  exact settled_none rfl rfl fun m h => by cases h

/-- the source of the vars of an `ENV` of the form with equals signs -/
theorem env_source {unq : Unquote} {x u z : Str} {pre post : List Instruction} {f : EnvInstruction}
    (hx : Exchanges unq x u z pre post (.env f))
    (hp : (∃ w ∈ f.vars, ∃ a b, u = a ++ '=' :: b ∧ w.key.span.stop = blen (x ++ a)) ∨ f.vars.length ≠ 1) :
    ∃ kw ps tr r, blen kw = 3 ∧ u = kw ++ (Src.pairsText ps ++ tr) ∧ (Src.Item.env kw ps tr).Fits r ∧
      Src.evalPairs (Src.Pair.evalEnv unq) (blen x + 3) ps = .ok f.vars ∧
      ∀ (t : Src.Item) (y1 : Instruction), (Mild u → Mild t.text) →
        (∀ g b, Blanks g → Src.Eol b → (Src.Item.env kw ps tr).Fits (g ++ b) → t.Fits (g ++ b)) → t.eval unq (blen x) = .ok (some y1) →
        Dockerfile.parse unq (x ++ (t.text ++ z)) = .ok (documentOf (x ++ (t.text ++ z))
          (pre ++ y1 :: post.map (·.remap fun q => q - blen (x ++ u) + blen (x ++ t.text)))) := by
  obtain ⟨it, y0, m, eu, hy, hnum, ⟨r, hr⟩, key⟩ := hx
  obtain rfl := numbered_other hnum (fun f h => by cases h)
  obtain ⟨-, ⟨kw, ps, tr, rfl, q1⟩ | ⟨kw, g, k, g', u', k1, k2, k3, k4⟩⟩ := Src.item_env hy
  · have hkw : blen kw = 3 := Src.kw_len hr.1 rfl
    exact ⟨kw, ps, tr, r, hkw, eu, hr, by rw [← hkw]; exact q1, key⟩
  · rcases hp with ⟨w, hw, a, b, e1, e2⟩ | hp
    · rw [k3 w hw, blen_append x] at e2
      rw [eu, k1] at e1
      obtain ⟨-, e3⟩ := append_inj_blen (a := kw ++ (g ++ k)) (b := g' ++ u') (c := a) (d := '=' :: b) (by rw [← e1]; simp) (by omega)
      exact (Src.gap_noEq (k2 r hr) u' e3).elim
    · exact absurd k4 hp

/-- the source of the labels of a `LABEL` of the form with equals signs -/
theorem label_source {unq : Unquote} {x u z : Str} {pre post : List Instruction} {f : LabelInstruction}
    (hx : Exchanges unq x u z pre post (.label f))
    (hp : (∃ w ∈ f.labels, ∃ a b, u = a ++ '=' :: b ∧ w.name.span.stop = blen (x ++ a)) ∨ f.labels.length ≠ 1) :
    ∃ kw ps tr r, blen kw = 5 ∧ u = kw ++ (Src.pairsText ps ++ tr) ∧ (Src.Item.label kw ps tr).Fits r ∧
      Src.evalPairs (Src.Pair.evalLabel unq) (blen x + 5) ps = .ok f.labels ∧
      ∀ (t : Src.Item) (y1 : Instruction), (Mild u → Mild t.text) →
        (∀ g b, Blanks g → Src.Eol b → (Src.Item.label kw ps tr).Fits (g ++ b) → t.Fits (g ++ b)) → t.eval unq (blen x) = .ok (some y1) →
        Dockerfile.parse unq (x ++ (t.text ++ z)) = .ok (documentOf (x ++ (t.text ++ z))
          (pre ++ y1 :: post.map (·.remap fun q => q - blen (x ++ u) + blen (x ++ t.text)))) := by
  obtain ⟨it, y0, m, eu, hy, hnum, ⟨r, hr⟩, key⟩ := hx
  obtain rfl := numbered_other hnum (fun f h => by cases h)
  obtain ⟨-, ⟨kw, ps, tr, rfl, q1⟩ | ⟨kw, g, k, g', u', k1, k2, k3, k4⟩⟩ := Src.item_label hy
  · have hkw : blen kw = 5 := Src.kw_len hr.1 rfl
    exact ⟨kw, ps, tr, r, hkw, eu, hr, by rw [← hkw]; exact q1, key⟩
  · rcases hp with ⟨w, hw, a, b, e1, e2⟩ | hp
    · rw [k3 w hw, blen_append x] at e2
      rw [eu, k1] at e1
      obtain ⟨-, e3⟩ := append_inj_blen (a := kw ++ (g ++ k)) (b := g' ++ u') (c := a) (d := '=' :: b) (by rw [← e1]; simp) (by omega)
      exact (Src.gap_noEq (k2 r hr) u' e3).elim
    · exact absurd k4 hp

/-- C104: A variable is put into an `ENV` of the form with equals signs, in front of the others, by splicing it in behind the keyword. -/
theorem C104_pair_env {unq : Unquote} {x y t z : Str} {d : Dockerfile} {pre post : List Instruction} {f : EnvInstruction}
    (h : Dockerfile.parse unq (x ++ (y ++ t ++ z)) = .ok d) (e : d.instructions = pre ++ .env f :: post)
    (h1 : f.span.start = blen x) (h2 : f.span.stop = blen (x ++ (y ++ t))) (h3 : blen y = 3) (hs : Settled (x ++ (y ++ t ++ z)) d.instructions)
    (hp : ∃ w ∈ f.vars, ∃ a b, y ++ t = a ++ '=' :: b ∧ w.key.span.stop = blen (x ++ a))
    {n v : Str} (hn : Over IsWord n) (hv : Over Spec.Plain v) :
    ((Splicer.ofDockerfile d).splice ⟨f.span.start + 3, f.span.start + 3⟩ (pairText n v)).map Splicer.content =
      some (x ++ (y ++ pairText n v ++ t ++ z)) ∧
    Yields unq (x ++ (y ++ pairText n v ++ t ++ z))
      (pre ++ .env {
          span := ⟨blen x, blen (x ++ (y ++ pairText n v ++ t))⟩
          vars := envAt (blen (x ++ y)) n v :: f.vars.map (·.remap (· + blen (pairText n v))) } ::
        post.map (·.remap fun q => q - blen (x ++ (y ++ t)) + blen (x ++ (y ++ pairText n v ++ t)))) := by
  obtain ⟨g1, g2⟩ := pair_env_core h e h1 h2 h3 (settled_item h e h1 h2 hs) hp hn hv
  refine ⟨g1, g2, settled_exchange h e h1 h2 hs ?_⟩
  refine (settled_quotes rfl fun m h => by cases h).2 fun sp hsp t' ht => ?_
  rcases List.mem_cons.1 hsp with rfl | hsp
  · right
    rw [slice_unique ht (w := v) ⟨x ++ (y ++ (' ' :: n ++ ['='])), t ++ z, by simp [pairText], by
      simp only [envAt, blen_append, blen]; show _ = _ + (_ + (1 + _ + 1)); omega, by
      simp only [envAt, pairText, blen_append, blen_cons, blen]; omega⟩]
    exact plain_open hv
  · rw [List.map_map] at hsp
    obtain ⟨w, hw, rfl⟩ := List.mem_map.1 hsp
    obtain ⟨kw, ps, tr, r, hkw, -, -, q1, -⟩ := env_source (settled_item h e h1 h2 hs) (.inl hp)
    have b := Src.evalPairs_in (qs := fun w => [w.value.span]) (fun p f x h => (Src.env_place p f x h).2) q1 w hw w.value.span (by simp)
    rw [e, ← List.singleton_append, settled_append, settled_append] at hs
    refine (settled_quotes rfl fun m h => by cases h).1 hs.2.1 w.value.span (List.mem_map.2 ⟨w, hw, rfl⟩) t' ?_
    have := slice_behind (a := x ++ y) (b := x ++ (y ++ pairText n v)) (r := t ++ z) (sp := w.value.span) (t := t')
      (m := (· + blen (pairText n v))) (by simpa [EnvVar.remap, BreakableString.remap] using ht) (by rw [blen_append, h3]; exact b.1) b.2.1
      (fun q hq => by simp only [blen_append] at hq ⊢; omega)
    simpa using this

/-- C104: A label is put into a `LABEL` of the form with equals signs, in front of the others, by splicing it in behind the keyword. -/
theorem C104_pair_label {unq : Unquote} {x y t z : Str} {d : Dockerfile} {pre post : List Instruction} {f : LabelInstruction}
    (h : Dockerfile.parse unq (x ++ (y ++ t ++ z)) = .ok d) (e : d.instructions = pre ++ .label f :: post)
    (h1 : f.span.start = blen x) (h2 : f.span.stop = blen (x ++ (y ++ t))) (h3 : blen y = 5) (hs : Settled (x ++ (y ++ t ++ z)) d.instructions)
    (hp : ∃ w ∈ f.labels, ∃ a b, y ++ t = a ++ '=' :: b ∧ w.name.span.stop = blen (x ++ a))
    {n v : Str} (hn : Over Spec.Plain n) (hv : Over Spec.Plain v) :
    ((Splicer.ofDockerfile d).splice ⟨f.span.start + 5, f.span.start + 5⟩ (pairText n v)).map Splicer.content =
      some (x ++ (y ++ pairText n v ++ t ++ z)) ∧
    Yields unq (x ++ (y ++ pairText n v ++ t ++ z))
      (pre ++ .label {
          span := ⟨blen x, blen (x ++ (y ++ pairText n v ++ t))⟩
          labels := labelAt (blen (x ++ y)) n v :: f.labels.map (·.remap (· + blen (pairText n v))) } ::
        post.map (·.remap fun q => q - blen (x ++ (y ++ t)) + blen (x ++ (y ++ pairText n v ++ t)))) := by
  obtain ⟨g1, g2⟩ := pair_label_core h e h1 h2 h3 (settled_item h e h1 h2 hs) hp hn hv
  refine ⟨g1, g2, settled_exchange h e h1 h2 hs ?_⟩
  refine (settled_quotes rfl fun m h => by cases h).2 fun sp hsp t' ht => ?_
  obtain ⟨w, hw, hsp⟩ := List.mem_flatMap.1 hsp
  rcases List.mem_cons.1 hw with rfl | hw
  · right
    simp only [List.mem_cons, List.not_mem_nil, or_false] at hsp
    rcases hsp with rfl | rfl
    · rw [slice_unique ht (w := n) ⟨x ++ (y ++ [' ']), '=' :: v ++ (t ++ z), by simp [pairText], by
        simp only [labelAt, blen_append, blen]; show _ = _ + (_ + 1); omega, by
        simp only [labelAt, blen_append, blen]; show _ = _ + (_ + 1) + _; omega⟩]
      exact plain_open hn
    · rw [slice_unique ht (w := v) ⟨x ++ (y ++ (' ' :: n ++ ['='])), t ++ z, by simp [pairText], by
        simp only [labelAt, blen_append, blen]; show _ = _ + (_ + (1 + _ + 1)); omega, by
        simp only [labelAt, pairText, blen_append, blen_cons, blen]; omega⟩]
      exact plain_open hv
  · obtain ⟨w, hw', rfl⟩ := List.mem_map.1 hw
    obtain ⟨sp', hsp', rfl⟩ : ∃ sp' ∈ [w.name.span, w.value.span], sp = sp'.remap (· + blen (pairText n v)) := by
      simp only [List.mem_cons, List.not_mem_nil, or_false] at hsp
      rcases hsp with rfl | rfl
      · exact ⟨_, by simp, rfl⟩
      · exact ⟨w.value.span, by simp, rfl⟩
    obtain ⟨kw, ps, tr, r, hkw, -, -, q1, -⟩ := label_source (settled_item h e h1 h2 hs) (.inl hp)
    have b := Src.evalPairs_in (qs := fun w => [w.name.span, w.value.span]) (fun p f x h => (Src.label_place p f x h).2) q1 w hw' sp' hsp'
    rw [e, ← List.singleton_append, settled_append, settled_append] at hs
    refine (settled_quotes rfl fun m h => by cases h).1 hs.2.1 sp' (List.mem_flatMap.2 ⟨w, hw', hsp'⟩) t' ?_
    have := slice_behind (a := x ++ y) (b := x ++ (y ++ pairText n v)) (r := t ++ z) (sp := sp') (t := t')
      (m := (· + blen (pairText n v))) (by simpa using ht) (by rw [blen_append, h3]; exact b.1) b.2.1
      (fun q hq => by simp only [blen_append] at hq ⊢; omega)
    simpa using this

/-- C104: A variable is taken out of an `ENV`, with the space in front of it.  There is another one; if there is none behind it, then what is in
front of it does not end with a backslash. -/
theorem C104_unpair_env {unq : Unquote} {x y s t z : Str} {d : Dockerfile} {pre post : List Instruction} {f : EnvInstruction}
    (h : Dockerfile.parse unq (x ++ (y ++ s ++ t ++ z)) = .ok d) (e : d.instructions = pre ++ .env f :: post)
    (h1 : f.span.start = blen x) (h2 : f.span.stop = blen (x ++ (y ++ s ++ t))) {A C : List EnvVar} {b : EnvVar}
    (hf : f.vars = A ++ b :: C) (h3 : varStart (blen x) A = blen (x ++ y)) (h4 : b.span.stop = blen (x ++ (y ++ s)))
    (hs : Settled (x ++ (y ++ s ++ t ++ z)) d.instructions) (hc : C ≠ [] ∨ A ≠ [] ∧ ¬ OpenEnd y) :
    ((Splicer.ofDockerfile d).splice ⟨varStart (blen x) A, b.span.stop⟩ []).map Splicer.content = some (x ++ (y ++ t ++ z)) ∧
    Yields unq (x ++ (y ++ t ++ z))
      (pre ++ .env { span := ⟨blen x, blen (x ++ (y ++ t))⟩, vars := A ++ C.map (·.remap (· - blen s)) } ::
        post.map (·.remap fun q => q - blen (x ++ (y ++ s ++ t)) + blen (x ++ (y ++ t)))) := by
  refine ⟨?_, ?_⟩
  · have hc : d.content = x ++ y ++ s ++ (t ++ z) := by
      rw [show d.content = _ from ((ens_parse unq _).ok_of h).1]; simp
    have := C21_single_splice d.content ⟨varStart (blen x) A, b.span.stop⟩ [] (x ++ y) s (t ++ z) hc
      h3 (by rw [h4]; simp only [blen_append]; omega)
    rw [show Splicer.ofDockerfile d = Splicer.fromStr d.content from rfl, this]
    simp
  obtain ⟨kw, ps, tr, r, hkw, eu, hr, q1, key⟩ := env_source (settled_item h e h1 h2 hs) (.inr (by
    rw [hf]
    rcases hc with hc | ⟨hc, -⟩
    · cases C with
      | nil => exact absurd rfl hc
      | cons c C => simp only [List.length_append, List.length_cons]; omega
    · cases A with
      | nil => exact absurd rfl hc
      | cons c A => simp only [List.length_append, List.length_cons]; omega))
  have hset : Settled (x ++ (y ++ s ++ t ++ z)) [.env f] := by
    rw [e, ← List.singleton_append, settled_append, settled_append] at hs
    exact hs.2.1
  replace hset := (settled_quotes rfl fun m h => by cases h).1 hset
  rw [hf] at q1
  obtain ⟨a, u, c, rfl, k1, k2, k3⟩ := Src.evalPairs_at q1
  have p1 := Src.evalPairs_stop (sp := fun x : EnvVar => x.span) (fun p f x h => (Src.env_place p f x h).1) k1
  have p2 := (Src.env_place _ _ _ k2).1
  rw [varStart, p1] at h3
  rw [Src.pairsText_app, Src.pairsText_cons] at eu
  replace eu : y ++ (s ++ t) = (kw ++ Src.pairsText a) ++ (u.text ++ (Src.pairsText c ++ tr)) := by
    rw [← List.append_assoc, eu]; simp
  obtain ⟨rfl, ev⟩ := append_inj_blen eu (by simp only [blen_append] at h3 ⊢; omega)
  obtain ⟨rfl, rfl⟩ := append_inj_blen ev (by simp only [blen_append] at h4 p2; omega)
  have hstill := Src.evalPairs_still (s := x ++ (kw ++ Src.pairsText a ++ u.text ++ (Src.pairsText c ++ tr) ++ z)) (x := x ++ kw)
    (z := u.text ++ (Src.pairsText c ++ (tr ++ z))) (qs := fun w : EnvVar => [w.value.span]) (ev := Src.Pair.evalEnv unq) (Src.env_still (unq := unq)) (fs := a) (A := A)
    (by simp) (by rw [blen_append, hkw]; exact k1) (Src.pairs_app.1 hr.2.1).1
    (fun w hw sp hsp => hset sp (List.mem_map.2 ⟨w, by rw [hf]; simp [hw], (List.mem_singleton.1 hsp).symm⟩))
  have htext : (Src.Item.env kw (a ++ c) tr).text = kw ++ Src.pairsText a ++ (Src.pairsText c ++ tr) := by
    simp [Src.Item.text, Src.pairsText_app]
  have hac : a ++ c ≠ [] := by
    have l1 := Src.evalPairs_len k1
    have l2 := Src.evalPairs_len k3
    intro h0
    obtain ⟨rfl, rfl⟩ := List.append_eq_nil_iff.1 h0
    rcases hc with hc | ⟨hc, -⟩
    · exact hc (List.length_eq_zero_iff.1 l2)
    · exact hc (List.length_eq_zero_iff.1 l1)
  have hcc : c ≠ [] ∨ ¬ OpenEnd (Src.pairsText a) := by
    rcases hc with hc | ⟨-, hc⟩
    · left
      rintro rfl
      exact hc (List.length_eq_zero_iff.1 (Src.evalPairs_len k3))
    · right
      rintro ⟨b, w, e1, hw⟩
      exact hc ⟨kw ++ b, w, by rw [e1]; simp, hw⟩
  have := key (.env kw (a ++ c) tr) (fun hq => ?_) (fun g' b hg hb hfit => ?_)
    (y1 := .env { span := ⟨blen x, blen (x ++ (kw ++ Src.pairsText a ++ (Src.pairsText c ++ tr)))⟩, vars := A ++ C.map (·.remap (· - blen u.text)) }) ?_
  · rw [htext] at this
    refine ⟨this, settled_exchange h e h1 h2 hs ?_⟩
    refine (settled_quotes rfl fun m h => by cases h).2 fun sp hsp t' ht => ?_
    obtain ⟨w, hw, hsp⟩ : ∃ w ∈ A ++ C.map (·.remap (· - blen u.text)), sp ∈ [w.value.span] := by
      obtain ⟨w, hw, rfl⟩ := List.mem_map.1 hsp
      exact ⟨w, hw, by simp⟩
    rcases List.mem_append.1 hw with hw | hw
    · have b1 := Src.evalPairs_in (qs := fun w : EnvVar => [w.value.span]) (fun p f x h => (Src.env_place p f x h).2) k1 w hw sp hsp
      refine hset sp (List.mem_map.2 ⟨w, by rw [hf]; simp [hw], (List.mem_singleton.1 hsp).symm⟩) t' ?_
      have := slice_front (x := x ++ (kw ++ Src.pairsText a)) (r := Src.pairsText c ++ tr ++ z)
        (r' := u.text ++ (Src.pairsText c ++ tr ++ z)) (sp := sp) (t := t') (by simpa using ht) (by
          rw [blen_append x, blen_append kw, hkw]; omega)
      simpa using this
    · obtain ⟨w, hw', rfl⟩ := List.mem_map.1 hw
      obtain ⟨sp', hsp', rfl⟩ : ∃ sp' ∈ [w.value.span], sp = sp'.remap (· - blen u.text) := by
        exact ⟨w.value.span, by simp, List.mem_singleton.1 hsp⟩

      have b1 := Src.evalPairs_in (qs := fun w : EnvVar => [w.value.span]) (fun p f x h => (Src.env_place p f x h).2) k3 w hw' sp' hsp'
      refine hset sp' (List.mem_map.2 ⟨w, by rw [hf]; simp [hw'], (List.mem_singleton.1 hsp').symm⟩) t' ?_
      have := slice_behind (a := x ++ (kw ++ Src.pairsText a ++ u.text)) (b := x ++ (kw ++ Src.pairsText a)) (r := Src.pairsText c ++ tr ++ z)
        (sp := sp') (t := t') (m := (· - blen u.text)) (by simpa using ht)
        (by simp only [blen_append, hkw]; have := b1.1; omega) b1.2.1
        (fun q hq => by simp only [blen_append] at hq ⊢; omega)
      simpa using this
  · rw [htext]
    have hun : Unquoted (kw ++ Src.pairsText a) := fun c hc => hq.1 c (by
      rw [List.append_assoc, List.mem_append]; exact .inl hc)
    by_cases h0 : Src.pairsText c ++ tr = []
    · have hc0 : c = [] := by
        cases c with
        | nil => rfl
        | cons g c => simp [Src.pairsText_cons, Src.Pair.text, Src.Pair.body] at h0
      have ho : ¬ OpenEnd (kw ++ Src.pairsText a) := by
        rcases hc with hc | ⟨-, hc⟩
        · subst hc0
          exact absurd (List.length_eq_zero_iff.1 (Src.evalPairs_len k3)) hc
        · exact hc
      rw [h0, List.append_nil]
      refine ⟨hun, fun hl => ?_⟩
      obtain ⟨b, hb⟩ := List.getLast?_eq_some_iff.1 hl
      exact ho ⟨b, [], hb, fun _ h => by cases h⟩
    · exact Src.mild_tail hq h0 hun
  · obtain ⟨f1, f2, f3, f4, f5⟩ := hfit
    exact ⟨f1, Src.pairs_without Src.env_shifts f2 hstill f3 f5 hcc, f3, .inl hac, f5⟩
  · have q3 := Src.pairs_move (m := (· - blen u.text)) (Src.env_move unq) c (p := blen x + 3 + blen (Src.pairsText a) + blen u.text)
      (p' := blen x + 3 + blen (Src.pairsText a)) (by intro k _; simp only []; omega)
    rw [k3] at q3
    simp only [Src.Item.eval, hkw, Src.evalPairs_join k1 q3, ok_bind]
    refine congrArg (fun i => Except.ok (some (Instruction.env i))) ?_
    rw [htext, blen_append x]

/-- C104: A label is taken out of a `LABEL`, with the space in front of it.  There is another one; if there is none behind it, then what is in
front of it does not end with a backslash. -/
theorem C104_unpair_label {unq : Unquote} {x y s t z : Str} {d : Dockerfile} {pre post : List Instruction} {f : LabelInstruction}
    (h : Dockerfile.parse unq (x ++ (y ++ s ++ t ++ z)) = .ok d) (e : d.instructions = pre ++ .label f :: post)
    (h1 : f.span.start = blen x) (h2 : f.span.stop = blen (x ++ (y ++ s ++ t))) {A C : List Label} {b : Label}
    (hf : f.labels = A ++ b :: C) (h3 : labelStart (blen x) A = blen (x ++ y)) (h4 : b.span.stop = blen (x ++ (y ++ s)))
    (hs : Settled (x ++ (y ++ s ++ t ++ z)) d.instructions) (hc : C ≠ [] ∨ A ≠ [] ∧ ¬ OpenEnd y) :
    ((Splicer.ofDockerfile d).splice ⟨labelStart (blen x) A, b.span.stop⟩ []).map Splicer.content = some (x ++ (y ++ t ++ z)) ∧
    Yields unq (x ++ (y ++ t ++ z))
      (pre ++ .label { span := ⟨blen x, blen (x ++ (y ++ t))⟩, labels := A ++ C.map (·.remap (· - blen s)) } ::
        post.map (·.remap fun q => q - blen (x ++ (y ++ s ++ t)) + blen (x ++ (y ++ t)))) := by
  refine ⟨?_, ?_⟩
  · have hc : d.content = x ++ y ++ s ++ (t ++ z) := by
      rw [show d.content = _ from ((ens_parse unq _).ok_of h).1]; simp
    have := C21_single_splice d.content ⟨labelStart (blen x) A, b.span.stop⟩ [] (x ++ y) s (t ++ z) hc
      h3 (by rw [h4]; simp only [blen_append]; omega)
    rw [show Splicer.ofDockerfile d = Splicer.fromStr d.content from rfl, this]
    simp
  obtain ⟨kw, ps, tr, r, hkw, eu, hr, q1, key⟩ := label_source (settled_item h e h1 h2 hs) (.inr (by
    rw [hf]
    rcases hc with hc | ⟨hc, -⟩
    · cases C with
      | nil => exact absurd rfl hc
      | cons c C => simp only [List.length_append, List.length_cons]; omega
    · cases A with
      | nil => exact absurd rfl hc
      | cons c A => simp only [List.length_append, List.length_cons]; omega))
  have hset : Settled (x ++ (y ++ s ++ t ++ z)) [.label f] := by
    rw [e, ← List.singleton_append, settled_append, settled_append] at hs
    exact hs.2.1
  replace hset := (settled_quotes rfl fun m h => by cases h).1 hset
  rw [hf] at q1
  obtain ⟨a, u, c, rfl, k1, k2, k3⟩ := Src.evalPairs_at q1
  have p1 := Src.evalPairs_stop (sp := fun x : Label => x.span) (fun p f x h => (Src.label_place p f x h).1) k1
  have p2 := (Src.label_place _ _ _ k2).1
  rw [labelStart, p1] at h3
  rw [Src.pairsText_app, Src.pairsText_cons] at eu
  replace eu : y ++ (s ++ t) = (kw ++ Src.pairsText a) ++ (u.text ++ (Src.pairsText c ++ tr)) := by
    rw [← List.append_assoc, eu]; simp
  obtain ⟨rfl, ev⟩ := append_inj_blen eu (by simp only [blen_append] at h3 ⊢; omega)
  obtain ⟨rfl, rfl⟩ := append_inj_blen ev (by simp only [blen_append] at h4 p2; omega)
  have hstill := Src.evalPairs_still (s := x ++ (kw ++ Src.pairsText a ++ u.text ++ (Src.pairsText c ++ tr) ++ z)) (x := x ++ kw)
    (z := u.text ++ (Src.pairsText c ++ (tr ++ z))) (qs := fun w : Label => [w.name.span, w.value.span]) (ev := Src.Pair.evalLabel unq) (Src.label_still (unq := unq)) (fs := a) (A := A)
    (by simp) (by rw [blen_append, hkw]; exact k1) (Src.pairs_app.1 hr.2.1).1
    (fun w hw sp hsp => hset sp (List.mem_flatMap.2 ⟨w, by rw [hf]; simp [hw], hsp⟩))
  have htext : (Src.Item.label kw (a ++ c) tr).text = kw ++ Src.pairsText a ++ (Src.pairsText c ++ tr) := by
    simp [Src.Item.text, Src.pairsText_app]
  have hac : a ++ c ≠ [] := by
    have l1 := Src.evalPairs_len k1
    have l2 := Src.evalPairs_len k3
    intro h0
    obtain ⟨rfl, rfl⟩ := List.append_eq_nil_iff.1 h0
    rcases hc with hc | ⟨hc, -⟩
    · exact hc (List.length_eq_zero_iff.1 l2)
    · exact hc (List.length_eq_zero_iff.1 l1)
  have hcc : c ≠ [] ∨ ¬ OpenEnd (Src.pairsText a) := by
    rcases hc with hc | ⟨-, hc⟩
    · left
      rintro rfl
      exact hc (List.length_eq_zero_iff.1 (Src.evalPairs_len k3))
    · right
      rintro ⟨b, w, e1, hw⟩
      exact hc ⟨kw ++ b, w, by rw [e1]; simp, hw⟩
  have := key (.label kw (a ++ c) tr) (fun hq => ?_) (fun g' b hg hb hfit => ?_)
    (y1 := .label { span := ⟨blen x, blen (x ++ (kw ++ Src.pairsText a ++ (Src.pairsText c ++ tr)))⟩, labels := A ++ C.map (·.remap (· - blen u.text)) }) ?_
  · rw [htext] at this
    refine ⟨this, settled_exchange h e h1 h2 hs ?_⟩
    refine (settled_quotes rfl fun m h => by cases h).2 fun sp hsp t' ht => ?_
    obtain ⟨w, hw, hsp⟩ := List.mem_flatMap.1 hsp
    rcases List.mem_append.1 hw with hw | hw
    · have b1 := Src.evalPairs_in (qs := fun w : Label => [w.name.span, w.value.span]) (fun p f x h => (Src.label_place p f x h).2) k1 w hw sp hsp
      refine hset sp (List.mem_flatMap.2 ⟨w, by rw [hf]; simp [hw], hsp⟩) t' ?_
      have := slice_front (x := x ++ (kw ++ Src.pairsText a)) (r := Src.pairsText c ++ tr ++ z)
        (r' := u.text ++ (Src.pairsText c ++ tr ++ z)) (sp := sp) (t := t') (by simpa using ht) (by
          rw [blen_append x, blen_append kw, hkw]; omega)
      simpa using this
    · obtain ⟨w, hw', rfl⟩ := List.mem_map.1 hw
      obtain ⟨sp', hsp', rfl⟩ : ∃ sp' ∈ [w.name.span, w.value.span], sp = sp'.remap (· - blen u.text) := by
        simp only [List.mem_cons, List.not_mem_nil, or_false] at hsp
        rcases hsp with rfl | rfl
        · exact ⟨w.name.span, by simp, rfl⟩
        · exact ⟨w.value.span, by simp, rfl⟩

      have b1 := Src.evalPairs_in (qs := fun w : Label => [w.name.span, w.value.span]) (fun p f x h => (Src.label_place p f x h).2) k3 w hw' sp' hsp'
      refine hset sp' (List.mem_flatMap.2 ⟨w, by rw [hf]; simp [hw'], hsp'⟩) t' ?_
      have := slice_behind (a := x ++ (kw ++ Src.pairsText a ++ u.text)) (b := x ++ (kw ++ Src.pairsText a)) (r := Src.pairsText c ++ tr ++ z)
        (sp := sp') (t := t') (m := (· - blen u.text)) (by simpa using ht)
        (by simp only [blen_append, hkw]; have := b1.1; omega) b1.2.1
        (fun q hq => by simp only [blen_append] at hq ⊢; omega)
      simpa using this
  · rw [htext]
    have hun : Unquoted (kw ++ Src.pairsText a) := fun c hc => hq.1 c (by
      rw [List.append_assoc, List.mem_append]; exact .inl hc)
    by_cases h0 : Src.pairsText c ++ tr = []
    · have hc0 : c = [] := by
        cases c with
        | nil => rfl
        | cons g c => simp [Src.pairsText_cons, Src.Pair.text, Src.Pair.body] at h0
      have ho : ¬ OpenEnd (kw ++ Src.pairsText a) := by
        rcases hc with hc | ⟨-, hc⟩
        · subst hc0
          exact absurd (List.length_eq_zero_iff.1 (Src.evalPairs_len k3)) hc
        · exact hc
      rw [h0, List.append_nil]
      refine ⟨hun, fun hl => ?_⟩
      obtain ⟨b, hb⟩ := List.getLast?_eq_some_iff.1 hl
      exact ho ⟨b, [], hb, fun _ h => by cases h⟩
    · exact Src.mild_tail hq h0 hun
  · obtain ⟨f1, f2, f3, f4, f5⟩ := hfit
    exact ⟨f1, Src.pairs_without Src.label_shifts f2 hstill f3 f5 hcc, f3, .inl hac, f5⟩
  · have q3 := Src.pairs_move (m := (· - blen u.text)) (Src.label_move unq) c (p := blen x + 5 + blen (Src.pairsText a) + blen u.text)
      (p' := blen x + 5 + blen (Src.pairsText a)) (by intro k _; simp only []; omega)
    rw [k3] at q3
    simp only [Src.Item.eval, hkw, Src.evalPairs_join k1 q3, ok_bind]
    refine congrArg (fun i => Except.ok (some (Instruction.label i))) ?_
    rw [htext, blen_append x]

/-! ## samples -/

theorem sample_settled {s : Str} {d : Dockerfile} (h : Dockerfile.parse Enquote.unquote s = .ok d)
    (hc : (match Dockerfile.parse Enquote.unquote s with | .ok d => settledCheck s d.instructions | .error _ => false) = true) :
    Settled s d.instructions := by
  rw [h] at hc
  exact settled_check hc

/-- The default of an `ARG` was in quotes. -/
example (o : Option Str) (ho : ∀ b, o = some b → b = c!"1.2") : ∃ is, Yields Enquote.unquote
      (c!"USER c\nENV v='w'\n" ++ (c!"arg \\\n v" ++ eqText o ++ c!" \nFROM f\n")) is := by
  obtain ⟨d, pre, i, post, h, e, h1, h2, h4, -⟩ := placeOK_iff
    (s := c!"USER c\nENV v='w'\n" ++ (c!"arg \\\n v" ++ c!"=\"0 1\"" ++ c!" \nFROM f\n")) (k := 2) (a := 17) (b := 31)
    (Q := fun | .arg f => decide (f.name.span.stop = 25) | _ => false) (R := fun _ => true) (by decide +kernel)
  cases i
  case arg f =>
    exact ⟨_, (C104_default h e h1 h2 (of_decide_eq_true h4) (sample_settled h (by decide +kernel)) o
      (fun b hb => by rw [ho b hb]; exact over_plain (by decide))).2⟩
  all_goals cases h4

/-- A flag is put into a `FROM` and a `COPY` with quotes. -/
example : ∃ is, Yields Enquote.unquote
      (c!"ENV v='w'\n" ++ (c!"from" ++ flagText c!"x" c!"y" ++ c!" \\\n# c\n --a='b' i AS j" ++ c!" \nCMD f\n")) is := by
  obtain ⟨d, pre, i, post, h, e, h1, h2, h4, -⟩ := placeOK_iff
    (s := c!"ENV v='w'\n" ++ (c!"from" ++ c!" \\\n# c\n --a='b' i AS j" ++ c!" \nCMD f\n")) (k := 1) (a := 10) (b := 36)
    (Q := fun | .from f => decide (f.flags.length = 1) | _ => false) (R := fun _ => true) (by decide +kernel)
  cases i
  case «from» f =>
    exact ⟨_, (C104_flag_from h e h1 h2 rfl (sample_settled h (by decide +kernel))
      (n := c!"x") (v := c!"y") ⟨by decide, by unfold IsAlpha; decide⟩ (over_plain (by decide))).2⟩
  all_goals cases h4

example : ∃ is, Yields Enquote.unquote
      (c!"ENV v='w'\n" ++ (c!"COPY" ++ flagText c!"from" c!"y" ++ c!" 'a' \\\n b" ++ c!" \nCMD f\n")) is := by
  obtain ⟨d, pre, i, post, h, e, h1, h2, h4, -⟩ := placeOK_iff
    (s := c!"ENV v='w'\n" ++ (c!"COPY" ++ c!" 'a' \\\n b" ++ c!" \nCMD f\n")) (k := 1) (a := 10) (b := 23)
    (Q := fun | .copy f => decide (f.flags.length = 0) | _ => false) (R := fun _ => true) (by decide +kernel)
  cases i
  case copy f =>
    exact ⟨_, (C104_flag_copy h e h1 h2 rfl (sample_settled h (by decide +kernel))
      (n := c!"from") (v := c!"y") ⟨by decide, by unfold IsAlpha; decide⟩ (over_plain (by decide))).2⟩
  all_goals cases h4

/-- A flag with quotes is taken out of a `FROM`, and of a `COPY`. -/
example : ∃ is, Yields Enquote.unquote
      (c!"USER v\n" ++ (c!"FROM --a=b" ++ c!" \\\n# c\n --e=f i AS j" ++ c!" \nCMD f\n")) is := by
  obtain ⟨d, pre, i, post, h, e, h1, h2, h4, -⟩ := placeOK_iff
    (s := c!"USER v\n" ++ (c!"FROM --a=b" ++ c!"\t--c='d'" ++ c!" \\\n# c\n --e=f i AS j" ++ c!" \nCMD f\n")) (k := 1) (a := 7) (b := 45)
    (Q := fun | .from f => decide (f.flags.map (·.span) = [⟨12, 17⟩, ⟨18, 25⟩, ⟨33, 38⟩]) | _ => false) (R := fun _ => true)
    (by decide +kernel)
  cases i
  case «from» f =>
    obtain ⟨a, l, hf, ha, h4⟩ := List.map_eq_cons_iff.1 (of_decide_eq_true h4)
    obtain ⟨b, l, rfl, hb, h4⟩ := List.map_eq_cons_iff.1 h4
    refine ⟨_, (C104_unflag_from h e h1 h2 (A := [a]) (b := b) (C := l) hf ?_ ?_ (sample_settled h (by decide +kernel))).2⟩
    · simp [flagStart, ha]; decide +kernel
    · rw [hb]; decide +kernel
  all_goals cases h4

example : ∃ is, Yields Enquote.unquote
      (c!"USER v\n" ++ (c!"COPY --a=b" ++ c!" \\\n# c\n --e=f i j" ++ c!" \nCMD f\n")) is := by
  obtain ⟨d, pre, i, post, h, e, h1, h2, h4, -⟩ := placeOK_iff
    (s := c!"USER v\n" ++ (c!"COPY --a=b" ++ c!"\t--c='d'" ++ c!" \\\n# c\n --e=f i j" ++ c!" \nCMD f\n")) (k := 1) (a := 7) (b := 42)
    (Q := fun | .copy f => decide (f.flags.map (·.span) = [⟨12, 17⟩, ⟨18, 25⟩, ⟨33, 38⟩]) | _ => false) (R := fun _ => true)
    (by decide +kernel)
  cases i
  case copy f =>
    obtain ⟨a, l, hf, ha, h4⟩ := List.map_eq_cons_iff.1 (of_decide_eq_true h4)
    obtain ⟨b, l, rfl, hb, h4⟩ := List.map_eq_cons_iff.1 h4
    refine ⟨_, (C104_unflag_copy h e h1 h2 (A := [a]) (b := b) (C := l) hf ?_ ?_ (sample_settled h (by decide +kernel))).2⟩
    · simp [flagStart, ha]; decide +kernel
    · rw [hb]; decide +kernel
  all_goals cases h4

/-- A variable and a label are put in front of others that are in quotes. -/
example : ∃ is, Yields Enquote.unquote
      (c!"USER v\n" ++ (c!"ENV" ++ pairText c!"x" c!"y" ++ c!" \\\n# c\n a='b' c=d " ++ c!"\nCMD f\n")) is := by
  obtain ⟨d, pre, i, post, h, e, h1, h2, h4, -⟩ := placeOK_iff
    (s := c!"USER v\n" ++ (c!"ENV" ++ c!" \\\n# c\n a='b' c=d " ++ c!"\nCMD f\n")) (k := 1) (a := 7) (b := 28)
    (Q := fun | .env f => f.vars.any (fun v => decide (v.key.span.stop = 19)) | _ => false) (R := fun _ => true) (by decide +kernel)
  cases i
  case env f =>
    obtain ⟨v, hv, h5⟩ := List.any_eq_true.1 h4
    exact ⟨_, (C104_pair_env h e h1 h2 rfl (sample_settled h (by decide +kernel))
      ⟨v, hv, c!"ENV \\\n# c\n a", c!"'b' c=d ", by decide, of_decide_eq_true h5⟩
      (n := c!"x") (v := c!"y") ⟨by decide, by unfold IsWord IsAlpha IsDigit; decide⟩ (over_plain (by decide))).2⟩
  all_goals cases h4

example : ∃ is, Yields Enquote.unquote
      (c!"USER v\n" ++ (c!"LABEL" ++ pairText c!"x.y" c!"z" ++ c!" 'a'=\"c d\" " ++ c!"\nCMD f\n")) is := by
  obtain ⟨d, pre, i, post, h, e, h1, h2, h4, -⟩ := placeOK_iff
    (s := c!"USER v\n" ++ (c!"LABEL" ++ c!" 'a'=\"c d\" " ++ c!"\nCMD f\n")) (k := 1) (a := 7) (b := 23)
    (Q := fun | .label f => f.labels.any (fun v => decide (v.name.span.stop = 16)) | _ => false) (R := fun _ => true) (by decide +kernel)
  cases i
  case label f =>
    obtain ⟨v, hv, h5⟩ := List.any_eq_true.1 h4
    exact ⟨_, (C104_pair_label h e h1 h2 rfl (sample_settled h (by decide +kernel))
      ⟨v, hv, c!"LABEL 'a'", c!"\"c d\" ", by decide, of_decide_eq_true h5⟩
      (n := c!"x.y") (v := c!"z") (over_plain (by decide)) (over_plain (by decide))).2⟩
  all_goals cases h4

/-- The last of two variables is taken out, and the first of two labels. -/
example : ∃ is, Yields Enquote.unquote (c!"USER v\n" ++ (c!"ENV a='b c'" ++ c!" " ++ c!"\nCMD f\n")) is := by
  obtain ⟨d, pre, i, post, h, e, h1, h2, h4, -⟩ := placeOK_iff
    (s := c!"USER v\n" ++ (c!"ENV a='b c'" ++ c!" \\\n d=\"e\"" ++ c!" " ++ c!"\nCMD f\n")) (k := 1) (a := 7) (b := 28)
    (Q := fun | .env f => decide (f.vars.map (·.span) = [⟨11, 18⟩, ⟨22, 27⟩]) | _ => false) (R := fun _ => true) (by decide +kernel)
  cases i
  case env f =>
    obtain ⟨a, l, hf, ha, h4⟩ := List.map_eq_cons_iff.1 (of_decide_eq_true h4)
    obtain ⟨b, l, rfl, hb, h4⟩ := List.map_eq_cons_iff.1 h4
    refine ⟨_, (C104_unpair_env h e h1 h2 (A := [a]) (b := b) (C := l) hf ?_ ?_ (sample_settled h (by decide +kernel))
      (.inr ⟨by simp, fun h => Src.Solid.closed (r := c!"ENV a='b c'") ⟨c!"ENV a='b c", '\'', rfl, by decide⟩ ['\n'] (openEnd_iff.2 h)⟩)).2⟩
    · simp [varStart, ha]; decide +kernel
    · rw [hb]; decide +kernel
  all_goals cases h4

example : ∃ is, Yields Enquote.unquote (c!"USER v\n" ++ (c!"LABEL" ++ c!" d=\"e\" " ++ c!"\nCMD f\n")) is := by
  obtain ⟨d, pre, i, post, h, e, h1, h2, h4, -⟩ := placeOK_iff
    (s := c!"USER v\n" ++ (c!"LABEL" ++ c!" a='b c'" ++ c!" d=\"e\" " ++ c!"\nCMD f\n")) (k := 1) (a := 7) (b := 27)
    (Q := fun | .label f => decide (f.labels.map (·.span) = [⟨13, 20⟩, ⟨21, 26⟩]) | _ => false) (R := fun _ => true) (by decide +kernel)
  cases i
  case label f =>
    obtain ⟨a, l, hf, ha, h4⟩ := List.map_eq_cons_iff.1 (of_decide_eq_true h4)
    obtain ⟨b, l', rfl, hb, h4⟩ := List.map_eq_cons_iff.1 h4
    refine ⟨_, (C104_unpair_label h e h1 h2 (A := []) (b := a) (C := b :: l') hf ?_ ?_ (sample_settled h (by decide +kernel))
      (.inl (by simp))).2⟩
    · simp [labelStart]; decide +kernel
    · rw [ha]; decide +kernel
  all_goals cases h4

/-- C104: Why there must be another one, and why what is left must not end with a backslash: otherwise the text is refused. -/
theorem C104_needed :
    (Dockerfile.parse Enquote.unquote c!"ENV a=b\\ c=d\nCMD e\n").toOption.map (·.instructions.length) = some 2 ∧
    (Dockerfile.parse Enquote.unquote c!"ENV a=b\\\nCMD e\n").toOption = none ∧
    (Dockerfile.parse Enquote.unquote c!"LABEL a=b\\ c=d\nCMD e\n").toOption.map (·.instructions.length) = some 2 ∧
    (Dockerfile.parse Enquote.unquote c!"LABEL a=b\\\nCMD e\n").toOption = none ∧
    (Dockerfile.parse Enquote.unquote c!"ENV a=b\nCMD e\n").toOption.map (·.instructions.length) = some 2 ∧
    (Dockerfile.parse Enquote.unquote c!"ENV\nCMD e\n").toOption.map (·.instructions.map fun | .env _ => true | _ => false) = none := by
  decide +kernel

end Verif
