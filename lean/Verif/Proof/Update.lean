import Verif.Proof.SwapItem
import Verif.Proof.Move
import Verif.Proof.Splicer
import Verif.Proof.Relayout
import Verif.Spec.Update

/-!
# Replacing images in the text of a document
-/

namespace Verif
namespace Src
open Spec

/-! ## the lines with new images -/

/-- the item at `p` with the image given by `new` -/
def Item.upd (new : Span → Option Str) (p : Nat) : Item → Item
  | .from kw fs g i a =>
    let q := p + blen kw + blen (flagsText fs) + blen g
    .from kw fs g ((new ⟨q, q + blen i⟩).getD i) a
  | i => i

def Line.upd (new : Span → Option Str) (p : Nat) (l : Line) : Line :=
  { l with item := l.item.upd new (p + blen l.indent) }

/-- the lines behind `p` -/
def docUpd (new : Span → Option Str) : Nat → List (Str × Line) → List (Str × Line)
  | _, [] => []
  | p, (n, m) :: ms => (n, m.upd new (p + blen n)) :: docUpd new (p + blen n + blen m.text) ms

inductive Steps (R : Str → Str → Prop) : Str → Str → Prop
  | refl (x) : Steps R x x
  | tail {x y z} : Steps R x y → R y z → Steps R x z

theorem Steps.trans {R x y z} (h : Steps R x y) (h' : Steps R y z) : Steps R x z := by
  induction h' with
  | refl => exact h
  | tail _ r ih => exact ih.tail r

theorem Steps.map {R S : Str → Str → Prop} {f : Str → Str} (hf : ∀ x y, R x y → S (f x) (f y)) {x y}
    (h : Steps R x y) : Steps S (f x) (f y) := by
  induction h with
  | refl => exact .refl _
  | tail _ r ih => exact ih.tail (hf _ _ r)

theorem Steps.keep {R : Str → Str → Prop} {P : Str → Prop} (hP : ∀ x y, R x y → P x → P y) {x y}
    (h : Steps R x y) (hx : P x) : P y := by
  induction h with
  | refl => exact hx
  | tail _ r ih => exact hP _ _ r ih

theorem getD_img {new : Span → Option Str} (hnew : ∀ sp i, new sp = some i → Img i) {sp i} (hi : Img i) :
    Img ((new sp).getD i) := by
  cases h : new sp with
  | none => exact hi
  | some j => exact hnew sp j h

theorem line_upd {new : Span → Option Str} (hnew : ∀ sp i, new sp = some i → Img i) {l : Line} {r : Str}
    (hl : l.Fits r) (hr : Eol r) (p : Nat) :
    (l.upd new p).Fits r ∧ Steps (Site Lead) (l.text ++ r) ((l.upd new p).text ++ r) := by
  obtain ⟨ind, it, tr⟩ := l
  obtain ⟨h1, h2, h3⟩ := hl
  cases it with
  | «from» kw fs g i a =>
    obtain ⟨h4, h5, h6, h7, h8, h9⟩ := h2
    have hi : Img i := ⟨h7, h8⟩
    have hi' := getD_img hnew (sp := ⟨p + blen ind + blen kw + blen (flagsText fs) + blen g,
      p + blen ind + blen kw + blen (flagsText fs) + blen g + blen i⟩) hi
    have hW := img_w (aliasText a ++ (tr ++ r)) hi hi'
    have hb : WordEnd (aliasText a ++ (tr ++ r)) := by
      cases a with
      | none => exact Rest.wordEnd ⟨tr, r, rfl, h3, hr⟩
      | some a =>
        obtain ⟨h10, -⟩ := h9 a rfl
        have := h10.starts
        refine .inr ?_
        simpa [aliasText, AliasText.text] using this
    refine ⟨⟨h1, ⟨h4, FlagsFit.swap h5 (hW.pre g), Gap.swap h6 hW, hi'.1, hi'.2, h9⟩, h3⟩, ?_⟩
    refine (Steps.refl _).tail ⟨ind, kw, fs, g, i, _, aliasText a ++ (tr ++ r), ?_, ?_,
      ⟨[], ind, rfl, h1, .inl rfl⟩, h4, h5, h6, hi, hi', hb⟩
    · simp [Line.text, Item.text]
    · simp [Line.text, Line.upd, Item.text, Item.upd]
  | _ => exact ⟨⟨h1, h2, h3⟩, .refl _⟩

theorem LineBreak.eol {n t : Str} (h : LineBreak n t) : Eol (n ++ t) := by
  rcases h with rfl | rfl | ⟨rfl, -⟩ <;> intro c b e <;> obtain ⟨rfl, -⟩ := List.cons.inj e
  · exact .inl rfl
  · exact .inr rfl
  · exact .inr rfl

/-- The lines with new images fit. -/
theorem doc_upd {new : Span → Option Str} (hnew : ∀ sp i, new sp = some i → Img i)
    (ms : List (Str × Line)) : ∀ (l : Line) (p : Nat), DocFits l ms →
    DocFits (l.upd new p) (docUpd new (p + blen l.text) ms) ∧
      Steps (Site Lead) (docText l ms) (docText (l.upd new p) (docUpd new (p + blen l.text) ms)) := by
  induction ms with
  | nil =>
    intro l p h
    have := line_upd hnew (r := []) h (fun c b e => by cases e) p
    simpa [DocFits, docText, docUpd] using this
  | cons m ms ih =>
    obtain ⟨n, m⟩ := m
    intro l p h
    obtain ⟨h1, h2, h3⟩ := h
    obtain ⟨h4, h5⟩ := ih m (p + blen l.text + blen n) h3
    have h6 : Steps (Site Broken) (n ++ docText m ms) (n ++ docText (m.upd new (p + blen l.text + blen n))
        (docUpd new (p + blen l.text + blen n + blen m.text) ms)) := by
      refine h5.map (f := (n ++ ·)) fun x y hxy => ?_
      obtain ⟨a, kw, fs, g, i, i', b, e, e', ha, hs⟩ := hxy
      exact ⟨n ++ a, kw, fs, g, i, i', b, by simp [e], by simp [e'], broken h2 ha, hs⟩
    have h7 := h6.keep (P := l.Fits) (fun x y hxy hx => hx.site hxy) h1
    have h8 : LineBreak n _ := h5.keep (P := LineBreak n) (fun x y hxy hx => hxy.w.lineBreak hx) h2
    obtain ⟨h9, h10⟩ := line_upd hnew h7 (LineBreak.eol h8) p
    refine ⟨⟨h9, h8, h4⟩, ?_⟩
    refine Steps.trans (h6.map (f := (l.text ++ ·)) fun x y hxy => hxy.lead l.text) h10

/-! ## the text -/

/-- the spans of the images -/
def Item.sites (p : Nat) : Item → List Span
  | .from kw fs g i _ =>
    let q := p + blen kw + blen (flagsText fs) + blen g
    [⟨q, q + blen i⟩]
  | _ => []

def sites : Nat → Line → List (Str × Line) → List Span
  | p, l, [] => l.item.sites (p + blen l.indent)
  | p, l, (n, m) :: ms => l.item.sites (p + blen l.indent) ++ sites (p + blen l.text + blen n) m ms

theorem sites_ge {sp : Span} (ms : List (Str × Line)) : ∀ (p : Nat) (l : Line), sp ∈ sites p l ms → p ≤ sp.start := by
  have hi : ∀ (p : Nat) (i : Item), sp ∈ i.sites p → p ≤ sp.start := by
    intro p i h
    cases i <;> simp [Item.sites] at h
    subst h
    show _ ≤ p + _ + _ + _
    omega
  induction ms with
  | nil =>
    intro p l h
    have := hi _ _ h
    omega
  | cons m ms ih =>
    intro p l h
    rcases List.mem_append.1 h with h | h
    · have := hi _ _ h
      omega
    · have := ih _ _ h
      omega

theorem item_sites_le {sp : Span} (p : Nat) (i : Item) (h : sp ∈ i.sites p) : sp.stop ≤ p + blen i.text := by
  cases i <;> simp [Item.sites] at h
  subst h
  simp [Item.text]
  omega

/-- bytes inserted and removed in front of `q` -/
def added (es : List Edit) (q : Nat) : Nat := (es.map fun e => if e.1.stop ≤ q then blen e.2 else 0).sum
def removed (es : List Edit) (q : Nat) : Nat :=
  (es.map fun e => if e.1.stop ≤ q then e.1.stop - e.1.start else 0).sum

/-- `p` becomes `p'` -/
def Inv (es : List Edit) (p p' : Nat) : Prop := p' + removed es p = p + added es p

theorem movedTo_of {es : List Edit} {p p'} (h : Inv es p p') : movedTo es p = p' := by
  have : movedTo es p = p + added es p - removed es p := rfl
  rw [this]
  unfold Inv at h
  omega

theorem added_eq {es : List Edit} {p q : Nat} (h : ∀ e ∈ es, e.1.stop ≤ p ↔ e.1.stop ≤ q) :
    added es p = added es q ∧ removed es p = removed es q := by
  constructor
  · unfold added
    congr 1
    refine List.map_congr_left fun e he => ?_
    simp only [h e he]
  · unfold removed
    congr 1
    refine List.map_congr_left fun e he => ?_
    simp only [h e he]

theorem Inv.shift {es : List Edit} {p p' k : Nat} (h : Inv es p p')
    (hk : ∀ e ∈ es, e.1.stop ≤ p ∨ p + k < e.1.stop) : Inv es (p + k) (p' + k) := by
  obtain ⟨h1, h2⟩ := added_eq (es := es) (p := p + k) (q := p) fun e he => by
    have := hk e he; omega
  unfold Inv at h ⊢
  omega

theorem Inv.cast {es : List Edit} {p p' q q'} (h : Inv es p p') (h1 : p = q) (h2 : p' = q') : Inv es q q' := by
  subst h1 h2; exact h

theorem Inv.tr {es : List Edit} {p p' k : Nat} (h : Inv es p p')
    (hk : ∀ e ∈ es, e.1.stop ≤ p ∨ p + k < e.1.stop) : Tr (movedTo es) p p' k := fun j hj =>
  movedTo_of (h.shift fun e he => by have := hk e he; omega)

/-- nonempty and disjoint -/
def Good (es : List Edit) : Prop :=
  (∀ e ∈ es, e.1.start < e.1.stop) ∧ es.Pairwise fun e f => Disjoint e.1 f.1

theorem Good.disjoint {es : List Edit} (h : Good es) {e f} (he : e ∈ es) (hf : f ∈ es) :
    e = f ∨ Disjoint e.1 f.1 := by
  obtain ⟨-, h2⟩ := h
  induction es with
  | nil => cases he
  | cons a es ih =>
    rw [List.pairwise_cons] at h2
    rcases List.mem_cons.1 he with rfl | he
    · rcases List.mem_cons.1 hf with rfl | hf
      · exact .inl rfl
      · exact .inr (h2.1 f hf)
    · rcases List.mem_cons.1 hf with rfl | hf
      · exact .inr (Or.symm (h2.1 e (by assumption)))
      · exact ih he hf h2.2

theorem Good.unique {es : List Edit} (h : Good es) {e f} (he : e ∈ es) (hf : f ∈ es) (hs : e.1 = f.1) :
    e = f := by
  rcases h.disjoint he hf with h1 | h1
  · exact h1
  · have := h.1 e he
    rw [← hs] at h1
    unfold Disjoint at h1
    omega

theorem Inv.edit {es : List Edit} (hg : Good es) {e : Edit} (he : e ∈ es) {q q' k : Nat}
    (hq : e.1 = ⟨q, q + k⟩) (h : Inv es q q') (hk : ∀ f ∈ es, f.1.stop ≤ q ∨ f.1 = e.1 ∨ q + k ≤ f.1.start) :
    Inv es (q + k) (q' + blen e.2) := by
  obtain ⟨A, B, rfl⟩ := List.append_of_mem he
  have hpos : 0 < k := by
    have := hg.1 e he
    rw [hq] at this
    simp only at this
    omega
  have hd := hg.2
  rw [List.pairwise_append] at hd
  have hne : ∀ f, f ∈ A ∨ f ∈ B → f.1 ≠ e.1 := by
    intro f hf e'
    have hp := hg.1 e he
    rcases hf with hf | hf
    · have := hd.2.2 f hf e (by simp)
      rw [e'] at this
      unfold Disjoint at this
      omega
    · have := (List.pairwise_cons.1 hd.2.1).1 f hf
      rw [e'] at this
      unfold Disjoint at this
      omega
  have hiff : ∀ f, f ∈ A ∨ f ∈ B → (f.1.stop ≤ q + k ↔ f.1.stop ≤ q) := by
    intro f hf
    have hm : f ∈ A ++ e :: B := by
      rcases hf with hf | hf <;> simp [hf]
    have h1 := hg.1 f hm
    rcases hk f hm with h2 | h2 | h2
    · omega
    · exact absurd h2 (hne f hf)
    · omega
  obtain ⟨a1, a2⟩ := added_eq (es := A) (p := q + k) (q := q) fun f hf => hiff f (.inl hf)
  obtain ⟨b1, b2⟩ := added_eq (es := B) (p := q + k) (q := q) fun f hf => hiff f (.inr hf)
  have hs : e.1.stop = q + k := by rw [hq]
  have hst : e.1.start = q := by rw [hq]
  have c1 : ∀ r, added (A ++ e :: B) r = added A r + ((if e.1.stop ≤ r then blen e.2 else 0) + added B r) := by
    intro r; simp [added, List.sum_append]
  have c2 : ∀ r, removed (A ++ e :: B) r =
      removed A r + ((if e.1.stop ≤ r then e.1.stop - e.1.start else 0) + removed B r) := by
    intro r; simp [removed, List.sum_append]
  unfold Inv at h ⊢
  rw [c1, c2, a1, a2, b1, b2, if_pos (by omega), if_pos (by omega)]
  rw [c1, c2, if_neg (by omega), if_neg (by omega)] at h
  omega

/-- the images according to a list of edits -/
def newImage (es : List Edit) (sp : Span) : Option Str := (es.find? fun e => e.1 == sp).map (·.2)

theorem newImage_some {es : List Edit} {sp i} (h : newImage es sp = some i) : (sp, i) ∈ es := by
  unfold newImage at h
  cases hf : es.find? fun e => e.1 == sp with
  | none => rw [hf] at h; cases h
  | some e =>
    rw [hf] at h
    cases h
    have h1 := List.find?_some hf
    have h2 := List.mem_of_find?_eq_some hf
    simp only [beq_iff_eq] at h1
    subst h1
    exact h2

theorem newImage_none {es : List Edit} {sp} (h : newImage es sp = none) : ∀ e ∈ es, e.1 ≠ sp := by
  unfold newImage at h
  cases hf : es.find? fun e => e.1 == sp with
  | some e => rw [hf] at h; cases h
  | none =>
    intro e he
    have := List.find?_eq_none.1 hf e he
    simpa using this

theorem newImage_mem {es : List Edit} (hg : Good es) {e} (he : e ∈ es) : newImage es e.1 = some e.2 := by
  cases h : newImage es e.1 with
  | none => exact absurd rfl (newImage_none h e he)
  | some i =>
    have := hg.unique he (newImage_some h) rfl
    rw [this]

/-- the text of an edit -/
theorem simul_inner {es : List Edit} (hg : Good es) {e : Edit} (he : e ∈ es) (i : Str) : ∀ (q : Nat),
    e.1.start < q → q + blen i = e.1.stop → simul es q i = [] := by
  induction i with
  | nil => intros; rfl
  | cons c i ih =>
    intro q h1 h2
    have hc := utf8Size_pos c
    rw [blen_cons] at h2
    rw [simul, ih (q + c.utf8Size) (by omega) (by omega)]
    have hcov : covered es q = true := by
      unfold covered
      rw [List.any_eq_true]
      exact ⟨e, he, by simp; omega⟩
    rw [hcov, inserted_nil_of]
    · rfl
    · intro f hf hfq
      have hp := hg.1 f hf
      rcases hg.disjoint he hf with rfl | hd
      · omega
      · unfold Disjoint at hd
        omega

theorem simul_edit {es : List Edit} (hg : Good es) {e : Edit} (he : e ∈ es) {i : Str} {q : Nat}
    (hq : e.1 = ⟨q, q + blen i⟩) (hi : i ≠ []) : simul es q i = e.2 := by
  cases i with
  | nil => exact absurd rfl hi
  | cons c i =>
    have hc := utf8Size_pos c
    have h1 : e.1.start = q := by rw [hq]
    have h2 : e.1.stop = q + (c.utf8Size + blen i) := by rw [hq]; simp
    rw [simul, simul_inner hg he i _ (by omega) (by omega)]
    have hcov : covered es q = true := by
      unfold covered
      rw [List.any_eq_true]
      exact ⟨e, he, by simp; omega⟩
    have hins : inserted es q = e.2 := by
      unfold inserted
      cases hf : es.find? fun e => e.1.start == q with
      | none =>
        have := List.find?_eq_none.1 hf e he
        simp at this
        omega
      | some f =>
        have h3 := List.find?_some hf
        have h4 := List.mem_of_find?_eq_some hf
        simp only [beq_iff_eq] at h3
        rcases hg.disjoint he h4 with rfl | hd
        · rfl
        · have := hg.1 f h4
          unfold Disjoint at hd
          omega
    rw [hcov, hins]
    simp

/-- Replacing an image, or keeping it. -/
theorem image_step {es : List Edit} (hg : Good es) {i : Str} (hi : i ≠ []) {q q' : Nat} (h : Inv es q q')
    (hk : ∀ f ∈ es, f.1.stop ≤ q ∨ f.1 = ⟨q, q + blen i⟩ ∨ q + blen i ≤ f.1.start) :
    simul es q i = (newImage es ⟨q, q + blen i⟩).getD i ∧
      Inv es (q + blen i) (q' + blen ((newImage es ⟨q, q + blen i⟩).getD i)) := by
  cases hn : newImage es ⟨q, q + blen i⟩ with
  | some j =>
    have he := newImage_some hn
    exact ⟨simul_edit hg he rfl hi, Inv.edit hg he rfl h hk⟩
  | none =>
    have hne := newImage_none hn
    have hk' : ∀ f ∈ es, f.1.stop ≤ q ∨ q + blen i ≤ f.1.start := fun f hf => by
      rcases hk f hf with h | h | h
      · exact .inl h
      · exact absurd h (hne f hf)
      · exact .inr h
    refine ⟨simul_untouched es q i fun e he => ⟨hg.1 e he, hk' e he⟩, h.shift fun e he => ?_⟩
    have := hk' e he
    have := hg.1 e he
    omega

/-- the edits around an item -/
def Around (es : List Edit) (p : Nat) (l : Line) (n : Nat) : Prop :=
  ∀ e ∈ es, e.1.stop ≤ p ∨ e.1 ∈ l.item.sites (p + blen l.indent) ∨ p + blen l.text + n ≤ e.1.start

theorem line_text {es : List Edit} (hg : Good es) {l : Line} {r : Str} (hf : l.Fits r) {p p' : Nat} {n : Str}
    (h : Inv es p p') (hk : Around es p l (blen n)) :
    simul es p (l.text ++ n) = (l.upd (newImage es) p).text ++ n ∧
      Inv es (p + blen l.text + blen n) (p' + blen (l.upd (newImage es) p).text + blen n) := by
  obtain ⟨ind, it, tr⟩ := l
  have hp := hg.1
  have other : Around es p ⟨ind, it, tr⟩ (blen n) → it.sites (p + blen ind) = [] →
      simul es p ((Line.mk ind it tr).text ++ n) = (Line.mk ind it tr).text ++ n ∧
      Inv es (p + blen (Line.mk ind it tr).text + blen n) (p' + blen (Line.mk ind it tr).text + blen n) := by
    intro hk hs
    have hk' : ∀ e ∈ es, e.1.stop ≤ p ∨ p + blen (Line.mk ind it tr).text + blen n ≤ e.1.start := by
      intro e he
      rcases hk e he with h | h | h
      · exact .inl h
      · simp only [hs] at h; cases h
      · exact .inr h
    refine ⟨simul_untouched es p _ fun e he => ⟨hp e he, by have := hk' e he; rw [blen_append]; omega⟩, ?_⟩
    have := h.shift (k := blen (Line.mk ind it tr).text + blen n) fun e he => by
      have := hk' e he; have := hp e he; omega
    simpa only [Nat.add_assoc] using this
  cases it with
  | «from» kw fs g i a =>
    obtain ⟨-, ⟨-, -, -, hi, -⟩, -⟩ := hf
    have ht : blen (Line.mk ind (.from kw fs g i a) tr).text = blen ind + blen kw + blen (flagsText fs) + blen g +
        blen i + (blen (aliasText a) + blen tr) := by
      simp [Line.text, Item.text]; omega
    have hk' : ∀ e ∈ es, e.1.stop ≤ p ∨
        e.1 = ⟨p + blen ind + blen kw + blen (flagsText fs) + blen g,
          p + blen ind + blen kw + blen (flagsText fs) + blen g + blen i⟩ ∨
        p + blen ind + blen kw + blen (flagsText fs) + blen g + blen i + blen (aliasText a) + blen tr + blen n ≤
          e.1.start := by
      intro e he
      rcases hk e he with h | h | h
      · exact .inl h
      · simp only [Item.sites, List.mem_singleton] at h
        exact .inr (.inl h)
      · rw [ht] at h
        exact .inr (.inr (by omega))
    have hipos := blen_pos hi
    have hle : ∀ e ∈ es, e.1 = ⟨p + blen ind + blen kw + blen (flagsText fs) + blen g,
          p + blen ind + blen kw + blen (flagsText fs) + blen g + blen i⟩ →
          e.1.start = p + blen ind + blen kw + blen (flagsText fs) + blen g ∧
          e.1.stop = p + blen ind + blen kw + blen (flagsText fs) + blen g + blen i := by
      intro e _ h; rw [h]; exact ⟨rfl, rfl⟩
    -- up to the image
    have i1 := h.shift (k := blen ind + blen kw + blen (flagsText fs) + blen g) fun e he => by
      have := hp e he
      rcases hk' e he with h | h | h
      · exact .inl h
      · have := hle e he h; omega
      · omega
    have t1 := simul_untouched es p (ind ++ (kw ++ (flagsText fs ++ g))) fun e he => ⟨hp e he, by
      simp only [blen_append]
      rcases hk' e he with h | h | h
      · exact .inl h
      · have := hle e he h; omega
      · omega⟩
    -- the image
    obtain ⟨t2, i2⟩ := image_step hg hi i1 fun e he => by
      have := hp e he
      rcases hk' e he with h | h | h
      · exact .inl (by omega)
      · refine .inr (.inl ?_); rw [h]; congr 1 <;> omega
      · exact .inr (.inr (by omega))
    rw [show p + (blen ind + blen kw + blen (flagsText fs) + blen g) =
      p + blen ind + blen kw + blen (flagsText fs) + blen g by omega] at t2 i2
    -- the rest
    have i3 := i2.shift (k := blen (aliasText a) + blen tr + blen n) fun e he => by
      have := hp e he
      rcases hk' e he with h | h | h
      · omega
      · have := hle e he h; omega
      · omega
    have t3 := simul_untouched es (p + blen ind + blen kw + blen (flagsText fs) + blen g + blen i)
      (aliasText a ++ (tr ++ n)) fun e he => ⟨hp e he, by
      simp only [blen_append]
      rcases hk' e he with h | h | h
      · omega
      · have := hle e he h; omega
      · omega⟩
    constructor
    · have : (Line.mk ind (.from kw fs g i a) tr).text ++ n =
          (ind ++ (kw ++ (flagsText fs ++ g))) ++ (i ++ (aliasText a ++ (tr ++ n))) := by
        simp [Line.text, Item.text]
      rw [this, simul_append, t1, simul_append]
      simp only [blen_append] at *
      rw [show p + (blen ind + (blen kw + (blen (flagsText fs) + blen g))) =
        p + blen ind + blen kw + blen (flagsText fs) + blen g by omega, t2, t3]
      simp [Line.text, Line.upd, Item.text, Item.upd]
    · rw [ht]
      have : blen ((Line.mk ind (.from kw fs g i a) tr).upd (newImage es) p).text =
        blen ind + blen kw + blen (flagsText fs) + blen g +
          blen ((newImage es ⟨p + blen ind + blen kw + blen (flagsText fs) + blen g,
          p + blen ind + blen kw + blen (flagsText fs) + blen g + blen i⟩).getD i) +
            (blen (aliasText a) + blen tr) := by
        simp [Line.text, Line.upd, Item.upd, Item.text]; omega
      rw [this]
      exact i3.cast (by omega) (by omega)
  | _ => exact other hk rfl

/-- how the positions of a `FROM` move -/
theorem from_moves {es : List Edit} (hg : Good es) {kw : Str} {fs : List Flag} {g i : Str}
    {a : Option AliasText} (hi : i ≠ []) {p p' : Nat} (h : Inv es p p')
    (hk : ∀ e ∈ es, e.1.stop ≤ p ∨ e.1 ∈ (Item.from kw fs g i a).sites p ∨
      p + blen (Item.from kw fs g i a).text ≤ e.1.start) :
    Tr (movedTo es) p p' (blen kw + blen (flagsText fs) + blen g) ∧
    Tr (movedTo es) (p + blen kw + blen (flagsText fs) + blen g + blen i)
      (p' + blen kw + blen (flagsText fs) + blen g +
        blen ((newImage es ⟨p + blen kw + blen (flagsText fs) + blen g,
          p + blen kw + blen (flagsText fs) + blen g + blen i⟩).getD i)) (blen (aliasText a)) := by
  have hp := hg.1
  have ht : blen (Item.from kw fs g i a).text = blen kw + blen (flagsText fs) + blen g +
      blen i + blen (aliasText a) := by simp [Item.text]; omega
  rw [ht] at hk
  simp only [Item.sites, List.mem_singleton] at hk
  have hipos := blen_pos hi
  have hle : ∀ e ∈ es, e.1 = ⟨p + blen kw + blen (flagsText fs) + blen g,
        p + blen kw + blen (flagsText fs) + blen g + blen i⟩ →
        e.1.start = p + blen kw + blen (flagsText fs) + blen g ∧
        e.1.stop = p + blen kw + blen (flagsText fs) + blen g + blen i := by
    intro e _ h; rw [h]; exact ⟨rfl, rfl⟩
  have k1 : ∀ e ∈ es, e.1.stop ≤ p ∨ p + (blen kw + blen (flagsText fs) + blen g) < e.1.stop := fun e he => by
    have := hp e he
    rcases hk e he with h | h | h
    · exact .inl h
    · have := hle e he h; omega
    · omega
  have i1 := h.shift k1
  obtain ⟨-, i2⟩ := image_step hg hi i1 fun e he => by
    have := hp e he
    rcases hk e he with h | h | h
    · exact .inl (by omega)
    · refine .inr (.inl ?_); rw [h]; congr 1 <;> omega
    · exact .inr (.inr (by omega))
  rw [show p + (blen kw + blen (flagsText fs) + blen g) =
    p + blen kw + blen (flagsText fs) + blen g by omega] at i2
  refine ⟨h.tr k1, (i2.cast rfl (by omega)).tr fun e he => ?_⟩
  have := hp e he
  rcases hk e he with h | h | h
  · omega
  · have := hle e he h; omega
  · omega

theorem checkDigest_ok {i : Str} : checkDigest i = .ok () ↔ DigestOK (ImageRef.parse i) := by
  unfold checkDigest
  by_cases h : DigestOK (ImageRef.parse i)
  · rw [if_pos h]; exact ⟨fun _ => h, fun _ => rfl⟩
  · rw [if_neg h]; exact ⟨fun h => (by cases h), fun h' => absurd h' h⟩

theorem checkDigest_error {i : Str} (h : ¬ DigestOK (ImageRef.parse i)) :
    checkDigest i = .error (.err (.generic .digestInvalid)) := by
  unfold checkDigest
  rw [if_neg h]

theorem withImage_eq {es : List Edit} {f : FromInstruction} (hf : f.image_parsed = ImageRef.parse f.image.content) :
    withImage es (.from f) = .from { f with
      image := ⟨f.image.span, (newImage es f.image.span).getD f.image.content⟩
      image_parsed := ImageRef.parse ((newImage es f.image.span).getD f.image.content) } := by
  unfold newImage
  simp only [withImage]
  cases es.find? fun e => e.1 == f.image.span with
  | some e => rfl
  | none =>
    obtain ⟨span, flags, ⟨sp, c⟩, ip, ix, al⟩ := f
    simp only at hf
    subst hf
    rfl

theorem eval_from {unq : Unquote} {it : Item} {p : Nat} {f : FromInstruction}
    (h : it.eval unq p = .ok (some (.from f))) :
    f.image.span ∈ it.sites p := by
  cases it
  case «from» kw fs g i a =>
    simp only [Item.eval] at h
    cases hf : evalFlags unq (p + blen kw) fs with
    | error e => rw [hf] at h; cases h
    | ok fl =>
      rw [hf, ok_bind] at h
      cases hd : checkDigest i with
      | error e => rw [hd] at h; cases h
      | ok u => rw [hd] at h; cases h; exact List.mem_singleton.2 rfl
  case shell k kw g s =>
    simp only [Item.eval] at h
    split at h
    · cases h
    · cases k <;> cases h
  case exec k kw g a =>
    simp only [Item.eval] at h
    split at h
    · cases h
    · cases ha : a.eval unq (p + blen kw + blen g) with
      | error e => rw [ha] at h; cases h
      | ok c => rw [ha] at h; cases k <;> cases h
  all_goals
    exfalso
    simp only [Item.eval, bind, Except.bind, pure, Except.pure] at h
    repeat' split at h
    all_goals cases h

/-- The value of an item with a new image. -/
theorem item_value {unq : Unquote} {es : List Edit} (hg : Good es) {it : Item} {r : Str} (hf : it.Fits r)
    {p p' : Nat} (h : Inv es p p')
    (hk : ∀ e ∈ es, e.1.stop ≤ p ∨ e.1 ∈ it.sites p ∨ p + blen it.text ≤ e.1.start) {o}
    (ho : it.eval unq p = .ok o) :
    ((∀ sp ∈ it.sites p, ∀ j, newImage es sp = some j → DigestOK (ImageRef.parse j)) →
      (it.upd (newImage es) p).eval unq p' =
        .ok (o.map fun i => (withImage es i).remap (movedTo es))) ∧
    ((∃ sp ∈ it.sites p, ∃ j, newImage es sp = some j ∧ ¬ DigestOK (ImageRef.parse j)) →
      (it.upd (newImage es) p).eval unq p' = .error (.err (.generic .digestInvalid))) := by
  have other : it.sites p = [] → it.upd (newImage es) p = it →
      (∀ i, o = some i → withImage es i = i) →
      ((it.upd (newImage es) p).eval unq p' =
        .ok (o.map fun i => (withImage es i).remap (movedTo es))) := by
    intro hs hu hi
    rw [hu, item_move unq it (m := movedTo es) (p := p), ho]
    · cases o with
      | none => rfl
      | some i => simp only [Except.map, Option.map_some]; rw [hi i rfl]
    · refine h.tr fun e he => ?_
      have := hg.1 e he
      rcases hk e he with h | h | h
      · exact .inl h
      · rw [hs] at h; cases h
      · omega
  have notfrom : it.sites p = [] → it.upd (newImage es) p = it →
      (∀ i, o = some i → withImage es i = i) → _ := fun hs hu hi =>
    (⟨fun _ => other hs hu hi, fun ⟨sp, hsp, _⟩ => by rw [hs] at hsp; cases hsp⟩ :
    ((∀ sp ∈ it.sites p, ∀ j, newImage es sp = some j → DigestOK (ImageRef.parse j)) →
      (it.upd (newImage es) p).eval unq p' =
        .ok (o.map fun i => (withImage es i).remap (movedTo es))) ∧
    ((∃ sp ∈ it.sites p, ∃ j, newImage es sp = some j ∧ ¬ DigestOK (ImageRef.parse j)) →
      (it.upd (newImage es) p).eval unq p' = .error (.err (.generic .digestInvalid))))
  cases it with
  | «from» kw fs g i a =>
    obtain ⟨-, -, -, hi, -⟩ := hf
    obtain ⟨m1, m2⟩ := from_moves hg hi h hk
    have hfl := flags_move unq fs (m := movedTo es) (p := p + blen kw) (p' := p' + blen kw) (by part m1)
    have ho' : (evalFlags unq (p + blen kw) fs >>= fun flags => checkDigest i >>= fun _ => _) = Except.ok o := ho
    cases hfe : evalFlags unq (p + blen kw) fs with
    | error e => rw [hfe] at ho'; cases ho'
    | ok fl =>
      rw [hfe, ok_bind] at ho'
      cases hd : checkDigest i with
      | error e => rw [hd] at ho'; cases ho'
      | ok u =>
        rw [hd, ok_bind] at ho'
        cases ho'
        rw [hfe] at hfl
        simp only [Item.sites, List.mem_singleton, forall_eq, exists_eq_left]
        generalize hsp : newImage es ⟨p + blen kw + blen (flagsText fs) + blen g,
          p + blen kw + blen (flagsText fs) + blen g + blen i⟩ = ni at m2 ⊢
        constructor
        · intro hdig
          have hd' : checkDigest (ni.getD i) = .ok () := by
            cases ni with
            | none => exact hd
            | some j => exact checkDigest_ok.2 (hdig j rfl)
          have hu : (Item.from kw fs g i a).upd (newImage es) p = .from kw fs g (ni.getD i) a := by
            simp only [Item.upd, hsp]
          rw [hu]
          show (evalFlags unq (p' + blen kw) fs >>= fun flags => checkDigest (ni.getD i) >>= fun _ => _) = _
          rw [hfl]
          show (checkDigest (ni.getD i) >>= fun _ => _) = _
          rw [hd']
          refine congrArg (fun x => Except.ok (some x)) ?_
          show _ = (withImage es (.from _)).remap (movedTo es)
          rw [withImage_eq (show ImageRef.parse i = _ from rfl)]
          simp only [hsp]
          refine congrArg Instruction.from ?_
          simp only [FromInstruction.remap, SpannedString.remap]
          have s1 : Span.remap (movedTo es) ⟨p, p + blen (Item.from kw fs g i a).text⟩ =
              ⟨p', p' + blen (Item.from kw fs g (ni.getD i) a).text⟩ := by
            simp only [Span.remap]
            congr 1
            · exact m1.at (by omega) (by omega) (by omega)
            · refine m2.at ?_ ?_ ?_ <;> simp [Item.text] <;> omega
          have s2 : Span.remap (movedTo es) ⟨p + blen kw + blen (flagsText fs) + blen g,
              p + blen kw + blen (flagsText fs) + blen g + blen i⟩ =
              ⟨p' + blen kw + blen (flagsText fs) + blen g,
                p' + blen kw + blen (flagsText fs) + blen g + blen (ni.getD i)⟩ := by
            simp only [Span.remap]
            congr 1
            · exact m1.at (by omega) (by omega) (by omega)
            · exact m2.at (by omega) (by omega) (by omega)
          rw [s1, s2, alias_move a m2]
          rfl
        · rintro ⟨j, rfl, hj⟩
          have hu : (Item.from kw fs g i a).upd (newImage es) p = .from kw fs g j a := by
            simp only [Item.upd, hsp]
            rfl
          rw [hu]
          show (evalFlags unq (p' + blen kw) fs >>= fun flags => checkDigest j >>= fun _ => _) = _
          rw [hfl]
          show (checkDigest j >>= fun _ => _) = _
          rw [checkDigest_error hj]
          rfl
  | _ =>
    refine notfrom rfl rfl fun i e => ?_
    subst e
    cases i
    case «from» f => exact absurd (eval_from ho) List.not_mem_nil
    all_goals rfl

/-! ## documents -/

theorem newImage_good {es : List Edit} (hi : ∀ e ∈ es, Img e.2) (sp : Span) (i : Str)
    (h : newImage es sp = some i) : Img i := hi _ (newImage_some h)

/-- The text of the new lines. -/
theorem doc_text {es : List Edit} (hg : Good es) (ms : List (Str × Line)) : ∀ (l : Line) (p p' : Nat),
    DocFits l ms → Inv es p p' → (∀ e ∈ es, e.1.stop ≤ p ∨ e.1 ∈ sites p l ms) →
    simul es p (docText l ms) =
      docText (l.upd (newImage es) p) (docUpd (newImage es) (p + blen l.text) ms) := by
  induction ms with
  | nil =>
    intro l p p' hf hi hk
    have := (line_text hg (n := []) hf hi fun e he => (hk e he).imp_right .inl).1
    simpa [docText, docUpd] using this
  | cons m ms ih =>
    obtain ⟨n, m⟩ := m
    intro l p p' hf hi hk
    obtain ⟨h1, h2⟩ := line_text hg (n := n) hf.1 hi fun e he => by
      rcases hk e he with h | h
      · exact .inl h
      · rcases List.mem_append.1 h with h | h
        · exact .inr (.inl h)
        · exact .inr (.inr (sites_ge ms _ _ h))
    have h3 := ih m _ _ hf.2.2 h2 fun e he => by
      rcases hk e he with h | h
      · left; omega
      · rcases List.mem_append.1 h with h | h
        · left
          have := item_sites_le _ _ h
          simp only [Line.text, blen_append]
          omega
        · exact .inr h
    simp only [docText, docUpd]
    rw [← List.append_assoc, simul_append, h1, blen_append, ← Nat.add_assoc, h3]
    simp

theorem line_value {unq : Unquote} {es : List Edit} (hg : Good es) {l : Line} {r : Str} (hf : l.Fits r)
    {p p' n : Nat} (h : Inv es p p') (hk : Around es p l n) {o}
    (ho : l.item.eval unq (p + blen l.indent) = .ok o) :
    ((∀ e ∈ es, e.1 ∈ l.item.sites (p + blen l.indent) → DigestOK (ImageRef.parse e.2)) →
      (l.upd (newImage es) p).item.eval unq (p' + blen (l.upd (newImage es) p).indent) =
        .ok (o.map fun i => (withImage es i).remap (movedTo es))) ∧
    ((∃ e ∈ es, e.1 ∈ l.item.sites (p + blen l.indent) ∧ ¬ DigestOK (ImageRef.parse e.2)) →
      (l.upd (newImage es) p).item.eval unq (p' + blen (l.upd (newImage es) p).indent) =
        .error (.err (.generic .digestInvalid))) := by
  have hi : ∀ sp ∈ l.item.sites (p + blen l.indent), p + blen l.indent ≤ sp.start := by
    intro sp h
    cases hit : l.item <;> rw [hit] at h <;> simp [Item.sites] at h
    subst h
    show _ ≤ p + _ + _ + _ + _
    omega
  have ht : blen l.text = blen l.indent + (blen l.item.text + blen l.trail) := by simp [Line.text]
  have hinv := h.shift (k := blen l.indent) fun e he => by
    have := hg.1 e he
    rcases hk e he with h | h | h
    · exact .inl h
    · have := hi _ h; omega
    · omega
  obtain ⟨h1, h2⟩ := item_value (unq := unq) hg hf.2.1 hinv (fun e he => by
    rcases hk e he with h | h | h
    · exact .inl (by omega)
    · exact .inr (.inl h)
    · exact .inr (.inr (by omega))) ho
  constructor
  · intro hd
    exact h1 fun sp hsp j hj => hd _ (newImage_some hj) hsp
  · rintro ⟨e, he, hs, hd⟩
    exact h2 ⟨e.1, hs, e.2, newImage_mem hg he, hd⟩

/-- The value of the new lines. -/
theorem doc_value {unq : Unquote} {es : List Edit} (hg : Good es) (ms : List (Str × Line)) :
    ∀ (l : Line) (p p' : Nat) (is : List Instruction), DocFits l ms → Inv es p p' →
    (∀ e ∈ es, e.1.stop ≤ p ∨ e.1 ∈ sites p l ms) → evalDoc unq p l ms = .ok is →
    ((∀ e ∈ es, e.1 ∈ sites p l ms → DigestOK (ImageRef.parse e.2)) →
      evalDoc unq p' (l.upd (newImage es) p) (docUpd (newImage es) (p + blen l.text) ms) =
        .ok (is.map fun i => (withImage es i).remap (movedTo es))) ∧
    ((∃ e ∈ es, e.1 ∈ sites p l ms ∧ ¬ DigestOK (ImageRef.parse e.2)) →
      evalDoc unq p' (l.upd (newImage es) p) (docUpd (newImage es) (p + blen l.text) ms) =
        .error (.err (.generic .digestInvalid))) := by
  induction ms with
  | nil =>
    intro l p p' is hf hi hk he
    simp only [evalDoc, docUpd] at he ⊢
    cases ho : l.item.eval unq (p + blen l.indent) with
    | error e => rw [ho] at he; cases he
    | ok o =>
      rw [ho] at he
      cases he
      obtain ⟨h1, h2⟩ := line_value hg (n := 0) hf hi (fun e he => (hk e he).imp_right .inl) ho
      constructor
      · intro hd
        rw [h1 hd]
        cases o <;> rfl
      · intro hd
        rw [h2 hd]
        rfl
  | cons m ms ih =>
    obtain ⟨n, m⟩ := m
    intro l p p' is hf hi hk he
    have har : Around es p l (blen n) := fun e he => by
      rcases hk e he with h | h
      · exact .inl h
      · rcases List.mem_append.1 h with h | h
        · exact .inr (.inl h)
        · exact .inr (.inr (sites_ge ms _ _ h))
    obtain ⟨-, h2⟩ := line_text hg (n := n) hf.1 hi har
    simp only [evalDoc, docUpd] at he ⊢
    cases ho : l.item.eval unq (p + blen l.indent) with
    | error e => rw [ho] at he; cases he
    | ok o =>
      rw [ho, ok_bind] at he
      cases hr : evalDoc unq (p + blen l.text + blen n) m ms with
      | error e => rw [hr] at he; cases he
      | ok js =>
        rw [hr] at he
        cases he
        obtain ⟨h3, h4⟩ := line_value hg hf.1 hi har ho
        obtain ⟨h5, h6⟩ := ih m _ _ js hf.2.2 h2 (fun e he => by
          rcases hk e he with h | h
          · left; omega
          · rcases List.mem_append.1 h with h | h
            · left
              have := item_sites_le _ _ h
              simp only [Line.text, blen_append]
              omega
            · exact .inr h) hr
        constructor
        · intro hd
          rw [h3 fun e he hs => hd e he (List.mem_append.2 (.inl hs)), ok_bind,
            h5 fun e he hs => hd e he (List.mem_append.2 (.inr hs))]
          cases o <;> simp [pure, Except.pure, ok_bind]
        · rintro ⟨e, he, hs, hd⟩
          by_cases hl : ∃ e ∈ es, e.1 ∈ l.item.sites (p + blen l.indent) ∧ ¬ DigestOK (ImageRef.parse e.2)
          · rw [h4 hl]; rfl
          · have hl' : ∀ e ∈ es, e.1 ∈ l.item.sites (p + blen l.indent) → DigestOK (ImageRef.parse e.2) :=
              fun e he hs => Classical.byContradiction fun h => hl ⟨e, he, hs, h⟩
            rw [h3 hl', ok_bind, h6 ⟨e, he, ?_, hd⟩]
            · rfl
            · rcases List.mem_append.1 hs with h | h
              · exact absurd (hl' e he h) hd
              · exact h

theorem doc_sites {unq : Unquote} (ms : List (Str × Line)) : ∀ (l : Line) (p : Nat) (is : List Instruction),
    evalDoc unq p l ms = .ok is → ∀ f, .from f ∈ is → f.image.span ∈ sites p l ms := by
  induction ms with
  | nil =>
    intro l p is he f hf
    simp only [evalDoc] at he
    cases ho : l.item.eval unq (p + blen l.indent) with
    | error e => rw [ho] at he; cases he
    | ok o =>
      rw [ho] at he
      cases he
      cases o with
      | none => cases hf
      | some i =>
        rw [Option.toList_some, List.mem_singleton] at hf
        subst hf
        exact eval_from ho
  | cons m ms ih =>
    obtain ⟨n, m⟩ := m
    intro l p is he f hf
    simp only [evalDoc] at he
    cases ho : l.item.eval unq (p + blen l.indent) with
    | error e => rw [ho] at he; cases he
    | ok o =>
      rw [ho, ok_bind] at he
      cases hr : evalDoc unq (p + blen l.text + blen n) m ms with
      | error e => rw [hr] at he; cases he
      | ok js =>
        rw [hr] at he
        cases he
        rcases List.mem_append.1 hf with hf | hf
        · cases o with
          | none => cases hf
          | some i =>
            rw [Option.toList_some, List.mem_singleton] at hf
            subst hf
            exact List.mem_append.2 (.inl (eval_from ho))
        · exact List.mem_append.2 (.inr (ih _ _ js hr f hf))

theorem numberStages_from {is : List Instruction} : ∀ {n f}, .from f ∈ numberStages n is →
    ∃ f', .from f' ∈ is ∧ f'.image = f.image := by
  induction is with
  | nil => intro n f h; cases h
  | cons i is ih =>
    intro n f h
    cases i
    case «from» g =>
      rcases List.mem_cons.1 h with h | h
      · cases h
        exact ⟨g, by simp, rfl⟩
      · obtain ⟨f', h1, h2⟩ := ih h
        exact ⟨f', by simp [h1], h2⟩
    all_goals
      rcases List.mem_cons.1 h with h | h
      · cases h
      · obtain ⟨f', h1, h2⟩ := ih h
        exact ⟨f', by simp [h1], h2⟩

theorem globalArgs_withImage (es : List Edit) (is : List Instruction) :
    globalArgs (is.map (withImage es)) = globalArgs is := by
  induction is with
  | nil => rfl
  | cons i is ih =>
    cases i <;> rw [List.map_cons] <;> first
      | rfl
      | exact ih
      | exact congrArg (_ :: ·) ih

theorem numberStages_withImage (es : List Edit) (is : List Instruction) : ∀ n,
    numberStages n (is.map (withImage es)) = (numberStages n is).map (withImage es) := by
  induction is with
  | nil => intro n; rfl
  | cons i is ih =>
    intro n
    cases i
    case «from» f =>
      rw [List.map_cons]
      refine Eq.trans (congrArg (_ :: ·) (ih (n + 1))) ?_
      refine congrArg (· :: _) ?_
      simp only [withImage]
      cases es.find? fun e => e.1 == f.image.span <;> rfl
    all_goals
      rw [List.map_cons]
      exact congrArg (_ :: ·) (ih _)

theorem inv_zero {es : List Edit} (hg : Good es) : Inv es 0 0 := by
  have h : ∀ e ∈ es, ¬ e.1.stop ≤ 0 := fun e he => by have := hg.1 e he; omega
  unfold Inv added removed
  have h1 : es.map (fun e => if e.1.stop ≤ 0 then blen e.2 else 0) = es.map fun _ => 0 :=
    List.map_congr_left fun e he => if_neg (h e he)
  have h2 : es.map (fun e => if e.1.stop ≤ 0 then e.1.stop - e.1.start else 0) = es.map fun _ => 0 :=
    List.map_congr_left fun e he => if_neg (h e he)
  rw [h1, h2]

/-- Documents with new images. -/
theorem parse_updated {unq : Unquote} {l : Line} {ms : List (Str × Line)} (hf : DocFits l ms)
    {is : List Instruction} (he : evalDoc unq 0 l ms = .ok is) {es : List Edit}
    (hd : es.Pairwise fun e f => Disjoint e.1 f.1) (hpos : ∀ e ∈ es, e.1.start < e.1.stop)
    (hes : ∀ e ∈ es, (∃ f, .from f ∈ numberStages 0 is ∧ e.1 = f.image.span) ∧ Img e.2) :
    ((∀ e ∈ es, DigestOK (ImageRef.parse e.2)) →
      Dockerfile.parse unq (simul es 0 (docText l ms)) =
        .ok (updated es (docText l ms) (documentOf (docText l ms) is))) ∧
    ((∃ e ∈ es, ¬ DigestOK (ImageRef.parse e.2)) →
      Dockerfile.parse unq (simul es 0 (docText l ms)) = .error (.err (.generic .digestInvalid))) := by
  have hg : Good es := ⟨hpos, hd⟩
  have hs : ∀ e ∈ es, e.1 ∈ sites 0 l ms := fun e h => by
    obtain ⟨f, h1, h2⟩ := (hes e h).1
    obtain ⟨f', h3, h4⟩ := numberStages_from h1
    rw [h2, ← h4]
    exact doc_sites ms l 0 is he f' h3
  have htext := doc_text hg ms l 0 0 hf (inv_zero hg) fun e h => .inr (hs e h)
  obtain ⟨hfit, -⟩ := doc_upd (newImage_good fun e h => (hes e h).2) ms l 0 hf
  obtain ⟨h1, h2⟩ := doc_value hg ms l 0 0 is hf (inv_zero hg) (fun e h => .inr (hs e h)) he
  have hp := parse_fits (unq := unq) hfit
  rw [← htext] at hp
  constructor
  · intro hd
    rw [hp, h1 fun e h _ => hd e h]
    refine congrArg Except.ok ?_
    simp only [documentOf, updated]
    have e1 : (is.map fun i => (withImage es i).remap (movedTo es)) =
        (is.map (withImage es)).map (·.remap (movedTo es)) := by simp
    rw [e1, globalArgs_remap, globalArgs_withImage, numberStages_remap, numberStages_withImage, List.map_map]
    rfl
  · rintro ⟨e, h, hd⟩
    rw [hp, h2 ⟨e, h, hs e h, hd⟩]
    rfl

end Src
end Verif
