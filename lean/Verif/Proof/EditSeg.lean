import Verif.Proof.ExchSpot
import Verif.Proof.Update
import Verif.Spec.Edit

/-!
# Texts in segments

The text of a line as a list of segments, some of which may be replaced.
-/

namespace Verif
namespace Src
open Spec

/-- kinds of texts that may be replaced -/
inductive Kind where
  | image | ident | alpha | argName | word | value | label | path | env
  | text (P : Prop)

/-- what the new text has to be -/
def Kind.Ok (unq : Unquote) : Kind → Str → Prop
  | image, t => Over IsImageChar t ∧ DigestOK (ImageRef.parse t)
  | ident, t => Over IsIdent t
  | alpha, t => Over IsAlpha t
  | argName, t => ∃ c b, t = c :: b ∧ IsAlpha c ∧ ∀ d ∈ b, IsWord d
  | word, t => Over IsWord t
  | value, t => Readable unq t
  | label, t => Readable unq (joinLines t)
  | path, t => Readable unq t ∧ ¬ LooksLikeFlag t
  | env, t => QuotedText t → Readable unq t
  | text P, _ => P

inductive Seg where
  | fix (t : Str)
  | fld (k : Kind) (t : Str)

def Seg.text : Seg → Str
  | fix t => t
  | fld _ t => t

def segText (ss : List Seg) : Str := ss.flatMap Seg.text

@[simp] theorem segText_nil : segText [] = [] := rfl
@[simp] theorem segText_fix (t : Str) (ss : List Seg) : segText (.fix t :: ss) = t ++ segText ss := by
  simp [segText, Seg.text]
@[simp] theorem segText_fld (k : Kind) (t : Str) (ss : List Seg) :
    segText (.fld k t :: ss) = t ++ segText ss := by
  simp [segText, Seg.text]
@[simp] theorem segText_append (ss ts : List Seg) : segText (ss ++ ts) = segText ss ++ segText ts := by
  simp [segText]

/-- the new text of the field `t` at `p` -/
def put (new : Span → Option Str) (p : Nat) (t : Str) : Str := (new ⟨p, p + blen t⟩).getD t

def segPut (new : Span → Option Str) : Nat → List Seg → List Seg
  | _, [] => []
  | p, .fix t :: ss => .fix t :: segPut new (p + blen t) ss
  | p, .fld k t :: ss => .fld k (put new p t) :: segPut new (p + blen t) ss

/-- the fields, with their positions -/
def segFields : Nat → List Seg → List (Kind × Str × Nat)
  | _, [] => []
  | p, .fix t :: ss => segFields (p + blen t) ss
  | p, .fld k t :: ss => (k, t, p) :: segFields (p + blen t) ss

theorem segPut_append (new : Span → Option Str) (ss ts : List Seg) : ∀ p,
    segPut new p (ss ++ ts) = segPut new p ss ++ segPut new (p + blen (segText ss)) ts := by
  induction ss with
  | nil => intro p; rfl
  | cons s ss ih =>
    intro p
    cases s <;> simp [segPut, ih, Nat.add_assoc]

theorem segFields_append (ss ts : List Seg) : ∀ p,
    segFields p (ss ++ ts) = segFields p ss ++ segFields (p + blen (segText ss)) ts := by
  induction ss with
  | nil => intro p; rfl
  | cons s ss ih =>
    intro p
    cases s <;> simp [segFields, ih, Nat.add_assoc]

def fieldSpan (x : Kind × Str × Nat) : Span := ⟨x.2.2, x.2.2 + blen x.2.1⟩

theorem segFields_ge {x} (ss : List Seg) : ∀ p, x ∈ segFields p ss → p ≤ x.2.2 := by
  induction ss with
  | nil => intro p h; cases h
  | cons s ss ih =>
    intro p h
    cases s with
    | fix t => have := ih _ h; omega
    | fld k t =>
      rcases List.mem_cons.1 h with rfl | h
      · exact Nat.le_refl _
      · have := ih _ h; omega

theorem segFields_le {x} (ss : List Seg) : ∀ p, x ∈ segFields p ss →
    x.2.2 + blen x.2.1 ≤ p + blen (segText ss) := by
  induction ss with
  | nil => intro p h; cases h
  | cons s ss ih =>
    intro p h
    cases s with
    | fix t => have := ih _ h; simp; omega
    | fld k t =>
      rcases List.mem_cons.1 h with rfl | h
      · simp
      · have := ih _ h; simp; omega

/-- different fields do not overlap -/
theorem segFields_disjoint {x y} (ss : List Seg) : ∀ p, x ∈ segFields p ss → y ∈ segFields p ss →
    x = y ∨ Disjoint (fieldSpan x) (fieldSpan y) := by
  induction ss with
  | nil => intro p h; cases h
  | cons s ss ih =>
    intro p h h'
    cases s with
    | fix t => exact ih _ h h'
    | fld k t =>
      rcases List.mem_cons.1 h with rfl | h
      · rcases List.mem_cons.1 h' with rfl | h'
        · exact .inl rfl
        · exact .inr (.inl (segFields_ge _ _ h'))
      · rcases List.mem_cons.1 h' with rfl | h'
        · exact .inr (.inr (segFields_ge _ _ (by assumption)))
        · exact ih _ h h'

theorem segFields_unique {x y} {ss : List Seg} {p} (hx : x ∈ segFields p ss) (hy : y ∈ segFields p ss)
    (h : fieldSpan x = fieldSpan y) (hpos : (fieldSpan x).start < (fieldSpan x).stop) : x = y := by
  rcases segFields_disjoint ss p hx hy with h1 | h1
  · exact h1
  · rw [← h] at h1
    unfold Disjoint at h1
    omega

/-- The text of a field. -/
theorem segFields_slice {x} (ss : List Seg) : ∀ p, x ∈ segFields p ss →
    ∃ a b, segText ss = a ++ (x.2.1 ++ b) ∧ x.2.2 = p + blen a := by
  induction ss with
  | nil => intro p h; cases h
  | cons s ss ih =>
    intro p h
    cases s with
    | fix t =>
      obtain ⟨a, b, h1, h2⟩ := ih _ h
      exact ⟨t ++ a, b, by simp [h1], by simp [h2, Nat.add_assoc]⟩
    | fld k t =>
      rcases List.mem_cons.1 h with rfl | h
      · exact ⟨[], segText ss, by simp, by simp⟩
      · obtain ⟨a, b, h1, h2⟩ := ih _ h
        exact ⟨t ++ a, b, by simp [h1], by simp [h2, Nat.add_assoc]⟩

/-- the new text of the field is as it should be -/
def FieldOK (unq : Unquote) (new : Span → Option Str) (k : Kind) (p : Nat) (t : Str) : Prop :=
  ∀ t', new ⟨p, p + blen t⟩ = some t' → Like t t' ∧ k.Ok unq t'

def SegOK (unq : Unquote) (new : Span → Option Str) (p : Nat) (ss : List Seg) : Prop :=
  ∀ x ∈ segFields p ss, FieldOK unq new x.1 x.2.2 x.2.1

theorem SegOK.fix {unq new p t ss} (h : SegOK unq new p (.fix t :: ss)) : SegOK unq new (p + blen t) ss := h

theorem SegOK.fld {unq new p k t ss} (h : SegOK unq new p (.fld k t :: ss)) :
    FieldOK unq new k p t ∧ SegOK unq new (p + blen t) ss :=
  ⟨h (k, t, p) (by simp [segFields]), fun x hx => h x (by simp [segFields, hx])⟩

theorem SegOK.append {unq new p ss ts} (h : SegOK unq new p (ss ++ ts)) :
    SegOK unq new p ss ∧ SegOK unq new (p + blen (segText ss)) ts :=
  ⟨fun x hx => h x (by simp [segFields_append, hx]), fun x hx => h x (by simp [segFields_append, hx])⟩

theorem FieldOK.x {unq new k p t} (h : FieldOK unq new k p t) : Like t (put new p t) := by
  unfold put
  cases hn : new ⟨p, p + blen t⟩ with
  | none => exact .refl t
  | some t' => exact (h t' hn).1

theorem SegOK.x {unq new ss} : ∀ {p}, SegOK unq new p ss → Like (segText ss) (segText (segPut new p ss)) := by
  induction ss with
  | nil => intro p _; exact .nil
  | cons s ss ih =>
    intro p h
    cases s with
    | fix t =>
      rw [segPut, segText_fix, segText_fix]
      exact (ih h.fix).pre t
    | fld k t =>
      rw [segPut, segText_fld, segText_fld]
      exact h.fld.1.x.append (ih h.fld.2)

/-! ## positions -/

/-- `m` moves the boundaries of the segments from `p` to their new places from `p'` -/
def Moves (m : Nat → Nat) (new : Span → Option Str) : Nat → Nat → List Seg → Prop
  | p, p', [] => m p = p'
  | p, p', .fix t :: ss => Tr m p p' (blen t) ∧ Moves m new (p + blen t) (p' + blen t) ss
  | p, p', .fld _ t :: ss => m p = p' ∧ Moves m new (p + blen t) (p' + blen (put new p t)) ss

theorem Moves.start {m new ss p p'} (h : Moves m new p p' ss) : m p = p' := by
  cases ss with
  | nil => exact h
  | cons s ss =>
    cases s with
    | fix t => exact h.1 0 (by omega)
    | fld k t => exact h.1

theorem Moves.append {m new ss ts} : ∀ {p p'}, Moves m new p p' (ss ++ ts) →
    Moves m new p p' ss ∧
    Moves m new (p + blen (segText ss)) (p' + blen (segText (segPut new p ss))) ts := by
  induction ss with
  | nil => intro p p' h; exact ⟨h.start, h⟩
  | cons s ss ih =>
    intro p p' h
    cases s with
    | fix t =>
      obtain ⟨h1, h2⟩ := ih h.2
      refine ⟨⟨h.1, h1⟩, ?_⟩
      rw [segPut, segText_fix, segText_fix, blen_append, blen_append, ← Nat.add_assoc, ← Nat.add_assoc]
      exact h2
    | fld k t =>
      obtain ⟨h1, h2⟩ := ih h.2
      refine ⟨⟨h.1, h1⟩, ?_⟩
      rw [segPut, segText_fld, segText_fld, blen_append, blen_append, ← Nat.add_assoc, ← Nat.add_assoc]
      exact h2

theorem Moves.stop {m new ss p p'} (h : Moves m new p p' ss) :
    m (p + blen (segText ss)) = p' + blen (segText (segPut new p ss)) := by
  rw [← List.append_nil ss] at h
  exact h.append.2

/-- Replacing a field, or keeping it. -/
theorem field_step {es : List Edit} (hg : Good es) {t : Str} {q q' : Nat} (h : Inv es q q')
    (hk : ∀ f ∈ es, f.1.stop ≤ q ∨ f.1 = ⟨q, q + blen t⟩ ∨ q + blen t ≤ f.1.start) :
    simul es q t = put (newImage es) q t ∧
      Inv es (q + blen t) (q' + blen (put (newImage es) q t)) := by
  by_cases ht : t = []
  · subst ht
    have : newImage es ⟨q, q + blen []⟩ = none := by
      cases hn : newImage es ⟨q, q + blen []⟩ with
      | none => rfl
      | some t' =>
        have := hg.1 _ (newImage_some hn)
        simp at this
    unfold put
    rw [this]
    exact ⟨rfl, h⟩
  · exact image_step hg ht h hk

theorem seg_step {es : List Edit} (hg : Good es) (ss : List Seg) : ∀ {p p'}, Inv es p p' →
    (∀ e ∈ es, e.1.stop ≤ p ∨ e.1 ∈ (segFields p ss).map fieldSpan ∨ p + blen (segText ss) ≤ e.1.start) →
    simul es p (segText ss) = segText (segPut (newImage es) p ss) ∧
    Inv es (p + blen (segText ss)) (p' + blen (segText (segPut (newImage es) p ss))) ∧
    Moves (movedTo es) (newImage es) p p' ss := by
  induction ss with
  | nil =>
    intro p p' h _
    exact ⟨rfl, h, movedTo_of h⟩
  | cons s ss ih =>
    intro p p' h hk
    have hpos := hg.1
    have hge : ∀ q, ∀ sp ∈ (segFields q ss).map fieldSpan, q ≤ sp.start := by
      intro q sp hsp
      obtain ⟨x, hx, rfl⟩ := List.mem_map.1 hsp
      exact segFields_ge _ _ hx
    cases s with
    | fix t =>
      simp only [segFields, segText_fix, blen_append] at hk
      have h1 : ∀ e ∈ es, e.1.stop ≤ p ∨ p + blen t ≤ e.1.start := fun e he => by
        rcases hk e he with h | h | h
        · exact .inl h
        · exact .inr (hge _ _ h)
        · omega
      have i1 := h.shift (k := blen t) fun e he => by
        have := h1 e he; have := hpos e he; omega
      obtain ⟨h2, h3, h4⟩ := ih i1 fun e he => by
        rcases hk e he with h | h | h
        · left; omega
        · exact .inr (.inl h)
        · right; right; omega
      rw [segPut, segText_fix, segText_fix, simul_append, h2, blen_append, blen_append, ← Nat.add_assoc,
        ← Nat.add_assoc, simul_untouched es p t fun e he => ⟨hpos e he, h1 e he⟩]
      refine ⟨rfl, h3, h.tr fun e he => ?_, h4⟩
      have := h1 e he; have := hpos e he; omega
    | fld k t =>
      simp only [segFields, segText_fld, blen_append, List.map_cons, List.mem_cons] at hk
      obtain ⟨h1, i1⟩ := field_step hg (t := t) h fun e he => by
        rcases hk e he with h | (h | h) | h
        · exact .inl h
        · exact .inr (.inl h)
        · exact .inr (.inr (hge _ _ h))
        · right; right; omega
      obtain ⟨h2, h3, h4⟩ := ih i1 fun e he => by
        rcases hk e he with h | (h | h) | h
        · left; omega
        · left; rw [h]; exact Nat.le_refl _
        · exact .inr (.inl h)
        · right; right; omega
      rw [segPut, segText_fld, segText_fld, simul_append, h1, h2, blen_append, blen_append, ← Nat.add_assoc,
        ← Nat.add_assoc]
      exact ⟨rfl, h3, movedTo_of h, h4⟩

end Src
end Verif
