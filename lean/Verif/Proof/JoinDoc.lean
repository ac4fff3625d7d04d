import Verif.Proof.Join

/-!
# Adding text after the end of a document: documents
-/

namespace Verif
namespace Src
open Spec

/-- lines with their line breaks -/
def preText : List (Line × Str) → Str
  | [] => []
  | (l, n) :: ps => l.text ++ (n ++ preText ps)

/-- in front of `z` -/
def PreFits : List (Line × Str) → Str → Prop
  | [], _ => True
  | (l, n) :: ps, z => l.Fits (n ++ (preText ps ++ z)) ∧ LineBreak n (preText ps ++ z) ∧ PreFits ps z

noncomputable def evalPre (unq : Unquote) : Nat → List (Line × Str) → Result (List Instruction)
  | _, [] => .ok []
  | p, (l, n) :: ps => do
    let i ← l.item.eval unq (p + blen l.indent)
    let is ← evalPre unq (p + blen l.text + blen n) ps
    return i.toList ++ is

theorem break_end {n r : Str} (h : LineBreak n r) : BreakEnd n := by
  rcases h with rfl | rfl | ⟨rfl, -⟩
  · exact ⟨[], '\n', rfl, .inl rfl⟩
  · exact ⟨['\r'], '\n', rfl, .inl rfl⟩
  · exact ⟨[], '\r', rfl, .inr rfl⟩

theorem preText_end {ps : List (Line × Str)} {z : Str} (h : PreFits ps z) : preText ps = [] ∨ BreakEnd (preText ps) := by
  induction ps with
  | nil => exact .inl rfl
  | cons a ps ih =>
    obtain ⟨l, n⟩ := a
    refine .inr (BreakEnd.pre _ ?_)
    rcases ih h.2.2 with e | e
    · rw [e, List.append_nil]; exact break_end h.2.1
    · exact e.pre _

/-- only blank lines and comments give nothing -/
theorem item_none {unq : Unquote} {i : Item} {p : Nat} (h : i.eval unq p = .ok none) :
    i = .blank ∨ ∃ t, i = .comment t := by
  cases i with
  | blank => exact .inl rfl
  | comment t => exact .inr ⟨t, rfl⟩
  | «from» kw fs g i a =>
    obtain ⟨_, -, h⟩ := bind_some h
    obtain ⟨_, -, h⟩ := bind_some h
    cases h
  | arg kw g n v =>
    cases v with
    | none => cases h
    | some v =>
      obtain ⟨_, -, h⟩ := bind_some h
      cases h
  | label kw ps t =>
    obtain ⟨_, -, h⟩ := bind_some h
    cases h
  | label1 kw g n g' v =>
    obtain ⟨_, -, h⟩ := bind_some h
    obtain ⟨_, -, h⟩ := bind_some h
    cases h
  | shell k kw g s =>
    simp only [Item.eval] at h
    split at h <;> cases h
  | exec k kw g a =>
    simp only [Item.eval] at h
    split at h
    · cases h
    · obtain ⟨_, -, h⟩ := bind_some h
      cases h
  | copy kw fs ss d =>
    obtain ⟨_, -, h⟩ := bind_some h
    obtain ⟨_, -, h⟩ := bind_some h
    obtain ⟨_, -, h⟩ := bind_some h
    cases h
  | env kw ps t =>
    obtain ⟨_, -, h⟩ := bind_some h
    cases h
  | env1 kw g n g' s => cases h
  | env1q kw g n g' v =>
    obtain ⟨_, -, h⟩ := bind_some h
    cases h
  | misc w a => cases h

theorem BreakEnd.right {a b : Str} (h : BreakEnd (a ++ b)) (hb : b ≠ []) : BreakEnd b := by
  obtain ⟨v, c, e, hc⟩ := h
  refine ⟨b.dropLast, c, ?_, hc⟩
  have e1 : (a ++ b).getLast? = b.getLast? := by
    rw [List.getLast?_append, List.getLast?_eq_some_getLast hb]
    rfl
  have e2 : b.getLast? = some c := by rw [← e1, e]; simp
  have := List.dropLast_concat_getLast hb
  rw [List.getLast?_eq_some_getLast hb] at e2
  rw [Option.some.inj e2] at this
  exact this.symm

theorem blanks_noBreak {b : Str} (h : Blanks b) : ¬ BreakEnd b := by
  rintro ⟨a, c, rfl, hc⟩
  rcases h c (by simp) with rfl | rfl <;> rcases hc with hc | hc <;> revert hc <;> decide

/-- a document that ends with a line break outside of instructions -/
theorem doc_pre {unq : Unquote} (ms : List (Str × Line)) : ∀ (l : Line) (p : Nat) (is : List Instruction),
    DocFits l ms → evalDoc unq p l ms = .ok is → (docText l ms = [] ∨ BreakEnd (docText l ms)) →
    (∀ x ∈ is, x.span.stop < p + blen (docText l ms)) →
    ∃ ps, preText ps = docText l ms ∧ PreFits ps [] ∧ evalPre unq p ps = .ok is := by
  induction ms with
  | nil =>
    intro l p is hf he hb hs
    obtain ⟨o, h1, h2⟩ := bind_some he
    cases h2
    have hn : docText l [] = [] := by
      rcases hb with hb | hb
      · exact hb
      exfalso
      have hb : BreakEnd (l.indent ++ (l.item.text ++ l.trail)) := hb
      by_cases ht : l.trail = []
      · rw [ht, List.append_nil] at hb
        by_cases hi : l.item.text = []
        · rw [hi, List.append_nil] at hb
          exact blanks_noBreak hf.1 hb
        have hb := hb.right hi
        cases o with
        | none =>
          rcases item_none h1 with hl | ⟨t, hl⟩
          · exact hi (by rw [hl]; rfl)
          · have h3 := hf.2.1
            rw [hl] at h3 hb
            obtain ⟨b, rfl, h5⟩ := h3.1
            obtain ⟨a, c, e, hc⟩ := hb
            have hm : c ∈ '#' :: b := by
              have : c ∈ a ++ [c] := by simp
              rw [← e] at this
              exact this
            rcases List.mem_cons.1 hm with rfl | hm
            · revert hc; decide
            · exact hc.elim (h5 c hm).1 (h5 c hm).2
        | some x =>
          have h3 := (item_at h1).1
          have h4 := hs x (by simp)
          rw [h3] at h4
          simp only [docText, Line.text, blen_append, ht, blen_nil] at h4
          omega
      · exact blanks_noBreak hf.2.2 ((BreakEnd.right hb (by simp [ht])).right ht)
    refine ⟨[], hn.symm, trivial, ?_⟩
    cases o with
    | none => rfl
    | some x =>
      exfalso
      have h3 := (item_at h1).1
      have h4 := hs x (by simp)
      rw [h3, hn] at h4
      simp only [blen_nil] at h4
      omega
  | cons m ms ih =>
    obtain ⟨n, m⟩ := m
    intro l p is hf he hb hs
    obtain ⟨o, h1, he⟩ := bind_some he
    obtain ⟨js, h2, h3⟩ := bind_some he
    cases h3
    have hb' : docText m ms = [] ∨ BreakEnd (docText m ms) := by
      by_cases hd : docText m ms = []
      · exact .inl hd
      rcases hb with hb | hb
      · exact absurd hb (by
          have := (break_end hf.2.1).ne
          simp [docText, this])
      · exact .inr ((BreakEnd.right hb (by simp [hd])).right hd)
    obtain ⟨ps, e1, e2, e3⟩ := ih m _ js hf.2.2 h2 hb' (fun x hx => by
      have := hs x (by simp [hx])
      simp only [docText, blen_append] at this
      omega)
    refine ⟨(l, n) :: ps, by simp [preText, docText, e1], ⟨by simpa [e1] using hf.1, by simpa [e1] using hf.2.1, e2⟩, ?_⟩
    show (l.item.eval unq (p + blen l.indent) >>= fun i => evalPre unq (p + blen l.text + blen n) ps >>= _) = _
    rw [h1, e3]
    rfl

/-- what `z` must not close, for the text `s` and one instruction -/
def Calm (s z : Str) (i : Instruction) : Prop :=
  (∀ p ∈ quoteSpots i, StaysFalse BeginsQuoted s z p) ∧
  (∀ p ∈ arraySpots i, StaysFalse BeginsArray s z p) ∧
  ∀ k ∈ wordSpots i, IsKeyword k.1 → StaysFalse (Src.Begins (lower k.1)) s z k.2

theorem noQuoted_iff {u : Str} : NoQuoted u ↔ ¬ BeginsQuoted u := by
  constructor
  · rintro h ⟨t, r, e, ht⟩; exact h t r e ht
  · intro h t r e ht; exact h ⟨t, r, e, ht⟩

theorem noArray_iff {u : Str} : NoArray u ↔ ¬ BeginsArray u := by
  constructor
  · rintro h ⟨t, r, e, ht⟩; exact h t r e ht
  · intro h t r e ht; exact h ⟨t, r, e, ht⟩

theorem pre_add {unq : Unquote} {z : Str} (ps : List (Line × Str)) : ∀ (A : Str) (is : List Instruction),
    PreFits ps [] → evalPre unq (blen A) ps = .ok is →
    (∀ a, A ++ preText ps = a ++ ['\r'] → ∀ t, z ≠ '\n' :: t) →
    (∀ x ∈ is, Calm (A ++ preText ps) z x) → PreFits ps z := by
  induction ps with
  | nil => intros; trivial
  | cons a ps ih =>
    obtain ⟨l, n⟩ := a
    intro A is hf he hz hc
    obtain ⟨o, h1, he⟩ := bind_some he
    obtain ⟨js, h2, h3⟩ := bind_some he
    cases h3
    obtain ⟨hl, hn, hf'⟩ := hf
    rw [List.append_nil] at hl hn
    have hend : BreakEnd (n ++ preText ps) := by
      rcases preText_end hf' with e | e
      · rw [e, List.append_nil]; exact break_end hn
      · exact e.pre _
    have eA : A ++ preText ((l, n) :: ps) = (A ++ (l.text ++ n)) ++ preText ps := by simp [preText]
    have eB : A ++ preText ((l, n) :: ps) = (A ++ l.indent) ++ (l.item.text ++ (l.trail ++ (n ++ preText ps))) := by
      simp [preText, Line.text]
    refine ⟨⟨hl.1, ?_, hl.2.2⟩, ?_, ih (A ++ (l.text ++ n)) js hf' ?_ ?_ ?_⟩
    · have := item_add (z := z) (p := blen (A ++ l.indent)) hl.2.1 (hend.pre _) (by simpa using h1)
        (by
          rintro x rfl a b e hm hq
          have := (hc x (by simp)).1 _ hm
          rw [eB] at this
          refine noQuoted_iff.2 (this (A ++ l.indent ++ a) b ?_ (by simp only [blen_append]) (noQuoted_iff.1 hq))
          rw [e]; simp)
        (by
          rintro x rfl a b e hm hq
          have := (hc x (by simp)).2.1 _ hm
          rw [eB] at this
          refine noArray_iff.2 (this (A ++ l.indent ++ a) b ?_ (by simp only [blen_append]) (noArray_iff.1 hq))
          rw [e]; simp)
        (by
          rintro x rfl a b k e hm hk hq
          have := (hc x (by simp)).2.2 _ hm hk
          rw [eB] at this
          refine this (A ++ l.indent ++ a) b ?_ (by simp only [blen_append]) hq
          rw [e]; simp)
      simpa using this
    · rcases hn with rfl | rfl | ⟨rfl, hn⟩
      · exact .inl rfl
      · exact .inr (.inl rfl)
      · refine .inr (.inr ⟨rfl, fun t e => ?_⟩)
        cases hp : preText ps with
        | nil =>
          rw [hp] at e
          exact hz (A ++ l.text) (by simp [preText, hp]) t e
        | cons c u =>
          rw [hp] at e
          obtain ⟨rfl, -⟩ := List.cons.inj e
          exact hn u hp
    · rw [← h2]; congr 1; simp only [blen_append]; omega
    · rw [← eA]; exact hz
    · rw [← eA]; intro x hx; exact hc x (by simp [hx])

theorem pre_glue {unq : Unquote} {l : Line} {ms : List (Str × Line)} (h : DocFits l ms) (ps : List (Line × Str)) :
    ∀ p, PreFits ps (docText l ms) → ∃ l' ms', docText l' ms' = preText ps ++ docText l ms ∧ DocFits l' ms' ∧
      evalDoc unq p l' ms' = (do
        let is ← evalPre unq p ps
        let js ← evalDoc unq (p + blen (preText ps)) l ms
        return is ++ js) := by
  induction ps with
  | nil =>
    intro p _
    refine ⟨l, ms, rfl, h, ?_⟩
    simp only [evalPre, preText, blen_nil, Nat.add_zero, ok_bind, List.nil_append]
    cases evalDoc unq p l ms <;> rfl
  | cons a ps ih =>
    obtain ⟨k, n⟩ := a
    intro p hf
    obtain ⟨l', ms', e1, e2, e3⟩ := ih (p + blen k.text + blen n) hf.2.2
    refine ⟨k, (n, l') :: ms', by simp [docText, preText, e1], ⟨by rw [e1]; exact hf.1, by rw [e1]; exact hf.2.1, e2⟩, ?_⟩
    have e : p + blen (preText ((k, n) :: ps)) = p + blen k.text + blen n + blen (preText ps) := by
      simp only [preText, blen_append]; omega
    rw [e]
    show (k.item.eval unq (p + blen k.indent) >>= fun i => evalDoc unq (p + blen k.text + blen n) l' ms' >>= _) = _
    rw [e3]
    show _ = ((k.item.eval unq (p + blen k.indent) >>= fun i =>
      evalPre unq (p + blen k.text + blen n) ps >>= fun is => pure (i.toList ++ is)) >>= _)
    cases k.item.eval unq (p + blen k.indent) with
    | error e => rfl
    | ok o =>
      simp only [ok_bind]
      cases evalPre unq (p + blen k.text + blen n) ps with
      | error e => rfl
      | ok is =>
        simp only [ok_bind]
        cases evalDoc unq (p + blen k.text + blen n + blen (preText ps)) l ms with
        | error e => rfl
        | ok js => simp [ok_bind, pure, Except.pure]

theorem pre_none {z : Str} (hz : ∀ p, docToks p z = none) (ps : List (Line × Str)) : ∀ p, PreFits ps z →
    docToks p (preText ps ++ z) = none := by
  induction ps with
  | nil => intro p _; exact hz p
  | cons a ps ih =>
    obtain ⟨k, n⟩ := a
    intro p hf
    obtain ⟨ts, h1, -⟩ := line_reads (unq := fun t => .ok t) hf.1 p (AtEnd.break hf.2.1)
    have := docToks_cons h1 hf.2.1
    rw [ih _ hf.2.2] at this
    simpa [preText] using this

end Src
end Verif
