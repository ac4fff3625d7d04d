import Verif.Spec.Subst
import Verif.Proof.Splicer

/-! Helper lemmas for variable substitution. -/

namespace Verif
open Spec

theorem isWordChar_iff (c : Char) : isWordChar c = true ↔ WordChar c := by
  simp [isWordChar, WordChar, or_assoc]

theorem spanWord_spec (s : Str) :
    s = (spanWord s).1 ++ (spanWord s).2 ∧ (∀ c ∈ (spanWord s).1, WordChar c) ∧
      ∀ c cs, (spanWord s).2 = c :: cs → ¬ WordChar c := by
  induction s with
  | nil => simp [spanWord]
  | cons c cs ih =>
    obtain ⟨h1, h2, h3⟩ := ih
    by_cases hc : isWordChar c = true
    · simp only [spanWord, hc, if_true]
      refine ⟨by rw [List.cons_append, ← h1], ?_, h3⟩
      intro x hx
      simp at hx
      rcases hx with rfl | hx
      · exact (isWordChar_iff _).mp hc
      · exact h2 x hx
    · simp only [spanWord, hc]
      refine ⟨rfl, by simp, ?_⟩
      intro x xs h
      simp at h
      rw [← h.1, ← isWordChar_iff]
      exact hc

theorem spanWord_unique (a b : Str) (ha : ∀ c ∈ a, WordChar c)
    (hb : ∀ c cs, b = c :: cs → ¬ WordChar c) : spanWord (a ++ b) = (a, b) := by
  induction a with
  | nil =>
    cases b with
    | nil => rfl
    | cons c cs =>
      have : ¬ isWordChar c = true := by rw [isWordChar_iff]; exact hb c cs rfl
      simp [spanWord, this]
  | cons x xs ih =>
    have hx : isWordChar x = true := (isWordChar_iff x).mpr (ha x (by simp))
    simp [spanWord, hx, ih (fun c hc => ha c (by simp [hc]))]

theorem not_word_brace : ¬ WordChar '{' := by rw [← isWordChar_iff]; decide
theorem not_word_close : ¬ WordChar '}' := by rw [← isWordChar_iff]; decide

theorem matchVar_iff (s name rest : Str) : matchVar s = some (name, rest) ↔ RefAt s name rest := by
  constructor
  · intro h
    cases s with
    | nil => simp [matchVar] at h
    | cons c cs =>
      by_cases hc : c = '$'
      · subst hc
        obtain ⟨h1, h2, h3⟩ := spanWord_spec cs
        simp only [matchVar] at h
        cases hs : spanWord cs with
        | mk w r =>
          rw [hs] at h h1 h2 h3
          simp only at h1 h2 h3
          cases w with
          | cons x xs =>
            simp only [Option.some.injEq, Prod.mk.injEq] at h
            obtain ⟨rfl, rfl⟩ := h
            exact ⟨by simp, h2, Or.inl ⟨by rw [h1], h3⟩⟩
          | nil =>
            simp only at h
            split at h
            · rename_i rest2
              obtain ⟨g1, g2, g3⟩ := spanWord_spec rest2
              cases hs2 : spanWord rest2 with
              | mk w2 r2 =>
                rw [hs2] at h g1 g2 g3
                simp only at g1 g2 g3
                split at h
                · rename_i x xs rest' heq
                  simp only [Prod.mk.injEq] at heq
                  obtain ⟨rfl, rfl⟩ := heq
                  simp only [Option.some.injEq, Prod.mk.injEq] at h
                  obtain ⟨rfl, rfl⟩ := h
                  exact ⟨by simp, g2, Or.inr (by rw [g1])⟩
                · cases h
            · cases h
      · unfold matchVar at h
        split at h
        · rename_i heq
          simp at heq
          exact absurd heq.1 hc
        · cases h
  · rintro ⟨hne, hw, (⟨rfl, hr⟩ | rfl)⟩
    · cases name with
      | nil => exact absurd rfl hne
      | cons x xs =>
        have := spanWord_unique (x :: xs) rest hw hr
        simp only [matchVar, this]
    · cases name with
      | nil => exact absurd rfl hne
      | cons x xs =>
        have h1 := spanWord_unique [] ('{' :: (x :: xs ++ '}' :: rest)) (by simp) (by
          intro c cs h
          simp at h
          rw [← h.1]
          exact not_word_brace)
        have h2 := spanWord_unique (x :: xs) ('}' :: rest) hw (by
          intro c cs h
          simp at h
          rw [← h.1]
          exact not_word_close)
        simp only [List.nil_append] at h1
        simp only [matchVar, h1, h2]

theorem Spec.RefAt.unique {s n r n' r' : Str} (h : RefAt s n r) (h' : RefAt s n' r') :
    n = n' ∧ r = r' := by
  have h1 := (matchVar_iff s n r).mpr h
  have h2 := (matchVar_iff s n' r').mpr h'
  rw [h1] at h2
  simpa using h2

/-- the source text of a reference -/
theorem Spec.RefAt.split {s n r : Str} (h : RefAt s n r) : ∃ src, src ≠ [] ∧ s = src ++ r := by
  obtain ⟨-, -, (⟨rfl, -⟩ | rfl)⟩ := h
  · exact ⟨'$' :: n, by simp, by simp⟩
  · exact ⟨'$' :: '{' :: (n ++ ['}']), by simp, by simp⟩

theorem Spec.RefAt.length_lt {s n r : Str} (h : RefAt s n r) : r.length < s.length := by
  obtain ⟨src, h1, rfl⟩ := h.split
  have := List.length_pos_iff.mpr h1
  simp; omega

theorem ref_cases (c : Char) (cs : Str) :
    (∃ n r, RefAt (c :: cs) n r ∧ matchVar (c :: cs) = some (n, r)) ∨
    ((∀ n r, ¬ RefAt (c :: cs) n r) ∧ matchVar (c :: cs) = none) := by
  cases h : matchVar (c :: cs) with
  | none =>
    right
    refine ⟨?_, rfl⟩
    intro n r hr
    rw [(matchVar_iff _ _ _).mpr hr] at h
    cases h
  | some x =>
    left
    obtain ⟨n, r⟩ := x
    exact ⟨n, r, (matchVar_iff _ _ _).mp h, rfl⟩

/-! ### inversion of the specification relations -/

theorem expands_ref_iff {vars : VarMap} {d : Nat} {s n rest : Str} (h : RefAt s n rest) (u : Str) :
    Expands vars d s u ↔ ∃ d' v e t, d = d' + 1 ∧ vars n = some v ∧ Expands vars d' v e ∧
      Expands vars d rest t ∧ u = e ++ t := by
  constructor
  · intro hx
    cases hx with
    | nil => obtain ⟨src, h1, h2⟩ := h.split; simp at h2; exact absurd h2.1 h1
    | lit _ c cs t hno ht => exact absurd h (hno n rest)
    | ref d' _ n' rest' v e t h' hv he ht =>
      obtain ⟨rfl, rfl⟩ := h.unique h'
      exact ⟨d', v, e, t, rfl, hv, he, ht, rfl⟩
  · rintro ⟨d', v, e, t, rfl, hv, he, ht, rfl⟩
    exact .ref d' s n rest v e t h hv he ht

theorem expands_lit_iff {vars : VarMap} {d : Nat} {c : Char} {cs : Str}
    (h : ∀ n r, ¬ RefAt (c :: cs) n r) (u : Str) :
    Expands vars d (c :: cs) u ↔ ∃ t, Expands vars d cs t ∧ u = c :: t := by
  constructor
  · intro hx
    cases hx with
    | lit _ _ _ t hno ht => exact ⟨t, ht, rfl⟩
    | ref d' _ n' rest' v e t h' hv he ht => exact absurd h' (h _ _)
  · rintro ⟨t, ht, rfl⟩
    exact .lit d c cs t h ht

theorem expands_nil_iff {vars : VarMap} {d : Nat} (u : Str) : Expands vars d [] u ↔ u = [] := by
  constructor
  · intro hx
    generalize hs : ([] : Str) = s at hx
    cases hx with
    | nil => rfl
    | lit _ _ _ t hno ht => cases hs
    | ref d' _ n' rest' v e t h' hv he ht =>
      subst hs
      have := h'.length_lt
      simp at this
  · rintro rfl; exact .nil d

theorem references_ref_iff {s m rest : Str} (h : RefAt s m rest) (n : Str) :
    References s n ↔ n = m ∨ References rest n := by
  constructor
  · intro hx
    cases hx with
    | here _ _ _ h' => exact Or.inl (h'.unique h).1
    | afterRef _ _ _ _ h' hr => rw [(h.unique h').2]; exact Or.inr hr
    | afterLit c cs _ h' hr => exact absurd h (h' _ _)
  · rintro (rfl | hr)
    · exact .here _ _ _ h
    · exact .afterRef _ _ _ _ h hr

theorem references_lit_iff {c : Char} {cs : Str} (h : ∀ n r, ¬ RefAt (c :: cs) n r) (n : Str) :
    References (c :: cs) n ↔ References cs n := by
  constructor
  · intro hx
    cases hx with
    | here _ _ _ h' => exact absurd h' (h _ _)
    | afterRef _ _ _ _ h' hr => exact absurd h' (h _ _)
    | afterLit _ _ _ h' hr => exact hr
  · intro hr; exact .afterLit _ _ _ h hr

theorem references_nil (n : Str) : ¬ References [] n := by
  intro hx
  generalize hs : ([] : Str) = s at hx
  cases hx with
  | here _ _ _ h' => subst hs; have := h'.length_lt; simp at this
  | afterRef _ _ _ _ h' hr => subst hs; have := h'.length_lt; simp at this
  | afterLit _ _ _ h' hr => cases hs

theorem reaches_iff {vars : VarMap} {s n : Str} :
    Reaches vars s n ↔ References s n ∨ ∃ m v, References s m ∧ vars m = some v ∧ Reaches vars v n := by
  constructor
  · intro h
    cases h with
    | direct _ _ h => exact Or.inl h
    | through _ m v _ h hv hr => exact Or.inr ⟨m, v, h, hv, hr⟩
  · rintro (h | ⟨m, v, h, hv, hr⟩)
    · exact .direct _ _ h
    · exact .through _ m v _ h hv hr

theorem reaches_ref_iff {vars : VarMap} {s m rest : Str} (h : RefAt s m rest) (n : Str) :
    Reaches vars s n ↔ n = m ∨ (∃ v, vars m = some v ∧ Reaches vars v n) ∨ Reaches vars rest n := by
  rw [reaches_iff, references_ref_iff h]
  constructor
  · rintro ((rfl | h1) | ⟨m', v, h1, hv, hr⟩)
    · exact Or.inl rfl
    · exact Or.inr (Or.inr (.direct _ _ h1))
    · rw [references_ref_iff h] at h1
      rcases h1 with rfl | h1
      · exact Or.inr (Or.inl ⟨v, hv, hr⟩)
      · exact Or.inr (Or.inr (.through _ m' v _ h1 hv hr))
  · rintro (rfl | ⟨v, hv, hr⟩ | h1)
    · exact Or.inl (Or.inl rfl)
    · exact Or.inr ⟨m, v, (references_ref_iff h m).mpr (Or.inl rfl), hv, hr⟩
    · rw [reaches_iff] at h1
      rcases h1 with h1 | ⟨m', v, h1, hv, hr⟩
      · exact Or.inl (Or.inr h1)
      · exact Or.inr ⟨m', v, (references_ref_iff h m').mpr (Or.inr h1), hv, hr⟩

theorem reaches_lit_iff {vars : VarMap} {c : Char} {cs : Str} (h : ∀ n r, ¬ RefAt (c :: cs) n r)
    (n : Str) : Reaches vars (c :: cs) n ↔ Reaches vars cs n := by
  rw [reaches_iff, reaches_iff, references_lit_iff h]
  simp only [references_lit_iff h]

theorem reaches_nil {vars : VarMap} (n : Str) : ¬ Reaches vars [] n := by
  rw [reaches_iff]
  rintro (h | ⟨m, v, h, -, -⟩)
  · exact references_nil _ h
  · exact references_nil _ h

theorem mem_setInsert (x y : Str) (l : List Str) : x ∈ setInsert y l ↔ x = y ∨ x ∈ l := by
  unfold setInsert
  split
  · constructor
    · exact Or.inr
    · rintro (rfl | h)
      · assumption
      · exact h
  · simp [or_comm]

/-! ### the loop -/

/-- what `substitute` at depth `d` does on `s` with `used` -/
structure SubOk (vars : VarMap) (d : Nat) (s : Str) (used : List Str) (r : Option Str)
    (used' : List Str) : Prop where
  out : ∀ t, r = some t ↔ Expands vars d s t
  mono : ∀ x ∈ used, x ∈ used'
  sound : ∀ x ∈ used', x ∈ used ∨ Reaches vars s x
  complete : r ≠ none → ∀ x, Reaches vars s x → x ∈ used'

theorem substLoop_ok (vars : VarMap) (d : Nat)
    (recSub : Str → List Str → Option (Option Str × List Str))
    (hrec : ∀ v u, ∃ r u', recSub v u = some (r, u') ∧ SubOk vars d v u r u')
    (s : Str) (n : Nat) (pre rest : Str) (hs : s = pre ++ rest) (hn : rest.length ≤ n)
    (es : List Edit) (os : List SpliceOffset) (hist : Hist s es os)
    (hbefore : ∀ e ∈ es, e.1.stop ≤ blen pre) (used : List Str) :
    ∃ r used', substLoop vars recSub (capturesFrom n (blen pre) rest)
        ⟨simul (effective es) 0 s, os⟩ used = some (r, used') ∧
      (∀ t, r = some t ↔ ∃ u, Expands vars (d + 1) rest u ∧ t = simul (effective es) 0 pre ++ u) ∧
      (∀ x ∈ used, x ∈ used') ∧
      (∀ x ∈ used', x ∈ used ∨ Reaches vars rest x) ∧
      (r ≠ none → ∀ x, Reaches vars rest x → x ∈ used') := by
  induction n generalizing pre rest es os used with
  | zero =>
    have : rest = [] := by simpa using hn
    subst this
    refine ⟨some (simul (effective es) 0 s), used, by simp [capturesFrom, substLoop], ?_, by simp,
      fun x hx => Or.inl hx, fun _ x hx => absurd hx (reaches_nil x)⟩
    intro t
    simp [expands_nil_iff, hs]
    exact eq_comm
  | succ n ih =>
    cases rest with
    | nil =>
      refine ⟨some (simul (effective es) 0 s), used, by simp [capturesFrom, substLoop], ?_, by simp,
        fun x hx => Or.inl hx, fun _ x hx => absurd hx (reaches_nil x)⟩
      intro t
      simp [expands_nil_iff, hs]
      exact eq_comm
    | cons c cs =>
      have hne := hist.nonempty_eff
      rcases ref_cases c cs with ⟨name, r, href, hm⟩ | ⟨hno, hm⟩
      · -- a reference
        simp only [capturesFrom, hm]
        obtain ⟨src, hsrc, hsplit⟩ := href.split
        have hlen := href.length_lt
        have hbl : blen pre + (blen (c :: cs) - blen r) = blen (pre ++ src) := by
          rw [hsplit]; simp
        rw [hbl]
        simp only [substLoop]
        cases hv : vars name with
        | none =>
          refine ⟨none, used, rfl, ?_, fun x hx => hx, fun x hx => Or.inl hx, by simp⟩
          intro t
          simp only [reduceCtorEq, false_iff]
          rintro ⟨u, hu, -⟩
          rw [expands_ref_iff href] at hu
          obtain ⟨d', v, e, t', -, hv', -⟩ := hu
          rw [hv] at hv'; cases hv'
        | some v =>
          obtain ⟨rv, uv, hrv, ok⟩ := hrec v used
          simp only [hrv]
          cases rv with
          | none =>
            refine ⟨none, uv, rfl, ?_, ok.mono, ?_, by simp⟩
            · intro t
              simp only [reduceCtorEq, false_iff]
              rintro ⟨u, hu, -⟩
              rw [expands_ref_iff href] at hu
              obtain ⟨d', v', e, t', hd, hv', he, -⟩ := hu
              rw [hv] at hv'; cases hv'
              have : d' = d := by omega
              subst this
              have := (ok.out e).mpr he
              cases this
            · intro x hx
              rcases ok.sound x hx with h | h
              · exact Or.inl h
              · exact Or.inr ((reaches_ref_iff href x).mpr (Or.inr (Or.inl ⟨v, hv, h⟩)))
          | some sub =>
            simp only
            have hposs := blen_pos hsrc
            let f : Edit := (⟨blen pre, blen (pre ++ src)⟩, sub)
            have hvalid : ValidSpan s f.1 :=
              ⟨src, pre, r, by rw [hs, hsplit]; simp, rfl, by simp [f]⟩
            have hfne : f.1.start < f.1.stop := by simp [f]; omega
            have hcomp : ∀ e ∈ es, Disjoint e.1 f.1 ∨ Within e.1 f.1 := by
              intro e he
              exact Or.inl (Or.inl (hbefore e he))
            have hsp := splice_hist hist f hvalid hfne hcomp
            obtain ⟨b1, b2, -⟩ := (show SliceOf s f.1 src from
              ⟨pre, r, by rw [hs, hsplit]; simp, rfl, by simp [f]⟩).bnd
            have huntouched : simul (effective es) (blen pre) src = src := by
              apply simul_untouched
              intro e he
              exact ⟨hne e he, Or.inl (hbefore e (effective_subset es e he))⟩
            have hvis : cur (effective es) s f.1.start < cur (effective es) s f.1.stop := by
              have g0 := cur_eq (effective es) pre (c :: cs)
              rw [← hs] at g0
              have g1 := cur_eq (effective es) (pre ++ src) r
              rw [List.append_assoc, ← hsplit, ← hs, simul_append, Nat.zero_add,
                huntouched] at g1
              simp only [f]
              rw [g0, g1, blen_append]
              omega
            have hist' := Hist.snoc es os f hist b1 b2 hfne hcomp hvis
            have hsp' : (Splicer.mk (simul (effective es) 0 s) os).splice
                ⟨blen pre, blen (pre ++ src)⟩ sub = _ := hsp
            rw [hsp']
            simp only
            obtain ⟨r', used', h1, h2, h3, h4, h5⟩ := ih (pre ++ src) r
              (by rw [hs, hsplit]; simp) (by simp at hn hlen; omega) (es ++ [f]) _ hist' (by
                intro e he
                simp at he
                rcases he with he | rfl
                · have := hbefore e he
                  simp; omega
                · simp [f]) (setInsert name uv)
            have hnewpre : simul (effective (es ++ [f])) 0 (pre ++ src) =
                simul (effective es) 0 pre ++ sub := by
              have hc' : Compat (effective es) f := fun x hx => hcomp x (effective_subset es x hx)
              rw [effective_concat, simul_append, simul_upd_before _ f 0 pre hne hfne (by simp [f])]
              rw [show 0 + blen pre = f.1.start by simp [f]]
              rw [simul_upd_inside _ f src hne hc' hsrc (by simp [f])]
            refine ⟨r', used', h1, ?_, ?_, ?_, ?_⟩
            · intro t
              rw [h2 t, hnewpre]
              constructor
              · rintro ⟨u, hu, rfl⟩
                refine ⟨sub ++ u, ?_, by simp⟩
                rw [expands_ref_iff href]
                exact ⟨d, v, sub, u, rfl, hv, (ok.out sub).mp rfl, hu, rfl⟩
              · rintro ⟨u, hu, rfl⟩
                rw [expands_ref_iff href] at hu
                obtain ⟨d', v', e, t', hd, hv', he, ht', rfl⟩ := hu
                rw [hv] at hv'; cases hv'
                have : d' = d := by omega
                subst this
                have := (ok.out e).mpr he
                cases this
                exact ⟨t', ht', by simp⟩
            · intro x hx
              exact h3 x ((mem_setInsert _ _ _).mpr (Or.inr (ok.mono x hx)))
            · intro x hx
              rw [reaches_ref_iff href]
              rcases h4 x hx with h | h
              · rw [mem_setInsert] at h
                rcases h with rfl | h
                · exact Or.inr (Or.inl rfl)
                · rcases ok.sound x h with h | h
                  · exact Or.inl h
                  · exact Or.inr (Or.inr (Or.inl ⟨v, hv, h⟩))
              · exact Or.inr (Or.inr (Or.inr h))
            · intro hr x hx
              rw [reaches_ref_iff href] at hx
              rcases hx with rfl | ⟨v', hv', hx⟩ | hx
              · exact h3 x ((mem_setInsert _ _ _).mpr (Or.inl rfl))
              · rw [hv] at hv'; cases hv'
                exact h3 x ((mem_setInsert _ _ _).mpr (Or.inr (ok.complete (by simp) x hx)))
              · exact h5 hr x hx
      · -- a literal character
        simp only [capturesFrom, hm]
        have hbl : blen pre + c.utf8Size = blen (pre ++ [c]) := by simp
        rw [hbl]
        obtain ⟨r', used', h1, h2, h3, h4, h5⟩ := ih (pre ++ [c]) cs (by rw [hs]; simp)
          (by simp at hn; omega) es os hist (by
            intro e he
            have := hbefore e he
            simp; omega) used
        have hnewpre : simul (effective es) 0 (pre ++ [c]) = simul (effective es) 0 pre ++ [c] := by
          rw [simul_append, simul_untouched (effective es) (0 + blen pre) [c]]
          intro e he
          exact ⟨hne e he, Or.inl (by have := hbefore e (effective_subset es e he); omega)⟩
        refine ⟨r', used', h1, ?_, h3, ?_, ?_⟩
        · intro t
          rw [h2 t, hnewpre]
          constructor
          · rintro ⟨u, hu, rfl⟩
            exact ⟨c :: u, (expands_lit_iff hno _).mpr ⟨u, hu, rfl⟩, by simp⟩
          · rintro ⟨u, hu, rfl⟩
            obtain ⟨t', ht', rfl⟩ := (expands_lit_iff hno _).mp hu
            exact ⟨t', ht', by simp⟩
        · intro x hx
          rw [reaches_lit_iff hno]
          exact h4 x hx
        · intro hr x hx
          rw [reaches_lit_iff hno] at hx
          exact h5 hr x hx

theorem captures_nil_noref (n p : Nat) (s : Str) (hn : s.length ≤ n)
    (h : capturesFrom n p s = []) : ∀ m, ¬ References s m := by
  induction n generalizing p s with
  | zero =>
    have : s = [] := by simpa using hn
    subst this
    exact references_nil
  | succ n ih =>
    cases s with
    | nil => exact references_nil
    | cons c cs =>
      rcases ref_cases c cs with ⟨name, r, href, hm⟩ | ⟨hno, hm⟩
      · simp [capturesFrom, hm] at h
      · simp only [capturesFrom, hm] at h
        intro m
        rw [references_lit_iff hno]
        exact ih _ cs (by simp at hn; omega) h m

theorem captures_cons_ref (n p : Nat) (s : Str) (h : capturesFrom n p s ≠ []) :
    ∃ m, References s m := by
  induction n generalizing p s with
  | zero => simp [capturesFrom] at h
  | succ n ih =>
    cases s with
    | nil => simp [capturesFrom] at h
    | cons c cs =>
      rcases ref_cases c cs with ⟨name, r, href, hm⟩ | ⟨hno, hm⟩
      · exact ⟨name, .here _ _ _ href⟩
      · simp only [capturesFrom, hm] at h
        obtain ⟨m, hm'⟩ := ih _ cs h
        exact ⟨m, (references_lit_iff hno m).mpr hm'⟩

theorem expands_noref (vars : VarMap) (d : Nat) (s : Str) (h : ∀ m, ¬ References s m) (t : Str) :
    Expands vars d s t ↔ t = s := by
  induction s generalizing t with
  | nil => exact expands_nil_iff t
  | cons c cs ih =>
    have hno : ∀ n r, ¬ RefAt (c :: cs) n r := fun n r hr => h n (.here _ _ _ hr)
    rw [expands_lit_iff hno]
    constructor
    · rintro ⟨t', ht', rfl⟩
      rw [(ih (fun m hm => h m ((references_lit_iff hno m).mpr hm)) t').mp ht']
    · rintro rfl
      exact ⟨cs, (ih (fun m hm => h m ((references_lit_iff hno m).mpr hm)) cs).mpr rfl, rfl⟩

theorem expands_references {vars : VarMap} {d : Nat} {s t : Str} (h : Expands vars d s t)
    {n : Str} (hr : References s n) :
    ∃ d' v e, d = d' + 1 ∧ vars n = some v ∧ Expands vars d' v e := by
  induction h with
  | nil => exact absurd hr (references_nil n)
  | lit d c cs t hno ht ih => exact ih ((references_lit_iff hno n).mp hr)
  | ref d s m rest v e t h hv he ht _ ih2 =>
    rw [references_ref_iff h] at hr
    rcases hr with rfl | hr
    · exact ⟨d, v, e, rfl, hv, he⟩
    · exact ih2 hr

theorem substitute_ok (vars : VarMap) (d : Nat) (s : Str) (used : List Str) :
    ∃ r used', substitute vars d s used = some (r, used') ∧ SubOk vars d s used r used' := by
  induction d generalizing s used with
  | zero =>
    unfold substitute
    cases hc : captures s with
    | nil =>
      have hno := captures_nil_noref _ _ s (Nat.le_refl _) hc
      refine ⟨some s, used, rfl, ?_, fun x hx => hx, fun x hx => Or.inl hx, ?_⟩
      · intro t
        rw [expands_noref vars 0 s hno]
        simp [eq_comm]
      · intro _ x hx
        rw [reaches_iff] at hx
        rcases hx with h | ⟨m, v, h, -, -⟩
        · exact absurd h (hno _)
        · exact absurd h (hno _)
    | cons c cs =>
      obtain ⟨m, hm⟩ := captures_cons_ref _ _ s (by unfold captures at hc; rw [hc]; simp)
      refine ⟨none, used, rfl, ?_, fun x hx => hx, fun x hx => Or.inl hx, by simp⟩
      intro t
      simp only [reduceCtorEq, false_iff]
      intro ht
      obtain ⟨d', v, e, hd, -⟩ := expands_references ht hm
      omega
  | succ d ih =>
    unfold substitute captures
    have hstart : Splicer.fromStr s = ⟨simul (effective []) 0 s, []⟩ := by
      have : simul (effective []) 0 s = s := simul_untouched _ _ _ (by simp [effective])
      rw [this]; rfl
    obtain ⟨r, used', h1, h2, h3, h4, h5⟩ := substLoop_ok vars d (substitute vars d) ih s s.length
      [] s rfl (Nat.le_refl _) [] [] .nil (by simp) used
    refine ⟨r, used', ?_, ?_, h3, h4, h5⟩
    · rw [hstart]; exact h1
    · intro t
      rw [h2 t]
      simp [simul]

theorem expands_mono {vars : VarMap} {d : Nat} {s t : Str} (h : Expands vars d s t) :
    Expands vars (d + 1) s t := by
  induction h with
  | nil d => exact .nil _
  | lit d c cs t hno ht ih => exact .lit _ c cs t hno ih
  | ref d s n rest v e t h hv he ht ih1 ih2 => exact .ref _ s n rest v e t h hv ih1 ih2

theorem expands_unique {vars : VarMap} {d : Nat} {s t t' : Str} (h : Expands vars d s t)
    (h' : Expands vars d s t') : t = t' := by
  obtain ⟨r, used', -, ok⟩ := substitute_ok vars d s []
  have h1 := (ok.out t).mpr h
  have h2 := (ok.out t').mpr h'
  rw [h1] at h2
  exact Option.some.inj h2

end Verif
