import Verif.Proof.Exch

/-!
# Exchanging plain text in later lines

Whether a line is one of the known instructions may depend on the text behind it, but not on what
comes after the keyword and the beginning of the next word of the next instruction.
-/

namespace Verif
namespace Src
open Spec

/-- `y` starts with a word, after space -/
def Second (y : Str) : Prop := ∃ (B : Arg) (r : Str), y = B.text ++ r ∧ B.Fits r

/-- `x'` is `x` with plain text exchanged behind the keyword of a line that follows `a`. -/
def Spot (L : Str → Prop) (x x' : Str) : Prop :=
  ∃ a kw y y', x = a ++ (kw ++ y) ∧ x' = a ++ (kw ++ y') ∧ L a ∧ Over IsAlpha kw ∧ Like y y' ∧
    Second y ∧ Second y'

theorem Spot.x {L x x'} : Spot L x x' → Like x x'
  | ⟨a, kw, y, y', e, e', _, _, h, _⟩ => by rw [e, e']; exact (h.pre _).pre _

theorem Spot.symm {L x x'} : Spot L x x' → Spot L x' x
  | ⟨a, kw, y, y', e, e', ha, hk, h, hs, hs'⟩ => ⟨a, kw, y', y, e', e, ha, hk, h.symm, hs', hs⟩

theorem startsFlag_spot {x x' : Str} (h : Spot Lead x x') (hx : StartsFlag x) : StartsFlag x' := by
  obtain ⟨a, kw, y, y', e, rfl, ha, hk, hy, hs, hs'⟩ := h
  obtain ⟨F, k, rfl⟩ := List.exists_cons_of_ne_nil hk.1
  obtain ⟨n, v, r, rfl, h1, h2, h3⟩ := hx
  have e : '-' :: ('-' :: (n ++ '=' :: v)) ++ r = a ++ F :: (k ++ y) := by
    simpa using e
  obtain ⟨a2, rfl, rfl⟩ := line_before e ha (by decide) (flagBody_chars h2 h3) (by
      rintro rfl
      obtain ⟨rfl, -⟩ := List.cons.inj e
      exact nalpha (by decide) (hk.2 '-' (by simp)))
  refine ⟨n, v, a2 ++ F :: (k ++ y'), by simp, h1, h2, h3.exch ?_⟩
  exact (Like.same F (hy.pre k)).pre a2

theorem begins_spot {k x x' : Str} (h : Spot Lead x x') (hx : Begins k x) : Begins k x' := by
  obtain ⟨a, kw, y, y', e, rfl, ha, hk, hy, hs, hs'⟩ := h
  obtain ⟨F, kw', hFk⟩ := List.exists_cons_of_ne_nil hk.1
  have hkw : ∀ c ∈ F :: kw', IsAlpha c := hFk ▸ hk.2
  have hF := hkw F (by simp)
  -- the text from the keyword on
  have hW : Like (kw ++ y) (kw ++ y') := hy.pre kw
  have hS : kw ++ y = F :: (kw' ++ y) := by rw [hFk]; rfl
  have hS' : kw ++ y' = F :: (kw' ++ y') := by rw [hFk]; rfl
  -- the spot, seen from further on
  have hsite : ∀ {u v : Str}, Lead (u ++ v) → Spot Lead (v ++ (kw ++ y)) (v ++ (kw ++ y')) := fun h =>
    ⟨_, kw, y, y', rfl, rfl, h.drop, hk, hy, hs, hs'⟩
  -- the keyword is a word, and so is what follows it
  obtain ⟨B', r', hB, hB'⟩ := hs'
  have hkwW : Word kw y' := by
    refine word_alpha hk.1 hk.2 ?_
    rw [hB]; exact Arg.starts hB'
  unfold Begins at hx ⊢
  split at hx
  · rename_i h1
    rw [if_pos h1]
    obtain ⟨fl, g1, c, r, rfl, h2, h3, h4, h5⟩ := hx
    rw [hS] at e
    obtain ⟨a2, e0, e2⟩ := flags_before h2 e ha hF
    subst e0
    obtain ⟨a3, e0, e3⟩ := space_before h3.2 e2 ha.drop hF
    subst e0
    rw [← hS] at e3
    have hW' := hW.pre a3
    obtain ⟨c', r', e4, hc⟩ := (e3 ▸ hW').head
    have hc : c' = c := by
      cases a3 with
      | nil =>
        rw [List.nil_append, hS] at e3
        rw [List.nil_append, hS'] at e4
        exact (List.cons.inj e4).1.symm.trans (List.cons.inj e3).1.symm
      | cons d a3 => exact (List.cons.inj e4).1.symm.trans (List.cons.inj e3).1.symm
    subst hc
    rw [← e3, e4] at hW'
    refine ⟨fl, g1, c', r', by simp [← e4], h2.exch (hW'.pre g1), h3.exch hW', h4, fun h => h5 ?_⟩
    rw [e3]; rw [← e4] at h
    exact startsFlag_spot (hsite (u := flagsText fl ++ g1) (by simpa using ha)).symm h
  · rename_i h1
    rw [if_neg h1]
    split at hx
    · rename_i h2
      rw [if_pos h2]
      obtain ⟨g1, c, r, rfl, h3, h4⟩ := hx
      rw [hS] at e
      obtain ⟨a3, e0, e3⟩ := space_before h3.2 e ha hF
      subst e0
      rw [← hS] at e3
      have hW' := hW.pre a3
      cases a3 with
      | nil =>
        rw [List.nil_append, hS] at e3
        rw [List.nil_append, List.nil_append, hS'] at hW'
        obtain ⟨rfl, -⟩ := List.cons.inj e3
        rw [hS, ← e3] at hW'
        exact ⟨g1, c, _, by rw [List.append_nil, hS'], h3.exch hW', h4⟩
      | cons d a3 =>
        obtain ⟨rfl, -⟩ := List.cons.inj e3
        rw [← e3] at hW'
        exact ⟨g1, c, _, by rw [List.append_assoc]; rfl, h3.exch hW', h4⟩
    · rename_i h2
      rw [if_neg h2]
      split at hx
      · rename_i h3
        rw [if_pos h3]
        obtain ⟨fl, A, B, r, rfl, h4, ⟨h5, h5'⟩, ⟨h6, h6'⟩, h7⟩ := hx
        rw [hS] at e
        obtain ⟨a2, e0, e2⟩ := flags_before h4 e ha hF
        subst e0
        rw [e2, ← hS] at h4
        rw [Arg.text, List.append_assoc] at e2
        obtain ⟨a3, e0, e3⟩ := space_before h5.2 e2 ha.drop hF
        subst e0
        by_cases ha3 : a3 = []
        · subst ha3
          rw [List.nil_append] at e3
          rw [e3, ← hS] at h5
          refine ⟨fl, ⟨A.gap, kw⟩, B', r', by simp [Arg.text, hB], ?_, ⟨?_, ?_⟩, hB', ?_⟩
          · rw [← hB]
            have := FlagsFit.exch h4 (hW.pre (A.gap ++ []))
            simpa [Arg.text] using this
          · rw [← hB]
            exact Gap.exch h5 hW
          · rw [← hB]; exact hkwW
          · rintro ⟨n, v, r, e, -⟩
            rw [hFk] at e
            obtain ⟨rfl, -⟩ := List.cons.inj e
            exact nalpha (by decide) hF
        · obtain ⟨c, av, hc⟩ := List.exists_cons_of_ne_nil h5'.1
          rw [hc] at e3
          obtain ⟨a4, e0, e4⟩ := line_before e3 (Lead.drop ha.drop)
            (h5'.chars (c := c) (by rw [hc]; simp)).2
            (fun d hd => (h5'.chars (c := d) (by rw [hc]; exact hd)).1) ha3
          rw [← hc] at e0
          subst e0
          have ha4 : Lead a4 := Lead.drop (Lead.drop ha.drop)
          rw [e4, ← hS] at h5 h5' h7
          have h7' : ¬ StartsFlag (A.value ++ (a4 ++ (kw ++ y'))) := by
            intro h
            refine h7 ?_
            have := (hsite (u := flagsText fl ++ A.gap) (v := A.value ++ a4) (by simpa using ha)).symm
            simp only [List.append_assoc] at this
            exact startsFlag_spot this h
          rw [Arg.text, List.append_assoc] at e4
          obtain ⟨a5, e0, e5⟩ := space_before h6.2 e4 ha4 hF
          subst e0
          have h4' := FlagsFit.exch h4 (hW.pre (A.gap ++ (A.value ++ (B.gap ++ a5))))
          have h5'' := Gap.exch h5 ((hW.pre (B.gap ++ a5)).pre A.value)
          have h5''' := Word.exch h5' (hW.pre (B.gap ++ a5))
          simp only [List.append_assoc] at h4' h5'' h5''' h7'
          by_cases ha5 : a5 = []
          · subst ha5
            rw [List.nil_append] at e5
            rw [e5, ← hS] at h6
            refine ⟨fl, A, ⟨B.gap, kw⟩, y', by simp [Arg.text], ?_,
              ⟨?_, ?_⟩, ⟨Gap.exch h6 hW, hkwW⟩, ?_⟩
            · simpa [Arg.text] using h4'
            · simpa [Arg.text] using h5''
            · simpa [Arg.text] using h5'''
            · simpa [Arg.text] using h7'
          · obtain ⟨c, bv, hc⟩ := List.exists_cons_of_ne_nil h6'.1
            rw [hc] at e5
            obtain ⟨a6, e0, e6⟩ := line_before e5 ha4.drop
              (h6'.chars (c := c) (by rw [hc]; simp)).2
              (fun d hd => (h6'.chars (c := d) (by rw [hc]; exact hd)).1) ha5
            rw [← hc] at e0
            subst e0
            rw [← hS] at e6
            subst e6
            refine ⟨fl, A, B, a6 ++ (kw ++ y'), by simp [Arg.text], ?_,
              ⟨?_, ?_⟩, ⟨Gap.exch h6 ((hW.pre a6).pre _), Word.exch h6' (hW.pre a6)⟩, ?_⟩
            · simpa [Arg.text] using h4'
            · simpa [Arg.text] using h5''
            · simpa [Arg.text] using h5'''
            · simpa [Arg.text] using h7'
      · rename_i h3
        rw [if_neg h3]
        have hWx := hW.pre a
        rw [← e] at hWx
        split at hx
        · rename_i h4
          rw [if_pos h4]
          exact hWx.startsSpace hx
        · rename_i h4
          rw [if_neg h4]
          obtain ⟨g1, r, rfl, h5, h6⟩ := hx
          rw [hS] at e
          obtain ⟨a2, e0, e2⟩ := space_before h5.2 e ha hF
          subst e0
          rw [← hS] at e2
          subst e2
          exact ⟨g1, a2 ++ (kw ++ y'), by simp,
            Gap.exch h5 (hW.pre a2), fun h => h6 ((hW.pre a2).symm.eol h)⟩


theorem Spot.lead {x x' : Str} (u : Str) : Spot Broken x x' → Spot Lead (u ++ x) (u ++ x')
  | ⟨a, kw, y, y', e, e', ha, h⟩ =>
    ⟨u ++ a, kw, y, y', by simp [e], by simp [e'], ha u, h⟩

theorem Spot.pre {x x' : Str} (u : Str) : Spot Broken x x' → Spot Broken (u ++ x) (u ++ x')
  | ⟨a, kw, y, y', e, e', ha, h⟩ =>
    ⟨u ++ a, kw, y, y', by simp [e], by simp [e'], ha.pre u, h⟩

end Src
end Verif
