import Verif.Proof.Lines
import Verif.Spec.Lines

/-!
# Parsing does not look beyond the end of a plain line

A plain text has no backslash, `#`, quote or line break.  `chk .loc e` is a static check that the
outcome of `e` on a plain text `s` is the same whether or not a line break and more text follow
`s` (`Sem.local`).
-/

namespace Verif
open Spec

def isPlainChar (c : Char) : Bool :=
  !(c == '\\' || c == '#' || c == '"' || c == '\'' || c == '\n' || c == '\r')

def Plain (s : Str) : Prop := ∀ c ∈ s, isPlainChar c = true

theorem Plain.append_right {a b : Str} (h : Plain (a ++ b)) : Plain b :=
  fun c hc => h c (List.mem_append_right a hc)

/-- What is checked of an expression, run on a plain text `s`:
* `loc`: the outcome is the same if a line break and more text follow;
* `quasi`: the same, provided that `s` is not empty;
* `dead`: it fails, also if a line break and more text follow;
* `stops`: it succeeds at a line break;
* `nq`, `nstop`: it is a negative lookahead of a `quasi` expression (that `stops`). -/
inductive Mode where
  | loc | quasi | dead | stops | nq | nstop

def chk : Mode → PExpr → Bool
  | .loc, .str w => w.all (!isBreak ·)
  | .loc, .istr w => w.all isAlpha
  | .loc, .range lo hi =>
    !(decide (lo ≤ '\n') && decide ('\n' ≤ hi)) && !(decide (lo ≤ '\r') && decide ('\r' ≤ hi))
  | .loc, .any => false
  | .loc, .soi => true
  | .loc, .eoi => false
  | .loc, .seq a b => chk .dead a || (chk .loc a && chk .loc b) ||
      (chk .nstop a && chk .quasi b && consumes b)
  | .loc, .alt a b => chk .loc a && chk .loc b
  | .loc, .star e => chk .loc e
  | .loc, .opt e => chk .loc e
  | .loc, .neg e => chk .loc e
  | .loc, .rule _ _ e => chk .loc e
  | .loc, .recur _ => false
  | .quasi, .str w => (match w with | [] => true | c :: _ => isBreak c) || w.all (!isBreak ·)
  | .quasi, .istr w => w.all isAlpha
  | .quasi, .range _ _ => true
  | .quasi, .any => true
  | .quasi, .soi => true
  | .quasi, .eoi => true
  | .quasi, .seq a b => chk .dead a || (chk .loc a && chk .loc b) || (chk .nq a && chk .quasi b)
  | .quasi, .alt a b => chk .quasi a && chk .quasi b
  | .quasi, .star e => chk .loc e
  | .quasi, .opt e => chk .quasi e
  | .quasi, .neg e => chk .quasi e
  | .quasi, .rule _ _ e => chk .quasi e
  | .quasi, .recur _ => false
  | .dead, .str w => (match w with | [] => false | c :: _ => !isPlainChar c && !isBreak c)
  | .dead, .seq a b => chk .dead a || (chk .loc a && chk .dead b)
  | .dead, .alt a b => chk .dead a && chk .dead b
  | .dead, .rule _ _ e => chk .dead e
  | .dead, _ => false
  | .stops, .str w => w == ['\n']
  | .stops, .alt a b => chk .stops a || (safe false a && chk .stops b)
  | .stops, .rule _ _ e => chk .stops e
  | .stops, _ => false
  | .nq, .neg e => chk .quasi e
  | .nq, _ => false
  | .nstop, .neg e => chk .quasi e && chk .stops e
  | .nstop, _ => false

theorem nq_neg {a : PExpr} (h : chk .nq a = true) : ∃ n, a = .neg n ∧ chk .quasi n = true := by
  cases a <;> simp [chk] at h
  exact ⟨_, rfl, h⟩

theorem nstop_neg {a : PExpr} (h : chk .nstop a = true) :
    ∃ n, a = .neg n ∧ chk .quasi n = true ∧ chk .stops n = true := by
  cases a <;> simp [chk] at h
  exact ⟨_, rfl, h⟩

theorem stops_sem {e : PExpr} (h : chk .stops e = true) (q : Bool) (p : Nat) (b : Str) :
    ∃ o, Sem e q p ('\n' :: b) (some o) := by
  induction e generalizing q with
  | str w =>
    simp only [chk, beq_iff_eq] at h
    subst h
    exact ⟨_, .str_ok rfl⟩
  | alt x y ihx ihy =>
    simp only [chk, Bool.or_eq_true, Bool.and_eq_true] at h
    rcases h with h | ⟨h1, h2⟩
    · obtain ⟨o, ho⟩ := ihx h q
      exact ⟨o, .alt_left ho⟩
    · have hx := parse_sem h1 q p ('\n' :: b)
      generalize parse x q p ('\n' :: b) = o at hx
      cases o with
      | some o => exact ⟨o, .alt_left hx⟩
      | none =>
        obtain ⟨o, ho⟩ := ihy h2 q
        exact ⟨o, .alt_right hx ho⟩
  | rule k r e ih =>
    obtain ⟨⟨p', s', ts⟩, ho⟩ := ih h (innerQuiet k q)
    exact ⟨_, .rule_ok ho⟩
  | _ => cases h

/-- The outcome with more text behind. -/
def ext (r : Str) : Out → Out
  | none => none
  | some (p, s, ts) => some (p, s ++ r, ts)

theorem plain_head {c : Char} {s : Str} (h : Plain (c :: s)) : isBreak c = false := by
  have := h c (by simp)
  simp [isPlainChar] at this
  simp [isBreak, this]

theorem stripPrefix_ext {w s b : Str} (hw : w.all (!isBreak ·) = true) :
    stripPrefix w (s ++ '\n' :: b) = (stripPrefix w s).map (· ++ '\n' :: b) := by
  induction w generalizing s with
  | nil => simp [stripPrefix]
  | cons c w ih =>
    simp only [List.all_cons, Bool.and_eq_true] at hw
    cases s with
    | nil =>
      simp only [List.nil_append, stripPrefix, Option.map_none]
      rw [if_neg]
      rintro rfl
      exact absurd hw.1 (by decide +kernel)
    | cons d s =>
      simp only [List.cons_append, stripPrefix]
      split
      · exact ih hw.2
      · rfl

theorem stripPrefixI_ext {w s b : Str} (hw : w.all isAlpha = true) :
    stripPrefixI w (s ++ '\n' :: b) = (stripPrefixI w s).map (· ++ '\n' :: b) := by
  induction w generalizing s with
  | nil => simp [stripPrefixI]
  | cons c w ih =>
    simp only [List.all_cons, Bool.and_eq_true] at hw
    cases s with
    | nil =>
      simp only [List.nil_append, stripPrefixI, Option.map_none]
      rw [if_neg]
      intro e
      have h1 : isAlpha (lowerChar c) = true := by
        by_cases h : 'A' ≤ c ∧ c ≤ 'Z'
        · have h1 : 65 ≤ c.toNat ∧ c.toNat ≤ 90 := ⟨h.1, h.2⟩
          have e2 : lowerChar c = Char.ofNat (c.toNat + 32) := by simp [lowerChar, h]
          have e3 : ∀ m, m < 26 → isAlpha (Char.ofNat (m + 65 + 32)) = true := by decide +kernel
          have h := e3 (c.toNat - 65) (by omega)
          rw [show c.toNat - 65 + 65 = c.toNat by omega] at h
          rw [e2, h]
        · rw [lowerChar, if_neg h]; exact hw.1
      rw [e] at h1
      exact absurd h1 (by decide +kernel)
    | cons d s =>
      simp only [List.cons_append, stripPrefixI]
      split
      · exact ih hw.2
      · rfl

theorem take_ext (s s1 r : Str) :
    (s ++ r).take ((s ++ r).length - (s1 ++ r).length) = s.take (s.length - s1.length) := by
  simp only [List.length_append]
  rw [show s.length + r.length - (s1.length + r.length) = s.length - s1.length by omega]
  rw [List.take_append_of_le_length (by omega)]

/-- On a plain text, what comes after the end of the line does not matter. -/
theorem Sem.local {e : PExpr} {q : Bool} {p : Nat} {s : Str} {o : Out} (h : Sem e q p s o)
    (b : Str) : Plain s →
    (chk .loc e = true → Sem e q p (s ++ '\n' :: b) (ext ('\n' :: b) o)) ∧
    (chk .quasi e = true → s ≠ [] → Sem e q p (s ++ '\n' :: b) (ext ('\n' :: b) o)) ∧
    (chk .dead e = true → o = none ∧ Sem e q p (s ++ '\n' :: b) none) := by
  have suf : ∀ {e q p s p' s' ts}, Sem e q p s (some (p', s', ts)) → Plain s → Plain s' := by
    intro e q p s p' s' ts h hp
    obtain ⟨x, e, -⟩ := h.forest _ _ _ rfl
    rw [e] at hp; exact hp.append_right
  induction h with
  | @str_ok w q p s s' h =>
    intro hp
    have key : w.all (!isBreak ·) = true → Sem (.str w) q p (s ++ '\n' :: b)
        (some (p + blen w, s' ++ '\n' :: b, [])) := fun hw =>
      .str_ok (by rw [stripPrefix_ext hw, h]; rfl)
    refine ⟨fun hc => key hc, fun hc hne => ?_, fun hc => ?_⟩
    · simp only [chk, Bool.or_eq_true] at hc
      rcases hc with hc | hc
      · cases w with
        | nil => exact key rfl
        | cons c w =>
          have := stripPrefix_eq_some_iff.1 h; subst this
          exact absurd (plain_head hp) (by simp only [] at hc; simp [hc])
      · exact key hc
    · cases w with
      | nil => simp [chk] at hc
      | cons c w =>
        have := stripPrefix_eq_some_iff.1 h; subst this
        have := hp c (by simp)
        simp [chk, this] at hc
  | @str_fail w q p s h =>
    intro hp
    have key : w.all (!isBreak ·) = true → Sem (.str w) q p (s ++ '\n' :: b) none := fun hw =>
      .str_fail (by rw [stripPrefix_ext hw, h]; rfl)
    refine ⟨fun hc => key hc, fun hc hne => ?_, fun hc => ⟨rfl, ?_⟩⟩
    · simp only [chk, Bool.or_eq_true] at hc
      rcases hc with hc | hc
      · cases w with
        | nil => exact key rfl
        | cons c w =>
          cases s with
          | nil => exact absurd rfl hne
          | cons d s =>
            refine .str_fail ?_
            simp only [List.cons_append, stripPrefix]
            rw [if_neg]
            rintro rfl
            exact absurd (plain_head hp) (by simp only [] at hc; simp [hc])
      · exact key hc
    · cases w with
      | nil => simp [chk] at hc
      | cons c w =>
        simp only [chk, Bool.and_eq_true] at hc
        refine .str_fail ?_
        cases s with
        | nil =>
          simp only [List.nil_append, stripPrefix]
          rw [if_neg]
          rintro rfl
          exact absurd hc.2 (by decide +kernel)
        | cons d s =>
          simp only [List.cons_append, stripPrefix]
          rw [if_neg]
          rintro rfl
          have := hp c (by simp)
          simp [this] at hc
  | @istr_ok w q p s s' h =>
    intro hp
    have key : w.all isAlpha = true → Sem (.istr w) q p (s ++ '\n' :: b)
        (some (p + blen w, s' ++ '\n' :: b, [])) := fun hw =>
      .istr_ok (by rw [stripPrefixI_ext hw, h]; rfl)
    exact ⟨fun hc => key hc, fun hc _ => key hc, fun hc => by cases hc⟩
  | @istr_fail w q p s h =>
    intro hp
    have key : w.all isAlpha = true → Sem (.istr w) q p (s ++ '\n' :: b) none := fun hw =>
      .istr_fail (by rw [stripPrefixI_ext hw, h]; rfl)
    exact ⟨fun hc => key hc, fun hc _ => key hc, fun hc => by cases hc⟩
  | range_ok h =>
    intro hp
    exact ⟨fun _ => .range_ok h, fun _ _ => .range_ok h, fun hc => by cases hc⟩
  | range_fail h =>
    intro hp
    exact ⟨fun _ => .range_fail h, fun _ _ => .range_fail h, fun hc => by cases hc⟩
  | range_nil =>
    intro hp
    refine ⟨fun hc => .range_fail ?_, fun _ hn => absurd rfl hn, fun hc => by cases hc⟩
    simp only [chk, Bool.and_eq_true] at hc
    intro h
    simp [h] at hc
  | any_ok =>
    intro hp
    exact ⟨fun hc => (by cases hc), fun _ _ => .any_ok, fun hc => by cases hc⟩
  | any_nil =>
    intro hp
    exact ⟨fun hc => (by cases hc), fun _ hn => absurd rfl hn, fun hc => by cases hc⟩
  | soi_ok => exact fun _ => ⟨fun _ => .soi_ok, fun _ _ => .soi_ok, fun hc => by cases hc⟩
  | soi_fail h => exact fun _ => ⟨fun _ => .soi_fail h, fun _ _ => .soi_fail h, fun hc => by cases hc⟩
  | eoi_ok =>
    exact fun _ => ⟨fun hc => (by cases hc), fun _ hn => absurd rfl hn, fun hc => by cases hc⟩
  | eoi_fail =>
    exact fun _ => ⟨fun hc => (by cases hc), fun _ _ => .eoi_fail, fun hc => by cases hc⟩
  | @seq_ok x y q p s p1 s1 t1 p2 s2 t2 h1 h2 ih1 ih2 =>
    intro hp
    have i1 := ih1 hp
    have i2 := ih2 (suf h1 hp)
    have base : (chk .dead x = true ∨ chk .loc x = true ∧ chk .loc y = true) →
        Sem (.seq x y) q p (s ++ '\n' :: b) (some (p2, s2 ++ '\n' :: b, t1 ++ t2)) := by
      rintro (hc | ⟨c1, c2⟩)
      · exact absurd (i1.2.2 hc).1 (by simp)
      · exact .seq_ok (i1.1 c1) (i2.1 c2)
    have neg : chk .nq x = true → chk .quasi y = true → s ≠ [] →
        Sem (.seq x y) q p (s ++ '\n' :: b) (some (p2, s2 ++ '\n' :: b, t1 ++ t2)) := by
      intro c1 c2 hs
      obtain ⟨n, rfl, c3⟩ := nq_neg c1
      obtain ⟨-, rfl, rfl, rfl⟩ := sem_neg_some.1 h1
      exact .seq_ok (i1.2.1 c3 hs) (i2.2.1 c2 hs)
    refine ⟨fun hc => ?_, fun hc hs => ?_, fun hc => ?_⟩
    · simp only [chk, Bool.or_eq_true, Bool.and_eq_true] at hc
      rcases hc with hc | ⟨⟨c1, c2⟩, c3⟩
      · exact base hc
      · obtain ⟨n, rfl, c4, c5⟩ := nstop_neg c1
        refine neg c4 c2 ?_
        rintro rfl
        have := (Sem.seq_ok h1 h2).consumes _ _ _ rfl
        have := this.2 (by simp [Verif.consumes, c3])
        simp at this
    · simp only [chk, Bool.or_eq_true, Bool.and_eq_true] at hc
      rcases hc with hc | ⟨c1, c2⟩
      · exact base hc
      · exact neg c1 c2 hs
    · simp only [chk, Bool.or_eq_true, Bool.and_eq_true] at hc
      rcases hc with hc | ⟨-, hc⟩
      · exact absurd (i1.2.2 hc).1 (by simp)
      · exact absurd (i2.2.2 hc).1 (by simp)
  | @seq_fail1 x y q p s h1 ih1 =>
    intro hp
    have i1 := ih1 hp
    have base : (chk .dead x = true ∨ chk .loc x = true) →
        Sem (.seq x y) q p (s ++ '\n' :: b) none := by
      rintro (hc | hc)
      · exact .seq_fail1 (i1.2.2 hc).2
      · exact .seq_fail1 (i1.1 hc)
    refine ⟨fun hc => ?_, fun hc hs => ?_, fun hc => ?_⟩
    · simp only [chk, Bool.or_eq_true, Bool.and_eq_true] at hc
      rcases hc with (hc | hc) | ⟨⟨c1, c2⟩, c3⟩
      · exact base (.inl hc)
      · exact base (.inr hc.1)
      · obtain ⟨n, rfl, c4, c5⟩ := nstop_neg c1
        cases s with
        | nil =>
          obtain ⟨o, ho⟩ := stops_sem c5 q p b
          exact .seq_fail1 (.neg_fail ho)
        | cons c s => exact .seq_fail1 (i1.2.1 c4 (by simp))
    · simp only [chk, Bool.or_eq_true, Bool.and_eq_true] at hc
      rcases hc with (hc | hc) | ⟨c1, c2⟩
      · exact base (.inl hc)
      · exact base (.inr hc.1)
      · obtain ⟨n, rfl, c4⟩ := nq_neg c1
        exact .seq_fail1 (i1.2.1 c4 hs)
    · simp only [chk, Bool.or_eq_true, Bool.and_eq_true] at hc
      rcases hc with hc | hc
      · exact ⟨rfl, base (.inl hc)⟩
      · exact ⟨rfl, base (.inr hc.1)⟩
  | @seq_fail2 x y q p s p1 s1 t1 h1 h2 ih1 ih2 =>
    intro hp
    have i1 := ih1 hp
    have i2 := ih2 (suf h1 hp)
    have base : (chk .dead x = true ∨ chk .loc x = true ∧ (chk .loc y = true ∨ chk .dead y = true)) →
        Sem (.seq x y) q p (s ++ '\n' :: b) none := by
      rintro (hc | ⟨c1, c2 | c2⟩)
      · exact absurd (i1.2.2 hc).1 (by simp)
      · exact .seq_fail2 (i1.1 c1) (i2.1 c2)
      · exact .seq_fail2 (i1.1 c1) (i2.2.2 c2).2
    have neg : chk .nq x = true → chk .quasi y = true → s ≠ [] →
        Sem (.seq x y) q p (s ++ '\n' :: b) none := by
      intro c1 c2 hs
      obtain ⟨n, rfl, c3⟩ := nq_neg c1
      obtain ⟨-, rfl, rfl, rfl⟩ := sem_neg_some.1 h1
      exact .seq_fail2 (i1.2.1 c3 hs) (i2.2.1 c2 hs)
    refine ⟨fun hc => ?_, fun hc hs => ?_, fun hc => ?_⟩
    · simp only [chk, Bool.or_eq_true, Bool.and_eq_true] at hc
      rcases hc with (hc | hc) | ⟨⟨c1, c2⟩, c3⟩
      · exact base (.inl hc)
      · exact base (.inr ⟨hc.1, .inl hc.2⟩)
      · obtain ⟨n, rfl, c4, c5⟩ := nstop_neg c1
        cases s with
        | nil =>
          obtain ⟨o, ho⟩ := stops_sem c5 q p b
          exact .seq_fail1 (.neg_fail ho)
        | cons c s => exact neg c4 c2 (by simp)
    · simp only [chk, Bool.or_eq_true, Bool.and_eq_true] at hc
      rcases hc with (hc | hc) | ⟨c1, c2⟩
      · exact base (.inl hc)
      · exact base (.inr ⟨hc.1, .inl hc.2⟩)
      · exact neg c1 c2 hs
    · simp only [chk, Bool.or_eq_true, Bool.and_eq_true] at hc
      rcases hc with hc | hc
      · exact ⟨rfl, base (.inl hc)⟩
      · exact ⟨rfl, base (.inr ⟨hc.1, .inr hc.2⟩)⟩
  | @alt_left x y q p s r h ih =>
    intro hp
    obtain ⟨p', s', ts⟩ := r
    have i := ih hp
    refine ⟨fun hc => ?_, fun hc hs => ?_, fun hc => ?_⟩ <;>
      simp only [chk, Bool.and_eq_true] at hc
    · exact .alt_left (i.1 hc.1)
    · exact .alt_left (i.2.1 hc.1 hs)
    · exact absurd (i.2.2 hc.1).1 (by simp)
  | @alt_right x y q p s r h1 h2 ih1 ih2 =>
    intro hp
    have i1 := ih1 hp
    have i2 := ih2 hp
    refine ⟨fun hc => ?_, fun hc hs => ?_, fun hc => ?_⟩ <;>
      simp only [chk, Bool.and_eq_true] at hc
    · exact .alt_right (i1.1 hc.1) (i2.1 hc.2)
    · exact .alt_right (i1.2.1 hc.1 hs) (i2.2.1 hc.2 hs)
    · exact ⟨(i2.2.2 hc.2).1, .alt_right (i1.2.2 hc.1).2 (i2.2.2 hc.2).2⟩
  | star_nil h ih =>
    intro hp
    have i := ih hp
    exact ⟨fun hc => .star_nil (i.1 hc), fun hc _ => .star_nil (i.1 hc), fun hc => by cases hc⟩
  | star_cons h1 h2 ih1 ih2 =>
    intro hp
    have i1 := ih1 hp
    have i2 := ih2 (suf h1 hp)
    exact ⟨fun hc => .star_cons (i1.1 hc) (i2.1 hc), fun hc _ => .star_cons (i1.1 hc) (i2.1 hc),
      fun hc => by cases hc⟩
  | @opt_some e q p s r h ih =>
    intro hp
    obtain ⟨p', s', ts⟩ := r
    have i := ih hp
    exact ⟨fun hc => .opt_some (i.1 hc), fun hc hs => .opt_some (i.2.1 hc hs),
      fun hc => by cases hc⟩
  | opt_none h ih =>
    intro hp
    have i := ih hp
    exact ⟨fun hc => .opt_none (i.1 hc), fun hc hs => .opt_none (i.2.1 hc hs),
      fun hc => by cases hc⟩
  | neg_ok h ih =>
    intro hp
    have i := ih hp
    exact ⟨fun hc => .neg_ok (i.1 hc), fun hc hs => .neg_ok (i.2.1 hc hs), fun hc => by cases hc⟩
  | @neg_fail e q p s r h ih =>
    intro hp
    obtain ⟨p', s', ts⟩ := r
    have i := ih hp
    exact ⟨fun hc => .neg_fail (i.1 hc), fun hc hs => .neg_fail (i.2.1 hc hs),
      fun hc => by cases hc⟩
  | @rule_ok k r e q p s p1 s1 t1 h ih =>
    intro hp
    have i := ih hp
    have key : Sem e (innerQuiet k q) p (s ++ '\n' :: b) (some (p1, s1 ++ '\n' :: b, t1)) →
        Sem (.rule k r e) q p (s ++ '\n' :: b)
          (ext ('\n' :: b)
            (some (p1, s1, emitToks k r q p p1 (s.take (s.length - s1.length)) t1))) := by
      intro hk
      have := Sem.rule_ok (r := r) hk
      rw [take_ext] at this
      exact this
    exact ⟨fun hc => key (i.1 hc), fun hc hs => key (i.2.1 hc hs),
      fun hc => absurd (i.2.2 hc).1 (by simp)⟩
  | rule_fail h ih =>
    intro hp
    have i := ih hp
    exact ⟨fun hc => .rule_fail (i.1 hc), fun hc hs => .rule_fail (i.2.1 hc hs),
      fun hc => ⟨rfl, .rule_fail (i.2.2 hc).2⟩⟩
  | recur => exact fun _ => ⟨fun hc => (by cases hc), fun hc => (by cases hc), fun hc => by cases hc⟩

theorem loc_meta_step : chk .loc G.meta_step = true := by decide +kernel

/-! ## documents -/

/-- The line loop keeps count of the `FROM`s. -/
def LoopState.Counts (st : LoopState) : Prop :=
  st.fromIndex = fromCount st.instructions ∧ st.fromFound = decide (fromCount st.instructions ≠ 0)

theorem fromCount_append (a b : List Instruction) :
    fromCount (a ++ b) = fromCount a + fromCount b := by
  induction a with
  | nil => simp [fromCount]
  | cons i a ih => cases i <;> simp [fromCount, ih] <;> omega

theorem loopStep_counts {st : LoopState} (h : st.Counts) (i : Instruction) :
    (loopStep st i).Counts := by
  obtain ⟨h1, h2⟩ := h
  cases i <;> simp [loopStep, LoopState.Counts, fromCount_append, fromCount, h1, h2]

theorem recordLoop_counts {unq : Unquote} {ts : List Tok} {st st' : LoopState} (h : st.Counts)
    (e : recordLoop unq ts st = .ok st') : st'.Counts := by
  induction ts generalizing st with
  | nil => cases e; exact h
  | cons t ts ih =>
    simp only [recordLoop] at e
    split at e
    · exact ih h e
    · exact ih h e
    · cases hi : instructionOf unq t with
      | error f => rw [hi] at e; cases e
      | ok i =>
        rw [hi] at e
        exact ih (loopStep_counts h i) e

theorem init_counts : LoopState.init.Counts := ⟨rfl, rfl⟩

/-- A document whose first line yields the same tokens alone and with the rest. -/
theorem parse_join {unq : Unquote} {x b : Str} {ts : List Tok}
    (h1 : SemX G.meta_step false 0 x [] ts) (h2 : SemX G.meta_step false 0 x ('\n' :: b) ts) :
    Dockerfile.parse unq (x ++ '\n' :: b) =
      joinResults (Dockerfile.parse unq x) (Dockerfile.parse unq b) := by
  have hn : LineBreak ['\n'] b := .inl rfl
  have e : x ++ '\n' :: b = x ++ ['\n'] ++ b := by simp
  rw [parse_line_last h1, e]
  cases hr : recordLoop unq ts .init with
  | error f =>
    rw [parse_line_error h2 hn hr, mapped_error]
    cases hb : Dockerfile.parse unq b with
    | ok d =>
      have : docToks 0 b ≠ none := fun h => by
        rw [(parse_error_iff (unq := unq)).2 h] at hb; cases hb
      simp [joinResults, this]
    | error g =>
      simp only [joinResults]
      by_cases hg : g = .err .parseError
      · subst hg
        rw [if_pos (parse_error_iff.1 hb), if_pos rfl]
      · rw [if_neg hg, if_neg]
        intro h
        rw [(parse_error_iff (unq := unq)).2 h] at hb
        cases hb
        exact hg rfl
  | ok st =>
    rw [parse_line_cons h2 hn hr, mapped_ok]
    obtain ⟨c1, c2⟩ := recordLoop_counts init_counts hr
    cases hb : Dockerfile.parse unq b with
    | error g => rfl
    | ok d =>
      have hc := (parse_ok_inv hb).1
      simp only [mapped_ok, joinResults, joinDocs, LoopState.done, hc, c1, c2]
      by_cases h0 : fromCount st.instructions = 0 <;> simp [h0, blen, show '\n'.utf8Size = 1 from rfl]

/-- If the first line does not make up the whole line, there is no document. -/
theorem docToks_stuck {p p' : Nat} {s s' : Str} {ts : List Tok}
    (h : Sem G.meta_step false p s (some (p', s', ts))) {c : Char} {b : Str} (e : s' = c :: b)
    (hc : isBreak c = false) : docToks p s = none := by
  unfold docToks
  subst e
  have h1 : Sem G.NEWLINE false p' (c :: b) none := by
    refine lex_NEWLINE.none_iff.2 ?_
    unfold afterBreak
    simp [isBreak] at hc
    split <;> simp_all
  have h4 : Sem G.lines false p s none :=
    .seq_fail2 h (.seq_fail2 (.star_nil (.seq_fail1 h1)) (.rule_fail .eoi_fail))
  rw [(parse_eq_iff safe_lines).2 h4]; rfl

theorem safe_meta_step : safe false G.meta_step = true := by decide +kernel

theorem meta_step_some (p : Nat) (s : Str) :
    ∃ p' s' ts, Sem G.meta_step false p s (some (p', s', ts)) := by
  have h := parse_sem safe_meta_step false p s
  generalize parse G.meta_step false p s = o at h
  cases o with
  | some o => exact ⟨_, _, _, h⟩
  | none =>
    exfalso
    rcases sem_seq_none.1 h with h | ⟨_, _, _, -, h⟩
    · exact Sem.star_ne_none h
    · rcases sem_seq_none.1 h with h | ⟨_, _, _, -, h⟩
      · cases h
      · exact Sem.star_ne_none h

theorem parse_plain_line {unq : Unquote} {x b : Str} (hx : PlainLine x) :
    Dockerfile.parse unq (x ++ '\n' :: b) =
      joinResults (Dockerfile.parse unq x) (Dockerfile.parse unq b) := by
  have hn : LineBreak ['\n'] b := .inl rfl
  rcases hx with hx | ⟨w, t, rfl, hw, ht⟩ | hx
  · exact parse_join (line_blank hx _ .nil) ((line_blank hx).at hn)
  · exact parse_join (line_comment hw ht _ .nil) ((line_comment hw ht).at hn)
  · have hp : Plain x := by
      intro c hc
      have := hx c hc
      simp [isPlainChar, this]
    obtain ⟨p', s', ts, h⟩ := meta_step_some 0 x
    have h2 := (h.local b hp).1 loc_meta_step
    simp only [ext] at h2
    cases s' with
    | nil =>
      obtain ⟨y, rfl, rfl, h3⟩ := h.x
      rw [List.append_nil] at h2 ⊢
      exact parse_join h3 h2
    | cons c s' =>
      obtain ⟨y, rfl, -, -⟩ := h.x
      have hc : isBreak c = false := plain_head hp.append_right
      rw [parse_error_iff.2 (docToks_stuck h rfl hc), parse_error_iff.2 (docToks_stuck h2 rfl hc)]
      cases Dockerfile.parse unq b with
      | ok d => rfl
      | error e => simp only [joinResults]; split <;> simp_all

theorem parse_plain_lines {unq : Unquote} {x : Str} {ys : List Str}
    (h : ∀ y ∈ (x :: ys).dropLast, PlainLine y) :
    Dockerfile.parse unq (unlines x ys) = parseLines unq x ys := by
  induction ys generalizing x with
  | nil => rfl
  | cons y ys ih =>
    simp only [unlines, parseLines]
    rw [parse_plain_line (h x (by simp)), ih fun z hz => h z (by simp at hz ⊢; exact .inr hz)]

/-! ## success -/

/-- All lines parse. -/
theorem joinResults_ok {a b : Result Dockerfile} {d : Dockerfile} :
    joinResults a b = .ok d ↔ ∃ x y, a = .ok x ∧ b = .ok y ∧ d = joinDocs x y := by
  cases a <;> cases b <;> simp [joinResults, eq_comm]
  split <;> simp

end Verif
