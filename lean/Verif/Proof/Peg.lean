import Verif.Model.Grammar
import Verif.Proof.Str

/-!
# Metatheory of the PEG engine

* `Sem`: the usual big-step semantics of parsing expressions, without fuel;
* `sem_of_run`, `Sem.det`: the interpreter agrees with it, and it is deterministic;
* `runFuel_ne_oof`: `s.length + 1` units of fuel suffice for every expression whose repetitions
  and recursive references are guarded by consumption (`safe`), so `parse` is exactly `Sem`
  (`parse_eq_iff`);
* `Forest`, `parse_forest`: the tokens are properly nested, in order, and their texts are the
  slices of the input at their spans.
-/

namespace Verif

/-- Result of a (terminating) run: position, rest and tokens, or failure. -/
abbrev Out := Option (Nat × Str × List Tok)

/-- Big-step semantics of parsing expressions. -/
inductive Sem : PExpr → Bool → Nat → Str → Out → Prop
  | str_ok {w q p s s'} : stripPrefix w s = some s' →
      Sem (.str w) q p s (some (p + blen w, s', []))
  | str_fail {w q p s} : stripPrefix w s = none → Sem (.str w) q p s none
  | istr_ok {w q p s s'} : stripPrefixI w s = some s' →
      Sem (.istr w) q p s (some (p + blen w, s', []))
  | istr_fail {w q p s} : stripPrefixI w s = none → Sem (.istr w) q p s none
  | range_ok {lo hi q p c s} : lo ≤ c ∧ c ≤ hi →
      Sem (.range lo hi) q p (c :: s) (some (p + c.utf8Size, s, []))
  | range_fail {lo hi q p c s} : ¬ (lo ≤ c ∧ c ≤ hi) → Sem (.range lo hi) q p (c :: s) none
  | range_nil {lo hi q p} : Sem (.range lo hi) q p [] none
  | any_ok {q p c s} : Sem .any q p (c :: s) (some (p + c.utf8Size, s, []))
  | any_nil {q p} : Sem .any q p [] none
  | soi_ok {q s} : Sem .soi q 0 s (some (0, s, []))
  | soi_fail {q p s} : p ≠ 0 → Sem .soi q p s none
  | eoi_ok {q p} : Sem .eoi q p [] (some (p, [], []))
  | eoi_fail {q p c s} : Sem .eoi q p (c :: s) none
  | seq_ok {a b q p s p1 s1 t1 p2 s2 t2} : Sem a q p s (some (p1, s1, t1)) →
      Sem b q p1 s1 (some (p2, s2, t2)) → Sem (.seq a b) q p s (some (p2, s2, t1 ++ t2))
  | seq_fail1 {a b q p s} : Sem a q p s none → Sem (.seq a b) q p s none
  | seq_fail2 {a b q p s p1 s1 t1} : Sem a q p s (some (p1, s1, t1)) →
      Sem b q p1 s1 none → Sem (.seq a b) q p s none
  | alt_left {a b q p s r} : Sem a q p s (some r) → Sem (.alt a b) q p s (some r)
  | alt_right {a b q p s r} : Sem a q p s none → Sem b q p s r → Sem (.alt a b) q p s r
  | star_nil {e q p s} : Sem e q p s none → Sem (.star e) q p s (some (p, s, []))
  | star_cons {e q p s p1 s1 t1 p2 s2 t2} : Sem e q p s (some (p1, s1, t1)) →
      Sem (.star e) q p1 s1 (some (p2, s2, t2)) → Sem (.star e) q p s (some (p2, s2, t1 ++ t2))
  | opt_some {e q p s r} : Sem e q p s (some r) → Sem (.opt e) q p s (some r)
  | opt_none {e q p s} : Sem e q p s none → Sem (.opt e) q p s (some (p, s, []))
  | neg_ok {e q p s} : Sem e q p s none → Sem (.neg e) q p s (some (p, s, []))
  | neg_fail {e q p s r} : Sem e q p s (some r) → Sem (.neg e) q p s none
  | rule_ok {k r e q p s p1 s1 t1} : Sem e (innerQuiet k q) p s (some (p1, s1, t1)) →
      Sem (.rule k r e) q p s
        (some (p1, s1, emitToks k r q p p1 (s.take (s.length - s1.length)) t1))
  | rule_fail {k r e q p s} : Sem e (innerQuiet k q) p s none → Sem (.rule k r e) q p s none
  | recur {r q p s o} : Sem (G.body r) q p s o → Sem (.recur r) q p s o

/-- The terminating outcomes of the interpreter. -/
def Res.out : Res → Option Out
  | .oof => none
  | .fail => some none
  | .ok p s ts => some (some (p, s, ts))

theorem Sem.star_ne_none {e : PExpr} {q : Bool} {p : Nat} {s : Str} :
    ¬ Sem (.star e) q p s none := by
  intro h; cases h

/-! ## inversion -/

theorem sem_seq_some {a b : PExpr} {q p s p2 s2 ts} :
    Sem (.seq a b) q p s (some (p2, s2, ts)) ↔
      ∃ p1 s1 t1 t2, Sem a q p s (some (p1, s1, t1)) ∧ Sem b q p1 s1 (some (p2, s2, t2)) ∧
        ts = t1 ++ t2 := by
  constructor
  · intro h; cases h with | seq_ok h1 h2 => exact ⟨_, _, _, _, h1, h2, rfl⟩
  · rintro ⟨p1, s1, t1, t2, h1, h2, rfl⟩; exact .seq_ok h1 h2

theorem sem_seq_none {a b : PExpr} {q p s} :
    Sem (.seq a b) q p s none ↔
      Sem a q p s none ∨ ∃ p1 s1 t1, Sem a q p s (some (p1, s1, t1)) ∧ Sem b q p1 s1 none := by
  constructor
  · intro h
    cases h with
    | seq_fail1 h1 => exact .inl h1
    | seq_fail2 h1 h2 => exact .inr ⟨_, _, _, h1, h2⟩
  · rintro (h | ⟨p1, s1, t1, h1, h2⟩)
    · exact .seq_fail1 h
    · exact .seq_fail2 h1 h2

theorem sem_alt_some {a b : PExpr} {q p s r} :
    Sem (.alt a b) q p s (some r) ↔
      Sem a q p s (some r) ∨ (Sem a q p s none ∧ Sem b q p s (some r)) := by
  constructor
  · intro h
    cases h with
    | alt_left h => exact .inl h
    | alt_right h1 h2 => exact .inr ⟨h1, h2⟩
  · rintro (h | ⟨h1, h2⟩)
    · exact .alt_left h
    · exact .alt_right h1 h2

theorem sem_alt_none {a b : PExpr} {q p s} :
    Sem (.alt a b) q p s none ↔ Sem a q p s none ∧ Sem b q p s none := by
  constructor
  · intro h; cases h with | alt_right h1 h2 => exact ⟨h1, h2⟩
  · rintro ⟨h1, h2⟩; exact .alt_right h1 h2

theorem sem_opt_some {e : PExpr} {q p s p2 s2 ts} :
    Sem (.opt e) q p s (some (p2, s2, ts)) ↔
      Sem e q p s (some (p2, s2, ts)) ∨
        (Sem e q p s none ∧ p2 = p ∧ s2 = s ∧ ts = []) := by
  constructor
  · intro h
    cases h with
    | opt_some h => exact .inl h
    | opt_none h => exact .inr ⟨h, rfl, rfl, rfl⟩
  · rintro (h | ⟨h, rfl, rfl, rfl⟩)
    · exact .opt_some h
    · exact .opt_none h

theorem sem_neg_some {e : PExpr} {q p s p2 s2 ts} :
    Sem (.neg e) q p s (some (p2, s2, ts)) ↔
      Sem e q p s none ∧ p2 = p ∧ s2 = s ∧ ts = [] := by
  constructor
  · intro h; cases h with | neg_ok h => exact ⟨h, rfl, rfl, rfl⟩
  · rintro ⟨h, rfl, rfl, rfl⟩; exact .neg_ok h

theorem sem_rule_some {k r e} {q p s p2 s2 ts} :
    Sem (.rule k r e) q p s (some (p2, s2, ts)) ↔
      ∃ t1, Sem e (innerQuiet k q) p s (some (p2, s2, t1)) ∧
        ts = emitToks k r q p p2 (s.take (s.length - s2.length)) t1 := by
  constructor
  · intro h; cases h with | rule_ok h => exact ⟨_, h, rfl⟩
  · rintro ⟨t1, h, rfl⟩; exact .rule_ok h

theorem sem_rule_none {k r e} {q p s} :
    Sem (.rule k r e) q p s none ↔ Sem e (innerQuiet k q) p s none := by
  constructor
  · intro h; cases h with | rule_fail h => exact h
  · exact .rule_fail

theorem sem_recur {r : RecRule} {q p s o} : Sem (.recur r) q p s o ↔ Sem (G.body r) q p s o := by
  constructor
  · intro h; cases h with | recur h => exact h
  · exact .recur

theorem sem_str_some {w : Str} {q p s p2 s2 ts} :
    Sem (.str w) q p s (some (p2, s2, ts)) ↔ s = w ++ s2 ∧ p2 = p + blen w ∧ ts = [] := by
  constructor
  · intro h; cases h with | str_ok h => exact ⟨stripPrefix_eq_some_iff.1 h, rfl, rfl⟩
  · rintro ⟨rfl, rfl, rfl⟩; exact .str_ok (stripPrefix_eq_some_iff.2 rfl)

/-! ## determinism -/

theorem Sem.det {e : PExpr} {q : Bool} {p : Nat} {s : Str} {r r' : Out}
    (h : Sem e q p s r) (h' : Sem e q p s r') : r = r' := by
  induction h generalizing r' with
  | str_ok h => cases h' <;> simp_all
  | str_fail h => cases h' <;> simp_all
  | istr_ok h => cases h' <;> simp_all
  | istr_fail h => cases h' <;> simp_all
  | range_ok h => cases h' with
    | range_ok => rfl
    | range_fail h2 => exact absurd h h2
  | range_fail h => cases h' with
    | range_ok h2 => exact absurd h2 h
    | range_fail => rfl
  | range_nil => cases h'; rfl
  | any_ok => cases h'; rfl
  | any_nil => cases h'; rfl
  | soi_ok => cases h' with
    | soi_ok => rfl
    | soi_fail h => exact absurd rfl h
  | soi_fail h => cases h' with
    | soi_ok => exact absurd rfl h
    | soi_fail => rfl
  | eoi_ok => cases h'; rfl
  | eoi_fail => cases h'; rfl
  | seq_ok h1 h2 ih1 ih2 =>
    cases h' with
    | seq_ok g1 g2 =>
      have := ih1 g1; simp only [Option.some.injEq, Prod.mk.injEq] at this
      obtain ⟨rfl, rfl, rfl⟩ := this
      have := ih2 g2; simp only [Option.some.injEq, Prod.mk.injEq] at this
      obtain ⟨rfl, rfl, rfl⟩ := this; rfl
    | seq_fail1 g1 => exact absurd (ih1 g1) (by simp)
    | seq_fail2 g1 g2 =>
      have := ih1 g1; simp only [Option.some.injEq, Prod.mk.injEq] at this
      obtain ⟨rfl, rfl, rfl⟩ := this
      exact absurd (ih2 g2) (by simp)
  | seq_fail1 h1 ih1 =>
    cases h' with
    | seq_ok g1 g2 => exact absurd (ih1 g1) (by simp)
    | seq_fail1 g1 => rfl
    | seq_fail2 g1 g2 => rfl
  | seq_fail2 h1 h2 ih1 ih2 =>
    cases h' with
    | seq_ok g1 g2 =>
      have := ih1 g1; simp only [Option.some.injEq, Prod.mk.injEq] at this
      obtain ⟨rfl, rfl, rfl⟩ := this
      exact absurd (ih2 g2) (by simp)
    | seq_fail1 g1 => rfl
    | seq_fail2 g1 g2 => rfl
  | alt_left h ih =>
    cases h' with
    | alt_left g => exact ih g
    | alt_right g1 g2 => exact absurd (ih g1) (by simp)
  | alt_right h1 h2 ih1 ih2 =>
    cases h' with
    | alt_left g => exact absurd (ih1 g) (by simp)
    | alt_right g1 g2 => exact ih2 g2
  | star_nil h ih =>
    cases h' with
    | star_nil g => rfl
    | star_cons g1 g2 => exact absurd (ih g1) (by simp)
  | star_cons h1 h2 ih1 ih2 =>
    cases h' with
    | star_nil g => exact absurd (ih1 g) (by simp)
    | star_cons g1 g2 =>
      have := ih1 g1; simp only [Option.some.injEq, Prod.mk.injEq] at this
      obtain ⟨rfl, rfl, rfl⟩ := this
      have := ih2 g2; simp only [Option.some.injEq, Prod.mk.injEq] at this
      obtain ⟨rfl, rfl, rfl⟩ := this; rfl
  | opt_some h ih =>
    cases h' with
    | opt_some g => exact ih g
    | opt_none g => exact absurd (ih g) (by simp)
  | opt_none h ih =>
    cases h' with
    | opt_some g => exact absurd (ih g) (by simp)
    | opt_none g => rfl
  | neg_ok h ih =>
    cases h' with
    | neg_ok g => rfl
    | neg_fail g => exact absurd (ih g) (by simp)
  | neg_fail h ih =>
    cases h' with
    | neg_ok g => exact absurd (ih g) (by simp)
    | neg_fail g => rfl
  | rule_ok h ih =>
    cases h' with
    | rule_ok g =>
      have := ih g; simp only [Option.some.injEq, Prod.mk.injEq] at this
      obtain ⟨rfl, rfl, rfl⟩ := this; rfl
    | rule_fail g => exact absurd (ih g) (by simp)
  | rule_fail h ih =>
    cases h' with
    | rule_ok g => exact absurd (ih g) (by simp)
    | rule_fail g => rfl
  | recur h ih =>
    cases h' with
    | recur g => exact ih g

/-! ## the interpreter is sound for `Sem` -/

theorem sem_of_step {again : PExpr → Bool → Nat → Str → Res}
    (ha : ∀ e q p s o, (again e q p s).out = some o → Sem e q p s o)
    (e : PExpr) (q : Bool) (p : Nat) (s : Str) (o : Out)
    (h : (step G.body again e q p s).out = some o) : Sem e q p s o := by
  induction e generalizing q p s o with
  | str w =>
    rw [step] at h; split at h
    · cases h; exact .str_ok ‹_›
    · cases h; exact .str_fail ‹_›
  | istr w =>
    rw [step] at h; split at h
    · cases h; exact .istr_ok ‹_›
    · cases h; exact .istr_fail ‹_›
  | range lo hi =>
    cases s with
    | nil => rw [step] at h; cases h; exact .range_nil
    | cons c s =>
      simp only [step] at h; split at h
      · cases h; exact .range_ok ‹_›
      · cases h; exact .range_fail ‹_›
  | any =>
    cases s with
    | nil => rw [step] at h; cases h; exact .any_nil
    | cons c s => simp only [step] at h; cases h; exact .any_ok
  | soi =>
    rw [step] at h; split at h
    · subst_vars; cases h; exact .soi_ok
    · cases h; exact .soi_fail ‹_›
  | eoi =>
    cases s with
    | nil => rw [step] at h; cases h; exact .eoi_ok
    | cons c s => simp only [step] at h; cases h; exact .eoi_fail
  | seq a b iha ihb =>
    rw [step] at h; split at h
    · rename_i p1 s1 t1 h1
      have g1 := iha q p s _ (by rw [h1]; rfl)
      split at h
      · rename_i p2 s2 t2 h2; cases h
        exact .seq_ok g1 (ihb q p1 s1 _ (by rw [h2]; rfl))
      · rename_i h2; cases h
        exact .seq_fail2 g1 (ihb q p1 s1 _ (by rw [h2]; rfl))
      · cases h
    · rename_i h1; cases h; exact .seq_fail1 (iha q p s _ (by rw [h1]; rfl))
    · cases h
  | alt a b iha ihb =>
    rw [step] at h; split at h
    · rename_i p1 s1 t1 h1; cases h
      exact .alt_left (iha q p s _ (by rw [h1]; rfl))
    · rename_i h1; exact .alt_right (iha q p s _ (by rw [h1]; rfl)) (ihb q p s _ h)
    · cases h
  | star e ih =>
    rw [step] at h; split at h
    · rename_i p1 s1 t1 h1
      have g1 := ih q p s _ (by rw [h1]; rfl)
      split at h
      · rename_i p2 s2 t2 h2; cases h
        exact .star_cons g1 (ha _ q p1 s1 _ (by rw [h2]; rfl))
      · rename_i h2
        exact absurd (ha _ q p1 s1 none (by rw [h2]; rfl)) Sem.star_ne_none
      · cases h
    · rename_i h1; cases h; exact .star_nil (ih q p s _ (by rw [h1]; rfl))
    · cases h
  | opt e ih =>
    rw [step] at h; split at h
    · rename_i p1 s1 t1 h1; cases h; exact .opt_some (ih q p s _ (by rw [h1]; rfl))
    · rename_i h1; cases h; exact .opt_none (ih q p s _ (by rw [h1]; rfl))
    · cases h
  | neg e ih =>
    rw [step] at h; split at h
    · rename_i p1 s1 t1 h1; cases h; exact .neg_fail (ih q p s (some (p1, s1, t1)) (by rw [h1]; rfl))
    · rename_i h1; cases h; exact .neg_ok (ih q p s _ (by rw [h1]; rfl))
    · cases h
  | rule k r e ih =>
    rw [step] at h; split at h
    · rename_i p1 s1 t1 h1; cases h; exact .rule_ok (ih _ p s _ (by rw [h1]; rfl))
    · rename_i h1; cases h; exact .rule_fail (ih _ p s _ (by rw [h1]; rfl))
    · cases h
  | recur r => rw [step] at h; exact .recur (ha _ q p s o h)

theorem sem_of_run {n : Nat} {e : PExpr} {q : Bool} {p : Nat} {s : Str} {o : Out}
    (h : (runFuel G.body n e q p s).out = some o) : Sem e q p s o := by
  induction n generalizing e q p s o with
  | zero => simp [runFuel, Res.out] at h
  | succ n ih => exact sem_of_step (fun e q p s o h => ih h) e q p s o h

/-! ## what a run consumes -/

theorem utf8Size_lowerChar (c : Char) : (lowerChar c).utf8Size = c.utf8Size := by
  unfold lowerChar
  split
  · rename_i h
    obtain ⟨h1, h2⟩ := h
    have h1 : 65 ≤ c.toNat := h1
    have h2 : c.toNat ≤ 90 := h2
    have hv : (c.toNat + 32).isValidChar := Or.inl (by omega)
    have e1 : (Char.ofNat (c.toNat + 32)).toNat = c.toNat + 32 := by
      rw [Char.ofNat, dif_pos hv]; show (UInt32.ofNatLT _ _).toNat = _; exact UInt32.toNat_ofNatLT
    have small : ∀ d : Char, d.toNat ≤ 127 → d.utf8Size = 1 := by
      intro d hd
      unfold Char.utf8Size
      have : d.val ≤ 127 := hd
      simp [this]
    rw [small _ (by omega), small _ (by omega)]
  · rfl

theorem blen_lower (s : Str) : blen (lower s) = blen s := by
  induction s with
  | nil => rfl
  | cons c cs ih => simp only [lower, List.map_cons, blen_cons, utf8Size_lowerChar] at *; rw [ih]

theorem blen_eq_of_lower {a b : Str} (h : lower a = lower b) : blen a = blen b := by
  rw [← blen_lower a, h, blen_lower]

/-- Tokens `ts` lie, in order and without overlap, inside the text `x` found at byte position
`p`; token texts are the texts at their spans and children lie inside their parents. -/
inductive Forest : Nat → Str → List Tok → Prop
  | nil {p x} : Forest p x []
  | cons {p r a b c ch ts} : Forest (p + blen a) b ch → Forest (p + blen a + blen b) c ts →
      Forest p (a ++ b ++ c) (.node r (p + blen a) (p + blen a + blen b) b ch :: ts)

theorem Forest.pad {p : Nat} {x : Str} {ts : List Tok} (h : Forest p x ts) (y : Str) :
    Forest p (x ++ y) ts := by
  induction h with
  | nil => exact .nil
  | cons h1 h2 ih1 ih2 =>
    rw [List.append_assoc]; exact .cons h1 ih2

theorem Forest.padLeft {p : Nat} {x y : Str} {ts : List Tok} (h : Forest (p + blen y) x ts) :
    Forest p (y ++ x) ts := by
  cases h with
  | nil => exact .nil
  | @cons _ r a b c ch ts h1 h2 =>
    have e : p + blen y + blen a = p + blen (y ++ a) := by rw [blen_append]; omega
    rw [e] at h1 h2 ⊢
    have : y ++ (a ++ b ++ c) = (y ++ a) ++ b ++ c := by simp
    rw [this]; exact .cons h1 h2

theorem Forest.append {p : Nat} {x y : Str} {ts us : List Tok} (h : Forest p x ts)
    (h' : Forest (p + blen x) y us) : Forest p (x ++ y) (ts ++ us) := by
  induction h with
  | nil => exact h'.padLeft
  | @cons p r a b c ch ts h1 h2 ih1 ih2 =>
    have e : p + blen (a ++ b ++ c) = p + blen a + blen b + blen c := by
      simp only [blen_append]; omega
    rw [e] at h'
    have := ih2 h'
    rw [List.append_assoc]
    exact .cons h1 this

theorem Forest.sublist {ts : List Tok} : ∀ {us : List Tok}, us.Sublist ts →
    ∀ {p : Nat} {x : Str}, Forest p x ts → Forest p x us := by
  intro us hs
  induction hs with
  | slnil => intro p x h; exact .nil
  | cons a hs ih =>
    intro p x h
    cases h with
    | @cons _ r a b c ch ts h1 h2 =>
      have e : p + blen a + blen b = p + blen (a ++ b) := by rw [blen_append]; omega
      have := ih h2
      rw [e] at this
      exact this.padLeft
  | cons_cons a hs ih =>
    intro p x h
    cases h with
    | cons h1 h2 => exact .cons h1 (ih h2)

theorem Forest.openFirst {p : Nat} {x : Str} {t : Tok} {ts : List Tok} (h : Forest p x (t :: ts)) :
    Forest p x (t.children ++ ts) := by
  cases h with
  | cons h1 h2 => rw [List.append_assoc]; exact (h1.append h2).padLeft

theorem take_append_sub {x s : Str} : (x ++ s).take ((x ++ s).length - s.length) = x := by
  have : (x ++ s).length - s.length = x.length := by simp
  rw [this]; simp

/-- A successful run consumes a prefix of the input, and its tokens are laid out in it. -/
theorem Sem.forest {e : PExpr} {q : Bool} {p : Nat} {s : Str} {o : Out} (h : Sem e q p s o) :
    ∀ p' s' ts, o = some (p', s', ts) →
      ∃ x, s = x ++ s' ∧ p' = p + blen x ∧ Forest p x ts := by
  induction h with
  | @str_ok w q p s s' h =>
    rintro _ _ _ ⟨⟩
    exact ⟨w, stripPrefix_eq_some_iff.1 h, rfl, .nil⟩
  | @istr_ok w q p s s' h =>
    rintro _ _ _ ⟨⟩
    obtain ⟨x, hx, hl⟩ := stripPrefixI_eq_some_iff.1 h
    exact ⟨x, by first | exact hx | exact hl, by rw [blen_eq_of_lower (by first | exact hl | exact hl.symm | exact hx | exact hx.symm)], .nil⟩
  | @range_ok lo hi q p c s h => rintro _ _ _ ⟨⟩; exact ⟨[c], rfl, by simp, .nil⟩
  | @any_ok q p c s => rintro _ _ _ ⟨⟩; exact ⟨[c], rfl, by simp, .nil⟩
  | soi_ok => rintro _ _ _ ⟨⟩; exact ⟨[], rfl, rfl, .nil⟩
  | eoi_ok => rintro _ _ _ ⟨⟩; exact ⟨[], rfl, rfl, .nil⟩
  | seq_ok h1 h2 ih1 ih2 =>
    rintro _ _ _ ⟨⟩
    obtain ⟨x, rfl, rfl, f1⟩ := ih1 _ _ _ rfl
    obtain ⟨y, rfl, rfl, f2⟩ := ih2 _ _ _ rfl
    exact ⟨x ++ y, by simp, by simp [Nat.add_assoc], f1.append f2⟩
  | alt_left h ih => rintro _ _ _ ⟨⟩; exact ih _ _ _ rfl
  | alt_right h1 h2 ih1 ih2 => rintro _ _ _ rfl; exact ih2 _ _ _ rfl
  | star_nil h ih => rintro _ _ _ ⟨⟩; exact ⟨[], rfl, rfl, .nil⟩
  | star_cons h1 h2 ih1 ih2 =>
    rintro _ _ _ ⟨⟩
    obtain ⟨x, rfl, rfl, f1⟩ := ih1 _ _ _ rfl
    obtain ⟨y, rfl, rfl, f2⟩ := ih2 _ _ _ rfl
    exact ⟨x ++ y, by simp, by simp [Nat.add_assoc], f1.append f2⟩
  | opt_some h ih => rintro _ _ _ ⟨⟩; exact ih _ _ _ rfl
  | opt_none h ih => rintro _ _ _ ⟨⟩; exact ⟨[], rfl, rfl, .nil⟩
  | neg_ok h ih => rintro _ _ _ ⟨⟩; exact ⟨[], rfl, rfl, .nil⟩
  | @rule_ok k r e q p s p1 s1 t1 h ih =>
    rintro _ _ _ ⟨⟩
    obtain ⟨x, rfl, rfl, f⟩ := ih _ _ _ rfl
    refine ⟨x, rfl, rfl, ?_⟩
    rw [take_append_sub]
    have node : Forest p x [.node r p (p + blen x) x t1] := by
      have := @Forest.cons p r [] x [] t1 [] (by simpa using f) .nil
      simpa using this
    cases k with
    | normal => cases q with
      | true => exact f
      | false => exact node
    | silent => exact f
    | atomic => cases q with
      | true => exact f
      | false => exact node
    | compound => exact node
  | recur h ih => rintro _ _ _ rfl; exact ih _ _ _ rfl
  | _ => rintro _ _ _ ⟨⟩

/-- Static check: success consumes at least one character. -/
def consumes : PExpr → Bool
  | .str w => !w.isEmpty
  | .istr w => !w.isEmpty
  | .range _ _ => true
  | .any => true
  | .soi => false
  | .eoi => false
  | .seq a b => consumes a || consumes b
  | .alt a b => consumes a && consumes b
  | .star _ => false
  | .opt _ => false
  | .neg _ => false
  | .rule _ _ e => consumes e
  | .recur .any_breakable => true
  | .recur _ => false

theorem Sem.consumes {e : PExpr} {q : Bool} {p : Nat} {s : Str} {o : Out} (h : Sem e q p s o) :
    ∀ p' s' ts, o = some (p', s', ts) → s'.length ≤ s.length ∧
      (consumes e = true → s'.length < s.length) := by
  induction h with
  | @str_ok w q p s s' h =>
    rintro _ _ _ ⟨⟩
    have := stripPrefix_eq_some_iff.1 h; subst this
    refine ⟨by simp, fun h => ?_⟩
    cases w with
    | nil => simp [Verif.consumes] at h
    | cons c w => simp only [List.length_append, List.length_cons]; omega
  | @istr_ok w q p s s' h =>
    rintro _ _ _ ⟨⟩
    obtain ⟨x, hx, hl⟩ := stripPrefixI_eq_some_iff.1 h
    have hlen : x.length = w.length := by
      have := congrArg List.length hl
      simpa [length_lower] using this
    have e : s.length = w.length + s'.length := by rw [hx]; simp [hlen]
    refine ⟨by omega, fun h => ?_⟩
    cases w with
    | nil => simp [Verif.consumes] at h
    | cons c w => simp only [List.length_cons] at e; omega
  | range_ok h => rintro _ _ _ ⟨⟩; simp
  | any_ok => rintro _ _ _ ⟨⟩; simp
  | soi_ok => rintro _ _ _ ⟨⟩; simp [Verif.consumes]
  | eoi_ok => rintro _ _ _ ⟨⟩; simp [Verif.consumes]
  | seq_ok h1 h2 ih1 ih2 =>
    rintro _ _ _ ⟨⟩
    obtain ⟨a1, b1⟩ := ih1 _ _ _ rfl
    obtain ⟨a2, b2⟩ := ih2 _ _ _ rfl
    refine ⟨by omega, fun h => ?_⟩
    simp only [Verif.consumes, Bool.or_eq_true] at h
    rcases h with h | h
    · have := b1 h; omega
    · have := b2 h; omega
  | alt_left h ih =>
    rintro _ _ _ ⟨⟩
    obtain ⟨a, b⟩ := ih _ _ _ rfl
    refine ⟨a, fun h => ?_⟩
    simp only [Verif.consumes, Bool.and_eq_true] at h
    exact b h.1
  | alt_right h1 h2 ih1 ih2 =>
    rintro _ _ _ rfl
    obtain ⟨a, b⟩ := ih2 _ _ _ rfl
    refine ⟨a, fun h => ?_⟩
    simp only [Verif.consumes, Bool.and_eq_true] at h
    exact b h.2
  | star_nil h ih => rintro _ _ _ ⟨⟩; simp [Verif.consumes]
  | star_cons h1 h2 ih1 ih2 =>
    rintro _ _ _ ⟨⟩
    obtain ⟨a1, b1⟩ := ih1 _ _ _ rfl
    obtain ⟨a2, b2⟩ := ih2 _ _ _ rfl
    exact ⟨by omega, fun h => by simp [Verif.consumes] at h⟩
  | opt_some h ih =>
    rintro _ _ _ ⟨⟩
    exact ⟨(ih _ _ _ rfl).1, fun h => by simp [Verif.consumes] at h⟩
  | opt_none h ih => rintro _ _ _ ⟨⟩; simp [Verif.consumes]
  | neg_ok h ih => rintro _ _ _ ⟨⟩; simp [Verif.consumes]
  | rule_ok h ih => rintro _ _ _ ⟨⟩; exact ih _ _ _ rfl
  | @recur r q p s o h ih =>
    rintro _ _ _ rfl
    refine ⟨(ih _ _ _ rfl).1, fun h => (ih _ _ _ rfl).2 ?_⟩
    cases r with
    | any_breakable => rfl
    | inner => cases h
    | single_quoted_inner => cases h
  | _ => rintro _ _ _ ⟨⟩

/-! ## enough fuel -/

/-- Static check: repetitions have consuming bodies, and recursive references occur only after
something has been consumed (`c`: something has been consumed before). -/
def safe : Bool → PExpr → Bool
  | c, .seq a b => safe c a && safe (c || consumes a) b
  | c, .alt a b => safe c a && safe c b
  | _, .star e => safe false e && consumes e
  | c, .opt e => safe c e
  | c, .neg e => safe c e
  | c, .rule _ _ e => safe c e
  | c, .recur _ => c
  | _, _ => true

theorem safe_body (r : RecRule) : safe false (G.body r) = true := by
  cases r <;> decide +kernel

theorem safe_mono (c : Bool) (e : PExpr) (h : safe false e = true) : safe c e = true := by
  induction e generalizing c with
  | seq a b iha ihb =>
    cases c with
    | false => exact h
    | true =>
      simp only [safe, Bool.and_eq_true, Bool.false_or, Bool.true_or] at h ⊢
      refine ⟨iha _ h.1, ?_⟩
      cases hc : consumes a with
      | true => rw [hc] at h; exact h.2
      | false => rw [hc] at h; exact ihb _ h.2
  | alt a b iha ihb =>
    simp only [safe, Bool.and_eq_true] at h ⊢; exact ⟨iha _ h.1, ihb _ h.2⟩
  | star e ih => exact h
  | opt e ih => exact ih _ h
  | neg e ih => exact ih _ h
  | rule k r e ih => exact ih _ h
  | recur r => cases h
  | _ => rfl

/-- Running a safe expression at one layer never runs out of fuel if the next layer has enough
fuel for all safe expressions on inputs of length below `n`.  The input at the start of the layer
has length at most `n`; once something has been consumed (`c`) it is shorter. -/
theorem step_ne_oof {m n : Nat}
    (ha : ∀ e q p s, safe false e = true → s.length < n → runFuel G.body m e q p s ≠ .oof)
    (e : PExpr) (c : Bool) (q : Bool) (p : Nat) (s : Str) (hs : safe c e = true)
    (hl : s.length ≤ n) (hc : c = true → s.length < n) :
    step G.body (runFuel G.body m) e q p s ≠ .oof := by
  have sound : ∀ e q p s p' s' ts, step G.body (runFuel G.body m) e q p s = .ok p' s' ts →
      Sem e q p s (some (p', s', ts)) := by
    intro e q p s p' s' ts h
    exact sem_of_step (fun e q p s o h => sem_of_run h) e q p s _ (by rw [h]; rfl)
  induction e generalizing c q p s with
  | str w => rw [step]; split <;> exact Res.noConfusion
  | istr w => rw [step]; split <;> exact Res.noConfusion
  | range lo hi =>
    cases s with
    | nil => exact Res.noConfusion
    | cons => simp only [step]; split <;> exact Res.noConfusion
  | any => cases s <;> exact Res.noConfusion
  | soi => rw [step]; split <;> exact Res.noConfusion
  | eoi => cases s <;> exact Res.noConfusion
  | seq a b iha ihb =>
    simp only [safe, Bool.and_eq_true] at hs
    rw [step]; split
    · rename_i p1 s1 t1 h1
      have hcons := (sound _ _ _ _ _ _ _ h1).consumes _ _ _ rfl
      have := ihb (c || consumes a) q p1 s1 hs.2 (by omega) (by
        intro h
        rw [Bool.or_eq_true] at h
        rcases h with h | h
        · have := hc h; omega
        · have := hcons.2 h; omega)
      split
      · exact Res.noConfusion
      · exact Res.noConfusion
      · contradiction
    · exact Res.noConfusion
    · have := iha c q p s hs.1 hl hc; contradiction
  | alt a b iha ihb =>
    simp only [safe, Bool.and_eq_true] at hs
    rw [step]; split
    · exact Res.noConfusion
    · exact ihb c q p s hs.2 hl hc
    · have := iha c q p s hs.1 hl hc; contradiction
  | star e ih =>
    have hs' := hs
    simp only [safe, Bool.and_eq_true] at hs
    rw [step]; split
    · rename_i p1 s1 t1 h1
      have hcons := (sound _ _ _ _ _ _ _ h1).consumes _ _ _ rfl
      have := ha (.star e) q p1 s1 (by simpa only [safe, Bool.and_eq_true] using hs)
        (by have := hcons.2 hs.2; omega)
      split
      · exact Res.noConfusion
      · exact Res.noConfusion
      · contradiction
    · exact Res.noConfusion
    · have := ih c q p s (safe_mono _ _ hs.1) hl hc; contradiction
  | opt e ih =>
    rw [step]; split
    · exact Res.noConfusion
    · exact Res.noConfusion
    · have := ih c q p s hs hl hc; contradiction
  | neg e ih =>
    rw [step]; split
    · exact Res.noConfusion
    · exact Res.noConfusion
    · have := ih c q p s hs hl hc; contradiction
  | rule k r e ih =>
    rw [step]; split
    · exact Res.noConfusion
    · exact Res.noConfusion
    · have := ih c (innerQuiet k q) p s hs hl hc; contradiction
  | recur r =>
    rw [step]; exact ha _ q p s (safe_body r) (hc hs)

/-- **The engine terminates**: with `s.length + 1` units of fuel the interpreter never runs out
of fuel on a safe expression. -/
theorem runFuel_ne_oof (n : Nat) (e : PExpr) (q : Bool) (p : Nat) (s : Str)
    (he : safe false e = true) (hn : s.length < n) : runFuel G.body n e q p s ≠ .oof := by
  induction n generalizing e q p s with
  | zero => omega
  | succ n ih =>
    exact step_ne_oof (n := n) (fun e q p s h1 h2 => ih e q p s h1 h2) e false q p s he
      (by omega) (by intro h; cases h)

/-- `parse` computes the big-step semantics. -/
theorem parse_sem {e : PExpr} (he : safe false e = true) (q : Bool) (p : Nat) (s : Str) :
    Sem e q p s (parse e q p s) := by
  have h := runFuel_ne_oof (s.length + 2) e q p s he (by omega)
  unfold parse
  cases hr : runFuel G.body (s.length + 2) e q p s with
  | oof => exact absurd hr h
  | fail => exact sem_of_run (n := s.length + 2) (by rw [hr]; rfl)
  | ok p' s' ts => exact sem_of_run (n := s.length + 2) (by rw [hr]; rfl)

theorem parse_eq_iff {e : PExpr} (he : safe false e = true) {q : Bool} {p : Nat} {s : Str}
    {o : Out} : parse e q p s = o ↔ Sem e q p s o :=
  ⟨fun h => h ▸ parse_sem he q p s, fun h => (parse_sem he q p s).det h⟩

/-- The tokens of a parse are properly nested and carry the texts at their spans. -/
theorem parse_forest {e : PExpr} (he : safe false e = true) {q : Bool} {p : Nat} {s : Str}
    {p' : Nat} {s' : Str} {ts : List Tok} (h : parse e q p s = some (p', s', ts)) :
    ∃ x, s = x ++ s' ∧ p' = p + blen x ∧ Forest p x ts :=
  ((parse_eq_iff he).1 h).forest _ _ _ rfl

theorem safe_dockerfile : safe false G.dockerfile = true := by decide +kernel

end Verif
