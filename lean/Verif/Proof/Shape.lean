import Verif.Proof.Peg

/-!
# Which tokens an expression can emit

`Shape e q ts` is a context-free over-approximation of the token lists `ts` that a successful run
of `e` under atomicity `q` can emit; the leaves remember that the token was made by a run of its
rule (`Made`).
-/

namespace Verif

/-- Zero or more blocks satisfying `P`. -/
inductive Many (P : List Tok → Prop) : List Tok → Prop
  | nil : Many P []
  | cons {a b} : P a → Many P b → Many P (a ++ b)

/-- `t` is a token emitted by a successful run of the rule `r` with kind `k` and body `e`. -/
def Made (k : Kind) (r : Rule) (e : PExpr) (t : Tok) : Prop :=
  t.rule = r ∧ ∃ s', Sem e (innerQuiet k false) t.start (t.text ++ s') (some (t.stop, s', t.children))

/-- `t` is a token emitted by the grammar expression `E`, a rule. -/
def MadeBy : PExpr → Tok → Prop
  | .rule k r e, t => Made k r e t
  | _, _ => False

/-- Token lists an expression can emit. -/
def Shape : PExpr → Bool → List Tok → Prop
  | .seq a b, q, ts => ∃ t1 t2, ts = t1 ++ t2 ∧ Shape a q t1 ∧ Shape b q t2
  | .alt a b, q, ts => Shape a q ts ∨ Shape b q ts
  | .star e, q, ts => Many (Shape e q) ts
  | .opt e, q, ts => ts = [] ∨ Shape e q ts
  | .rule .silent _ e, q, ts => Shape e q ts
  | .rule .normal _ e, true, ts => Shape e true ts
  | .rule .atomic _ e, true, ts => Shape e true ts
  | .rule k r e, _, ts => ∃ t, ts = [t] ∧ Made k r e t
  | .recur .any_breakable, _, ts => ∃ t, ts = [t] ∧ MadeBy G.any_breakable t
  | .recur _, q, ts => q = true → ts = []
  | _, _, ts => ts = []

/-- Static check: emits nothing. -/
def mute : Bool → PExpr → Bool
  | q, .seq a b => mute q a && mute q b
  | q, .alt a b => mute q a && mute q b
  | q, .star e => mute q e
  | q, .opt e => mute q e
  | q, .rule .silent _ e => mute q e
  | true, .rule .normal _ e => mute true e
  | true, .rule .atomic _ e => mute true e
  | _, .rule _ _ _ => false
  | _, .recur .any_breakable => false
  | q, .recur _ => q
  | _, _ => true

theorem Many.eq_nil {P : List Tok → Prop} (hP : ∀ ts, P ts → ts = []) {ts : List Tok}
    (h : Many P ts) : ts = [] := by
  induction h with
  | nil => rfl
  | cons h1 _ ih => rw [hP _ h1, ih]; rfl

theorem Many.mono {P Q : List Tok → Prop} (hPQ : ∀ ts, P ts → Q ts) {ts : List Tok}
    (h : Many P ts) : Many Q ts := by
  induction h with
  | nil => exact .nil
  | cons h1 _ ih => exact .cons (hPQ _ h1) ih

theorem shape_mute {e : PExpr} {q : Bool} (hm : mute q e = true) {ts : List Tok}
    (h : Shape e q ts) : ts = [] := by
  induction e generalizing q ts with
  | seq a b iha ihb =>
    simp only [mute, Bool.and_eq_true] at hm
    obtain ⟨t1, t2, rfl, h1, h2⟩ := h
    rw [iha hm.1 h1, ihb hm.2 h2]; rfl
  | alt a b iha ihb =>
    simp only [mute, Bool.and_eq_true] at hm
    rcases h with h | h
    · exact iha hm.1 h
    · exact ihb hm.2 h
  | star e ih => exact Many.eq_nil (fun ts h => ih hm h) h
  | opt e ih =>
    rcases h with h | h
    · exact h
    · exact ih hm h
  | rule k r e ih =>
    cases k <;> cases q <;> simp only [mute, Bool.false_eq_true] at hm <;> exact ih hm h
  | recur r =>
    cases r with
    | any_breakable => simp [mute] at hm
    | inner => exact h hm
    | single_quoted_inner => exact h hm
  | _ => exact h

theorem Sem.shape {e : PExpr} {q : Bool} {p : Nat} {s : Str} {o : Out} (h : Sem e q p s o) :
    ∀ p' s' ts, o = some (p', s', ts) → Shape e q ts := by
  induction h with
  | seq_ok h1 h2 ih1 ih2 =>
    rintro _ _ _ ⟨⟩
    exact ⟨_, _, rfl, ih1 _ _ _ rfl, ih2 _ _ _ rfl⟩
  | alt_left h ih => rintro _ _ _ ⟨⟩; exact .inl (ih _ _ _ rfl)
  | alt_right h1 h2 ih1 ih2 => rintro _ _ _ rfl; exact .inr (ih2 _ _ _ rfl)
  | star_nil h ih => rintro _ _ _ ⟨⟩; exact Many.nil
  | star_cons h1 h2 ih1 ih2 =>
    rintro _ _ _ ⟨⟩
    exact Many.cons (ih1 _ _ _ rfl) (ih2 _ _ _ rfl)
  | opt_some h ih => rintro _ _ _ ⟨⟩; exact .inr (ih _ _ _ rfl)
  | opt_none h ih => rintro _ _ _ ⟨⟩; exact .inl rfl
  | neg_ok h ih => rintro _ _ _ ⟨⟩; rfl
  | @rule_ok k r e q p s p1 s1 t1 h ih =>
    rintro _ _ _ ⟨⟩
    have hsh := ih _ _ _ rfl
    obtain ⟨x, rfl, rfl, f⟩ := h.forest _ _ _ rfl
    rw [take_append_sub]
    have made : innerQuiet k q = innerQuiet k false →
        Made k r e (.node r p (p + blen x) x t1) := fun hq => ⟨rfl, s1, by rw [← hq]; exact h⟩
    cases k with
    | normal => cases q with
      | true => exact hsh
      | false => exact ⟨_, rfl, made rfl⟩
    | silent => cases q <;> exact hsh
    | atomic => cases q with
      | true => exact hsh
      | false => exact ⟨_, rfl, made rfl⟩
    | compound => exact ⟨_, rfl, made rfl⟩
  | @recur r q p s o h ih =>
    rintro _ _ _ rfl
    have := ih _ _ _ rfl
    cases r with
    | any_breakable => exact this
    | inner => intro hq; subst hq; exact shape_mute (by decide +kernel) this
    | single_quoted_inner => intro hq; subst hq; exact shape_mute (by decide +kernel) this
  | _ => rintro _ _ _ ⟨⟩ <;> rfl

/-! ## what a made token carries -/

theorem Made.rule {k r e} {t : Tok} (h : Made k r e t) : t.rule = r := h.1

theorem Made.shape {k r e} {t : Tok} (h : Made k r e t) :
    Shape e (innerQuiet k false) t.children := by
  obtain ⟨_, s', h⟩ := h; exact h.shape _ _ _ rfl

theorem Made.forest {k r e} {t : Tok} (h : Made k r e t) :
    t.stop = t.start + blen t.text ∧ Forest t.start t.text t.children := by
  obtain ⟨_, s', h⟩ := h
  obtain ⟨x, hx, hp, f⟩ := h.forest _ _ _ rfl
  have := List.append_cancel_right hx
  rw [this]; exact ⟨hp, f⟩

theorem Made.nonempty {k r e} {t : Tok} (h : Made k r e t) (hc : consumes e = true) :
    t.text ≠ [] := by
  obtain ⟨_, s', h⟩ := h
  have := (h.consumes _ _ _ rfl).2 hc
  intro h0; rw [h0] at this; simp at this

end Verif
