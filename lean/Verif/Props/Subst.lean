import Verif.Proof.Subst
import Verif.Props.Image

/-! # Variable substitution (C27-C30) -/

namespace Verif
open Spec

/-! ## C27: textual expansion -/

/-- C27: `substitute` never panics, and it returns `Some(t)` exactly when `t` is the expansion of
the references of `s` with at most `d` levels of nesting. -/
theorem C27_substitute_is_expansion (vars : VarMap) (d : Nat) (s : Str) (used : List Str) :
    ∃ r used', substitute vars d s used = some (r, used') ∧
      ∀ t, r = some t ↔ Expands vars d s t := by
  obtain ⟨r, used', h, ok⟩ := substitute_ok vars d s used
  exact ⟨r, used', h, ok.out⟩

/- `$b` stands for `é` if `b` does -/
example : Expands (fun k => if k = c!"b" then some c!"é" else none) 2 c!"x$b" c!"xé" := by
  obtain ⟨r, used', h, ht⟩ := C27_substitute_is_expansion
    (fun k => if k = c!"b" then some c!"é" else none) 2 c!"x$b" []
  have e : substitute (fun k => if k = c!"b" then some c!"é" else none) 2 c!"x$b" [] =
    some (some c!"xé", [c!"b"]) := by decide +kernel
  rw [e] at h
  cases h
  exact (ht _).mp rfl

/-- C27 (determinism of the specification). -/
theorem C27_expansion_unique (vars : VarMap) (d : Nat) (s t t' : Str) (h : Expands vars d s t)
    (h' : Expands vars d s t') : t = t' := expands_unique h h'

/-- C27 (`None`): the result is `None` exactly when some referenced variable is undefined, or no
depth is left for it, or its value does not expand with the remaining depth. -/
theorem C27_none_iff (vars : VarMap) (d : Nat) (s : Str) (used : List Str) :
    (∃ used', substitute vars d s used = some (none, used')) ↔
      ∃ n, References s n ∧ (d = 0 ∨ vars n = none ∨
        ∃ d' v, d = d' + 1 ∧ vars n = some v ∧
          ∃ used1 used2, substitute vars d' v used1 = some (none, used2)) := by
  have hnone : ∀ d s used, (∃ used', substitute vars d s used = some (none, used')) ↔
      ¬ ∃ t, Expands vars d s t := by
    intro d s used
    obtain ⟨r, used', h, ok⟩ := substitute_ok vars d s used
    rw [h]
    constructor
    · rintro ⟨u, hu⟩ ⟨t, ht⟩
      have := (ok.out t).mpr ht
      simp at hu
      rw [this] at hu
      exact absurd hu.1 (by simp)
    · intro hn
      refine ⟨used', ?_⟩
      cases r with
      | none => rfl
      | some t => exact absurd ⟨t, (ok.out t).mp rfl⟩ hn
  rw [hnone]
  constructor
  · intro hn
    apply Classical.byContradiction
    intro hno
    apply hn
    have hall : ∀ n, References s n → ∃ d' v e, d = d' + 1 ∧ vars n = some v ∧ Expands vars d' v e := by
      intro n hr
      apply Classical.byContradiction
      intro hx
      apply hno
      refine ⟨n, hr, ?_⟩
      cases d with
      | zero => exact Or.inl rfl
      | succ d' =>
        right
        cases hv : vars n with
        | none => exact Or.inl rfl
        | some v =>
          right
          obtain ⟨u, hu⟩ := (hnone d' v []).mpr (fun ⟨e, he⟩ => hx ⟨d', v, e, rfl, hv, he⟩)
          exact ⟨d', v, rfl, rfl, [], u, hu⟩
    clear hn hno
    suffices ∀ k s, s.length ≤ k → (∀ n, References s n → ∃ d' v e, d = d' + 1 ∧ vars n = some v ∧
        Expands vars d' v e) → ∃ t, Expands vars d s t from this _ s (Nat.le_refl _) hall
    intro k
    induction k with
    | zero =>
      intro s hs _
      have : s = [] := by simpa using hs
      subst this
      exact ⟨[], .nil d⟩
    | succ k ih =>
      intro s hs hall
      cases s with
      | nil => exact ⟨[], .nil d⟩
      | cons c cs =>
        rcases ref_cases c cs with ⟨n, r, href, -⟩ | ⟨hno, -⟩
        · obtain ⟨d', v, e, rfl, hv, he⟩ := hall n (.here _ _ _ href)
          have hl := href.length_lt
          obtain ⟨t, ht⟩ := ih r (by omega)
            (fun m hm => hall m ((references_ref_iff href m).mpr (Or.inr hm)))
          exact ⟨e ++ t, .ref d' _ n r v e t href hv he ht⟩
        · obtain ⟨t, ht⟩ := ih cs (by simp at hs; omega)
            (fun m hm => hall m ((references_lit_iff hno m).mpr hm))
          exact ⟨c :: t, .lit d c cs t hno ht⟩
  · rintro ⟨n, hr, h⟩ ⟨t, ht⟩
    obtain ⟨d', v, e, hd, hv, he⟩ := expands_references ht hr
    rcases h with h | h | ⟨d'', v', hd', hv', used1, used2, hs⟩
    · omega
    · rw [h] at hv; cases hv
    · have : d'' = d' := by omega
      subst this
      rw [hv] at hv'; cases hv'
      exact (hnone d'' v used1).mp ⟨used2, hs⟩ ⟨e, he⟩

/-- Example map: `a` refers to `b`; `x` and `y` refer to each other. -/
def exampleVars : VarMap := fun k =>
  if k = c!"a" then some c!"1${b}2" else if k = c!"b" then some c!"é"
  else if k = c!"x" then some c!"$y" else if k = c!"y" then some c!"${x}" else none

example : substitute exampleVars 16 c!"p-$a/$b.${a}$" [] =
    some (some c!"p-1é2/é.1é2$", [c!"b", c!"a"]) := by decide +kernel
example : substitute exampleVars 1 c!"p-$a" [] = some (none, []) := by decide +kernel
example : substitute exampleVars 16 c!"$x" [] = some (none, []) := by decide +kernel
example : substitute exampleVars 16 c!"$b$nope" [] = some (none, [c!"b"]) := by decide +kernel

/-! ## C28: depth and cycles -/

/-- C28 (monotone): a successful result stays the same at every larger depth. -/
theorem C28_depth_monotone (vars : VarMap) (d d' : Nat) (s t : Str) (used used1 used' : List Str)
    (hd : d ≤ d') (h : substitute vars d s used = some (some t, used1)) :
    ∃ used2, substitute vars d' s used' = some (some t, used2) := by
  obtain ⟨r, u, h1, ok⟩ := substitute_ok vars d s used
  rw [h] at h1
  cases h1
  have he := (ok.out t).mp rfl
  have he' : Expands vars d' s t := by
    induction hd with
    | refl => exact he
    | step _ ih => exact expands_mono ih
  obtain ⟨r', u', h1', ok'⟩ := substitute_ok vars d' s used'
  have := (ok'.out t).mpr he'
  subst this
  exact ⟨u', h1'⟩

example : substitute exampleVars 3 c!"$a" [] = some (some c!"1é2", [c!"b", c!"a"]) ∧
    substitute exampleVars 1 c!"$a" [] = some (none, []) := by decide +kernel

/-- C28 (cycles): if `s` reaches a variable `n` whose value reaches `n` again, the result is `None`
at every depth. -/
theorem C28_cycle_rejected (vars : VarMap) (s n v : Str) (hs : Reaches vars s n)
    (hv : vars n = some v) (hc : Reaches vars v n) (d : Nat) (used : List Str) :
    ∃ used', substitute vars d s used = some (none, used') := by
  have hreach : ∀ (s m : Str), Reaches vars s m → ∀ d t, Expands vars d s t →
      ∃ d' w e, d' < d ∧ vars m = some w ∧ Expands vars d' w e := by
    intro s m h
    induction h with
    | direct s m h =>
      intro d t ht
      obtain ⟨d', w, e, rfl, hw, he⟩ := expands_references ht h
      exact ⟨d', w, e, by omega, hw, he⟩
    | through s k w m h hw hr ih =>
      intro d t ht
      obtain ⟨d', w', e, rfl, hw', he⟩ := expands_references ht h
      rw [hw] at hw'; cases hw'
      obtain ⟨d'', w'', e', hlt, hw'', he'⟩ := ih d' e he
      exact ⟨d'', w'', e', by omega, hw'', he'⟩
  have hno : ∀ d t, ¬ Expands vars d v t := by
    intro d
    induction d using Nat.strongRecOn with
    | _ d ih =>
      intro t ht
      obtain ⟨d', w, e, hlt, hw, he⟩ := hreach v n hc d t ht
      rw [hv] at hw; cases hw
      exact ih d' hlt e he
  obtain ⟨r, used', h1, ok⟩ := substitute_ok vars d s used
  refine ⟨used', ?_⟩
  cases r with
  | none => exact h1
  | some t =>
    obtain ⟨d', w, e, -, hw, he⟩ := hreach s n hs d t ((ok.out t).mp rfl)
    rw [hv] at hw; cases hw
    exact absurd he (hno d' e)

/- the hypotheses of `C28_cycle_rejected` are met by `$x` in the example map -/
theorem refAt_bare (n : Str) (h : matchVar ('$' :: n) = some (n, [])) : References ('$' :: n) n :=
  .here _ _ _ ((matchVar_iff _ _ _).mp h)
example : Reaches exampleVars c!"$x" c!"x" ∧ exampleVars c!"x" = some c!"$y" ∧
    Reaches exampleVars c!"$y" c!"x" := by
  refine ⟨.direct _ _ (refAt_bare c!"x" (by decide)), by decide, ?_⟩
  exact .through _ c!"y" c!"${x}" _ (refAt_bare c!"y" (by decide)) (by decide)
    (.direct _ _ (.here _ _ [] ((matchVar_iff _ _ _).mp (by decide))))

/-! ## C29: `used_vars` -/

/-- C29 (success): the set of used variables gains exactly the variables reachable from the input
string. -/
theorem C29_used_vars_exact (vars : VarMap) (d : Nat) (s t : Str) (used used' : List Str)
    (h : substitute vars d s used = some (some t, used')) (x : Str) :
    x ∈ used' ↔ x ∈ used ∨ Reaches vars s x := by
  obtain ⟨r, u, h1, ok⟩ := substitute_ok vars d s used
  rw [h] at h1
  cases h1
  constructor
  · exact ok.sound x
  · rintro (hx | hx)
    · exact ok.mono x hx
    · exact ok.complete (by simp) x hx

example : substitute exampleVars 16 c!"$a" [c!"q"] = some (some c!"1é2", [c!"q", c!"b", c!"a"]) := by
  decide +kernel

/-- C29 (failure): nothing is removed and only reachable variables are added. -/
theorem C29_used_vars_failure (vars : VarMap) (d : Nat) (s : Str) (used used' : List Str)
    (r : Option Str) (h : substitute vars d s used = some (r, used')) (x : Str) :
    (x ∈ used → x ∈ used') ∧ (x ∈ used' → x ∈ used ∨ Reaches vars s x) := by
  obtain ⟨r', u, h1, ok⟩ := substitute_ok vars d s used
  rw [h] at h1
  cases h1
  exact ⟨ok.mono x, ok.sound x⟩

example : substitute exampleVars 16 c!"$b$nope" [c!"q"] = some (none, [c!"q", c!"b"]) := by decide +kernel

/-! ## C30: `resolve_vars` -/

/-- C30 (variables): the map used by `resolve_vars` holds exactly the last default of each global
`ARG`. -/
theorem C30_variables (args : List ArgInstruction) (k v : Str) :
    argVars args k = some v ↔ Spec.LastDefault args k v := by
  induction args using snocInd generalizing v with
  | nil =>
    simp only [argVars, List.foldl_nil, reduceCtorEq, false_iff]
    rintro ⟨pre, a, post, w, h, -⟩
    simp at h
  | snoc args a ih =>
    have hfold : argVars (args ++ [a]) = (match a.value with
        | some v => fun k => if k = a.name.content then some v.content else argVars args k
        | none => argVars args) := by
      simp only [argVars, List.foldl_append, List.foldl_cons, List.foldl_nil]
      cases a.value <;> rfl
    have hext : ∀ v, Spec.LastDefault args k v → (a.name.content = k → a.value = none) →
        Spec.LastDefault (args ++ [a]) k v := by
      rintro v ⟨pre, b, post, w, rfl, h1, h2, h3, h4⟩ ha
      refine ⟨pre, b, post ++ [a], w, by simp, h1, h2, h3, ?_⟩
      intro c hc hk
      simp at hc
      rcases hc with hc | rfl
      · exact h4 c hc hk
      · exact ha hk
    have hback : ∀ v, Spec.LastDefault (args ++ [a]) k v →
        (a.name.content = k ∧ ∃ w, a.value = some w ∧ w.content = v) ∨
        ((a.name.content = k → a.value = none) ∧ Spec.LastDefault args k v) := by
      rintro v ⟨pre, b, post, w, h0, h1, h2, h3, h4⟩
      rcases List.eq_nil_or_concat post with rfl | ⟨post', c, rfl⟩
      · have := List.append_inj_right' h0 rfl
        simp at this
        subst this
        exact Or.inl ⟨h1, w, h2, h3⟩
      · rw [List.concat_eq_append, ← List.cons_append, ← List.append_assoc] at h0
        have e1 := List.append_inj_left' h0 rfl
        have e2 := List.append_inj_right' h0 rfl
        simp at e2
        subst e2
        right
        refine ⟨fun hk => h4 a (by simp) hk, pre, b, post', w, e1, h1, h2, h3, ?_⟩
        intro c hc hk
        exact h4 c (by simp [hc]) hk
    rw [hfold]
    cases hval : a.value with
    | none =>
      simp only
      rw [ih]
      constructor
      · intro h; exact hext v h (fun _ => hval)
      · intro h
        rcases hback v h with ⟨-, w, hw, -⟩ | ⟨-, h⟩
        · rw [hval] at hw; cases hw
        · exact h
    | some w =>
      simp only
      by_cases hk : k = a.name.content
      · rw [if_pos hk]
        constructor
        · intro h
          refine ⟨args, a, [], w, rfl, hk.symm, hval, by simpa using h, by simp⟩
        · intro h
          rcases hback v h with ⟨-, w', hw', h'⟩ | ⟨h', -⟩
          · rw [hval] at hw'; cases hw'; rw [h']
          · have := h' hk.symm
            rw [hval] at this; cases this
      · rw [if_neg hk, ih]
        constructor
        · intro h; exact hext v h (fun h' => absurd h'.symm hk)
        · intro h
          rcases hback v h with ⟨h', -⟩ | ⟨-, h⟩
          · exact absurd h'.symm hk
          · exact h

/-- C30: `resolve_vars` never panics; it succeeds exactly when the displayed reference expands
(nesting at most 16) with the last defaults of the global `ARG`s, and then yields the parsed
expansion. -/
theorem C30_resolve_vars (r : ImageRef) (d : Dockerfile) :
    ∃ o, r.resolveVars d = some o ∧
      ∀ r', o = some r' ↔ ∃ t, Expands (argVars d.global_args) 16 r.display t ∧
        r' = ImageRef.parse t := by
  obtain ⟨o, used', h, ok⟩ := substitute_ok (argVars d.global_args) 16 r.display []
  unfold ImageRef.resolveVars ImageRef.resolveVarsWithContext
  rw [h]
  cases o with
  | none =>
    refine ⟨none, rfl, ?_⟩
    intro r'
    simp only [reduceCtorEq, false_iff]
    rintro ⟨t, ht, -⟩
    have := (ok.out t).mpr ht
    cases this
  | some t =>
    refine ⟨some (ImageRef.parse t), rfl, ?_⟩
    intro r'
    have ht := (ok.out t).mp rfl
    constructor
    · intro e; cases e; exact ⟨t, ht, rfl⟩
    · rintro ⟨t', ht', rfl⟩
      rw [expands_unique ht ht']

/-- C30 (used variables): `resolve_vars_with_context` agrees with `resolve_vars` and reports
exactly the reachable variables. -/
theorem C30_context (r : ImageRef) (d : Dockerfile) (r' : ImageRef) (used : List Str)
    (h : r.resolveVarsWithContext d = some (some (r', used))) :
    r.resolveVars d = some (some r') ∧
      ∀ x, x ∈ used ↔ Reaches (argVars d.global_args) r.display x := by
  constructor
  · simp [ImageRef.resolveVars, h]
  · intro x
    unfold ImageRef.resolveVarsWithContext at h
    obtain ⟨o, used', h1, ok⟩ := substitute_ok (argVars d.global_args) 16 r.display []
    rw [h1] at h
    cases o with
    | none => cases h
    | some t =>
      simp only [Option.some.injEq, Prod.mk.injEq] at h
      obtain ⟨-, rfl⟩ := h
      have := C29_used_vars_exact _ _ _ _ _ _ h1 x
      simpa using this

/- `FROM $a:$b`, where `a` refers to `b` -/
example :
    let arg (n v : Str) : ArgInstruction := ⟨⟨0, 0⟩, ⟨⟨0, 0⟩, n⟩, some ⟨⟨0, 0⟩, v⟩⟩
    let d : Dockerfile := ⟨[], [arg c!"a" c!"x$b", arg c!"b" c!"1", arg c!"c" c!"2"], []⟩
    (ImageRef.parse c!"$a:$b").resolveVarsWithContext d =
      some (some (ImageRef.parse c!"x1:1", [c!"b", c!"a"])) := by decide +kernel

/-- C30 (no references): a reference whose text has no variable reference resolves to itself. -/
theorem C30_no_refs (s : Str) (d : Dockerfile) (h : ∀ n, ¬ References s n) :
    (ImageRef.parse s).resolveVars d = some (some (ImageRef.parse s)) := by
  obtain ⟨o, h1, h2⟩ := C30_resolve_vars (ImageRef.parse s) d
  rw [C18_display_parse] at h2
  have := (h2 (ImageRef.parse s)).mpr ⟨s, (expands_noref _ 16 s h s).mpr rfl, rfl⟩
  rw [h1, this]

/- a text without a dollar sign -/
example : ∀ n, ¬ References c!"r.io/a:1" n := by
  rintro n h
  have hr : ∀ {s n r : Str}, RefAt s n r → '$' ∈ s := by
    rintro s n r ⟨-, -, ⟨rfl, -⟩ | rfl⟩ <;> simp
  have : ∀ {s n : Str}, References s n → '$' ∈ s := by
    intro s n h
    induction h with
    | here s n r h => exact hr h
    | afterRef s m r n h _ _ => exact hr h
    | afterLit c cs n h h' ih => exact List.mem_cons_of_mem _ ih
  exact absurd (this h) (by decide)

/-- C30 (undefined): a reference that (transitively) mentions a variable without a default among
the global `ARG`s yields `None`. -/
theorem C30_undefined (r : ImageRef) (d : Dockerfile) (n : Str)
    (hr : Reaches (argVars d.global_args) r.display n)
    (hn : ∀ v, ¬ Spec.LastDefault d.global_args n v) : r.resolveVars d = some none := by
  have hund : argVars d.global_args n = none := by
    cases hv : argVars d.global_args n with
    | none => rfl
    | some v => exact absurd ((C30_variables _ _ _).mp hv) (hn v)
  have hno : ∀ (s m : Str), Reaches (argVars d.global_args) s m → argVars d.global_args m = none →
      ∀ k t, ¬ Expands (argVars d.global_args) k s t := by
    intro s m h
    induction h with
    | direct s m h =>
      intro hm k t ht
      obtain ⟨d', v, e, -, hv, -⟩ := expands_references ht h
      rw [hm] at hv; cases hv
    | through s j w m h hw hr ih =>
      intro hm k t ht
      obtain ⟨d', v, e, -, hv, he⟩ := expands_references ht h
      rw [hw] at hv; cases hv
      exact ih hm d' e he
  obtain ⟨o, h1, h2⟩ := C30_resolve_vars r d
  rw [h1]
  cases o with
  | none => rfl
  | some r' =>
    obtain ⟨t, ht, -⟩ := (h2 r').mp rfl
    exact absurd ht (hno _ n hr hund 16 t)

/- `ARG v=1`, `ARG v=2`, `ARG w` then `FROM a:$v`: the last default wins; `$w` has none -/
example :
    let arg (n : Str) (v : Option Str) : ArgInstruction :=
      ⟨⟨0, 0⟩, ⟨⟨0, 0⟩, n⟩, v.map (fun x => ⟨⟨0, 0⟩, x⟩)⟩
    let d : Dockerfile := ⟨[], [arg c!"v" (some c!"1"), arg c!"v" (some c!"2"), arg c!"w" none], []⟩
    (ImageRef.parse c!"r.io/a:$v").resolveVars d = some (some (ImageRef.parse c!"r.io/a:2")) ∧
    (ImageRef.parse c!"a:$w").resolveVars d = some none := by decide +kernel

end Verif
