import Verif.Spec.Resolve
import Verif.Props.Subst
import Verif.Model.Dockerfile
import Verif.Model.Enquote

/-! # What resolving an image depends on (C74), and resolving it again (C75) -/

namespace Verif
open Spec

/-! ## the same values for the variables reached -/

theorem captures_references (n : Nat) : ∀ (p : Nat) (s : Str), ∀ c ∈ capturesFrom n p s, References s c.name := by
  induction n with
  | zero => intro p s c hc; simp [capturesFrom] at hc
  | succ n ih =>
    intro p s x hx
    cases s with
    | nil => simp [capturesFrom] at hx
    | cons c cs =>
      rcases ref_cases c cs with ⟨name, r, href, hm⟩ | ⟨hno, hm⟩
      · simp only [capturesFrom, hm, List.mem_cons] at hx
        rcases hx with rfl | hx
        · exact .here _ _ _ href
        · exact .afterRef _ _ _ _ href (ih _ _ _ hx)
      · simp only [capturesFrom, hm] at hx
        exact .afterLit _ _ _ hno (ih _ _ _ hx)

theorem substLoop_congr {vars vars' : VarMap} {f f' : Str → List Str → Option (Option Str × List Str)}
    (caps : List Capture) : ∀ (sp : Splicer) (used : List Str),
    (∀ c ∈ caps, vars' c.name = vars c.name ∧ ∀ v, vars c.name = some v → ∀ u, f' v u = f v u) →
    substLoop vars' f' caps sp used = substLoop vars f caps sp used := by
  induction caps with
  | nil => intro sp used _; rfl
  | cons c caps ih =>
    intro sp used h
    have h1 := h c (by simp)
    have h2 : ∀ sp used, substLoop vars' f' caps sp used = substLoop vars f caps sp used :=
      fun sp used => ih sp used fun c hc => h c (by simp [hc])
    rw [substLoop, substLoop, h1.1]
    cases hv : vars c.name with
    | none => rfl
    | some v => simp only [h1.2 v hv, h2]

/-- C74: substitution depends only on the variables that are reached, also when it fails. -/
theorem C74_reached (vars vars' : VarMap) (d : Nat) : ∀ (s : Str) (used : List Str),
    (∀ n, Reaches vars s n → vars' n = vars n) →
    substitute vars' d s used = substitute vars d s used := by
  induction d with
  | zero => intro s used _; rfl
  | succ d ih =>
    intro s used h
    unfold substitute
    refine substLoop_congr _ _ _ fun c hc => ?_
    have hr := captures_references _ _ _ c hc
    exact ⟨h _ (.direct _ _ hr), fun v hv u => ih v u fun n hn => h n (.through _ _ v _ hr hv hn)⟩

theorem argVars_same {as bs : List ArgInstruction} {n : Str}
    (h : ∀ v, LastDefault as n v ↔ LastDefault bs n v) : argVars bs n = argVars as n := by
  cases h1 : argVars as n with
  | some v => exact (C30_variables _ _ _).2 ((h v).1 ((C30_variables _ _ _).1 h1))
  | none =>
    cases h2 : argVars bs n with
    | none => rfl
    | some v =>
      rw [(C30_variables _ _ _).2 ((h v).2 ((C30_variables _ _ _).1 h2))] at h1
      cases h1

/-- C74: the variables reported are all that matters: in every document with the same default
values for these, the image resolves to the same image with the same variables. -/
theorem C74_depends {r r' : ImageRef} {used : List Str} {d : Dockerfile}
    (h : r.resolveVarsWithContext d = some (some (r', used))) (d' : Dockerfile)
    (hd : ∀ n ∈ used, ∀ v, LastDefault d.global_args n v ↔ LastDefault d'.global_args n v) :
    r.resolveVarsWithContext d' = some (some (r', used)) := by
  have hu := (C30_context r d r' used h).2
  rw [← h]
  unfold ImageRef.resolveVarsWithContext
  rw [C74_reached (argVars d.global_args) (argVars d'.global_args) 16 _ _ fun n hn =>
    argVars_same (hd n ((hu n).2 hn))]

theorem reaches_without {vars vars' : VarMap} {x : Str} (h : ∀ n, n ≠ x → vars' n = vars n) {s : Str}
    (hr : Reaches vars s x) : Reaches vars' s x := by
  induction hr with
  | direct s n h' => exact .direct _ _ h'
  | through s m v n h1 h2 _ ih =>
    by_cases e : m = n
    · exact .direct _ _ (e ▸ h1)
    · exact .through _ m v _ h1 ((h m e).trans h2) (ih h)

/-- C74: and all of them matter: without a default value for one of them, the image does not
resolve. -/
theorem C74_needed {r r' : ImageRef} {used : List Str} {d : Dockerfile}
    (h : r.resolveVarsWithContext d = some (some (r', used))) {x : Str} (hx : x ∈ used) (d' : Dockerfile)
    (hd : ∀ n, n ≠ x → ∀ v, LastDefault d.global_args n v ↔ LastDefault d'.global_args n v)
    (hn : ∀ v, ¬ LastDefault d'.global_args x v) : r.resolveVars d' = some none :=
  C30_undefined r d' x
    (reaches_without (fun n hne => argVars_same (hd n hne)) (((C30_context r d r' used h).2 x).1 hx)) hn

/-! ## resolving again -/

theorem allRefs_expand {vars : VarMap} {d : Nat} {s t : Str} (h : Expands vars d s t) (hs : AllRefs s)
    (hv : ∀ n v, Reaches vars s n → vars n = some v → AllRefs v) : '$' ∉ t := by
  induction h with
  | nil => simp
  | lit d c cs t hno _ ih =>
    cases hs with
    | lit hc hs =>
      have := ih hs fun n v hn => hv n v ((reaches_lit_iff hno n).2 hn)
      simp only [List.mem_cons, not_or]
      exact ⟨fun e => hc e.symm, this⟩
    | ref hr _ => exact absurd hr (hno _ _)
  | ref d s n rest v e t hr hval _ _ ih1 ih2 =>
    have hrest : AllRefs rest := by
      cases hs with
      | nil => have := hr.length_lt; simp at this
      | lit hc _ =>
        exfalso
        rcases hr.2.2 with ⟨e, -⟩ | e <;> exact hc (List.cons.inj e).1
      | ref hr' h => rw [(hr.unique hr').2]; exact h
    have h1 := ih1 (hv n v ((reaches_ref_iff hr n).2 (.inl rfl)) hval)
      fun m w hm => hv m w ((reaches_ref_iff hr m).2 (.inr (.inl ⟨v, hval, hm⟩)))
    have h2 := ih2 hrest fun m w hm => hv m w ((reaches_ref_iff hr m).2 (.inr (.inr hm)))
    simp only [List.mem_append, not_or]
    exact ⟨h1, h2⟩

theorem noDollar_noRef {t : Str} (h : '$' ∉ t) (n : Str) : ¬ References t n := by
  intro hr
  induction hr with
  | here s n rest hr => rcases hr.2.2 with ⟨e, -⟩ | e <;> exact h (by rw [e]; simp)
  | afterRef s m rest n hr _ _ => rcases hr.2.2 with ⟨e, -⟩ | e <;> exact h (by rw [e]; simp)
  | afterLit c cs n _ _ ih => exact ih fun hc => h (by simp [hc])

/-- C75: an image resolves to itself in every document iff it has no references. -/
theorem C75_resolved (t : Str) :
    (∀ d : Dockerfile, (ImageRef.parse t).resolveVars d = some (some (ImageRef.parse t))) ↔
      ∀ n, ¬ References t n := by
  refine ⟨fun h n hn => ?_, fun h d => C30_no_refs t d h⟩
  have h1 := h ⟨[], [], []⟩
  have h2 := C30_undefined (ImageRef.parse t) ⟨[], [], []⟩ n
    (by rw [C18_display_parse]; exact .direct _ _ hn)
    (fun v hv => by
      have := (C30_variables [] n v).2 hv
      cases this)
  rw [h1] at h2
  cases h2

/-- C75: if every dollar sign of the image and of the values of its variables starts a reference, the
resolved image has no dollar sign, and resolving it again, in any document, changes nothing. -/
theorem C75_again {r r' : ImageRef} {d : Dockerfile} (h : r.resolveVars d = some (some r'))
    (hs : AllRefs r.display)
    (hv : ∀ n v, Reaches (argVars d.global_args) r.display n → LastDefault d.global_args n v → AllRefs v) :
    '$' ∉ r'.display ∧ ∀ d', r'.resolveVars d' = some (some r') := by
  obtain ⟨o, h1, h2⟩ := C30_resolve_vars r d
  rw [h] at h1
  cases h1
  obtain ⟨t, ht, rfl⟩ := (h2 r').1 rfl
  have hd := allRefs_expand ht hs fun n v hn hval => hv n v hn ((C30_variables _ _ _).1 hval)
  exact ⟨by rw [C18_display_parse]; exact hd, (C75_resolved t).2 (noDollar_noRef hd)⟩

/-! ## examples -/

/-- the images of a text resolved once and twice, with the variables -/
def resolvedTwice (s : Str) : Option (List (Str × List Str × Str × List Str)) :=
  (Dockerfile.parse Enquote.unquote s).toOption.map fun d => d.instructions.filterMap fun i =>
    match i with
    | .from f =>
      match f.image_parsed.resolveVarsWithContext d with
      | some (some (r, u)) =>
        match r.resolveVarsWithContext d with
        | some (some (r', u')) => some (r.display, u, r'.display, u')
        | _ => none
      | _ => none
    | _ => none

/- the variables `a` and `b` are used, `c` is not; the result has no references -/
example : resolvedTwice c!"ARG a=x$b\nARG b=y\nARG c=$d\nFROM i:${a}" =
    some [(c!"i:xy", [c!"b", c!"a"], c!"i:xy", [])] := by decide +kernel

/- C74: `b` has the same last default and `c` is not used, so another document gives the same; without
a default for `b` nothing is resolved -/
example : resolvedTwice c!"ARG b=z\nARG b=y\nARG a=x$b\nFROM i:${a}" =
    some [(c!"i:xy", [c!"b", c!"a"], c!"i:xy", [])] := by decide +kernel
example : resolvedTwice c!"ARG a=x$b\nARG b\nFROM i:${a}" = some [] := by decide +kernel

/- the hypotheses of C74_depends and C74_needed can be met -/
example : ∃ (d d' d'' : Dockerfile) (r r' : ImageRef), r.resolveVarsWithContext d = some (some (r', [c!"b"])) ∧
    d.global_args ≠ d'.global_args ∧
    (∀ v, LastDefault d.global_args c!"b" v ↔ LastDefault d'.global_args c!"b" v) ∧
    ∀ v, ¬ LastDefault d''.global_args c!"b" v := by
  let arg (n v : Str) : ArgInstruction := ⟨⟨0, 0⟩, ⟨⟨0, 0⟩, n⟩, some ⟨⟨0, 0⟩, v⟩⟩
  refine ⟨⟨c!"", [arg c!"b" c!"y"], []⟩, ⟨c!"", [arg c!"b" c!"z", arg c!"b" c!"y", arg c!"c" c!"w"], []⟩,
    ⟨c!"", [], []⟩, ImageRef.parse c!"i:$b", ImageRef.parse c!"i:y", by decide +kernel, by decide, ?_, ?_⟩
  · intro v
    rw [← C30_variables, ← C30_variables]
    exact Iff.rfl
  · intro v hv
    cases (C30_variables _ _ _).2 hv

/-- C75: without the condition a new reference may come up, and resolving again goes on. -/
theorem C75_new_reference : resolvedTwice c!"ARG a=$\nARG b=c\nFROM ${a}b" =
    some [(c!"$b", [c!"a"], c!"c", [c!"b"])] := by decide +kernel

/-- C75: an image may resolve to itself although it has references. -/
theorem C75_same : resolvedTwice c!"ARG a=$\nARG b=a$\nARG c=b${d}c\nARG d=$\nFROM $a$b$c" =
    some [(c!"$a$b$c", [c!"a", c!"b", c!"d", c!"c"], c!"$a$b$c", [c!"a", c!"b", c!"d", c!"c"])] := by
  decide +kernel

/-- the hypotheses of C75_again: every dollar sign starts a reference -/
example : AllRefs c!"i:${a}" ∧ AllRefs c!"x$b" ∧ ¬ AllRefs c!"$" := by
  refine ⟨.lit (by decide) (.lit (by decide) (.ref ((matchVar_iff _ c!"a" []).1 (by decide)) .nil)),
    .lit (by decide) (.ref ((matchVar_iff _ c!"b" []).1 (by decide)) .nil), ?_⟩
  intro h
  cases h with
  | lit hc _ => exact hc rfl
  | ref hr _ =>
    have := (matchVar_iff _ _ _).2 hr
    revert this
    simp [show matchVar c!"$" = none by decide]

end Verif
