import Verif.Props.Parts
import Verif.Props.Resolve
import Verif.Props.Respell
import Verif.Spec.Default

/-! # What a default written into an `ARG` does to the images (C100) -/

namespace Verif
open Spec

/-! ## the values of the variables -/

/-- one argument -/
abbrev varStep (m : VarMap) (a : ArgInstruction) : VarMap :=
  match a.value with
  | some v => fun k => if k = a.name.content then some v.content else m k
  | none => m

theorem argVars_fold (as : List ArgInstruction) : argVars as = as.foldl varStep (fun _ => none) := rfl

theorem step_congr {m m' : VarMap} {k : Str} (h : m k = m' k) (a : ArgInstruction) : varStep m a k = varStep m' a k := by
  unfold varStep
  cases a.value with
  | none => exact h
  | some v => simp only [h]

theorem fold_congr {k : Str} (as : List ArgInstruction) : ∀ {m m' : VarMap}, m k = m' k →
    as.foldl varStep m k = as.foldl varStep m' k := by
  induction as with
  | nil => intro m m' h; exact h
  | cons a as ih => intro m m' h; exact ih (step_congr h a)

theorem step_skip {m : VarMap} {k : Str} {a : ArgInstruction} (h : a.name.content = k → a.value = none) : varStep m a k = m k := by
  unfold varStep
  cases e : a.value with
  | none => rfl
  | some v =>
    have : k ≠ a.name.content := fun hk => by rw [h hk.symm] at e; cases e
    simp only [this, if_false]

theorem fold_skip {k : Str} (as : List ArgInstruction) : ∀ {m : VarMap},
    (∀ a ∈ as, a.name.content = k → a.value = none) → as.foldl varStep m k = m k := by
  induction as with
  | nil => intro m _; rfl
  | cons a as ih =>
    intro m h
    exact (ih fun b hb => h b (by simp [hb])).trans (step_skip (h a (by simp)))

theorem step_remap (g : Nat → Nat) (m : VarMap) (a : ArgInstruction) : varStep m (a.remap g) = varStep m a := by
  unfold varStep
  obtain ⟨s, n, v⟩ := a
  cases v <;> rfl

theorem fold_remap (g : Nat → Nat) (as : List ArgInstruction) : ∀ m : VarMap,
    (as.map (·.remap g)).foldl varStep m = as.foldl varStep m := by
  induction as with
  | nil => intro m; rfl
  | cons a as ih => intro m; rw [List.map_cons, List.foldl_cons, List.foldl_cons, step_remap, ih]

/-- a default among others -/
theorem given_of {P Q : List ArgInstruction} {a b : ArgInstruction} (g : Nat → Nat) (hn : b.name.content = a.name.content)
    (hQ : ∀ c ∈ Q, c.name.content = a.name.content → c.value = none)
    (hP : b.value = none → ∀ c ∈ P, c.name.content = a.name.content → c.value = none) :
    Given a.name.content (b.value.map (·.content)) (P ++ a :: Q) (P ++ b :: Q.map (·.remap g)) := by
  intro k w
  rw [← C30_variables, ← C30_variables, argVars_fold, argVars_fold, List.foldl_append, List.foldl_append,
    List.foldl_cons, List.foldl_cons, fold_remap]
  by_cases hk : k = a.name.content
  · subst hk
    rw [fold_skip Q hQ]
    simp only [true_and, ne_eq, not_true, false_and, or_false]
    unfold varStep
    cases hb : b.value with
    | none => simp only [Option.map_none]; rw [fold_skip P (hP hb)]
    | some v => simp [hn]
  · simp only [hk, false_and, ne_eq, not_false_eq_true, true_and, false_or]
    have h1 : ∀ m, varStep m b k = m k := fun m => step_skip fun h => absurd (h.symm.trans hn) hk
    have h2 : ∀ m, varStep m a k = m k := fun m => step_skip fun h => absurd h.symm hk
    rw [fold_congr Q ((h1 _).trans (h2 _).symm)]

theorem argVars_given {n : Str} {o : Option Str} {as bs : List ArgInstruction} (h : Given n o as bs) (k : Str) :
    argVars bs k = if k = n then o else argVars as k := by
  apply Option.ext
  intro w
  show argVars bs k = some w ↔ _
  rw [C30_variables, h k w]
  split
  · rename_i hk; simp [hk]
  · rename_i hk; simp only [hk, false_and, false_or, ne_eq, not_false_eq_true, true_and]; exact (C30_variables _ _ _).symm

/-! ## the images -/

/-- C100: An image that does not come to the variable resolves as before, or fails as before. -/
theorem C100_others {n : Str} {o : Option Str} {d d' : Dockerfile} (h : Given n o d.global_args d'.global_args)
    (r : ImageRef) (hr : ¬ Reaches (argVars d.global_args) r.display n) :
    r.resolveVarsWithContext d' = r.resolveVarsWithContext d := by
  unfold ImageRef.resolveVarsWithContext
  rw [C74_reached (argVars d.global_args) (argVars d'.global_args) 16 _ _ fun m hm => by
    rw [argVars_given h, if_neg (fun e : m = n => hr (e ▸ hm))]]

theorem dollar_refAt {s n q : Str} (h : RefAt s n q) : '$' ∈ s := by
  obtain ⟨-, -, ⟨rfl, -⟩ | rfl⟩ := h <;> simp

theorem noRef_cons {c : Char} (hc : c ≠ '$') (cs : Str) : ∀ n r, ¬ RefAt (c :: cs) n r := by
  rintro n r ⟨-, -, ⟨e, -⟩ | e⟩ <;> exact hc (List.cons.inj e).1

theorem expands_front {vars : VarMap} {k : Nat} {s t : Str} (p : Str) (hp : '$' ∉ p) (h : Expands vars k s t) :
    Expands vars k (p ++ s) (p ++ t) := by
  induction p with
  | nil => exact h
  | cons c p ih =>
    simp only [List.mem_cons, not_or] at hp
    exact .lit _ _ _ _ (noRef_cons (fun e => hp.1 e.symm) _) (ih hp.2)

theorem expands_self (vars : VarMap) (k : Nat) (s : Str) (h : '$' ∉ s) : Expands vars k s s := by
  simpa using expands_front s h (.nil (vars := vars) k)

theorem context_of {r : ImageRef} {d : Dockerfile} {r' : ImageRef} (h : r.resolveVars d = some (some r')) :
    ∃ used, r.resolveVarsWithContext d = some (some (r', used)) := by
  unfold ImageRef.resolveVars at h
  cases e : r.resolveVarsWithContext d with
  | none => rw [e] at h; cases h
  | some o =>
    rw [e] at h
    cases o with
    | none => cases h
    | some x => cases h; exact ⟨x.2, rfl⟩

theorem references_once {p r n q : Str} (hp : '$' ∉ p) (hr : RefAt r n q) (hq : '$' ∉ q) (k : Str) :
    References (p ++ r) k ↔ k = n := by
  induction p with
  | nil =>
    constructor
    · intro h
      cases h with
      | here _ _ _ h' => exact (h'.unique hr).1
      | afterRef _ m rest _ h' h2 => rw [(h'.unique hr).2] at h2; exact absurd h2 (noDollar_noRef hq _)
      | afterLit c cs _ h' _ => exact absurd hr (h' _ _)
    · rintro rfl; exact .here _ _ _ hr
  | cons c p ih =>
    simp only [List.mem_cons, not_or] at hp
    have hc := noRef_cons (fun e => hp.1 e.symm) (p ++ r)
    rw [← ih hp.2]
    constructor
    · intro h
      cases h with
      | here _ _ _ h' => exact absurd h' (hc _ _)
      | afterRef _ m rest _ h' _ => exact absurd h' (hc _ _)
      | afterLit _ _ _ _ h' => exact h'
    · exact fun h => .afterLit _ _ _ hc h

/-- C100: An image in which the variable stands once, and nothing else with a dollar sign, resolves to its text with
the new value there, and this variable is reported. -/
theorem C100_takes {n v : Str} {d d' : Dockerfile} (h : Given n (some v) d.global_args d'.global_args) (hv : '$' ∉ v)
    {i : ImageRef} {p r q : Str} (hi : i.display = p ++ r) (hr : RefAt r n q) (hp : '$' ∉ p) (hq : '$' ∉ q) :
    ∃ used, i.resolveVarsWithContext d' = some (some (ImageRef.parse (p ++ (v ++ q)), used)) ∧ ∀ x, x ∈ used ↔ x = n := by
  have hval : argVars d'.global_args n = some v := by rw [argVars_given h, if_pos rfl]
  obtain ⟨o, h1, h2⟩ := C30_resolve_vars i d'
  have := (h2 (ImageRef.parse (p ++ (v ++ q)))).2 ⟨_, by
    rw [hi]
    exact expands_front p hp (.ref 15 r n q v v q hr hval (expands_self _ _ v hv) (expands_self _ _ q hq)), rfl⟩
  rw [this] at h1
  obtain ⟨used, hu⟩ := context_of h1
  refine ⟨used, hu, fun x => ?_⟩
  rw [(C30_context _ _ _ _ hu).2 x, hi]
  constructor
  · intro hx
    cases hx with
    | direct _ _ h' => exact (references_once hp hr hq x).1 h'
    | through _ m w _ h' hw h3 =>
      rw [(references_once hp hr hq m).1 h', hval] at hw
      cases hw
      exfalso
      cases h3 with
      | direct _ _ h' => exact noDollar_noRef hv _ h'
      | through _ _ _ _ h' => exact noDollar_noRef hv _ h'
  · rintro rfl
    exact .direct _ _ ((references_once hp hr hq x).2 rfl)

/-- C100: Without a default, an image that comes to the variable does not resolve. -/
theorem C100_missing {n : Str} {d d' : Dockerfile} (h : Given n none d.global_args d'.global_args) (r : ImageRef)
    (hr : Reaches (argVars d.global_args) r.display n) : r.resolveVars d' = some none :=
  C30_undefined r d' n (reaches_without (fun m hm => by rw [argVars_given h, if_neg hm]) hr)
    (fun v hv => (h n v).1 hv |>.elim (fun e => by cases e.2) (fun e => e.1 rfl))

/-- `v` gets the default `2`, where `w` refers to `v`: the conditions of the theorems, for `$w`, `${v}-x` and `$u` -/
example :
    let arg (n : Str) (v : Option Str) : ArgInstruction := ⟨⟨0, 0⟩, ⟨⟨0, 0⟩, n⟩, v.map (fun x => ⟨⟨0, 0⟩, x⟩)⟩
    let d : Dockerfile := ⟨[], [arg c!"w" (some c!"$v"), arg c!"v" (some c!"1"), arg c!"u" (some c!"5")], []⟩
    let d' (o : Option Str) : Dockerfile := ⟨[], [arg c!"w" (some c!"$v"), arg c!"v" o, arg c!"u" (some c!"5")], []⟩
    (∀ o, Given c!"v" o d.global_args (d' o).global_args) ∧
    Reaches (argVars d.global_args) (ImageRef.parse c!"$w").display c!"v" ∧
    (ImageRef.parse c!"$w").resolveVars (d' none) = some none ∧
    (ImageRef.parse c!"$w").resolveVars (d' (some c!"2")) = some (some (ImageRef.parse c!"2")) ∧
    (ImageRef.parse c!"r:${v}-x").resolveVars (d' (some c!"2")) = some (some (ImageRef.parse c!"r:2-x")) ∧
    ¬ Reaches (argVars d.global_args) (ImageRef.parse c!"$u").display c!"v" := by
  intro arg d d'
  have ref : ∀ n, RefAt ('$' :: n) n [] → ∀ k, References ('$' :: n) k ↔ k = n := fun n hn k =>
    references_once (p := []) (by decide) hn (by decide) k
  refine ⟨fun o => ?_, ?_, by decide +kernel, by decide +kernel, by decide +kernel, ?_⟩
  · have := given_of (P := [arg c!"w" (some c!"$v")]) (Q := [arg c!"u" (some c!"5")]) (a := arg c!"v" (some c!"1")) (b := arg c!"v" o)
      (fun _ => 0) rfl (by decide) (fun _ => by decide)
    have e : (arg c!"v" o).value.map (·.content) = o := by cases o <;> rfl
    rw [e] at this
    exact this
  · rw [C18_display_parse]
    exact .through _ c!"w" c!"$v" _ ((ref c!"w" ((matchVar_iff _ _ _).1 (by decide +kernel)) _).2 rfl) (by decide +kernel)
      (.direct _ _ ((ref c!"v" ((matchVar_iff _ _ _).1 (by decide +kernel)) _).2 rfl))
  · rw [C18_display_parse]
    have hu := ref c!"u" ((matchVar_iff _ _ _).1 (by decide +kernel))
    intro h
    cases h with
    | direct _ _ h => exact absurd ((hu _).1 h) (by decide)
    | through _ m v _ h hv h2 =>
      obtain rfl := (hu m).1 h
      rw [show argVars d.global_args c!"u" = some c!"5" by decide +kernel] at hv
      cases hv
      cases h2 with
      | direct _ _ h => exact noDollar_noRef (by decide) _ h
      | through _ _ _ _ h => exact noDollar_noRef (by decide) _ h

/-! ## the documents -/

theorem globalArgs_front {pre : List Instruction} (h : ∀ f, .from f ∉ pre) (js : List Instruction) :
    globalArgs (pre ++ js) = globalArgs pre ++ globalArgs js := by
  induction pre with
  | nil => rfl
  | cons i pre ih =>
    have := ih fun f hf => h f (by simp [hf])
    cases i
    case «from» f => exact absurd (by simp) (h f)
    all_goals simp [globalArgs, this]

theorem globalArgs_behind {pre : List Instruction} {f : FromInstruction} (h : .from f ∈ pre) (js : List Instruction) :
    globalArgs (pre ++ js) = globalArgs pre := by
  induction pre with
  | nil => cases h
  | cons i pre ih =>
    rcases List.mem_cons.1 h with rfl | h
    · rfl
    · have := ih h
      cases i
      case «from» f => rfl
      all_goals simp [globalArgs, this]

theorem images_numbered (is : List Instruction) : ∀ k, (numberStages k is).map imageText = is.map imageText := by
  induction is with
  | nil => intro k; rfl
  | cons i is ih => intro k; cases i <;> simp [numberStages, ih] <;> rfl

theorem images_remap (g : Nat → Nat) (is : List Instruction) : (is.map (·.remap g)).map imageText = is.map imageText := by
  rw [List.map_map]
  exact List.map_congr_left fun i _ => by cases i <;> rfl

theorem image_at {l m : List Instruction} (e : m.map imageText = l.map imageText) {i : Nat} {f : FromInstruction}
    (h : l[i]? = some (.from f)) : ∃ f', m[i]? = some (.from f') ∧ f'.image.content = f.image.content := by
  have := congrArg (·[i]?) e
  simp only [List.getElem?_map, h, Option.map_some] at this
  obtain ⟨j, h1, h2⟩ := Option.map_eq_some_iff.1 this
  cases j
  case «from» f' => exact ⟨f', h1, Option.some.inj h2⟩
  all_goals cases h2

/-- C100: Give a global argument the default `o` (or take its default away), in the text.  If no later global argument
of the name has a default (and no other one when the default is taken away), the new document is accepted with the same
images, and: the images that do not come to the variable resolve as before; those with one reference, to it, resolve to their text with
`v` in its place; without a default, those that come to it do not resolve. -/
theorem C100_default {unq : Unquote} {x y t z : Str} {d : Dockerfile} {pre post : List Instruction} {a : ArgInstruction}
    (h : Dockerfile.parse unq (x ++ (y ++ t ++ z)) = .ok d) (e : d.instructions = pre ++ .arg a :: post)
    (h1 : a.span.start = blen x) (h2 : a.span.stop = blen (x ++ (y ++ t))) (h3 : a.name.span.stop = blen (x ++ y))
    (hq : Mild (y ++ t)) (o : Option Str) (ho : ∀ v, o = some v → Over Spec.Plain v)
    (hk : ∀ m, .misc m ∈ pre → ¬ IsKeyword m.instruction.content) (hg : ∀ f, .from f ∉ pre)
    (hQ : ∀ c ∈ globalArgs post, c.name.content = a.name.content → c.value = none)
    (hP : o = none → ∀ c ∈ globalArgs pre, c.name.content = a.name.content → c.value = none) :
    ∃ d', Dockerfile.parse unq (x ++ (y ++ eqText o ++ z)) = .ok d' ∧ d'.instructions.length = d.instructions.length ∧
      Given a.name.content o d.global_args d'.global_args ∧
      ∀ (i : Nat) (f : FromInstruction), d.instructions[i]? = some (.from f) →
        ∃ f', d'.instructions[i]? = some (.from f') ∧ f'.image.content = f.image.content ∧
          (¬ Reaches (argVars d.global_args) f.image.content a.name.content →
            f'.image_parsed.resolveVarsWithContext d' = f.image_parsed.resolveVarsWithContext d) ∧
          (∀ v p r q, o = some v → '$' ∉ v → f.image.content = p ++ r → RefAt r a.name.content q → '$' ∉ p → '$' ∉ q →
            f'.image_parsed.resolveVars d' = some (some (ImageRef.parse (p ++ (v ++ q))))) ∧
          (o = none → Reaches (argVars d.global_args) f.image.content a.name.content →
            f'.image_parsed.resolveVars d' = some none) := by
  have hnew := (C99_default h e h1 h2 h3 hq o ho hk).2
  have hd := documentOf_same h
  have hdg : d.global_args = globalArgs pre ++ a :: globalArgs post := by
    rw [← hd, e]; exact globalArgs_front hg _
  refine ⟨_, hnew, ?_, ?_, ?_⟩
  · have := congrArg List.length (images_numbered (pre ++ .arg ⟨⟨blen x, blen (x ++ (y ++ eqText o))⟩, a.name,
      eqValue (blen (x ++ y)) o⟩ :: post.map (·.remap fun q => q - blen (x ++ (y ++ t)) + blen (x ++ (y ++ eqText o)))) 0)
    rw [List.length_map, List.length_map] at this
    rw [e]
    refine Eq.trans this ?_
    simp
  all_goals
    have hG : Given a.name.content o d.global_args (globalArgs (pre ++ .arg ⟨⟨blen x, blen (x ++ (y ++ eqText o))⟩, a.name,
        eqValue (blen (x ++ y)) o⟩ :: post.map (·.remap fun q => q - blen (x ++ (y ++ t)) + blen (x ++ (y ++ eqText o))))) := by
      rw [hdg, globalArgs_front hg, globalArgs, Src.globalArgs_remap]
      have := given_of (P := globalArgs pre) (Q := globalArgs post) (a := a) (b := ⟨⟨blen x, blen (x ++ (y ++ eqText o))⟩, a.name,
        eqValue (blen (x ++ y)) o⟩) (fun q => q - blen (x ++ (y ++ t)) + blen (x ++ (y ++ eqText o))) rfl hQ
        (fun hb => hP (by cases o with | none => rfl | some v => cases hb))
      have ev : (eqValue (blen (x ++ y)) o).map (·.content) = o := by cases o <;> rfl
      rw [ev] at this
      exact this
  · exact hG
  · intro i f hf
    have hm := List.mem_of_getElem? hf
    obtain ⟨f', g1, g2⟩ := image_at (m := numberStages 0 (pre ++ .arg ⟨⟨blen x, blen (x ++ (y ++ eqText o))⟩, a.name,
        eqValue (blen (x ++ y)) o⟩ :: post.map (·.remap fun q => q - blen (x ++ (y ++ t)) + blen (x ++ (y ++ eqText o)))))
      (by rw [images_numbered, e, List.map_append, List.map_cons, images_remap, List.map_append, List.map_cons]; rfl) hf
    have p1 : f.image_parsed = ImageRef.parse f.image.content := C49_image_parsed unq _ d h f hm
    have p2 : f'.image_parsed = ImageRef.parse f.image.content := by
      rw [← g2]; exact C49_image_parsed unq _ _ hnew f' (List.mem_of_getElem? g1)
    have hdisp : (ImageRef.parse f.image.content).display = f.image.content := C18_display_parse _
    refine ⟨f', g1, g2, fun hr => ?_, fun v p r q eo hv hi hr hp hq' => ?_, fun eo hr => ?_⟩
    · rw [p1, p2]
      exact C100_others (d := d) (d' := documentOf _ _) hG _ (by rw [hdisp]; exact hr)
    · subst eo
      obtain ⟨used, hu, -⟩ := C100_takes (d := d) (d' := documentOf _ _) hG hv (i := f'.image_parsed) (by rw [p2, hdisp]; exact hi) hr hp hq'
      exact (C30_context _ _ _ _ hu).1
    · subst eo
      rw [p2]
      exact C100_missing (d := d) (d' := documentOf _ _) hG _ (by rw [hdisp]; exact hr)

/-- C100: The default of an argument behind the first `FROM` has no influence on the images. -/
theorem C100_late {unq : Unquote} {x y t z : Str} {d : Dockerfile} {pre post : List Instruction} {a : ArgInstruction}
    (h : Dockerfile.parse unq (x ++ (y ++ t ++ z)) = .ok d) (e : d.instructions = pre ++ .arg a :: post)
    (h1 : a.span.start = blen x) (h2 : a.span.stop = blen (x ++ (y ++ t))) (h3 : a.name.span.stop = blen (x ++ y))
    (hq : Mild (y ++ t)) (o : Option Str) (ho : ∀ v, o = some v → Over Spec.Plain v)
    (hk : ∀ m, .misc m ∈ pre → ¬ IsKeyword m.instruction.content) {f0 : FromInstruction} (hg : .from f0 ∈ pre) :
    ∃ d', Dockerfile.parse unq (x ++ (y ++ eqText o ++ z)) = .ok d' ∧ d'.global_args = d.global_args ∧
      ∀ (i : Nat) (f : FromInstruction), d.instructions[i]? = some (.from f) →
        ∃ f', d'.instructions[i]? = some (.from f') ∧ f'.image.content = f.image.content ∧
          f'.image_parsed.resolveVarsWithContext d' = f.image_parsed.resolveVarsWithContext d := by
  have hnew := (C99_default h e h1 h2 h3 hq o ho hk).2
  have hd := documentOf_same h
  have hG : globalArgs (pre ++ .arg ⟨⟨blen x, blen (x ++ (y ++ eqText o))⟩, a.name,
      eqValue (blen (x ++ y)) o⟩ :: post.map (·.remap fun q => q - blen (x ++ (y ++ t)) + blen (x ++ (y ++ eqText o)))) = d.global_args := by
    rw [← hd, e, globalArgs_behind hg]; exact (globalArgs_behind hg _).symm
  refine ⟨_, hnew, hG, fun i f hf => ?_⟩
  have hm := List.mem_of_getElem? hf
  obtain ⟨f', g1, g2⟩ := image_at (m := numberStages 0 (pre ++ .arg ⟨⟨blen x, blen (x ++ (y ++ eqText o))⟩, a.name,
      eqValue (blen (x ++ y)) o⟩ :: post.map (·.remap fun q => q - blen (x ++ (y ++ t)) + blen (x ++ (y ++ eqText o)))))
    (by rw [images_numbered, e, List.map_append, List.map_cons, images_remap, List.map_append, List.map_cons]; rfl) hf
  refine ⟨f', g1, g2, ?_⟩
  have p1 : f.image_parsed = ImageRef.parse f.image.content := C49_image_parsed unq _ d h f hm
  have p2 : f'.image_parsed = ImageRef.parse f.image.content := by
    rw [← g2]; exact C49_image_parsed unq _ _ hnew f' (List.mem_of_getElem? g1)
  rw [p1, p2]
  unfold ImageRef.resolveVarsWithContext
  rw [show (documentOf _ _).global_args = d.global_args from hG]

/-! ## samples -/

theorem parsed_sample {s : Str} {F : Dockerfile → Bool}
    (h : (match Dockerfile.parse Enquote.unquote s with | .ok d => F d | .error _ => false) = true) :
    ∃ d, Dockerfile.parse Enquote.unquote s = .ok d ∧ F d = true := by
  split at h
  · rename_i d hd; exact ⟨d, hd, h⟩
  · cases h

/-- what the sample has to be like -/
def defaultSample : Dockerfile → Bool := fun d =>
  match d.instructions with
  | [.arg b, .arg a, .from f, .arg c, .from g] =>
    decide (b.name.content = c!"w") && decide (a.name.content = c!"v") && decide (a.span = ⟨10, 15⟩) &&
      decide (a.name.span.stop = 15) && decide (f.image.content = c!"r:${v}-x") && decide (c.span.start = 30) &&
      decide (c.span.stop = 37) && decide (c.name.span.stop = 35) && decide (g.image.content = c!"s:$w") &&
      decide (argVars d.global_args c!"w" = some c!"22")
  | _ => false

/-- `v` has no default, and is given one: the first image resolves to `r:3-x`, the second one as before. -/
example : ∃ d d' f f' g g', Dockerfile.parse Enquote.unquote (c!"ARG w=22\n\n" ++ (c!"ARG v" ++ [] ++ c!"\nFROM r:${v}-x\nARG v=1\nFROM s:$w\n")) = .ok d ∧
    Dockerfile.parse Enquote.unquote (c!"ARG w=22\n\n" ++ (c!"ARG v" ++ c!"=3" ++ c!"\nFROM r:${v}-x\nARG v=1\nFROM s:$w\n")) = .ok d' ∧
    d.instructions[2]? = some (.from f) ∧ d'.instructions[2]? = some (.from f') ∧
    d.instructions[4]? = some (.from g) ∧ d'.instructions[4]? = some (.from g') ∧
    f'.image_parsed.resolveVars d' = some (some (ImageRef.parse c!"r:3-x")) ∧
    g'.image_parsed.resolveVarsWithContext d' = g.image_parsed.resolveVarsWithContext d := by
  obtain ⟨d, h, hF⟩ := parsed_sample (s := c!"ARG w=22\n\n" ++ (c!"ARG v" ++ [] ++ c!"\nFROM r:${v}-x\nARG v=1\nFROM s:$w\n"))
    (F := defaultSample) (by decide +kernel)
  unfold defaultSample at hF
  split at hF
  case h_2 => cases hF
  rename_i b a f c g e
  simp only [Bool.and_eq_true, decide_eq_true_eq] at hF
  obtain ⟨⟨⟨⟨⟨⟨⟨⟨⟨k1, k2⟩, k3⟩, k4⟩, k5⟩, k6⟩, k7⟩, k8⟩, k9⟩, k10⟩ := hF
  obtain ⟨d', h', -, hG, hI⟩ := C100_default (pre := [.arg b]) (post := [.from f, .arg c, .from g]) h e
    (by rw [k3]; decide +kernel) (by rw [k3]; decide +kernel) (by rw [k4]; decide +kernel) (by unfold Mild Unquoted; decide +kernel)
    (some c!"3") (fun v hv => by cases hv; exact over_plain (by decide)) (by simp) (by simp)
    (fun c hc => by simp [globalArgs] at hc) (fun e => by cases e)
  obtain ⟨f', g1, -, -, g2, -⟩ := hI 2 f (by rw [e]; rfl)
  obtain ⟨g', p1, -, p2, -⟩ := hI 4 g (by rw [e]; rfl)
  refine ⟨d, d', f, f', g, g', h, h', by rw [e]; rfl, g1, by rw [e]; rfl, p1, ?_, p2 ?_⟩
  · exact g2 c!"3" c!"r:" c!"${v}-x" c!"-x" rfl (by decide) k5
      (by rw [k2]; exact refAt_of (by decide +kernel)) (by decide) (by decide)
  · rw [k9, k2]
    intro hr
    have ref : ∀ k, References c!"s:$w" k → k = c!"w" := fun k =>
      (references_once (p := c!"s:") (r := c!"$w") (n := c!"w") (q := []) (by decide) (refAt_of (by decide +kernel)) (by decide) k).1
    cases hr with
    | direct _ _ h' => exact absurd (ref _ h') (by decide)
    | through _ m v _ h' hv h2 =>
      rw [ref _ h', k10] at hv
      cases hv
      cases h2 with
      | direct _ _ h' => exact noDollar_noRef (by decide) _ h'
      | through _ _ _ _ h' => exact noDollar_noRef (by decide) _ h'

/-- The default of the second `ARG v`, behind a `FROM`, is taken away: nothing changes for the images. -/
example : ∃ d d' f', Dockerfile.parse Enquote.unquote (c!"ARG w=22\n\nARG v\nFROM r:${v}-x\n" ++ (c!"ARG v" ++ c!"=1" ++ c!"\nFROM s:$w\n")) = .ok d ∧
    Dockerfile.parse Enquote.unquote (c!"ARG w=22\n\nARG v\nFROM r:${v}-x\n" ++ (c!"ARG v" ++ [] ++ c!"\nFROM s:$w\n")) = .ok d' ∧
    d'.instructions[4]? = some (.from f') ∧ d'.global_args = d.global_args := by
  obtain ⟨d, h, hF⟩ := parsed_sample (s := c!"ARG w=22\n\nARG v\nFROM r:${v}-x\n" ++ (c!"ARG v" ++ c!"=1" ++ c!"\nFROM s:$w\n"))
    (F := defaultSample) (by decide +kernel)
  unfold defaultSample at hF
  split at hF
  case h_2 => cases hF
  rename_i b a f c g e
  simp only [Bool.and_eq_true, decide_eq_true_eq] at hF
  obtain ⟨⟨⟨⟨⟨⟨⟨⟨⟨k1, k2⟩, k3⟩, k4⟩, k5⟩, k6⟩, k7⟩, k8⟩, k9⟩, k10⟩ := hF
  obtain ⟨d', h', hg, hI⟩ := C100_late (pre := [.arg b, .arg a, .from f]) (post := [.from g]) h e
    (by rw [k6]; decide +kernel) (by rw [k7]; decide +kernel) (by rw [k8]; decide +kernel) (by unfold Mild Unquoted; decide +kernel)
    none (fun v hv => by cases hv) (by simp) (f0 := f) (by simp)
  obtain ⟨f', g1, -⟩ := hI 4 g (by rw [e]; rfl)
  exact ⟨d, d', f', h, h', g1, hg⟩

end Verif
