import Verif.Model.SubstCost
import Verif.Spec.SubstCost
import Verif.Props.Growth

/-!
# C66: how much work resolving an image takes
-/

namespace Verif
open Spec

/-! ## the same results -/

theorem substLoopM_fst (vars : VarMap) (r : Str → List Str → Option (Option Str × List Str) × Nat) (caps : List Capture) :
    ∀ sp used, (substLoopM vars r caps sp used).1 = substLoop vars (fun s u => (r s u).1) caps sp used := by
  induction caps with
  | nil => intro sp used; rfl
  | cons c caps ih =>
    intro sp used
    unfold substLoopM substLoop
    cases vars c.name with
    | none => rfl
    | some v =>
      simp only
      rcases h : r v used with ⟨_ | ⟨_ | t, u⟩, n⟩
      · rfl
      · rfl
      · simp only
        cases sp.splice c.range t with
        | none => rfl
        | some sp' => exact ih _ _

/-- C66: the metered function computes what `substitute` does. -/
theorem C66_same (vars : VarMap) (d : Nat) : ∀ s used, (substituteM vars d s used).1 = substitute vars d s used := by
  induction d with
  | zero =>
    intro s used
    unfold substituteM substitute
    cases captures s <;> rfl
  | succ d ih =>
    intro s used
    unfold substituteM substitute
    simp only [substLoopM_fst]
    congr 1
    funext s u
    exact ih s u

/-! ## the bound -/

/-- `1 + K + K ^ 2 + … ` (`d` summands) -/
def geo (K : Nat) : Nat → Nat
  | 0 => 0
  | d + 1 => 1 + K * geo K d

/-- the sum of the powers -/
theorem geo_closed (K d : Nat) : geo K d * K + 1 = geo K d + K ^ d := by
  induction d with
  | zero => simp [geo]
  | succ d ih =>
    have e : geo K (d + 1) = 1 + geo K d * K := by rw [geo, Nat.mul_comm]
    rw [Nat.pow_succ, e]
    have h : (1 + geo K d * K) * K = (geo K d + K ^ d) * K := by rw [← ih, Nat.add_comm]
    rw [h, Nat.add_mul]
    omega

theorem substLoopM_le {vars : VarMap} {r : Str → List Str → Option (Option Str × List Str) × Nat} {B : Nat}
    (hr : ∀ n v u, vars n = some v → (r v u).2 ≤ B) (caps : List Capture) :
    ∀ sp used, (substLoopM vars r caps sp used).2 ≤ caps.length * B := by
  induction caps with
  | nil => intro sp used; exact Nat.zero_le _
  | cons c caps ih =>
    intro sp used
    rw [List.length_cons, Nat.succ_mul]
    unfold substLoopM
    cases hv : vars c.name with
    | none => exact Nat.zero_le _
    | some v =>
      have h1 := hr _ _ used hv
      simp only
      rcases h : r v used with ⟨_ | ⟨_ | t, u⟩, n⟩ <;> rw [h] at h1 <;> simp only at h1 ⊢
      · omega
      · omega
      · cases sp.splice c.range t with
        | none => simp only; omega
        | some sp' =>
          have := ih sp' (setInsert c.name u)
          simp only
          omega

/-- C66 (bound): if no value has more than `K` references, an expansion with `d` levels takes at most
`1 + c * (1 + K + … + K ^ (d - 1))` calls, `c` the references of the text. -/
theorem C66_bound (vars : VarMap) (K : Nat) (hK : ∀ n v, vars n = some v → (captures v).length ≤ K) (d : Nat) :
    ∀ s used, (substituteM vars d s used).2 ≤ 1 + (captures s).length * geo K d := by
  induction d with
  | zero =>
    intro s used
    unfold substituteM
    cases captures s <;> simp [geo]
  | succ d ih =>
    intro s used
    unfold substituteM
    refine Nat.add_le_add_left (substLoopM_le (fun n v u hv => ?_) _ _ _) 1
    refine Nat.le_trans (ih v u) ?_
    rw [geo]
    exact Nat.add_le_add_left (Nat.mul_le_mul_right _ (hK n v hv)) 1

theorem capturesFrom_size (n : Nat) : ∀ p s, 2 * (capturesFrom n p s).length ≤ blen s := by
  induction n with
  | zero => intro p s; simp [capturesFrom]
  | succ n ih =>
    intro p s
    cases s with
    | nil => simp [capturesFrom]
    | cons c cs =>
      unfold capturesFrom
      cases h : matchVar (c :: cs) with
      | none => have := ih (p + c.utf8Size) cs; simp only [blen]; omega
      | some x =>
        obtain ⟨name, rest⟩ := x
        have h1 := refAt_size ((matchVar_iff _ _ _).1 h)
        have h2 := ih (p + (blen (c :: cs) - blen rest)) rest
        simp only [List.length_cons]
        omega

theorem captures_size (s : Str) : 2 * (captures s).length ≤ blen s := capturesFrom_size _ _ _

/-- `geo` is monotone -/
theorem geo_le {K L : Nat} (h : K ≤ L) (d : Nat) : geo K d ≤ geo L d := by
  induction d with
  | zero => exact Nat.le_refl _
  | succ d ih => exact Nat.add_le_add_left (Nat.mul_le_mul h ih) 1

/-- C66 (documents): resolving an image of a document of `n` bytes takes at most
`1 + k + k ^ 2 + … + k ^ 16` calls, where `k = n / 2`, provided that unquoting does not lengthen. -/
theorem C66_document (unq : Unquote) (hu : ∀ q t, unq q = .ok t → blen t ≤ blen q) (s : Str)
    (d : Dockerfile) (h : Dockerfile.parse unq s = .ok d) (f : FromInstruction)
    (hf : .from f ∈ d.instructions) : f.image_parsed.resolveCalls d ≤ geo (blen s / 2) 17 := by
  have hi := C49_image_parsed unq s d h f hf
  have hs := field_size hu h hf (f := f.image) (by simp [plainStrings])
  have h1 := captures_size f.image.content
  have h2 := C66_bound (argVars d.global_args) (blen s / 2) (fun n v hv => by
    have h3 := value_size hu h hv
    have h4 := captures_size v
    omega) 16 f.image_parsed.display []
  rw [hi, C18_display_parse] at h2
  unfold ImageRef.resolveCalls
  rw [hi, C18_display_parse]
  refine Nat.le_trans h2 ?_
  rw [show geo (blen s / 2) 17 = 1 + blen s / 2 * geo (blen s / 2) 16 from rfl]
  exact Nat.add_le_add_left (Nat.mul_le_mul_right _ (by omega)) 1

/-! ## exactly which calls are made -/

theorem refAt_unique {s n r n' r' : Str} (h : RefAt s n r) (h' : RefAt s n' r') : n = n' ∧ r = r' := by
  rw [← matchVar_iff] at h h'
  rw [h] at h'
  cases h'
  exact ⟨rfl, rfl⟩

/-- `ok` stands for: the expansion succeeded -/
theorem work_unique {vars : VarMap} {d : Nat} {s : Str} {n : Nat} {ok : Bool}
    (h : Work vars d s n ok) : ∀ {n' ok'}, Work vars d s n' ok' → n = n' ∧ ok = ok' := by
  induction h with
  | nil d =>
    intro n' ok' h'
    cases h' with
    | nil => exact ⟨rfl, rfl⟩
    | deep _ _ _ h => rcases h.2.2 with ⟨h, -⟩ | h <;> cases h
    | undefined _ _ _ _ h => rcases h.2.2 with ⟨h, -⟩ | h <;> cases h
    | stop _ _ _ _ _ _ h => rcases h.2.2 with ⟨h, -⟩ | h <;> cases h
    | step _ _ _ _ _ _ _ _ h => rcases h.2.2 with ⟨h, -⟩ | h <;> cases h
  | lit d c cs n ok hno _ ih =>
    intro n' ok' h'
    cases h' with
    | lit _ _ _ _ _ _ h' => exact ih h'
    | deep _ _ _ h => exact absurd h (hno _ _)
    | undefined _ _ _ _ h => exact absurd h (hno _ _)
    | stop _ _ _ _ _ _ h => exact absurd h (hno _ _)
    | step _ _ _ _ _ _ _ _ h => exact absurd h (hno _ _)
  | deep s name rest hr =>
    intro n' ok' h'
    cases h' with
    | nil => rcases hr.2.2 with ⟨h, -⟩ | h <;> cases h
    | lit _ _ _ _ _ hno => exact absurd hr (hno _ _)
    | deep => exact ⟨rfl, rfl⟩
  | undefined d s name rest hr hv =>
    intro n' ok' h'
    cases h' with
    | nil => rcases hr.2.2 with ⟨h, -⟩ | h <;> cases h
    | lit _ _ _ _ _ hno => exact absurd hr (hno _ _)
    | undefined => exact ⟨rfl, rfl⟩
    | stop _ _ _ _ _ _ h hv' => obtain ⟨rfl, rfl⟩ := refAt_unique hr h; rw [hv] at hv'; cases hv'
    | step _ _ _ _ _ _ _ _ h hv' => obtain ⟨rfl, rfl⟩ := refAt_unique hr h; rw [hv] at hv'; cases hv'
  | stop d s name rest v n hr hv _ ih =>
    intro n' ok' h'
    cases h' with
    | nil => rcases hr.2.2 with ⟨h, -⟩ | h <;> cases h
    | lit _ _ _ _ _ hno => exact absurd hr (hno _ _)
    | undefined _ _ _ _ h hv' => obtain ⟨rfl, rfl⟩ := refAt_unique hr h; rw [hv] at hv'; cases hv'
    | stop _ _ _ _ _ _ h hv' hw =>
      obtain ⟨rfl, rfl⟩ := refAt_unique hr h
      rw [hv] at hv'
      cases hv'
      exact ⟨by rw [(ih hw).1], rfl⟩
    | step _ _ _ _ _ _ _ _ h hv' hw =>
      obtain ⟨rfl, rfl⟩ := refAt_unique hr h
      rw [hv] at hv'
      cases hv'
      exact absurd (ih hw).2 (by simp)
  | step d s name rest v n m ok hr hv _ _ ih1 ih2 =>
    intro n' ok' h'
    cases h' with
    | nil => rcases hr.2.2 with ⟨h, -⟩ | h <;> cases h
    | lit _ _ _ _ _ hno => exact absurd hr (hno _ _)
    | undefined _ _ _ _ h hv' => obtain ⟨rfl, rfl⟩ := refAt_unique hr h; rw [hv] at hv'; cases hv'
    | stop _ _ _ _ _ _ h hv' hw =>
      obtain ⟨rfl, rfl⟩ := refAt_unique hr h
      rw [hv] at hv'
      cases hv'
      exact absurd (ih1 hw).2 (by simp)
    | step _ _ _ _ _ _ _ _ h hv' hw hw' =>
      obtain ⟨rfl, rfl⟩ := refAt_unique hr h
      rw [hv] at hv'
      cases hv'
      obtain ⟨rfl, -⟩ := ih1 hw
      obtain ⟨rfl, rfl⟩ := ih2 hw'
      exact ⟨rfl, rfl⟩

theorem refAt_length {s n r : Str} (h : RefAt s n r) : r.length < s.length := by
  rcases h.2.2 with ⟨rfl, -⟩ | rfl <;> simp only [List.length_cons, List.length_append] <;> omega

theorem loop_work {vars : VarMap} {d : Nat} {r : Str → List Str → Option (Option Str × List Str) × Nat}
    (hr : ∀ v u, ∃ n ok o u', r v u = (some (o, u'), 1 + n) ∧ Work vars d v n ok ∧ (ok = true ↔ o.isSome)) (k : Nat) :
    ∀ p s sp used, s.length ≤ k → (substLoopM vars r (capturesFrom k p s) sp used).1 ≠ none →
      ∃ n ok o u', substLoopM vars r (capturesFrom k p s) sp used = (some (o, u'), n) ∧
        Work vars (d + 1) s n ok ∧ (ok = true ↔ o.isSome) := by
  induction k with
  | zero =>
    intro p s sp used hk _
    have : s = [] := by simpa using hk
    subst this
    exact ⟨0, true, _, _, rfl, .nil _, by simp⟩
  | succ k ih =>
    intro p s sp used hk hne
    cases s with
    | nil => exact ⟨0, true, _, _, rfl, .nil _, by simp⟩
    | cons c cs =>
      rcases ref_cases c cs with ⟨name, rest, href, hm⟩ | ⟨hno, hm⟩
      · simp only [capturesFrom, hm, substLoopM] at hne ⊢
        cases hv : vars name with
        | none => exact ⟨0, false, _, _, rfl, .undefined _ _ _ _ href hv, by simp⟩
        | some v =>
          obtain ⟨n, ok, o, u', h1, h2, h3⟩ := hr v used
          simp only [hv, h1] at hne ⊢
          cases o with
          | none =>
            have hok : ok = false := by simpa using h3
            subst hok
            exact ⟨1 + n, false, _, _, rfl, by rw [Nat.add_comm 1 n]; exact .stop _ _ _ _ _ _ href hv h2, by simp⟩
          | some t =>
            have hok : ok = true := by simpa using h3
            subst hok
            simp only at hne ⊢
            generalize hsp : sp.splice _ t = x at hne ⊢
            cases x with
            | none => exact absurd rfl hne
            | some sp' =>
              have hl : rest.length ≤ k := by
                have := refAt_length href
                simp only [List.length_cons] at hk this
                omega
              obtain ⟨n', ok', o', u2, g1, g2, g3⟩ := ih _ rest sp' _ hl hne
              refine ⟨n + 1 + n', ok', o', u2, ?_, .step _ _ _ _ _ _ _ _ href hv h2 g2, g3⟩
              simp only [g1]
              rw [Nat.add_comm 1 n]
      · simp only [capturesFrom, hm] at hne ⊢
        obtain ⟨n, ok, o, u', h1, h2, h3⟩ := ih _ cs sp used (by simp at hk; omega) hne
        exact ⟨n, ok, o, u', h1, .lit _ _ _ _ _ hno h2, h3⟩

theorem work_noref {vars : VarMap} {d : Nat} {s : Str} (h : ∀ m, ¬ References s m) : Work vars d s 0 true := by
  induction s with
  | nil => exact .nil _
  | cons c cs ih =>
    have hno : ∀ n r, ¬ RefAt (c :: cs) n r := fun n r hr => h n (.here _ _ _ hr)
    exact .lit _ _ _ _ _ hno (ih fun m hm => h m (.afterLit _ _ _ hno hm))

theorem work_deep {vars : VarMap} {s n : Str} (h : References s n) : Work vars 0 s 0 false := by
  induction h with
  | here s n r h => exact .deep _ _ _ h
  | afterRef s m r n h => exact .deep _ _ _ h
  | afterLit c cs n h _ ih => exact .lit _ _ _ _ _ h ih

/-- C66 (exactly): a call makes one further call for every reference it comes to, from left to right,
and stops at the first one that is undefined, too deep or does not expand. -/
theorem C66_exact (vars : VarMap) (d : Nat) : ∀ s used, ∃ n ok o used',
    substituteM vars d s used = (some (o, used'), 1 + n) ∧ Work vars d s n ok ∧ (ok = true ↔ o.isSome) := by
  induction d with
  | zero =>
    intro s used
    unfold substituteM
    cases h : captures s with
    | nil => exact ⟨0, true, _, _, rfl, work_noref (captures_nil_noref _ 0 s (Nat.le_refl _) h), by simp⟩
    | cons x l =>
      obtain ⟨n, hn⟩ := captures_cons_ref s.length 0 s (by
        rw [show capturesFrom s.length 0 s = captures s from rfl, h]; simp)
      exact ⟨0, false, _, _, rfl, work_deep hn, by simp⟩
  | succ d ih =>
    intro s used
    obtain ⟨o, u, h1, -⟩ := substitute_ok vars (d + 1) s used
    rw [← C66_same, substituteM] at h1
    obtain ⟨n, ok, o', u', h2, h3, h4⟩ := loop_work (r := substituteM vars d) ih s.length 0 s (Splicer.fromStr s) used
      (Nat.le_refl _) (by
        rw [show capturesFrom s.length 0 s = captures s from rfl]
        simp only at h1
        rw [h1]
        simp)
    refine ⟨n, ok, o', u', ?_, h3, h4⟩
    rw [substituteM, show captures s = capturesFrom s.length 0 s from rfl, h2]

/-! ## the bound is attained, without a result -/

theorem work_refs {vars : VarMap} {d : Nat} {c : Char} (hc : WordChar c) {v t : Str} {n k : Nat} {ok : Bool}
    (hv : vars [c] = some v) (hw : Work vars d v n true) (ht : ∀ x r, t = x :: r → ¬ WordChar x)
    (h : Work vars (d + 1) t k ok) (m : Nat) : Work vars (d + 1) (refs c m ++ t) (m * (n + 1) + k) ok := by
  induction m with
  | zero => rw [Nat.zero_mul, Nat.zero_add]; exact h
  | succ m ih =>
    rw [Nat.succ_mul, show m * (n + 1) + (n + 1) + k = n + 1 + (m * (n + 1) + k) by omega]
    refine .step _ _ [c] _ _ _ _ _ ⟨by simp, by simpa using hc, .inl ⟨rfl, ?_⟩⟩ hv hw ih
    intro x r hx
    cases m with
    | zero => exact ht x r hx
    | succ m => cases hx; exact dollar_not_word

theorem grow_work {vars : VarMap} {m : Nat} (cs : List Char) (hc : ∀ c ∈ cs, WordChar c)
    (hv : ∀ p ∈ growArgs m cs, vars [p.1] = some p.2) :
    ∃ n, Work vars cs.length (growValue m cs) n true ∧ n + 1 = geo m (cs.length + 1) := by
  induction cs with
  | nil =>
    refine ⟨0, work_noref fun n => noref_x ?_, by simp [geo]⟩
    intro c h
    rw [(List.mem_replicate.1 h).2]
    decide
  | cons c cs ih =>
    obtain ⟨n, h1, h2⟩ := ih (fun d hd => hc d (List.mem_cons_of_mem _ hd))
      (fun p hp => hv p (List.mem_cons_of_mem _ hp))
    refine ⟨m * (n + 1) + 0, ?_, ?_⟩
    · have := work_refs (hc c List.mem_cons_self) (hv (c, _) List.mem_cons_self) h1 (t := []) (by simp) (.nil _) m
      rw [List.append_nil] at this
      exact this
    · rw [List.length_cons, geo, ← h2]
      omega

/-- like `growDoc`, with a reference to an undefined variable after those of the image -/
def lateDoc (m : Nat) : Str := growLines (growValue m growNames ++ c!"$q") (growArgs m growNames)

example : lateDoc 1 = c!"ARG a=$b\nARG b=$c\nARG c=$d\nARG d=$e\nARG e=$f\nARG f=$g\nARG g=$h\nARG h=$i\nARG i=$j\nARG j=$k\nARG k=$l\nARG l=$m\nARG m=$n\nARG n=$o\nARG o=$p\nARG p=xx\nFROM $a$q" := by
  decide +kernel

/-- C66 (attained): for the document of `34 * m + 119` bytes, `resolve_vars` makes
`1 + m + m ^ 2 + … + m ^ 16` calls - and finds that the image cannot be resolved. -/
theorem C66_attained (unq : Unquote) (m : Nat) (hm : 0 < m) :
    blen (lateDoc m) = 34 * m + 119 ∧
    ∃ d f, Dockerfile.parse unq (lateDoc m) = .ok d ∧ .from f ∈ d.instructions ∧
      f.image_parsed.resolveVars d = some none ∧ f.image_parsed.resolveCalls d = geo m 17 := by
  have h8 : ∀ c ∈ growNames, IsAlpha c ∧ c.utf8Size = 1 := by
    intro c hc
    simp only [growNames, List.mem_cons, List.not_mem_nil, or_false] at hc
    rcases hc with rfl | rfl | rfl | rfl | rfl | rfl | rfl | rfl | rfl | rfl | rfl | rfl | rfl |
      rfl | rfl | rfl <;> exact ⟨.inl (by decide), rfl⟩
  have hsz := growValue_size (m := m) fun c hc => (h8 c hc).2
  refine ⟨?_, ?_⟩
  · rw [lateDoc, growLines_size _ fun c hc => (h8 c hc).2, blen_append, hsz]
    have : growNames.length = 16 := rfl
    have e : blen c!"$q" = 2 := rfl
    rw [this, e]
    omega
  · obtain ⟨h1, h2, h3, h4⟩ := growValue_ok hm fun c hc => (h8 c hc).1
    obtain ⟨l, ms, k1, k2, k3⟩ := grow_doc (unq := unq) (img := growValue m growNames ++ c!"$q")
      (by simp) (by
        intro c hc
        rcases List.mem_append.1 hc with hc | hc
        · exact h4 c hc
        · simp only [List.mem_cons, List.not_mem_nil, or_false] at hc
          rcases hc with rfl | rfl
          · simp [IsImageChar]
          · exact .inl (.inl (by decide))) (digestOK_of_noAt (by simpa using h3))
      (growArgs m growNames) (by
        intro p hp
        obtain ⟨p1, ds, p2, p3⟩ := growArgs_mem hp
        have := growValue_ok hm (cs := ds) fun c hc => (h8 c (p2 c hc)).1
        rw [p3]
        exact ⟨(h8 _ p1).1, this.1, this.2.1⟩)
    obtain ⟨as, f, e1, e2, e3⟩ := k3 0
    have hp := C40_roundtrip k1
    rw [k2, e1, documentOf, globalArgs_args, numberStages_args] at hp
    have hd : f.image_parsed.display = growValue m growNames ++ c!"$q" := by rw [e3, C18_display_parse]
    have hv := grow_vars e2 (by rw [growArgs_names]; decide)
    have hq : argVars as c!"q" = none := by
      cases hv : argVars as c!"q" with
      | none => rfl
      | some v =>
        obtain ⟨pre, a, post, w, ha, hn, -⟩ := (C30_variables _ _ _).1 hv
        have : (a.name.content, a.value.map (·.content)) ∈
            (growArgs m growNames).map (fun p => ([p.1], some p.2)) := by
          rw [← e2]
          exact List.mem_map_of_mem (by rw [ha]; simp)
        obtain ⟨p, hp', he⟩ := List.mem_map.1 this
        have h1 := congrArg Prod.fst he
        simp only [hn, List.cons.injEq, and_true] at h1
        have h2 := (growArgs_mem hp').1
        rw [h1] at h2
        exact absurd h2 (by decide)
    have hw : ∃ n, Work (argVars as) 16 (growValue m growNames ++ c!"$q") n false ∧ 1 + n = geo m 17 := by
      obtain ⟨n, w1, w2⟩ := grow_work (vars := argVars as) (m := m) c!"bcdefghijklmnop"
        (fun c hc => isWordChar_iff' (h8 c (List.mem_cons_of_mem _ hc)).1)
        (fun p hp => hv p (List.mem_cons_of_mem _ hp))
      refine ⟨m * (n + 1) + 0, ?_, ?_⟩
      · refine work_refs (isWordChar_iff' (h8 'a' (by simp [growNames])).1)
          (hv ('a', _) List.mem_cons_self) w1 ?_ ?_ m
        · intro x r h
          cases h
          exact dollar_not_word
        · refine .undefined _ _ c!"q" [] ⟨by simp, ?_, .inl ⟨rfl, by simp⟩⟩ hq
          intro c hc
          cases List.mem_singleton.1 hc
          exact .inr (.inl (by decide))
      · have e : c!"bcdefghijklmnop".length + 1 = 16 := rfl
        rw [w2, e, show geo m 17 = 1 + m * geo m 16 from rfl, Nat.add_zero]
    obtain ⟨n, w1, w2⟩ := hw
    refine ⟨_, { f with index := 0 }, hp, by simp, ?_, ?_⟩
    · obtain ⟨n', ok, o, u, g1, g2, g3⟩ := C66_exact (argVars as) 16 f.image_parsed.display []
      rw [hd] at g2
      obtain ⟨-, rfl⟩ := work_unique w1 g2
      have ho : o = none := by cases o <;> simp at g3 ⊢
      subst ho
      have := C66_same (argVars as) 16 f.image_parsed.display []
      rw [g1] at this
      simp only [ImageRef.resolveVars, ImageRef.resolveVarsWithContext, ← this, Option.map_none]
    · obtain ⟨n', ok, o, u, g1, g2, g3⟩ := C66_exact (argVars as) 16 f.image_parsed.display []
      rw [hd] at g2
      obtain ⟨rfl, -⟩ := work_unique w1 g2
      simp only [ImageRef.resolveCalls, g1, w2]

theorem pow_le_geo (K d : Nat) : K ^ d ≤ geo K (d + 1) := by
  induction d with
  | zero => simp [geo]
  | succ d ih =>
    rw [geo, Nat.pow_succ, Nat.mul_comm]
    exact Nat.le_trans (Nat.mul_le_mul_left _ ih) (Nat.le_add_left _ _)

/-- C66 (no smaller power): no multiple of the 15th power of the size of the document bounds the
calls. -/
theorem C66_no_smaller (unq : Unquote) (K : Nat) :
    ∃ s d f, Dockerfile.parse unq s = .ok d ∧ .from f ∈ d.instructions ∧
      f.image_parsed.resolveVars d = some none ∧ K * blen s ^ 15 < f.image_parsed.resolveCalls d := by
  have key : ∀ m, 119 ≤ m → K * 35 ^ 15 < m → K * (34 * m + 119) ^ 15 < m ^ 16 := by
    intro m h1 h2
    have h3 : (34 * m + 119) ^ 15 ≤ 35 ^ 15 * m ^ 15 := by
      rw [← Nat.mul_pow]
      exact Nat.pow_le_pow_left (by omega) _
    have h4 : 0 < m ^ 15 := Nat.pow_pos (by omega)
    calc K * (34 * m + 119) ^ 15 ≤ K * (35 ^ 15 * m ^ 15) := Nat.mul_le_mul_left _ h3
      _ = (K * 35 ^ 15) * m ^ 15 := (Nat.mul_assoc ..).symm
      _ < m * m ^ 15 := Nat.mul_lt_mul_of_pos_right h2 h4
      _ = m ^ 16 := by rw [Nat.pow_succ m 15, Nat.mul_comm]
  obtain ⟨h1, d, f, h2, h3, h4, h5⟩ := C66_attained unq (K * 35 ^ 15 + 119) (by omega)
  refine ⟨_, d, f, h2, h3, h4, ?_⟩
  rw [h1, h5]
  exact Nat.lt_of_lt_of_le (key _ (by omega) (by omega)) (pow_le_geo _ _)

/-- C66 (a variable that refers to itself): the calls go down to the last level, once, whatever
else the text and the value contain after the reference. -/
theorem C66_cycle (vars : VarMap) (c : Char) (hc : WordChar c) (t : Str)
    (ht : ∀ x r, t = x :: r → ¬ WordChar x) (hv : vars [c] = some ('$' :: c :: t)) (d : Nat) (t' : Str)
    (ht' : ∀ x r, t' = x :: r → ¬ WordChar x) (used : List Str) :
    ∃ used', substituteM vars d ('$' :: c :: t') used = (some (none, used'), d + 1) := by
  have href : ∀ t, (∀ x r, t = x :: r → ¬ WordChar x) → RefAt ('$' :: c :: t) [c] t := fun t ht =>
    ⟨by simp, by simpa using hc, .inl ⟨rfl, ht⟩⟩
  have key : ∀ d t', (∀ x r, t' = x :: r → ¬ WordChar x) → Work vars d ('$' :: c :: t') d false := by
    intro d
    induction d with
    | zero => exact fun t' ht' => .deep _ _ _ (href t' ht')
    | succ d ih => exact fun t' ht' => .stop _ _ _ _ _ _ (href t' ht') hv (ih t ht)
  obtain ⟨n, ok, o, u, g1, g2, g3⟩ := C66_exact vars d ('$' :: c :: t') used
  obtain ⟨rfl, rfl⟩ := work_unique (key d t' ht') g2
  have ho : o = none := by cases o <;> simp at g3 ⊢
  subst ho
  exact ⟨u, by rw [g1, Nat.add_comm]⟩

/- the calls for two documents, and for a variable that refers to itself twice -/
example : (match Dockerfile.parse Enquote.unquote c!"ARG a=$b$b\nARG b=x\nFROM $a:$a-$c$a" with
    | .ok d => match d.instructions.getLast? with
      | some (.from f) => some (f.image_parsed.resolveCalls d, f.image_parsed.resolveVars d)
      | _ => none
    | .error _ => none) = some (7, some none) := by decide +kernel

example : (match Dockerfile.parse Enquote.unquote c!"ARG a=$a$a\nFROM $a$a" with
    | .ok d => match d.instructions.getLast? with
      | some (.from f) => some (f.image_parsed.resolveCalls d, f.image_parsed.resolveVars d)
      | _ => none
    | .error _ => none) = some (17, some none) := by decide +kernel

/- ten references per line: 459 bytes, more than 10 ^ 16 calls -/
example : 34 * 10 + 119 = 459 ∧ geo 10 17 = 11111111111111111 := by decide

end Verif
