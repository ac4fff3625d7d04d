import Verif.Proof.Growth

/-! # How large resolved images can get (C62)

`ImageRef::resolve_vars` (`/repo/src/image.rs:153-183`) expands the values of variables
recursively, up to 16 levels deep (`/repo/src/image.rs:167`), without a limit on the size of the
result. -/

namespace Verif
open Spec

/-! ## the bound -/

/-- C62 (one expansion): if no value has more than `V` bytes (and `V ≥ 2`), an expansion of a text
of `n` bytes with depth `d` has at most `n * (V / 2) ^ d` bytes. -/
theorem C62_expansion (vars : VarMap) (V : Nat) (hV : 2 ≤ V)
    (hv : ∀ n v, vars n = some v → blen v ≤ V) (d : Nat) (s t : Str) (used used' : List Str)
    (h : substitute vars d s used = some (some t, used')) :
    2 ^ d * blen t ≤ blen s * V ^ d := by
  obtain ⟨r, u, h1, h2⟩ := C27_substitute_is_expansion vars d s used
  rw [h] at h1
  cases h1
  exact expands_size hV hv ((h2 t).1 rfl)

example : ∀ n v, (fun k : Str => if k = c!"b" then some c!"é${c}" else if k = c!"c" then some c!"x" else none) n = some v →
    blen v ≤ 6 := by
  intro n v h
  dsimp only at h
  split at h
  · cases h; decide
  · split at h
    · cases h; decide
    · cases h
example : substitute (fun k : Str => if k = c!"b" then some c!"é${c}" else if k = c!"c" then some c!"x" else none) 3 c!"$b$b" [] =
    some (some c!"éxéx", [c!"c", c!"b"]) := by decide +kernel

/-- C62 (`resolve_vars`): the same with 16 levels, for the default values of the document. -/
theorem C62_resolve (r r' : ImageRef) (d : Dockerfile) (V : Nat) (hV : 2 ≤ V)
    (hv : ∀ k v, LastDefault d.global_args k v → blen v ≤ V)
    (h : r.resolveVars d = some (some r')) :
    2 ^ 16 * blen r'.display ≤ blen r.display * V ^ 16 := by
  obtain ⟨o, h1, h2⟩ := C30_resolve_vars r d
  rw [h] at h1
  cases h1
  obtain ⟨t, ht, rfl⟩ := (h2 r').1 rfl
  rw [C18_display_parse]
  exact expands_size hV (fun n v hn => hv n v ((C30_variables _ _ _).1 hn)) ht

/-- C62 (documents): resolving an image of a document of `n ≥ 2` bytes gives at most
`n ^ 17 / 2 ^ 16` bytes, provided that unquoting does not lengthen. -/
theorem C62_document (unq : Unquote) (hu : ∀ q t, unq q = .ok t → blen t ≤ blen q) (s : Str)
    (d : Dockerfile) (h : Dockerfile.parse unq s = .ok d) (f : FromInstruction)
    (hf : .from f ∈ d.instructions) (r : ImageRef)
    (hr : f.image_parsed.resolveVars d = some (some r)) :
    2 ^ 16 * blen r.display ≤ blen s ^ 17 := by
  have hi := C49_image_parsed unq s d h f hf
  have hs := field_size hu h hf (f := f.image) (by simp [plainStrings])
  have hV : 2 ≤ blen s := from_two h hf
  have := C62_resolve _ _ d (blen s) hV
    (fun k v hv => value_size hu h ((C30_variables _ _ _).2 hv)) hr
  rw [hi, C18_display_parse] at this
  refine Nat.le_trans this ?_
  rw [Nat.pow_succ (blen s) 16, Nat.mul_comm (blen s ^ 16)]
  exact Nat.mul_le_mul_right _ hs

/-- C62 (`enquote`): the model of `enquote::unquote` does not lengthen. -/
theorem C62_enquote (q t : Str) (h : Enquote.unquote q = .ok t) : blen t ≤ blen q :=
  Enquote.unquote_size h

/-! ## the bound is attained -/

/-- sixteen names -/
def growNames : List Char := c!"abcdefghijklmnop"

/-- `ARG a=$b$b…`, `ARG b=$c$c…`, …, `ARG p=xxxx…`, `FROM $a$a…`, with `m` references in each line
and `2 * m` letters at the end -/
def growDoc (m : Nat) : Str := growLines (growValue m growNames) (growArgs m growNames)

example : growDoc 1 = c!"ARG a=$b\nARG b=$c\nARG c=$d\nARG d=$e\nARG e=$f\nARG f=$g\nARG g=$h\nARG h=$i\nARG i=$j\nARG j=$k\nARG k=$l\nARG l=$m\nARG m=$n\nARG n=$o\nARG o=$p\nARG p=xx\nFROM $a" := by
  decide +kernel

/-- C62 (attained): the document of `34 * m + 117` bytes, with image and values of `2 * m` bytes,
resolves to an image of `2 * m ^ 17` bytes. -/
theorem C62_attained (unq : Unquote) (m : Nat) (hm : 0 < m) :
    blen (growDoc m) = 34 * m + 117 ∧
    ∃ d f, Dockerfile.parse unq (growDoc m) = .ok d ∧ .from f ∈ d.instructions ∧
      blen f.image_parsed.display = 2 * m ∧
      (∀ k v, LastDefault d.global_args k v → blen v = 2 * m) ∧
      f.image_parsed.resolveVars d =
        some (some (ImageRef.parse (List.replicate (2 * m ^ 17) 'x'))) := by
  have h8 : ∀ c ∈ growNames, IsAlpha c ∧ c.utf8Size = 1 := by
    intro c hc
    simp only [growNames, List.mem_cons, List.not_mem_nil, or_false] at hc
    rcases hc with rfl | rfl | rfl | rfl | rfl | rfl | rfl | rfl | rfl | rfl | rfl | rfl | rfl |
      rfl | rfl | rfl <;> exact ⟨.inl (by decide), rfl⟩
  have hsz := growValue_size (m := m) fun c hc => (h8 c hc).2
  refine ⟨?_, ?_⟩
  · rw [growDoc, growLines_size _ fun c hc => (h8 c hc).2, hsz]
    have : growNames.length = 16 := rfl
    rw [this]
    omega
  · obtain ⟨h1, h2, h3, h4⟩ := growValue_ok hm fun c hc => (h8 c hc).1
    obtain ⟨l, ms, k1, k2, k3⟩ := grow_doc (unq := unq)
      (growValue_chars hm fun c hc => (h8 c hc).1).1 h4 (digestOK_of_noAt h3)
      (growArgs m growNames) (by
        intro p hp
        obtain ⟨p1, ds, p2, p3⟩ := growArgs_mem hp
        have := growValue_ok hm (cs := ds) fun c hc => (h8 c (p2 c hc)).1
        rw [p3]
        exact ⟨(h8 _ p1).1, this.1, this.2.1⟩)
    obtain ⟨as, f, e1, e2, e3⟩ := k3 0
    have hp := C40_roundtrip k1
    rw [k2, e1, documentOf, globalArgs_args, numberStages_args] at hp
    have hd : f.image_parsed.display = growValue m growNames := by rw [e3, C18_display_parse]
    refine ⟨_, { f with index := 0 }, hp, by simp, ?_, ?_, ?_⟩
    · rw [hd, hsz]
    · rintro k v ⟨pre, a, post, w, ha, -, hw, rfl, -⟩
      have ha : a ∈ as := by
        rw [show as = _ from ha]
        simp
      have : (a.name.content, a.value.map (·.content)) ∈
          (growArgs m growNames).map (fun p => ([p.1], some p.2)) := by
        rw [← e2]
        exact List.mem_map_of_mem ha
      obtain ⟨p, hp', he⟩ := List.mem_map.1 this
      obtain ⟨-, ds, p2, p3⟩ := growArgs_mem hp'
      have he := congrArg Prod.snd he
      simp only [hw, Option.map_some, Option.some.injEq] at he
      rw [← he, p3]
      exact growValue_size fun c hc => (h8 c (p2 c hc)).2
    · have hv := grow_vars e2 (by rw [growArgs_names]; decide)
      have he := grow_expands growNames (fun c hc => isWordChar_iff' (h8 c hc).1) hv
      obtain ⟨o, o1, o2⟩ := C30_resolve_vars f.image_parsed
        { content := growLines (growValue m growNames) (growArgs m growNames), global_args := as
          instructions := as.map .arg ++ [.from { f with index := 0 }] }
      rw [hd] at o2
      refine o1.trans (congrArg some ((o2 _).2 ⟨_, he, rfl⟩))

example (unq : Unquote) : ∃ d f, Dockerfile.parse unq (growDoc 3) = .ok d ∧ .from f ∈ d.instructions ∧
    f.image_parsed.resolveVars d = some (some (ImageRef.parse (List.replicate (2 * 3 ^ 17) 'x'))) := by
  obtain ⟨-, d, f, h1, h2, -, -, h3⟩ := C62_attained unq 3 (by decide)
  exact ⟨d, f, h1, h2, h3⟩

/-- C62 (no smaller power): no multiple of the 16th power of the size of the document bounds the
size of a resolved image. -/
theorem C62_no_smaller (unq : Unquote) (K : Nat) :
    ∃ s d f r, Dockerfile.parse unq s = .ok d ∧ .from f ∈ d.instructions ∧
      f.image_parsed.resolveVars d = some (some r) ∧ K * blen s ^ 16 < blen r.display := by
  have key : ∀ m, 117 ≤ m → K * 35 ^ 16 ≤ m → K * (34 * m + 117) ^ 16 < 2 * m ^ 17 := by
    intro m h1 h2
    have h3 : (34 * m + 117) ^ 16 ≤ 35 ^ 16 * m ^ 16 := by
      rw [← Nat.mul_pow]
      exact Nat.pow_le_pow_left (by omega) _
    have h4 : 0 < m ^ 17 := Nat.pow_pos (by omega)
    calc K * (34 * m + 117) ^ 16 ≤ K * (35 ^ 16 * m ^ 16) := Nat.mul_le_mul_left _ h3
      _ = (K * 35 ^ 16) * m ^ 16 := (Nat.mul_assoc ..).symm
      _ ≤ m * m ^ 16 := Nat.mul_le_mul_right _ h2
      _ = m ^ 17 := by rw [Nat.pow_succ m 16, Nat.mul_comm]
      _ < 2 * m ^ 17 := by omega
  obtain ⟨h1, d, f, h2, h3, -, -, h4⟩ := C62_attained unq (K * 35 ^ 16 + 117) (by omega)
  refine ⟨_, d, f, _, h2, h3, h4, ?_⟩
  rw [C18_display_parse, replicate_size, h1]
  exact key _ (by omega) (by omega)

/- 151 bytes with one reference per line, resolved; and the size with ten references per line: a
text of 457 bytes stands for an image of 2 * 10 ^ 17 bytes -/
example : blen (growDoc 1) = 151 ∧ blen (growDoc 10) = 457 := by decide +kernel

example : (match Dockerfile.parse Enquote.unquote (growDoc 1) with
    | .ok d => match d.instructions.getLast? with
      | some (.from f) => (f.image_parsed.resolveVars d).map (·.map (·.display))
      | _ => none
    | .error _ => none) = some (some c!"xx") := by decide +kernel

end Verif
