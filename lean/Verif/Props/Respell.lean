import Verif.Spec.Respell
import Verif.Props.Resolve
import Verif.Props.Edit

/-! # Other names for variables (C94) -/

namespace Verif
open Spec

/-! ## texts -/

theorem ref_back {s n r : Str} (h : RefAt s n r) : ∃ c cs, s = c :: cs := by
  obtain ⟨-, -, ⟨rfl, -⟩ | rfl⟩ := h
  · exact ⟨_, _, rfl⟩
  · exact ⟨_, _, rfl⟩

/-- C94 (expansion): other names for the variables, in a text and in the values of variables, do not
change what the text expands to. -/
theorem C94_expand {ρ : Str → Str} {vars vars' : VarMap} (hv : ∀ n, RespelledOpt ρ (vars n) (vars' (ρ n))) :
    ∀ (d : Nat) {s s' : Str}, Respelled ρ s s' → ∀ t, Expands vars d s t ↔ Expands vars' d s' t := by
  intro d
  induction d with
  | zero =>
    intro s s' h
    induction h with
    | nil => intro t; rw [expands_nil_iff, expands_nil_iff]
    | lit h h' _ ih => intro t; simp only [expands_lit_iff h, expands_lit_iff h', ih]
    | ref h h' _ ih =>
      intro t
      rw [expands_ref_iff h, expands_ref_iff h']
      constructor
      · rintro ⟨d', v, e, u, hd, -⟩; omega
      · rintro ⟨d', v, e, u, hd, -⟩; omega
  | succ d ihd =>
    intro s s' h
    induction h with
    | nil => intro t; rw [expands_nil_iff, expands_nil_iff]
    | lit h h' _ ih => intro t; simp only [expands_lit_iff h, expands_lit_iff h', ih]
    | @ref s n rest s' rest' h h' _ ih =>
      intro t
      rw [expands_ref_iff h, expands_ref_iff h']
      have hn := hv n
      constructor
      · rintro ⟨d', v, e, u, hd, hvn, he, hu, rfl⟩
        obtain rfl : d = d' := by omega
        rw [hvn] at hn
        cases hv' : vars' (ρ n) with
        | none => rw [hv'] at hn; exact hn.elim
        | some v' =>
          rw [hv'] at hn
          exact ⟨d, v', e, u, rfl, rfl, (ihd hn e).1 he, (ih u).1 hu, rfl⟩
      · rintro ⟨d', v', e, u, hd, hvn, he, hu, rfl⟩
        obtain rfl : d = d' := by omega
        rw [hvn] at hn
        cases hv0 : vars n with
        | none => rw [hv0] at hn; exact hn.elim
        | some v =>
          rw [hv0] at hn
          exact ⟨d, v, e, u, rfl, rfl, (ihd hn e).2 he, (ih u).2 hu, rfl⟩

theorem respelled_references {ρ : Str → Str} {s s' : Str} (h : Respelled ρ s s') (m : Str) :
    References s' m ↔ ∃ n, m = ρ n ∧ References s n := by
  induction h with
  | nil => exact ⟨fun h => absurd h (references_nil m), fun ⟨n, _, h⟩ => absurd h (references_nil n)⟩
  | lit h h' _ ih => simp only [references_lit_iff h, references_lit_iff h', ih]
  | @ref s n rest s' rest' h h' _ ih =>
    simp only [references_ref_iff h, references_ref_iff h', ih]
    constructor
    · rintro (rfl | ⟨k, rfl, hk⟩)
      · exact ⟨n, rfl, .inl rfl⟩
      · exact ⟨k, rfl, .inr hk⟩
    · rintro ⟨k, rfl, rfl | hk⟩
      · exact .inl rfl
      · exact .inr ⟨k, rfl, hk⟩

/-- C94 (the variables used): what is reached has the new names. -/
theorem C94_used {ρ : Str → Str} {vars vars' : VarMap} (hv : ∀ n, RespelledOpt ρ (vars n) (vars' (ρ n)))
    {s s' : Str} (h : Respelled ρ s s') (m : Str) : Reaches vars' s' m ↔ ∃ n, m = ρ n ∧ Reaches vars s n := by
  constructor
  · intro hr
    induction hr generalizing s with
    | direct s' m hr =>
      obtain ⟨n, rfl, hn⟩ := (respelled_references h m).1 hr
      exact ⟨n, rfl, .direct _ _ hn⟩
    | through s' k v' m hk hvk _ ih =>
      obtain ⟨n, rfl, hn⟩ := (respelled_references h k).1 hk
      have hvn := hv n
      rw [hvk] at hvn
      cases hv0 : vars n with
      | none => rw [hv0] at hvn; exact hvn.elim
      | some v =>
        rw [hv0] at hvn
        obtain ⟨x, rfl, hx⟩ := ih hvn
        exact ⟨x, rfl, .through _ n v _ hn hv0 hx⟩
  · rintro ⟨n, rfl, hr⟩
    induction hr generalizing s' with
    | direct s n hr => exact .direct _ _ ((respelled_references h _).2 ⟨n, rfl, hr⟩)
    | through s k v n hk hvk _ ih =>
      have hvn := hv k
      rw [hvk] at hvn
      cases hv0 : vars' (ρ k) with
      | none => rw [hv0] at hvn; exact hvn.elim
      | some v' =>
        rw [hv0] at hvn
        exact .through _ (ρ k) v' _ ((respelled_references h _).2 ⟨k, rfl, hk⟩) hv0 (ih hvn)

/-! ## the `ARG`s -/

theorem argVars_respelled {ρ : Str → Str} (hρ : ∀ m n, ρ m = ρ n → m = n) {as bs : List ArgInstruction}
    (h : RespelledArgs ρ as bs) (n : Str) : RespelledOpt ρ (argVars as n) (argVars bs (ρ n)) := by
  unfold argVars
  suffices ∀ (m m' : VarMap), (∀ n, RespelledOpt ρ (m n) (m' (ρ n))) → ∀ n,
      RespelledOpt ρ (as.foldl (fun m a => match a.value with
        | some v => fun k => if k = a.name.content then some v.content else m k
        | none => m) m n) (bs.foldl (fun m a => match a.value with
        | some v => fun k => if k = a.name.content then some v.content else m k
        | none => m) m' (ρ n)) from this (fun _ => none) (fun _ => none) (fun _ => trivial) n
  induction as generalizing bs with
  | nil =>
    cases bs with
    | nil => intro m m' hm n; exact hm n
    | cons => exact h.elim
  | cons a as ih =>
    cases bs with
    | nil => exact h.elim
    | cons b bs =>
      obtain ⟨⟨h1, h2⟩, h3⟩ := h
      intro m m' hm n
      rw [List.foldl_cons, List.foldl_cons]
      refine ih h3 _ _ (fun k => ?_) n
      cases ha : a.value with
      | none =>
        cases hb : b.value with
        | none => exact hm k
        | some w => rw [ha, hb] at h2; exact h2.elim
      | some v =>
        cases hb : b.value with
        | none => rw [ha, hb] at h2; exact h2.elim
        | some w =>
          rw [ha, hb] at h2
          show RespelledOpt ρ (if k = a.name.content then some v.content else m k)
            (if ρ k = b.name.content then some w.content else m' (ρ k))
          by_cases c : k = a.name.content
          · rw [if_pos c, if_pos (by rw [h1, c])]
            exact h2
          · rw [if_neg c, if_neg (fun e => c (hρ _ _ (by rw [e, h1])))]
            exact hm k

/-- C94 (resolving): two documents whose global arguments correspond, and two images that correspond.
Both resolve to the same image or both fail, and the variables used correspond. -/
theorem C94_resolve {ρ : Str → Str} (hρ : ∀ m n, ρ m = ρ n → m = n) {d d' : Dockerfile}
    (ha : RespelledArgs ρ d.global_args d'.global_args) {r r' : ImageRef} (hr : Respelled ρ r.display r'.display) :
    r'.resolveVars d' = r.resolveVars d ∧
    ∀ x used, r.resolveVarsWithContext d = some (some (x, used)) →
      ∃ used', r'.resolveVarsWithContext d' = some (some (x, used')) ∧ ∀ m, m ∈ used' ↔ ∃ n ∈ used, m = ρ n := by
  have hv := argVars_respelled hρ ha
  have he := C94_expand hv 16 hr
  have h1 : r'.resolveVars d' = r.resolveVars d := by
    obtain ⟨o, e1, e2⟩ := C30_resolve_vars r d
    obtain ⟨o', e1', e2'⟩ := C30_resolve_vars r' d'
    rw [e1, e1']
    congr 1
    apply Option.ext
    intro x
    show o' = some x ↔ o = some x
    rw [e2, e2']
    simp only [he]
  refine ⟨h1, fun x used hx => ?_⟩
  obtain ⟨k1, k2⟩ := C30_context r d x used hx
  rw [← h1] at k1
  obtain ⟨used', hx'⟩ : ∃ used', r'.resolveVarsWithContext d' = some (some (x, used')) := by
    unfold ImageRef.resolveVars at k1
    cases c : r'.resolveVarsWithContext d' with
    | none => rw [c] at k1; cases k1
    | some o =>
      rw [c] at k1
      cases o with
      | none => cases k1
      | some y => cases k1; exact ⟨y.2, rfl⟩
  refine ⟨used', hx', fun m => ?_⟩
  rw [(C30_context r' d' x used' hx').2 m, C94_used hv hr m]
  exact ⟨fun ⟨n, a, b⟩ => ⟨n, (k2 n).2 b, a⟩, fun ⟨n, a, b⟩ => ⟨n, b, (k2 n).1 a⟩⟩

/-! ## there is always a text with the new names -/

theorem word_split (s : Str) : ∃ w r, s = w ++ r ∧ (∀ c ∈ w, WordChar c) ∧ ∀ c cs, r = c :: cs → ¬ WordChar c := by
  induction s with
  | nil => exact ⟨[], [], rfl, (by intro _ h; cases h), (by intro _ _ h; cases h)⟩
  | cons c s ih =>
    by_cases hc : WordChar c
    · obtain ⟨w, r, rfl, h1, h2⟩ := ih
      exact ⟨c :: w, r, rfl, fun x hx => by
        rcases List.mem_cons.1 hx with rfl | hx
        · exact hc
        · exact h1 x hx, h2⟩
    · exact ⟨[], c :: s, rfl, (by intro _ h; cases h), (by intro x xs e; cases e; exact hc)⟩

theorem word_noDollar {c : Char} (h : WordChar c) : c ≠ '$' := by
  rintro rfl
  rw [← isWordChar_iff] at h
  exact absurd h (by decide)

/-- C94 (the new text): if names are given for names, each text has one with the new names; what comes
before the first dollar sign is the same. -/
theorem C94_exists {ρ : Str → Str} (hw : ∀ n, n ≠ [] → (∀ c ∈ n, WordChar c) → ρ n ≠ [] ∧ ∀ c ∈ ρ n, WordChar c) (s : Str) :
    ∃ s', Respelled ρ s s' ∧ ∀ p r, '$' ∉ p → s' = p ++ r → ∃ r0, s = p ++ r0 := by
  induction hl : s.length using Nat.strongRecOn generalizing s with
  | _ k ih =>
    cases s with
    | nil => exact ⟨[], .nil, fun p r _ e => ⟨[], by have := List.append_eq_nil_iff.1 e.symm; rw [this.1]; rfl⟩⟩
    | cons c cs =>
      rcases ref_cases c cs with ⟨n, rest, h, -⟩ | ⟨h, -⟩
      · obtain ⟨rest', h1, h2⟩ := ih _ (by have := h.length_lt; omega) rest rfl
        have start : ∀ (s' : Str) p r, '$' ∉ p → '$' :: s' = p ++ r → ∃ r0, c :: cs = p ++ r0 := by
          intro s' p r hp e
          cases p with
          | nil => exact ⟨_, rfl⟩
          | cons x p => cases e; exact absurd List.mem_cons_self hp
        obtain ⟨g1, g2, ⟨e, g3⟩ | e⟩ := h
        · obtain ⟨w1, w2⟩ := hw n g1 g2
          refine ⟨'$' :: (ρ n ++ rest'), .ref (n := n) (rest := rest) ⟨g1, g2, .inl ⟨e, g3⟩⟩
            ⟨w1, w2, .inl ⟨rfl, fun x xs e2 hx => ?_⟩⟩ h1, start _⟩
          obtain ⟨r0, e3⟩ := h2 [x] xs (by simpa using (word_noDollar hx).symm) e2
          exact g3 x r0 e3 hx
        · obtain ⟨w1, w2⟩ := hw n g1 g2
          exact ⟨'$' :: '{' :: (ρ n ++ '}' :: rest'), .ref (n := n) (rest := rest) ⟨g1, g2, .inr e⟩
            ⟨w1, w2, .inr rfl⟩ h1, start _⟩
      · obtain ⟨cs', h1, h2⟩ := ih cs.length (by simp at hl; omega) cs rfl
        refine ⟨c :: cs', .lit h (fun n r hr => ?_) h1, fun p r hp e => ?_⟩
        · obtain ⟨g1, g2, ⟨e, -⟩ | e⟩ := hr
          · cases n with
            | nil => exact g1 rfl
            | cons x n =>
              obtain ⟨rfl, e'⟩ := List.cons_eq_cons.1 e
              have hx := g2 x (by simp)
              obtain ⟨r0, e3⟩ := h2 [x] (n ++ r) (by simpa using (word_noDollar hx).symm) e'
              obtain ⟨w, r1, e4, h4, h5⟩ := word_split cs
              refine h w r1 ⟨?_, h4, .inl ⟨by rw [e4], h5⟩⟩
              rintro rfl
              exact h5 x r0 (by simpa using e4.symm.trans e3) hx
          · obtain ⟨rfl, e'⟩ := List.cons_eq_cons.1 e
            obtain ⟨r0, e3⟩ := h2 ('{' :: (n ++ ['}'])) r (by
              simp only [List.mem_cons, List.mem_append, List.not_mem_nil, or_false, not_or]
              exact ⟨by decide, fun hm => word_noDollar (g2 _ hm) rfl, by decide⟩) (by rw [e']; simp)
            exact h n r0 ⟨g1, g2, .inr (by rw [e3]; simp)⟩
        · cases p with
          | nil => exact ⟨_, rfl⟩
          | cons x p =>
            obtain ⟨rfl, e'⟩ := List.cons_eq_cons.1 e
            obtain ⟨r0, e3⟩ := h2 p r (fun hm => hp (List.mem_cons_of_mem _ hm)) e'
            exact ⟨r0, by rw [e3]; rfl⟩

/-! ## documents -/

theorem respelledArgs_remap {ρ : Str → Str} {as : List ArgInstruction} {f : ArgInstruction → ArgInstruction} (m : Nat → Nat)
    (h : RespelledArgs ρ as (as.map f)) : RespelledArgs ρ as (as.map fun a => (f a).remap m) := by
  induction as with
  | nil => trivial
  | cons a as ih =>
    obtain ⟨⟨h1, h2⟩, h3⟩ := h
    refine ⟨⟨h1, ?_⟩, ih h3⟩
    have : ((f a).remap m).value.map (·.content) = (f a).value.map (·.content) := by
      simp only [ArgInstruction.remap, Option.map_map]
      rfl
    rw [this]
    exact h2

/-- C94 (documents): put other names for the variables into the text of a document, at any of the names and values
of its global arguments and its images, so that they correspond to the old ones.  The new text is accepted,
and each image resolves to what it resolved to before. -/
theorem C94_document {unq : Unquote} {s : Str} {d : Dockerfile} (h : Dockerfile.parse unq s = .ok d)
    (es : List Edit) (hn : (es.map (·.1)).Nodup) (hes : ∀ e ∈ es, EditOK unq s d e)
    {ρ : Str → Str} (hρ : ∀ m n, ρ m = ρ n → m = n)
    (ha : RespelledArgs ρ d.global_args (d.global_args.map (newArg es unq)))
    (hf : ∀ f, .from f ∈ d.instructions → Respelled ρ f.image.content (newStr es id f.image).content) :
    ∃ sp d', (Splicer.ofDockerfile d).spliceAll es = some sp ∧ Dockerfile.parse unq sp.content = .ok d' ∧
      d'.instructions.length = d.instructions.length ∧
      ∀ (i : Nat) (f : FromInstruction), d.instructions[i]? = some (.from f) →
        ∃ f', d'.instructions[i]? = some (.from f') ∧
          f'.image_parsed.resolveVars d' = f.image_parsed.resolveVars d := by
  obtain ⟨sp, h1, h2⟩ := C57_edit h es hn hes
  refine ⟨sp, _, h1, h2, List.length_map _, fun i f hi => ?_⟩
  have hm := List.mem_of_getElem? hi
  refine ⟨_, by simp only [edited, List.getElem?_map, hi]; rfl, (C94_resolve hρ ?_ ?_).1⟩
  · exact respelledArgs_remap _ ha
  · rw [C49_image_parsed unq s d h f hm]
    show Respelled ρ _ (ImageRef.parse (newStr es id f.image).content).display
    rw [C18_display_parse, C18_display_parse]
    exact hf f hm

/-! ## examples -/

theorem exchanged_inj (a b : Str) : ∀ m n, exchanged a b m = exchanged a b n → m = n := by
  intro m n h
  unfold exchanged at h
  grind

theorem refAt_of {s n r : Str} (h : matchVar s = some (n, r)) : RefAt s n r := (matchVar_iff s n r).1 h

theorem noRef_of {s : Str} (h : matchVar s = none) : ∀ n r, ¬ RefAt s n r := fun n r hr => by
  rw [(matchVar_iff s n r).2 hr] at h
  cases h

/- `v` is the new name of `a`; one reference gets braces. -/
theorem respelled_example : Respelled (exchanged c!"a" c!"v") c!"x$a-$b" c!"x${v}-$b" :=
  .lit (noRef_of (by decide +kernel)) (noRef_of (by decide +kernel))
    (.ref (refAt_of (n := c!"a") (r := c!"-$b") (by decide +kernel)) (refAt_of (r := c!"-$b") (by decide +kernel))
      (.lit (noRef_of (by decide +kernel)) (noRef_of (by decide +kernel))
        (.ref (refAt_of (n := c!"b") (r := []) (by decide +kernel)) (refAt_of (r := []) (by decide +kernel)) .nil)))

def respellText : Str := c!"ARG a=1\nARG b=$a\nFROM x$a-$b\n"

def respellDoc : Dockerfile :=
  match Dockerfile.parse Enquote.unquote respellText with
  | .ok d => d
  | .error _ => ⟨[], [], []⟩

def respellEdits : List Edit := [(⟨4, 5⟩, c!"v"), (⟨14, 16⟩, c!"$v"), (⟨22, 28⟩, c!"x${v}-$b")]

theorem respellDoc_parse : Dockerfile.parse Enquote.unquote respellText = .ok respellDoc := by decide +kernel

theorem respell_value : Respelled (exchanged c!"a" c!"v") c!"$a" c!"$v" :=
  .ref (refAt_of (n := c!"a") (r := []) (by decide +kernel)) (refAt_of (r := []) (by decide +kernel)) .nil

theorem respell_one : Respelled (exchanged c!"a" c!"v") c!"1" c!"1" :=
  .lit (noRef_of (by decide +kernel)) (noRef_of (by decide +kernel)) .nil

theorem respell_instructions : respellDoc.instructions =
    [.arg ⟨⟨0, 7⟩, ⟨⟨4, 5⟩, c!"a"⟩, some ⟨⟨6, 7⟩, c!"1"⟩⟩, .arg ⟨⟨8, 16⟩, ⟨⟨12, 13⟩, c!"b"⟩, some ⟨⟨14, 16⟩, c!"$a"⟩⟩,
      .from ⟨⟨17, 28⟩, [], ⟨⟨22, 28⟩, c!"x$a-$b"⟩, ImageRef.parse c!"x$a-$b", 0, none⟩] := by decide +kernel

theorem plain_over {w : Str} (h0 : w ≠ []) (h : ∀ c ∈ w, Plain c) : Over Plain w := ⟨h0, h⟩

/- The hypotheses of the theorems are met: the edits rename `a`, and the image is the same as before. -/
theorem respell_edits : ∀ e ∈ respellEdits, EditOK Enquote.unquote respellText respellDoc e := by
  intro e he
  simp only [respellEdits, List.mem_cons, List.not_mem_nil, or_false] at he
  unfold EditOK
  rw [respell_instructions]
  rcases he with rfl | rfl | rfl
  · refine ⟨⟨_, List.mem_cons_self, _, List.mem_cons_self, ?_⟩, c!"a", ?_, ?_⟩
    · exact ⟨'v', [], rfl, by unfold IsAlpha; decide, (by intro _ h; cases h)⟩
    · exact ⟨respellText.take 4, respellText.drop 5, by decide +kernel, by decide +kernel, by decide +kernel⟩
    · exact like_plain (plain_over (by decide) (by unfold Plain; decide)) (plain_over (by decide) (by unfold Plain; decide))
  · refine ⟨⟨_, List.mem_cons_of_mem _ List.mem_cons_self, _, List.mem_cons_of_mem _ List.mem_cons_self, ?_⟩, c!"$a", ?_, ?_⟩
    · exact ⟨c!"$v", by decide +kernel⟩
    · exact ⟨respellText.take 14, respellText.drop 16, by decide +kernel, by decide +kernel, by decide +kernel⟩
    · exact like_plain (plain_over (by decide) (by unfold Plain; decide)) (plain_over (by decide) (by unfold Plain; decide))
  · refine ⟨⟨_, List.mem_cons_of_mem _ (List.mem_cons_of_mem _ List.mem_cons_self), _, List.mem_cons_self, ?_⟩, c!"x$a-$b", ?_, ?_⟩
    · exact ⟨⟨by decide, by unfold IsImageChar IsAlpha IsDigit; decide⟩, fun h e => by
        rw [show (ImageRef.parse c!"x${v}-$b").hash = none by decide +kernel] at e
        cases e⟩
    · exact ⟨respellText.take 22, respellText.drop 28, by decide +kernel, by decide +kernel, by decide +kernel⟩
    · exact like_plain (plain_over (by decide) (by unfold Plain; decide)) (plain_over (by decide) (by unfold Plain; decide))

theorem respell_args : RespelledArgs (exchanged c!"a" c!"v") respellDoc.global_args
    (respellDoc.global_args.map (newArg respellEdits Enquote.unquote)) := by
  have e1 : respellDoc.global_args = [⟨⟨0, 7⟩, ⟨⟨4, 5⟩, c!"a"⟩, some ⟨⟨6, 7⟩, c!"1"⟩⟩,
      ⟨⟨8, 16⟩, ⟨⟨12, 13⟩, c!"b"⟩, some ⟨⟨14, 16⟩, c!"$a"⟩⟩] := by decide +kernel
  have e2 : respellDoc.global_args.map (newArg respellEdits Enquote.unquote) =
      [⟨⟨0, 7⟩, ⟨⟨4, 5⟩, c!"v"⟩, some ⟨⟨6, 7⟩, c!"1"⟩⟩, ⟨⟨8, 16⟩, ⟨⟨12, 13⟩, c!"b"⟩, some ⟨⟨14, 16⟩, c!"$v"⟩⟩] := by
    decide +kernel
  rw [e2, e1]
  exact ⟨⟨by decide, respell_one⟩, ⟨by decide, respell_value⟩, trivial⟩

example : ∃ sp d', (Splicer.ofDockerfile respellDoc).spliceAll respellEdits = some sp ∧
    sp.content = c!"ARG v=1\nARG b=$v\nFROM x${v}-$b\n" ∧ Dockerfile.parse Enquote.unquote sp.content = .ok d' ∧
    ∃ f', d'.instructions[2]? = some (.from f') ∧ f'.image_parsed.resolveVars d' = some (some (ImageRef.parse c!"x1-1")) := by
  obtain ⟨sp, d', h1, h2, -, h3⟩ := C94_document respellDoc_parse respellEdits (by decide) respell_edits
    (exchanged_inj c!"a" c!"v") respell_args (by
      rw [respell_instructions]
      intro f hf
      simp only [List.mem_cons, List.not_mem_nil, or_false, reduceCtorEq, false_or, Instruction.from.injEq] at hf
      subst hf
      have : (newStr respellEdits id ⟨⟨22, 28⟩, c!"x$a-$b"⟩).content = c!"x${v}-$b" := by decide +kernel
      rw [this]
      exact respelled_example)
  obtain ⟨f', h4, h5⟩ := h3 2 ⟨⟨17, 28⟩, [], ⟨⟨22, 28⟩, c!"x$a-$b"⟩, ImageRef.parse c!"x$a-$b", 0, none⟩ (by
    rw [respell_instructions]; rfl)
  refine ⟨sp, d', h1, ?_, h2, f', h4, ?_⟩
  · have : ((Splicer.ofDockerfile respellDoc).spliceAll respellEdits).map (·.content) =
        some c!"ARG v=1\nARG b=$v\nFROM x${v}-$b\n" := by decide +kernel
    rw [h1] at this
    exact Option.some.inj this
  · rw [h5]; decide +kernel

/-- The conditions are needed.  If the new name is the name of another variable, images may change: the names
correspond, but two of the old ones to one new one. -/
theorem C94_conditions :
    let one : ArgInstruction := ⟨⟨0, 7⟩, ⟨⟨4, 5⟩, c!"a"⟩, some ⟨⟨6, 7⟩, c!"1"⟩⟩
    let two : ArgInstruction := ⟨⟨8, 15⟩, ⟨⟨12, 13⟩, c!"b"⟩, some ⟨⟨14, 15⟩, c!"2"⟩⟩
    let new : ArgInstruction := ⟨⟨0, 7⟩, ⟨⟨4, 5⟩, c!"b"⟩, some ⟨⟨6, 7⟩, c!"1"⟩⟩
    RespelledArgs (fun _ => c!"b") [one, two] [new, two] ∧
    Respelled (fun _ => c!"b") (ImageRef.parse c!"x:$a").display (ImageRef.parse c!"x:$b").display ∧
    (ImageRef.parse c!"x:$a").resolveVars ⟨[], [one, two], []⟩ = some (some (ImageRef.parse c!"x:1")) ∧
    (ImageRef.parse c!"x:$b").resolveVars ⟨[], [new, two], []⟩ = some (some (ImageRef.parse c!"x:2")) := by
  have one : ∀ {c : Char}, matchVar [c] = none → Respelled (fun _ => c!"b") [c] [c] := fun h =>
    .lit (noRef_of h) (noRef_of h) .nil
  refine ⟨⟨⟨rfl, one (by decide +kernel)⟩, ⟨rfl, one (by decide +kernel)⟩, trivial⟩, ?_, by decide +kernel, by decide +kernel⟩
  rw [C18_display_parse, C18_display_parse]
  exact .lit (noRef_of (by decide +kernel)) (noRef_of (by decide +kernel))
    (.lit (noRef_of (by decide +kernel)) (noRef_of (by decide +kernel))
      (.ref (refAt_of (n := c!"a") (r := []) (by decide +kernel)) (refAt_of (n := c!"b") (r := []) (by decide +kernel)) .nil))

end Verif
