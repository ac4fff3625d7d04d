import Verif.Props.Loop
import Verif.Props.Splicer
import Verif.Props.Print
import Verif.Props.Update

/-!
# Exactly what the code does where the claim is false (C11, C23, C41)

The claims C11, C23 and C41 fail (`C11_negation`, `C23_negation`, `C41_not_hex`).  The theorems here say
what happens in all cases, and hence exactly when the claims hold.
-/

namespace Verif
open Spec

/-! ## C11 -/

/-- C11: `get_global_arg` finds an `ARG` if and only if it is the first one of that name and there
are only `ARG`s in front of it. -/
theorem C11_found_iff (d : Dockerfile) (name : Str) (a : ArgInstruction) :
    d.getGlobalArg name = some a ↔
      ∃ (pre : List ArgInstruction) (post : List Instruction), d.instructions = pre.map .arg ++ .arg a :: post ∧ a.name.content = name ∧
        ∀ b ∈ pre, b.name.content ≠ name := by
  unfold Dockerfile.getGlobalArg
  generalize d.instructions = is
  constructor
  · intro h
    induction is with
    | nil => cases h
    | cons i is ih =>
      cases i
      case arg b =>
        simp only [getGlobalArgLoop] at h
        by_cases hb : b.name.content = name
        · rw [if_pos hb] at h
          cases h
          exact ⟨[], is, rfl, hb, by simp⟩
        · rw [if_neg hb] at h
          obtain ⟨pre, post, rfl, h1, h2⟩ := ih h
          exact ⟨b :: pre, post, rfl, h1, by simpa [hb] using h2⟩
      all_goals cases h
  · rintro ⟨pre, post, rfl, h1, h2⟩
    induction pre with
    | nil => simp [getGlobalArgLoop, h1]
    | cons b pre ih =>
      simp only [List.map_cons, List.cons_append, getGlobalArgLoop]
      rw [if_neg (h2 b (by simp)), ih fun x hx => h2 x (by simp [hx])]

example : (exampleParsed.getGlobalArg c!"a").isSome = true ∧ exampleParsed.getGlobalArg c!"b" = none := by
  decide +kernel

/-- C11: the claim holds for a document and a name if and only if there are only `ARG`s in front of
the first global `ARG` of that name (if there is one). -/
theorem C11_holds_iff (unq : Unquote) (s : Str) (d : Dockerfile) (h : Dockerfile.parse unq s = .ok d)
    (name : Str) :
    d.getGlobalArg name = d.global_args.find? (fun a => a.name.content = name) ↔
      ∀ a, d.global_args.find? (fun a => a.name.content = name) = some a →
        ∃ (pre : List ArgInstruction) (post : List Instruction), d.instructions = pre.map .arg ++ .arg a :: post := by
  constructor
  · intro he a ha
    rw [← he] at ha
    obtain ⟨pre, post, h1, -⟩ := (C11_found_iff d name a).1 ha
    exact ⟨pre, post, h1⟩
  · intro hp
    cases hf : d.global_args.find? (fun a => a.name.content = name) with
    | none =>
      cases hg : d.getGlobalArg name with
      | none => rfl
      | some a => rw [C11_sound unq s d h name a hg] at hf; cases hf
    | some a =>
      obtain ⟨pre, post, h1⟩ := hp a hf
      have hn : a.name.content = name := by simpa using List.find?_some hf
      have : ∃ b, d.getGlobalArg name = some b := by
        unfold Dockerfile.getGlobalArg
        rw [h1]
        clear h1
        induction pre with
        | nil => exact ⟨a, by simp [getGlobalArgLoop, hn]⟩
        | cons b pre ih =>
          simp only [List.map_cons, List.cons_append, getGlobalArgLoop]
          split
          · exact ⟨_, rfl⟩
          · exact ih
      obtain ⟨b, hb⟩ := this
      rw [hb, ← hf, C11_sound unq s d h name b hb]

/- of the two global arguments of the example only the first is found -/
example : exampleParsed.getGlobalArg c!"a" = exampleParsed.global_args.find? (fun a => a.name.content = c!"a") ∧
    exampleParsed.getGlobalArg c!"b" ≠ exampleParsed.global_args.find? (fun a => a.name.content = c!"b") := by
  decide +kernel

/-! ## C23 -/

/-- What stands at the place of a non-empty text `t` after it has been replaced by each of `rs` in
turn: the last replacement; but after the first empty replacement all further ones are inserted one
in front of the other. -/
def sameSpan (t : Str) : List Str → Str
  | [] => t
  | r :: rs => if r = [] then rs.reverse.flatten else sameSpan r rs

theorem splice_again {a c : Str} {start stop : Nat} {sp : Splicer} {u : Str} (r : Str)
    (h : sp.offsets.foldl Span.adjustStep ((start : Int), (stop : Int)) =
      ((blen a : Int), ((blen a + blen u : Nat) : Int)))
    (hc : sp.content = a ++ (u ++ c)) :
    ∃ sp', sp.splice ⟨start, stop⟩ r = some sp' ∧ sp'.content = a ++ (r ++ c) ∧
      sp'.offsets.foldl Span.adjustStep ((start : Int), (stop : Int)) =
        ((blen a : Int), ((blen a + if u = [] then 0 else blen r : Nat) : Int)) := by
  have hadj : Span.adjustOffsets ⟨start, stop⟩ sp.offsets = ⟨blen a, blen a + blen u⟩ := by
    simp only [Span.adjustOffsets, h]
    rw [if_neg (by omega), if_neg (by omega)]
    rfl
  refine ⟨⟨a ++ (r ++ c), sp.offsets ++ [⟨blen a, (blen r : Int) - (blen u : Int)⟩]⟩, ?_, rfl, ?_⟩
  · simp only [Splicer.splice, hadj]
    rw [if_neg (by omega), hc, splitAtByte_append]
    simp only [Nat.add_sub_cancel_left, splitAtByte_append, List.append_assoc]
  · simp only [List.foldl_append, h, List.foldl_cons, List.foldl_nil, Span.adjustStep, asUsize]
    rw [if_neg (show ¬ (blen a : Int) < 0 by omega), if_neg (show ¬ ((blen a + blen u : Nat) : Int) < 0 by omega)]
    simp only [Int.toNat_natCast, Nat.lt_irrefl, if_false]
    cases u with
    | nil => simp
    | cons x u =>
      have := blen_pos (s := x :: u) (by simp)
      rw [if_pos (by omega), if_neg (by simp)]
      congr 1
      omega

theorem splice_dead {a : Str} {start stop : Nat} (rs : List Str) : ∀ {sp : Splicer} {c : Str},
    sp.offsets.foldl Span.adjustStep ((start : Int), (stop : Int)) = ((blen a : Int), (blen a : Int)) →
    sp.content = a ++ c →
    (sp.spliceAll (rs.map fun x => (⟨start, stop⟩, x))).map Splicer.content =
      some (a ++ (rs.reverse.flatten ++ c)) := by
  induction rs with
  | nil => intro sp c _ hc; simp [Splicer.spliceAll, hc]
  | cons r rs ih =>
    intro sp c h hc
    obtain ⟨sp', h1, h2, h3⟩ := splice_again (u := []) r h hc
    simp only [List.map_cons, Splicer.spliceAll, h1]
    rw [ih h3 h2]
    simp

theorem splice_live {a c : Str} {start stop : Nat} (rs : List Str) : ∀ {sp : Splicer} {u : Str}, u ≠ [] →
    sp.offsets.foldl Span.adjustStep ((start : Int), (stop : Int)) =
      ((blen a : Int), ((blen a + blen u : Nat) : Int)) →
    sp.content = a ++ (u ++ c) →
    (sp.spliceAll (rs.map fun x => (⟨start, stop⟩, x))).map Splicer.content =
      some (a ++ (sameSpan u rs ++ c)) := by
  induction rs with
  | nil => intro sp u _ _ hc; simp [Splicer.spliceAll, hc, sameSpan]
  | cons r rs ih =>
    intro sp u hu h hc
    obtain ⟨sp', h1, h2, h3⟩ := splice_again r h hc
    simp only [List.map_cons, Splicer.spliceAll, h1, sameSpan]
    rw [if_neg hu] at h3
    by_cases hr : r = []
    · subst hr
      rw [if_pos rfl]
      exact splice_dead rs h3 h2
    · rw [if_neg hr]
      exact ih hr h3 h2

/-- C23: what splicing the same non-empty span again and again does, for all replacements; it
never panics. -/
theorem C23_exact (a t c : Str) (rs : List Str) (ht : t ≠ []) :
    ((Splicer.fromStr (a ++ t ++ c)).spliceAll
      (rs.map fun x => (⟨blen a, blen a + blen t⟩, x))).map Splicer.content
      = some (a ++ sameSpan t rs ++ c) := by
  rw [List.append_assoc, List.append_assoc]
  exact splice_live rs ht rfl rfl

example : ((Splicer.fromStr (c!"a" ++ c!"é" ++ c!"c")).spliceAll
      ([c!"uv", c!"", c!"x"].map fun x => (⟨blen c!"a", blen c!"a" + blen c!"é"⟩, x))).map Splicer.content =
    some (c!"a" ++ sameSpan c!"é" [c!"uv", c!"", c!"x"] ++ c!"c") := C23_exact _ _ _ _ (by simp)

theorem sameSpan_last {r : Str} {rs : List Str} : ∀ {t : Str}, t ≠ [] →
    (sameSpan t (rs ++ [r]) = r ↔ ∀ p q, rs = p ++ [] :: q → ∀ x ∈ q, x = []) := by
  induction rs with
  | nil =>
    intro t ht
    simp only [List.nil_append, sameSpan]
    constructor
    · rintro - p q e
      cases p <;> cases e
    · rintro -
      split
      · rename_i h; rw [h]; rfl
      · rfl
  | cons y rs ih =>
    intro t ht
    simp only [List.cons_append, sameSpan]
    by_cases hy : y = []
    · subst hy
      rw [if_pos rfl]
      simp only [List.reverse_append, List.reverse_cons, List.reverse_nil, List.nil_append,
        List.singleton_append, List.flatten_cons]
      constructor
      · intro h p q e x hx
        have h0 : rs.reverse.flatten = [] := by
          have := congrArg List.length h
          simp only [List.length_append] at this
          exact List.length_eq_zero_iff.1 (by omega)
        have h1 : ∀ z ∈ rs, z = [] := fun z hz => by
          have := List.flatten_eq_nil_iff.1 h0 z (List.mem_reverse.2 hz)
          exact this
        cases p with
        | nil => cases e; exact h1 x hx
        | cons w p =>
          obtain ⟨-, rfl⟩ := List.cons.inj e
          exact h1 x (by simp [hx])
      · intro h
        have h1 := h [] rs rfl
        have : rs.reverse.flatten = [] := List.flatten_eq_nil_iff.2 fun z hz => h1 z (List.mem_reverse.1 hz)
        rw [this, List.append_nil]
    · rw [if_neg hy, ih hy]
      constructor
      · intro h p q e
        cases p with
        | nil => obtain ⟨e1, -⟩ := List.cons.inj e; exact absurd e1 hy
        | cons w p =>
          obtain ⟨-, e⟩ := List.cons.inj e
          exact h p q e
      · intro h p q e
        exact h (y :: p) q (by rw [e]; rfl)

/-- C23: the claim holds if and only if there is no non-empty replacement between an empty one and
the last one. -/
theorem C23_holds_iff (a t c : Str) (rs : List Str) (r : Str) (ht : t ≠ []) :
    ((Splicer.fromStr (a ++ t ++ c)).spliceAll
      ((rs ++ [r]).map fun x => (⟨blen a, blen a + blen t⟩, x))).map Splicer.content
      = some (a ++ r ++ c) ↔
    ∀ p q, rs = p ++ [] :: q → ∀ x ∈ q, x = [] := by
  rw [C23_exact a t c _ ht, ← sameSpan_last ht]
  constructor
  · intro h
    have := Option.some.inj h
    rw [List.append_assoc, List.append_assoc] at this
    exact List.append_cancel_right (List.append_cancel_left this)
  · intro h; rw [h]

example : ((Splicer.fromStr c!"abc").spliceAll
    ([c!"uv", c!"", c!"xyz", c!"", c!"é", c!"Q"].map fun x => (⟨1, 2⟩, x))).map Splicer.content =
    some (c!"a" ++ sameSpan c!"b" [c!"uv", c!"", c!"xyz", c!"", c!"é", c!"Q"] ++ c!"c") := by decide +kernel
example : sameSpan c!"b" [c!"uv", c!"", c!"xyz", c!"", c!"é", c!"Q"] = c!"Qéxyz" := by decide +kernel

/-! ## C41 -/

theorem C41_both {unq : Unquote} {i : Str} (hi : Over IsImageChar i) :
    (DigestOK (ImageRef.parse i) → ∃ d, Dockerfile.parse unq (c!"FROM " ++ i) = .ok d) ∧
    (¬ DigestOK (ImageRef.parse i) →
      Dockerfile.parse unq (c!"FROM " ++ i) = .error (.err (.generic .digestInvalid))) := by
  obtain ⟨f, h1, -, -, h2, -⟩ := C35_from (unq := unq) (flags := []) (image := c!"a") (alias := none)
    (by simp) ⟨by decide, fun c hc => by
      cases List.mem_singleton.1 hc
      exact .inl (.inl (by decide))⟩ (by
      have : (ImageRef.parse c!"a").hash = none := by decide +kernel
      intro h e
      rw [this] at e
      cases e) (by simp)
  obtain ⟨sp, -, h3, h4, h5⟩ := C43_both h1 [(⟨5, 6⟩, i)] (by simp) (by
    intro e he
    cases List.mem_singleton.1 he
    exact ⟨⟨f, by simp [oneInstruction], by rw [h2]; rfl⟩, hi⟩)
  have hs : sp.content = c!"FROM " ++ i := h3.trans (by
    simp [fromLine, plainFlags, simul, inserted, covered, Char.utf8Size])
  rw [hs] at h4 h5
  exact ⟨fun hd => ⟨_, h4 fun e he => by cases List.mem_singleton.1 he; exact hd⟩,
    fun hd => h5 ⟨_, List.mem_singleton.2 rfl, hd⟩⟩

/-- C41: exactly the images with a digest as described by `DigestOK` (or without digest) are
accepted. -/
theorem C41_accepted_iff {unq : Unquote} {i : Str} (hi : Over IsImageChar i) :
    (∃ d, Dockerfile.parse unq (c!"FROM " ++ i) = .ok d) ↔ DigestOK (ImageRef.parse i) := by
  refine ⟨fun ⟨d, hd⟩ => Classical.byContradiction fun h => ?_, (C41_both hi).1⟩
  rw [(C41_both hi).2 h] at hd
  cases hd

example : Over IsImageChar c!"a@sha256:0" ∧ Over IsImageChar c!"a:1" := by
  constructor <;> exact ⟨by decide, by unfold IsImageChar IsAlpha IsDigit; decide⟩

/-- C41: the other ones give the error. -/
theorem C41_error {unq : Unquote} {i : Str} (hi : Over IsImageChar i) (hd : ¬ DigestOK (ImageRef.parse i)) :
    Dockerfile.parse unq (c!"FROM " ++ i) = .error (.err (.generic .digestInvalid)) :=
  (C41_both hi).2 hd

example : Dockerfile.parse Enquote.unquote (c!"FROM " ++ c!"a@sha256:0") = .error (.err (.generic .digestInvalid)) := by
  have hi : Over IsImageChar c!"a@sha256:0" := ⟨by decide, by unfold IsImageChar IsAlpha IsDigit; decide⟩
  refine C41_error hi fun h => ?_
  obtain ⟨d, hd⟩ := (C41_accepted_iff (unq := Enquote.unquote) hi).2 h
  have : (Dockerfile.parse Enquote.unquote (c!"FROM " ++ c!"a@sha256:0")).toOption = none := by decide +kernel
  rw [hd] at this
  cases this

end Verif
