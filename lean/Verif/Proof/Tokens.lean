import Verif.Proof.SemX
import Verif.Model.Dockerfile

/-!
# The tokens below each rule that is read by the crate
-/

namespace Verif

open Spec

/-- Static check: every emitted token satisfies `R`. -/
def emitsOnly (R : Rule → Bool) : Bool → PExpr → Bool
  | q, .seq a b => emitsOnly R q a && emitsOnly R q b
  | q, .alt a b => emitsOnly R q a && emitsOnly R q b
  | q, .star e => emitsOnly R q e
  | q, .opt e => emitsOnly R q e
  | q, .rule .silent _ e => emitsOnly R q e
  | true, .rule .normal _ e => emitsOnly R true e
  | true, .rule .atomic _ e => emitsOnly R true e
  | _, .rule _ r _ => R r
  | _, .recur .any_breakable => R .any_breakable
  | q, .recur _ => q
  | _, _ => true

theorem Many.all {P : List Tok → Prop} {Q : Tok → Prop} (hP : ∀ ts, P ts → ∀ t ∈ ts, Q t)
    {ts : List Tok} (h : Many P ts) : ∀ t ∈ ts, Q t := by
  induction h with
  | nil => simp
  | cons h1 _ ih =>
    intro t ht
    rcases List.mem_append.1 ht with h | h
    · exact hP _ h1 t h
    · exact ih t h

theorem shape_emitsOnly {R : Rule → Bool} {e : PExpr} {q : Bool} (hm : emitsOnly R q e = true)
    {ts : List Tok} (h : Shape e q ts) : ∀ t ∈ ts, R t.rule = true := by
  induction e generalizing q ts with
  | seq a b iha ihb =>
    simp only [emitsOnly, Bool.and_eq_true] at hm
    obtain ⟨t1, t2, rfl, h1, h2⟩ := h
    intro t ht
    rcases List.mem_append.1 ht with h | h
    · exact iha hm.1 h1 t h
    · exact ihb hm.2 h2 t h
  | alt a b iha ihb =>
    simp only [emitsOnly, Bool.and_eq_true] at hm
    rcases h with h | h
    · exact iha hm.1 h
    · exact ihb hm.2 h
  | star e ih => exact Many.all (fun ts h => ih hm h) h
  | opt e ih =>
    rcases h with h | h
    · subst h; simp
    · exact ih hm h
  | rule k r e ih =>
    have one : (∃ t, ts = [t] ∧ Made k r e t) → R r = true → ∀ t ∈ ts, R t.rule = true := by
      rintro ⟨t, rfl, hm⟩ hR u hu
      rw [List.mem_singleton.1 hu, hm.rule]; exact hR
    cases k with
    | normal => cases q with
      | true => exact ih (q := true) hm h
      | false => exact one h hm
    | silent => cases q <;> exact ih hm h
    | atomic => cases q with
      | true => exact ih (q := true) hm h
      | false => exact one h hm
    | compound => cases q <;> exact one h hm
  | recur r =>
    cases r with
    | any_breakable =>
      obtain ⟨t, rfl, ht⟩ := h
      intro u hu
      rw [List.mem_singleton.1 hu]
      have : t.rule = .any_breakable := Made.rule ht
      rw [this]; simpa [emitsOnly] using hm
    | inner => rw [h hm]; simp
    | single_quoted_inner => rw [h hm]; simp
  | _ => cases h; simp

/-- the tokens that are not comments -/
def core (ts : List Tok) : List Tok := ts.filter fun t => decide (t.rule ≠ .comment)

@[simp] theorem core_append (a b : List Tok) : core (a ++ b) = core a ++ core b := by
  simp [core]

@[simp] theorem core_nil : core [] = [] := rfl

theorem core_sublist (ts : List Tok) : (core ts).Sublist ts := List.filter_sublist

theorem core_cons_of_ne {t : Tok} {ts : List Tok} (h : t.rule ≠ .comment) :
    core (t :: ts) = t :: core ts := by simp [core, h]

theorem core_cons_comment {t : Tok} {ts : List Tok} (h : t.rule = .comment) :
    core (t :: ts) = core ts := by simp [core, h]

theorem core_one {k r e} {t : Tok} (h : Made k r e t) (hr : r ≠ .comment) : core [t] = [t] := by
  rw [core_cons_of_ne (by rw [h.rule]; exact hr), core_nil]

theorem core_comments {ts : List Tok} (h : ∀ t ∈ ts, (decide (t.rule = .comment)) = true) :
    core ts = [] := by
  unfold core
  rw [List.filter_eq_nil_iff]
  intro t ht
  have := h t ht
  simpa using this

theorem core_arg_ws {ts : List Tok} (h : Shape G.arg_ws false ts) : core ts = [] :=
  core_comments (shape_emitsOnly (R := fun r => decide (r = .comment)) (by decide +kernel) h)

theorem comments_arg_ws {ts : List Tok} (h : Shape G.arg_ws false ts) :
    ∀ t ∈ ts, t.rule = .comment := by
  intro t ht
  have := shape_emitsOnly (R := fun r => decide (r = .comment)) (by decide +kernel) h t ht
  simpa using this

theorem core_arg_ws_maybe {ts : List Tok} (h : Shape G.arg_ws_maybe false ts) : core ts = [] :=
  core_comments (shape_emitsOnly (R := fun r => decide (r = .comment)) (by decide +kernel) h)

/-- The non-comment tokens of a repetition. -/
theorem Many.core {P : List Tok → Prop} {Q : Tok → Prop}
    (hP : ∀ ts, P ts → ∀ t ∈ core ts, Q t) {ts : List Tok} (h : Many P ts) :
    ∀ t ∈ Verif.core ts, Q t := by
  induction h with
  | nil => simp
  | cons h1 _ ih =>
    intro t ht
    rw [core_append] at ht
    rcases List.mem_append.1 ht with h | h
    · exact hP _ h1 t h
    · exact ih t h

/-! ## children -/

theorem made_from {t : Tok} (h : MadeBy G.from t) : ∃ flags img al,
    core t.children = flags ++ img :: al ∧ (∀ f ∈ flags, MadeBy G.from_flag f) ∧
    MadeBy G.from_image img ∧ (al = [] ∨ ∃ a, al = [a] ∧ MadeBy G.from_alias a) := by
  have hs := Made.shape h
  obtain ⟨t0, t1, e1, h0, t2, t3, rfl, h1, t4, t5, rfl, h2, t6, t7, rfl, h3, h4⟩ := hs
  rw [e1]
  have := shape_mute (by decide +kernel) h0; subst this
  obtain ⟨img, rfl, himg⟩ := h3
  have hfl : ∀ f ∈ core t2, MadeBy G.from_flag f := by
    refine Many.core (fun ts h => ?_) h1
    obtain ⟨a, b, rfl, ha, f, rfl, hf⟩ := h
    rw [core_append, core_arg_ws ha, core_one hf (by decide)]
    intro t ht
    rw [List.nil_append, List.mem_singleton] at ht
    rw [ht]; exact hf
  refine ⟨core t2, img, core t7, ?_, hfl, himg, ?_⟩
  · simp only [core_append, core_arg_ws h2, core_one himg (by decide), core_nil]; simp
  · rcases h4 with rfl | ⟨a, b, rfl, ha, c, d, rfl, hc, e, f, rfl, he, al, rfl, hal⟩
    · exact .inl rfl
    · have := shape_mute (by decide +kernel) hc; subst this
      refine .inr ⟨al, ?_, hal⟩
      simp only [core_append, core_arg_ws ha, core_arg_ws he, core_one hal (by decide)]; rfl

theorem made_from_flag {t : Tok} (h : MadeBy G.from_flag t) : ∃ n v, t.children = [n, v] ∧
    MadeBy G.from_flag_name n ∧ MadeBy G.from_flag_value v := by
  obtain ⟨_, _, e1, h0, _, _, rfl, ⟨n, rfl, hn⟩, _, _, rfl, h2, ⟨v, rfl, hv⟩⟩ := Made.shape h
  have := shape_mute (by decide +kernel) h0; subst this
  have := shape_mute (by decide +kernel) h2; subst this
  exact ⟨n, v, e1, hn, hv⟩

theorem made_copy_flag {t : Tok} (h : MadeBy G.copy_flag t) : ∃ n v, t.children = [n, v] ∧
    MadeBy G.copy_flag_name n ∧ MadeBy G.copy_flag_value v := by
  obtain ⟨_, _, e1, h0, _, _, rfl, ⟨n, rfl, hn⟩, _, _, rfl, h2, ⟨v, rfl, hv⟩⟩ := Made.shape h
  have := shape_mute (by decide +kernel) h0; subst this
  have := shape_mute (by decide +kernel) h2; subst this
  exact ⟨n, v, e1, hn, hv⟩

theorem made_arg {t : Tok} (h : MadeBy G.arg t) : ∃ n vs, core t.children = n :: vs ∧
    MadeBy G.arg_name n ∧
    (vs = [] ∨ ∃ v, vs = [v] ∧ (MadeBy G.arg_quoted_value v ∨ MadeBy G.arg_value v)) := by
  obtain ⟨_, _, e1, h0, _, t1, rfl, h1, _, t2, rfl, ⟨n, rfl, hn⟩, h3⟩ := Made.shape h
  have := shape_mute (by decide +kernel) h0; subst this
  refine ⟨n, core t2, ?_, hn, ?_⟩
  · rw [e1]
    simp only [core_append, core_arg_ws h1, core_one hn (by decide), core_nil]; rfl
  · rcases h3 with rfl | ⟨_, _, rfl, h4, ⟨v, rfl, hv⟩ | ⟨v, rfl, hv⟩⟩
    · exact .inl rfl
    · have := shape_mute (by decide +kernel) h4; subst this
      exact .inr ⟨v, core_one hv (by decide), .inl hv⟩
    · have := shape_mute (by decide +kernel) h4; subst this
      exact .inr ⟨v, core_one hv (by decide), .inr hv⟩

theorem made_label {t : Tok} (h : MadeBy G.label t) :
    ∀ u ∈ core t.children, MadeBy G.label_pair u ∨ MadeBy G.label_single u := by
  obtain ⟨_, t1, e1, h0, h1⟩ := Made.shape h
  have := shape_mute (by decide +kernel) h0; subst this
  rw [e1, List.nil_append]
  rcases h1 with ⟨l, rfl, hl⟩ | ⟨_, _, rfl, h2, h3⟩
  · rw [core_one hl (by decide)]
    intro u hu; rw [List.mem_singleton.1 hu]; exact .inr hl
  · have one : ∀ ts, Shape (.seq G.arg_ws (.opt G.label_pair)) false ts →
        ∀ u ∈ core ts, MadeBy G.label_pair u ∨ MadeBy G.label_single u := by
      rintro ts ⟨a, b, rfl, ha, rfl | ⟨l, rfl, hl⟩⟩
      · simp [core_arg_ws ha]
      · simp only [core_append, core_arg_ws ha, core_one hl (by decide)]
        intro u hu; rw [List.nil_append, List.mem_singleton] at hu; rw [hu]; exact .inl hl
    intro u hu
    rw [core_append] at hu
    rcases List.mem_append.1 hu with h | h
    · exact one _ h2 u h
    · exact Many.core one h3 u h

theorem made_label_pair {t : Tok} (h : MadeBy G.label_pair t) : ∃ n v, t.children = [n, v] ∧
    (MadeBy G.label_quoted_name n ∨ MadeBy G.label_name n) ∧
    (MadeBy G.label_quoted_value v ∨ MadeBy G.label_value v) := by
  obtain ⟨tn, _, e1, h0, _, tv, rfl, h1, h2⟩ := Made.shape h
  have := shape_mute (by decide +kernel) h1; subst this
  have hn : ∃ n, tn = [n] ∧ (MadeBy G.label_quoted_name n ∨ MadeBy G.label_name n) := by
    rcases h0 with ⟨n, rfl, hn⟩ | ⟨n, rfl, hn⟩
    · exact ⟨n, rfl, .inl hn⟩
    · exact ⟨n, rfl, .inr hn⟩
  have hv : ∃ v, tv = [v] ∧ (MadeBy G.label_quoted_value v ∨ MadeBy G.label_value v) := by
    rcases h2 with ⟨n, rfl, hn⟩ | ⟨n, rfl, hn⟩
    · exact ⟨n, rfl, .inl hn⟩
    · exact ⟨n, rfl, .inr hn⟩
  obtain ⟨n, rfl, hn⟩ := hn
  obtain ⟨v, rfl, hv⟩ := hv
  exact ⟨n, v, e1, hn, hv⟩

theorem made_label_single {t : Tok} (h : MadeBy G.label_single t) :
    ∃ n v, core t.children = [n, v] ∧
    (MadeBy G.label_single_quoted_name n ∨ MadeBy G.label_single_name n) ∧
    (MadeBy G.label_quoted_value v ∨ MadeBy G.label_value v) := by
  obtain ⟨_, _, e1, h0, tn, _, rfl, h1, _, tv, rfl, h2, h3⟩ := Made.shape h
  have hn : ∃ n, core tn = [n] ∧ (MadeBy G.label_single_quoted_name n ∨ MadeBy G.label_single_name n) := by
    rcases h1 with ⟨n, rfl, hn⟩ | ⟨n, rfl, hn⟩
    · exact ⟨n, core_one hn (by decide), .inl hn⟩
    · exact ⟨n, core_one hn (by decide), .inr hn⟩
  have hv : ∃ v, core tv = [v] ∧ (MadeBy G.label_quoted_value v ∨ MadeBy G.label_value v) := by
    rcases h3 with ⟨n, rfl, hn⟩ | ⟨n, rfl, hn⟩
    · exact ⟨n, core_one hn (by decide), .inl hn⟩
    · exact ⟨n, core_one hn (by decide), .inr hn⟩
  obtain ⟨n, en, hn⟩ := hn
  obtain ⟨v, ev, hv⟩ := hv
  refine ⟨n, v, ?_, hn, hv⟩
  rw [e1]
  simp only [core_append, core_arg_ws h0, core_arg_ws h2, en, ev]; rfl

/-- `RUN`, `CMD`, `ENTRYPOINT` -/
theorem made_exec {r : Rule} {w : Str} {ex sh : PExpr} {t : Tok} {re rs : Rule} {be bs : PExpr}
    (he : ex = G.nrm re be) (hs : sh = G.atm rs bs)
    (h : MadeBy (G.nrm r (.seq (.istr w) (.seq G.arg_ws (.alt ex sh)))) t) :
    ∃ cs u, t.children = cs ++ [u] ∧ (∀ c ∈ cs, c.rule = .comment) ∧ (MadeBy ex u ∨ MadeBy sh u) := by
  subst he hs
  obtain ⟨_, _, e1, h0, cs, _, rfl, h1, h2⟩ := Made.shape h
  have := shape_mute (by rfl) h0; subst this
  rcases h2 with ⟨u, rfl, hu⟩ | ⟨u, rfl, hu⟩
  · exact ⟨cs, u, e1, comments_arg_ws h1, .inl hu⟩
  · exact ⟨cs, u, e1, comments_arg_ws h1, .inr hu⟩

theorem made_string_array {ts : List Tok} (h : Shape G.string_array false ts) :
    ∀ u ∈ core ts, MadeBy G.string u := by
  rcases h with ⟨_, _, rfl, h0, _, _, rfl, h1, _, _, rfl, ⟨s, rfl, hs⟩, _, _, rfl, h3, _, _, rfl,
    h4, _, _, rfl, h5, h6⟩ | ⟨_, _, rfl, h0, _, _, rfl, h1, h2⟩
  · have := shape_mute (by decide +kernel) h0; subst this
    have := shape_mute (by decide +kernel) h4; subst this
    have := shape_mute (by decide +kernel) h6; subst this
    intro u hu
    simp only [core_append, core_arg_ws_maybe h1, core_arg_ws_maybe h5, List.nil_append,
      List.append_nil, core_one hs (by decide)] at hu
    rcases List.mem_append.1 hu with h | h
    · rw [List.mem_singleton.1 h]; exact hs
    · refine Many.core (fun ts h => ?_) h3 u h
      obtain ⟨a, _, rfl, ha, _, _, rfl, hb, c, _, rfl, hc, v, rfl, hv⟩ := h
      have := shape_mute (by decide +kernel) hb; subst this
      simp only [core_append, core_arg_ws_maybe ha, core_arg_ws_maybe hc,
        List.nil_append, core_one hv (by decide)]
      intro u hu; rw [List.mem_singleton.1 hu]; exact hv
  · have := shape_mute (by decide +kernel) h0; subst this
    have := shape_mute (by decide +kernel) h2; subst this
    intro u hu
    simp only [core_append, core_arg_ws_maybe h1, core_nil, List.append_nil] at hu
    simp at hu

theorem made_copy {t : Tok} (h : MadeBy G.copy t) : ∃ flags paths,
    core t.children = flags ++ paths ∧ (∀ f ∈ flags, MadeBy G.copy_flag f) ∧
    (∀ f ∈ paths, MadeBy G.copy_pathspec f) ∧ 2 ≤ paths.length := by
  obtain ⟨_, _, e1, h0, fl, _, rfl, h1, _, _, rfl, ⟨a, _, rfl, ha, p1, rfl, hp1⟩, _, ps, rfl,
    ⟨b, _, rfl, hb, p2, rfl, hp2⟩, h2⟩ := Made.shape h
  have := shape_mute (by decide +kernel) h0; subst this
  refine ⟨core fl, p1 :: p2 :: core ps, ?_, ?_, ?_, by simp⟩
  · rw [e1]
    simp only [core_append, core_arg_ws ha, core_arg_ws hb, core_one hp1 (by decide),
      core_one hp2 (by decide), core_nil]; simp
  · refine Many.core (fun ts h => ?_) h1
    obtain ⟨a, b, rfl, ha, f, rfl, hf⟩ := h
    rw [core_append, core_arg_ws ha, core_one hf (by decide)]
    intro t ht
    rw [List.nil_append, List.mem_singleton] at ht
    rw [ht]; exact hf
  · intro f hf
    simp only [List.mem_cons] at hf
    rcases hf with rfl | rfl | hf
    · exact hp1
    · exact hp2
    · refine Many.core (fun ts h => ?_) h2 f hf
      obtain ⟨a, b, rfl, ha, f, rfl, hf⟩ := h
      rw [core_append, core_arg_ws ha, core_one hf (by decide)]
      intro t ht
      rw [List.nil_append, List.mem_singleton] at ht
      rw [ht]; exact hf

theorem made_env {t : Tok} (h : MadeBy G.env t) :
    ∃ u, t.children = [u] ∧ (MadeBy G.env_single u ∨ MadeBy G.env_pairs u) := by
  obtain ⟨_, _, e1, h0, h1⟩ := Made.shape h
  have := shape_mute (by decide +kernel) h0; subst this
  rcases h1 with ⟨u, rfl, hu⟩ | ⟨u, rfl, hu⟩
  · exact ⟨u, e1, .inl hu⟩
  · exact ⟨u, e1, .inr hu⟩

theorem made_env_single {t : Tok} (h : MadeBy G.env_single t) :
    ∃ n v, core t.children = [n, v] ∧ MadeBy G.env_name n ∧
    (MadeBy G.env_single_quoted_value v ∨ MadeBy G.env_single_value v) := by
  obtain ⟨_, _, e1, h0, _, _, rfl, ⟨n, rfl, hn⟩, _, tv, rfl, h2, h3⟩ := Made.shape h
  have hv : ∃ v, core tv = [v] ∧ (MadeBy G.env_single_quoted_value v ∨ MadeBy G.env_single_value v) := by
    rcases h3 with ⟨n, rfl, hn⟩ | ⟨n, rfl, hn⟩
    · exact ⟨n, core_one hn (by decide), .inl hn⟩
    · exact ⟨n, core_one hn (by decide), .inr hn⟩
  obtain ⟨v, ev, hv⟩ := hv
  refine ⟨n, v, ?_, hn, hv⟩
  rw [e1]
  simp only [core_append, core_arg_ws h0, core_arg_ws h2, core_one hn (by decide), ev]; rfl

theorem made_env_pairs {t : Tok} (h : MadeBy G.env_pairs t) :
    ∀ u ∈ core t.children, MadeBy G.env_pair u := by
  obtain ⟨_, _, e1, h2, h3⟩ := Made.shape h
  rw [e1]
  have one : ∀ ts, Shape (.seq G.arg_ws (.opt G.env_pair)) false ts →
      ∀ u ∈ core ts, MadeBy G.env_pair u := by
    rintro ts ⟨a, b, rfl, ha, rfl | ⟨l, rfl, hl⟩⟩
    · simp [core_arg_ws ha]
    · simp only [core_append, core_arg_ws ha, core_one hl (by decide)]
      intro u hu; rw [List.nil_append, List.mem_singleton] at hu; rw [hu]; exact hl
  intro u hu
  rw [core_append] at hu
  rcases List.mem_append.1 hu with h | h
  · exact one _ h2 u h
  · exact Many.core one h3 u h

theorem made_env_pair {t : Tok} (h : MadeBy G.env_pair t) :
    ∃ n v, t.children = [n, v] ∧ MadeBy G.env_name n ∧
    (MadeBy G.env_pair_quoted_value v ∨ MadeBy G.env_pair_value v) := by
  obtain ⟨_, _, e1, ⟨n, rfl, hn⟩, _, _, rfl, h1, h2⟩ := Made.shape h
  have := shape_mute (by decide +kernel) h1; subst this
  rcases h2 with ⟨v, rfl, hv⟩ | ⟨v, rfl, hv⟩
  · exact ⟨n, v, e1, hn, .inl hv⟩
  · exact ⟨n, v, e1, hn, .inr hv⟩

theorem made_misc {t : Tok} (h : MadeBy G.misc t) :
    ∃ n v, t.children = [n, v] ∧ MadeBy G.misc_instruction n ∧ MadeBy G.misc_arguments v := by
  obtain ⟨_, _, e1, ⟨n, rfl, hn⟩, ⟨v, rfl, hv⟩⟩ := Made.shape h
  exact ⟨n, v, e1, hn, hv⟩

end Verif
