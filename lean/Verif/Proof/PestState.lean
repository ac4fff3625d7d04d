import Verif.Model.PestState
import Verif.Proof.PestRuns

/-!
# The engine of pest does what its grammar means
-/

namespace Verif
namespace Pest

/-! ## tokens in the queue -/

mutual
/-- a pair in the queue, from index `i` on -/
def flatTok : Nat → Tok → List QTok
  | i, .node r a b _ ch => .start (i + 1 + (flat (i + 1) ch).length) a :: (flat (i + 1) ch ++ [.stop i r b])
/-- pairs in the queue -/
def flat : Nat → List Tok → List QTok
  | _, [] => []
  | i, t :: ts => flatTok i t ++ flat (i + (flatTok i t).length) ts
end

theorem flat_append (ts us : List Tok) : ∀ i, flat i (ts ++ us) = flat i ts ++ flat (i + (flat i ts).length) us := by
  induction ts with
  | nil => intro i; simp [flat]
  | cons t ts ih =>
    intro i
    simp only [List.cons_append, flat, ih, List.length_append, List.append_assoc, Nat.add_assoc]

/-! ## what a closure does -/

/-- there is something in the record of attempts -/
def St.tried (st : St) : Prop := st.posAttempts ≠ [] ∨ st.negAttempts ≠ []

variable {J : Rule → Bool → Nat → Str → Prop}

/-- the record of attempts moves forward, to places in the text `s` at `p`; a rule that is new in it
did not match there or, for the negative attempts, did match (`J r b p s`: at `p` in front of `s`, the
rule `r` matches, or not) -/
structure Att (J : Rule → Bool → Nat → Str → Prop) (p : Nat) (s : Str) (st st' : St) : Prop where
  le : st.attemptPos ≤ st'.attemptPos
  place : st'.attemptPos = st.attemptPos ∨ ∃ a b, s = a ++ b ∧ st'.attemptPos = p + blen a
  keep : st.tried → st'.tried
  new : st'.attemptPos ≠ st.attemptPos → st'.tried
  positive : ∀ r ∈ st'.posAttempts, (st'.attemptPos = st.attemptPos ∧ r ∈ st.posAttempts) ∨
    ∃ a b, s = a ++ b ∧ st'.attemptPos = p + blen a ∧ J r false (p + blen a) b
  negative : ∀ r ∈ st'.negAttempts, (st'.attemptPos = st.attemptPos ∧ r ∈ st.negAttempts) ∨
    ∃ a b, s = a ++ b ∧ st'.attemptPos = p + blen a ∧ J r true (p + blen a) b

theorem Att.rfl {p : Nat} {s : Str} {st : St} : Att J p s st st :=
  ⟨Nat.le_refl _, .inl (Eq.refl _), id, fun h => absurd (Eq.refl _) h, fun _ h => .inl ⟨Eq.refl _, h⟩,
    fun _ h => .inl ⟨Eq.refl _, h⟩⟩

theorem Att.moved {p p' : Nat} {s s' : Str} {st : St} : Att J p s st { st with pos := p', rest := s' } :=
  ⟨Nat.le_refl _, .inl (Eq.refl _), id, fun h => absurd (Eq.refl _) h, fun _ h => .inl ⟨Eq.refl _, h⟩,
    fun _ h => .inl ⟨Eq.refl _, h⟩⟩

theorem Att.trans {p : Nat} {s : Str} {a b c : St} (h : Att J p s a b) (h' : Att J p s b c) : Att J p s a c := by
  refine ⟨Nat.le_trans h.le h'.le, ?_, h'.keep ∘ h.keep, fun hn => ?_, fun r hr => ?_, fun r hr => ?_⟩
  · rcases h'.place with e | e
    · rw [e]; exact h.place
    · exact .inr e
  · by_cases e : c.attemptPos = b.attemptPos
    · exact h'.keep (h.new (by rw [← e]; exact hn))
    · exact h'.new e
  · rcases h'.positive r hr with ⟨e, hr⟩ | e
    · rw [e]; exact h.positive r hr
    · exact .inr e
  · rcases h'.negative r hr with ⟨e, hr⟩ | e
    · rw [e]; exact h.negative r hr
    · exact .inr e

theorem Att.next {p : Nat} {x s : Str} {a b : St} (h : Att J (p + blen x) s a b) : Att J p (x ++ s) a b := by
  refine ⟨h.le, ?_, h.keep, h.new, fun r hr => ?_, fun r hr => ?_⟩
  · rcases h.place with e | ⟨u, v, rfl, e⟩
    · exact .inl e
    · exact .inr ⟨x ++ u, v, by simp, by rw [e, blen_append]; omega⟩
  · rcases h.positive r hr with e | ⟨u, v, rfl, e, e'⟩
    · exact .inl e
    · rw [Nat.add_assoc, ← blen_append] at e e'
      exact .inr ⟨x ++ u, v, by simp, e, e'⟩
  · rcases h.negative r hr with e | ⟨u, v, rfl, e, e'⟩
    · exact .inl e
    · rw [Nat.add_assoc, ← blen_append] at e e'
      exact .inr ⟨x ++ u, v, by simp, e, e'⟩

/-- the tokens in the queue -/
def St.put (st : St) (ts : List Tok) : List QTok := if st.look = .none then flat st.queue.length ts else []

/-- at `p` in front of `s`, the outcome of `f` is `o` (`q`: in an atomic rule) -/
def Does (J : Rule → Bool → Nat → Str → Prop) (f : M) (q : Bool) (p : Nat) (s : Str) (o : Out) : Prop :=
  ∀ st : St, st.pos = p → st.rest = s → (st.atom = .atomic ↔ q = true) →
    ∃ st', f st = some (o.isSome, st') ∧ st'.look = st.look ∧ st'.atom = st.atom ∧ Att J p s st st' ∧
      match o with
      | some (p', s', ts) => (∃ x, s = x ++ s' ∧ p' = p + blen x) ∧ st'.pos = p' ∧ st'.rest = s' ∧
          st'.queue = st.queue ++ st.put ts
      | none => st'.pos = p ∧ st'.rest = s ∧ st'.queue = st.queue

/-- the same, except that after a failure the position is arbitrary and there may be new tokens -/
def DoesL (J : Rule → Bool → Nat → Str → Prop) (f : M) (q : Bool) (p : Nat) (s : Str) (o : Out) : Prop :=
  ∀ st : St, st.pos = p → st.rest = s → (st.atom = .atomic ↔ q = true) →
    ∃ st', f st = some (o.isSome, st') ∧ st'.look = st.look ∧ st'.atom = st.atom ∧ Att J p s st st' ∧
      match o with
      | some (p', s', ts) => (∃ x, s = x ++ s' ∧ p' = p + blen x) ∧ st'.pos = p' ∧ st'.rest = s' ∧
          st'.queue = st.queue ++ st.put ts
      | none => ∃ ts, st'.queue = st.queue ++ ts

variable {q : Bool} {p : Nat} {s : Str} {o : Out} {f f' : M}

theorem Does.loose (h : Does J f q p s o) : DoesL J f q p s o := by
  intro st h1 h2 h3
  obtain ⟨st', e1, e2, e3, e4, e5⟩ := h st h1 h2 h3
  refine ⟨st', e1, e2, e3, e4, ?_⟩
  cases o with
  | none => exact ⟨[], by simpa using e5.2.2⟩
  | some r => exact e5

theorem DoesL.seq (h : DoesL J f q p s o) : Does J (sequence f) q p s o := by
  intro st h1 h2 h3
  obtain ⟨st', e1, e2, e3, e4, e5⟩ := h st h1 h2 h3
  cases o with
  | none =>
    obtain ⟨ts, e5⟩ := e5
    refine ⟨{ st' with pos := st.pos, rest := st.rest, queue := st'.queue.take st.queue.length }, ?_, e2, e3, ⟨e4.1, e4.2, e4.3, e4.4, e4.5, e4.6⟩, h1, h2, ?_⟩
    · simp only [sequence, e1]; rfl
    · simp [e5]
  | some r =>
    refine ⟨st', ?_, e2, e3, e4, e5⟩
    simp only [sequence, e1]; rfl

/-- tokens before others -/
def after (ts : List Tok) : Out → Out
  | some (p, s, us) => some (p, s, ts ++ us)
  | none => none

theorem St.put_append (st st' : St) {ts us : List Tok} (h : st'.look = st.look) (hq : st'.queue = st.queue ++ st.put ts) :
    st'.queue ++ st'.put us = st.queue ++ st.put (ts ++ us) := by
  have hl : st'.queue.length = st.queue.length + (st.put ts).length := by rw [hq, List.length_append]
  by_cases hn : st.look = .none
  · simp only [St.put, h, hn, if_true] at *
    rw [hq, flat_append, List.length_append]
    simp
  · simp only [St.put, h, if_neg hn, List.append_nil] at *
    exact hq

theorem DoesL.andThen {p1 : Nat} {s1 : Str} {t1 : List Tok} (h : DoesL J f q p s (some (p1, s1, t1)))
    (h' : DoesL J f' q p1 s1 o) : DoesL J (Pest.andThen f f') q p s (after t1 o) := by
  intro st h1 h2 h3
  obtain ⟨st', e1, e2, e3, e4, ⟨x, rfl, rfl⟩, e6, e7, e8⟩ := h st h1 h2 h3
  obtain ⟨st2, g1, g2, g3, g4, g5⟩ := h' st' e6 e7 (by rw [e3]; exact h3)
  refine ⟨st2, ?_, g2.trans e2, g3.trans e3, e4.trans g4.next, ?_⟩
  · simp only [Pest.andThen, e1, Option.isSome, g1]
    cases o <;> rfl
  · cases o with
    | none =>
      obtain ⟨ts, g5⟩ := g5
      exact ⟨st.put t1 ++ ts, by rw [g5, e8]; simp⟩
    | some r =>
      obtain ⟨p2, s2, t2⟩ := r
      obtain ⟨⟨y, rfl, rfl⟩, g6, g7, g8⟩ := g5
      refine ⟨⟨x ++ y, by simp, ?_⟩, g6, g7, ?_⟩
      · rw [blen_append]; omega
      · rw [g8]; exact St.put_append st st' e2 e8

theorem DoesL.andThen_none (h : DoesL J f q p s none) : DoesL J (Pest.andThen f f') q p s none := by
  intro st h1 h2 h3
  obtain ⟨st', e1, e2⟩ := h st h1 h2 h3
  refine ⟨st', ?_, e2⟩
  simp only [Pest.andThen, e1]; rfl

theorem Does.orElse_some {r : Nat × Str × List Tok} (h : Does J f q p s (some r)) :
    Does J (orElse f f') q p s (some r) := by
  intro st h1 h2 h3
  obtain ⟨st', e1, e2⟩ := h st h1 h2 h3
  refine ⟨st', ?_, e2⟩
  simp only [orElse, e1]; rfl

theorem Does.orElse_none (h : Does J f q p s none) (h' : Does J f' q p s o) : Does J (orElse f f') q p s o := by
  intro st h1 h2 h3
  obtain ⟨st', e1, e2, e3, e4, e5, e6, e7⟩ := h st h1 h2 h3
  obtain ⟨st2, g1, g2, g3, g4, g5⟩ := h' st' e5 e6 (by rw [e3]; exact h3)
  refine ⟨st2, ?_, g2.trans e2, g3.trans e3, e4.trans g4, ?_⟩
  · simp only [orElse, e1, Option.isSome, g1]
  · cases o with
    | none => exact ⟨g5.1, g5.2.1, g5.2.2.trans e7⟩
    | some r =>
      refine ⟨g5.1, g5.2.1, g5.2.2.1, ?_⟩
      rw [g5.2.2.2, e7]
      simp only [St.put, e2, e7]

theorem Does.opt_some {r : Nat × Str × List Tok} (h : Does J f q p s (some r)) : Does J (optional f) q p s (some r) := by
  intro st h1 h2 h3
  obtain ⟨st', e1, e2⟩ := h st h1 h2 h3
  refine ⟨st', ?_, e2⟩
  simp only [optional, e1]; rfl

theorem put_nil (st : St) : st.put [] = [] := by simp [St.put, flat]

theorem Does.opt_none (h : Does J f q p s none) : Does J (optional f) q p s (some (p, s, [])) := by
  intro st h1 h2 h3
  obtain ⟨st', e1, e2, e3, e4, e5, e6, e7⟩ := h st h1 h2 h3
  refine ⟨st', ?_, e2, e3, e4, ⟨[], rfl, rfl⟩, e5, e6, by rw [e7, put_nil, List.append_nil]⟩
  simp only [optional, e1]; rfl

theorem DoesL.strict {r : Nat × Str × List Tok} (h : DoesL J f q p s (some r)) : Does J f q p s (some r) := h

theorem Does.repeat_nil (h : Does J f q p s none) (k : Nat) : Does J (repeat_ (k + 1) f) q p s (some (p, s, [])) := by
  intro st h1 h2 h3
  obtain ⟨st', e1, e2, e3, e4, e5, e6, e7⟩ := h st h1 h2 h3
  refine ⟨st', ?_, e2, e3, e4, ⟨[], rfl, rfl⟩, e5, e6, by rw [e7, put_nil, List.append_nil]⟩
  simp only [repeat_, e1]; rfl

theorem Does.repeat_cons {p1 p2 : Nat} {s1 s2 : Str} {t1 t2 : List Tok} {k : Nat} (h : Does J f q p s (some (p1, s1, t1)))
    (h' : Does J (repeat_ k f) q p1 s1 (some (p2, s2, t2))) :
    Does J (repeat_ (k + 1) f) q p s (some (p2, s2, t1 ++ t2)) := by
  have h2 := (h.loose.andThen h'.loose).strict
  intro st h3 h4 h5
  obtain ⟨st', e1, e2⟩ := h2 st h3 h4 h5
  obtain ⟨st1, g1, -⟩ := h st h3 h4 h5
  refine ⟨st', ?_, e2⟩
  simp only [Pest.andThen, g1, Option.isSome] at e1
  simp only [repeat_, g1, Option.isSome, e1]

theorem Does.neg {o : Out} (h : Does J f q p s o) :
    Does J (lookahead false f) q p s (if o.isSome then none else some (p, s, [])) := by
  intro st h1 h2 h3
  have hne : st.look.under false ≠ .none := by cases st.look <;> decide
  obtain ⟨st', e1, e2, e3, e4, e5⟩ := h { st with look := st.look.under false } h1 h2 h3
  have hq : st'.queue = st.queue := by
    cases o with
    | none => exact e5.2.2
    | some r =>
      have := e5.2.2.2
      simpa [St.put, hne] using this
  have hf : lookahead false f st = some (!o.isSome, { st' with pos := st.pos, rest := st.rest, look := st.look }) := by
    simp only [lookahead, e1, Option.map_some, Bool.false_eq_true, if_false]
  refine ⟨{ st' with pos := st.pos, rest := st.rest, look := st.look }, ?_, rfl, e3, ⟨e4.1, e4.2, e4.3, e4.4, e4.5, e4.6⟩, ?_⟩
  · rw [hf]; cases o <;> rfl
  · cases o with
    | none => exact ⟨⟨[], rfl, rfl⟩, h1, h2, by rw [put_nil, List.append_nil]; exact hq⟩
    | some r => exact ⟨h1, h2, hq⟩

theorem Does.atomic {a : Atom} (h : Does J f (a = .atomic) p s o) : Does J (Pest.atomic a f) q p s o := by
  intro st h1 h2 h3
  by_cases ha : st.atom = a
  · have : Pest.atomic a f st = f st := by simp [Pest.atomic, ha]
    rw [this]
    exact h st h1 h2 (by rw [ha]; simp)
  · obtain ⟨st', e1, e2, e3, e4, e5⟩ := h { st with atom := a } h1 h2 (by simp)
    refine ⟨{ st' with atom := st.atom }, ?_, e2, rfl, ⟨e4.1, e4.2, e4.3, e4.4, e4.5, e4.6⟩, ?_⟩
    · simp [Pest.atomic, ha, e1]
    · cases o with
      | none => exact e5
      | some r => exact e5

/-! ## rules -/

theorem track_same (st : St) (r : Rule) (pos i j k : Nat) :
    (st.track r pos i j k).pos = st.pos ∧ (st.track r pos i j k).rest = st.rest ∧
    (st.track r pos i j k).queue = st.queue ∧ (st.track r pos i j k).look = st.look ∧
    (st.track r pos i j k).atom = st.atom := by
  unfold St.track
  repeat' split
  all_goals first | exact ⟨rfl, rfl, rfl, rfl, rfl⟩ | skip
  all_goals (simp only [apply_ite St.pos, apply_ite St.rest, apply_ite St.queue, apply_ite St.look, apply_ite St.atom, ite_self]; simp)

theorem track_pos (st : St) (r : Rule) (pos i j k : Nat) :
    st.attemptPos ≤ (st.track r pos i j k).attemptPos ∧
    ((st.track r pos i j k).attemptPos = st.attemptPos ∨ (st.track r pos i j k).attemptPos = pos) ∧
    (st.atom ≠ .atomic → pos ≤ (st.track r pos i j k).attemptPos) := by
  unfold St.track
  split
  · next h => exact ⟨Nat.le_refl _, .inl rfl, fun h' => absurd h h'⟩
  split
  · next h1 h2 =>
    refine ⟨Nat.le_refl _, .inl rfl, fun _ => ?_⟩
    have := h2.1
    unfold St.attemptsAt at this
    split at this <;> omega
  · next h1 h2 =>
    by_cases e : pos = st.attemptPos
    · subst e
      simp only [if_true, gt_iff_lt, Nat.lt_irrefl, if_false]
      split <;> exact ⟨Nat.le_refl _, by simp, fun _ => Nat.le_refl _⟩
    · by_cases e2 : st.attemptPos < pos
      · simp only [if_neg e, gt_iff_lt, if_pos e2, if_true]
        split <;> exact ⟨Nat.le_of_lt e2, .inr rfl, fun _ => Nat.le_refl _⟩
      · simp only [if_neg e, gt_iff_lt, if_neg e2]
        exact ⟨Nat.le_refl _, by simp, fun _ => by omega⟩

theorem track_tried (st : St) (r : Rule) (pos i j k : Nat) :
    (st.tried → (st.track r pos i j k).tried) ∧ (pos = (st.track r pos i j k).attemptPos → st.atom ≠ .atomic →
      (st.track r pos i j k).tried) := by
  unfold St.track
  split
  · next h => exact ⟨id, fun _ h' => absurd h h'⟩
  split
  · next h1 h2 =>
    refine ⟨id, fun _ _ => ?_⟩
    have := h2.1
    unfold St.attemptsAt at this
    unfold St.tried
    split at this
    · by_cases e : st.posAttempts = []
      · refine .inr fun e' => ?_
        rw [e, e'] at this; simp at this
      · exact .inl e
    · omega
  · next h1 h2 =>
    by_cases e : pos = st.attemptPos
    · subst e
      simp only [if_true, gt_iff_lt, Nat.lt_irrefl, if_false]
      split <;> (unfold St.tried; simp)
    · by_cases e2 : st.attemptPos < pos
      · simp only [if_neg e, gt_iff_lt, if_pos e2, if_true]
        split <;> (unfold St.tried; simp)
      · simp only [if_neg e, gt_iff_lt, if_neg e2]
        exact ⟨id, fun h => absurd h e⟩

theorem track_lists (st : St) (r : Rule) (pos i j k : Nat) :
    (∀ r' ∈ (st.track r pos i j k).posAttempts,
      ((st.track r pos i j k).attemptPos = st.attemptPos ∧ r' ∈ st.posAttempts) ∨
      ((st.track r pos i j k).attemptPos = pos ∧ r' = r ∧ st.look ≠ .negative)) ∧
    (∀ r' ∈ (st.track r pos i j k).negAttempts,
      ((st.track r pos i j k).attemptPos = st.attemptPos ∧ r' ∈ st.negAttempts) ∨
      ((st.track r pos i j k).attemptPos = pos ∧ r' = r ∧ st.look = .negative)) := by
  unfold St.track
  split
  · exact ⟨fun _ h => .inl ⟨rfl, h⟩, fun _ h => .inl ⟨rfl, h⟩⟩
  split
  · exact ⟨fun _ h => .inl ⟨rfl, h⟩, fun _ h => .inl ⟨rfl, h⟩⟩
  · by_cases e : pos = st.attemptPos
    · subst e
      simp only [if_true, gt_iff_lt, Nat.lt_irrefl, if_false]
      split
      · next hl =>
        refine ⟨fun r' h => ?_, fun r' h => .inl ⟨rfl, List.mem_of_mem_take h⟩⟩
        rcases List.mem_append.1 h with h | h
        · exact .inl ⟨rfl, List.mem_of_mem_take h⟩
        · exact .inr ⟨rfl, List.mem_singleton.1 h, hl⟩
      · next hl =>
        refine ⟨fun r' h => .inl ⟨rfl, List.mem_of_mem_take h⟩, fun r' h => ?_⟩
        rcases List.mem_append.1 h with h | h
        · exact .inl ⟨rfl, List.mem_of_mem_take h⟩
        · exact .inr ⟨rfl, List.mem_singleton.1 h, by simpa using hl⟩
    · by_cases e2 : st.attemptPos < pos
      · simp only [if_neg e, gt_iff_lt, if_pos e2, if_true]
        split
        · next hl => exact ⟨fun r' h => .inr ⟨rfl, by simpa using h, hl⟩, fun r' h => by simp at h⟩
        · next hl => exact ⟨fun r' h => by simp at h, fun r' h => .inr ⟨rfl, by simpa using h, by simpa using hl⟩⟩
      · simp only [if_neg e, gt_iff_lt, if_neg e2]
        exact ⟨fun _ h => .inl ⟨trivial, h⟩, fun _ h => .inl ⟨trivial, h⟩⟩

theorem track_att (st : St) (r : Rule) (i j k : Nat) {p : Nat} {s : Str} (hp : st.look ≠ .negative → J r false p s)
    (hn : st.look = .negative → J r true p s) : Att J p s st (st.track r p i j k) := by
  obtain ⟨h1, h2, -⟩ := track_pos st r p i j k
  obtain ⟨h3, h4⟩ := track_tried st r p i j k
  obtain ⟨h5, h6⟩ := track_lists st r p i j k
  refine ⟨h1, ?_, h3, fun hn => ?_, fun r' hr => ?_, fun r' hr => ?_⟩
  · rcases h2 with h2 | h2
    · exact .inl h2
    · exact .inr ⟨[], s, rfl, h2⟩
  · by_cases ha : st.atom = .atomic
    · exact absurd (by rw [St.track, if_pos ha]) hn
    · exact h4 (by rcases h2 with h2 | h2; exact absurd h2 hn; exact h2.symm) ha
  · rcases h5 r' hr with h | ⟨e, rfl, hl⟩
    · exact .inl h
    · exact .inr ⟨[], s, rfl, e, hp hl⟩
  · rcases h6 r' hr with h | ⟨e, rfl, hl⟩
    · exact .inl h
    · exact .inr ⟨[], s, rfl, e, hn hl⟩

/-- what comes out of a rule that puts a pair in the queue unless in an atomic rule -/
def emit (r : Rule) (q : Bool) (p : Nat) (s : Str) : Out → Out
  | none => none
  | some (p1, s1, ts) => some (p1, s1, if q then ts else [.node r p p1 (s.take (s.length - s1.length)) ts])

theorem Does.rule {r : Rule} (h : Does J f q p s o) (hJ : J r o.isSome p s) : Does J (Pest.rule r f) q p s (emit r q p s o) := by
  intro st h1 h2 h3
  by_cases hE : st.emits = true
  · -- a pair
    have hl : st.look = .none := by simp [St.emits] at hE; exact hE.1
    have ha : st.atom ≠ .atomic := by simp [St.emits] at hE; exact hE.2
    have hq : q = false := by cases q with | false => rfl | true => exact absurd (h3.2 rfl) ha
    obtain ⟨st', e1, e2, e3, e4, e5⟩ := h { st with queue := st.queue ++ [.start 0 st.pos] } h1 h2 h3
    cases o with
    | none =>
      obtain ⟨e5, e6, e7⟩ := e5
      have hl' : st'.look = .none := e2.trans hl
      generalize hT : st'.track r st.pos (if st.pos = st.attemptPos then st.posAttempts.length else 0)
        (if st.pos = st.attemptPos then st.negAttempts.length else 0)
        (St.attemptsAt { st with queue := st.queue ++ [.start 0 st.pos] } st.pos) = tr
      have hT' := track_same st' r st.pos (if st.pos = st.attemptPos then st.posAttempts.length else 0)
        (if st.pos = st.attemptPos then st.negAttempts.length else 0)
        (St.attemptsAt { st with queue := st.queue ++ [.start 0 st.pos] } st.pos)
      have hA : Att J p s st' tr := by
        rw [← hT, h1]; exact track_att _ _ _ _ _ (fun _ => hJ) (fun h => absurd h (by rw [hl']; decide))
      rw [hT] at hT'
      obtain ⟨t1, t2, t3, t4, t5⟩ := hT'
      have hE' : tr.emits = true := by
        simp only [St.emits] at hE ⊢; rw [t4, t5, e2, e3]; exact hE
      refine ⟨{ tr with queue := tr.queue.take st.queue.length }, ?_, ?_, ?_, ?_, ?_, ?_, ?_⟩
      · simp only [Pest.rule, if_pos hE, e1, Option.isSome, hT]
        simp [hl', hE', emit]
      · exact t4.trans e2
      · exact t5.trans e3
      · have := Att.trans (b := st') (a := st) ⟨e4.1, e4.2, e4.3, e4.4, e4.5, e4.6⟩ hA
        exact ⟨this.1, this.2, this.3, this.4, this.5, this.6⟩
      · exact t1.trans e5
      · exact t2.trans e6
      · show tr.queue.take _ = _
        rw [t3, e7]; simp
    | some x =>
      obtain ⟨p1, s1, ts⟩ := x
      obtain ⟨⟨x, rfl, rfl⟩, e6, e7, e8⟩ := e5
      have hl' : st'.look = .none := e2.trans hl
      have hE' : st'.emits = true := by
        simp only [St.emits] at hE ⊢; rw [e2, e3]; exact hE
      have hQ : st'.queue = st.queue ++ .start 0 st.pos :: flat (st.queue.length + 1) ts := by
        rw [e8]; simp [St.put, hl]
      refine ⟨{ st' with queue := st'.queue.set st.queue.length (.start st'.queue.length st.pos) ++
          [.stop st.queue.length r st'.pos] }, ?_, e2, e3, ⟨e4.1, e4.2, e4.3, e4.4, e4.5, e4.6⟩, ⟨x, rfl, rfl⟩, e6, e7, ?_⟩
      · have hi : st'.queue[st.queue.length]? = some (.start 0 st.pos) := by rw [hQ]; simp
        simp only [Pest.rule, if_pos hE, e1, Option.isSome, emit]
        simp [hl', hE', hi]
      · show st'.queue.set _ _ ++ _ = _
        rw [hQ, e6, h1]
        simp only [hq, St.put, hl, if_true, Bool.false_eq_true, if_false, flat, flatTok, List.append_nil]
        simp
        omega
  · -- no pair
    have hf : (if st.emits = true then { st with queue := st.queue ++ [.start 0 st.pos] } else st) = st := if_neg hE
    obtain ⟨st', e1, e2, e3, e4, e5⟩ := h st h1 h2 h3
    generalize hT : st'.track r st.pos (if st.pos = st.attemptPos then st.posAttempts.length else 0)
      (if st.pos = st.attemptPos then st.negAttempts.length else 0) (St.attemptsAt st st.pos) = tr
    have hT' := track_same st' r st.pos (if st.pos = st.attemptPos then st.posAttempts.length else 0)
      (if st.pos = st.attemptPos then st.negAttempts.length else 0) (St.attemptsAt st st.pos)
    have hA : (st'.look ≠ .negative → J r false p s) → (st'.look = .negative → J r true p s) → Att J p s st' tr := by
      rw [← hT, h1]; exact track_att _ _ _ _ _
    rw [hT] at hT'
    obtain ⟨t1, t2, t3, t4, t5⟩ := hT'
    have hE' : st'.emits = false := by
      simp only [St.emits] at hE ⊢; rw [e2, e3]; simpa using hE
    have hE2 : tr.emits = false := by
      simp only [St.emits] at hE' ⊢; rw [t4, t5]; exact hE'
    cases o with
    | none =>
      obtain ⟨e5, e6, e7⟩ := e5
      by_cases hn : st'.look = .negative
      · refine ⟨st', ?_, e2, e3, e4, e5, e6, e7⟩
        simp only [Pest.rule, hf, e1, Option.isSome]
        simp [hn, hE', emit]
      · refine ⟨tr, ?_, t4.trans e2, t5.trans e3, e4.trans (hA (fun _ => hJ) (fun h => absurd h hn)), t1.trans e5, t2.trans e6, t3.trans e7⟩
        simp only [Pest.rule, hf, e1, Option.isSome, hT]
        simp [hn, hE2, emit]
    | some x =>
      obtain ⟨p1, s1, ts⟩ := x
      obtain ⟨⟨x, rfl, rfl⟩, e6, e7, e8⟩ := e5
      have hp : ∀ us : List Tok, (q = true → us = ts) → st'.queue = st.queue ++ st.put us := by
        intro us hu
        rw [e8]
        by_cases hl : st.look = .none
        · have ha : st.atom = .atomic := by
            simp only [St.emits, hl, decide_true, Bool.true_and, decide_eq_true_eq, ne_eq, Decidable.not_not] at hE
            exact hE
          rw [hu (h3.1 ha)]
        · simp [St.put, hl]
      by_cases hn : st'.look = .negative
      · refine ⟨tr, ?_, t4.trans e2, t5.trans e3, e4.trans (hA (fun h => absurd hn h) (fun _ => hJ)), ⟨x, rfl, rfl⟩, t1.trans e6, t2.trans e7, ?_⟩
        · simp only [Pest.rule, hf, e1, Option.isSome, hT, emit]
          simp [hn, hE2]
        · rw [t3]; exact hp _ (fun h => by simp [h])
      · refine ⟨st', ?_, e2, e3, e4, ⟨x, rfl, rfl⟩, e6, e7, hp _ (fun h => by simp [h])⟩
        simp only [Pest.rule, hf, e1, Option.isSome, emit]
        simp [hn, hE']

/-- a rule that fails is on record, unless in an atomic rule or a negative lookahead -/
theorem rule_fails {r : Rule} {st st1 : St}
    (h : f (if st.emits then { st with queue := st.queue ++ [.start 0 st.pos] } else st) = some (false, st1))
    (hl : st1.look ≠ .negative) (ha : st1.atom ≠ .atomic) :
    ∃ st2, Pest.rule r f st = some (false, st2) ∧ st1.attemptPos ≤ st2.attemptPos ∧ st.pos ≤ st2.attemptPos ∧
      (st.pos = st2.attemptPos → st2.tried) := by
  generalize hT : st1.track r st.pos (if st.pos = st.attemptPos then st.posAttempts.length else 0)
    (if st.pos = st.attemptPos then st.negAttempts.length else 0)
    ((if st.emits then { st with queue := st.queue ++ [.start 0 st.pos] } else st).attemptsAt st.pos) = tr
  have h1 := track_pos st1 r st.pos (if st.pos = st.attemptPos then st.posAttempts.length else 0)
    (if st.pos = st.attemptPos then st.negAttempts.length else 0)
    ((if st.emits then { st with queue := st.queue ++ [.start 0 st.pos] } else st).attemptsAt st.pos)
  have h2 := track_tried st1 r st.pos (if st.pos = st.attemptPos then st.posAttempts.length else 0)
    (if st.pos = st.attemptPos then st.negAttempts.length else 0)
    ((if st.emits then { st with queue := st.queue ++ [.start 0 st.pos] } else st).attemptsAt st.pos)
  rw [hT] at h1 h2
  refine ⟨if tr.emits then { tr with queue := tr.queue.take st.queue.length } else tr, ?_, ?_⟩
  · simp only [Pest.rule, h, hl, ne_eq, not_false_eq_true, if_true, hT]
  · split
    · exact ⟨h1.1, h1.2.2 ha, fun e => h2.2 e ha⟩
    · exact ⟨h1.1, h1.2.2 ha, fun e => h2.2 e ha⟩

/-! ## texts -/

theorem does_str {w : Str} : Does J (matchString w) q p s ((stripPrefix w s).map fun s' => (p + blen w, s', [])) := by
  intro st h1 h2 h3
  cases h : stripPrefix w s with
  | none =>
    refine ⟨st, ?_, rfl, rfl, .rfl, h1, h2, rfl⟩
    simp [matchString, h2, h]
  | some s' =>
    refine ⟨{ st with pos := st.pos + blen w, rest := s' }, ?_, rfl, rfl, .moved, ⟨w, ?_, rfl⟩, ?_, rfl, ?_⟩
    · simp [matchString, h2, h]
    · exact stripPrefix_eq_some_iff.1 h
    · simp [h1]
    · simp [put_nil]

theorem does_insens {w : Str} :
    Does J (matchInsensitive w) q p s ((stripPrefixI w s).map fun s' => (p + blen w, s', [])) := by
  intro st h1 h2 h3
  cases h : stripPrefixI w s with
  | none =>
    refine ⟨st, ?_, rfl, rfl, .rfl, h1, h2, rfl⟩
    simp [matchInsensitive, h2, h]
  | some s' =>
    obtain ⟨x, hx, hl⟩ := stripPrefixI_eq_some_iff.1 h
    refine ⟨{ st with pos := st.pos + blen w, rest := s' }, ?_, rfl, rfl, .moved, ⟨x, hx, ?_⟩, ?_, rfl, ?_⟩
    · simp [matchInsensitive, h2, h]
    · rw [← blen_lower x, hl, blen_lower]
    · simp [h1]
    · simp [put_nil]

theorem does_range {lo hi : Char} (h : Sem (.range lo hi) q p s o) : Does J (matchRange lo hi) q p s o := by
  intro st h1 h2 h3
  cases h with
  | range_ok h =>
    refine ⟨{ st with pos := st.pos + _, rest := _ }, by simp only [matchRange, h2, if_pos h]; rfl, rfl, rfl, .moved,
      ⟨[_], rfl, ?_⟩, ?_, rfl, ?_⟩
    · simp
    · simp [h1]
    · simp [put_nil]
  | range_fail h => exact ⟨st, by simp only [matchRange, h2, if_neg h]; rfl, rfl, rfl, .rfl, h1, h2, rfl⟩
  | range_nil => exact ⟨st, by simp only [matchRange, h2]; rfl, rfl, rfl, .rfl, h1, h2, rfl⟩

theorem does_any (h : Sem .any q p s o) : Does J skipOne q p s o := by
  intro st h1 h2 h3
  cases h with
  | any_ok =>
    refine ⟨{ st with pos := st.pos + _, rest := _ }, by simp only [skipOne, h2]; rfl, rfl, rfl, .moved,
      ⟨[_], rfl, ?_⟩, ?_, rfl, ?_⟩
    · simp
    · simp [h1]
    · simp [put_nil]
  | any_nil => exact ⟨st, by simp only [skipOne, h2]; rfl, rfl, rfl, .rfl, h1, h2, rfl⟩

theorem does_soi (h : Sem .soi q p s o) : Does J startOfInput q p s o := by
  intro st h1 h2 h3
  cases h with
  | soi_ok => exact ⟨st, by simp [startOfInput, h1], rfl, rfl, .rfl, ⟨[], rfl, rfl⟩, h1, h2, by simp [put_nil]⟩
  | soi_fail h => exact ⟨st, by simp [startOfInput, h1, h], rfl, rfl, .rfl, h1, h2, rfl⟩

theorem does_eoi (h : Sem .eoi q p s o) : Does J endOfInput q p s o := by
  intro st h1 h2 h3
  cases h with
  | eoi_ok => exact ⟨st, by simp [endOfInput, h2], rfl, rfl, .rfl, ⟨[], rfl, rfl⟩, h1, h2, by simp [put_nil]⟩
  | eoi_fail => exact ⟨st, by simp [endOfInput, h2], rfl, rfl, .rfl, h1, h2, rfl⟩

theorem does_skip {ws : List Str} : Does J (skipUntil ws) q p s (some ((skipTo ws p s).1, (skipTo ws p s).2, [])) := by
  intro st h1 h2 h3
  have hs : ∀ (s : Str) (p : Nat), ∃ x, s = x ++ (skipTo ws p s).2 ∧ (skipTo ws p s).1 = p + blen x := by
    intro s
    induction s with
    | nil => intro p; exact ⟨[], rfl, rfl⟩
    | cons c s ih =>
      intro p
      simp only [skipTo]
      split
      · exact ⟨[], rfl, rfl⟩
      · obtain ⟨x, e1, e2⟩ := ih (p + c.utf8Size)
        exact ⟨c :: x, by rw [List.cons_append, ← e1], by rw [e2, blen_cons]; omega⟩
  exact ⟨_, rfl, rfl, rfl, .moved, hs s p, by simp [h1, h2], by simp [h1, h2], by simp [put_nil]⟩

theorem does_alt {a b : PExpr} (ha : ∀ o, Sem a q p s o → Does J f q p s o) (hb : ∀ o, Sem b q p s o → Does J f' q p s o)
    (h : Sem (.alt a b) q p s o) : Does J (orElse f f') q p s o := by
  cases h with
  | alt_left h => exact (ha _ h).orElse_some
  | alt_right h h' => exact (ha _ h).orElse_none (hb _ h')

theorem orElse_assoc (f g h : M) : orElse (orElse f g) h = orElse f (orElse g h) := by
  funext st
  simp only [orElse]
  cases f st with
  | none => rfl
  | some r => obtain ⟨b, st⟩ := r; cases b <;> rfl

theorem does_sem_str {w : Str} (h : Sem (.str w) q p s o) : Does J (matchString w) q p s o := by
  have := does_str (J := J) (q := q) (p := p) (s := s) (w := w)
  cases h with
  | str_ok h => rw [h] at this; exact this
  | str_fail h => rw [h] at this; exact this

theorem does_builtin {i : Str} {x : PExpr} (hb : builtin i = some x) (h : Sem x q p s o)
    (hJ : i = c!"EOI" → J .EOI o.isSome p s) : ∃ f, genBuiltin i = some f ∧ Does J f q p s o := by
  unfold builtin at hb
  unfold genBuiltin
  by_cases h1 : i = c!"ANY"
  · rw [if_pos h1] at hb ⊢; cases hb; exact ⟨_, rfl, does_any h⟩
  rw [if_neg h1] at hb ⊢
  by_cases h2 : i = c!"SOI"
  · rw [if_pos h2] at hb ⊢; cases hb; exact ⟨_, rfl, does_soi h⟩
  rw [if_neg h2] at hb ⊢
  by_cases h3 : i = c!"EOI"
  · rw [if_pos h3] at hb ⊢; cases hb
    refine ⟨_, rfl, ?_⟩
    cases h with
    | rule_ok h => exact (does_eoi h).rule (r := .EOI) (hJ h3)
    | rule_fail h => exact (does_eoi h).rule (r := .EOI) (hJ h3)
  rw [if_neg h3] at hb ⊢
  by_cases h4 : i = c!"NEWLINE"
  · rw [if_pos h4] at hb ⊢; cases hb
    refine ⟨_, rfl, ?_⟩
    rw [orElse_assoc]
    exact does_alt (fun _ => does_sem_str) (fun _ => does_alt (fun _ => does_sem_str) (fun _ => does_sem_str)) h
  rw [if_neg h4] at hb ⊢
  by_cases h5 : i = c!"ASCII_ALPHA"
  · rw [if_pos h5] at hb ⊢; cases hb
    exact ⟨_, rfl, does_alt (fun _ => does_range) (fun _ => does_range) h⟩
  rw [if_neg h5] at hb ⊢
  by_cases h6 : i = c!"ASCII_ALPHANUMERIC"
  · rw [if_pos h6] at hb ⊢; cases hb
    refine ⟨_, rfl, ?_⟩
    rw [orElse_assoc]
    exact does_alt (fun _ => does_range) (fun _ => does_alt (fun _ => does_range) (fun _ => does_range)) h
  rw [if_neg h6] at hb ⊢
  by_cases h7 : i = c!"ASCII_HEX_DIGIT"
  · rw [if_pos h7] at hb ⊢; cases hb
    refine ⟨_, rfl, ?_⟩
    rw [orElse_assoc]
    exact does_alt (fun _ => does_range) (fun _ => does_alt (fun _ => does_range) (fun _ => does_range)) h
  rw [if_neg h7] at hb
  cases hb

theorem genBuiltin_none {i : Str} (hb : builtin i = none) : genBuiltin i = none := by
  unfold builtin at hb
  unfold genBuiltin
  repeat' split at hb
  all_goals first | (cases hb; done) | skip
  next h1 h2 h3 h4 h5 h6 h7 => rw [if_neg h1, if_neg h2, if_neg h3, if_neg h4, if_neg h5, if_neg h6, if_neg h7]

/-! ## expressions -/

/-- only what is left after the optimiser -/
def Expr.core : Expr → Bool
  | .plus _ | .exact _ _ | .atLeast _ _ => false
  | .neg e | .opt e | .rep e => e.core
  | .seq a b | .choice a b => a.core && b.core
  | _ => true

variable {g : Grammar}

theorem foldl_none (l : List Expr) (h : Expr → M) : ∀ f, DoesL J f q p s none →
    DoesL J (l.foldl (fun f e => andThen f (h e)) f) q p s none := by
  induction l with
  | nil => intro f hf; exact hf
  | cons e l ih => intro f hf; exact ih _ hf.andThen_none

theorem foldl_some (l : List Expr) (h : Expr → M) {r : Nat × Str × List Tok} : ∀ f, Does J f q p s (some r) →
    Does J (l.foldl (fun f e => orElse f (h e)) f) q p s (some r) := by
  induction l with
  | nil => intro f hf; exact hf
  | cons e l ih => intro f hf; exact ih _ hf.orElse_some

theorem Does.andThen_none (h : Does J f q p s none) : Does J (Pest.andThen f f') q p s none := by
  intro st h1 h2 h3
  obtain ⟨st', e1, e2⟩ := h st h1 h2 h3
  refine ⟨st', ?_, e2⟩
  simp only [Pest.andThen, e1]; rfl

/-- the rule `r` matches at `p` in front of `s`, or not -/
def Matches (g : Grammar) (r : Rule) (b : Bool) (p : Nat) (s : Str) : Prop :=
  ∃ i q o, (ruleOf i = some r ∨ i = c!"EOI" ∧ r = .EOI) ∧ Runs g (.ident i) q p s o ∧ o.isSome = b

/-- the code for `e`, by itself and as the last part of a sequence or a choice -/
structure Codes (g : Grammar) (N n : Nat) (e : Expr) (q : Bool) (p : Nat) (s : Str) (o : Out) : Prop where
  alone : ∀ quiet, Does (Matches g) (gen g n quiet e) q p s o
  last : ∀ quiet p0 s0 t0 f, DoesL (Matches g) f q p0 s0 (some (p, s, t0)) →
    DoesL (Matches g) ((seqParts e).foldl (fun f e => andThen f (gen g n quiet e)) f) q p0 s0 (after t0 o)
  other : ∀ quiet f, Does (Matches g) f q p s none →
    Does (Matches g) ((choiceParts e).foldl (fun f e => orElse f (gen g n quiet e)) f) q p s o
  again : ∀ quiet e' k, e = .rep e' → N ≤ k → Does (Matches g) (repeat_ k (gen g n quiet e')) q p s o ∧
    Does (Matches g) (repeat_ k (sequence (gen g n quiet e'))) q p s o

/-- for the others -/
theorem Codes.mk' {N n : Nat} {e : Expr} (h1 : seqParts e = [e]) (h2 : choiceParts e = [e]) (h3 : ∀ e', e ≠ .rep e')
    (h : ∀ quiet, Does (Matches g) (gen g n quiet e) q p s o) : Codes g N n e q p s o where
  alone := h
  last quiet p0 s0 t0 f hf := by rw [h1]; exact hf.andThen (h quiet).loose
  other quiet f hf := by rw [h2]; exact hf.orElse_none (h quiet)
  again quiet e' k he := absurd he (h3 e')

theorem gen_rep_true {n : Nat} {e : Expr} : gen g (n + 1) true (.rep e) = repeat_ n (gen g n true e) := by
  rw [gen]; rfl

theorem gen_rep_false {n : Nat} {e : Expr} : gen g (n + 1) false (.rep e) =
    sequence (optional (andThen (gen g n false e) (repeat_ n (sequence (gen g n false e))))) := by
  rw [gen]; rfl

theorem runs_codes (hg : ∀ d ∈ g, d.expr.core = true) {e : Expr} {q : Bool} {p : Nat} {s : Str} {o : Out}
    (h : Runs g e q p s o) : e.core = true → ∃ N, ∀ n, N ≤ n → Codes g N n e q p s o := by
  have hr : ∀ {i d}, g.rule? i = some d → d.expr.core = true := fun h => hg _ (List.mem_of_find?_eq_some h)
  induction h with
  | @str_ok w q p s s' h =>
    intro _
    refine ⟨1, fun n hn => .mk' rfl rfl (by simp) fun quiet => ?_⟩
    obtain ⟨n, rfl⟩ : ∃ m, n = m + 1 := ⟨n - 1, by omega⟩
    have := does_str (J := Matches g) (q := q) (p := p) (s := s) (w := w)
    rw [h] at this; simp only [gen]; exact this
  | @str_fail w q p s h =>
    intro _
    refine ⟨1, fun n hn => .mk' rfl rfl (by simp) fun quiet => ?_⟩
    obtain ⟨n, rfl⟩ : ∃ m, n = m + 1 := ⟨n - 1, by omega⟩
    have := does_str (J := Matches g) (q := q) (p := p) (s := s) (w := w)
    rw [h] at this; simp only [gen]; exact this
  | @insens_ok w q p s s' h =>
    intro _
    refine ⟨1, fun n hn => .mk' rfl rfl (by simp) fun quiet => ?_⟩
    obtain ⟨n, rfl⟩ : ∃ m, n = m + 1 := ⟨n - 1, by omega⟩
    have := does_insens (J := Matches g) (q := q) (p := p) (s := s) (w := w)
    rw [h] at this; simp only [gen]; exact this
  | @insens_fail w q p s h =>
    intro _
    refine ⟨1, fun n hn => .mk' rfl rfl (by simp) fun quiet => ?_⟩
    obtain ⟨n, rfl⟩ : ∃ m, n = m + 1 := ⟨n - 1, by omega⟩
    have := does_insens (J := Matches g) (q := q) (p := p) (s := s) (w := w)
    rw [h] at this; simp only [gen]; exact this
  | builtin hb h =>
    intro _
    refine ⟨2, fun n hn => .mk' rfl rfl (by simp) fun quiet => ?_⟩
    obtain ⟨n, rfl⟩ : ∃ m, n = m + 2 := ⟨n - 2, by omega⟩
    obtain ⟨f, hf, h⟩ := does_builtin (J := Matches g) hb h
      fun e => ⟨_, _, _, .inr ⟨e, rfl⟩, .builtin hb h, rfl⟩
    simpa only [gen, genRule, hf] using h
  | silent hb hd hk h ih =>
    intro _
    obtain ⟨N, ih⟩ := ih (hr hd)
    refine ⟨N + 2, fun n hn => .mk' rfl rfl (by simp) fun quiet => ?_⟩
    obtain ⟨n, rfl⟩ : ∃ m, n = m + 2 := ⟨n - 2, by omega⟩
    simpa only [gen, genRule, genBuiltin_none hb, hd, hk] using (ih n (by omega)).alone false
  | @rule_ok i d x q p s p1 s1 t1 hb hd hk hx h ih =>
    intro _
    have hJ : Matches g x true p s := ⟨_, _, _, .inl hx, .rule_ok (q := q) hb hd hk hx h, rfl⟩
    obtain ⟨N, ih⟩ := ih (hr hd)
    refine ⟨N + 2, fun n hn => .mk' rfl rfl (by simp) fun quiet => ?_⟩
    obtain ⟨n, rfl⟩ : ∃ m, n = m + 2 := ⟨n - 2, by omega⟩
    simp only [gen, genRule, genBuiltin_none hb, hd]
    have ih := ih n (by omega)
    cases hK : d.kind with
    | silent => exact absurd hK hk
    | normal =>
      rw [hK] at ih
      simp only [hx, Option.bind_some]; exact (ih.alone false).rule (r := x) hJ
    | atomic =>
      rw [hK] at ih
      simp only [hx, Option.bind_some]; exact (Does.atomic (a := .atomic) (q := q) (ih.alone true)).rule (r := x) hJ
    | compound =>
      rw [hK] at ih
      simp only [hx, Option.bind_some]; exact Does.atomic (a := .compound) (q := q) ((ih.alone true).rule (r := x) hJ)
  | @rule_fail i d x q p s hb hd hk hx h ih =>
    intro _
    have hJ : Matches g x false p s := ⟨_, _, _, .inl hx, .rule_fail (q := q) hb hd hk hx h, rfl⟩
    obtain ⟨N, ih⟩ := ih (hr hd)
    refine ⟨N + 2, fun n hn => .mk' rfl rfl (by simp) fun quiet => ?_⟩
    obtain ⟨n, rfl⟩ : ∃ m, n = m + 2 := ⟨n - 2, by omega⟩
    simp only [gen, genRule, genBuiltin_none hb, hd]
    have ih := ih n (by omega)
    cases hK : d.kind with
    | silent => exact absurd hK hk
    | normal =>
      rw [hK] at ih
      simp only [hx, Option.bind_some]; exact (ih.alone false).rule (r := x) hJ
    | atomic =>
      rw [hK] at ih
      simp only [hx, Option.bind_some]; exact (Does.atomic (a := .atomic) (q := q) (ih.alone true)).rule (r := x) hJ
    | compound =>
      rw [hK] at ih
      simp only [hx, Option.bind_some]; exact Does.atomic (a := .compound) (q := q) ((ih.alone true).rule (r := x) hJ)
  | neg_ok h ih =>
    intro hc
    obtain ⟨N, ih⟩ := ih hc
    refine ⟨N + 1, fun n hn => .mk' rfl rfl (by simp) fun quiet => ?_⟩
    obtain ⟨n, rfl⟩ : ∃ m, n = m + 1 := ⟨n - 1, by omega⟩
    simp only [gen]; exact ((ih n (by omega)).alone quiet).neg
  | neg_fail h ih =>
    intro hc
    obtain ⟨N, ih⟩ := ih hc
    refine ⟨N + 1, fun n hn => .mk' rfl rfl (by simp) fun quiet => ?_⟩
    obtain ⟨n, rfl⟩ : ∃ m, n = m + 1 := ⟨n - 1, by omega⟩
    simp only [gen]; exact ((ih n (by omega)).alone quiet).neg
  | @seq_ok a b q p s p1 s1 t1 p2 s2 t2 h1 h2 ih1 ih2 =>
    intro hc
    simp only [Expr.core, Bool.and_eq_true] at hc
    obtain ⟨N1, ih1⟩ := ih1 hc.1
    obtain ⟨N2, ih2⟩ := ih2 hc.2
    have hl : ∀ n, N1 + N2 ≤ n → ∀ quiet, DoesL (Matches g) _ _ _ _ _ := fun n hn quiet =>
      (ih2 n (by omega)).last quiet _ _ _ _ ((ih1 n (by omega)).alone quiet).loose
    have hA : ∀ n, N1 + N2 + 1 ≤ n → ∀ quiet, Does (Matches g) (gen g n quiet (.seq a b)) q p s (some (p2, s2, t1 ++ t2)) := by
      intro n hn quiet
      obtain ⟨n, rfl⟩ : ∃ m, n = m + 1 := ⟨n - 1, by omega⟩
      simp only [gen]; exact (hl n (by omega) quiet).seq
    refine ⟨N1 + N2 + 1, fun n hn => ⟨hA n hn, ?_, ?_, ?_⟩⟩
    · intro quiet p0 s0 t0 f hf
      simp only [seqParts, List.foldl_cons]
      have := (ih2 n (by omega)).last quiet _ _ _ _ (hf.andThen ((ih1 n (by omega)).alone quiet).loose)
      simpa only [after, List.append_assoc] using this
    · intro quiet f hf; exact hf.orElse_none (hA n hn quiet)
    · intro _ _ _ h; cases h
  | @seq_fail1 a b q p s h1 ih1 =>
    intro hc
    simp only [Expr.core, Bool.and_eq_true] at hc
    obtain ⟨N1, ih1⟩ := ih1 hc.1
    have hA : ∀ n, N1 + 1 ≤ n → ∀ quiet, Does (Matches g) (gen g n quiet (.seq a b)) q p s none := by
      intro n hn quiet
      obtain ⟨n, rfl⟩ : ∃ m, n = m + 1 := ⟨n - 1, by omega⟩
      simpa only [gen] using (foldl_none _ _ _ ((ih1 n (by omega)).alone quiet).loose).seq
    refine ⟨N1 + 1, fun n hn => ⟨hA n hn, ?_, ?_, ?_⟩⟩
    · intro quiet p0 s0 t0 f hf
      simp only [seqParts, List.foldl_cons]
      exact foldl_none _ _ _ (hf.andThen ((ih1 n (by omega)).alone quiet).loose)
    · intro quiet f hf; exact hf.orElse_none (hA n hn quiet)
    · intro _ _ _ h; cases h
  | @seq_fail2 a b q p s p1 s1 t1 h1 h2 ih1 ih2 =>
    intro hc
    simp only [Expr.core, Bool.and_eq_true] at hc
    obtain ⟨N1, ih1⟩ := ih1 hc.1
    obtain ⟨N2, ih2⟩ := ih2 hc.2
    have hl : ∀ n, N1 + N2 ≤ n → ∀ quiet, DoesL (Matches g) _ _ _ _ _ := fun n hn quiet =>
      (ih2 n (by omega)).last quiet _ _ _ _ ((ih1 n (by omega)).alone quiet).loose
    have hA : ∀ n, N1 + N2 + 1 ≤ n → ∀ quiet, Does (Matches g) (gen g n quiet (.seq a b)) q p s none := by
      intro n hn quiet
      obtain ⟨n, rfl⟩ : ∃ m, n = m + 1 := ⟨n - 1, by omega⟩
      simp only [gen]; exact (hl n (by omega) quiet).seq
    refine ⟨N1 + N2 + 1, fun n hn => ⟨hA n hn, ?_, ?_, ?_⟩⟩
    · intro quiet p0 s0 t0 f hf
      simp only [seqParts, List.foldl_cons]
      exact (ih2 n (by omega)).last quiet _ _ (t0 ++ t1) _ (hf.andThen ((ih1 n (by omega)).alone quiet).loose)
    · intro quiet f hf; exact hf.orElse_none (hA n hn quiet)
    · intro _ _ _ h; cases h
  | @choice_left a b q p s r h1 ih1 =>
    intro hc
    simp only [Expr.core, Bool.and_eq_true] at hc
    obtain ⟨N1, ih1⟩ := ih1 hc.1
    have hA : ∀ n, N1 + 1 ≤ n → ∀ quiet, Does (Matches g) (gen g n quiet (.choice a b)) q p s (some r) := by
      intro n hn quiet
      obtain ⟨n, rfl⟩ : ∃ m, n = m + 1 := ⟨n - 1, by omega⟩
      simpa only [gen] using foldl_some _ _ _ ((ih1 n (by omega)).alone quiet)
    refine ⟨N1 + 1, fun n hn => ⟨hA n hn, ?_, ?_, ?_⟩⟩
    · intro quiet p0 s0 t0 f hf; exact hf.andThen (hA n hn quiet).loose
    · intro quiet f hf
      simp only [choiceParts, List.foldl_cons]
      exact foldl_some _ _ _ (hf.orElse_none ((ih1 n (by omega)).alone quiet))
    · intro _ _ _ h; cases h
  | @choice_right a b q p s o h1 h2 ih1 ih2 =>
    intro hc
    simp only [Expr.core, Bool.and_eq_true] at hc
    obtain ⟨N1, ih1⟩ := ih1 hc.1
    obtain ⟨N2, ih2⟩ := ih2 hc.2
    have hA : ∀ n, N1 + N2 + 1 ≤ n → ∀ quiet, Does (Matches g) (gen g n quiet (.choice a b)) q p s o := by
      intro n hn quiet
      obtain ⟨n, rfl⟩ : ∃ m, n = m + 1 := ⟨n - 1, by omega⟩
      simpa only [gen] using (ih2 n (by omega)).other quiet _ ((ih1 n (by omega)).alone quiet)
    refine ⟨N1 + N2 + 1, fun n hn => ⟨hA n hn, ?_, ?_, ?_⟩⟩
    · intro quiet p0 s0 t0 f hf; exact hf.andThen (hA n hn quiet).loose
    · intro quiet f hf
      simp only [choiceParts, List.foldl_cons]
      exact (ih2 n (by omega)).other quiet _ (hf.orElse_none ((ih1 n (by omega)).alone quiet))
    · intro _ _ _ h; cases h
  | opt_some h ih =>
    intro hc
    obtain ⟨N, ih⟩ := ih hc
    refine ⟨N + 1, fun n hn => .mk' rfl rfl (by simp) fun quiet => ?_⟩
    obtain ⟨n, rfl⟩ : ∃ m, n = m + 1 := ⟨n - 1, by omega⟩
    simpa only [gen] using ((ih n (by omega)).alone quiet).opt_some
  | opt_none h ih =>
    intro hc
    obtain ⟨N, ih⟩ := ih hc
    refine ⟨N + 1, fun n hn => .mk' rfl rfl (by simp) fun quiet => ?_⟩
    obtain ⟨n, rfl⟩ : ∃ m, n = m + 1 := ⟨n - 1, by omega⟩
    simpa only [gen] using ((ih n (by omega)).alone quiet).opt_none
  | @rep_nil e q p s h ih =>
    intro hc
    obtain ⟨N, ih⟩ := ih hc
    have hA : ∀ n, N + 2 ≤ n → ∀ quiet, Does (Matches g) (gen g n quiet (.rep e)) q p s (some (p, s, [])) := by
      intro n hn quiet
      obtain ⟨n, rfl⟩ : ∃ m, n = m + 2 := ⟨n - 2, by omega⟩
      have ih := (ih (n + 1) (by omega)).alone quiet
      cases quiet with
      | true => rw [gen_rep_true]; exact ih.repeat_nil n
      | false => rw [gen_rep_false]; exact (ih.andThen_none.opt_none).loose.seq
    refine ⟨N + 2, fun n hn => ⟨hA n hn, ?_, ?_, ?_⟩⟩
    · intro quiet p0 s0 t0 f hf; exact hf.andThen (hA n hn quiet).loose
    · intro quiet f hf; exact hf.orElse_none (hA n hn quiet)
    · intro quiet e' k he hk
      cases he
      obtain ⟨k, rfl⟩ : ∃ m, k = m + 1 := ⟨k - 1, by omega⟩
      have ih := (ih n (by omega)).alone quiet
      exact ⟨ih.repeat_nil k, ih.loose.seq.repeat_nil k⟩
  | @rep_cons e q p s p1 s1 t1 p2 s2 t2 h1 h2 ih1 ih2 =>
    intro hc
    obtain ⟨N1, ih1⟩ := ih1 hc
    obtain ⟨N2, ih2⟩ := ih2 hc
    have hD : ∀ n k quiet, N1 + N2 ≤ n → N2 ≤ k →
        Does (Matches g) (repeat_ (k + 1) (gen g n quiet e)) q p s (some (p2, s2, t1 ++ t2)) ∧
        Does (Matches g) (repeat_ (k + 1) (sequence (gen g n quiet e))) q p s (some (p2, s2, t1 ++ t2)) := fun n k quiet hn hk =>
      have i1 := (ih1 n (by omega)).alone quiet
      have i2 := (ih2 n (by omega)).again quiet _ k rfl hk
      ⟨i1.repeat_cons i2.1, i1.loose.seq.repeat_cons i2.2⟩
    have hR : ∀ n k quiet, N1 + N2 ≤ n → N2 ≤ k →
        Does (Matches g) (andThen (gen g n quiet e) (repeat_ k (sequence (gen g n quiet e)))) q p s (some (p2, s2, t1 ++ t2)) :=
      fun n k quiet hn hk =>
        (((ih1 n (by omega)).alone quiet).loose.andThen ((ih2 n (by omega)).again quiet _ k rfl hk).2.loose).strict
    have hA : ∀ n, N1 + N2 + 2 ≤ n → ∀ quiet, Does (Matches g) (gen g n quiet (.rep e)) q p s (some (p2, s2, t1 ++ t2)) := by
      intro n hn quiet
      obtain ⟨n, rfl⟩ : ∃ m, n = m + 2 := ⟨n - 2, by omega⟩
      cases quiet with
      | true => rw [gen_rep_true]; exact (hD (n + 1) n true (by omega) (by omega)).1
      | false => rw [gen_rep_false]; exact (hR (n + 1) (n + 1) false (by omega) (by omega)).opt_some.loose.seq
    refine ⟨N1 + N2 + 2, fun n hn => ⟨hA n hn, ?_, ?_, ?_⟩⟩
    · intro quiet p0 s0 t0 f hf; exact hf.andThen (hA n hn quiet).loose
    · intro quiet f hf; exact hf.orElse_none (hA n hn quiet)
    · intro quiet e' k he hk
      cases he
      obtain ⟨k, rfl⟩ : ∃ m, k = m + 1 := ⟨k - 1, by omega⟩
      exact hD n k quiet (by omega) (by omega)
  | plus => intro hc; cases hc
  | exact_zero => intro hc; cases hc
  | exact_succ => intro hc; cases hc
  | atLeast_zero => intro hc; cases hc
  | atLeast_succ => intro hc; cases hc
  | skip =>
    intro _
    refine ⟨1, fun n hn => .mk' rfl rfl (by simp) fun quiet => ?_⟩
    obtain ⟨n, rfl⟩ : ∃ m, n = m + 1 := ⟨n - 1, by omega⟩
    simpa only [gen] using does_skip

/-! ## more steps change nothing -/

/-- `f'` does what `f` does, if that is anything -/
def Le (f f' : M) : Prop := ∀ st r, f st = some r → f' st = some r

theorem Le.refl (f : M) : Le f f := fun _ _ h => h

theorem Le.none {f : M} : Le (fun _ => none) f := fun _ _ h => nomatch h

section
variable {f f' h h' : M}

theorem Le.andThen (a : Le f f') (b : Le h h') : Le (andThen f h) (andThen f' h') := by
  intro st r e
  simp only [Pest.andThen] at e ⊢
  cases hf : f st with
  | none => rw [hf] at e; cases e
  | some x => rw [hf] at e; rw [a _ _ hf]; obtain ⟨_ | _, y⟩ := x <;> first | exact e | exact b _ _ e

theorem Le.orElse (a : Le f f') (b : Le h h') : Le (orElse f h) (orElse f' h') := by
  intro st r e
  simp only [Pest.orElse] at e ⊢
  cases hf : f st with
  | none => rw [hf] at e; cases e
  | some x => rw [hf] at e; rw [a _ _ hf]; obtain ⟨_ | _, y⟩ := x <;> first | exact e | exact b _ _ e

theorem Le.seq (a : Le f f') : Le (sequence f) (sequence f') := by
  intro st r e
  simp only [sequence] at e ⊢
  cases hf : f st with
  | none => rw [hf] at e; cases e
  | some x => rw [hf] at e; rw [a _ _ hf]; exact e

theorem Le.opt (a : Le f f') : Le (optional f) (optional f') := by
  intro st r e
  simp only [optional] at e ⊢
  cases hf : f st with
  | none => rw [hf] at e; cases e
  | some x => rw [hf] at e; rw [a _ _ hf]; exact e

theorem Le.look {b : Bool} (a : Le f f') : Le (lookahead b f) (lookahead b f') := by
  intro st r e
  simp only [lookahead] at e ⊢
  cases hf : f { st with look := st.look.under b } with
  | none => rw [hf] at e; cases e
  | some x => rw [hf] at e; rw [a _ _ hf]; exact e

theorem Le.atomic {k : Atom} (a : Le f f') : Le (atomic k f) (atomic k f') := by
  intro st r e
  simp only [Pest.atomic] at e ⊢
  split at e
  · next hk =>
    rw [if_pos hk]
    cases hf : f { st with atom := k } with
    | none => rw [hf] at e; cases e
    | some x => rw [hf] at e; rw [a _ _ hf]; exact e
  · next hk => rw [if_neg hk]; exact a _ _ e

theorem Le.rule {x : Rule} (a : Le f f') : Le (rule x f) (rule x f') := by
  intro st r e
  simp only [Pest.rule] at e ⊢
  cases hf : f (if st.emits = true then { st with queue := st.queue ++ [.start 0 st.pos] } else st) with
  | none => rw [hf] at e; cases e
  | some x => rw [hf] at e; rw [a _ _ hf]; exact e

theorem Le.repeat (a : Le f f') : ∀ n, Le (repeat_ n f) (repeat_ (n + 1) f')
  | 0 => Le.none
  | n + 1 => by
    intro st r e
    simp only [repeat_] at e
    rw [repeat_]
    simp only []
    cases hf : f st with
    | none => rw [hf] at e; cases e
    | some x =>
      rw [hf] at e; rw [a _ _ hf]
      obtain ⟨_ | _, y⟩ := x
      · exact e
      · exact Le.repeat a n _ _ e

theorem Le.foldl {k : M → M → M} (hk : ∀ {f f' h h'}, Le f f' → Le h h' → Le (k f h) (k f' h')) {c c' : Expr → M}
    (hc : ∀ e, Le (c e) (c' e)) (l : List Expr) : ∀ f f', Le f f' →
    Le (l.foldl (fun f e => k f (c e)) f) (l.foldl (fun f e => k f (c' e)) f') := by
  induction l with
  | nil => intro f f' h; exact h
  | cons e l ih => intro f f' h; exact ih _ _ (hk h (hc e))

end

theorem gen_le (g : Grammar) : ∀ n, (∀ quiet e, Le (gen g n quiet e) (gen g (n + 1) quiet e)) ∧
    ∀ i, Le (genRule g n i) (genRule g (n + 1) i) := by
  intro n
  induction n with
  | zero =>
    constructor
    · intro quiet e; rw [gen]; exact Le.none
    · intro i; rw [genRule]; exact Le.none
  | succ n ih =>
    obtain ⟨ih1, ih2⟩ := ih
    constructor
    · intro quiet e
      cases e with
      | str w => simp only [gen]; exact Le.refl _
      | insens w => simp only [gen]; exact Le.refl _
      | ident i => rw [gen, gen]; exact ih2 i
      | neg e => rw [gen, gen]; exact (ih1 quiet e).look
      | seq a b => rw [gen, gen]; exact (Le.foldl Le.andThen (ih1 quiet) _ _ _ (ih1 quiet a)).seq
      | choice a b => rw [gen, gen]; exact Le.foldl Le.orElse (ih1 quiet) _ _ _ (ih1 quiet a)
      | opt e => rw [gen, gen]; exact (ih1 quiet e).opt
      | rep e =>
        cases quiet with
        | true => rw [gen_rep_true, gen_rep_true]; exact (ih1 true e).repeat n
        | false => rw [gen_rep_false, gen_rep_false]; exact ((ih1 false e).andThen ((ih1 false e).seq.repeat n)).opt.seq
      | plus e => simp only [gen]; exact Le.none
      | exact e k => simp only [gen]; exact Le.none
      | atLeast e k => simp only [gen]; exact Le.none
      | skip ws => simp only [gen]; exact Le.refl _
    · intro i
      rw [genRule, genRule]
      cases genBuiltin i with
      | some f => exact Le.refl _
      | none =>
        cases g.rule? i with
        | none => exact Le.none
        | some d =>
          cases hk : d.kind with
          | silent => simp only [hk]; exact ih1 false _
          | normal =>
            simp only [hk]
            cases ruleOf i with
            | none => exact Le.none
            | some r => exact (ih1 false _).rule
          | atomic =>
            simp only [hk]
            cases ruleOf i with
            | none => exact Le.none
            | some r => exact (ih1 true _).atomic.rule
          | compound =>
            simp only [hk]
            cases ruleOf i with
            | none => exact Le.none
            | some r => exact (ih1 true _).rule.atomic

theorem genRule_le (g : Grammar) (i : Str) {n m : Nat} (h : n ≤ m) : Le (genRule g n i) (genRule g m i) := by
  induction h with
  | refl => exact Le.refl _
  | step _ ih => exact fun st r e => (gen_le g _).2 i _ _ (ih _ _ e)

/-- enough steps are enough -/
theorem state_more {i : Str} {n m : Nat} {s : Str} {out : Outcome} (hn : n ≤ m) (h : state g i n s = some out) :
    state g i m s = some out := by
  unfold state at h ⊢
  cases hf : genRule g n i (St.init s) with
  | none => rw [hf] at h; cases h
  | some x => rw [hf] at h; rw [genRule_le g i hn _ _ hf]; exact h

/-! ## reading the pairs -/

theorem sliceBytes_mid (a b c : Str) : sliceBytes (a ++ (b ++ c)) (blen a) (blen a + blen b) = some b := by
  unfold sliceBytes
  rw [if_pos (Nat.le_add_right _ _), splitAtByte_append]
  simp only [Option.bind_some, Nat.add_sub_cancel_left, splitAtByte_append, Option.map_some]

theorem readPairs_flat {q : Nat} {x : Str} {ts : List Tok} (h : Forest q x ts) : ∀ (u v : Str) (pre post : List QTok) (n : Nat),
    q = blen u → (flat pre.length ts).length < n →
    readPairs (u ++ (x ++ v)) (pre ++ (flat pre.length ts ++ post)) n pre.length (pre.length + (flat pre.length ts).length) =
      some ts := by
  induction h with
  | nil =>
    intro u v pre post n _ hn
    obtain ⟨n, rfl⟩ : ∃ m, n = m + 1 := ⟨n - 1, by omega⟩
    simp [flat, readPairs]
  | @cons p r a b c ch ts h1 h2 ih1 ih2 =>
    intro u v pre post n hp hn
    obtain ⟨n, rfl⟩ : ∃ m, n = m + 1 := ⟨n - 1, by omega⟩
    obtain ⟨F, hF⟩ : ∃ F, F = flat (pre.length + 1) ch := ⟨_, rfl⟩
    have hT : flatTok pre.length (.node r (p + blen a) (p + blen a + blen b) b ch) =
        .start (pre.length + 1 + F.length) (p + blen a) :: (F ++ [.stop pre.length r (p + blen a + blen b)]) := by
      rw [flatTok, hF]
    obtain ⟨R, hR⟩ : ∃ R, R = flat (pre.length + (F.length + 2)) ts := ⟨_, rfl⟩
    have hl : flat pre.length (.node r (p + blen a) (p + blen a + blen b) b ch :: ts) =
        .start (pre.length + 1 + F.length) (p + blen a) :: (F ++ .stop pre.length r (p + blen a + blen b) :: R) := by
      rw [flat, hT, hR]
      simp
    have hlen : (flat pre.length (.node r (p + blen a) (p + blen a + blen b) b ch :: ts)).length = F.length + R.length + 2 := by
      rw [hl]; simp; omega
    rw [hlen] at hn ⊢
    rw [hl]
    have e1 : (pre ++ (.start (pre.length + 1 + F.length) (p + blen a) ::
        (F ++ .stop pre.length r (p + blen a + blen b) :: R) ++ post))[pre.length]? =
        some (.start (pre.length + 1 + F.length) (p + blen a)) := by simp
    have e2 : (pre ++ (.start (pre.length + 1 + F.length) (p + blen a) ::
        (F ++ .stop pre.length r (p + blen a + blen b) :: R) ++ post))[pre.length + 1 + F.length]? =
        some (.stop pre.length r (p + blen a + blen b)) := by
      rw [List.getElem?_append_right (by omega)]
      rw [show pre.length + 1 + F.length - pre.length = F.length + 1 by omega]
      simp
    have e3 : sliceBytes (u ++ (a ++ b ++ c ++ v)) (p + blen a) (p + blen a + blen b) = some b := by
      have := sliceBytes_mid (u ++ a) b (c ++ v)
      rw [hp, ← blen_append]
      simpa using this
    have e4 := ih1 (u ++ a) (c ++ v) (pre ++ [.start (pre.length + 1 + F.length) (p + blen a)])
      (.stop pre.length r (p + blen a + blen b) :: (R ++ post)) n (by rw [blen_append, hp]) (by
        simp only [List.length_append, List.length_cons, List.length_nil, ← hF]; omega)
    have e5 := ih2 (u ++ (a ++ b)) v (pre ++ (.start (pre.length + 1 + F.length) (p + blen a) ::
        (F ++ [.stop pre.length r (p + blen a + blen b)]))) post n (by simp only [blen_append, hp]; omega) (by
        simp only [List.length_append, List.length_cons, List.length_nil, Nat.zero_add, Nat.add_assoc, ← hR]; omega)
    simp only [List.length_append, List.length_cons, List.length_nil, Nat.zero_add, ← hF, Nat.add_assoc, ← hR] at e4 e5
    simp only [List.append_assoc, List.cons_append, List.nil_append, Nat.add_assoc] at e1 e2 e3 e4 e5 ⊢
    rw [readPairs, if_pos (by omega), e1]
    simp only [e2, e3]
    rw [show pre.length + (1 + F.length) + 1 = pre.length + (F.length + (1 + 1)) by omega,
      show pre.length + (F.length + (R.length + 2)) = pre.length + (F.length + (1 + (1 + R.length))) by omega]
    simp only [e4, e5]
    rfl

end Pest
end Verif
