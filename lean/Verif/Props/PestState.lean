import Verif.Proof.PestState
import Verif.Proof.JoinDoc
import Verif.Proof.Local
import Verif.Proof.Cost
import Verif.Props.PestText

/-!
# C61: the engine of pest computes what the model says
-/

namespace Verif
namespace Pest

open Spec

/-! ## the grammar as it is compiled -/

/-- the grammar that pest generates code for -/
def compiled : Grammar := grammar.optimize

theorem compiled_core : ∀ d ∈ compiled, d.expr.core = true := by
  have h : compiled.all (fun d => d.expr.core) = true := by decide +kernel
  exact List.all_eq_true.1 h

theorem compiled_sem {e : Expr} {x : PExpr} {m : Nat} (h : inline (grammar.passes [.rotate, .unroll]) m [] e = some x)
    {q : Bool} {p : Nat} {s : Str} {o : Out} : Runs compiled e q p s o ↔ Sem x q p s o := by
  rw [compiled, C58_list]
  exact (runs_passes (by decide)).trans ((runs_passes (by decide)).symm.trans (runs_iff_sem recOK_grammar h))

theorem compiled_file : compiled.rule? c!"dockerfile" = some ⟨c!"dockerfile", .normal,
    .seq (.ident c!"SOI") (.seq (.ident c!"meta_step")
      (.seq (.rep (.seq (.ident c!"NEWLINE") (.ident c!"meta_step"))) (.ident c!"EOI")))⟩ := by
  decide +kernel

theorem file_rule : ruleOf c!"dockerfile" = some .dockerfile := by decide +kernel

theorem file_builtin : genBuiltin c!"dockerfile" = none := by decide +kernel

/-- the code of `dockerfile` -/
theorem gen_file (n : Nat) : genRule compiled (n + 2) c!"dockerfile" = rule .dockerfile (sequence
    (andThen (andThen (andThen (gen compiled n false (.ident c!"SOI")) (gen compiled n false (.ident c!"meta_step")))
      (gen compiled n false (.rep (.seq (.ident c!"NEWLINE") (.ident c!"meta_step")))))
      (gen compiled n false (.ident c!"EOI")))) := by
  simp only [genRule, file_builtin, compiled_file, file_rule, Option.bind_some, gen, seqParts, List.foldl_cons, List.foldl_nil]

/-! ## what comes before the end -/

theorem runs_lines (s : Str) : ∃ p1 s1 t1 p2 s2 t2,
    Sem G.meta_step false 0 s (some (p1, s1, t1)) ∧
    Sem (.star (.seq G.NEWLINE G.meta_step)) false p1 s1 (some (p2, s2, t2)) := by
  obtain ⟨p1, s1, t1, h1⟩ := meta_step_some 0 s
  have h2 := parse_sem (e := .star (.seq G.NEWLINE G.meta_step)) (by decide +kernel) false p1 s1
  generalize parse (.star (.seq G.NEWLINE G.meta_step)) false p1 s1 = o at h2
  cases o with
  | none => exact absurd h2 Sem.star_ne_none
  | some r => exact ⟨p1, s1, t1, r.1, r.2.1, r.2.2, h1, h2⟩

/-- the rules on record do not match, or for the negative attempts do, where the record is -/
def Record (J : Rule → Bool → Nat → Str → Prop) (s : Str) (e : Nat) (pos neg : List Rule) : Prop :=
  ∃ a b, s = a ++ b ∧ e = blen a ∧ (∀ r ∈ pos, J r false e b) ∧ ∀ r ∈ neg, J r true e b

theorem Att.record {J : Rule → Bool → Nat → Str → Prop} {s : Str} {st : St} (h : Att J 0 s (St.init s) st) :
    Record J s st.attemptPos st.posAttempts st.negAttempts := by
  have hp := h.positive
  have hn := h.negative
  simp only [St.init, List.not_mem_nil, and_false, false_or, Nat.zero_add] at hp hn
  obtain ⟨a, b, e1, e2⟩ : ∃ a b, s = a ++ b ∧ st.attemptPos = blen a := by
    rcases h.place with e | ⟨a, b, e, e'⟩
    · exact ⟨[], s, Eq.refl _, e⟩
    · exact ⟨a, b, e, by rw [e', Nat.zero_add]⟩
  have key : ∀ a' b', s = a' ++ b' → st.attemptPos = blen a' → b' = b := by
    intro a' b' h1 h2
    have h3 := splitAtByte_append a b
    have h4 := splitAtByte_append a' b'
    rw [← e1, ← e2] at h3
    rw [← h1, ← h2, h3] at h4
    cases h4
    rfl
  refine ⟨a, b, e1, e2, fun r hr => ?_, fun r hr => ?_⟩
  · obtain ⟨a', b', h1, h2, h3⟩ := hp r hr
    rw [h2, ← key a' b' h1 h2]; exact h3
  · obtain ⟨a', b', h1, h2, h3⟩ := hn r hr
    rw [h2, ← key a' b' h1 h2]; exact h3

/-- a rule in which a sequence fails at the end of the input -/
theorem fails_end {J : Rule → Bool → Nat → Str → Prop} {f : M} {s s2 : Str} {p2 : Nat} {t : List Tok} {r : Rule}
    (h : DoesL J f false 0 s (some (p2, s2, t))) (hr : J r false 0 s) (hE : J .EOI false p2 s2) (hne : s2 ≠ []) : ∃ st, rule r (sequence (andThen f (rule .EOI endOfInput))) (St.init s) = some (false, st) ∧
      p2 ≤ st.attemptPos ∧ st.tried ∧ Record J s st.attemptPos st.posAttempts st.negAttempts := by
  obtain ⟨st0, h0⟩ : ∃ st0, st0 = (if (St.init s).emits then
    { St.init s with queue := (St.init s).queue ++ [.start 0 (St.init s).pos] } else St.init s) := ⟨_, rfl⟩
  have k1 : st0.pos = 0 := by rw [h0]; split <;> rfl
  have k2 : st0.rest = s := by rw [h0]; split <;> rfl
  have k3 : st0.atom = .nonAtomic := by rw [h0]; split <;> rfl
  have k4 : st0.look = .none := by rw [h0]; split <;> rfl
  have k5 : st0.attemptPos = 0 := by rw [h0]; split <;> rfl
  obtain ⟨st1, e1, e2, e3, e4, -, e6, e7, -⟩ := h st0 k1 k2 (by rw [k3]; decide)
  -- the end of the input
  obtain ⟨st1', g0⟩ : ∃ st1', st1' = (if st1.emits then { st1 with queue := st1.queue ++ [.start 0 st1.pos] } else st1) := ⟨_, rfl⟩
  have g1 : endOfInput st1' = some (false, st1') := by
    have : st1'.rest = s2 := by rw [g0, ← e7]; split <;> rfl
    simp [endOfInput, this, hne]
  have g2 : st1'.look = .none := by
    have : st1'.look = st1.look := by rw [g0]; split <;> rfl
    rw [this, e2, k4]
  have g3 : st1'.atom = .nonAtomic := by
    have : st1'.atom = st1.atom := by rw [g0]; split <;> rfl
    rw [this, e3, k3]
  obtain ⟨st2, f1, f2, f3, -⟩ := rule_fails (r := .EOI) (by rw [← g0]; exact g1) (by rw [g2]; decide) (by rw [g3]; decide)
  have hS : Does J (sequence (andThen f (rule .EOI endOfInput))) false 0 s none := by
    refine (h.andThen (o := none) ?_).seq
    have : Does J endOfInput false p2 s2 none := by
      cases s2 with
      | nil => exact absurd rfl hne
      | cons c s2 => exact does_eoi .eoi_fail
    exact (this.rule hE).loose
  have hs : sequence (andThen f (rule .EOI endOfInput)) st0 =
      some (false, { st2 with pos := st0.pos, rest := st0.rest, queue := st2.queue.take st0.queue.length }) := by
    simp only [sequence, andThen, e1, Option.isSome, f1]
  obtain ⟨st3, s1, s3, s4, -⟩ := hS st0 k1 k2 (by rw [k3]; decide)
  rw [hs] at s1
  cases s1
  obtain ⟨st4, u1, u2, u3, u4⟩ := rule_fails (r := r) (st := St.init s) (by rw [← h0]; exact hs)
    (by rw [s3, k4]; decide) (by rw [s4, k3]; decide)
  obtain ⟨st5, v1, -, -, v2, -⟩ := (hS.rule (r := r) hr) (St.init s) rfl rfl (by simp [St.init])
  have : st5 = st4 := by rw [u1] at v1; cases v1; rfl
  subst this
  refine ⟨st5, u1, ?_, ?_, ?_⟩
  · rw [e6] at f3; exact Nat.le_trans f3 u2
  · by_cases e : st5.attemptPos = 0
    · exact u4 e.symm
    · exact v2.new e
  · exact v2.record

/-- the code of `dockerfile` reaches `EOI`, and the attempt there is on record -/
theorem file_end {s : Str} {p1 p2 : Nat} {s1 s2 : Str} {t1 t2 : List Tok}
    (h1 : Sem G.meta_step false 0 s (some (p1, s1, t1)))
    (h2 : Sem (.star (.seq G.NEWLINE G.meta_step)) false p1 s1 (some (p2, s2, t2))) (hne : s2 ≠ []) :
    ∃ N, ∀ n, N ≤ n → ∃ st, genRule compiled n c!"dockerfile" (St.init s) = some (false, st) ∧ p2 ≤ st.attemptPos ∧
      st.tried ∧ Record (Matches compiled) s st.attemptPos st.posAttempts st.negAttempts := by
  have r0 : Runs compiled (.ident c!"SOI") false 0 s (some (0, s, [])) :=
    .builtin (x := .soi) (by decide +kernel) .soi_ok
  have r1 : Runs compiled (.ident c!"meta_step") false 0 s (some (p1, s1, t1)) :=
    (compiled_sem (m := 1000) (x := G.meta_step) (by decide +kernel)).2 h1
  have r2 : Runs compiled (.rep (.seq (.ident c!"NEWLINE") (.ident c!"meta_step"))) false p1 s1 (some (p2, s2, t2)) :=
    (compiled_sem (m := 1000) (x := .star (.seq G.NEWLINE G.meta_step)) (by decide +kernel)).2 h2
  obtain ⟨N0, c0⟩ := runs_codes compiled_core r0 (by decide +kernel)
  obtain ⟨N1, c1⟩ := runs_codes compiled_core r1 (by decide +kernel)
  obtain ⟨N2, c2⟩ := runs_codes compiled_core r2 (by decide +kernel)
  refine ⟨N0 + N1 + N2 + 4, fun n hn => ?_⟩
  obtain ⟨n, rfl⟩ : ∃ m, n = m + 4 := ⟨n - 4, by omega⟩
  rw [gen_file]
  have hA := ((((c0 (n + 2) (by omega)).alone false).loose.andThen ((c1 (n + 2) (by omega)).alone false).loose).andThen
    ((c2 (n + 2) (by omega)).alone false).loose)
  generalize hf : andThen (andThen (gen compiled (n + 2) false (.ident c!"SOI")) (gen compiled (n + 2) false (.ident c!"meta_step")))
      (gen compiled (n + 2) false (.rep (.seq (.ident c!"NEWLINE") (.ident c!"meta_step")))) = f at hA
  have hE : gen compiled (n + 2) false (.ident c!"EOI") = rule .EOI endOfInput := by
    have : genBuiltin c!"EOI" = some (rule .EOI endOfInput) := rfl
    simp only [gen, genRule, this]
  rw [hE]
  refine fails_end hA ?_ ?_ hne
  · have : parse G.dockerfile false 0 s = none := by
      refine (parse_eq_iff safe_dockerfile).2 (.rule_fail (.seq_fail2 .soi_ok (.seq_fail2 h1 (.seq_fail2 h2 (.rule_fail ?_)))))
      cases s2 with
      | nil => exact absurd rfl hne
      | cons c s2 => exact .eoi_fail
    exact ⟨c!"dockerfile", false, none, .inl file_rule, (C58_optimized s _).2 this, rfl⟩
  · cases s2 with
    | nil => exact absurd rfl hne
    | cons c s2 =>
      exact ⟨c!"EOI", false, none, .inr ⟨rfl, rfl⟩, .builtin (x := G.EOI) (by decide +kernel) (.rule_fail .eoi_fail), rfl⟩

/-! ## where it stops -/

/-- no line fits at the beginning of `z` -/
def NoLine (z : Str) : Prop := ∀ (l : Src.Line) r, z = l.text ++ r → AtEnd r → ¬ l.Fits r

theorem lines_stop {p2 p : Nat} {s1 s2 x1 : Str} {t1 t2 : List Tok} (hne : s2 ≠ [])
    (h2 : SemX (.star (.seq G.NEWLINE G.meta_step)) false p2 s1 s2 t2) (h1 : SemX G.meta_step false p x1 (s1 ++ s2) t1) :
    ∃ ps y, x1 ++ s1 = Src.preText ps ++ y ∧ Src.PreFits ps (y ++ s2) ∧ NoLine (y ++ s2) := by
  have key : ∀ {p2 s1 t2}, SemX (.star (.seq G.NEWLINE G.meta_step)) false p2 s1 s2 t2 →
      ∀ {p x1 t1}, SemX G.meta_step false p x1 (s1 ++ s2) t1 →
        ∃ ps y, x1 ++ s1 = Src.preText ps ++ y ∧ Src.PreFits ps (y ++ s2) ∧ NoLine (y ++ s2) := by
    intro p2 s1 t2 h
    refine semX_star_induction (s' := s2)
      (P := fun p2 s1 t2 => ∀ {p x1 t1}, SemX G.meta_step false p x1 (s1 ++ s2) t1 →
        ∃ ps y, x1 ++ s1 = Src.preText ps ++ y ∧ Src.PreFits ps (y ++ s2) ∧ NoLine (y ++ s2)) ?_ ?_ h
    · intro p2 hn p x1 t1 h1
      refine ⟨[], x1, by simp [Src.preText], trivial, ?_⟩
      intro l r e hr hl
      obtain ⟨ts, h3, -⟩ := Src.line_reads (unq := fun w => .ok w) hl p hr
      unfold SemX at h1 h3
      rw [← e] at h3
      have := h1.det h3
      simp only [List.nil_append, Option.some.injEq, Prod.mk.injEq] at this
      obtain ⟨-, rfl, -⟩ := this
      rcases sem_seq_none.1 hn with h | ⟨p3, s3, _, -, h⟩
      · have := lex_NEWLINE.none_iff.1 h
        cases s2 with
        | nil => exact hne rfl
        | cons c b => rcases hr c b rfl with rfl | rfl <;> unfold afterBreak at this <;> split at this <;> simp_all
      · obtain ⟨_, _, _, h'⟩ := meta_step_some p3 s3
        cases h.det h'
    · intro p2 y1 y2 u1 u2 g1 g2 ih p x1 t1 h1
      obtain ⟨n, y3, u3, u4, rfl, rfl, g3, g4⟩ := semX_seq.1 g1
      obtain ⟨hn, rfl⟩ := semX_newline g3
      obtain ⟨ps, y, e, hf, hz⟩ := ih g4
      rw [← List.append_assoc] at hn
      have e2 : y3 ++ y2 ++ s2 = Src.preText ps ++ (y ++ s2) := by rw [e, List.append_assoc]
      have e3 : n ++ y3 ++ y2 ++ s2 = n ++ (Src.preText ps ++ (y ++ s2)) := by rw [← e2]; simp
      rw [e2] at hn
      rw [e3] at h1
      obtain ⟨l, rfl, hl⟩ := Src.line_inv (AtEnd.break hn) h1
      exact ⟨(l, n) :: ps, y, by simp [Src.preText, ← e], ⟨hl, hn, hf⟩, hz⟩
  exact key h2 h1

theorem line_same {l l' : Src.Line} {r r' : Str} (h : l.Fits r) (hr : AtEnd r) (h' : l'.Fits r') (hr' : AtEnd r')
    (e : l.text ++ r = l'.text ++ r') : l.text = l'.text ∧ r = r' := by
  obtain ⟨_, a, -⟩ := Src.line_reads (unq := fun w => .ok w) h 0 hr
  obtain ⟨_, b, -⟩ := Src.line_reads (unq := fun w => .ok w) h' 0 hr'
  unfold SemX at a b
  rw [e] at a
  have := a.det b
  simp only [Option.some.injEq, Prod.mk.injEq] at this
  obtain ⟨-, rfl, -⟩ := this
  exact ⟨List.append_cancel_right e, rfl⟩

theorem break_same {n n' r r' : Str} (h : LineBreak n r) (h' : LineBreak n' r') (e : n ++ r = n' ++ r') : n = n' ∧ r = r' := by
  have h1 := (lineBreak_iff.1 h).2
  have h2 := (lineBreak_iff.1 h').2
  rw [e, h2] at h1
  cases h1
  exact ⟨List.append_cancel_right e, rfl⟩

/-- there is one such place at most -/
theorem pre_same (ps : List (Src.Line × Str)) : ∀ (ps' : List (Src.Line × Str)) (z z' : Str), Src.PreFits ps z →
    Src.PreFits ps' z' → NoLine z → NoLine z' → Src.preText ps ++ z = Src.preText ps' ++ z' → z = z' := by
  induction ps with
  | nil =>
    intro ps' z z' _ hf hn _ e
    cases ps' with
    | nil => exact e
    | cons b ps' =>
      obtain ⟨l, n⟩ := b
      refine absurd hf.1 (hn l _ ?_ (AtEnd.break hf.2.1))
      rw [← List.nil_append z]
      exact e.trans (by simp [Src.preText])
  | cons a ps ih =>
    obtain ⟨l, n⟩ := a
    intro ps' z z' hf hf' hn hn' e
    cases ps' with
    | nil =>
      refine absurd hf.1 (hn' l _ ?_ (AtEnd.break hf.2.1))
      rw [← List.nil_append z']
      exact e.symm.trans (by simp [Src.preText])
    | cons b ps' =>
      obtain ⟨l', n'⟩ := b
      have e1 : l.text ++ (n ++ (Src.preText ps ++ z)) = l'.text ++ (n' ++ (Src.preText ps' ++ z')) := by
        simpa [Src.preText] using e
      obtain ⟨-, e2⟩ := line_same hf.1 (AtEnd.break hf.2.1) hf'.1 (AtEnd.break hf'.2.1) e1
      obtain ⟨-, e3⟩ := break_same hf.2.1 hf'.2.1 e2
      exact ih ps' z z' hf.2.2 hf'.2.2 hn hn' e3

/-! ## C61 -/

/-- **C61.** pest's engine, running the code that is generated for the grammar, comes to an end without
a panic, and however many steps it is allowed beyond that makes no difference. The pairs it returns
are those of the model; where the model has none, it reports an error, with at least one rule, at a
position that is a character boundary of the text. -/
theorem C61_engine (s : Str) : ∃ N out, (∀ n, N ≤ n → state compiled c!"dockerfile" n s = some out) ∧
    match parse G.dockerfile false 0 s with
    | some (_, _, ts) => out = .pairs ts
    | none => ∃ e pos neg, out = .error e pos neg ∧ (pos ≠ [] ∨ neg ≠ []) ∧ ∃ a b, s = a ++ b ∧ e = blen a := by
  obtain ⟨p1, s1, t1, p2, s2, t2, h1, h2⟩ := runs_lines s
  have h0 := parse_sem safe_dockerfile false 0 s
  cases hp : parse G.dockerfile false 0 s with
  | some r =>
    obtain ⟨p', s', ts⟩ := r
    have hr := (C58_optimized s _).2 hp
    obtain ⟨N, hc⟩ := runs_codes compiled_core hr rfl
    have hN := (hc (N + 1) (by omega)).alone false
    rw [gen] at hN
    obtain ⟨st, e1, -, -, -, ⟨x, rfl, rfl⟩, -, -, e5⟩ := hN (St.init s) rfl rfl (by simp [St.init])
    rw [hp] at h0
    obtain ⟨y, e6, e7, hF⟩ := h0.forest _ _ _ rfl
    obtain rfl := List.append_cancel_right e6
    have e5 : st.queue = flat 0 ts := by rw [e5]; simp [St.init, St.put]
    have hR := readPairs_flat hF [] s' [] [] ((flat 0 ts).length + 1) rfl (Nat.lt_succ_self _)
    simp only [List.nil_append, List.append_nil, List.length_nil, Nat.zero_add] at hR
    refine ⟨N, .pairs ts, fun n hn => state_more hn ?_, rfl⟩
    simp only [state, e1, Option.isSome, e5, hR, Option.map_some]
  | none =>
    by_cases hne : s2 = []
    · -- the end of the input was reached
      subst hne
      have : Sem G.dockerfile false 0 s (some (_, _, _)) :=
        .rule_ok (.seq_ok .soi_ok (.seq_ok h1 (.seq_ok h2 (.rule_ok .eoi_ok))))
      rw [hp] at h0
      cases h0.det this
    · obtain ⟨N, hN⟩ := file_end h1 h2 hne
      obtain ⟨st, e1, -, e2, a, b, e3, e4, -⟩ := hN N (Nat.le_refl _)
      refine ⟨N, .error st.attemptPos st.posAttempts st.negAttempts, fun n hn => state_more hn ?_, _, _, _, rfl, e2, a, b, e3, e4⟩
      simp only [state, e1, e4]
      rw [e3, splitAtByte_append]
      rfl

/-- what the engine reports, with enough steps -/
def Reports (s : Str) (out : Outcome) : Prop := ∃ N, ∀ n, N ≤ n → state compiled c!"dockerfile" n s = some out

theorem Reports.det {s : Str} {o o' : Outcome} (h : Reports s o) (h' : Reports s o') : o = o' := by
  obtain ⟨N, h⟩ := h
  obtain ⟨N', h'⟩ := h'
  have := (h (N + N') (by omega)).symm.trans (h' (N + N') (by omega))
  cases this; rfl

theorem Reports.of {s : Str} {o : Outcome} {n : Nat} (h : state compiled c!"dockerfile" n s = some o) : Reports s o :=
  ⟨n, fun _ hm => state_more hm h⟩

/-- the report of a failure -/
theorem reports_end {s : Str} {p1 p2 : Nat} {s1 s2 : Str} {t1 t2 : List Tok}
    (h1 : Sem G.meta_step false 0 s (some (p1, s1, t1)))
    (h2 : Sem (.star (.seq G.NEWLINE G.meta_step)) false p1 s1 (some (p2, s2, t2))) (hne : s2 ≠ []) :
    ∃ e pos neg, Reports s (.error e pos neg) ∧ p2 ≤ e ∧ Record (Matches compiled) s e pos neg := by
  obtain ⟨N, hN⟩ := file_end h1 h2 hne
  obtain ⟨st, e1, e2, -, hr⟩ := hN N (Nat.le_refl _)
  refine ⟨_, _, _, .of (n := N) ?_, e2, hr⟩
  obtain ⟨a, b, e3, e4, -⟩ := hr
  simp only [state, e1, e4]
  rw [e3, splitAtByte_append]
  rfl

theorem error_record {s : Str} {e : Nat} {pos neg : List Rule} (h : Reports s (.error e pos neg)) :
    Record (Matches compiled) s e pos neg := by
  obtain ⟨p1, s1, t1, p2, s2, t2, h1, h2⟩ := runs_lines s
  have hne : s2 ≠ [] := by
    rintro rfl
    have : Sem G.dockerfile false 0 s (some (_, _, _)) :=
      .rule_ok (.seq_ok .soi_ok (.seq_ok h1 (.seq_ok h2 (.rule_ok .eoi_ok))))
    obtain ⟨N', out, hN', ho⟩ := C61_engine s
    obtain rfl : Outcome.error e pos neg = out := h.det ⟨N', hN'⟩
    rw [(parse_eq_iff safe_dockerfile).2 this] at ho
    cases ho
  obtain ⟨e', pos', neg', hr, -, hR⟩ := reports_end h1 h2 hne
  cases h.det hr
  exact hR

theorem error_position {s : Str} {e : Nat} {pos neg : List Rule} (h : Reports s (.error e pos neg)) :
    ∃ ps z, s = Src.preText ps ++ z ∧ Src.PreFits ps z ∧ NoLine z ∧ blen (Src.preText ps) ≤ e ∧ e ≤ blen s := by
  obtain ⟨p1, s1, t1, p2, s2, t2, h1, h2⟩ := runs_lines s
  obtain ⟨N', out, hN', ho⟩ := C61_engine s
  obtain rfl : Outcome.error e pos neg = out := h.det ⟨N', hN'⟩
  obtain ⟨x1, rfl, rfl, h1'⟩ := h1.x
  obtain ⟨x2, rfl, rfl, h2'⟩ := h2.x
  have hb : e ≤ blen (x1 ++ (x2 ++ s2)) := by
    split at ho
    · cases ho
    · obtain ⟨_, _, _, ho, -, a, b, e1, e2⟩ := ho
      cases ho
      rw [e1, e2, blen_append]; omega
  have hne : s2 ≠ [] := by
    rintro rfl
    have : Sem G.dockerfile false 0 (x1 ++ (x2 ++ [])) (some (_, _, _)) :=
      .rule_ok (.seq_ok .soi_ok (.seq_ok h1 (.seq_ok h2 (.rule_ok .eoi_ok))))
    rw [(parse_eq_iff safe_dockerfile).2 this] at ho
    cases ho
  obtain ⟨e', pos', neg', hr, e2, -⟩ := reports_end h1 h2 hne
  cases h.det hr
  obtain ⟨ps, y, f1, f2, f3⟩ := lines_stop hne h2' h1'
  refine ⟨ps, y ++ s2, by rw [← List.append_assoc, f1, List.append_assoc], f2, f3, ?_, hb⟩
  have := congrArg blen f1
  simp only [blen_append] at this
  omega

/-- **C61.** The position of the error: there is one place in the text up to which all lines are well
formed and at which there is no well formed line, and the error is reported there or further on. -/
theorem C61_position {s : Str} {e : Nat} {pos neg : List Rule} (h : Reports s (.error e pos neg)) :
    (∃ ps z, s = Src.preText ps ++ z ∧ Src.PreFits ps z ∧ NoLine z) ∧
    ∀ ps z, s = Src.preText ps ++ z → Src.PreFits ps z → NoLine z → blen (Src.preText ps) ≤ e ∧ e ≤ blen s := by
  obtain ⟨ps, z, e1, e2, e3, e4, e5⟩ := error_position h
  refine ⟨⟨ps, z, e1, e2, e3⟩, fun ps' z' f1 f2 f3 => ⟨?_, e5⟩⟩
  obtain rfl := pre_same ps ps' z z' e2 f2 e3 f3 (e1.symm.trans f1)
  obtain h := List.append_cancel_right (e1.symm.trans f1)
  rw [← h]; exact e4

/-- whether a rule is atomic makes no difference for what is matched -/
theorem Runs.requiet {g : Grammar} {e q p s o} (h : Runs g e q p s o) (q' : Bool) :
    ∃ o', Runs g e q' p s o' ∧ Out.shape o' = Out.shape o := by
  induction h generalizing q' with
  | str_ok h => exact ⟨_, .str_ok h, rfl⟩
  | str_fail h => exact ⟨_, .str_fail h, rfl⟩
  | insens_ok h => exact ⟨_, .insens_ok h, rfl⟩
  | insens_fail h => exact ⟨_, .insens_fail h, rfl⟩
  | builtin hb h =>
    obtain ⟨m, h⟩ := h.semM
    obtain ⟨o, h, e⟩ := h.requiet q'
    exact ⟨o, .builtin hb h.sem, e⟩
  | silent hb hd hk _ ih =>
    obtain ⟨o, h, e⟩ := ih q'
    exact ⟨o, .silent hb hd hk h, e⟩
  | @rule_ok i r x q p s p1 s1 t1 hb hd hk hx _ ih =>
    obtain ⟨_ | ⟨a, b, c⟩, h1, e1⟩ := ih (innerQuiet r.kind q') <;> cases e1
    exact ⟨_, .rule_ok hb hd hk hx h1, rfl⟩
  | @rule_fail i r x q p s hb hd hk hx _ ih =>
    obtain ⟨_ | ⟨a, b, c⟩, h1, e1⟩ := ih (innerQuiet r.kind q') <;> cases e1
    exact ⟨_, .rule_fail hb hd hk hx h1, rfl⟩
  | neg_ok _ ih1 =>
    obtain ⟨_ | ⟨a, b, c⟩, h1, e1⟩ := ih1 q' <;> cases e1
    exact ⟨_, .neg_ok h1, rfl⟩
  | neg_fail _ ih1 =>
    obtain ⟨_ | ⟨a, b, c⟩, h1, e1⟩ := ih1 q' <;> cases e1
    exact ⟨_, .neg_fail h1, rfl⟩
  | seq_ok _ _ ih1 ih2 =>
    obtain ⟨_ | ⟨a, b, c⟩, h1, e1⟩ := ih1 q' <;> cases e1
    obtain ⟨_ | ⟨a, b, c⟩, h2, e2⟩ := ih2 q' <;> cases e2
    exact ⟨_, .seq_ok h1 h2, rfl⟩
  | seq_fail1 _ ih1 =>
    obtain ⟨_ | ⟨a, b, c⟩, h1, e1⟩ := ih1 q' <;> cases e1
    exact ⟨_, .seq_fail1 h1, rfl⟩
  | seq_fail2 _ _ ih1 ih2 =>
    obtain ⟨_ | ⟨a, b, c⟩, h1, e1⟩ := ih1 q' <;> cases e1
    obtain ⟨_ | ⟨a, b, c⟩, h2, e2⟩ := ih2 q' <;> cases e2
    exact ⟨_, .seq_fail2 h1 h2, rfl⟩
  | choice_left _ ih1 =>
    obtain ⟨_ | ⟨a, b, c⟩, h1, e1⟩ := ih1 q' <;> cases e1
    exact ⟨_, .choice_left h1, rfl⟩
  | choice_right _ _ ih1 ih2 =>
    obtain ⟨_ | ⟨a, b, c⟩, h1, e1⟩ := ih1 q' <;> cases e1
    obtain ⟨o, h2, e2⟩ := ih2 q'
    exact ⟨o, .choice_right h1 h2, e2⟩
  | opt_some _ ih1 =>
    obtain ⟨_ | ⟨a, b, c⟩, h1, e1⟩ := ih1 q' <;> cases e1
    exact ⟨_, .opt_some h1, rfl⟩
  | opt_none _ ih1 =>
    obtain ⟨_ | ⟨a, b, c⟩, h1, e1⟩ := ih1 q' <;> cases e1
    exact ⟨_, .opt_none h1, rfl⟩
  | rep_nil _ ih1 =>
    obtain ⟨_ | ⟨a, b, c⟩, h1, e1⟩ := ih1 q' <;> cases e1
    exact ⟨_, .rep_nil h1, rfl⟩
  | rep_cons _ _ ih1 ih2 =>
    obtain ⟨_ | ⟨a, b, c⟩, h1, e1⟩ := ih1 q' <;> cases e1
    obtain ⟨_ | ⟨a, b, c⟩, h2, e2⟩ := ih2 q' <;> cases e2
    exact ⟨_, .rep_cons h1 h2, rfl⟩
  | plus _ ih => obtain ⟨o, h, e⟩ := ih q'; exact ⟨o, .plus h, e⟩
  | exact_zero => exact ⟨_, .exact_zero, rfl⟩
  | exact_succ _ ih => obtain ⟨o, h, e⟩ := ih q'; exact ⟨o, .exact_succ h, e⟩
  | atLeast_zero _ ih => obtain ⟨o, h, e⟩ := ih q'; exact ⟨o, .atLeast_zero h, e⟩
  | atLeast_succ _ ih => obtain ⟨o, h, e⟩ := ih q'; exact ⟨o, .atLeast_succ h, e⟩
  | skip => exact ⟨_, .skip, rfl⟩

theorem Matches.read {r : Rule} {b : Bool} {p : Nat} {s : Str} (h : Matches compiled r b p s) :
    ∃ i, (ruleOf i = some r ∨ i = c!"EOI" ∧ r = .EOI) ∧ ∀ q, ∃ o, Runs grammar (.ident i) q p s o ∧ o.isSome = b := by
  obtain ⟨i, q, o, hi, h, e⟩ := h
  refine ⟨i, hi, fun q' => ?_⟩
  rw [compiled, C58_list] at h
  obtain ⟨o', h, e'⟩ := ((runs_passes (by decide)).1 h).requiet q'
  refine ⟨o', h, ?_⟩
  rw [← e]
  cases o <;> cases o' <;> first | rfl | cases e'

/-- **C61.** The rules of the report: those that are said to be expected do not match at the position of
the error, those that are said to be unexpected do (in the grammar as it is written, inside or outside
of an atomic rule). -/
theorem C61_expected {s : Str} {e : Nat} {pos neg : List Rule} (h : Reports s (.error e pos neg)) :
    ∃ a b, s = a ++ b ∧ e = blen a ∧
      (∀ r ∈ pos, ∃ i, (ruleOf i = some r ∨ i = c!"EOI" ∧ r = .EOI) ∧ ∀ q, Runs grammar (.ident i) q e b none) ∧
      (∀ r ∈ neg, ∃ i, (ruleOf i = some r ∨ i = c!"EOI" ∧ r = .EOI) ∧ ∀ q, ∃ x, Runs grammar (.ident i) q e b (some x)) := by
  obtain ⟨a, b, e1, e2, e3, e4⟩ := error_record h
  refine ⟨a, b, e1, e2, fun r hr => ?_, fun r hr => ?_⟩
  · obtain ⟨i, hi, h⟩ := (e3 r hr).read
    refine ⟨i, hi, fun q => ?_⟩
    obtain ⟨_ | x, h, e⟩ := h q
    · exact h
    · cases e
  · obtain ⟨i, hi, h⟩ := (e4 r hr).read
    refine ⟨i, hi, fun q => ?_⟩
    obtain ⟨_ | x, h, e⟩ := h q
    · cases e
    · exact ⟨x, h⟩

/-- `parse_dockerfile` with the engine (`/repo/src/dockerfile_parser.rs:316-362`) -/
def parseWith (unq : Unquote) (n : Nat) (s : Str) : Option (Result Dockerfile) :=
  (state compiled c!"dockerfile" n s).map fun out =>
    match out with
    | .error _ _ _ => .error (.err .parseError)
    | .pairs [] => .error (.err .unknownParseError)
    | .pairs (dockerfile :: _) => do
      let st ← recordLoop unq dockerfile.children
        { instructions := [], globalArgs := [], fromFound := false, fromIndex := 0 }
      return { content := s, global_args := st.globalArgs, instructions := st.instructions }

/-- **C61.** With the engine of pest, `Dockerfile::parse` is what it is in the model. -/
theorem C61_parse (unq : Unquote) (s : Str) : ∃ N, ∀ n, N ≤ n → parseWith unq n s = some (Dockerfile.parse unq s) := by
  obtain ⟨N, out, hN, ho⟩ := C61_engine s
  refine ⟨N, fun n hn => ?_⟩
  unfold parseWith Dockerfile.parse
  rw [hN n hn]
  cases hp : parse G.dockerfile false 0 s with
  | none =>
    rw [hp] at ho
    obtain ⟨_, _, _, rfl, -⟩ := ho
    rfl
  | some r =>
    obtain ⟨p', s', ts⟩ := r
    rw [hp] at ho
    obtain rfl := ho
    cases ts <;> rfl

/-- If it ends with anything, that is the model's answer. -/
theorem C61_any (unq : Unquote) (s : Str) (n : Nat) (r : Result Dockerfile) (h : parseWith unq n s = some r) :
    r = Dockerfile.parse unq s := by
  obtain ⟨N, hN⟩ := C61_parse unq s
  have h1 := hN (n + N) (by omega)
  unfold parseWith at h h1
  cases hs : state compiled c!"dockerfile" n s with
  | none => rw [hs] at h; cases h
  | some o =>
    rw [hs] at h
    rw [state_more (Nat.le_add_right n N) hs] at h1
    exact Option.some.inj (h.symm.trans h1)

/-! ## examples -/

/-- with 100 steps, an error at `e` -/
def errorAt (s : Str) (e : Nat) (pos neg : List Rule) : Bool :=
  match state compiled c!"dockerfile" 100 s with
  | some (.error e' pos' neg') => e' = e && pos' = pos && neg' = neg
  | _ => false

theorem Reports.errorAt {s : Str} {e : Nat} {pos neg : List Rule} (h : errorAt s e pos neg = true) :
    Reports s (.error e pos neg) := by
  unfold Pest.errorAt at h
  split at h
  · next h' =>
    simp only [Bool.and_eq_true, decide_eq_true_eq] at h
    obtain ⟨⟨rfl, rfl⟩, rfl⟩ := h
    exact .of h'
  · cases h

/-- an error in the second line -/
theorem C61_second_line : Reports c!"FROM a\nCOPY\n" (.error 11 [.any_breakable] []) :=
  .errorAt (by decide +kernel)

/-- The error may be reported on a later line than the one where the instruction begins that is not well
formed, and pest may name a rule there that has nothing to do with it. -/
theorem C61_later_line : Reports c!"FROM a \\\n b\nRUN y" (.error 10 [.comment] []) ∧
    NoLine c!"FROM a \\\n b\nRUN y" := by
  refine ⟨.errorAt (by decide +kernel), fun l r e hr hl => ?_⟩
  obtain ⟨ts, h, -⟩ := Src.line_reads (unq := fun w => .ok w) hl 0 hr
  unfold SemX at h
  rw [← e] at h
  have h2 := (parse_eq_iff safe_meta_step).2 h
  have h3 : (parse G.meta_step false 0 c!"FROM a \\\n b\nRUN y").map (·.2.1.head?) = some (some '\\') := by decide +kernel
  rw [h2] at h3
  cases r with
  | nil => cases h3
  | cons c b =>
    have : c = '\\' := by simpa using h3
    rcases hr c b rfl with h | h <;> rw [this] at h <;> revert h <;> decide

/-- an error at the very beginning -/
theorem C61_start : Reports c!"1" (.error 0 [.dockerfile] []) := .errorAt (by decide +kernel)

/-- pairs -/
example : ∃ ts, Reports c!"FROM a\nCOPY x y\n" (.pairs ts) ∧ ts.length = 1 := by
  obtain ⟨N, out, hN, ho⟩ := C61_engine c!"FROM a\nCOPY x y\n"
  have h : (parse G.dockerfile false 0 c!"FROM a\nCOPY x y\n").map (·.2.2.length) = some 1 := by decide +kernel
  cases hp : parse G.dockerfile false 0 c!"FROM a\nCOPY x y\n" with
  | none => rw [hp] at h; cases h
  | some r =>
    rw [hp] at h ho
    obtain ⟨p, s, ts⟩ := r
    exact ⟨ts, ⟨N, by rw [← ho]; exact hN⟩, Option.some.inj h⟩

end Pest
end Verif
