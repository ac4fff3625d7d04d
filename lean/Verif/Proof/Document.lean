import Verif.Proof.Layout
import Verif.Proof.Loop
import Verif.Spec.Document

/-!
# The token list of a document and the loop over it
-/

namespace Verif

open Spec

/-- what `meta_step` emits: nothing, a comment, or an instruction -/
def ItemToks (p : Nat) (t : Str) (ts : List Tok) : Prop :=
  (t = [] ∧ ts = []) ∨
  (CommentText t ∧ ts = [.node .comment p (p + blen t) t []]) ∨
  (∃ u, ts = [u] ∧ MadeStep u ∧ u.start = p ∧ u.text = t)

inductive DocToks : Nat → Str → List Tok → Prop
  | last {p w t w' ts} : Blanks w → Blanks w' → ItemToks (p + blen w) t ts →
      DocToks p (w ++ t ++ w') ts
  | line {p w t w' n r ts us} : Blanks w → Blanks w' → ItemToks (p + blen w) t ts →
      LineBreak n r → DocToks (p + blen w + blen t + blen w' + blen n) r us →
      DocToks p (w ++ t ++ w' ++ n ++ r) (ts ++ us)

theorem isBlank_iff {c : Char} : isBlank c = true ↔ c = ' ' ∨ c = '\t' := by simp [isBlank]

theorem isBreak_false {c : Char} : isBreak c = false ↔ c ≠ '\n' ∧ c ≠ '\r' := by simp [isBreak]

theorem blanks_of {q p w s' ts} (h : SemX (.star G.ws) q p w s' ts) : Blanks w ∧ ts = [] := by
  obtain ⟨h1, h2⟩ := lex_ws.star_x.1 h
  exact ⟨fun c hc => isBlank_iff.1 ((runOf_class.1 h1).1 c hc), h2⟩

theorem lineBreak_iff {n r : Str} : LineBreak n r ↔ n ≠ [] ∧ afterBreak (n ++ r) = some r := by
  constructor
  · rintro (rfl | rfl | ⟨rfl, h⟩)
    · exact ⟨by simp, rfl⟩
    · exact ⟨by simp, rfl⟩
    · refine ⟨by simp, ?_⟩
      cases r with
      | nil => rfl
      | cons c r =>
        have hc : c ≠ '\n' := fun e => h r (by rw [e])
        show afterBreak ('\r' :: c :: r) = _
        unfold afterBreak
        split <;> simp_all
  · rintro ⟨h0, h⟩
    generalize hs : n ++ r = s at h
    unfold afterBreak at h
    split at h
    · cases h
      left
      have : n ++ r = ['\n'] ++ r := hs
      exact List.append_cancel_right this
    · cases h
      right; left
      have : n ++ r = ['\r', '\n'] ++ r := hs
      exact List.append_cancel_right this
    · rename_i r' hne
      cases h
      right; right
      have : n ++ r = ['\r'] ++ r := hs
      refine ⟨List.append_cancel_right this, ?_⟩
      intro r' e
      exact hne r' e
    · cases h

theorem semX_newline {q p n r ts} (h : SemX G.NEWLINE q p n r ts) : LineBreak n r ∧ ts = [] := by
  obtain ⟨h1, h2⟩ := lex_NEWLINE.x.1 h
  exact ⟨lineBreak_iff.2 ⟨h.nonempty (by decide +kernel), h1⟩, h2⟩

theorem semX_step {p x s' ts} (h : SemX G.step false p x s' ts) :
    ∃ u, ts = [u] ∧ MadeStep u ∧ u.start = p ∧ u.text = x := by
  obtain ⟨u, e, hu⟩ := shape_step h.shape
  refine ⟨u, e, hu, ?_⟩
  have key : ∀ {r e}, SemX (G.nrm r e) false p x s' ts → u.start = p ∧ u.text = x := by
    intro r e0 h
    obtain ⟨t1, _, e2⟩ := semX_rule.1 h
    rw [e] at e2
    have e2 := (List.cons.inj e2).1
    rw [e2]; exact ⟨rfl, rfl⟩
  rcases semX_alt.1 h with h | ⟨_, h⟩
  · exact key h
  rcases semX_alt.1 h with h | ⟨_, h⟩
  · exact key h
  rcases semX_alt.1 h with h | ⟨_, h⟩
  · exact key h
  rcases semX_alt.1 h with h | ⟨_, h⟩
  · exact key h
  rcases semX_alt.1 h with h | ⟨_, h⟩
  · exact key h
  rcases semX_alt.1 h with h | ⟨_, h⟩
  · exact key h
  rcases semX_alt.1 h with h | ⟨_, h⟩
  · exact key h
  rcases semX_alt.1 h with h | ⟨_, h⟩
  · exact key h
  · exact key h

theorem semX_meta_step {p x s' ts} (h : SemX G.meta_step false p x s' ts) :
    ∃ w t w', x = w ++ t ++ w' ∧ Blanks w ∧ Blanks w' ∧ ItemToks (p + blen w) t ts := by
  obtain ⟨w, x1, t1, t2, rfl, rfl, h1, h⟩ := semX_seq.1 h
  obtain ⟨t, w', t3, t4, rfl, rfl, h2, h3⟩ := semX_seq.1 h
  obtain ⟨hw, rfl⟩ := blanks_of h1
  obtain ⟨hw', rfl⟩ := blanks_of h3
  refine ⟨w, t, w', by simp, hw, hw', ?_⟩
  simp only [List.nil_append, List.append_nil]
  rcases semX_opt.1 h2 with h | ⟨rfl, rfl, _⟩
  · rcases semX_alt.1 h with h | ⟨_, h⟩
    · exact .inr (.inr (semX_step h))
    · obtain ⟨⟨b, rfl, hb⟩, _, e⟩ := comment_inv h
      exact .inr (.inl ⟨⟨b, rfl, fun c hc => isBreak_false.1 (hb c hc)⟩, e⟩)
  · exact .inl ⟨rfl, rfl⟩

theorem docToks_of {p x1 x2 s' t1 t2} (h1 : SemX G.meta_step false p x1 (x2 ++ s') t1)
    (h2 : SemX (.star (.seq G.NEWLINE G.meta_step)) false (p + blen x1) x2 s' t2)
    (hs : s' = []) : DocToks p (x1 ++ x2) (t1 ++ t2) := by
  have key : ∀ {p2 x2 t2}, SemX (.star (.seq G.NEWLINE G.meta_step)) false p2 x2 s' t2 →
      ∀ {p x1 t1}, SemX G.meta_step false p x1 (x2 ++ s') t1 → p2 = p + blen x1 →
        DocToks p (x1 ++ x2) (t1 ++ t2) := by
    intro p2 x2 t2 h
    refine semX_star_induction
      (P := fun p2 x2 t2 => ∀ {p x1 t1}, SemX G.meta_step false p x1 (x2 ++ s') t1 →
        p2 = p + blen x1 → DocToks p (x1 ++ x2) (t1 ++ t2)) ?_ ?_ h
    · intro p2 _ p x1 t1 h1 _
      obtain ⟨w, t, w', rfl, hw, hw', hi⟩ := semX_meta_step h1
      rw [List.append_nil, List.append_nil]
      exact .last hw hw' hi
    · intro p2 y1 y2 u1 u2 g1 g2 ih p x1 t1 h1 hp
      obtain ⟨n, y3, u3, u4, rfl, rfl, g3, g4⟩ := semX_seq.1 g1
      obtain ⟨hn, rfl⟩ := semX_newline g3
      obtain ⟨w, t, w', rfl, hw, hw', hi⟩ := semX_meta_step h1
      have ih := ih g4 (by rw [blen_append, Nat.add_assoc])
      have hn' : LineBreak n (y3 ++ y2) := by
        rw [hs, List.append_nil] at hn
        exact hn
      have e : p2 + blen n = p + blen w + blen t + blen w' + blen n := by
        rw [hp, blen_append, blen_append]; omega
      rw [e] at ih
      have := DocToks.line hw hw' hi hn' ih
      simpa using this
  exact key h2 h1 rfl

theorem semX_eoi {q p x s' ts} (h : SemX .eoi q p x s' ts) : x ++ s' = [] ∧ ts = [] := by
  unfold SemX at h
  generalize x ++ s' = y at h
  generalize ho : some (p + blen x, s', ts) = o at h
  cases h with
  | eoi_ok =>
    simp only [Option.some.injEq, Prod.mk.injEq] at ho
    exact ⟨rfl, ho.2.2⟩
  | eoi_fail => cases ho

theorem semX_soi {q p x s' ts} (h : SemX .soi q p x s' ts) : x = [] ∧ ts = [] := by
  unfold SemX at h
  generalize hy : x ++ s' = y at h
  generalize ho : some (p + blen x, s', ts) = o at h
  cases h with
  | soi_ok =>
    simp only [Option.some.injEq, Prod.mk.injEq] at ho
    obtain ⟨_, rfl, rfl⟩ := ho
    exact ⟨by simpa using hy, rfl⟩
  | soi_fail => cases ho

/-- The tokens of a document. -/
theorem dockerfile_toks {s : Str} {p' : Nat} {s' : Str} {ts : List Tok}
    (h : parse G.dockerfile false 0 s = some (p', s', ts)) :
    ∃ us, ts = [.node .dockerfile 0 (blen s) s (us ++ [.node .EOI (blen s) (blen s) [] []])] ∧
      DocToks 0 s us := by
  obtain ⟨x, rfl, rfl, hx⟩ := ((parse_eq_iff safe_dockerfile).1 h).x
  clear h
  obtain ⟨c, h, rfl⟩ := semX_rule.1 hx
  obtain ⟨x0, x1, t0, t1, rfl, rfl, h0, h⟩ := semX_seq.1 h
  obtain ⟨x2, x3, t2, t3, rfl, rfl, h2, h⟩ := semX_seq.1 h
  obtain ⟨x4, x5, t4, t5, rfl, rfl, h4, h⟩ := semX_seq.1 h
  obtain ⟨c, h5, rfl⟩ := semX_rule.1 h
  obtain ⟨e5, rfl⟩ := semX_eoi h5
  obtain ⟨rfl, rfl⟩ := List.append_eq_nil_iff.1 e5
  obtain ⟨rfl, rfl⟩ := semX_soi h0
  refine ⟨t2 ++ t4, ?_, ?_⟩
  · simp [emitToks, innerQuiet]
  · have h4' : SemX (.star (.seq G.NEWLINE G.meta_step)) false (0 + blen x2) x4 [] t4 := by
      simpa [blen, innerQuiet] using h4
    have h2' : SemX G.meta_step false 0 x2 (x4 ++ []) t2 := by simpa [blen, innerQuiet] using h2
    have := docToks_of h2' h4' rfl
    simpa using this

/-! ## the loop -/

/-- facts about the result that do not show in the layout -/
def InstrFine (i : Instruction) : Prop := Lexical i ∧
  match i with
  | .from i => i.image_parsed = ImageRef.parse i.image.content ∧ checkDigest i.image_parsed = true
  | .copy i => i.sources ≠ []
  | _ => True

theorem loopStep_instructions (st : LoopState) (i : Instruction) (unq : Unquote) (h : InstrOK i) :
    ∃ j, (loopStep st i).instructions = st.instructions ++ [j] ∧ tree unq j = tree unq i ∧
      InstrFine j := by
  cases i with
  | «from» f => exact ⟨_, rfl, rfl, h.1, h.2.2⟩
  | arg a => exact ⟨_, rfl, rfl, h⟩
  | copy a => exact ⟨_, rfl, rfl, h⟩
  | _ => exact ⟨_, rfl, rfl, h⟩

theorem covers_of_mirror {t : Tok} {n : SpanTree} (h : Mirror t n)
    (hs : t.stop = t.start + blen t.text) : Covers t.start t.text n := by
  obtain ⟨P, ch, e, h1, h2, h3⟩ := h
  refine ⟨P, ch, ?_, h2, h1, h3⟩
  rw [e]; unfold Tok.span; rw [hs]

theorem madeStep_stop {t : Tok} (h : MadeStep t) : t.stop = t.start + blen t.text := by
  rcases h with h | h | h | h | h | h | h | h | h <;> exact (made_iff.1 h).2.1

theorem madeStep_rule {t : Tok} (h : MadeStep t) : t.rule ≠ .EOI ∧ t.rule ≠ .comment := by
  rcases h with h | h | h | h | h | h | h | h | h <;> rw [Made.rule h] <;> decide

theorem recordLoop_cons_step {unq : Unquote} {u : Tok} {us : List Tok} {st : LoopState}
    (h : MadeStep u) : recordLoop unq (u :: us) st =
      (instructionOf unq u >>= fun ins => recordLoop unq us (loopStep st ins)) := by
  have ⟨h1, h2⟩ := madeStep_rule h
  rw [recordLoop]
  split
  · exact absurd ‹_› h1
  · exact absurd ‹_› h2
  · rfl

theorem ens_recordLoop {unq : Unquote} {p : Nat} {s : Str} {us : List Tok} {q : Nat}
    (h : DocToks p s us) (st : LoopState) :
    Ens (recordLoop unq (us ++ [.node .EOI q q [] []]) st)
      (fun st' => ∃ is, st'.instructions = st.instructions ++ is ∧ DocText unq p s is ∧
        ∀ i ∈ is, InstrFine i) (StepFault unq) := by
  -- one item, then the rest
  have item : ∀ {p t ts rest} {st : LoopState} {Q : LoopState → Prop}, ItemToks p t ts →
      (∀ is st1, st1.instructions = st.instructions ++ is → ItemText unq p t is →
        (∀ i ∈ is, InstrFine i) → Ens (recordLoop unq rest st1) Q (StepFault unq)) →
      Ens (recordLoop unq (ts ++ rest) st) Q (StepFault unq) := by
    intro p t ts rest st Q hi hk
    rcases hi with ⟨rfl, rfl⟩ | ⟨hc, rfl⟩ | ⟨u, rfl, hu, rfl, rfl⟩
    · exact hk [] st (by simp) .none (by simp)
    · rw [List.singleton_append, recordLoop]
      exact hk [] st (by simp) (.comment hc) (by simp)
    · rw [List.singleton_append, recordLoop_cons_step hu]
      refine (ens_instructionOf hu).bind fun i hi => ?_
      obtain ⟨j, e1, e2, e3⟩ := loopStep_instructions st i unq hi.2
      refine hk [j] _ e1 (.instruction ?_) (by simpa using e3)
      rw [e2]
      exact covers_of_mirror hi.1 (madeStep_stop hu)
  induction h generalizing st with
  | last hw hw' hi =>
    refine item hi fun is st1 e1 h1 h2 => ?_
    exact ⟨is, e1, .last hw hw' h1, h2⟩
  | line hw hw' hi hn hr ih =>
    rw [List.append_assoc]
    refine item hi fun is st1 e1 h1 h2 => ?_
    refine (ih st1).mono ?_ (fun _ h => h)
    rintro st' ⟨js, e3, h3, h4⟩
    refine ⟨is ++ js, by rw [e3, e1, List.append_assoc], .line hw hw' h1 hn h3, ?_⟩
    intro i hi
    rcases List.mem_append.1 hi with h | h
    · exact h2 i h
    · exact h4 i h

/-- The outcome of `Dockerfile::parse`. -/
theorem ens_parse (unq : Unquote) (s : Str) :
    Ens (Dockerfile.parse unq s)
      (fun d => d.content = s ∧ DocText unq 0 s d.instructions ∧ ∀ i ∈ d.instructions, InstrFine i)
      (fun f => StepFault unq f ∨ f = .err .parseError) := by
  unfold Dockerfile.parse
  cases h : parse G.dockerfile false 0 s with
  | none => exact .inr rfl
  | some r =>
    obtain ⟨p', s', ts⟩ := r
    obtain ⟨us, rfl, hd⟩ := dockerfile_toks h
    refine ((ens_recordLoop hd _).mono (fun _ h => h) (fun _ h => .inl h)).bind fun st hst => ?_
    obtain ⟨is, e1, h1, h2⟩ := hst
    rw [List.nil_append] at e1
    subst e1
    exact ⟨rfl, h1, h2⟩

end Verif
