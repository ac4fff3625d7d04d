import Verif.Model.Work
import Verif.Props.Stage
import Verif.Props.Splicer
import Verif.Proof.SrcShell

/-!
# How much work the parts after the parser take (C83)
-/

namespace Verif
open Spec

/-! ## the counts belong to the functions -/

mutual
theorem breakableM_erase : ∀ t : Tok, (breakableM t).1 = breakableComponents t
  | .node _ _ _ _ ch => by rw [breakableM, breakableComponents]; exact breakableListM_erase ch
theorem breakableListM_erase : ∀ ts : List Tok, (breakableListM ts).1 = breakableComponentsList ts
  | [] => by simp [breakableListM, breakableComponentsList]
  | t :: ts => by
    have h1 := breakableM_erase t
    have h2 := breakableListM_erase ts
    rw [breakableListM, breakableComponentsList]
    split <;> rename_i hr
    · rw [hr, ← h1]
      cases hb : breakableM t with
      | mk r n =>
        cases r with
        | error e => rfl
        | ok cs =>
          simp only
          rw [h2]
          cases breakableComponentsList ts <;> rfl
    · rw [hr]; simp only [h2]; cases breakableComponentsList ts <;> rfl
    · rw [hr]; simp only [h2]; cases breakableComponentsList ts <;> rfl
    · split <;> first | contradiction | rfl
end

theorem getByNameM_erase (ss : List Stage) (n : Str) : (getByNameM ss n).1 = getByName ss n := by
  induction ss with
  | nil => rfl
  | cons s ss ih =>
    unfold getByName at ih ⊢
    rw [getByNameM, List.find?_cons]
    split <;> rename_i h
    · rw [h]
    · rw [Bool.not_eq_true] at h; rw [h]; exact ih

theorem parentOfM_erase (ss : List Stage) (f : FromInstruction) : (parentOfM ss f).1 = parentOf ss f := by
  unfold parentOfM parentOf
  simp only
  split
  · rfl
  · rw [← getByNameM_erase]
    cases getByNameM ss (lower f.image.content) with
    | mk r n => cases r <;> rfl

theorem stagesLoopM_erase (is : List Instruction) : ∀ ss n, (stagesLoopM is ss n).1 = stagesLoop is ss n := by
  induction is with
  | nil => intro ss n; rfl
  | cons i is ih =>
    intro ss n
    cases i with
    | «from» f =>
      rw [stagesLoopM, stagesLoop]
      simp only [parentOfM_erase]
      cases rootOf ss (parentOf ss f) with
      | none => rfl
      | some r => exact ih _ _
    | _ => exact ih _ _

theorem spliceAllM_erase (es : List (Span × Str)) : ∀ s : Splicer, (s.spliceAllM es).1 = s.spliceAll es := by
  induction es with
  | nil => intro s; rfl
  | cons e es ih =>
    intro s
    obtain ⟨sp, r⟩ := e
    rw [Splicer.spliceAllM, Splicer.spliceAll]
    cases s.splice sp r with
    | none => rfl
    | some s' => exact ih s'

theorem relLoopM_erase (start : Nat) (cs : List UInt8) : ∀ i l o, (relLoopM start i cs l o).1 = relLoop start i cs l o := by
  induction cs with
  | nil => intro i l o; rfl
  | cons c cs ih =>
    intro i l o
    rw [relLoopM, relLoop]
    split
    · rfl
    · split <;> exact ih _ _ _

/-- C83: leaving the counts out gives the functions of the model. -/
theorem C83_metered :
    (∀ t, (breakableM t).1 = breakableComponents t) ∧ (∀ d : Dockerfile, d.stagesM.1 = d.stages) ∧
    (∀ (s : Splicer) es, (s.spliceAllM es).1 = s.spliceAll es) ∧
    ∀ start cs i l o, (relLoopM start i cs l o).1 = relLoop start i cs l o :=
  ⟨breakableM_erase, fun _ => stagesLoopM_erase _ _ _, fun s es => spliceAllM_erase es s, relLoopM_erase⟩

/-! ## shell text -/

theorem breakable_moves (n : Nat) : ∀ {p x s' ch}, x.length ≤ n → SemX breakBody false p x s' ch →
    ∃ cs m, breakableListM ch = (.ok cs, m) ∧ 2 * m = cs.length * (cs.length + 1) := by
  have step : ∀ k m : Nat, 2 * m = k * (k + 1) → 2 * (1 + (m + k + 0)) = (k + 1) * (k + 1 + 1) := by
    intro k m h
    have e : (k + 1) * (k + 1 + 1) = k * (k + 1) + 2 * k + 2 := by
      simp only [Nat.add_mul, Nat.mul_add, Nat.mul_one, Nat.one_mul]; omega
    rw [e, ← h]; omega
  induction n with
  | zero =>
    intro p x s' ch hn h
    have := h.nonempty (by decide +kernel)
    exact absurd (List.eq_nil_of_length_eq_zero (by omega)) this
  | succ n ih =>
    intro p x s' ch hn h
    rcases semX_alt.1 h with h | ⟨hno, h⟩
    · obtain ⟨x1, x2, t1, t2, rfl, rfl, h1, h2⟩ := semX_seq.1 h
      have hc := h1.nonempty (by decide +kernel)
      have hlen : x1.length ≠ 0 := fun h => hc (List.eq_nil_of_length_eq_zero h)
      obtain ⟨w, b, nl, rfl, hw, hb, hnl, rfl⟩ := comment_line_inv h1
      simp only [List.length_append] at hn hlen
      rcases semX_opt.1 h2 with h3 | ⟨rfl, rfl, h3⟩
      · obtain ⟨ch, h4, rfl⟩ := semX_any_breakable.1 h3
        obtain ⟨cs, m, e1, e2⟩ := ih (by omega) h4
        refine ⟨.comment ⟨⟨p + blen w, p + blen w + blen ('#' :: b)⟩, '#' :: b⟩ :: cs, 1 + (m + cs.length + 0), ?_, step _ _ e2⟩
        simp [breakableListM, breakableM, Tok.rule, e1, Except.map, Tok.span, Tok.start, Tok.stop, Tok.text]
      · exact ⟨[.comment ⟨⟨p + blen w, p + blen w + blen ('#' :: b)⟩, '#' :: b⟩], 1, by
          simp [breakableListM, Tok.rule, Except.map, Tok.span, Tok.start, Tok.stop, Tok.text], rfl⟩
    · obtain ⟨x1, x2, t1, t2, rfl, rfl, h1, h2⟩ := semX_seq.1 h
      obtain ⟨ch1, h3, rfl⟩ := semX_rule.1 h1
      obtain ⟨hx1, hrun, rfl⟩ := step_any_content.plus_x.1 h3
      have hlen : x1.length ≠ 0 := fun h => hx1 (List.eq_nil_of_length_eq_zero h)
      simp only [List.length_append] at hn
      rcases semX_opt.1 h2 with h4 | ⟨rfl, rfl, h4⟩
      · obtain ⟨k, x3, t3, t4, rfl, rfl, h5, h6⟩ := semX_seq.1 h4
        obtain ⟨_, _, _, _, _, rfl⟩ := continuation_inv h5
        simp only [List.length_append] at hn
        obtain ⟨ch, h7, rfl⟩ := semX_any_breakable.1 h6
        obtain ⟨cs, m, e1, e2⟩ := ih (by omega) h7
        refine ⟨.string ⟨⟨p, p + blen x1⟩, x1⟩ :: cs, 1 + (m + cs.length + 0), ?_, step _ _ e2⟩
        simp [emitToks, breakableListM, breakableM, Tok.rule, e1, Except.map, Tok.span, Tok.start, Tok.stop, Tok.text]
      · exact ⟨[.string ⟨⟨p, p + blen x1⟩, x1⟩], 1, by
          simp [emitToks, breakableListM, Tok.rule, Except.map, Tok.span, Tok.start, Tok.stop, Tok.text], rfl⟩

theorem made_moves {k r} {t : Tok} (h : Made k r G.any_breakable t) :
    ∃ cs, (breakableM t).1 = .ok cs ∧ 2 * (breakableM t).2 = cs.length * (cs.length + 3) := by
  obtain ⟨_, _, s', hx⟩ := made_iff.1 h
  obtain ⟨ch, h1, h2⟩ := semX_any_breakable.1 (semX_recur.2 hx)
  obtain ⟨cs, m, e1, e2⟩ := breakable_moves _ (Nat.le_refl _) h1
  cases t with
  | node r a b x c =>
    simp only [Tok.children, Tok.start, Tok.text] at h2
    subst h2
    refine ⟨cs, ?_, ?_⟩
    · simp [breakableM, breakableListM, Tok.rule, e1, Except.map]
    · have e : cs.length * (cs.length + 3) = cs.length * (cs.length + 1) + 2 * cs.length := by
        simp only [Nat.mul_add]; omega
      rw [e, ← e2]
      simp [breakableM, breakableListM, Tok.rule, e1]
      omega

/-- C83 (shell text): `parse_any_breakable` on a pair of the parser for shell text with `k` components (lines and
comments) moves components `k (k + 3) / 2` times. -/
theorem C83_shell (e : PExpr) (he : e ∈ [G.run_shell, G.entrypoint_shell, G.cmd_shell, G.env_single_value, G.misc_arguments])
    (p : Nat) (s : Str) (p' : Nat) (s' : Str) (ts : List Tok)
    (h : parse e false p s = some (p', s', ts)) :
    ∃ t b, ts = [t] ∧ parseAnyBreakable t = .ok b ∧
      2 * (breakableM t).2 = b.components.length * (b.components.length + 3) := by
  have key : ∀ r, parse (G.atm r G.any_breakable) false p s = some (p', s', ts) →
      ∃ t b, ts = [t] ∧ parseAnyBreakable t = .ok b ∧
        2 * (breakableM t).2 = b.components.length * (b.components.length + 3) := by
    intro r h
    obtain ⟨x, rfl, rfl, hx⟩ := Sem.x ((parse_eq_iff (e := G.atm r G.any_breakable)
      (show safe false G.any_breakable = true by decide +kernel)).1 h)
    obtain ⟨ch, h1, rfl⟩ := semX_rule.1 hx
    have hm : Made .atomic r G.any_breakable (.node r p (p + blen x) x ch) := made_iff.2 ⟨rfl, rfl, _, h1⟩
    obtain ⟨cs, e1, e2⟩ := made_moves hm
    rw [breakableM_erase] at e1
    exact ⟨_, ⟨⟨p, p + blen x⟩, cs⟩, rfl, by unfold parseAnyBreakable; rw [e1]; rfl, e2⟩
  simp only [List.mem_cons, List.not_mem_nil, or_false] at he
  rcases he with rfl | rfl | rfl | rfl | rfl <;> exact key _ h

/-- three lines and a comment: fourteen moves -/
example : (Verif.parse G.run_shell false 4 c!"a \\\n # c\nb \\\n c\nRUN d").map (fun r => r.2.2.map fun t => (breakableM t).2) =
    some [14] ∧
    (Verif.parse G.run_shell false 4 c!"a \\\n # c\nb \\\n c\nRUN d").map (fun r => r.2.2.map fun t =>
      (breakableM t).1.toOption.map List.length) = some [some 4] := by decide +kernel

/-! ## stages -/

/-- how many names are compared to find the parent of a stage -/
def Stage.lookups (s : Stage) : Nat :=
  match s.parent with
  | .scratch => 0
  | .stage j => j + 1
  | .image _ => s.index

theorem getByNameM_cases (ss : List Stage) (n : Str) :
    (∃ j s, ss[j]? = some s ∧ getByNameM ss n = (some s, j + 1)) ∨ getByNameM ss n = (none, ss.length) := by
  induction ss with
  | nil => exact .inr rfl
  | cons s ss ih =>
    rw [getByNameM]
    split
    · exact .inl ⟨0, s, rfl, rfl⟩
    · rcases ih with ⟨j, t, h1, h2⟩ | h2
      · exact .inl ⟨j + 1, t, by simpa using h1, by rw [h2]; simp; omega⟩
      · exact .inr (by rw [h2]; simp; omega)

theorem pushLast_map {β : Type} (f : Stage → β) (hf : ∀ s is, f { s with instructions := is } = f s) (ins : Instruction)
    (ss : List Stage) : (pushLast ins ss).map f = ss.map f := by
  induction ss with
  | nil => rfl
  | cons s ss ih =>
    cases ss with
    | nil => simp [pushLast, hf]
    | cons t ts => simpa [pushLast] using ih

theorem stagesLoopM_count (is : List Instruction) : ∀ ss n ss' m, ss.map Stage.index = List.range ss.length → n = ss.length →
    stagesLoopM is ss n = (some ss', m) → m + (ss.map Stage.lookups).sum = (ss'.map Stage.lookups).sum := by
  induction is with
  | nil =>
    intro ss n ss' m _ _ h
    simp only [stagesLoopM, Prod.mk.injEq, Option.some.injEq] at h
    obtain ⟨rfl, rfl⟩ := h; omega
  | cons i is ih =>
    intro ss n ss' m hi hn h
    have other : stagesLoopM is (pushLast i ss) n = (some ss', m) → m + (ss.map Stage.lookups).sum = (ss'.map Stage.lookups).sum := by
      intro h
      have hl : (pushLast i ss).length = ss.length := by
        have := congrArg List.length (pushLast_map Stage.index (fun _ _ => rfl) i ss); simpa using this
      have := ih (pushLast i ss) n ss' m (by rw [pushLast_map _ (fun _ _ => rfl), hi, hl]) (by rw [hl, hn]) h
      rwa [pushLast_map _ (fun _ _ => rfl)] at this
    cases i with
    | «from» f =>
      rw [stagesLoopM] at h
      simp only at h
      split at h
      · simp at h
      · rename_i root hr
        generalize hq : stagesLoopM is _ (n + 1) = q at h
        obtain ⟨q1, q2⟩ := q
        simp only [Prod.mk.injEq] at h
        obtain ⟨rfl, rfl⟩ := h
        have := ih _ _ ss' q2 (by simp [hi, hn, List.range_succ]) (by simp [hn]) hq
        simp only [List.map_append, List.map_cons, List.map_nil, List.sum_append, List.sum_cons, List.sum_nil] at this
        have hc : ∀ st : Stage, st.index = n → st.parent = (parentOfM ss f).1 → st.lookups = (parentOfM ss f).2 := by
          intro st h1 h2
          unfold Stage.lookups
          rw [h1, h2]
          unfold parentOfM
          simp only
          by_cases hsc : lower f.image.content = ['s', 'c', 'r', 'a', 't', 'c', 'h']
          · rw [if_pos hsc]
          · rcases getByNameM_cases ss (lower f.image.content) with ⟨j, s, e1, e2⟩ | e2
            · rw [if_neg hsc, e2]
              have : (ss.map Stage.index)[j]? = some s.index := by simp [e1]
              rw [hi, List.getElem?_range (by have := List.getElem?_eq_some_iff.1 e1; exact this.1)] at this
              simp at this
              simp [this]
            · rw [if_neg hsc, e2]; simp [hn]
        rw [hc _ rfl rfl] at this
        omega
    | _ => exact other h

theorem sum_le_from (l : List Nat) : ∀ k, (∀ (i x : Nat), l[i]? = some x → x ≤ k + i) →
    2 * l.sum ≤ l.length * (2 * k + l.length - 1) ∧
    (2 * l.sum = l.length * (2 * k + l.length - 1) ↔ ∀ (i x : Nat), l[i]? = some x → x = k + i) := by
  induction l with
  | nil => intro k _; simp
  | cons a l ih =>
    intro k h
    have h0 := h 0 a rfl
    obtain ⟨h1, h2⟩ := ih (k + 1) (fun i x hx => by have := h (i + 1) x (by simpa using hx); omega)
    have e : (l.length + 1) * (2 * k + (l.length + 1) - 1) = l.length * (2 * (k + 1) + l.length - 1) + 2 * k := by
      have e1 : 2 * k + (l.length + 1) - 1 = 2 * k + l.length := by omega
      have e2 : 2 * (k + 1) + l.length - 1 = 2 * k + l.length + 1 := by omega
      rw [e1, e2]
      simp only [Nat.add_mul, Nat.mul_add, Nat.one_mul, Nat.mul_one]
      omega
    simp only [List.sum_cons, List.length_cons]
    rw [e]
    refine ⟨by omega, ?_, ?_⟩
    · intro h3 i x hx
      have h4 : a = k ∧ 2 * l.sum = l.length * (2 * (k + 1) + l.length - 1) := by omega
      cases i with
      | zero => simp at hx; omega
      | succ i => have := h2.1 h4.2 i x (by simpa using hx); omega
    · intro h3
      have h4 := h3 0 a rfl
      have h5 := h2.2 (fun i x hx => by have := h3 (i + 1) x (by simpa using hx); omega)
      omega

theorem stagesM_ok (d : Dockerfile) {ss : List Stage} {n : Nat} (h : d.stagesM = (some ss, n)) : d.stages = some ss := by
  have := C83_metered.2.1 d
  rw [h] at this; exact this.symm

/-- C83 (stages): building the `k` stages of a document compares `j + 1` names for a stage whose parent is stage
`j`, none for a stage made from scratch, and the names of all earlier stages for a stage made from another image. -/
theorem C83_stages (d : Dockerfile) : ∃ ss, d.stagesM = (some ss, (ss.map Stage.lookups).sum) ∧ d.stages = some ss ∧
    2 * d.stagesM.2 ≤ ss.length * (ss.length - 1) ∧
    (2 * d.stagesM.2 = ss.length * (ss.length - 1) ↔
      ∀ i s, ss[i]? = some s → i = 0 ∨ (∃ r, s.parent = .image r) ∨ s.parent = .stage (i - 1)) := by
  obtain ⟨ss, h, -⟩ := C15_root d
  have h1 : d.stagesM.1 = some ss := by rw [C83_metered.2.1, h]
  have h2 : d.stagesM.2 = (ss.map Stage.lookups).sum := by
    have := stagesLoopM_count d.instructions [] 0 ss d.stagesM.2 rfl rfl (Prod.ext h1 rfl)
    simpa using this
  have h3 : ∀ i s, ss[i]? = some s → s.lookups ≤ i ∧
      (s.lookups = i ↔ (i = 0 ∨ (∃ r, s.parent = .image r) ∨ s.parent = .stage (i - 1))) := by
    intro i s hs
    have hi := (C13_index_name d ss h i s hs).1
    have hp := C14_parent_earlier d ss h i
    unfold Stage.lookups
    cases hq : s.parent with
    | image r => simp [hi]
    | stage j =>
      have := (hp j s hs hq).1
      simp
      omega
    | scratch => simp; omega
  have h4 := sum_le_from (ss.map Stage.lookups) 0 (fun i x hx => by
    rw [List.getElem?_map, Option.map_eq_some_iff] at hx
    obtain ⟨s, hs, rfl⟩ := hx
    have := (h3 i s hs).1; omega)
  rw [← h2] at h4
  simp only [List.length_map, Nat.mul_zero, Nat.zero_add] at h4
  refine ⟨ss, Prod.ext h1 h2, h, h4.1, h4.2.trans ⟨fun h5 i s hs => ?_, fun h5 i x hx => ?_⟩⟩
  · exact (h3 i s hs).2.1 (h5 i _ (by simp [hs]))
  · rw [List.getElem?_map, Option.map_eq_some_iff] at hx
    obtain ⟨s, hs, rfl⟩ := hx
    exact (h3 i s hs).2.2 (h5 i s hs)

/-- a stage made from the one before it, one made from the first, one from scratch and one from an image -/
example : (Dockerfile.parse Enquote.unquote
      c!"FROM x AS a\nFROM a AS b\nFROM a AS c\nFROM scratch\nFROM y").toOption.map (fun d => (d.stagesM.2, d.stagesM.1.map (·.map Stage.lookups))) =
    some (6, some [0, 1, 1, 0, 4]) := by decide +kernel

/-! ## splicing -/

theorem splice_size {s s' : Splicer} {sp : Span} {r : Str} (h : s.splice sp r = some s') :
    s'.offsets.length = s.offsets.length + 1 ∧ blen s'.content ≤ blen s.content + blen r := by
  unfold Splicer.splice at h
  simp only at h
  split at h
  · simp at h
  · split at h
    · simp at h
    · rename_i a b hs
      split at h
      · simp at h
      · rename_i c e ht
        cases h
        obtain ⟨e1, -⟩ := splitAtByte_some hs
        obtain ⟨rfl, -⟩ := splitAtByte_some ht
        refine ⟨by simp, ?_⟩
        rw [e1]
        simp only [blen_append]
        omega

/-- C83 (splicing): `n` splices that all succeed look at `n (n - 1) / 2` offsets of earlier splices, and build at most
`n` texts, none of which is larger than the document and all the replacements together. -/
theorem C83_splices (s : Str) (es : List (Span × Str)) (s' : Splicer) (a b : Nat)
    (h : (Splicer.fromStr s).spliceAllM es = (some s', a, b)) :
    2 * a = es.length * (es.length - 1) ∧ b ≤ es.length * (blen s + (es.map fun e => blen e.2).sum) := by
  have key : ∀ (es : List (Span × Str)) (t : Splicer) (a b M : Nat), t.spliceAllM es = (some s', a, b) →
      blen t.content + (es.map fun e => blen e.2).sum ≤ M →
      2 * a = es.length * (2 * t.offsets.length + es.length - 1) ∧ b ≤ es.length * M := by
    intro es
    induction es with
    | nil =>
      intro t a b M h _
      simp only [Splicer.spliceAllM, Prod.mk.injEq] at h
      obtain ⟨-, rfl, rfl⟩ := h
      simp
    | cons e es ih =>
      obtain ⟨sp, r⟩ := e
      intro t a b M h hM
      rw [Splicer.spliceAllM] at h
      split at h
      · simp at h
      · rename_i t' ht
        generalize hq : t'.spliceAllM es = q at h
        obtain ⟨q1, q2, q3⟩ := q
        simp only [Prod.mk.injEq] at h
        obtain ⟨rfl, rfl, rfl⟩ := h
        obtain ⟨g1, g2⟩ := splice_size ht
        simp only [List.map_cons, List.sum_cons] at hM
        obtain ⟨i1, i2⟩ := ih t' _ _ M hq (by omega)
        rw [g1] at i1
        simp only [List.length_cons]
        refine ⟨?_, by rw [Nat.add_mul]; omega⟩
        have e1 : 2 * (t.offsets.length + 1) + es.length - 1 = 2 * t.offsets.length + es.length + 1 := by omega
        have e2 : 2 * t.offsets.length + (es.length + 1) - 1 = 2 * t.offsets.length + es.length := by omega
        rw [e1] at i1
        rw [e2, Nat.mul_add, i1]
        simp only [Nat.add_mul, Nat.mul_add, Nat.one_mul, Nat.mul_one]
        omega
  have := key es _ a b _ h (Nat.le_refl _)
  simpa [Splicer.fromStr] using this

/-- Four splices: six offsets are looked at. -/
example : ((Splicer.fromStr c!"abcdef").spliceAllM [(⟨0, 1⟩, c!"xy"), (⟨2, 3⟩, []), (⟨4, 4⟩, c!"z"), (⟨5, 6⟩, c!"f")]) =
    (some ⟨c!"xybdzef", [⟨0, 1⟩, ⟨3, -1⟩, ⟨4, 1⟩, ⟨6, 0⟩]⟩, 6, 27) := by decide +kernel

/-- C83 (splicing): when a splice panics, those before it and itself have looked at the offsets of all splices before
them: `k (k + 1) / 2` when `k` splices succeeded. -/
theorem C83_splices_panic (s : Str) (es : List (Span × Str)) (a b : Nat)
    (h : (Splicer.fromStr s).spliceAllM es = (none, a, b)) :
    ∃ pre e post s', es = pre ++ e :: post ∧ ((Splicer.fromStr s).spliceAllM pre).1 = some s' ∧
      s'.splice e.1 e.2 = none ∧ 2 * a = (pre.length + 1) * pre.length := by
  have key : ∀ (es : List (Span × Str)) (t : Splicer) (a b : Nat), t.spliceAllM es = (none, a, b) →
      ∃ pre e post s', es = pre ++ e :: post ∧ (t.spliceAllM pre).1 = some s' ∧ s'.splice e.1 e.2 = none ∧
        2 * a = (pre.length + 1) * (2 * t.offsets.length + pre.length) := by
    intro es
    induction es with
    | nil => intro t a b h; simp [Splicer.spliceAllM] at h
    | cons e es ih =>
      obtain ⟨sp, r⟩ := e
      intro t a b h
      rw [Splicer.spliceAllM] at h
      split at h
      · rename_i ht
        simp only [Prod.mk.injEq] at h
        obtain ⟨-, rfl, -⟩ := h
        exact ⟨[], (sp, r), es, t, rfl, rfl, ht, by simp⟩
      · rename_i t' ht
        generalize hq : t'.spliceAllM es = q at h
        obtain ⟨q1, q2, q3⟩ := q
        simp only [Prod.mk.injEq] at h
        obtain ⟨rfl, rfl, -⟩ := h
        obtain ⟨pre, e, post, s', e1, e2, e3, e4⟩ := ih t' _ _ hq
        refine ⟨(sp, r) :: pre, e, post, s', by rw [e1]; rfl, ?_, e3, ?_⟩
        · rw [Splicer.spliceAllM, ht]
          exact e2
        · rw [(splice_size ht).1] at e4
          simp only [List.length_cons, Nat.add_mul, Nat.mul_add, Nat.one_mul, Nat.mul_one] at e4 ⊢
          omega
  simpa [Splicer.fromStr] using key es _ a b h

/-- The third splice is outside of the document: three offsets are looked at. -/
example : ((Splicer.fromStr c!"abcdef").spliceAllM [(⟨0, 1⟩, c!"xy"), (⟨2, 3⟩, []), (⟨9, 9⟩, c!"z"), (⟨5, 6⟩, c!"f")]).1 = none ∧
    ((Splicer.fromStr c!"abcdef").spliceAllM [(⟨0, 1⟩, c!"xy"), (⟨2, 3⟩, []), (⟨9, 9⟩, c!"z"), (⟨5, 6⟩, c!"f")]).2.1 = 3 := by
  decide +kernel

/-! ## lines -/

theorem relLoopM_count (start : Nat) (cs : List UInt8) : ∀ i l o, i ≤ start →
    (relLoopM start i cs l o).2 = min (start - i + 1) cs.length := by
  induction cs with
  | nil => intro i l o _; simp [relLoopM]
  | cons c cs ih =>
    intro i l o hi
    rw [relLoopM]
    split
    · rename_i h; subst h; simp
    · have := ih (i + 1) 
      split <;> simp only [List.length_cons] <;> rw [this _ _ (by omega)] <;> omega

/-- C83 (lines): the line of a span is found by looking at the bytes of the document up to the one where the span
starts. -/
theorem C83_relative (d : Dockerfile) (sp : Span) :
    (relLoopM sp.start 0 (bytes d.content) 0 0).2 = min (sp.start + 1) (blen d.content) := by
  rw [relLoopM_count _ _ _ _ _ (Nat.zero_le _), Nat.sub_zero, bytes_length]

/-- the span starts with the fourth byte -/
example : relLoopM 3 0 (bytes c!"a\nbcd") 0 0 = ((1, 2), 4) := by decide +kernel

end Verif
