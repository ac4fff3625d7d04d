import Verif.Proof.Split
import Verif.Spec.Split
import Verif.Props.Join

/-! # Cutting and exchanging lines (C71) -/

namespace Verif
open Spec

section Same

theorem map_same {α : Type} {r : α → α} (h : ∀ x, r x = x) (l : List α) : l.map r = l := by
  rw [show r = id from funext h, List.map_id]

theorem omap_same {α : Type} {r : α → α} (h : ∀ x, r x = x) (l : Option α) : l.map r = l := by
  cases l with
  | none => rfl
  | some x => exact congrArg some (h x)

theorem SpannedString.remap_same (x : SpannedString) : x.remap (· + 0) = x := rfl

theorem BreakableString.remap_same (x : BreakableString) : x.remap (· + 0) = x :=
  congrArg (BreakableString.mk _) (map_same (fun c => by cases c <;> rfl) _)

theorem ShellOrExecExpr.remap_same (x : ShellOrExecExpr) : x.remap (· + 0) = x := by
  cases x with
  | shell s => exact congrArg ShellOrExecExpr.shell s.remap_same
  | exec a => exact congrArg (fun l => ShellOrExecExpr.exec ⟨a.span, l⟩) (map_same SpannedString.remap_same _)

theorem EnvVar.remap_same (x : EnvVar) : x.remap (· + 0) = x :=
  congrArg (EnvVar.mk _ _) x.value.remap_same

theorem Instruction.remap_same (x : Instruction) : x.remap (· + 0) = x := by
  cases x with
  | «from» i =>
    obtain ⟨a, b, c, d, e, f⟩ := i
    simp only [Instruction.remap, FromInstruction.remap, map_same (r := Flag.remap (· + 0)) (fun _ => rfl),
      omap_same (r := SpannedString.remap (· + 0)) (fun _ => rfl)]
    rfl
  | arg i =>
    obtain ⟨a, b, c⟩ := i
    simp only [Instruction.remap, ArgInstruction.remap, omap_same (r := SpannedString.remap (· + 0)) (fun _ => rfl)]
    rfl
  | label i => exact congrArg (fun l => Instruction.label ⟨_, l⟩) (map_same (fun _ => rfl) _)
  | run i => exact congrArg (fun l => Instruction.run ⟨_, l⟩) (ShellOrExecExpr.remap_same _)
  | entrypoint i => exact congrArg (fun l => Instruction.entrypoint ⟨_, l⟩) (ShellOrExecExpr.remap_same _)
  | cmd i => exact congrArg (fun l => Instruction.cmd ⟨_, l⟩) (ShellOrExecExpr.remap_same _)
  | copy i =>
    obtain ⟨a, b, c, d⟩ := i
    simp only [Instruction.remap, CopyInstruction.remap, map_same (r := Flag.remap (· + 0)) (fun _ => rfl),
      map_same (r := SpannedString.remap (· + 0)) (fun _ => rfl)]
    rfl
  | env i => exact congrArg (fun l => Instruction.env ⟨_, l⟩) (map_same EnvVar.remap_same _)
  | misc i => exact congrArg (fun l => Instruction.misc ⟨_, _, l⟩) (BreakableString.remap_same _)

end Same

theorem documentOf_same {unq : Unquote} {s : Str} {d : Dockerfile} (h : Dockerfile.parse unq s = .ok d) :
    documentOf s d.instructions = d := by
  obtain ⟨l, ms, is, -, -, -, rfl⟩ := C51_accepted.1 h
  simp only [documentOf, Src.numberStages_twice, Src.globalArgs_numbered]

theorem numbered_apart {is : List Instruction} {k : Nat} {s : Str} (h : Apart (documentOf s is) k) :
    ∀ x ∈ is, x.span.stop < k ∨ k ≤ x.span.start := by
  intro x hx
  rcases mem_numbered 0 hx with ⟨f, rfl, j, hj⟩ | hj
  · exact h (.from { f with index := j }) hj
  · exact h _ hj

theorem of_numbered {is : List Instruction} : ∀ {n i}, i ∈ numberStages n is → ∃ x ∈ is, x.span = i.span := by
  induction is with
  | nil => intro n i h; cases h
  | cons j is ih =>
    intro n i h
    have next : ∀ {m}, i ∈ numberStages m is → ∃ x ∈ j :: is, x.span = i.span := fun h => by
      obtain ⟨x, h1, h2⟩ := ih h
      exact ⟨x, by simp [h1], h2⟩
    cases j <;>
      (rcases List.mem_cons.1 h with rfl | h
       · exact ⟨_, List.mem_cons_self, rfl⟩
       · exact next h)

theorem lineStart_noCR {a z : Str} (h : LineStart a z) (b : Str) (e : a = b ++ ['\r']) (t : Str) : z ≠ '\n' :: t := by
  subst e
  rcases h with e | ⟨s, n, e, hn⟩
  · simp at e
  rcases hn with rfl | rfl | ⟨rfl, hn⟩
  · exact absurd (List.append_inj_right' e rfl) (by decide)
  · have : b ++ ['\r'] = (s ++ ['\r']) ++ ['\n'] := by simpa using e
    exact absurd (List.append_inj_right' this rfl) (by decide)
  · exact hn t

theorem parse_nothing (unq : Unquote) : Dockerfile.parse unq [] = .ok (documentOf [] []) := by
  have hb : Blanks [] := fun _ h => by cases h
  have : Src.DocFits ⟨[], .blank, []⟩ [] := ⟨hb, trivial, hb⟩
  exact Src.parse_fits (unq := unq) this

/-- C71: A document cut after a line break that is not part of an instruction: both parts are
documents, and the instructions are those of the first part, followed by those of the second, moved. -/
theorem C71_split {unq : Unquote} {a z : Str} {d : Dockerfile} (h : Dockerfile.parse unq (a ++ z) = .ok d)
    (ha : LineStart a z) (hs : Apart d (blen a)) :
    ∃ d1 d2, Dockerfile.parse unq a = .ok d1 ∧ Dockerfile.parse unq z = .ok d2 ∧
      (∀ i ∈ d1.instructions, i.span.stop < blen a) ∧
      d = documentOf (a ++ z) (d1.instructions ++ d2.instructions.map (·.remap (· + blen a))) := by
  by_cases hne : a = []
  · subst hne
    refine ⟨_, d, parse_nothing unq, h, fun i hi => (by cases hi), ?_⟩
    have := map_same (r := Instruction.remap (· + blen [])) Instruction.remap_same d.instructions
    rw [this]
    exact (documentOf_same h).symm
  obtain ⟨l, ms, is, hf, e, he, rfl⟩ := C51_accepted.1 h
  have hb : Src.BreakEnd a := by
    rcases ha with ha | ⟨s, n, rfl, hn⟩
    · exact absurd ha hne
    · exact (Src.break_end hn).pre _
  have hs2 := numbered_apart hs
  obtain ⟨ps, l', ms', js, ks, rfl, rfl, g3, g4, rfl, g6, g7⟩ := Src.doc_split ms l 0 is a z hf he e hb (lineStart_noCR ha)
    (by rw [Nat.zero_add]; exact hs2)
  obtain ⟨m, ms1, k1, k2, k3⟩ := Src.pre_doc (unq := unq) ps (Src.pre_less ps g3) 0
  have p1 := Src.parse_fits (unq := unq) k2
  rw [k1, k3, g6] at p1
  rw [Nat.zero_add, Src.doc_move (m := (· + blen (Src.preText ps))) ms' l' 0 _ (by intro k _; simp only []; omega)] at g7
  have p2 := Src.parse_fits (unq := unq) g4
  cases hk : Src.evalDoc unq 0 l' ms' with
  | error e => rw [hk] at g7; cases g7
  | ok ks0 =>
    rw [hk] at g7 p2
    cases g7
    refine ⟨_, _, p1, p2, ?_, ?_⟩
    · intro i hi
      obtain ⟨x, hx, e⟩ := of_numbered hi
      have h1 := hs2 x (List.mem_append_left _ hx)
      have h2 := C04_span_bounds unq _ _ p1 i hi i.span (by cases i <;> exact List.mem_cons_self)
      rw [e] at h1
      have h3 : i.span.stop ≤ blen (Src.preText ps) := h2.2
      omega
    · simp only [documentOf, ← Src.numberStages_remap, numberStages_app_left, numberStages_app_right,
        globalArgs_app_left, globalArgs_app_right]

example : ∃ d1 d2, Dockerfile.parse Enquote.unquote c!"FROM a\nRUN b\n" = .ok d1 ∧
    Dockerfile.parse Enquote.unquote c!"CMD c" = .ok d2 := by
  obtain ⟨d, hd, hs⟩ : ∃ d, Dockerfile.parse Enquote.unquote (c!"FROM a\nRUN b\n" ++ c!"CMD c") = .ok d ∧ Apart d 13 := by
    have h : (match Dockerfile.parse Enquote.unquote (c!"FROM a\nRUN b\n" ++ c!"CMD c") with
      | .ok d => d.instructions.all fun i => decide (i.span.stop < 13 ∨ 13 ≤ i.span.start)
      | .error _ => false) = true := by decide +kernel
    split at h
    · rename_i d hd
      exact ⟨d, hd, fun i hi => by simpa using List.all_eq_true.1 h i hi⟩
    · cases h
  obtain ⟨d1, d2, h1, h2, -⟩ := C71_split hd (.inr ⟨c!"FROM a\nRUN b", c!"\n", rfl, .inl rfl⟩) hs
  exact ⟨d1, d2, h1, h2⟩

/-- C60 once more, also for an empty first text -/
theorem join_lines {unq : Unquote} {a z : Str} {d : Dockerfile} (h : Dockerfile.parse unq a = .ok d)
    (ha : LineStart a z) (hs : ∀ i ∈ d.instructions, i.span.stop < blen a) (hu : Undisturbed a z d) :
    Dockerfile.parse unq (a ++ z) = (Dockerfile.parse unq z).map fun d' =>
      documentOf (a ++ z) (d.instructions ++ d'.instructions.map (·.remap (· + blen a))) := by
  rcases ha with rfl | ⟨s, n, rfl, hn⟩
  · cases (parse_nothing unq).symm.trans h
    cases hz : Dockerfile.parse unq z with
    | error e => exact hz
    | ok d' =>
      have := map_same (r := Instruction.remap (· + blen [])) Instruction.remap_same d'.instructions
      show Dockerfile.parse unq z = .ok (documentOf z ([] ++ d'.instructions.map _))
      rw [this, hz]
      exact congrArg Except.ok (documentOf_same hz).symm
  · have main : ∀ s n : Str, LineBreak n z → blen n = 1 → Dockerfile.parse unq (s ++ n) = .ok d →
        (∀ i ∈ d.instructions, i.span.stop < blen (s ++ n)) → Undisturbed (s ++ n) z d →
        Dockerfile.parse unq (s ++ n ++ z) = (Dockerfile.parse unq z).map fun d' =>
          documentOf (s ++ n ++ z) (d.instructions ++ d'.instructions.map (·.remap (· + blen (s ++ n)))) := by
      intro s n hn hl h hs hu
      refine C60_join h hn (fun i hi => ?_) hu
      have := hs i hi
      rw [blen_append] at this
      omega
    rcases hn with rfl | rfl | hn
    · exact main s _ (.inl rfl) rfl h hs hu
    · have e : s ++ ['\r', '\n'] = (s ++ ['\r']) ++ ['\n'] := by simp
      rw [e] at h hs hu ⊢
      exact main _ _ (.inl rfl) rfl h hs hu
    · exact main s n (.inr (.inr hn)) (by rw [hn.1]; rfl) h hs hu

theorem numbered_before {js ks : List Instruction} : ∀ n, ∃ m,
    numberStages n (js ++ ks) = numberStages n js ++ numberStages m ks := by
  induction js with
  | nil => intro n; exact ⟨n, rfl⟩
  | cons j js ih =>
    intro n
    cases j
    case «from» f =>
      obtain ⟨m, h⟩ := ih (n + 1)
      exact ⟨m, by simp [numberStages, h]⟩
    all_goals
      obtain ⟨m, h⟩ := ih n
      exact ⟨m, by simp [numberStages, h]⟩

theorem Instruction.remap_span (f : Nat → Nat) (x : Instruction) : (x.remap f).span = x.span.remap f := by
  cases x <;> rfl

/-- C71: Lines of a document are exchanged for others.  The document is `a ++ (t ++ b)`; `a` and `t` end
with line breaks that are not part of instructions.  The new lines `t'` are a document of the same kind,
and nothing that is left open in `a` is closed in `t' ++ b`, and nothing in `t'` in `b`.  Then the
instructions of the new text are those of `a`, those of `t'` moved, and those of `b` moved; the
instructions of `t` are gone. -/
theorem C71_exchange {unq : Unquote} {a t b t' : Str} {d d' : Dockerfile}
    (h : Dockerfile.parse unq (a ++ (t ++ b)) = .ok d)
    (ha : LineStart a (t ++ b)) (hs : Apart d (blen a)) (hb : LineStart (a ++ t) b) (hs' : Apart d (blen (a ++ t)))
    (h' : Dockerfile.parse unq t' = .ok d') (ht : LineStart t' b) (hd : ∀ i ∈ d'.instructions, i.span.stop < blen t')
    (ha' : LineStart a (t' ++ b)) (hu : ∀ d1, Dockerfile.parse unq a = .ok d1 → Undisturbed a (t' ++ b) d1)
    (hu' : Undisturbed t' b d') :
    ∃ pre mid post, d.instructions = pre ++ (mid ++ post) ∧ (∀ i ∈ pre, i.span.stop < blen a) ∧
      (∀ i ∈ mid, blen a ≤ i.span.start ∧ i.span.stop < blen (a ++ t)) ∧
      (∀ i ∈ post, blen (a ++ t) ≤ i.span.start) ∧
      Dockerfile.parse unq (a ++ (t' ++ b)) = .ok (documentOf (a ++ (t' ++ b))
        (pre ++ (d'.instructions.map (·.remap (· + blen a)) ++
          post.map (·.remap fun q => q - blen (a ++ t) + blen (a ++ t'))))) := by
  rw [← List.append_assoc] at h
  obtain ⟨d12, d3, p12, p3, b12, rfl⟩ := C71_split h hb hs'
  obtain ⟨m2, e2⟩ := numbered_before (js := d12.instructions)
    (ks := d3.instructions.map (·.remap (· + blen (a ++ t)))) 0
  have n12 : numberStages 0 d12.instructions = d12.instructions :=
    congrArg Dockerfile.instructions (documentOf_same p12)
  rw [n12] at e2
  have e2 : (documentOf (a ++ t ++ b) (d12.instructions ++ d3.instructions.map (·.remap (· + blen (a ++ t))))).instructions =
    _ := e2
  have ha1 : LineStart a t := ha.imp id fun ⟨s, n, h1, h2⟩ => ⟨s, n, h1, h2.cut⟩
  obtain ⟨d1, d2, p1, p2, b1, e12⟩ := C71_split p12 ha1 (fun i hi => hs i (by rw [e2]; simp [hi]))
  obtain ⟨m1, e1⟩ := numbered_before (js := d1.instructions) (ks := d2.instructions.map (·.remap (· + blen a))) 0
  have n1 : numberStages 0 d1.instructions = d1.instructions := congrArg Dockerfile.instructions (documentOf_same p1)
  rw [n1] at e1
  have e12 : d12.instructions = _ := (congrArg Dockerfile.instructions e12).trans e1
  refine ⟨d1.instructions, numberStages m1 (d2.instructions.map (·.remap (· + blen a))),
    numberStages m2 (d3.instructions.map (·.remap (· + blen (a ++ t)))),
    by rw [e2, e12, List.append_assoc], b1, ?_, ?_, ?_⟩
  · intro i hi
    refine ⟨?_, b12 i (by rw [e12]; simp [hi])⟩
    obtain ⟨x, hx, e⟩ := of_numbered hi
    obtain ⟨y, -, rfl⟩ := List.mem_map.1 hx
    rw [← e, Instruction.remap_span]
    exact Nat.le_add_left _ _
  · intro i hi
    obtain ⟨x, hx, e⟩ := of_numbered hi
    obtain ⟨y, -, rfl⟩ := List.mem_map.1 hx
    rw [← e, Instruction.remap_span]
    exact Nat.le_add_left _ _
  · have j1 := join_lines h' ht hd hu'
    rw [p3] at j1
    have j1 : Dockerfile.parse unq (t' ++ b) = .ok (documentOf (t' ++ b)
      (d'.instructions ++ d3.instructions.map (·.remap (· + blen t')))) := j1
    rw [join_lines p1 ha' b1 (hu d1 p1), j1]
    refine congrArg Except.ok ?_
    have hr : (d3.instructions.map (·.remap (· + blen (a ++ t)))).map
        (·.remap fun q => q - blen (a ++ t) + blen (a ++ t')) =
        (d3.instructions.map (·.remap (· + blen t'))).map (·.remap (· + blen a)) := by
      rw [List.map_map, List.map_map]
      refine List.map_congr_left fun x _ => ?_
      simp only [Function.comp_def, Instruction.remap_remap]
      congr 1
      funext q
      simp only [blen_append]
      omega
    have hn : (numberStages m2 (d3.instructions.map (·.remap (· + blen (a ++ t))))).map
        (·.remap fun q => q - blen (a ++ t) + blen (a ++ t')) =
        numberStages m2 ((d3.instructions.map (·.remap (· + blen t'))).map (·.remap (· + blen a))) := by
      rw [← Src.numberStages_remap, hr]
    rw [hn, ← List.append_assoc]
    simp only [documentOf, ← Src.numberStages_remap, numberStages_app_right, globalArgs_app_right, List.map_append,
      List.append_assoc]
    rw [← List.append_assoc d1.instructions, ← List.append_assoc d1.instructions, numberStages_app_right,
      globalArgs_app_right]

/-- C71: lines are taken out. -/
theorem C71_delete {unq : Unquote} {a t b : Str} {d : Dockerfile}
    (h : Dockerfile.parse unq (a ++ (t ++ b)) = .ok d)
    (ha : LineStart a (t ++ b)) (hs : Apart d (blen a)) (hb : LineStart (a ++ t) b) (hs' : Apart d (blen (a ++ t)))
    (ha' : LineStart a b) (hu : ∀ d1, Dockerfile.parse unq a = .ok d1 → Undisturbed a b d1) :
    ∃ pre mid post, d.instructions = pre ++ (mid ++ post) ∧ (∀ i ∈ pre, i.span.stop < blen a) ∧
      (∀ i ∈ mid, blen a ≤ i.span.start ∧ i.span.stop < blen (a ++ t)) ∧
      (∀ i ∈ post, blen (a ++ t) ≤ i.span.start) ∧
      Dockerfile.parse unq (a ++ b) = .ok (documentOf (a ++ b) (pre ++
        post.map (·.remap fun q => q - blen (a ++ t) + blen a))) := by
  obtain ⟨pre, mid, post, e, h1, h2, h3, h4⟩ := C71_exchange (t' := []) h ha hs hb hs' (parse_nothing unq) (.inl rfl)
    (fun i hi => by cases hi) ha' hu (fun i hi => by cases hi)
  rw [List.append_nil] at h4
  exact ⟨pre, mid, post, e, h1, h2, h3, h4⟩

/-- C71: lines are put in. -/
theorem C71_insert {unq : Unquote} {a b t' : Str} {d d' : Dockerfile}
    (h : Dockerfile.parse unq (a ++ b) = .ok d) (ha : LineStart a b) (hs : Apart d (blen a))
    (h' : Dockerfile.parse unq t' = .ok d') (ht : LineStart t' b) (hd : ∀ i ∈ d'.instructions, i.span.stop < blen t')
    (ha' : LineStart a (t' ++ b)) (hu : ∀ d1, Dockerfile.parse unq a = .ok d1 → Undisturbed a (t' ++ b) d1)
    (hu' : Undisturbed t' b d') :
    ∃ pre post, d.instructions = pre ++ post ∧ (∀ i ∈ pre, i.span.stop < blen a) ∧
      (∀ i ∈ post, blen a ≤ i.span.start) ∧
      Dockerfile.parse unq (a ++ (t' ++ b)) = .ok (documentOf (a ++ (t' ++ b))
        (pre ++ (d'.instructions.map (·.remap (· + blen a)) ++
          post.map (·.remap fun q => q - blen a + blen (a ++ t'))))) := by
  have e : a ++ [] = a := List.append_nil a
  obtain ⟨pre, mid, post, e1, h1, h2, h3, h4⟩ := C71_exchange (t := []) h ha hs (by rw [e]; exact ha)
    (by rw [e]; exact hs) h' ht hd ha' hu hu'
  rw [e] at h2 h3 h4
  have : mid = [] := by
    cases mid with
    | nil => rfl
    | cons i mid =>
      have g1 := h2 i (by simp)
      have g2 := C04_span_bounds unq _ _ h i (by rw [e1]; simp) i.span (by cases i <;> exact List.mem_cons_self)
      omega
  subst this
  exact ⟨pre, post, e1, h1, h3, h4⟩

/-- C71 and the splicer: the text `u` at the span of an instruction is replaced by `w`.  Before it on
its lines stands `g`, after it `e`, with the line break.  (`g ++ w ++ e` has to be a document.) -/
theorem C71_splice {unq : Unquote} {a g u e b w : Str} {d d' : Dockerfile} {sp : Span}
    (h : Dockerfile.parse unq (a ++ (g ++ u ++ e ++ b)) = .ok d)
    (h1 : sp.start = blen (a ++ g)) (h2 : sp.stop = blen (a ++ g ++ u))
    (ha : LineStart a (g ++ u ++ e ++ b)) (hs : Apart d (blen a))
    (hb : LineStart (a ++ (g ++ u ++ e)) b) (hs' : Apart d (blen (a ++ (g ++ u ++ e))))
    (h' : Dockerfile.parse unq (g ++ w ++ e) = .ok d') (ht : LineStart (g ++ w ++ e) b)
    (hd : ∀ i ∈ d'.instructions, i.span.stop < blen (g ++ w ++ e))
    (ha' : LineStart a (g ++ w ++ e ++ b))
    (hu : ∀ d1, Dockerfile.parse unq a = .ok d1 → Undisturbed a (g ++ w ++ e ++ b) d1)
    (hu' : Undisturbed (g ++ w ++ e) b d') :
    ∃ pre mid post, d.instructions = pre ++ (mid ++ post) ∧ (∀ i ∈ pre, i.span.stop < blen a) ∧
      (∀ i ∈ mid, blen a ≤ i.span.start ∧ i.span.stop < blen (a ++ (g ++ u ++ e))) ∧
      (∀ i ∈ post, blen (a ++ (g ++ u ++ e)) ≤ i.span.start) ∧
      ∃ s, ((Splicer.ofDockerfile d).splice sp w).map Splicer.content = some s ∧
        Dockerfile.parse unq s = .ok (documentOf s
          (pre ++ (d'.instructions.map (·.remap (· + blen a)) ++
            post.map (·.remap fun q => q - blen (a ++ (g ++ u ++ e)) + blen (a ++ (g ++ w ++ e)))))) := by
  obtain ⟨pre, mid, post, e1, g1, g2, g3, g4⟩ := C71_exchange h ha hs hb hs' h' ht hd ha' hu hu'
  refine ⟨pre, mid, post, e1, g1, g2, g3, _, ?_, g4⟩
  have hc : d.content = a ++ g ++ u ++ (e ++ b) := by
    rw [show d.content = _ from (congrArg Dockerfile.content (documentOf_same h)).symm]
    simp [documentOf]
  have := C21_single_splice d.content sp w (a ++ g) u (e ++ b) hc h1 (by rw [h2, blen_append])
  rw [show Splicer.ofDockerfile d = Splicer.fromStr d.content from rfl, this]
  simp

/-- nothing is left open where nothing can be -/
theorem undisturbed_quiet {s z : Str} {d : Dockerfile}
    (h : ∀ i ∈ d.instructions, quoteSpots i = [] ∧ arraySpots i = [] ∧ wordSpots i = []) : Undisturbed s z d := by
  intro i hi
  obtain ⟨h1, h2, h3⟩ := h i hi
  refine ⟨fun p hp => ?_, fun p hp => ?_, fun p hp => ?_⟩
  · rw [h1] at hp; cases hp
  · rw [h2] at hp; cases hp
  · rw [h3] at hp; cases hp

/- A line is exchanged for two, with the splicer: the span of `COPY` gets the text of two other
instructions.  What is before keeps its place, what is after moves. -/
def splitA : Str := c!"FROM x\nRUN [\"p\"]\n"
def splitB : Str := c!"ENV k=\"v\"\nFROM w\n"
def splitDoc : Dockerfile :=
  { content := splitA ++ (c!"  " ++ c!"COPY y z" ++ c!" \n" ++ splitB)
    global_args := []
    instructions := [
      .from ⟨⟨0, 6⟩, [], ⟨⟨5, 6⟩, c!"x"⟩, ⟨none, c!"x", none, none⟩, 0, none⟩,
      .run ⟨⟨7, 16⟩, .exec ⟨⟨11, 16⟩, [⟨⟨12, 15⟩, c!"p"⟩]⟩⟩,
      .copy ⟨⟨19, 27⟩, [], [⟨⟨24, 25⟩, c!"y"⟩], ⟨⟨26, 27⟩, c!"z"⟩⟩,
      .env ⟨⟨29, 38⟩, [⟨⟨33, 38⟩, ⟨⟨33, 34⟩, c!"k"⟩, ⟨⟨35, 38⟩, [.string ⟨⟨35, 38⟩, c!"v"⟩]⟩⟩]⟩,
      .from ⟨⟨39, 45⟩, [], ⟨⟨44, 45⟩, c!"w"⟩, ⟨none, c!"w", none, none⟩, 1, none⟩] }

example : ∃ pre mid post, splitDoc.instructions = pre ++ (mid ++ post) ∧ (∀ i ∈ pre, i.span.stop < blen splitA) ∧
    (∀ i ∈ mid, blen splitA ≤ i.span.start ∧ i.span.stop < blen (splitA ++ (c!"  " ++ c!"COPY y z" ++ c!" \n"))) ∧
    (∀ i ∈ post, blen (splitA ++ (c!"  " ++ c!"COPY y z" ++ c!" \n")) ≤ i.span.start) ∧
    ∃ s, ((Splicer.ofDockerfile splitDoc).splice ⟨19, 27⟩ c!"FROM v\nCMD [\"é\"]").map Splicer.content = some s ∧
      Dockerfile.parse Enquote.unquote s = .ok (documentOf s (pre ++
        (([.from ⟨⟨2, 8⟩, [], ⟨⟨7, 8⟩, c!"v"⟩, ⟨none, c!"v", none, none⟩, 0, none⟩,
          .cmd ⟨⟨9, 19⟩, .exec ⟨⟨13, 19⟩, [⟨⟨14, 18⟩, c!"é"⟩]⟩⟩] : List Instruction).map (·.remap (· + blen splitA)) ++
          post.map (·.remap fun q => q - blen (splitA ++ (c!"  " ++ c!"COPY y z" ++ c!" \n")) +
            blen (splitA ++ (c!"  " ++ c!"FROM v\nCMD [\"é\"]" ++ c!" \n")))))) := by
  refine C71_splice (unq := Enquote.unquote) (b := splitB) (d := splitDoc)
    (d' := ⟨c!"  FROM v\nCMD [\"é\"] \n", [], [.from ⟨⟨2, 8⟩, [], ⟨⟨7, 8⟩, c!"v"⟩, ⟨none, c!"v", none, none⟩, 0, none⟩,
          .cmd ⟨⟨9, 19⟩, .exec ⟨⟨13, 19⟩, [⟨⟨14, 18⟩, c!"é"⟩]⟩⟩]⟩)
    (by decide +kernel) rfl rfl (.inr ⟨c!"FROM x\nRUN [\"p\"]", ['\n'], rfl, .inl rfl⟩) (by unfold Apart; decide +kernel)
    (.inr ⟨splitA ++ c!"  COPY y z ", ['\n'], rfl, .inl rfl⟩) (by unfold Apart; decide +kernel) (by decide +kernel)
    (.inr ⟨c!"  FROM v\nCMD [\"é\"] ", ['\n'], rfl, .inl rfl⟩) (by decide +kernel)
    (.inr ⟨c!"FROM x\nRUN [\"p\"]", ['\n'], rfl, .inl rfl⟩) ?_ (undisturbed_quiet (by decide +kernel))
  intro d1 h1
  have h2 : Dockerfile.parse Enquote.unquote splitA = .ok (documentOf splitA (splitDoc.instructions.take 2)) := by
    decide +kernel
  cases h1.symm.trans h2
  exact undisturbed_quiet (by decide +kernel)

/- The new document, computed. -/
example : (Dockerfile.parse Enquote.unquote (splitA ++ (c!"  FROM v\nCMD [\"é\"] \n" ++ splitB))).toOption.map
      (fun d => (d.instructions.map (·.span), d.instructions.filterMap fun | .from f => some f.index | _ => none)) =
    some ([⟨0, 6⟩, ⟨7, 16⟩, ⟨19, 25⟩, ⟨26, 36⟩, ⟨38, 47⟩, ⟨48, 54⟩], [0, 1, 2]) := by decide +kernel

/-- C71: the condition that nothing is left open is needed.  When the second of three lines is taken
out, the first and the third are one instruction. -/
theorem C71_open :
    (Dockerfile.parse Enquote.unquote c!"RUN [\"a\nCOPY b\" c\nX \"]\n").toOption.map (·.instructions.map (·.span)) =
      some [⟨0, 7⟩, ⟨8, 17⟩, ⟨18, 22⟩] ∧
    (Dockerfile.parse Enquote.unquote c!"RUN [\"a\nX \"]\n").toOption.map (·.instructions) =
      some [.run ⟨⟨0, 12⟩, .exec ⟨⟨4, 12⟩, [⟨⟨5, 11⟩, c!"a\nX "⟩]⟩⟩] := by
  decide +kernel

/-- C71: a document cannot be cut inside an instruction, even after a line break. -/
theorem C71_inside :
    (Dockerfile.parse Enquote.unquote c!"COPY a \\\n b\n").toOption.map (·.instructions.map (·.span)) = some [⟨0, 11⟩] ∧
    Dockerfile.parse Enquote.unquote c!" b\n" = .error (.err .parseError) := by
  decide +kernel

end Verif
