import Verif.Proof.EditValue

/-!
# The values of documents with new texts, and where the texts are
-/

namespace Verif
namespace Src
open Spec

variable {unq : Unquote} {es : List Edit} {m : Nat → Nat}

theorem item_moves {new} {i : Item} {p p'} (h : Moves m new p p' i.segs) :
    Span.remap m ⟨p, p + blen i.text⟩ = ⟨p', p' + blen (i.put new p).text⟩ := by
  have := h.stop
  rw [item_put, item_text] at this
  simp only [Span.remap]
  rw [h.start, this]

theorem item_edited {i : Item} {r : Str} {p p' : Nat} {o} (hf : i.Fits r)
    (hok : SegOK unq (newImage es) p i.segs) (hm : Moves m (newImage es) p p' i.segs)
    (he : i.eval unq p = .ok o) :
    (i.put (newImage es) p).eval unq p' = .ok (o.map fun x => (newInstr es unq x).remap m) := by
  have hs := item_moves hm
  have hr := hok.fix
  have hk := hm.1
  have hm' := hm.2
  cases i with
  | blank => cases he; rfl
  | comment t => cases he; rfl
  | «from» kw fs g i a =>
    simp only [Item.kw, Item.rest] at hr hk hm'
    obtain ⟨k1, k2⟩ := hr.append
    obtain ⟨m1, m2⟩ := hm'.append
    rw [flags_text] at k2
    rw [flags_text, flags_put, flags_text] at m2
    obtain ⟨k3, k4⟩ := k2.fix.fld
    obtain ⟨-, m3, m4⟩ := m2
    obtain ⟨xs, e1, e2⟩ := bind_split he
    obtain ⟨u, e3, e4⟩ := bind_split e2
    cases e4
    have f1 := flags_value k1 m1 e1
    have f2 := field_raw k3 rfl m3 m4.start
    have hd : checkDigest (put (newImage es) (p + blen kw + blen (flagsText fs) + blen g) i) = .ok () := by
      rcases put_cases k3 with e | ⟨-, h⟩
      · rw [e]; exact e3
      · exact checkDigest_ok.2 h.2
    simp only [Item.put, Item.eval]
    rw [f1]
    show (checkDigest _ >>= _) = _
    rw [hd]
    refine congrArg (fun x => Except.ok (some x)) (congrArg Instruction.from ?_)
    simp only [FromInstruction.remap, List.map_map]
    rw [f2, hs]
    congr 1
    · have := congrArg SpannedString.content f2
      simp only [SpannedString.remap] at this
      rw [this]
    · cases a with
      | none => rfl
      | some a =>
        have k5 : FieldOK unq (newImage es) .ident _ a.name := k4.fix.fix.fix.fld.1
        have f3 := field_raw k5 rfl m4.2.2.2.1 m4.2.2.2.2
        simp only [Option.map_some, AliasText.name_at]
        rw [f3]
        rfl
  | arg kw g n v =>
    simp only [Item.kw, Item.rest] at hr hk hm'
    obtain ⟨k1, k2⟩ := hr.fix.fld
    obtain ⟨-, m1, m2⟩ := hm'
    have f1 := field_raw k1 rfl m1 m2.start
    cases v with
    | none =>
      cases he
      refine congrArg (fun x => Except.ok (some x)) (congrArg Instruction.arg ?_)
      simp only [ArgInstruction.remap, newArg]
      rw [f1, hs]
      rfl
    | some v =>
      obtain ⟨c, e1, e2⟩ := bind_split he
      cases e2
      have k3 : FieldOK unq (newImage es) .value (p + blen kw + blen g + blen n + 1) v.text := k2.fix.fld.1
      obtain ⟨c', e2, e3⟩ := field_str (ev := read unq) (f := contentOf unq) k3 (fun _ _ h => readable h) e1 rfl
        m2.2.1 m2.2.2
      simp only [Item.put, Item.eval, Option.map_some, Value.put_text]
      rw [e2]
      refine congrArg (fun x => Except.ok (some x)) (congrArg Instruction.arg ?_)
      simp only [ArgInstruction.remap, newArg, Option.map_some]
      rw [f1, e3, hs]
      simp only [Item.put, Option.map_some]
      rfl
  | label kw ps t =>
    simp only [Item.kw, Item.rest] at hr hk hm'
    obtain ⟨xs, e1, e2⟩ := bind_split he
    cases e2
    have f1 := pairs_value (fun f r p p' x h1 h2 h3 h4 => label_value h1 h2 h3 h4) hf.2.1 hr.append.1 hm'.append.1 e1
    simp only [Item.put, Item.eval]
    rw [f1]
    refine congrArg (fun x => Except.ok (some x)) (congrArg Instruction.label ?_)
    simp only [LabelInstruction.remap, List.map_map]
    rw [hs]
    rfl
  | label1 kw g n g' v =>
    simp only [Item.kw, Item.rest] at hr hk hm'
    obtain ⟨k1, k2⟩ := hr.fix.fld
    have k3 : FieldOK unq (newImage es) .label (p + blen kw + blen g + blen n.text + blen g') v.text := k2.fix.fld.1
    obtain ⟨m0, m1, m2, m3, m4⟩ := hm'
    obtain ⟨c, e1, e2⟩ := bind_split he
    obtain ⟨d, e3, e4⟩ := bind_split e2
    cases e4
    obtain ⟨c', e5, e6⟩ := label_read hf.2.2.1.tame k1 e1 rfl m1 (m2 0 (Nat.zero_le _))
    obtain ⟨d', e7, e8⟩ := label_read hf.2.2.2.2.tame k3 e3 rfl m3 m4
    have m5 : m (p + blen kw) = p' + blen kw := m0 0 (Nat.zero_le _)
    simp only [Item.put, Item.eval, Value.put_text]
    rw [e5]
    show (Value.readLabel unq _ >>= _) = _
    rw [e7]
    refine congrArg (fun x => Except.ok (some x)) (congrArg Instruction.label ?_)
    simp only [LabelInstruction.remap, List.map_cons, List.map_nil, Label.remap]
    rw [e6, e8, hs]
    simp only [Span.remap]
    rw [m5, m4]
    rfl
  | shell k kw g s =>
    simp only [Item.kw, Item.rest] at hr hk hm'
    have f1 := shell_string hr.fix hm'.2
    simp only [Item.put, Item.eval] at he ⊢
    split at he
    · cases he
    · rename_i hg
      cases he
      rw [if_neg hg, f1]
      refine congrArg (fun x => Except.ok (some x)) ?_
      cases k <;> refine congrArg _ ?_ <;> simp only [ExecInstruction.remap, newExec] <;> rw [hs] <;> rfl
  | exec k kw g a =>
    simp only [Item.kw, Item.rest] at hr hk hm'
    simp only [Item.put, Item.eval] at he ⊢
    split at he
    · cases he
    · rename_i hg
      obtain ⟨xs, e1, e2⟩ := bind_split he
      cases e2
      have f1 := array_value hf.2.2 hr.fix hm'.2 e1
      have f2 := hm'.2.stop
      rw [array_put, array_text, array_text] at f2
      have f3 := hm'.2.start
      rw [if_neg hg, f1]
      refine congrArg (fun x => Except.ok (some x)) ?_
      cases k <;> refine congrArg _ ?_ <;>
        simp only [ExecInstruction.remap, newExec, newExpr, ShellOrExecExpr.remap, StringArray.remap, List.map_map] <;>
        rw [hs] <;> simp only [Span.remap] <;> rw [f2, f3] <;> rfl
  | copy kw fs ss d =>
    simp only [Item.kw, Item.rest] at hr hk hm'
    obtain ⟨k1, k2⟩ := hr.append
    obtain ⟨m1, m2⟩ := hm'.append
    rw [flags_text] at k2
    rw [flags_text, flags_put, flags_text] at m2
    obtain ⟨k3, k4⟩ := k2.append
    obtain ⟨m3, m4⟩ := m2.append
    rw [args_text] at k4
    rw [args_text, args_put, args_text] at m4
    obtain ⟨xs, e1, e2⟩ := bind_split he
    obtain ⟨ys, e3, e4⟩ := bind_split e2
    obtain ⟨y, e5, e6⟩ := bind_split e4
    cases e6
    simp only [Item.put, Item.eval]
    rw [flags_value k1 m1 e1]
    show (evalArgs unq _ _ >>= _) = _
    rw [args_value k3 m3 e3]
    show (Arg.eval unq _ _ >>= _) = _
    rw [arg_value k4 m4 e5]
    refine congrArg (fun x => Except.ok (some x)) (congrArg Instruction.copy ?_)
    simp only [CopyInstruction.remap, List.map_map]
    rw [hs]
    rfl
  | env kw ps t =>
    simp only [Item.kw, Item.rest] at hr hk hm'
    obtain ⟨xs, e1, e2⟩ := bind_split he
    cases e2
    have f1 := pairs_value (fun f r p p' x h1 h2 h3 h4 => env_value h1 h2 h3 h4) hf.2.1 hr.append.1 hm'.append.1 e1
    simp only [Item.put, Item.eval]
    rw [f1]
    refine congrArg (fun x => Except.ok (some x)) (congrArg Instruction.env ?_)
    simp only [EnvInstruction.remap, List.map_map]
    rw [hs]
    rfl
  | env1 kw g n g' s =>
    simp only [Item.kw, Item.rest] at hr hk hm'
    obtain ⟨k1, k2⟩ := hr.fix.fld
    obtain ⟨-, m1, m2, m3⟩ := hm'
    cases he
    have f1 := field_raw k1 rfl m1 (m2 0 (Nat.zero_le _))
    have f2 := shell_env hf.2.2.2.2.2.2 k2.fix m3
    have f3 := (shell_moves m3).2
    simp only [Item.put, Item.eval]
    refine congrArg (fun x => Except.ok (some x)) (congrArg Instruction.env ?_)
    simp only [EnvInstruction.remap, List.map_cons, List.map_nil, EnvVar.remap, newVar]
    rw [f1, hs, ← f2]
    simp only [Span.remap]
    rw [m1, f3]
    rfl
  | env1q kw g n g' v =>
    simp only [Item.kw, Item.rest] at hr hk hm'
    obtain ⟨k1, k2⟩ := hr.fix.fld
    have k3 : FieldOK unq (newImage es) .env (p + blen kw + blen g + blen n + blen g') v := k2.fix.fld.1
    obtain ⟨-, m1, m2, m3, m4⟩ := hm'
    obtain ⟨c, e1, e2⟩ := bind_split he
    cases e2
    have f1 := field_raw k1 rfl m1 (m2 0 (Nat.zero_le _))
    obtain ⟨c', e3, e4⟩ := env_read (v := .quoted v) (r := []) hf.2.2.2.2.2 k3 e1 rfl m3 m4
    have e3 : unquoted unq (put (newImage es) (p + blen kw + blen g + blen n + blen g') v) = .ok c' := e3
    simp only [Value.text] at e4 m4
    simp only [Item.put, Item.eval]
    rw [e3]
    refine congrArg (fun x => Except.ok (some x)) (congrArg Instruction.env ?_)
    simp only [EnvInstruction.remap, List.map_cons, List.map_nil, EnvVar.remap, newVar, newBreakable,
      List.length_cons, List.length_nil, if_true, Nat.zero_add, BreakableString.remap, newComponent,
      BreakableStringComponent.remap]
    rw [f1, hs, e4]
    simp only [Span.remap]
    rw [m1, m3, m4]
    rfl
  | misc w a =>
    simp only [Item.kw, Item.rest] at hr hk hm'
    cases he
    have f1 := shell_string hr hm'
    simp only [Item.put, Item.eval]
    refine congrArg (fun x => Except.ok (some x)) (congrArg Instruction.misc ?_)
    simp only [MiscInstruction.remap, SpannedString.remap]
    rw [hs, ← f1]
    simp only [Span.remap]
    rw [hm.start, hm'.start]
    rfl

theorem doc_edited {ms : List (Str × Line)} : ∀ {l : Line} {p p' : Nat} {is}, DocFits l ms →
    SegOK unq (newImage es) p (docSegs l ms) → Moves m (newImage es) p p' (docSegs l ms) →
    evalDoc unq p l ms = .ok is →
    evalDoc unq p' (l.put (newImage es) p) (docPut (newImage es) (p + blen l.text) ms) =
      .ok (is.map fun x => (newInstr es unq x).remap m) := by
  have line : ∀ {l : Line} {p p' : Nat} {r o}, l.Fits r → SegOK unq (newImage es) p l.segs →
      Moves m (newImage es) p p' l.segs → l.item.eval unq (p + blen l.indent) = .ok o →
      (l.put (newImage es) p).item.eval unq (p' + blen (l.put (newImage es) p).indent) =
        .ok (o.map fun x => (newInstr es unq x).remap m) := by
    intro l p p' r o hl hok hm he
    exact item_edited hl.2.1 hok.fix.append.1 hm.2.append.1 he
  induction ms with
  | nil =>
    intro l p p' is hl hok hm he
    obtain ⟨o, e1, e2⟩ := bind_split he
    cases e2
    rw [docPut, evalDoc, line hl hok hm e1]
    cases o <;> rfl
  | cons x ms ih =>
    obtain ⟨n, l'⟩ := x
    intro l p p' is hl hok hm he
    obtain ⟨o, e1, e2⟩ := bind_split he
    obtain ⟨js, e3, e4⟩ := bind_split e2
    cases e4
    obtain ⟨k1, k2⟩ := hok.append
    obtain ⟨m1, m2⟩ := hm.append
    rw [line_segs_text] at k2
    rw [line_segs_text, line_put] at m2
    rw [docPut, evalDoc, line hl.1 k1 m1 e1]
    show (evalDoc unq _ _ _ >>= _) = _
    rw [ih hl.2.2 k2.fix m2.2 e3]
    refine congrArg Except.ok ?_
    cases o <;> simp

/-! ## the fields -/

/-- there is a field with this span, and texts with `P` may be put there -/
def Has (unq : Unquote) (p : Nat) (ss : List Seg) (x : Field) : Prop :=
  ∃ y ∈ segFields p ss, x.1 = fieldSpan y ∧ ∀ t, x.2 t → y.1.Ok unq t

theorem Has.fix {p t ss x} (h : Has unq (p + blen t) ss x) : Has unq p (.fix t :: ss) x := h

theorem Has.here {p k t ss P z} (hz : z = p + blen t) (h : ∀ t, P t → Kind.Ok unq k t) :
    Has unq p (.fld k t :: ss) (⟨p, z⟩, P) :=
  ⟨(k, t, p), by simp [segFields], by subst hz; rfl, h⟩

theorem Has.fld {p k t ss x} (h : Has unq (p + blen t) ss x) : Has unq p (.fld k t :: ss) x := by
  obtain ⟨y, h1, h2⟩ := h
  exact ⟨y, by simp [segFields, h1], h2⟩

theorem Has.left {p ss ts x} (h : Has unq p ss x) : Has unq p (ss ++ ts) x := by
  obtain ⟨y, h1, h2⟩ := h
  exact ⟨y, by simp [segFields_append, h1], h2⟩

theorem Has.right {p ss ts x} (h : Has unq (p + blen (segText ss)) ts x) : Has unq p (ss ++ ts) x := by
  obtain ⟨y, h1, h2⟩ := h
  exact ⟨y, by simp [segFields_append, h1], h2⟩

theorem flags_has {fs : List Flag} : ∀ {p xs}, evalFlags unq p fs = .ok xs →
    ∀ x ∈ xs.flatMap (Spec.flagFields unq), Has unq p (flagsSegs fs) x := by
  induction fs with
  | nil => intro p xs he x hx; cases he; cases hx
  | cons f fs ih =>
    intro p xs he x hx
    obtain ⟨a, e1, e2⟩ := bind_split he
    obtain ⟨ys, e3, e4⟩ := bind_split e2
    cases e4
    rw [show flagsSegs (f :: fs) = f.segs ++ flagsSegs fs by simp [flagsSegs]]
    rw [List.flatMap_cons] at hx
    rcases List.mem_append.1 hx with hx | hx
    · obtain ⟨c, -, e⟩ := bind_split e1
      cases e
      refine Has.left ?_
      have hb := flag_body_blen f
      simp only [Spec.flagFields, List.mem_cons, List.not_mem_nil, or_false] at hx
      rcases hx with rfl | rfl
      · exact .fix (.fix (.here rfl fun _ h => h))
      · refine .fix (.fix (.fld (.fix (.here (k := .value) ?_ fun _ h => h))))
        show p + blen f.gap + blen f.body = p + blen f.gap + 2 + blen f.name + 1 + blen f.value
        omega
    · have := ih e3 x hx
      refine Has.right ?_
      rwa [show segText f.segs = f.text by simp [Flag.segs, Flag.text, Flag.body]]

theorem arg_has {f : Arg} {p x} (he : f.eval unq p = .ok x) :
    Has unq p f.segs (x.span, fun t => Readable unq t ∧ ¬ LooksLikeFlag t) := by
  obtain ⟨c, -, e⟩ := bind_split he
  cases e
  exact .fix (.here rfl fun _ h => h)

theorem args_has {fs : List Arg} : ∀ {p xs}, evalArgs unq p fs = .ok xs →
    ∀ x ∈ xs, Has unq p (argsSegs fs) (x.span, fun t => Readable unq t ∧ ¬ LooksLikeFlag t) := by
  induction fs with
  | nil => intro p xs he x hx; cases he; cases hx
  | cons f fs ih =>
    intro p xs he x hx
    obtain ⟨a, e1, e2⟩ := bind_split he
    obtain ⟨ys, e3, e4⟩ := bind_split e2
    cases e4
    rw [show argsSegs (f :: fs) = f.segs ++ argsSegs fs by simp [argsSegs]]
    rcases List.mem_cons.1 hx with rfl | hx
    · exact .left (arg_has e1)
    · refine .right ?_
      rw [arg_text]
      exact ih e3 x hx

theorem pairs_has {α : Type} {ev : Nat → Pair → Result α} {F : α → List Field} {k v : Kind}
    (hev : ∀ f p a, ev p f = .ok a → ∀ x ∈ F a, Has unq p (f.segs k v) x) {fs : List Pair} : ∀ {p xs},
    evalPairs ev p fs = .ok xs → ∀ x ∈ xs.flatMap F, Has unq p (pairsSegs k v fs) x := by
  induction fs with
  | nil => intro p xs he x hx; cases he; cases hx
  | cons f fs ih =>
    intro p xs he x hx
    obtain ⟨a, e1, e2⟩ := bind_split he
    obtain ⟨ys, e3, e4⟩ := bind_split e2
    cases e4
    rw [show pairsSegs k v (f :: fs) = f.segs k v ++ pairsSegs k v fs by simp [pairsSegs]]
    rw [List.flatMap_cons] at hx
    rcases List.mem_append.1 hx with hx | hx
    · exact .left (hev _ _ _ e1 x hx)
    · refine .right ?_
      rw [pair_text]
      exact ih e3 x hx

theorem shell_has {P Q : Str → Prop} {k c : Kind} (hP : ∀ t, P t → k.Ok unq t) (hQ : ∀ t, Q t → c.Ok unq t)
    {s : Shell} : ∀ {p}, ∀ x ∈ componentFields P Q (s.components p), Has unq p (s.segs k c) x := by
  induction s with
  | last t =>
    intro p x hx
    cases List.mem_singleton.1 hx
    exact .here rfl hP
  | lastComment w t n =>
    intro p x hx
    cases List.mem_singleton.1 hx
    exact .fix (.here rfl hQ)
  | more t w n s ih =>
    intro p x hx
    rcases List.mem_cons.1 hx with rfl | hx
    · exact .here rfl hP
    · exact .fld (.fix (.fix (.fix (ih x hx))))
  | comment w t n s ih =>
    intro p x hx
    rcases List.mem_cons.1 hx with rfl | hx
    · exact .fix (.here rfl hQ)
    · exact .fix (.fld (.fix (ih x hx)))

theorem env_has {s : Shell} {p x}
    (hx : x ∈ componentFields (if (s.string p).components.length = 1
      then fun t => QuotedText t → Readable unq t else fun _ => True)
      (fun _ => True) (s.string p).components) : Has unq p (s.segs s.envKind (.text True)) x := by
  cases s with
  | last t =>
    cases List.mem_singleton.1 hx
    exact .here rfl fun _ h => h
  | lastComment w t n =>
    cases List.mem_singleton.1 hx
    exact .fix (.here rfl fun _ h => h)
  | more t w n s => exact shell_has (k := .text True) (c := .text True) (fun _ _ => trivial) (fun _ h => h) x hx
  | comment w t n s => exact shell_has (k := .text True) (c := .text True) (fun _ _ => trivial) (fun _ h => h) x hx

theorem elems_has {fs : List Elem} : ∀ {p xs}, evalElems unq p fs = .ok xs →
    ∀ x ∈ xs, Has unq p (elemsSegs fs) (x.span, Readable unq) := by
  induction fs with
  | nil => intro p xs he x hx; cases he; cases hx
  | cons f fs ih =>
    intro p xs he x hx
    obtain ⟨a, e1, e2⟩ := bind_split he
    obtain ⟨ys, e3, e4⟩ := bind_split e2
    cases e4
    rw [show elemsSegs (f :: fs) = f.segs ++ elemsSegs fs by simp [elemsSegs]]
    rcases List.mem_cons.1 hx with rfl | hx
    · obtain ⟨c, -, e⟩ := bind_split e1
      cases e
      exact .left (.fix (.fix (.fix (.here rfl fun _ h => h))))
    · refine .right ?_
      rw [show segText f.segs = f.text by simp [Elem.segs, Elem.text]]
      exact ih e3 x hx

theorem array_has {a : Array} {p xs} (he : a.eval unq p = .ok xs) :
    ∀ x ∈ xs, Has unq p a.segs (x.span, Readable unq) := by
  intro x hx
  cases a with
  | empty g => cases he; cases hx
  | full g v fs c g' =>
    obtain ⟨y, e1, e2⟩ := bind_split he
    obtain ⟨ys, e3, e4⟩ := bind_split e2
    cases e4
    rcases List.mem_cons.1 hx with rfl | hx
    · exact .fix (.fix (.here rfl fun _ h => h))
    · exact .fix (.fix (.fld (.left (elems_has e3 x hx))))

theorem item_has {i : Item} {p x} (he : i.eval unq p = .ok (some x)) :
    ∀ y ∈ fieldsOf unq x, Has unq p i.segs y := by
  intro y hy
  refine Has.fix ?_
  cases i with
  | blank => cases he
  | comment t => cases he
  | «from» kw fs g i a =>
    obtain ⟨xs, e1, e2⟩ := bind_split he
    obtain ⟨u, e3, e4⟩ := bind_split e2
    cases e4
    simp only [fieldsOf] at hy
    rcases List.mem_append.1 hy with hy | hy
    · exact .left (flags_has e1 y hy)
    · refine .right ?_
      rw [flags_text]
      rcases List.mem_cons.1 hy with rfl | hy
      · exact .fix (.here rfl fun _ h => h)
      · cases a with
        | none => cases hy
        | some a =>
          simp only [Option.map_some, Option.toList_some, List.mem_singleton] at hy
          subst hy
          exact .fix (.fld (.fix (.fix (.fix (.here rfl fun _ h => h)))))
  | arg kw g n v =>
    cases v with
    | none =>
      cases he
      rcases List.mem_cons.1 hy with rfl | hy
      · exact .fix (.here rfl fun _ h => h)
      · cases hy
    | some v =>
      obtain ⟨c, e1, e2⟩ := bind_split he
      cases e2
      rcases List.mem_cons.1 hy with rfl | hy
      · exact .fix (.here rfl fun _ h => h)
      · simp only [Option.map_some, Option.toList_some, List.mem_singleton] at hy
        subst hy
        exact .fix (.fld (.fix (.here rfl fun _ h => h)))
  | label kw ps t =>
    obtain ⟨xs, e1, e2⟩ := bind_split he
    cases e2
    refine .left (pairs_has (fun f p a h x hx => ?_) e1 y hy)
    obtain ⟨c, -, e⟩ := bind_split h
    obtain ⟨d, -, e⟩ := bind_split e
    cases e
    have hb := pair_body_blen f
    simp only [List.mem_cons, List.not_mem_nil, or_false] at hx
    rcases hx with rfl | rfl
    · exact .fix (.here rfl fun _ h => h)
    · refine .fix (.fld (.fix (.here (k := .label) ?_ fun _ h => h)))
      show p + blen f.gap + blen f.body = p + blen f.gap + blen f.name.text + 1 + blen f.value.text
      omega
  | label1 kw g n g' v =>
    obtain ⟨c, -, e⟩ := bind_split he
    obtain ⟨d, -, e⟩ := bind_split e
    cases e
    simp only [fieldsOf, List.flatMap_cons, List.flatMap_nil, List.append_nil, List.mem_cons, List.not_mem_nil,
      or_false] at hy
    rcases hy with rfl | rfl
    · exact .fix (.here rfl fun _ h => h)
    · exact .fix (.fld (.fix (.here rfl fun _ h => h)))
  | shell k kw g s =>
    simp only [Item.eval] at he
    split at he
    · cases he
    · have hy : y ∈ componentFields (fun _ => True) (fun _ => True) (s.components (p + blen kw + blen g)) := by
        cases k <;> cases he <;> exact hy
      exact .fix (shell_has (fun _ h => h) (fun _ h => h) y hy)
  | exec k kw g a =>
    simp only [Item.eval] at he
    split at he
    · cases he
    · obtain ⟨xs, e1, e2⟩ := bind_split he
      have hy : y ∈ xs.map fun s => (s.span, Readable unq) := by
        cases k <;> cases e2 <;> exact hy
      obtain ⟨s, hs, rfl⟩ := List.mem_map.1 hy
      exact .fix (array_has e1 s hs)
  | copy kw fs ss d =>
    obtain ⟨xs, e1, e2⟩ := bind_split he
    obtain ⟨ys, e3, e4⟩ := bind_split e2
    obtain ⟨z, e5, e6⟩ := bind_split e4
    cases e6
    simp only [fieldsOf] at hy
    rcases List.mem_append.1 hy with hy | hy
    · exact .left (flags_has e1 y hy)
    · refine .right ?_
      rw [flags_text]
      obtain ⟨s, hs, rfl⟩ := List.mem_map.1 hy
      rcases List.mem_append.1 hs with hs | hs
      · exact .left (args_has e3 s hs)
      · cases List.mem_singleton.1 hs
        refine .right ?_
        rw [args_text]
        exact arg_has e5
  | env kw ps t =>
    obtain ⟨xs, e1, e2⟩ := bind_split he
    cases e2
    refine .left (pairs_has (fun f p a h x hx => ?_) e1 y hy)
    obtain ⟨c, -, e⟩ := bind_split h
    cases e
    have hb := pair_body_blen f
    rcases List.mem_cons.1 hx with rfl | hx
    · exact .fix (.here rfl fun _ h => h)
    · cases List.mem_singleton.1 hx
      refine .fix (.fld (.fix (.here (k := .env) ?_ fun _ h => h)))
      show p + blen f.gap + blen f.body = p + blen f.gap + blen f.name.text + 1 + blen f.value.text
      omega
  | env1 kw g n g' s =>
    cases he
    simp only [fieldsOf, List.flatMap_cons, List.flatMap_nil, List.append_nil] at hy
    rcases List.mem_cons.1 hy with rfl | hy
    · exact .fix (.here rfl fun _ h => h)
    · exact .fix (.fld (.fix (env_has hy)))
  | env1q kw g n g' v =>
    obtain ⟨c, -, e⟩ := bind_split he
    cases e
    simp only [fieldsOf, List.flatMap_cons, List.flatMap_nil, List.append_nil] at hy
    rcases List.mem_cons.1 hy with rfl | hy
    · exact .fix (.here rfl fun _ h => h)
    · cases List.mem_singleton.1 hy
      exact .fix (.fld (.fix (.here (k := .env) rfl fun _ h => h)))
  | misc w a =>
    cases he
    have hP : ∀ q, ¬ IsKeyword w ∧ Spec.BlankWord (a.components q) → ¬ IsKeyword w ∧ a.BlankWord := by
      rintro q ⟨h1, h2⟩
      refine ⟨h1, ?_⟩
      cases a with
      | last t => obtain ⟨b, c, u, h⟩ := h2; exact ⟨t, b, c, u, rfl, h⟩
      | more t w n s => obtain ⟨b, c, u, h⟩ := h2; exact ⟨t, b, c, u, rfl, h⟩
      | lastComment w t n => exact h2.elim
      | comment w t n s => exact h2.elim
    exact shell_has (fun _ => hP _) (fun _ => hP _) y hy

theorem doc_has {ms : List (Str × Line)} : ∀ {l : Line} {p is}, evalDoc unq p l ms = .ok is →
    ∀ i ∈ is, ∀ y ∈ fieldsOf unq i, Has unq p (docSegs l ms) y := by
  have line : ∀ {l : Line} {p : Nat} {o}, l.item.eval unq (p + blen l.indent) = .ok o →
      ∀ i ∈ o.toList, ∀ y ∈ fieldsOf unq i, Has unq p l.segs y := by
    intro l p o he i hi y hy
    cases o with
    | none => cases hi
    | some x =>
      cases List.mem_singleton.1 hi
      exact .fix (.left (item_has he y hy))
  induction ms with
  | nil =>
    intro l p is he i hi y hy
    obtain ⟨o, e1, e2⟩ := bind_split he
    cases e2
    exact line e1 i hi y hy
  | cons x ms ih =>
    obtain ⟨n, l'⟩ := x
    intro l p is he i hi y hy
    obtain ⟨o, e1, e2⟩ := bind_split he
    obtain ⟨js, e3, e4⟩ := bind_split e2
    cases e4
    rcases List.mem_append.1 hi with hi | hi
    · exact .left (line e1 i hi y hy)
    · refine .right ?_
      rw [line_segs_text]
      exact .fix (ih e3 i hi y hy)

end Src
end Verif
