import Verif.Proof.Records
import Verif.Spec.Fields

/-!
# Every record mirrors its token
-/

namespace Verif

open Spec

/-! ## keywords -/

/-- every text consumed by `e` starts with a blank or a backslash -/
def Headed (e : PExpr) : Prop := ∀ q p y s' ts, SemX e q p y s' ts →
  ∃ c r, y = c :: r ∧ (c = ' ' ∨ c = '\t' ∨ c = '\\')

theorem headed_arg_ws : Headed G.arg_ws := by
  intro q p y s' ts h
  have h0 := h.nonempty (by decide +kernel)
  have h1 := arg_ws_some h
  cases y with
  | nil => exact absurd rfl h0
  | cons c r =>
    refine ⟨c, r, rfl, ?_⟩
    simp only [List.cons_append, startsArgWs, Bool.or_eq_true] at h1
    rcases h1 with h1 | h1
    · have : c = ' ' ∨ c = '\t' := by simpa [isBlank] using h1
      rcases this with h | h
      · exact .inl h
      · exact .inr (.inl h)
    · obtain ⟨y, hy⟩ := Option.isSome_iff_exists.1 h1
      exact .inr (.inr (afterContinuation_some hy))

theorem Headed.seq {a b : PExpr} (ha : Headed a) : Headed (.seq a b) := by
  intro q p y s' ts h
  obtain ⟨x1, x2, t1, t2, rfl, rfl, h1, h2⟩ := semX_seq.1 h
  obtain ⟨c, r, rfl, hc⟩ := ha _ _ _ _ _ h1
  exact ⟨c, r ++ x2, rfl, hc⟩

theorem Headed.star_seq {a b : PExpr} (ha : Headed a) (hb : Headed b) :
    Headed (.seq (.star a) b) := by
  intro q p y s' ts h
  obtain ⟨x1, x2, t1, t2, rfl, rfl, h1, h2⟩ := semX_seq.1 h
  rcases semX_star.1 h1 with ⟨rfl, rfl, _⟩ | ⟨x3, x4, t3, t4, rfl, rfl, h3, h4⟩
  · obtain ⟨c, r, rfl, hc⟩ := hb _ _ _ _ _ h2
    exact ⟨c, r, rfl, hc⟩
  · obtain ⟨c, r, rfl, hc⟩ := ha _ _ _ _ _ h3
    exact ⟨c, r ++ x4 ++ x2, rfl, hc⟩

theorem Headed.alt {a b : PExpr} (ha : Headed a) (hb : Headed b) : Headed (.alt a b) := by
  intro q p y s' ts h
  rcases semX_alt.1 h with h | ⟨_, h⟩
  · exact ha _ _ _ _ _ h
  · exact hb _ _ _ _ _ h

theorem Headed.rule {k r e} (h : Headed e) : Headed (.rule k r e) := by
  intro q p y s' ts hs
  obtain ⟨t1, h1, _⟩ := semX_rule.1 hs
  exact h _ _ _ _ _ h1

theorem keyword_of {w : Str} {e : PExpr} (he : Headed e) {k r} {t : Tok}
    (h : Made k r (.seq (.istr w) e) t) : StartsWithKeyword (lower w) t.text := by
  obtain ⟨_, _, s', h⟩ := made_iff.1 h
  obtain ⟨x1, x2, t1, t2, e1, _, h1, h2⟩ := semX_seq.1 h
  obtain ⟨hl, _⟩ := semX_istr.1 h1
  obtain ⟨c, y, rfl, hc⟩ := he _ _ _ _ _ h2
  exact ⟨x1, c, y, e1, hl, hc⟩

/-! ## shell and exec -/

theorem ens_shell {k r} {t : Tok} (h : Made k r G.any_breakable t) :
    Ens (parseAnyBreakable t) (fun b => b.span = t.span ∧ Mirror t (shellTree b))
      (fun _ => False) := by
  have h0 := h.nonempty (by decide +kernel)
  obtain ⟨_, _, s', hx⟩ := made_iff.1 h
  obtain ⟨ch, h1, h2⟩ := semX_any_breakable.1 (semX_recur.2 hx)
  obtain ⟨cs, e1, l1, d1⟩ := breakable_body _ (Nat.le_refl _) h1
  have e2 : breakableComponents t = .ok cs := by
    cases t with
    | node r a b x c =>
      simp only [Tok.children, Tok.start, Tok.text] at h2
      subst h2
      simp only [breakableComponents, breakableComponentsList, Tok.rule, e1]
      show Except.ok _ = Except.ok _
      simp
  unfold parseAnyBreakable
  rw [e2]
  refine ⟨rfl, ?_⟩
  exact ⟨_, _, rfl, ⟨(d1 _ (Nat.le_refl _)).1.symm, (d1 _ (Nat.le_refl _)).2.symm⟩, h0, l1⟩

theorem stringArrayElems_core (unq : Unquote) (ts : List Tok) :
    stringArrayElems unq ts = stringArrayElems unq (core ts) := by
  induction ts with
  | nil => rfl
  | cons t ts ih =>
    by_cases h : t.rule = .comment
    · rw [core_cons_comment h]; simp only [stringArrayElems, h]; exact ih
    · rw [core_cons_of_ne h]; simp only [stringArrayElems, ih]

def elemTree (unq : Unquote) (e : SpannedString) : SpanTree :=
  .node e.span (fun t => Quoted t ∧ unq t = .ok e.content) []

theorem ens_stringElems {unq : Unquote} {ts : List Tok} (h : ∀ t ∈ ts, MadeBy G.string t) :
    Ens (stringArrayElems unq ts) (fun es => Mirrors ts (es.map (elemTree unq))) (Unesc unq) := by
  induction ts with
  | nil => exact .nil
  | cons t ts ih =>
    have ht := h t (by simp)
    have hr : t.rule = .string := Made.rule ht
    have hq := made_string_quoted ht
    simp only [stringArrayElems, hr]
    refine (ens_parseString unq t).bind fun s hs => ?_
    refine (ih (fun u hu => h u (by simp [hu]))).bind fun es hes => ?_
    refine Mirrors.cons ?_ hes
    unfold elemTree
    rw [hs.1]
    refine mirror_leaf ht (by decide +kernel) ⟨hq, ?_⟩
    rcases hs.2 with h | h
    · exact h.2
    · exact absurd hq.starts h.1

theorem bracketed {q p x s' ts} (h : SemX G.string_array q p x s' ts) :
    ∃ m, x = '[' :: m ++ [']'] := by
  rcases semX_alt.1 h with h | ⟨_, h⟩
  · obtain ⟨x1, x2, _, _, rfl, _, h1, h⟩ := semX_seq.1 h
    obtain ⟨x3, x4, _, _, rfl, _, _, h⟩ := semX_seq.1 h
    obtain ⟨x5, x6, _, _, rfl, _, _, h⟩ := semX_seq.1 h
    obtain ⟨x7, x8, _, _, rfl, _, _, h⟩ := semX_seq.1 h
    obtain ⟨x9, x10, _, _, rfl, _, _, h⟩ := semX_seq.1 h
    obtain ⟨x11, x12, _, _, rfl, _, _, h⟩ := semX_seq.1 h
    rw [(semX_str.1 h1).1, (semX_str.1 h).1]
    exact ⟨x3 ++ (x5 ++ (x7 ++ (x9 ++ x11))), by simp⟩
  · obtain ⟨x1, x2, _, _, rfl, _, h1, h⟩ := semX_seq.1 h
    obtain ⟨x3, x4, _, _, rfl, _, _, h⟩ := semX_seq.1 h
    rw [(semX_str.1 h1).1, (semX_str.1 h).1]
    exact ⟨x3, by simp⟩

theorem ens_exec {unq : Unquote} {r} {t : Tok} (h : Made .normal r G.string_array t) :
    Ens (parseStringArray unq t) (fun a => Mirror t (execTree unq a)) (Unesc unq) := by
  unfold parseStringArray
  rw [stringArrayElems_core]
  refine (ens_stringElems (made_string_array h.shape)).bind fun es hes => ?_
  obtain ⟨_, _, s', hx⟩ := made_iff.1 h
  exact mirror_core h (by decide +kernel) (bracketed hx) hes

/-- the outcome of a `RUN`/`CMD`/`ENTRYPOINT` record -/
theorem ens_execRecord {unq : Unquote} {r re rs : Rule} {w : Str} {t : Tok} (hne : re ≠ rs)
    (hce : re ≠ .comment) (hcs : rs ≠ .comment)
    (h : MadeBy (G.nrm r (.seq (.istr w) (.seq G.arg_ws (.alt (G.nrm re G.string_array)
      (G.atm rs G.any_breakable))))) t) :
    Ens (execRecord unq re rs t)
      (fun i => Mirror t (.node i.span (StartsWithKeyword (lower w)) [exprTree unq i.expr]))
      (fun f => Unesc unq f ∨ f = .err (.generic (.unexpectedToken .comment))) := by
  have hk := keyword_of (headed_arg_ws.seq) h
  have hcons : consumes (.seq (.istr w) (.seq G.arg_ws (.alt (G.nrm re G.string_array)
      (G.atm rs G.any_breakable)))) = true := by
    show (_ || true) = true
    simp
  obtain ⟨cs, u, e1, hcs', hu⟩ := made_exec rfl rfl h
  unfold execRecord
  have ecore : core t.children = core [u] := by
    rw [e1, core_append, core_comments (by simpa using hcs')]; rfl
  rw [e1]
  cases cs with
  | cons c cs =>
    have hc : c.rule = .comment := hcs' c (by simp)
    simp only [List.cons_append, hc, hce.symm, hcs.symm, if_false]
    refine .inr ?_
    simp [unexpectedToken, hc]
  | nil =>
    simp only [List.nil_append]
    rcases hu with hu | hu
    · have hr : u.rule = re := Made.rule hu
      simp only [hr, if_true]
      refine ((ens_exec hu).mono (fun _ h => h) (fun _ h => .inl h)).bind fun a ha => ?_
      refine mirror_core h hcons hk ?_
      rw [ecore, core_one hu hce]
      exact .cons ha .nil
    · have hr : u.rule = rs := Made.rule hu
      simp only [hr, hne.symm, if_false, if_true]
      refine ((ens_shell hu).mono (fun _ h => h) (fun _ h => h.elim)).bind fun a ha => ?_
      refine mirror_core h hcons hk ?_
      rw [ecore, core_one hu hcs]
      exact .cons ha.2 .nil

/-! ## lexical classes -/

theorem isAlpha_iff {c : Char} : isAlpha c = true ↔ IsAlpha c := by
  simp [isAlpha, IsAlpha]

theorem isDigit_iff {c : Char} : isDigit c = true ↔ IsDigit c := by
  simp [isDigit, IsDigit]

theorem isWord_iff {c : Char} : isWord c = true ↔ IsWord c := by
  simp [isWord, IsWord, isAlnum, isAlpha_iff, isDigit_iff, or_assoc]

theorem isIdent_iff {c : Char} : isIdent c = true ↔ IsIdent c := by
  simp [isIdent, IsIdent, isAlnum, isAlpha_iff, isDigit_iff, or_assoc]

theorem isImageChar_iff {c : Char} : isImageChar c = true ↔ IsImageChar c := by
  simp [isImageChar, IsImageChar, isAlnum, isAlpha_iff, isDigit_iff, or_assoc]

theorem made_over {k r e} {f : Char → Bool} {P : Char → Prop} {t : Tok} (hs : CharStep e (fun c _ => f c))
    (hf : ∀ c, f c = true → P c) (h : Made k r (G.plus e) t) : Over P t.text := by
  obtain ⟨_, _, s', hx⟩ := made_iff.1 h
  obtain ⟨h1, h2, _⟩ := hs.plus_x.1 hx
  exact ⟨h1, fun c hc => hf c ((runOf_class.1 h2).1 c hc)⟩

theorem image_not_quote {c : Char} (h : isImageChar c = true) : ¬ QuoteChar c := by
  rintro (rfl | rfl | rfl) <;> revert h <;> decide

theorem reads_verbatim {unq : Unquote} {t c : Str} (h : ∀ d ∈ t, isImageChar d = true)
    (hr : Reads unq t c) : c = t := by
  rcases hr with ⟨⟨d, r, rfl, hd⟩, _⟩ | ⟨_, rfl⟩
  · exact absurd hd (image_not_quote (h d (by simp)))
  · rfl

theorem alpha_image {c : Char} (h : IsAlpha c) : isImageChar c = true :=
  isImageChar_iff.2 (.inl h)
theorem word_image {c : Char} (h : IsWord c) : isImageChar c = true := by
  rcases h with h | h | h
  · exact isImageChar_iff.2 (.inl h)
  · exact isImageChar_iff.2 (.inr (.inl h))
  · exact isImageChar_iff.2 (.inr (.inr (.inl h)))
theorem ident_image {c : Char} (h : IsIdent c) : isImageChar c = true := by
  rcases h with h | h | h | h
  · exact isImageChar_iff.2 (.inl h)
  · exact isImageChar_iff.2 (.inr (.inl h))
  · exact isImageChar_iff.2 (.inr (.inr (.inl h)))
  · exact isImageChar_iff.2 (.inr (.inr (.inr (.inl h))))

theorem reads_over {unq : Unquote} {P : Char → Prop} {t c : Str}
    (hP : ∀ d, P d → isImageChar d = true) (h : Over P t) (hr : Reads unq t c) : Over P c := by
  rw [reads_verbatim (fun d hd => hP d (h.2 d hd)) hr]; exact h

/-! ## flags -/

theorem ens_flagFields {unq : Unquote} {nr vr : Rule} (hne : nr ≠ vr) {n v : Tok}
    (hn : n.rule = nr) (hv : v.rule = vr) :
    Ens (flagFields unq nr vr [n, v] none none)
      (fun r => ∃ a b, r = (some a, some b) ∧ (a.span = n.span ∧ Reads unq n.text a.content) ∧
        (b.span = v.span ∧ Reads unq v.text b.content)) (Unesc unq) := by
  simp only [flagFields, hn, hv, if_true, hne.symm, if_false]
  refine (ens_parseString unq n).bind fun a ha => ?_
  refine (ens_parseString unq v).bind fun b hb => ?_
  exact ⟨a, b, rfl, ha, hb⟩

theorem dashes {k r} {e : PExpr} {t : Tok} (h : Made k r (.seq (.str ['-', '-']) e) t) :
    ∃ y, t.text = '-' :: '-' :: y := by
  obtain ⟨_, _, s', h⟩ := made_iff.1 h
  obtain ⟨x1, x2, t1, t2, e1, _, h1, h2⟩ := semX_seq.1 h
  rw [e1, (semX_str.1 h1).1]
  exact ⟨x2, rfl⟩

theorem ens_fromFlag {unq : Unquote} {t : Tok} (h : MadeBy G.from_flag t) :
    Ens (fromFlagRecord unq t)
      (fun f => Mirror t (flagTree unq f) ∧ Over IsAlpha f.name.content) (Unesc unq) := by
  obtain ⟨n, v, e, hn, hv⟩ := made_from_flag h
  unfold fromFlagRecord
  rw [e]
  refine (ens_flagFields (by decide) (Made.rule hn) (Made.rule hv)).bind fun r hr => ?_
  obtain ⟨a, b, rfl, ha, hb⟩ := hr
  refine ⟨mirror_children h (by decide +kernel) (dashes h) ?_,
    reads_over (fun _ => alpha_image)
      (made_over step_alpha (fun c => isAlpha_iff.1) (k := .atomic) hn) ha.2⟩
  rw [e]
  exact .cons (mirror_str hn (by decide +kernel) ha) (.cons (mirror_str hv (by decide +kernel) hb) .nil)

theorem ens_copyFlag {unq : Unquote} {t : Tok} (h : MadeBy G.copy_flag t) :
    Ens (copyFlagRecord unq t)
      (fun f => Mirror t (flagTree unq f) ∧ Over IsAlpha f.name.content) (Unesc unq) := by
  obtain ⟨n, v, e, hn, hv⟩ := made_copy_flag h
  unfold copyFlagRecord
  rw [e]
  refine (ens_flagFields (by decide) (Made.rule hn) (Made.rule hv)).bind fun r hr => ?_
  obtain ⟨a, b, rfl, ha, hb⟩ := hr
  refine ⟨mirror_children h (by decide +kernel) (dashes h) ?_,
    reads_over (fun _ => alpha_image)
      (made_over step_alpha (fun c => isAlpha_iff.1) (k := .atomic) hn) ha.2⟩
  rw [e]
  exact .cons (mirror_str hn (by decide +kernel) ha) (.cons (mirror_str hv (by decide +kernel) hb) .nil)

/-! ## FROM -/

theorem fromFields_core (unq : Unquote) (ts : List Tok) (i a : Option Tok) (f : List Flag) :
    fromFields unq ts i a f = fromFields unq (core ts) i a f := by
  induction ts generalizing i a f with
  | nil => rfl
  | cons t ts ih =>
    by_cases h : t.rule = .comment
    · rw [core_cons_comment h]; simp only [fromFields, h]; exact ih _ _ _
    · rw [core_cons_of_ne h]; simp only [fromFields, ih]

theorem ens_fromFlags {unq : Unquote} {fs rest : List Tok} {i a : Option Tok} {acc : List Flag}
    (h : ∀ f ∈ fs, MadeBy G.from_flag f) {Q : Option Tok × Option Tok × List Flag → Prop}
    (hQ : ∀ fls, Mirrors fs (fls.map (flagTree unq)) →
      (∀ f ∈ fls, Over IsAlpha f.name.content) → Ens (fromFields unq rest i a (acc ++ fls)) Q (Unesc unq)) :
    Ens (fromFields unq (fs ++ rest) i a acc) Q (Unesc unq) := by
  induction fs generalizing acc with
  | nil => simpa using hQ [] .nil (by simp)
  | cons t fs ih =>
    have ht := h t (by simp)
    have hr : t.rule = .from_flag := Made.rule ht
    simp only [List.cons_append, fromFields, hr]
    refine (ens_fromFlag ht).bind fun f hf => ?_
    refine ih (fun u hu => h u (by simp [hu])) fun fls hfls hnm => ?_
    have := hQ (f :: fls) (.cons hf.1 hfls) (by
      intro g hg
      rcases List.mem_cons.1 hg with rfl | hg
      · exact hf.2
      · exact hnm g hg)
    simpa using this

theorem ens_fromRecord {unq : Unquote} {t : Tok} (n : Nat) (h : MadeBy G.from t) :
    Ens (fromRecord unq t n)
      (fun i => Mirror t (tree unq (.from i)) ∧ Lexical (.from i) ∧ i.index = n ∧
        i.image_parsed = ImageRef.parse i.image.content ∧ checkDigest i.image_parsed = true)
      (fun f => Unesc unq f ∨ f = .err (.generic .digestInvalid)) := by
  obtain ⟨fs, img, al, ec, hfs, himg, hal⟩ := made_from h
  have hk : StartsWithKeyword c!"from" t.text :=
    keyword_of ((headed_arg_ws.seq).star_seq headed_arg_ws.seq) h
  unfold fromRecord
  rw [fromFields_core, ec]
  have fields : Ens (fromFields unq (fs ++ img :: al) none none [])
      (fun r => ∃ fls, r = (some img, al.head?, fls) ∧ Mirrors fs (fls.map (flagTree unq)) ∧
        ∀ f ∈ fls, Over IsAlpha f.name.content)
      (Unesc unq) := by
    refine ens_fromFlags hfs fun fls hfls hnm => ?_
    have hri : img.rule = .from_image := Made.rule himg
    rcases hal with rfl | ⟨a, rfl, ha⟩
    · simp only [fromFields, hri]; exact ⟨fls, rfl, hfls, hnm⟩
    · have hra : a.rule = .from_alias := Made.rule ha
      simp only [fromFields, hri, hra]; exact ⟨fls, rfl, hfls, hnm⟩
  refine (fields.mono (fun _ h => h) (fun _ h => .inl h)).bind fun r hr => ?_
  obtain ⟨fls, rfl, hfls, hnm⟩ := hr
  refine ((ens_parseString unq img).mono (fun _ h => h) (fun _ h => .inl h)).bind fun im him => ?_
  have himgo : Over IsImageChar im.content := reads_over (fun _ => isImageChar_iff.2)
    (made_over step_image (fun c => isImageChar_iff.1) (k := .atomic) himg) him.2
  dsimp only
  split
  · rename_i hdig
    rcases hal with rfl | ⟨a, rfl, ha⟩
    · refine ⟨mirror_core h (by decide +kernel) hk ?_, ⟨hnm, himgo, by simp⟩, rfl, rfl, hdig⟩
      rw [ec]
      exact hfls.append (.cons (mirror_str himg (by decide +kernel) him) .nil)
    · refine ((ens_parseString unq a).mono (fun _ h => h) (fun _ h => .inl h)).bind fun s hs => ?_
      have halo : Over IsIdent s.content := reads_over (fun _ => ident_image)
        (made_over step_ident (fun c => isIdent_iff.1) (k := .normal) ha) hs.2
      refine ⟨mirror_core h (by decide +kernel) hk ?_, ⟨hnm, himgo, ?_⟩, rfl, rfl, hdig⟩
      rotate_left
      · rintro a' e
        simp only [Option.some.injEq] at e
        rw [← e]; exact halo
      rw [ec]
      exact hfls.append (.cons (mirror_str himg (by decide +kernel) him)
        (.cons (mirror_str ha (by decide +kernel) hs) .nil))
  · exact .inr rfl

/-! ## ARG -/

theorem argFields_core (unq : Unquote) (ts : List Tok) (i a : Option SpannedString) :
    argFields unq ts i a = argFields unq (core ts) i a := by
  induction ts generalizing i a with
  | nil => rfl
  | cons t ts ih =>
    by_cases h : t.rule = .comment
    · rw [core_cons_comment h]; simp only [argFields, h]; exact ih _ _
    · rw [core_cons_of_ne h]; simp only [argFields, ih]

theorem made_arg_name {t : Tok} (h : MadeBy G.arg_name t) :
    ∃ c r, t.text = c :: r ∧ IsAlpha c ∧ ∀ d ∈ r, IsWord d := by
  obtain ⟨_, _, s', hx⟩ := made_iff.1 h
  obtain ⟨x1, x2, t1, t2, e, _, h1, h2⟩ := semX_seq.1 hx
  obtain ⟨c, rfl, hc, _⟩ := step_alpha.x.1 h1
  obtain ⟨h3, _⟩ := step_word.star_x.1 h2
  exact ⟨c, x2, e, isAlpha_iff.1 hc, fun d hd => isWord_iff.1 ((runOf_class.1 h3).1 d hd)⟩

theorem ens_argRecord {unq : Unquote} {t : Tok} (h : MadeBy G.arg t) :
    Ens (argRecord unq t) (fun i => Mirror t (tree unq (.arg i)) ∧ Lexical (.arg i)) (Unesc unq) := by
  obtain ⟨n, vs, ec, hn, hvs⟩ := made_arg h
  have hk : StartsWithKeyword c!"arg" t.text := keyword_of headed_arg_ws.seq h
  unfold argRecord
  rw [argFields_core, ec]
  have hrn : n.rule = .arg_name := Made.rule hn
  have fields : Ens (argFields unq (n :: vs) none none)
      (fun r => ∃ a b, r = (some a, b) ∧ (Mirror n (strTree unq a) ∧ Lexical (.arg ⟨t.span, a, b⟩)) ∧
        Mirrors vs ((b.map (strTree unq)).toList)) (Unesc unq) := by
    simp only [argFields, hrn]
    refine (ens_parseString unq n).bind fun a ha => ?_
    have hlex : ∀ b, Lexical (.arg ⟨t.span, a, b⟩) := by
      intro b
      obtain ⟨c, r, e, h1, h2⟩ := made_arg_name hn
      refine ⟨c, r, ?_, h1, h2⟩
      rw [← e]
      refine reads_verbatim (fun d hd => ?_) ha.2
      rw [e] at hd
      rcases List.mem_cons.1 hd with rfl | hd
      · exact alpha_image h1
      · exact word_image (h2 d hd)
    have ha := mirror_str hn (by decide +kernel) ha
    have ha := fun b => And.intro ha (hlex b)
    rcases hvs with rfl | ⟨v, rfl, hv⟩
    · exact ⟨a, none, rfl, ha _, .nil⟩
    · rcases hv with hv | hv
      · have hrv : v.rule = .arg_quoted_value := Made.rule hv
        simp only [argFields, hrv]
        refine (ens_parseString unq v).bind fun b hb => ?_
        exact ⟨a, some b, rfl, ha _, .cons (mirror_str hv (by decide +kernel) hb) .nil⟩
      · have hrv : v.rule = .arg_value := Made.rule hv
        simp only [argFields, hrv]
        refine (ens_parseString unq v).bind fun b hb => ?_
        exact ⟨a, some b, rfl, ha _, .cons (mirror_str hv (by decide +kernel) hb) .nil⟩
  refine fields.bind fun r hr => ?_
  obtain ⟨a, b, rfl, ha, hb⟩ := hr
  refine ⟨mirror_core h (by decide +kernel) hk ?_, ha.2⟩
  rw [ec]
  exact .cons ha.1 hb

/-! ## LABEL -/

theorem joined_clean (s : Str) : Joined s (cleanEscapedBreaks s) := by
  fun_induction cleanEscapedBreaks s with
  | case1 cs ih => exact .brk ih
  | case2 c cs hne ih =>
    refine .chr ?_ ih
    intro r e
    simp only [List.cons.injEq] at e
    exact hne r e.1 e.2
  | case3 => exact .nil

theorem joined_self {s : Str} (h : ∀ c ∈ s, isBreak c = false) : Joined s s := by
  induction s with
  | nil => exact .nil
  | cons c s ih =>
    refine .chr ?_ (ih fun d hd => h d (by simp [hd]))
    intro r e
    simp only [List.cons.injEq] at e
    rw [e.2] at h
    have := h '\n' (by simp)
    cases this

theorem ens_labelQuoted {unq : Unquote} {k r} {t : Tok} (h : Made k r G.string t) :
    Ens (labelQuoted unq t) (fun s => Mirror t (labelStrTree unq s)) (Unesc unq) := by
  have hq := made_quoted h
  unfold labelQuoted
  refine (ens_unquoteR unq _).bind fun v hv => ?_
  exact mirror_leaf h (by decide +kernel) (.inl ⟨hq.starts, _, joined_clean _, hv⟩)

theorem ens_labelPlain {unq : Unquote} {k r e} {t : Tok} (h : Made k r e t)
    (hc : consumes e = true) (hb : ∀ c ∈ t.text, isBreak c = false) :
    Ens (parseString unq t) (fun s => Mirror t (labelStrTree unq s)) (Unesc unq) := by
  refine (ens_parseString unq t).mono (fun s hs => ?_) (fun _ h => h)
  unfold labelStrTree
  rw [hs.1]
  refine mirror_leaf h hc ?_
  rcases hs.2 with h | h
  · exact .inl ⟨h.1, t.text, joined_self hb, h.2⟩
  · exact .inr h

theorem nobreak_any_equals {k r} {t : Tok} (h : Made k r G.any_equals t) :
    ∀ c ∈ t.text, isBreak c = false := by
  obtain ⟨_, _, s', h⟩ := made_iff.1 h
  obtain ⟨_, h1, _⟩ := step_any_equals.plus_x.1 h
  intro c hc
  have := (runOf_class.1 h1).1 c hc
  simp only [Bool.not_eq_true', Bool.or_eq_false_iff] at this
  exact this.1

theorem nobreak_any_whitespace {k r} {t : Tok} (h : Made k r G.any_whitespace t) :
    ∀ c ∈ t.text, isBreak c = false := by
  obtain ⟨_, _, s', h⟩ := made_iff.1 h
  obtain ⟨_, h1, _⟩ := step_any_whitespace.plus_x.1 h
  intro c hc
  obtain ⟨a, b, e⟩ := List.append_of_mem hc
  have := h1.1 a c b e
  simp only [Bool.not_eq_true', Bool.or_eq_false_iff] at this
  exact this.1

theorem labelFields_core (unq : Unquote) (ts : List Tok) (i a : Option SpannedString) :
    labelFields unq ts i a = labelFields unq (core ts) i a := by
  induction ts generalizing i a with
  | nil => rfl
  | cons t ts ih =>
    by_cases h : t.rule = .comment
    · rw [core_cons_comment h]; simp only [labelFields, h]; exact ih _ _
    · rw [core_cons_of_ne h]; simp only [labelFields, ih]

theorem ens_labelValue {unq : Unquote} {v : Tok} {a : SpannedString} {Q : Label → Prop}
    {sp : Span} (hv : MadeBy G.label_quoted_value v ∨ MadeBy G.label_value v)
    (hQ : ∀ b, Mirror v (labelStrTree unq b) → Q { span := sp, name := a, value := b }) :
    Ens (do
      let (name, value) ← labelFields unq [v] (some a) none
      let name ← require .labelName name
      let value ← require .labelValue value
      return ({ span := sp, name, value } : Label)) Q (Unesc unq) := by
  rcases hv with hv | hv
  · have hr : v.rule = .label_quoted_value := Made.rule hv
    simp only [labelFields, hr]
    refine Ens.bind (Q := fun r => ∃ b, r = (some a, some b) ∧ Mirror v (labelStrTree unq b)) ?_ ?_
    · refine (ens_labelQuoted hv).bind fun b hb => ?_
      exact ⟨b, rfl, hb⟩
    · rintro _ ⟨b, rfl, hb⟩; exact hQ b hb
  · have hr : v.rule = .label_value := Made.rule hv
    simp only [labelFields, hr]
    refine Ens.bind (Q := fun r => ∃ b, r = (some a, some b) ∧ Mirror v (labelStrTree unq b)) ?_ ?_
    · refine (ens_labelPlain hv (by decide +kernel) (nobreak_any_whitespace hv)).bind fun b hb => ?_
      exact ⟨b, rfl, hb⟩
    · rintro _ ⟨b, rfl, hb⟩; exact hQ b hb

theorem ens_labelPair {unq : Unquote} {t : Tok}
    (h : MadeBy G.label_pair t ∨ MadeBy G.label_single t) :
    Ens (labelPairRecord unq t) (fun l => Mirror t (labelTree unq l)) (Unesc unq) := by
  unfold labelPairRecord
  rw [labelFields_core]
  have fin : ∀ {k r e} (_ : Made k r e t) (_ : consumes e = true) (n v : Tok)
      (_ : core t.children = [n, v])
      (hv : MadeBy G.label_quoted_value v ∨ MadeBy G.label_value v) (a : SpannedString)
      (_ : Mirror n (labelStrTree unq a)),
      Ens (do
        let (name, value) ← labelFields unq [v] (some a) none
        let name ← require .labelName name
        let value ← require .labelValue value
        return ({ span := t.span, name, value } : Label))
        (fun l => Mirror t (labelTree unq l)) (Unesc unq) := by
    intro k r e hm hc n v ec hv a ha
    refine ens_labelValue hv fun b hb => ?_
    refine mirror_core hm hc trivial ?_
    rw [ec]
    exact .cons ha (.cons hb .nil)
  rcases h with h | h
  · obtain ⟨n, v, e1, hn, hv⟩ := made_label_pair h
    have hnr : n.rule ≠ .comment := by
      rcases hn with hn | hn <;> rw [Made.rule hn] <;> decide
    have hvr : v.rule ≠ .comment := by
      rcases hv with hv | hv <;> rw [Made.rule hv] <;> decide
    have ec : core t.children = [n, v] := by
      rw [e1, core_cons_of_ne hnr, core_cons_of_ne hvr]; rfl
    rw [ec]
    rcases hn with hn | hn
    · have hr : n.rule = .label_quoted_name := Made.rule hn
      rw [labelFields]
      simp only [hr, bind_assoc]
      exact (ens_labelQuoted hn).bind fun a ha => fin h (by decide +kernel) n v ec hv a ha
    · have hr : n.rule = .label_name := Made.rule hn
      rw [labelFields]
      simp only [hr, bind_assoc]
      exact (ens_labelPlain hn (by decide +kernel) (nobreak_any_equals hn)).bind
        fun a ha => fin h (by decide +kernel) n v ec hv a ha
  · obtain ⟨n, v, ec, hn, hv⟩ := made_label_single h
    rw [ec]
    rcases hn with hn | hn
    · have hr : n.rule = .label_single_quoted_name := Made.rule hn
      rw [labelFields]
      simp only [hr, bind_assoc]
      exact (ens_labelQuoted hn).bind fun a ha => fin h (by decide +kernel) n v ec hv a ha
    · have hr : n.rule = .label_single_name := Made.rule hn
      rw [labelFields]
      simp only [hr, bind_assoc]
      exact (ens_labelPlain hn (by decide +kernel) (nobreak_any_equals hn)).bind
        fun a ha => fin h (by decide +kernel) n v ec hv a ha

theorem labelList_core (unq : Unquote) (ts : List Tok) :
    labelList unq ts = labelList unq (core ts) := by
  induction ts with
  | nil => rfl
  | cons t ts ih =>
    by_cases h : t.rule = .comment
    · rw [core_cons_comment h]; simp only [labelList, h]; exact ih
    · rw [core_cons_of_ne h]; simp only [labelList, ih]

theorem ens_labelList {unq : Unquote} {ts : List Tok}
    (h : ∀ u ∈ ts, MadeBy G.label_pair u ∨ MadeBy G.label_single u) :
    Ens (labelList unq ts) (fun ls => Mirrors ts (ls.map (labelTree unq))) (Unesc unq) := by
  induction ts with
  | nil => exact .nil
  | cons t ts ih =>
    have ht := h t (by simp)
    have ih := ih fun u hu => h u (by simp [hu])
    have hr : t.rule = .label_pair ∨ t.rule = .label_single :=
      ht.imp Made.rule Made.rule
    have key : Ens (do
        let l ← labelPairRecord unq t
        let ls ← labelList unq ts
        return l :: ls) (fun ls => Mirrors (t :: ts) (ls.map (labelTree unq))) (Unesc unq) := by
      refine (ens_labelPair ht).bind fun l hl => ?_
      refine ih.bind fun ls hls => ?_
      exact .cons hl hls
    rcases hr with hr | hr <;> simp only [labelList, hr] <;> exact key

theorem ens_labelRecord {unq : Unquote} {t : Tok} (h : MadeBy G.label t) :
    Ens (labelRecord unq t) (fun i => Mirror t (tree unq (.label i))) (Unesc unq) := by
  have hk : StartsWithKeyword c!"label" t.text :=
    keyword_of (Headed.alt (Headed.rule headed_arg_ws.seq) (headed_arg_ws.seq).seq) h
  unfold labelRecord
  rw [labelList_core]
  refine (ens_labelList (made_label h)).bind fun ls hls => ?_
  exact mirror_core h (by decide +kernel) hk hls

/-! ## COPY -/

theorem copyFields_core (unq : Unquote) (ts : List Tok) (f : List Flag) (p : List SpannedString) :
    copyFields unq ts f p = copyFields unq (core ts) f p := by
  induction ts generalizing f p with
  | nil => rfl
  | cons t ts ih =>
    by_cases h : t.rule = .comment
    · rw [core_cons_comment h]; simp only [copyFields, h]; exact ih _ _
    · rw [core_cons_of_ne h]; simp only [copyFields, ih]

theorem ens_copyFlags {unq : Unquote} {fs rest : List Tok} {acc : List Flag}
    {ps : List SpannedString}
    (h : ∀ f ∈ fs, MadeBy G.copy_flag f) {Q : List Flag × List SpannedString → Prop}
    (hQ : ∀ fls, Mirrors fs (fls.map (flagTree unq)) →
      (∀ f ∈ fls, Over IsAlpha f.name.content) → Ens (copyFields unq rest (acc ++ fls) ps) Q (Unesc unq)) :
    Ens (copyFields unq (fs ++ rest) acc ps) Q (Unesc unq) := by
  induction fs generalizing acc with
  | nil => simpa using hQ [] .nil (by simp)
  | cons t fs ih =>
    have ht := h t (by simp)
    have hr : t.rule = .copy_flag := Made.rule ht
    simp only [List.cons_append, copyFields, hr]
    refine (ens_copyFlag ht).bind fun f hf => ?_
    refine ih (fun u hu => h u (by simp [hu])) fun fls hfls hnm => ?_
    have := hQ (f :: fls) (.cons hf.1 hfls) (by
      intro g hg
      rcases List.mem_cons.1 hg with rfl | hg
      · exact hf.2
      · exact hnm g hg)
    simpa using this

theorem ens_copyPaths {unq : Unquote} {ts : List Tok} {acc : List SpannedString}
    {fls : List Flag} (h : ∀ f ∈ ts, MadeBy G.copy_pathspec f) :
    Ens (copyFields unq ts fls acc)
      (fun r => ∃ ps, r = (fls, acc ++ ps) ∧ ps.length = ts.length ∧
        Mirrors ts (ps.map (strTree unq))) (Unesc unq) := by
  induction ts generalizing acc with
  | nil => exact ⟨[], by simp, rfl, .nil⟩
  | cons t ts ih =>
    have ht := h t (by simp)
    have hr : t.rule = .copy_pathspec := Made.rule ht
    simp only [copyFields, hr]
    refine (ens_parseString unq t).bind fun p hp => ?_
    refine (ih (acc := acc ++ [p]) (fun u hu => h u (by simp [hu]))).mono ?_ (fun _ h => h)
    rintro r ⟨ps, rfl, hl, hm⟩
    exact ⟨p :: ps, by simp, by simp [hl], .cons (mirror_str ht (by decide +kernel) hp) hm⟩

theorem ens_copyRecord {unq : Unquote} {t : Tok} (h : MadeBy G.copy t) :
    Ens (copyRecord unq t) (fun i => Mirror t (tree unq (.copy i)) ∧ Lexical (.copy i) ∧ i.sources ≠ [])
      (Unesc unq) := by
  obtain ⟨fs, ps, ec, hfs, hps, hl⟩ := made_copy h
  have hk : StartsWithKeyword c!"copy" t.text :=
    keyword_of ((headed_arg_ws.seq).star_seq (headed_arg_ws.seq).seq) h
  unfold copyRecord
  rw [copyFields_core, ec]
  have fields : Ens (copyFields unq (fs ++ ps) [] [])
      (fun r => ∃ fls xs, r = (fls, xs) ∧ xs.length = ps.length ∧
        Mirrors fs (fls.map (flagTree unq)) ∧ Mirrors ps (xs.map (strTree unq)) ∧
        ∀ f ∈ fls, Over IsAlpha f.name.content) (Unesc unq) := by
    refine ens_copyFlags hfs fun fls hfls hnm => ?_
    refine (ens_copyPaths hps).mono ?_ (fun _ h => h)
    rintro r ⟨xs, rfl, hl, hm⟩
    exact ⟨fls, xs, rfl, hl, hfls, hm, hnm⟩
  refine fields.bind fun r hr => ?_
  obtain ⟨fls, xs, rfl, hxl, hfls, hxs, hnm⟩ := hr
  dsimp only
  have h2 : xs.length ≥ 2 := by omega
  rw [if_pos h2]
  have hne : xs ≠ [] := by intro e; rw [e] at h2; simp at h2
  rw [List.getLast?_eq_some_getLast hne]
  refine ⟨mirror_core h (by decide +kernel) hk ?_, hnm, ?_⟩
  · rw [ec]
    refine hfls.append ?_
    have e : xs.map (strTree unq) =
        xs.dropLast.map (strTree unq) ++ [strTree unq (xs.getLast hne)] := by
      conv => lhs; rw [← List.dropLast_concat_getLast hne, List.map_append]
      rfl
    rw [← e]
    exact hxs
  · show xs.dropLast ≠ []
    intro e
    have := congrArg List.length e
    rw [List.length_dropLast, List.length_nil] at this
    omega

/-! ## ENV -/

theorem compTree_mono {p x cs} {A B : Str → Str → Prop} (hAB : ∀ t c, A t c → B t c)
    (h : Laid p x (List.map (compTree A) cs)) : Laid p x (List.map (compTree B) cs) := by
  generalize hn : List.map (compTree A) cs = ns at h
  induction h generalizing cs with
  | nil =>
    cases cs with
    | nil => exact .nil
    | cons _ _ => cases hn
  | @cons p a b c P ch ns h0 hP h1 h2 ih1 ih2 =>
    cases cs with
    | nil => cases hn
    | cons d cs =>
      simp only [List.map_cons, List.cons.injEq] at hn
      obtain ⟨hd, hcs⟩ := hn
      have ih := ih2 hcs
      cases d with
      | string s =>
        simp only [compTree, SpanTree.node.injEq] at hd
        obtain ⟨e1, e2, e3⟩ := hd
        subst e2 e3
        rw [List.map_cons]
        simp only [compTree]
        rw [e1]
        exact .cons h0 (hAB _ _ hP) .nil ih
      | comment s =>
        simp only [compTree, SpanTree.node.injEq] at hd
        obtain ⟨e1, e2, e3⟩ := hd
        subst e2 e3
        rw [List.map_cons]
        simp only [compTree]
        rw [e1]
        exact .cons h0 hP .nil ih

theorem made_span {k r e} {t : Tok} (h : Made k r e t) : t.span = ⟨t.start, t.start + blen t.text⟩ := by
  obtain ⟨_, e, _⟩ := made_iff.1 h
  unfold Tok.span
  rw [e]

theorem display_one (sp : Span) (s : SpannedString) :
    BreakableString.display { span := sp, components := [.string s] } = s.content := by
  show List.flatMap _ _ = _
  simp

theorem mirror_breakableOf {unq : Unquote} {k r e} {t : Tok} (h : Made k r e t)
    (hc : consumes e = true) {v : Str} (hv : (Quoted t.text ∧ unq t.text = .ok v) ∨ v = t.text) :
    Mirror t (valueTree unq (breakableOf t v)) := by
  refine ⟨_, _, rfl, ?_, h.nonempty hc, ?_⟩
  · rw [breakableOf, display_one]
    exact hv.imp_right .inl
  · show Laid _ _ [.node t.span _ []]
    rw [made_span h]
    exact .single (h.nonempty hc) hv.symm .nil

theorem mirror_shell_value {unq : Unquote} {t : Tok} {b : BreakableString}
    (h : Mirror t (shellTree b)) : Mirror t (valueTree unq b) := by
  obtain ⟨P, ch, e, hP, h0, hl⟩ := h
  simp only [shellTree, SpanTree.node.injEq] at e
  obtain ⟨e1, rfl, rfl⟩ := e
  unfold valueTree
  rw [e1]
  exact ⟨_, _, rfl, .inr (.inr hP.1), h0, compTree_mono (fun t c h => .inl h.1) hl⟩

theorem ens_envPair {unq : Unquote} {t : Tok} (h : MadeBy G.env_pair t) :
    Ens (envPairRecord unq t)
      (fun v => Mirror t (envTree unq v) ∧ Over IsWord v.key.content) (Unesc unq) := by
  obtain ⟨n, v, e, hn, hv⟩ := made_env_pair h
  unfold envPairRecord
  rw [e]
  have hrn : n.rule = .env_name := Made.rule hn
  have fields : Ens (envPairFields unq [n, v] none none)
      (fun r => ∃ a b, r = (some a, some b) ∧
        (Mirror n (strTree unq a) ∧ Over IsWord a.content) ∧
        Mirror v (valueTree unq b)) (Unesc unq) := by
    simp only [envPairFields, hrn]
    refine (ens_parseString unq n).bind fun a ha => ?_
    have ha := And.intro (mirror_str hn (by decide +kernel) ha) (reads_over (fun _ => word_image)
      (made_over step_word (fun c => isWord_iff.1) (k := .compound) hn) ha.2)
    rcases hv with hv | hv
    · have hr : v.rule = .env_pair_quoted_value := Made.rule hv
      simp only [hr]
      refine (ens_unquoteR unq _).bind fun x hx => ?_
      exact ⟨a, _, rfl, ha, mirror_breakableOf hv (by decide +kernel) (.inl ⟨made_quoted hv, hx⟩)⟩
    · have hr : v.rule = .env_pair_value := Made.rule hv
      simp only [hr]
      exact ⟨a, _, rfl, ha, mirror_breakableOf hv (by decide +kernel) (.inr rfl)⟩
  refine fields.bind fun r hr => ?_
  obtain ⟨a, b, rfl, ha, hb⟩ := hr
  refine ⟨mirror_children h (by decide +kernel) trivial ?_, ha.2⟩
  rw [e]
  exact .cons ha.1 (.cons hb .nil)

theorem envPairList_core (unq : Unquote) (ts : List Tok) :
    envPairList unq ts = envPairList unq (core ts) := by
  induction ts with
  | nil => rfl
  | cons t ts ih =>
    by_cases h : t.rule = .comment
    · rw [core_cons_comment h]; simp only [envPairList, h]; exact ih
    · rw [core_cons_of_ne h]; simp only [envPairList, ih]

theorem ens_envPairList {unq : Unquote} {ts : List Tok} (h : ∀ u ∈ ts, MadeBy G.env_pair u) :
    Ens (envPairList unq ts)
      (fun ls => Mirrors ts (ls.map (envTree unq)) ∧ ∀ v ∈ ls, Over IsWord v.key.content)
      (Unesc unq) := by
  induction ts with
  | nil => exact ⟨.nil, by simp⟩
  | cons t ts ih =>
    have ht := h t (by simp)
    have ih := ih fun u hu => h u (by simp [hu])
    have hr : t.rule = .env_pair := Made.rule ht
    simp only [envPairList, hr]
    refine (ens_envPair ht).bind fun l hl => ?_
    refine ih.bind fun ls hls => ?_
    refine ⟨.cons hl.1 hls.1, ?_⟩
    intro v hv
    rcases List.mem_cons.1 hv with rfl | hv
    · exact hl.2
    · exact hls.2 v hv

theorem envSingleFields_core (unq : Unquote) (ts : List Tok) (i : Option SpannedString)
    (a : Option BreakableString) :
    envSingleFields unq ts i a = envSingleFields unq (core ts) i a := by
  induction ts generalizing i a with
  | nil => rfl
  | cons t ts ih =>
    by_cases h : t.rule = .comment
    · rw [core_cons_comment h]; simp only [envSingleFields, h]; exact ih _ _
    · rw [core_cons_of_ne h]; simp only [envSingleFields, ih]

theorem ens_envSingle {unq : Unquote} {t : Tok} (h : MadeBy G.env_single t) :
    ∃ n v, core t.children = [n, v] ∧
    Ens (envSingleFields unq t.children none none)
      (fun r => ∃ a b, r = (some a, some b) ∧ Mirror n (strTree unq a) ∧
        Mirror v (valueTree unq b) ∧ (a.span = n.span ∧ Over IsWord a.content) ∧ b.span = v.span)
      (Unesc unq) := by
  obtain ⟨n, v, ec, hn, hv⟩ := made_env_single h
  refine ⟨n, v, ec, ?_⟩
  rw [envSingleFields_core, ec]
  have hrn : n.rule = .env_name := Made.rule hn
  simp only [envSingleFields, hrn]
  refine (ens_parseString unq n).bind fun a has => ?_
  have ha := mirror_str hn (by decide +kernel) has
  replace has := And.intro has.1 (reads_over (fun _ => word_image)
      (made_over step_word (fun c => isWord_iff.1) (k := .compound) hn) has.2)
  rcases hv with hv | hv
  · have hr : v.rule = .env_single_quoted_value := Made.rule hv
    simp only [hr]
    refine (ens_unquoteR unq _).bind fun x hx => ?_
    exact ⟨a, _, rfl, ha, mirror_breakableOf hv (by decide +kernel) (.inl ⟨made_quoted hv, hx⟩),
      has, rfl⟩
  · have hr : v.rule = .env_single_value := Made.rule hv
    simp only [hr]
    refine ((ens_shell hv).mono (fun _ h => h) (fun _ h => h.elim)).bind fun b hb => ?_
    exact ⟨a, b, rfl, ha, mirror_shell_value hb.2, has, hb.1⟩

/-- two neighbours as the children of the span that joins them -/
theorem laid_join {p : Nat} {x : Str} {n v : Tok} {N V : SpanTree} (hf : Forest p x [n, v])
    (hn : Mirror n N) (hv : Mirror v V) :
    Laid p x [.node ⟨n.start, v.stop⟩ (fun _ => True) [N, V]] := by
  have h1 := laid_of_forest hf (.cons hn (.cons hv .nil))
  cases hf with
  | @cons _ r a b c ch _ h2 h3 =>
    cases h3 with
    | @cons _ r' a' b' c' ch' _ h4 h5 =>
      obtain ⟨P, chN, rfl, hP, h0, hl⟩ := hn
      obtain ⟨P', chV, rfl, hP', h0', hl'⟩ := hv
      simp only [Tok.text, Tok.start] at hP h0 hl hP' h0' hl'
      have inner : Laid (p + blen a) (b ++ (a' ++ b'))
          [.node ⟨p + blen a, p + blen a + blen b⟩ P chN,
           .node ⟨p + blen a + blen b + blen a', p + blen a + blen b + blen a' + blen b'⟩ P' chV] := by
        have i1 := Laid.single (p := p + blen a) h0 hP hl
        have i2 := Laid.padLeft (p := p + blen a + blen b) (y := a') (Laid.single h0' hP' hl')
        exact i1.append i2
      have i3 := Laid.single (P := fun _ => True) (by
        intro e; exact h0 (List.append_eq_nil_iff.1 e).1) trivial inner
      have i4 := (Laid.padLeft (p := p) (y := a) i3).pad c'
      simp only [blen_append] at i4
      simpa [Tok.span, Tok.start, Tok.stop, Nat.add_assoc] using i4

theorem ens_envRecord {unq : Unquote} {t : Tok} (h : MadeBy G.env t) :
    Ens (envRecord unq t) (fun i => Mirror t (tree unq (.env i)) ∧ Lexical (.env i)) (Unesc unq) := by
  obtain ⟨u, e, hu⟩ := made_env h
  have hk : StartsWithKeyword c!"env" t.text :=
    keyword_of (Headed.alt (Headed.rule headed_arg_ws.seq) (Headed.rule (headed_arg_ws.seq).seq)) h
  have hf : Forest t.start t.text (core u.children) := by
    have := h.forest.2
    rw [e] at this
    have := this.openFirst
    rw [List.append_nil] at this
    exact this.sublist (core_sublist _)
  unfold envRecord
  rw [e]
  rcases hu with hu | hu
  · have hr : u.rule = .env_single := Made.rule hu
    simp only [hr]
    obtain ⟨n, v, ec, fields⟩ := ens_envSingle (unq := unq) hu
    refine fields.bind fun r hr => ?_
    obtain ⟨a, b, rfl, ha, hb, hsa, hsb⟩ := hr
    rw [ec] at hf
    have := laid_join hf ha hb
    refine ⟨⟨_, _, rfl, hk, h.nonempty (by decide +kernel), ?_⟩, by simpa [Lexical] using hsa.2⟩
    show Laid _ _ [.node ⟨a.span.start, b.span.stop⟩ _ _]
    rw [hsa.1, hsb]
    exact this
  · have hr : u.rule = .env_pairs := Made.rule hu
    simp only [hr]
    rw [envPairList_core]
    refine (ens_envPairList (made_env_pairs hu)).bind fun ls hls => ?_
    exact ⟨⟨_, _, rfl, hk, h.nonempty (by decide +kernel), laid_of_forest hf hls.1⟩, hls.2⟩

/-! ## misc -/

theorem alpha_not_quoted {t : Str} (h : ∀ c ∈ t, IsAlpha c) : ¬ StartsQuoted t := by
  rintro ⟨c, r, rfl, hq⟩
  have := isAlpha_iff.2 (h c (by simp))
  rcases hq with rfl | rfl | rfl <;> revert this <;> decide

theorem ens_miscRecord {unq : Unquote} {t : Tok} (h : MadeBy G.misc t) :
    Ens (miscRecord unq t) (fun i => Mirror t (tree unq (.misc i)) ∧ Lexical (.misc i))
      (fun _ => False) := by
  obtain ⟨_, _, s', hx⟩ := made_iff.1 h
  obtain ⟨x1, x2, t1, t2, ex, et, h1, h2⟩ := semX_seq.1 hx
  obtain ⟨c1, g1, e1⟩ := semX_rule.1 h1
  obtain ⟨c2, g2, e2⟩ := semX_rule.1 h2
  obtain ⟨hne, hrun, _⟩ := step_alpha.plus_x.1 g1
  obtain ⟨hal, hend⟩ := runOf_class.1 hrun
  have hal : ∀ c ∈ x1, IsAlpha c := fun c hc => isAlpha_iff.1 (hal c hc)
  obtain ⟨n, v, e, hn, hv⟩ := made_misc h
  have hnt : n.text = x1 := by
    rw [et, e1, e2] at e
    have e := (List.cons.inj e).1
    rw [← e]; rfl
  have hrn : n.rule = .misc_instruction := Made.rule hn
  have hrv : v.rule = .misc_arguments := Made.rule hv
  unfold miscRecord
  have fields : Ens (miscFields unq [n, v] none none)
      (fun r => ∃ a b, r = (some a, some b) ∧ a.content = x1 ∧ Mirror n (strTree unq a) ∧
        Mirror v (shellTree b)) (fun _ => False) := by
    have hq : startsWithQuote n.text = false := by
      rw [hnt]
      exact Bool.eq_false_iff.2 fun h => alpha_not_quoted hal (startsWithQuote_iff.1 h)
    have hp : parseString unq n = .ok { span := n.span, content := n.text } := by
      unfold parseString
      rw [hq]; rfl
    simp only [miscFields, hrn, hrv]
    rw [hp]
    refine Ens.bind (x := parseAnyBreakable v) (ens_shell hv) fun b hb => ?_
    refine ⟨_, b, rfl, hnt, mirror_str hn (by decide +kernel) ⟨rfl, .inr ⟨?_, rfl⟩⟩, hb.2⟩
    rw [hnt]; exact alpha_not_quoted hal
  rw [e]
  refine fields.bind fun r hr => ?_
  obtain ⟨a, b, rfl, hc, ha, hb⟩ := hr
  refine ⟨mirror_children h (by decide +kernel) ?_ ?_, by rw [← hc] at hal hne; exact ⟨hne, hal⟩⟩
  · refine ⟨x2, ?_⟩
    dsimp only
    rw [hc]
    refine ⟨ex, hne, hal, ?_⟩
    intro c r' er hcal
    have := hend c (r' ++ s') (by rw [er]; rfl)
    rw [isAlpha_iff.2 hcal] at this
    cases this
  · rw [e]
    exact .cons ha (.cons hb .nil)

/-! ## dispatch -/

/-- the tokens emitted by `step` -/
def MadeStep (t : Tok) : Prop :=
  MadeBy G.from t ∨ MadeBy G.run t ∨ MadeBy G.arg t ∨ MadeBy G.label t ∨ MadeBy G.copy t ∨
  MadeBy G.entrypoint t ∨ MadeBy G.cmd t ∨ MadeBy G.env t ∨ MadeBy G.misc t

theorem shape_step {ts : List Tok} (h : Shape G.step false ts) : ∃ t, ts = [t] ∧ MadeStep t := by
  rcases h with ⟨t, e, h⟩ | ⟨t, e, h⟩ | ⟨t, e, h⟩ | ⟨t, e, h⟩ | ⟨t, e, h⟩ | ⟨t, e, h⟩ | ⟨t, e, h⟩ |
    ⟨t, e, h⟩ | ⟨t, e, h⟩ <;> refine ⟨t, e, ?_⟩ <;> unfold MadeStep
  · exact .inl h
  · exact .inr (.inl h)
  · exact .inr (.inr (.inl h))
  · exact .inr (.inr (.inr (.inl h)))
  · exact .inr (.inr (.inr (.inr (.inl h))))
  · exact .inr (.inr (.inr (.inr (.inr (.inl h)))))
  · exact .inr (.inr (.inr (.inr (.inr (.inr (.inl h))))))
  · exact .inr (.inr (.inr (.inr (.inr (.inr (.inr (.inl h)))))))
  · exact .inr (.inr (.inr (.inr (.inr (.inr (.inr (.inr h)))))))

/-- the faults of building an instruction from a token of the grammar -/
def StepFault (unq : Unquote) (f : Fault) : Prop :=
  Unesc unq f ∨ f = .err (.generic .digestInvalid) ∨
    f = .err (.generic (.unexpectedToken .comment))

/-- facts about single instructions that are not visible in the spans -/
def InstrOK (i : Instruction) : Prop := Lexical i ∧
  match i with
  | .from i => i.index = 0 ∧ i.image_parsed = ImageRef.parse i.image.content ∧
      checkDigest i.image_parsed = true
  | .copy i => i.sources ≠ []
  | _ => True

theorem ens_instructionOf {unq : Unquote} {t : Tok} (h : MadeStep t) :
    Ens (instructionOf unq t) (fun i => Mirror t (tree unq i) ∧ InstrOK i) (StepFault unq) := by
  unfold instructionOf
  rcases h with h | h | h | h | h | h | h | h | h
  · have hr : t.rule = .from := Made.rule h
    simp only [hr]
    refine ((ens_fromRecord 0 h).mono (fun _ h => h) ?_).bind fun i hi => hi
    rintro f (hf | hf)
    · exact .inl hf
    · exact .inr (.inl hf)
  · have hr : t.rule = .run := Made.rule h
    simp only [hr]
    refine ((ens_execRecord (by decide) (by decide) (by decide) h).mono (fun _ h => h) ?_).bind
      fun i hi => ⟨hi, trivial, trivial⟩
    rintro f (hf | hf)
    · exact .inl hf
    · exact .inr (.inr hf)
  · have hr : t.rule = .arg := Made.rule h
    simp only [hr]
    exact ((ens_argRecord h).mono (fun _ h => h) (fun _ h => .inl h)).bind
      fun i hi => ⟨hi.1, hi.2, trivial⟩
  · have hr : t.rule = .label := Made.rule h
    simp only [hr]
    exact ((ens_labelRecord h).mono (fun _ h => h) (fun _ h => .inl h)).bind
      fun i hi => ⟨hi, trivial, trivial⟩
  · have hr : t.rule = .copy := Made.rule h
    simp only [hr]
    exact ((ens_copyRecord h).mono (fun _ h => h) (fun _ h => .inl h)).bind
      fun i hi => hi
  · have hr : t.rule = .entrypoint := Made.rule h
    simp only [hr]
    refine ((ens_execRecord (by decide) (by decide) (by decide) h).mono (fun _ h => h) ?_).bind
      fun i hi => ⟨hi, trivial, trivial⟩
    rintro f (hf | hf)
    · exact .inl hf
    · exact .inr (.inr hf)
  · have hr : t.rule = .cmd := Made.rule h
    simp only [hr]
    refine ((ens_execRecord (by decide) (by decide) (by decide) h).mono (fun _ h => h) ?_).bind
      fun i hi => ⟨hi, trivial, trivial⟩
    rintro f (hf | hf)
    · exact .inl hf
    · exact .inr (.inr hf)
  · have hr : t.rule = .env := Made.rule h
    simp only [hr]
    exact ((ens_envRecord h).mono (fun _ h => h) (fun _ h => .inl h)).bind
      fun i hi => ⟨hi.1, hi.2, trivial⟩
  · have hr : t.rule = .misc := Made.rule h
    simp only [hr]
    exact ((ens_miscRecord h).mono (fun _ h => h) (fun _ h => h.elim)).bind
      fun i hi => ⟨hi.1, hi.2, trivial⟩

end Verif
