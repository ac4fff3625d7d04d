import Verif.Proof.LineEndsRead
import Verif.Proof.Document

/-!
# The texts of tokens, and the tokens behind the strings of a document
-/

namespace Verif
open Spec

/-- Every token that is reached when the document is read satisfies `P`. -/
inductive Deep (P : Rule → Nat → Nat → Str → Prop) : List Tok → Prop
  | nil : Deep P []
  | cons {r a b x ch ts} : P r a b x → (readRule r = false → Deep P ch) → Deep P ts →
      Deep P (.node r a b x ch :: ts)

namespace Deep

variable {P Q : Rule → Nat → Nat → Str → Prop}

theorem append {ts us : List Tok} (h : Deep P ts) (h' : Deep P us) : Deep P (ts ++ us) := by
  induction h with
  | nil => exact h'
  | cons h1 h2 _ _ ih => exact .cons h1 h2 ih

theorem of_all {ts : List Tok} (h : ∀ t ∈ ts, Deep P [t]) : Deep P ts := by
  induction ts with
  | nil => exact .nil
  | cons t ts ih =>
    have h1 := h t (by simp)
    have h2 := ih fun u hu => h u (by simp [hu])
    cases h1 with
    | cons a b _ => exact .cons a b h2

theorem mem {ts : List Tok} (h : Deep P ts) : ∀ t ∈ ts, Deep P [t] := by
  induction h with
  | nil => simp
  | cons h1 h2 h3 _ ih =>
    intro t ht
    rcases List.mem_cons.1 ht with rfl | ht
    · exact .cons h1 h2 .nil
    · exact ih t ht

theorem mono {ts : List Tok} (h : Deep P ts) (hPQ : ∀ r a b x, P r a b x → Q r a b x) :
    Deep Q ts := by
  induction h with
  | nil => exact .nil
  | cons h1 h2 h3 ih1 ih2 => exact .cons (hPQ _ _ _ _ h1) (fun hr => ih1 hr) ih2

theorem and {ts : List Tok} (h : Deep P ts) (h' : Deep Q ts) :
    Deep (fun r a b x => P r a b x ∧ Q r a b x) ts := by
  induction h with
  | nil => exact .nil
  | cons h1 h2 h3 ih1 ih2 =>
    cases h' with
    | cons g1 g2 g3 => exact .cons ⟨h1, g1⟩ (fun hr => ih1 hr (g2 hr)) (ih2 g3)

theorem node {t : Tok} (h : P t.rule t.start t.stop t.text)
    (hc : readRule t.rule = false → Deep P t.children) : Deep P [t] := by
  cases t with | node r a b x ch => exact .cons h hc .nil

theorem leaf {t : Tok} (hr : readRule t.rule = true) (h : P t.rule t.start t.stop t.text) :
    Deep P [t] := node h fun hf => by rw [hr] at hf; cases hf

end Deep

/-! ## static checks -/

/-- every rule in the expression passes the test -/
def rulesAll (test : Rule → PExpr → Bool) : PExpr → Bool
  | .seq a b => rulesAll test a && rulesAll test b
  | .alt a b => rulesAll test a && rulesAll test b
  | .star e => rulesAll test e
  | .opt e => rulesAll test e
  | .neg _ => true
  | .rule _ r e => test r e && rulesAll test e
  | _ => true

theorem deep_of_sem {test : Rule → PExpr → Bool} {P : Rule → Nat → Nat → Str → Prop}
    (hP : ∀ r e q p x s ts, test r e = true → SemX e q p x s ts → P r p (p + blen x) x)
    (hb : ∀ r, rulesAll test (G.body r) = true) {e : PExpr} {q : Bool} {p : Nat} {s : Str} {o : Out}
    (h : Sem e q p s o) : ∀ p' s' ts, o = some (p', s', ts) → rulesAll test e = true → Deep P ts := by
  induction h with
  | seq_ok h1 h2 ih1 ih2 =>
    rintro _ _ _ ⟨⟩ he
    simp only [rulesAll, Bool.and_eq_true] at he
    exact (ih1 _ _ _ rfl he.1).append (ih2 _ _ _ rfl he.2)
  | alt_left h ih =>
    rintro _ _ _ ⟨⟩ he
    simp only [rulesAll, Bool.and_eq_true] at he
    exact ih _ _ _ rfl he.1
  | alt_right h1 h2 ih1 ih2 =>
    rintro _ _ _ rfl he
    simp only [rulesAll, Bool.and_eq_true] at he
    exact ih2 _ _ _ rfl he.2
  | star_nil h ih => rintro _ _ _ ⟨⟩ he; exact .nil
  | star_cons h1 h2 ih1 ih2 =>
    rintro _ _ _ ⟨⟩ he
    exact (ih1 _ _ _ rfl he).append (ih2 _ _ _ rfl he)
  | opt_some h ih => rintro _ _ _ ⟨⟩ he; exact ih _ _ _ rfl he
  | opt_none h ih => rintro _ _ _ ⟨⟩ he; exact .nil
  | neg_ok h ih => rintro _ _ _ ⟨⟩ he; exact .nil
  | @rule_ok k r e q p s p1 s1 t1 h ih =>
    rintro _ _ _ ⟨⟩ he
    simp only [rulesAll, Bool.and_eq_true] at he
    have hd := ih _ _ _ rfl he.2
    obtain ⟨x, rfl, rfl, hx⟩ := h.x
    rw [take_append_sub]
    have node : Deep P [.node r p (p + blen x) x t1] := .cons (hP _ _ _ _ _ _ _ he.1 hx) (fun _ => hd) .nil
    cases k with
    | normal => cases q with
      | true => exact hd
      | false => exact node
    | silent => exact hd
    | atomic => cases q with
      | true => exact hd
      | false => exact node
    | compound => exact node
  | @recur r q p s o h ih => rintro _ _ _ rfl he; exact ih _ _ _ rfl (hb r)
  | _ => rintro _ _ _ ⟨⟩ <;> exact fun _ => .nil

/-- matches every text that starts with a carriage return or a line feed -/
def hitsBreak : PExpr → Bool
  | .alt a b => isNewline (.alt a b) || hitsBreak a
  | _ => false

def keepsLine (g : Bool) : PExpr → Bool
  | .neg e => g || hitsBreak e
  | _ => false

/-- the text of the expression is on one line; `g`: the text at hand does not start with a line
end -/
def lineOnly : Bool → PExpr → Bool
  | _, .str w => w.all fun c => c != '\n' && c != '\r'
  | _, .istr w => (lower w).all fun c => c != '\n' && c != '\r'
  | _, .range lo _ => decide ('\r' < lo)
  | g, .any => g
  | _, .soi => true
  | _, .eoi => true
  | g, .seq a b => lineOnly g a && lineOnly (keepsLine g a) b
  | g, .alt a b => lineOnly g a && lineOnly g b
  | _, .star e => lineOnly false e
  | g, .opt e => lineOnly g e
  | _, .neg _ => true
  | g, .rule _ _ e => lineOnly g e
  | _, .recur _ => false

theorem hits_break {e : PExpr} (h : hitsBreak e = true) {q p c s} (hc : c = '\n' ∨ c = '\r') :
    ¬ Sem e q p (c :: s) none := by
  induction e with
  | alt a b iha _ =>
    simp only [hitsBreak, Bool.or_eq_true] at h
    rcases h with h | h
    · rw [isNewline_eq h]
      intro hs
      rcases hc with rfl | rfl
      · have := hs.det newline_lf
        cases this
      · cases s with
        | nil =>
          have := hs.det (newline_end (w := ['\r']) (.inr rfl) (s := []) (by simp))
          cases this
        | cons d s =>
          by_cases hd : d = '\n'
          · subst hd
            have := hs.det (.alt_right (.str_fail (by simp [stripPrefix]))
              (.alt_left (.str_ok (w := ['\r', '\n']) (s' := s) (by simp [stripPrefix]))))
            cases this
          · have := hs.det (newline_end (w := ['\r']) (.inr rfl) (s := d :: s) (by simp [hd]))
            cases this
    · intro hs; exact iha h (sem_alt_none.1 hs).1
  | _ => cases h

theorem line_only {e : PExpr} {q : Bool} {p : Nat} {s : Str} {o : Out} (h : Sem e q p s o) :
    ∀ p' s' ts, o = some (p', s', ts) → ∀ g, lineOnly g e = true →
      (g = true → ∀ c r, s = c :: r → c ≠ '\n' ∧ c ≠ '\r') →
      ∃ x, s = x ++ s' ∧ ∀ c ∈ x, c ≠ '\n' ∧ c ≠ '\r' := by
  have all : ∀ {x : Str}, x.all (fun c => c != '\n' && c != '\r') = true →
      ∀ c ∈ x, c ≠ '\n' ∧ c ≠ '\r' := by
    intro x hx c hc
    have := List.all_eq_true.1 hx c hc
    simpa using this
  induction h with
  | @str_ok w q p s s' h =>
    rintro _ _ _ ⟨⟩ g hg _
    exact ⟨w, stripPrefix_eq_some_iff.1 h, all hg⟩
  | @istr_ok w q p s s' h =>
    rintro _ _ _ ⟨⟩ g hg _
    obtain ⟨y, hy, hl⟩ := stripPrefixI_eq_some_iff.1 h
    refine ⟨y, hy, fun c hc => ?_⟩
    have hm : lowerChar c ∈ lower y := List.mem_map_of_mem hc
    rw [hl] at hm
    have := all hg _ hm
    constructor
    · rintro rfl; exact this.1 (by decide)
    · rintro rfl; exact this.2 (by decide)
  | @range_ok lo hi q p c s h =>
    rintro _ _ _ ⟨⟩ g hg _
    have hg : '\r' < lo := by simpa [lineOnly] using hg
    refine ⟨[c], rfl, fun d hd => ?_⟩
    rw [List.mem_singleton] at hd
    subst hd
    have := Std.lt_of_lt_of_le hg h.1
    constructor
    · rintro rfl; exact absurd this (by decide)
    · rintro rfl; exact absurd this (by decide)
  | @any_ok q p c s =>
    rintro _ _ _ ⟨⟩ g hg hh
    refine ⟨[c], rfl, fun d hd => ?_⟩
    rw [List.mem_singleton] at hd
    subst hd
    exact hh hg _ _ rfl
  | soi_ok => rintro _ _ _ ⟨⟩ g hg hh; exact ⟨[], rfl, by simp⟩
  | eoi_ok => rintro _ _ _ ⟨⟩ g hg hh; exact ⟨[], rfl, by simp⟩
  | @seq_ok a b q p s p1 s1 t1 p2 s2 t2 h1 h2 ih1 ih2 =>
    rintro _ _ _ ⟨⟩ g hg hh
    simp only [lineOnly, Bool.and_eq_true] at hg
    obtain ⟨x, rfl, hx⟩ := ih1 _ _ _ rfl g hg.1 hh
    obtain ⟨y, rfl, hy⟩ := ih2 _ _ _ rfl _ hg.2 (by
      intro hk
      unfold keepsLine at hk
      split at hk
      · rename_i z
        obtain ⟨hz, _, e, _⟩ := sem_neg_some.1 h1
        simp only [Bool.or_eq_true] at hk
        rcases hk with hk | hk
        · intro c r ec
          exact hh hk c r (by rw [← e]; exact ec)
        · intro c r ec
          rw [← e, ec] at hz
          constructor
          · intro e'; exact hits_break hk (.inl e') hz
          · intro e'; exact hits_break hk (.inr e') hz
      · cases hk)
    refine ⟨x ++ y, by simp, fun c hc => ?_⟩
    rcases List.mem_append.1 hc with hc | hc
    · exact hx c hc
    · exact hy c hc
  | alt_left h ih =>
    rintro _ _ _ ⟨⟩ g hg hh
    simp only [lineOnly, Bool.and_eq_true] at hg
    exact ih _ _ _ rfl g hg.1 hh
  | alt_right h1 h2 ih1 ih2 =>
    rintro _ _ _ rfl g hg hh
    simp only [lineOnly, Bool.and_eq_true] at hg
    exact ih2 _ _ _ rfl g hg.2 hh
  | star_nil h ih => rintro _ _ _ ⟨⟩ g hg hh; exact ⟨[], rfl, by simp⟩
  | star_cons h1 h2 ih1 ih2 =>
    rintro _ _ _ ⟨⟩ g hg hh
    obtain ⟨x, rfl, hx⟩ := ih1 _ _ _ rfl false hg (by simp)
    obtain ⟨y, rfl, hy⟩ := ih2 _ _ _ rfl false hg (by simp)
    refine ⟨x ++ y, by simp, fun c hc => ?_⟩
    rcases List.mem_append.1 hc with hc | hc
    · exact hx c hc
    · exact hy c hc
  | opt_some h ih => rintro _ _ _ ⟨⟩ g hg hh; exact ih _ _ _ rfl g hg hh
  | opt_none h ih => rintro _ _ _ ⟨⟩ g hg hh; exact ⟨[], rfl, by simp⟩
  | neg_ok h ih => rintro _ _ _ ⟨⟩ g hg hh; exact ⟨[], rfl, by simp⟩
  | rule_ok h ih => rintro _ _ _ ⟨⟩ g hg hh; exact ih _ _ _ rfl g hg hh
  | recur h ih => rintro _ _ _ rfl g hg hh; cases hg
  | _ => rintro _ _ _ ⟨⟩

/-- the text of the expression starts with a quote -/
def quoteFirst : PExpr → Bool
  | .str (c :: _) => c == '"' || c == '\''
  | .seq a _ => quoteFirst a
  | .alt a b => quoteFirst a && quoteFirst b
  | .rule _ _ e => quoteFirst e
  | _ => false

/-- `t` starts with one of the quotes of the grammar. -/
def GrammarQuote (t : Str) : Prop := ∃ c r, t = c :: r ∧ (c = '"' ∨ c = '\'')

theorem quote_first {e : PExpr} : ∀ {q p x s ts}, SemX e q p x s ts → quoteFirst e = true →
    GrammarQuote x := by
  induction e with
  | str w =>
    intro q p x s ts h he
    obtain ⟨rfl, _⟩ := semX_str.1 h
    cases x with
    | nil => cases he
    | cons c x =>
      refine ⟨c, x, rfl, ?_⟩
      simpa [quoteFirst] using he
  | seq a b iha ihb =>
    intro q p x s ts h he
    obtain ⟨x1, x2, t1, t2, rfl, rfl, h1, h2⟩ := semX_seq.1 h
    obtain ⟨c, r, rfl, hc⟩ := iha h1 he
    exact ⟨c, r ++ x2, rfl, hc⟩
  | alt a b iha ihb =>
    intro q p x s ts h he
    simp only [quoteFirst, Bool.and_eq_true] at he
    rcases semX_alt.1 h with h | ⟨_, h⟩
    · exact iha h he.1
    · exact ihb h he.2
  | rule k r e ih =>
    intro q p x s ts h he
    obtain ⟨t1, h1, _⟩ := semX_rule.1 h
    exact ih h1 he
  | _ => intro q p x s ts h he; cases he

/-- what is known of the text of a token -/
def TextFact (r : Rule) (x : Str) : Prop :=
  (plainRule r = true → ∀ c ∈ x, c ≠ '\n' ∧ c ≠ '\r') ∧ (quotedRule r = true → GrammarQuote x)

def textTest (r : Rule) (e : PExpr) : Bool :=
  (!plainRule r || lineOnly false e) && (!quotedRule r || quoteFirst e)

theorem text_facts {q : Bool} {p : Nat} {s : Str} {p' : Nat} {s' : Str} {ts : List Tok}
    (h : Sem G.dockerfile q p s (some (p', s', ts))) : Deep (fun r _ _ x => TextFact r x) ts := by
  refine deep_of_sem (test := textTest) ?_ ?_ h _ _ _ rfl (by decide +kernel)
  · intro r e q p x s ts ht hx
    simp only [textTest, Bool.and_eq_true, Bool.or_eq_true, Bool.not_eq_true'] at ht
    constructor
    · intro hr
      rcases ht.1 with h | h
      · rw [hr] at h; cases h
      · obtain ⟨y, hy, hl⟩ := line_only hx _ _ _ rfl false h (by simp)
        have := List.append_cancel_right hy
        subst this; exact hl
    · intro hr
      rcases ht.2 with h | h
      · rw [hr] at h; cases h
      · exact quote_first hx h
  · intro r; cases r <;> decide +kernel

/-! ## the tokens behind the strings of an instruction -/

/-- The spans of the quoted texts are among `L`. -/
def Listed (L : List Span) (r : Rule) (a b : Nat) (_ : Str) : Prop :=
  quotedRule r = true → (⟨a, b⟩ : Span) ∈ L

theorem listed_calm {L : List Span} {k r e} {t : Tok} (h : Made k r e t)
    (hr : quotedRule r = false) (hc : rulesAll (fun r _ => !quotedRule r) e = true) :
    Deep (Listed L) [t] := by
  obtain ⟨rfl, s', h⟩ := h
  refine .node (fun hq => by rw [hr] at hq; cases hq) fun _ => ?_
  refine deep_of_sem (test := fun r _ => !quotedRule r) ?_ ?_ h _ _ _ rfl hc
  · intro r e q p x s ts ht _ hq
    rw [hq] at ht; cases ht
  · intro r; cases r <;> decide +kernel

theorem listed_comment {L : List Span} {t : Tok} (h : t.rule = .comment) : Deep (Listed L) [t] :=
  .leaf (by rw [h]; rfl) (fun hq => by rw [h] at hq; cases hq)

theorem listed_core {L : List Span} {ts : List Tok} (h : ∀ t ∈ core ts, Deep (Listed L) [t]) :
    Deep (Listed L) ts := by
  refine .of_all fun t ht => ?_
  by_cases hc : t.rule = .comment
  · exact listed_comment hc
  · exact h t (by simp [core, hc, ht])

theorem listed_leaf {L : List Span} {t : Tok} (hr : readRule t.rule = true) (h : t.span ∈ L) :
    Deep (Listed L) [t] := .leaf hr fun _ => h

theorem listed_node {L : List Span} {t : Tok} (hr : quotedRule t.rule = false)
    (h : Deep (Listed L) t.children) : Deep (Listed L) [t] :=
  .node (fun hq => by rw [hr] at hq; cases hq) fun _ => h

section
variable {unq : Unquote}

theorem string_span {t : Tok} {x : SpannedString} (h : parseString unq t = .ok x) :
    x.span = t.span := ((ens_parseString unq t).ok_of h).1

theorem quoted_span {t : Tok} {x : SpannedString} (h : labelQuoted unq t = .ok x) :
    x.span = t.span := by
  unfold labelQuoted at h
  cases hq : unquoteR unq (cleanEscapedBreaks t.text) with
  | error e => rw [hq] at h; cases h
  | ok v => rw [hq] at h; cases h; rfl

theorem slots_two {K V : Type} {act : Tok → Result (Says K V)} {n v : Tok} {x : Result K}
    {y : Result V} (hn : act n = x.map .key) (hv : act v = y.map .val) {r}
    (h : slots act [n, v] none none = .ok r) :
    ∃ a b, x = .ok a ∧ y = .ok b ∧ r = (some a, some b) := by
  unfold slots at h
  rw [hn] at h
  cases x with
  | error e => cases h
  | ok a =>
    simp only [Except.map] at h
    unfold slots at h
    rw [hv] at h
    cases y with
    | error e => cases h
    | ok b => cases h; exact ⟨a, b, rfl, rfl, rfl⟩

theorem listed_arg {t : Tok} (h : MadeBy G.arg t) {i : ArgInstruction}
    (hi : argRecord unq t = .ok i) : Deep (Listed (writtenStrings (.arg i))) [t] := by
  have hr : t.rule = .arg := Made.rule h
  refine listed_node (by rw [hr]; rfl) ?_
  obtain ⟨n, vs, ec, hn, hv⟩ := made_arg h
  apply listed_core
  rw [ec]
  have hrn : n.rule = .arg_name := Made.rule hn
  have calm : Deep (Listed (writtenStrings (.arg i))) [n] :=
    .leaf (by rw [hrn]; rfl) (fun hq => by rw [hrn] at hq; cases hq)
  rcases hv with rfl | ⟨v, rfl, hv⟩
  · intro u hu; rw [List.mem_singleton.1 hu]; exact calm
  · intro u hu
    simp only [List.mem_cons, List.not_mem_nil, or_false] at hu
    rcases hu with rfl | rfl
    · exact calm
    · unfold argRecord at hi
      rw [argFields_core, ec, argFields_slots] at hi
      have hvr : argAct unq u = (parseString unq u).map .val ∧ readRule u.rule = true := by
        rcases hv with hv | hv
        · have := Made.rule hv; unfold argAct; rw [this]; exact ⟨rfl, rfl⟩
        · have := Made.rule hv; unfold argAct; rw [this]; exact ⟨rfl, rfl⟩
      cases hs : slots (argAct unq) [n, u] none none with
      | error e => rw [hs] at hi; cases hi
      | ok r =>
        have hnr : argAct unq n = (parseString unq n).map .key := by unfold argAct; rw [hrn]
        obtain ⟨a, b, _, hb, rfl⟩ := slots_two hnr hvr.1 hs
        rw [hs] at hi
        cases hi
        refine listed_leaf hvr.2 ?_
        rw [← string_span hb]
        simp [writtenStrings, plainStrings]

theorem labelPair_spans {t n v : Tok} (ec : core t.children = [n, v])
    (hn : n.rule = .label_quoted_name ∨ n.rule = .label_name ∨
      n.rule = .label_single_quoted_name ∨ n.rule = .label_single_name)
    (hv : v.rule = .label_quoted_value ∨ v.rule = .label_value) {l : Label}
    (hl : labelPairRecord unq t = .ok l) : l.name.span = n.span ∧ l.value.span = v.span := by
  unfold labelPairRecord at hl
  rw [labelFields_core, ec, labelFields_slots] at hl
  have key : ∃ x : Result SpannedString, labelAct unq n = x.map .key ∧
      ∀ a, x = .ok a → a.span = n.span := by
    rcases hn with h | h | h | h
    · exact ⟨labelQuoted unq n, by unfold labelAct; rw [h], fun a => quoted_span⟩
    · exact ⟨parseString unq n, by unfold labelAct; rw [h], fun a => string_span⟩
    · exact ⟨labelQuoted unq n, by unfold labelAct; rw [h], fun a => quoted_span⟩
    · exact ⟨parseString unq n, by unfold labelAct; rw [h], fun a => string_span⟩
  have val : ∃ x : Result SpannedString, labelAct unq v = x.map .val ∧
      ∀ a, x = .ok a → a.span = v.span := by
    rcases hv with h | h
    · exact ⟨labelQuoted unq v, by unfold labelAct; rw [h], fun a => quoted_span⟩
    · exact ⟨parseString unq v, by unfold labelAct; rw [h], fun a => string_span⟩
  obtain ⟨x, hx, hx'⟩ := key
  obtain ⟨y, hy, hy'⟩ := val
  cases hs : slots (labelAct unq) [n, v] none none with
  | error e => rw [hs] at hl; cases hl
  | ok r =>
    obtain ⟨a, b, ha, hb, rfl⟩ := slots_two hx hy hs
    rw [hs] at hl
    cases hl
    exact ⟨hx' a ha, hy' b hb⟩

theorem labelList_mem {ts : List Tok} : ∀ {ls}, labelList unq ts = .ok ls →
    ∀ u ∈ ts, (u.rule = .label_pair ∨ u.rule = .label_single) →
      ∃ l ∈ ls, labelPairRecord unq u = .ok l := by
  induction ts with
  | nil => simp
  | cons t ts ih =>
    intro ls h u hu hr
    unfold labelList at h
    have go : ∀ {ls}, (do
        let l ← labelPairRecord unq t
        let ls ← labelList unq ts
        return l :: ls) = Except.ok ls → ∃ l ∈ ls, labelPairRecord unq u = .ok l := by
      intro ls h
      cases h1 : labelPairRecord unq t with
      | error e => rw [h1] at h; cases h
      | ok l =>
        cases h2 : labelList unq ts with
        | error e => rw [h1, h2] at h; cases h
        | ok ls' =>
          rw [h1, h2] at h
          cases h
          rcases List.mem_cons.1 hu with rfl | hu
          · exact ⟨l, by simp, h1⟩
          · obtain ⟨l', hl', e⟩ := ih h2 u hu hr
            exact ⟨l', by simp [hl'], e⟩
    split at h
    · exact go h
    · exact go h
    · rename_i hc
      rcases List.mem_cons.1 hu with rfl | hu
      · rw [hc] at hr; rcases hr with hr | hr <;> cases hr
      · exact ih h u hu hr
    · cases h

theorem listed_label {t : Tok} (h : MadeBy G.label t) {i : LabelInstruction}
    (hi : labelRecord unq t = .ok i) : Deep (Listed (writtenStrings (.label i))) [t] := by
  have hr : t.rule = .label := Made.rule h
  refine listed_node (by rw [hr]; rfl) ?_
  apply listed_core
  intro u hu
  have hm := made_label h u hu
  unfold labelRecord at hi
  cases hl : labelList unq t.children with
  | error e => rw [hl] at hi; cases hi
  | ok ls =>
    rw [hl] at hi
    cases hi
    have hmem : u ∈ t.children := (core_sublist _).subset hu
    have fin : ∀ {n v : Tok}, core u.children = [n, v] → readRule n.rule = true →
        readRule v.rule = true →
        (n.rule = .label_quoted_name ∨ n.rule = .label_name ∨
          n.rule = .label_single_quoted_name ∨ n.rule = .label_single_name) →
        (v.rule = .label_quoted_value ∨ v.rule = .label_value) →
        (u.rule = .label_pair ∨ u.rule = .label_single) →
        Deep (Listed (writtenStrings (.label ⟨t.span, ls⟩))) [u] := by
      intro n v ec rn rv hn hv hur
      obtain ⟨l, hlm, hlp⟩ := labelList_mem hl u hmem hur
      obtain ⟨e1, e2⟩ := labelPair_spans ec hn hv hlp
      refine listed_node (by rcases hur with h | h <;> rw [h] <;> rfl) ?_
      apply listed_core
      rw [ec]
      have : ∀ x ∈ [l.name, l.value], x.span ∈ writtenStrings (.label ⟨t.span, ls⟩) := by
        intro x hx
        simp only [writtenStrings, plainStrings, labelStrings, List.map_nil, List.nil_append,
          List.mem_append, List.mem_map, List.mem_flatMap]
        exact .inl (.inl ⟨x, ⟨l, hlm, hx⟩, rfl⟩)
      intro z hz
      simp only [List.mem_cons, List.not_mem_nil, or_false] at hz
      rcases hz with rfl | rfl
      · exact listed_leaf rn (by rw [← e1]; exact this _ (by simp))
      · exact listed_leaf rv (by rw [← e2]; exact this _ (by simp))
    have val : ∀ {v : Tok}, (MadeBy G.label_quoted_value v ∨ MadeBy G.label_value v) →
        (v.rule = .label_quoted_value ∨ v.rule = .label_value) ∧ readRule v.rule = true := by
      rintro v (h | h)
      · have := Made.rule h; exact ⟨.inl this, by rw [this]; rfl⟩
      · have := Made.rule h; exact ⟨.inr this, by rw [this]; rfl⟩
    rcases hm with hm | hm
    · obtain ⟨n, v, ec, hn, hv⟩ := made_label_pair hm
      have hnr : (n.rule = .label_quoted_name ∨ n.rule = .label_name) ∧ readRule n.rule = true := by
        rcases hn with h | h
        · have := Made.rule h; exact ⟨.inl this, by rw [this]; rfl⟩
        · have := Made.rule h; exact ⟨.inr this, by rw [this]; rfl⟩
      have hc1 : n.rule ≠ .comment := by intro e; rw [e] at hnr; simp at hnr
      have hc2 : v.rule ≠ .comment := by
        have := (val hv).1; intro e; rw [e] at this; simp at this
      refine fin (by rw [ec, core_cons_of_ne hc1, core_cons_of_ne hc2]; rfl) hnr.2 (val hv).2 ?_
        (val hv).1 (.inl (Made.rule hm))
      rcases hnr.1 with h | h
      · exact .inl h
      · exact .inr (.inl h)
    · obtain ⟨n, v, ec, hn, hv⟩ := made_label_single hm
      have hnr : (n.rule = .label_single_quoted_name ∨ n.rule = .label_single_name) ∧
          readRule n.rule = true := by
        rcases hn with h | h
        · have := Made.rule h; exact ⟨.inl this, by rw [this]; rfl⟩
        · have := Made.rule h; exact ⟨.inr this, by rw [this]; rfl⟩
      exact fin ec hnr.2 (val hv).2 (.inr (.inr hnr.1)) (val hv).1 (.inr (Made.rule hm))

theorem elems_mem {ts : List Tok} : ∀ {es}, stringArrayElems unq ts = .ok es →
    ∀ u ∈ ts, u.rule = .string → ∃ e ∈ es, e.span = u.span := by
  induction ts with
  | nil => simp
  | cons t ts ih =>
    intro es h u hu hr
    unfold stringArrayElems at h
    split at h
    · cases h1 : parseString unq t with
      | error e => rw [h1] at h; cases h
      | ok l =>
        cases h2 : stringArrayElems unq ts with
        | error e => rw [h1, h2] at h; cases h
        | ok ls' =>
          rw [h1, h2] at h
          cases h
          rcases List.mem_cons.1 hu with rfl | hu
          · exact ⟨l, by simp, string_span h1⟩
          · obtain ⟨l', hl', e⟩ := ih h2 u hu hr
            exact ⟨l', by simp [hl'], e⟩
    · rename_i hc
      rcases List.mem_cons.1 hu with rfl | hu
      · rw [hc] at hr; cases hr
      · exact ih h u hu hr
    · cases h

theorem listed_exec {r : Rule} {w : Str} {t : Tok} {re rs : Rule} {L : ExecInstruction → List Span}
    (hr : quotedRule r = false) (he : quotedRule re = false) (hsr : quotedRule rs = false)
    (hre : re ≠ .comment) (hrs : rs ≠ .comment)
    (hL : ∀ i a, i.expr = .exec a → ∀ e ∈ a.elements, e.span ∈ L i)
    (h : MadeBy (G.nrm r (.seq (.istr w) (.seq G.arg_ws
      (.alt (G.nrm re G.string_array) (G.atm rs G.any_breakable))))) t) {i : ExecInstruction}
    (hi : execRecord unq re rs t = .ok i) : Deep (Listed (L i)) [t] := by
  have htr : t.rule = r := Made.rule h
  refine listed_node (by rw [htr]; exact hr) ?_
  obtain ⟨cs, u, ec, hcs, hu⟩ := made_exec rfl rfl h
  have hnil : cs = [] := by
    cases cs with
    | nil => rfl
    | cons c cs =>
      have hc := hcs c (by simp)
      unfold execRecord at hi
      rw [ec] at hi
      simp only [List.cons_append, hc, Ne.symm hre, Ne.symm hrs, if_false] at hi
      cases hi
  subst hnil
  rw [ec, List.nil_append]
  rcases hu with hu | hu
  · have hur : u.rule = re := Made.rule hu
    refine listed_node (by rw [hur]; exact he) ?_
    apply listed_core
    intro z hz
    have hzs := made_string_array (Made.shape hu) z hz
    have hzr : z.rule = .string := Made.rule hzs
    refine listed_leaf (by rw [hzr]; rfl) ?_
    unfold execRecord at hi
    rw [ec] at hi
    simp only [List.nil_append, hur, if_true] at hi
    unfold parseStringArray at hi
    cases hes : stringArrayElems unq u.children with
    | error e => rw [hes] at hi; cases hi
    | ok es =>
      rw [hes] at hi
      cases hi
      obtain ⟨e, hem, hesp⟩ := elems_mem hes z ((core_sublist _).subset hz) hzr
      rw [← hesp]
      exact hL _ _ rfl e hem
  · exact listed_calm hu hsr (by decide +kernel)

theorem unquoted_of {t : Tok} {b : BreakableString}
    (h : (do let v ← unquoteR unq t.text; pure (breakableOf t v)) = Except.ok b) :
    ∃ c ∈ b.components, componentSpan c = t.span := by
  cases hu : unquoteR unq t.text with
  | error e => rw [hu] at h; cases h
  | ok v => rw [hu] at h; cases h; exact ⟨_, List.mem_singleton.2 rfl, rfl⟩

theorem envPair_value {u n v : Tok} (ec : u.children = [n, v]) (hn : n.rule = .env_name)
    (hv : v.rule = .env_pair_quoted_value ∨ v.rule = .env_pair_value) {l : EnvVar}
    (hl : envPairRecord unq u = .ok l) : ∃ c ∈ l.value.components, componentSpan c = v.span := by
  unfold envPairRecord at hl
  rw [ec, envPairFields_slots] at hl
  have key : envPairAct unq n = (parseString unq n).map .key := by unfold envPairAct; rw [hn]
  have val : ∃ x : Result BreakableString, envPairAct unq v = x.map .val ∧
      ∀ a, x = .ok a → ∃ c ∈ a.components, componentSpan c = v.span := by
    rcases hv with h | h
    · exact ⟨_, by unfold envPairAct; rw [h], fun a ha => unquoted_of ha⟩
    · refine ⟨.ok (breakableOf v v.text), by unfold envPairAct; rw [h]; rfl, fun a ha => ?_⟩
      cases ha; exact ⟨_, List.mem_singleton.2 rfl, rfl⟩
  obtain ⟨y, hy, hy'⟩ := val
  cases hs : slots (envPairAct unq) [n, v] none none with
  | error e => rw [hs] at hl; cases hl
  | ok r =>
    obtain ⟨a, b, ha, hb, rfl⟩ := slots_two key hy hs
    rw [hs] at hl
    cases hl
    exact hy' b hb

theorem envList_mem {ts : List Tok} : ∀ {ls}, envPairList unq ts = .ok ls →
    ∀ u ∈ ts, u.rule = .env_pair → ∃ l ∈ ls, envPairRecord unq u = .ok l := by
  induction ts with
  | nil => simp
  | cons t ts ih =>
    intro ls h u hu hr
    unfold envPairList at h
    split at h
    · cases h1 : envPairRecord unq t with
      | error e => rw [h1] at h; cases h
      | ok l =>
        cases h2 : envPairList unq ts with
        | error e => rw [h1, h2] at h; cases h
        | ok ls' =>
          rw [h1, h2] at h
          cases h
          rcases List.mem_cons.1 hu with rfl | hu
          · exact ⟨l, by simp, h1⟩
          · obtain ⟨l', hl', e⟩ := ih h2 u hu hr
            exact ⟨l', by simp [hl'], e⟩
    · rename_i hc
      rcases List.mem_cons.1 hu with rfl | hu
      · rw [hc] at hr; cases hr
      · exact ih h u hu hr
    · cases h

theorem env_listed {sp : Span} {vars : List EnvVar} {l : EnvVar} (hl : l ∈ vars)
    {c : BreakableStringComponent} (hc : c ∈ l.value.components) :
    componentSpan c ∈ writtenStrings (.env ⟨sp, vars⟩) := by
  simp only [writtenStrings, envValues, List.mem_append, List.mem_flatMap, List.mem_map]
  exact .inr ⟨l.value, ⟨l, hl, rfl⟩, c, hc, rfl⟩

theorem listed_env {t : Tok} (h : MadeBy G.env t) {i : EnvInstruction}
    (hi : envRecord unq t = .ok i) : Deep (Listed (writtenStrings (.env i))) [t] := by
  have htr : t.rule = .env := Made.rule h
  refine listed_node (by rw [htr]; rfl) ?_
  obtain ⟨u, ec, hu⟩ := made_env h
  unfold envRecord at hi
  rw [ec] at hi ⊢
  have name : ∀ {L : List Span} {n : Tok}, MadeBy G.env_name n → Deep (Listed L) [n] := by
    intro L n hn
    have hrn : n.rule = .env_name := Made.rule hn
    exact .leaf (by rw [hrn]; rfl) (fun hq => by rw [hrn] at hq; cases hq)
  rcases hu with hu | hu
  · have hur : u.rule = .env_single := Made.rule hu
    refine listed_node (by rw [hur]; rfl) ?_
    obtain ⟨n, v, ecc, hn, hv⟩ := made_env_single hu
    have hrn : n.rule = .env_name := Made.rule hn
    apply listed_core
    rw [ecc]
    simp only [hur] at hi
    rw [envSingleFields_core, ecc, envSingleFields_slots] at hi
    intro z hz
    simp only [List.mem_cons, List.not_mem_nil, or_false] at hz
    rcases hz with rfl | rfl
    · exact name hn
    · rcases hv with hv | hv
      · have hrv : z.rule = .env_single_quoted_value := Made.rule hv
        have key : envSingleAct unq n = (parseString unq n).map .key := by
          unfold envSingleAct; rw [hrn]
        have val : envSingleAct unq z =
            (do let v ← unquoteR unq z.text; pure (breakableOf z v) : Result _).map .val := by
          unfold envSingleAct; rw [hrv]
        cases hs : slots (envSingleAct unq) [n, z] none none with
        | error e => rw [hs] at hi; cases hi
        | ok r =>
          obtain ⟨a, b, ha, hb, rfl⟩ := slots_two key val hs
          rw [hs] at hi
          cases hi
          obtain ⟨c, hc, e⟩ := unquoted_of hb
          refine listed_leaf (by rw [hrv]; rfl) ?_
          rw [← e]
          exact env_listed (List.mem_singleton.2 rfl) hc
      · exact listed_calm hv rfl (by decide +kernel)
  · have hur : u.rule = .env_pairs := Made.rule hu
    refine listed_node (by rw [hur]; rfl) ?_
    simp only [hur] at hi
    apply listed_core
    intro z hz
    have hzp := made_env_pairs hu z hz
    have hzr : z.rule = .env_pair := Made.rule hzp
    refine listed_node (by rw [hzr]; rfl) ?_
    obtain ⟨n, v, ecc, hn, hv⟩ := made_env_pair hzp
    have hrn : n.rule = .env_name := Made.rule hn
    have hrv : (v.rule = .env_pair_quoted_value ∨ v.rule = .env_pair_value) ∧
        readRule v.rule = true := by
      rcases hv with h | h
      · have := Made.rule h; exact ⟨.inl this, by rw [this]; rfl⟩
      · have := Made.rule h; exact ⟨.inr this, by rw [this]; rfl⟩
    cases hl : envPairList unq u.children with
    | error e => rw [hl] at hi; cases hi
    | ok ls =>
      rw [hl] at hi
      cases hi
      obtain ⟨l, hlm, hlr⟩ := envList_mem hl z ((core_sublist _).subset hz) hzr
      obtain ⟨c, hc, e⟩ := envPair_value ecc hrn hrv.1 hlr
      rw [ecc]
      refine .of_all fun y hy => ?_
      simp only [List.mem_cons, List.not_mem_nil, or_false] at hy
      rcases hy with rfl | rfl
      · exact name hn
      · refine listed_leaf hrv.2 ?_
        rw [← e]
        exact env_listed hlm hc

theorem listed_instruction {t : Tok} (h : MadeStep t) {i : Instruction}
    (hi : instructionOf unq t = .ok i) : Deep (Listed (writtenStrings i)) [t] := by
  have open' : ∀ {α : Type} {x : Result α} {f : α → Instruction} {i},
      (x >>= fun a => pure (f a)) = Except.ok i → ∃ a, x = .ok a ∧ i = f a := by
    intro α x f i h
    cases x with
    | error e => cases h
    | ok a => cases h; exact ⟨a, rfl, rfl⟩
  unfold instructionOf at hi
  rcases h with h | h | h | h | h | h | h | h | h
  · exact listed_calm h rfl (by decide +kernel)
  · have hr := Made.rule h
    rw [hr] at hi
    obtain ⟨a, ha, rfl⟩ := open' hi
    exact listed_exec (L := fun i => writtenStrings (.run i)) rfl rfl rfl (by decide)
      (by decide) (by
        intro i a hx e he
        simp only [writtenStrings, arrays, exprOf, hx, List.mem_append, List.mem_flatMap]
        exact .inl (.inr ⟨a, by simp, List.mem_map_of_mem he⟩)) h ha
  · have hr := Made.rule h
    rw [hr] at hi
    obtain ⟨a, ha, rfl⟩ := open' hi
    exact listed_arg h ha
  · have hr := Made.rule h
    rw [hr] at hi
    obtain ⟨a, ha, rfl⟩ := open' hi
    exact listed_label h ha
  · exact listed_calm h rfl (by decide +kernel)
  · have hr := Made.rule h
    rw [hr] at hi
    obtain ⟨a, ha, rfl⟩ := open' hi
    exact listed_exec (L := fun i => writtenStrings (.entrypoint i)) rfl rfl rfl (by decide)
      (by decide) (by
        intro i a hx e he
        simp only [writtenStrings, arrays, exprOf, hx, List.mem_append, List.mem_flatMap]
        exact .inl (.inr ⟨a, by simp, List.mem_map_of_mem he⟩)) h ha
  · have hr := Made.rule h
    rw [hr] at hi
    obtain ⟨a, ha, rfl⟩ := open' hi
    exact listed_exec (L := fun i => writtenStrings (.cmd i)) rfl rfl rfl (by decide)
      (by decide) (by
        intro i a hx e he
        simp only [writtenStrings, arrays, exprOf, hx, List.mem_append, List.mem_flatMap]
        exact .inl (.inr ⟨a, by simp, List.mem_map_of_mem he⟩)) h ha
  · have hr := Made.rule h
    rw [hr] at hi
    obtain ⟨a, ha, rfl⟩ := open' hi
    exact listed_env h ha
  · exact listed_calm h rfl (by decide +kernel)

/-! ## the document -/

theorem loop_grows {i : Instruction} (st : LoopState) :
    ∃ j, (loopStep st i).instructions = st.instructions ++ [j] ∧
      writtenStrings j = writtenStrings i := by
  cases i <;> exact ⟨_, rfl, rfl⟩

theorem docToks_steps {p : Nat} {s : Str} {us : List Tok} (h : DocToks p s us) :
    ∀ u ∈ us, u.rule = .comment ∨ MadeStep u := by
  have item : ∀ {p t ts}, ItemToks p t ts → ∀ u ∈ ts, u.rule = .comment ∨ MadeStep u := by
    intro p t ts hi
    rcases hi with ⟨rfl, rfl⟩ | ⟨hc, rfl⟩ | ⟨u, rfl, hu, rfl, rfl⟩
    · simp
    · intro u hu; rw [List.mem_singleton.1 hu]; exact .inl rfl
    · intro v hv; rw [List.mem_singleton.1 hv]; exact .inr hu
  induction h with
  | last hw hw' hi => exact item hi
  | line hw hw' hi hn hr ih =>
    intro u hu
    rcases List.mem_append.1 hu with hu | hu
    · exact item hi u hu
    · exact ih u hu

theorem listed_loop {us : List Tok} (h : ∀ u ∈ us, u.rule = .comment ∨ MadeStep u) (rest : List Tok)
    : ∀ (st st' : LoopState), recordLoop unq (us ++ rest) st = .ok st' →
      ∃ st1, recordLoop unq rest st1 = .ok st' ∧ (∀ i ∈ st.instructions, i ∈ st1.instructions) ∧
        Deep (Listed (st1.instructions.flatMap writtenStrings)) us := by
  induction us with
  | nil => intro st st' hs; exact ⟨st, hs, fun i hi => hi, .nil⟩
  | cons u us ih =>
    intro st st' hs
    have ih := ih fun v hv => h v (by simp [hv])
    rw [List.cons_append] at hs
    rcases h u (by simp) with hu | hu
    · have : recordLoop unq (u :: (us ++ rest)) st = recordLoop unq (us ++ rest) st := by
        rw [recordLoop]; simp only [hu]
      rw [this] at hs
      obtain ⟨st1, h1, h2, h3⟩ := ih _ _ hs
      exact ⟨st1, h1, h2, .append (ts := [u]) (listed_comment hu) h3⟩
    · rw [recordLoop_cons_step hu] at hs
      cases hi : instructionOf unq u with
      | error e => rw [hi] at hs; cases hs
      | ok i =>
        rw [hi] at hs
        obtain ⟨st1, h1, h2, h3⟩ :=
          ih (loopStep st i) st' hs
        obtain ⟨j, ej, ew⟩ := loop_grows (i := i) st
        refine ⟨st1, h1, fun k hk => h2 k (by rw [ej]; simp [hk]), .append (ts := [u]) ?_ h3⟩
        refine (listed_instruction hu hi).mono fun r a b x hl hq => ?_
        have hj := h2 j (by rw [ej]; simp)
        exact List.mem_flatMap.2 ⟨j, hj, by rw [ew]; exact hl hq⟩

/-- The quoted texts of an accepted document are strings of the document. -/
theorem listed_document {s : Str} {d : Dockerfile} (h : Dockerfile.parse unq s = .ok d)
    {p' s' ts} (hp : parse G.dockerfile false 0 s = some (p', s', ts)) :
    Deep (Listed (d.instructions.flatMap writtenStrings)) ts := by
  obtain ⟨us, rfl, hd⟩ := dockerfile_toks hp
  unfold Dockerfile.parse at h
  rw [hp] at h
  simp only [Tok.children] at h
  cases hl : recordLoop unq (us ++ [.node .EOI (blen s) (blen s) [] []])
      { instructions := [], globalArgs := [], fromFound := false, fromIndex := 0 } with
  | error e => rw [hl] at h; cases h
  | ok st =>
    rw [hl] at h
    cases h
    obtain ⟨st1, h1, _, h3⟩ := listed_loop (docToks_steps hd) _ _ _ hl
    have : st = st1 := by simp [recordLoop, Tok.rule] at h1; exact h1.symm
    subst this
    refine .cons (fun hq => by cases hq) (fun _ => h3.append ?_) .nil
    exact .cons (fun hq => by cases hq) (fun _ => .nil) .nil

end

end Verif
