import Verif.Proof.AlikeLeaf

/-!
# Spans and line breaks

No span of a parsed document starts with a line break, and none starts or ends inside `\r\n`.
-/

namespace Verif
namespace Src
open Spec

/-- the texts `t` and `c` do not meet inside of `\r\n` -/
def Whole (t c : Str) : Prop := ∀ x y, t = x ++ ['\r'] → c ≠ '\n' :: y

/-- `t` starts with something else than a line break -/
def Firm (t : Str) : Prop := ∃ c y, t = c :: y ∧ c ≠ '\n' ∧ c ≠ '\r'

/-- there is a text at the span `sp` of `u` (which is at offset `p`) that does not start or end
inside a line break -/
def Sits (p : Nat) (u : Str) (sp : Span) : Prop :=
  ∃ a t c, u = a ++ (t ++ c) ∧ sp.start = p + blen a ∧ sp.stop = p + blen a + blen t ∧ Firm t ∧ Whole t c

theorem Firm.append {t : Str} (h : Firm t) (c : Str) : Firm (t ++ c) := by
  obtain ⟨x, y, rfl, h⟩ := h
  exact ⟨x, y ++ c, rfl, h⟩

theorem Firm.over {t : Str} (h : t ≠ []) (hb : ∀ c ∈ t, c ≠ '\n' ∧ c ≠ '\r') : Firm t := by
  cases t with
  | nil => exact absurd rfl h
  | cons c t => exact ⟨c, t, rfl, hb c (.head _)⟩

theorem Whole.of {t c : Str} (h : '\r' ∉ t) : Whole t c := by
  intro x y e; subst e; simp at h

theorem Whole.over {t c : Str} (h : ∀ d ∈ t, d ≠ '\n' ∧ d ≠ '\r') : Whole t c :=
  .of fun hm => (h _ hm).2 rfl

theorem Whole.before {t c : Str} (h : Firm c) : Whole t c := by
  obtain ⟨a, b, rfl, h, -⟩ := h
  intro x y _ e
  cases e
  exact h rfl

theorem Whole.append {a b c : Str} (h1 : b = [] → Whole a c) (h2 : Whole b c) : Whole (a ++ b) c := by
  by_cases hb : b = []
  · subst hb; simpa using h1 rfl
  · intro x y e
    have hl := congrArg List.getLast? e
    rw [List.getLast?_append, List.getLast?_concat, List.getLast?_eq_some_getLast hb] at hl
    obtain ⟨b', rfl⟩ := List.getLast?_eq_some_iff.1 ((List.getLast?_eq_some_getLast hb).trans hl)
    exact h2 b' y rfl

theorem Whole.right {a b c : Str} (hb : b ≠ []) (h2 : Whole b c) : Whole (a ++ b) c :=
  .append (fun h => absurd h hb) h2

theorem Whole.cons {a : Char} {b c : Str} (ha : a ≠ '\r') (h2 : Whole b c) : Whole (a :: b) c :=
  .append (a := [a]) (fun _ => .of (by simpa using fun h => ha h.symm)) h2

theorem Whole.brk {n c : Str} (h : LineBreak n c) : Whole n c := by
  rcases h with rfl | rfl | ⟨rfl, h⟩
  · exact .of (by decide)
  · intro x y e
    have := congrArg List.getLast? e
    simp at this
  · exact fun x y _ => h y

theorem Whole.nil {c : Str} : Whole [] c := .of (by simp)

theorem Sits.shift {p : Nat} {x u : Str} {sp : Span} (h : Sits (p + blen x) u sp) : Sits p (x ++ u) sp := by
  obtain ⟨a, t, c, rfl, h1, h2, h3⟩ := h
  refine ⟨x ++ a, t, c, by simp, ?_, ?_, h3⟩ <;> rw [blen_append] <;> omega

theorem Sits.shift1 {p : Nat} {x : Char} {u : Str} {sp : Span} (h : Sits (p + blen [x]) u sp) : Sits p (x :: u) sp :=
  Sits.shift (x := [x]) h

theorem Sits.here {p z : Nat} {t c : Str} (hz : z = p + blen t) (h1 : Firm t) (h2 : Whole t c) :
    Sits p (t ++ c) ⟨p, z⟩ := by
  subst hz
  exact ⟨[], t, c, rfl, rfl, rfl, h1, h2⟩

/-! ## classes of characters -/

theorem alpha_nb {c : Char} (h : IsAlpha c) : c ≠ '\n' ∧ c ≠ '\r' := by
  constructor <;> (rintro rfl; revert h; unfold IsAlpha; decide)

theorem wordc_nb {c : Char} (h : IsWord c) : c ≠ '\n' ∧ c ≠ '\r' := by
  constructor <;> (rintro rfl; revert h; unfold IsWord IsAlpha IsDigit; decide)

theorem ident_nb {c : Char} (h : IsIdent c) : c ≠ '\n' ∧ c ≠ '\r' := by
  constructor <;> (rintro rfl; revert h; unfold IsIdent IsAlpha IsDigit; decide)

theorem image_nb {c : Char} (h : IsImageChar c) : c ≠ '\n' ∧ c ≠ '\r' := by
  constructor <;> (rintro rfl; revert h; unfold IsImageChar IsAlpha IsDigit; decide)

theorem blanks_nb {w : Str} (h : Blanks w) : ∀ c ∈ w, c ≠ '\n' ∧ c ≠ '\r' := by
  intro c hc
  rcases h c hc with rfl | rfl <;> decide

theorem lower_nb {kw k : Str} (h : lower kw = k) (hk : ∀ c ∈ k, c ≠ '\n' ∧ c ≠ '\r') :
    ∀ c ∈ kw, c ≠ '\n' ∧ c ≠ '\r' := by
  subst h
  intro c hc
  have := hk _ (List.mem_map_of_mem hc)
  constructor
  · rintro rfl; exact this.1 (by decide)
  · rintro rfl; exact this.2 (by decide)

theorem lower_ne {kw k : Str} (h : lower kw = k) (hk : k ≠ []) : kw ≠ [] := by
  rintro rfl; exact hk h.symm

theorem comment_nb {t : Str} (h : CommentText t) : ∀ c ∈ t, c ≠ '\n' ∧ c ≠ '\r' := by
  obtain ⟨b, rfl, h⟩ := h
  intro c hc
  rcases List.mem_cons.1 hc with rfl | hc
  · decide
  · exact h c hc

theorem comment_starts {t : Str} (h : CommentText t) : Firm t :=
  .over (by obtain ⟨b, rfl, -⟩ := h; simp) (comment_nb h)

theorem word_nb {w r : Str} (h : Word w r) : ∀ c ∈ w, c ≠ '\n' ∧ c ≠ '\r' := by
  intro c hc
  obtain ⟨a, b, rfl⟩ := List.append_of_mem hc
  have := h.2.1 a (c :: b) rfl (by simp)
  constructor
  · rintro rfl; exact this (.inl fun d e h => by cases h; exact .inl rfl)
  · rintro rfl; exact this (.inl fun d e h => by cases h; exact .inr rfl)

theorem word_starts {w r : Str} (h : Word w r) : Firm w := .over h.1 (word_nb h)

theorem quoted_starts {t : Str} (h : QuotedText t) : Firm t := by
  obtain ⟨q, b, rfl, hq, -⟩ := h
  refine ⟨q, b ++ [q], rfl, ?_⟩
  rcases hq with rfl | rfl <;> decide

theorem quoted_whole {t c : Str} (h : QuotedText t) : Whole t c := by
  obtain ⟨q, b, rfl, hq, -⟩ := h
  have : '\r' ∉ [q] := by rcases hq with rfl | rfl <;> decide
  exact .right (a := q :: b) (by simp) (.of this)

theorem value_starts {v : Value} {r : Str} (h : v.Fits r) : Firm v.text := by
  cases v with
  | quoted t => exact quoted_starts h
  | bare t => exact word_starts h.2

theorem value_whole {v : Value} {r c : Str} (h : v.Fits r) : Whole v.text c := by
  cases v with
  | quoted t => exact quoted_whole h
  | bare t => exact .over (word_nb h.2)

theorem namew_nb {t r : Str} (h : NameWord t r) : ∀ c ∈ t, c ≠ '\n' ∧ c ≠ '\r' := by
  intro c hc
  have := h.2.1 c hc
  exact ⟨fun e => this (by simp [EndsName, e]), fun e => this (by simp [EndsName, e])⟩

theorem name_starts {v : Value} {r : Str} (h : v.FitsName r) : Firm v.text := by
  cases v with
  | quoted t => exact quoted_starts h
  | bare t => exact .over h.2.1 (namew_nb h.2)

theorem name_whole {v : Value} {r c : Str} (h : v.FitsName r) : Whole v.text c := by
  cases v with
  | quoted t => exact quoted_whole h
  | bare t => exact .over (namew_nb h.2)

/-! ## space -/

theorem skip_whole {l r : Str} (h : SkipLines l r) : Whole l r := by
  induction h with
  | nil => exact .nil
  | blank hw hn _ ih => exact .append (fun _ => .over (blanks_nb hw)) (.append (fun e => by subst e; exact .brk hn) ih)
  | comment hw ht hn _ ih =>
    exact .append (fun _ => .over (blanks_nb hw))
      (.append (fun _ => .over (comment_nb ht)) (.append (fun e => by subst e; exact .brk hn) ih))
  | lastComment hw ht => exact fun _ _ _ h => by cases h

theorem space_whole {g r : Str} (h : Space g r) : Whole g r := by
  induction h with
  | nil => exact .nil
  | blank hc _ ih => exact .cons (by rcases hc with rfl | rfl <;> decide) ih
  | continuation hw hn hl _ ih =>
    refine .cons (by decide) (.append (fun _ => .over (blanks_nb hw)) (.append (fun e => ?_) (.append (fun e => ?_) ih)))
    · obtain ⟨rfl, rfl⟩ := List.append_eq_nil_iff.1 e
      exact .brk hn
    · subst e
      exact skip_whole hl

theorem gap_starts {g r : Str} (h : Gap g r) : Firm g := by
  obtain ⟨h0, h⟩ := h
  cases h with
  | nil => exact absurd rfl h0
  | blank hc _ => exact ⟨_, _, rfl, by rcases hc with rfl | rfl <;> decide⟩
  | continuation _ _ _ _ => exact ⟨_, _, rfl, by decide⟩

/-! ## the parts -/

section
variable {unq : Unquote}

theorem flag_sits {f : Flag} {r : Str} {p : Nat} {x : Verif.Flag} (hf : f.Fits r) (he : f.eval unq p = .ok x) :
    ∀ sp ∈ flagSpans x, Sits p (f.text ++ r) sp := by
  obtain ⟨c, -, hx⟩ := bind_ok he
  cases hx
  obtain ⟨-, hn, hn', hv⟩ := hf
  have hvn : f.value ≠ [] := hv.1
  intro sp hsp
  simp only [flagSpans, List.mem_cons, List.not_mem_nil, or_false] at hsp
  rw [Flag.text, List.append_assoc]
  refine .shift ?_
  rcases hsp with rfl | rfl | rfl
  · refine .here rfl ⟨_, _, rfl, by decide⟩ ?_
    exact .cons (by decide) (.cons (by decide) (.right (by simp) (.cons (by decide) (.over (word_nb hv)))))
  · simp only [Flag.body, List.cons_append, List.append_assoc]
    refine .shift1 (.shift1 ?_)
    exact .here rfl (.over hn fun c hc => alpha_nb (hn' c hc)) (.over fun c hc => alpha_nb (hn' c hc))
  · simp only [Flag.body, List.cons_append, List.append_assoc]
    refine .shift1 (.shift1 (.shift (.shift1 ?_)))
    refine .here ?_ (word_starts hv) (.over (word_nb hv))
    simp only [blen_append, blen_cons, blen_nil]; omega

theorem flag_whole {f : Flag} {r c : Str} (hf : f.Fits r) : Whole f.text c := by
  obtain ⟨-, hn, hn', hv⟩ := hf
  exact .right (by simp [Flag.body]) (.cons (by decide) (.cons (by decide)
    (.right (by simp) (.cons (by decide) (.over (word_nb hv))))))

theorem flags_sits {fs : List Flag} {r : Str} : ∀ {p xs}, FlagsFit fs r → evalFlags unq p fs = .ok xs →
    ∀ sp ∈ xs.flatMap flagSpans, Sits p (flagsText fs ++ r) sp := by
  induction fs with
  | nil => intro p xs _ he sp hsp; cases he; cases hsp
  | cons f fs ih =>
    intro p xs hf he sp hsp
    obtain ⟨a, e1, e2⟩ := bind_ok he
    obtain ⟨ys, e3, e4⟩ := bind_ok e2
    cases e4
    rw [flagsText, List.flatMap_cons, List.append_assoc]
    rw [List.flatMap_cons] at hsp
    rcases List.mem_append.1 hsp with hsp | hsp
    · exact flag_sits hf.1 e1 sp hsp
    · exact .shift (ih hf.2 e3 sp hsp)

theorem arg_sits {f : Arg} {r : Str} {p : Nat} {x : SpannedString} (hf : f.Fits r) (he : f.eval unq p = .ok x) :
    Sits p (f.text ++ r) x.span := by
  obtain ⟨c, -, hx⟩ := bind_ok he
  cases hx
  rw [Arg.text, List.append_assoc]
  exact .shift (.here rfl (word_starts hf.2) (.over (word_nb hf.2)))

theorem args_sits {fs : List Arg} {r : Str} : ∀ {p xs}, ArgsFit fs r → evalArgs unq p fs = .ok xs →
    ∀ sp ∈ xs.map (·.span), Sits p (argsText fs ++ r) sp := by
  induction fs with
  | nil => intro p xs _ he sp hsp; cases he; cases hsp
  | cons f fs ih =>
    intro p xs hf he sp hsp
    obtain ⟨a, e1, e2⟩ := bind_ok he
    obtain ⟨ys, e3, e4⟩ := bind_ok e2
    cases e4
    rw [argsText, List.flatMap_cons, List.append_assoc]
    rw [List.map_cons] at hsp
    rcases List.mem_cons.1 hsp with rfl | hsp
    · exact arg_sits hf.1 e1
    · exact .shift (ih hf.2 e3 sp hsp)

theorem pair_sits {f : Pair} {r : Str} {p : Nat} (h1 : Firm f.name.text) (h2 : ∀ c, Whole f.name.text c)
    (h3 : Firm f.value.text) (h4 : ∀ c, Whole f.value.text c) :
    Sits p (f.text ++ r) ⟨p + blen f.gap, p + blen f.gap + blen f.body⟩ ∧ Sits p (f.text ++ r) (f.nameSpan p) ∧
      Sits p (f.text ++ r) (f.valueSpan p) := by
  rw [Pair.text, List.append_assoc]
  refine ⟨.shift (.here rfl (h1.append _) (.right (by simp) (.cons (by decide) (h4 _)))), .shift ?_, .shift ?_⟩
  · rw [Pair.body, List.append_assoc]
    exact .here rfl h1 (h2 _)
  · rw [Pair.body, List.append_assoc]
    refine .shift (.shift1 (.here ?_ h3 (h4 _)))
    simp only [Pair.body, blen_append, blen_cons, blen_nil]; omega

theorem label_sits {f : Pair} {r : Str} {p : Nat} {x : Label} (hf : f.FitsLabel r) (he : f.evalLabel unq p = .ok x) :
    ∀ sp ∈ [x.span, x.name.span, x.value.span], Sits p (f.text ++ r) sp := by
  obtain ⟨_, -, h⟩ := bind_ok he
  obtain ⟨_, -, h⟩ := bind_ok h
  cases h
  obtain ⟨k1, k2, k3⟩ := pair_sits (p := p) (r := r) (name_starts hf.2.1) (fun _ => name_whole hf.2.1) (value_starts hf.2.2)
    (fun _ => value_whole hf.2.2)
  intro sp hsp
  simp only [List.mem_cons, List.not_mem_nil, or_false] at hsp
  rcases hsp with rfl | rfl | rfl <;> assumption

theorem env_sits {f : Pair} {r : Str} {p : Nat} {x : EnvVar} (hf : f.FitsEnv r) (he : f.evalEnv unq p = .ok x) :
    ∀ sp ∈ x.span :: x.key.span :: breakableSpans x.value, Sits p (f.text ++ r) sp := by
  obtain ⟨_, -, h⟩ := bind_ok he
  cases h
  obtain ⟨-, ⟨n, hn, hn1, hn2⟩, hv⟩ := hf
  have hb : ∀ c ∈ f.name.text, c ≠ '\n' ∧ c ≠ '\r' := fun c hc => wordc_nb (hn2 c (by rw [hn] at hc; exact hc))
  obtain ⟨k1, k2, k3⟩ := pair_sits (f := f) (p := p) (r := r) (.over (by rw [hn]; exact hn1) hb) (fun _ => .over hb) (value_starts hv)
    (fun _ => value_whole hv)
  intro sp hsp
  simp only [breakableSpans, componentSpan, List.map_cons, List.map_nil, List.mem_cons, List.not_mem_nil, or_false] at hsp
  rcases hsp with rfl | rfl | rfl | rfl <;> assumption

theorem pairs_sits {α : Type} {ev : Nat → Pair → Result α} {F : Pair → Str → Prop} {S : α → List Span}
    (hev : ∀ {f r p x}, F f r → ev p f = .ok x → ∀ sp ∈ S x, Sits p (f.text ++ r) sp) {fs : List Pair} {r : Str} :
    ∀ {p xs}, PairsFit F fs r → evalPairs ev p fs = .ok xs → ∀ sp ∈ xs.flatMap S, Sits p (pairsText fs ++ r) sp := by
  induction fs with
  | nil => intro p xs _ he sp hsp; cases he; cases hsp
  | cons f fs ih =>
    intro p xs hf he sp hsp
    obtain ⟨a, e1, e2⟩ := bind_ok he
    obtain ⟨ys, e3, e4⟩ := bind_ok e2
    cases e4
    rw [pairsText, List.flatMap_cons, List.append_assoc]
    rw [List.flatMap_cons] at hsp
    rcases List.mem_append.1 hsp with hsp | hsp
    · exact hev hf.1 e1 sp hsp
    · exact .shift (ih hf.2 e3 sp hsp)

theorem pairs_whole {F : Pair → Str → Prop} (hF : ∀ f r c, F f r → Whole f.value.text c) {fs : List Pair} {r c : Str} :
    PairsFit F fs r → Whole (pairsText fs) c := by
  induction fs with
  | nil => exact fun _ => .nil
  | cons f fs ih =>
    intro h
    rw [pairsText, List.flatMap_cons]
    exact .append (fun _ => .right (by simp [Pair.body]) (.right (by simp) (.cons (by decide) (hF _ _ _ h.1)))) (ih h.2)

theorem shell_starts {s : Shell} {r : Str} (h : s.Fits r) : Firm s.text := by
  cases s with
  | last t => exact .over h.1.1 h.1.2.1
  | lastComment w t n =>
    cases w with
    | nil => exact (comment_starts h.2.1).append _
    | cons c w => exact ⟨c, _, rfl, blanks_nb h.1 c (.head _)⟩
  | more t w n s => exact (Firm.over h.1.1 h.1.2.1).append _
  | comment w t n s =>
    cases w with
    | nil => exact (comment_starts h.2.1).append _
    | cons c w => exact ⟨c, _, rfl, blanks_nb h.1 c (.head _)⟩

theorem starts_ne {t : Str} (h : Firm t) : t ≠ [] := by
  obtain ⟨c, y, rfl, -⟩ := h; simp

theorem shell_whole {s : Shell} {r : Str} (h : s.Fits r) : Whole s.text r := by
  induction s with
  | last t => exact .over h.1.2.1
  | lastComment w t n =>
    refine .append (fun _ => .over (blanks_nb h.1)) (.append (fun _ => .over (comment_nb h.2.1)) ?_)
    rcases h.2.2 with ⟨rfl, rfl⟩ | ⟨h, -⟩
    · exact .nil
    · exact .brk h
  | more t w n s ih =>
    exact .right (by simp) (.cons (by decide) (.right (by simp [starts_ne (shell_starts h.2.2.2)])
      (.right (starts_ne (shell_starts h.2.2.2)) (ih h.2.2.2))))
  | comment w t n s ih =>
    have := starts_ne (shell_starts h.2.2.2)
    exact .right (by simp [this]) (.right (by simp [this]) (.right this (ih h.2.2.2)))

theorem components_sits {s : Shell} {r : Str} : ∀ {p}, s.Fits r →
    ∀ sp ∈ (s.components p).map componentSpan, Sits p (s.text ++ r) sp := by
  induction s with
  | last t =>
    intro p h sp hsp
    cases List.mem_singleton.1 hsp
    exact .here rfl (.over h.1.1 h.1.2.1) (.over h.1.2.1)
  | lastComment w t n =>
    intro p h sp hsp
    cases List.mem_singleton.1 hsp
    simp only [Shell.text, List.append_assoc]
    exact .shift (.here rfl (comment_starts h.2.1) (.over (comment_nb h.2.1)))
  | more t w n s ih =>
    intro p h sp hsp
    simp only [Shell.text, List.append_assoc, List.cons_append]
    rcases List.mem_cons.1 hsp with rfl | hsp
    · exact .here rfl (.over h.1.1 h.1.2.1) (.over h.1.2.1)
    · exact .shift (.shift1 (.shift (.shift (ih h.2.2.2 sp hsp))))
  | comment w t n s ih =>
    intro p h sp hsp
    simp only [Shell.text, List.append_assoc]
    rcases List.mem_cons.1 hsp with rfl | hsp
    · exact .shift (.here rfl (comment_starts h.2.1) (.over (comment_nb h.2.1)))
    · exact .shift (.shift (.shift (ih h.2.2.2 sp hsp)))

theorem shell_sits {s : Shell} {r : Str} {p : Nat} (h : s.Fits r) :
    ∀ sp ∈ breakableSpans (s.string p), Sits p (s.text ++ r) sp := by
  intro sp hsp
  rcases List.mem_cons.1 hsp with rfl | hsp
  · exact .here rfl (shell_starts h) (shell_whole h)
  · exact components_sits h sp hsp

theorem elems_sits {fs : List Elem} {r : Str} : ∀ {p xs}, ElemsFit fs r → evalElems unq p fs = .ok xs →
    ∀ sp ∈ xs.map (·.span), Sits p (elemsText fs ++ r) sp := by
  induction fs with
  | nil => intro p xs _ he sp hsp; cases he; cases hsp
  | cons f fs ih =>
    intro p xs hf he sp hsp
    obtain ⟨a, e1, e2⟩ := bind_ok he
    obtain ⟨ys, e3, e4⟩ := bind_ok e2
    cases e4
    rw [elemsText, List.flatMap_cons, List.append_assoc]
    rw [List.map_cons] at hsp
    rcases List.mem_cons.1 hsp with rfl | hsp
    · obtain ⟨c, -, hx⟩ := bind_ok e1
      cases hx
      simp only [Elem.text, List.append_assoc, List.cons_append]
      exact .shift (.shift1 (.shift (.here rfl (quoted_starts hf.1.2.2) (quoted_whole hf.1.2.2))))
    · exact .shift (ih hf.2 e3 sp hsp)

theorem array_whole {a : Array} {c : Str} : Whole a.text c := by
  have h : ∀ x : Str, Whole (x ++ [']']) c := fun x => .right (by simp) (.of (by decide))
  cases a with
  | empty g => exact h ('[' :: g)
  | full g v fs k g' =>
    have e : (Array.full g v fs k g').text = ('[' :: (g ++ (v ++ (elemsText fs ++ ((if k then [','] else []) ++ g'))))) ++ [']'] := by
      simp [Array.text, Array.tail]
    rw [e]
    exact h _

theorem array_starts (a : Array) : Firm a.text := by
  cases a <;> exact ⟨_, _, rfl, by decide⟩

theorem array_sits {a : Array} {r : Str} {p : Nat} {xs : List SpannedString} (h : a.Fits r) (he : a.eval unq p = .ok xs) :
    ∀ sp ∈ (⟨p, p + blen a.text⟩ : Span) :: xs.map (·.span), Sits p (a.text ++ r) sp := by
  intro sp hm
  rcases List.mem_cons.1 hm with rfl | hsp
  · exact .here rfl (array_starts a) array_whole
  · cases a with
    | empty g => cases he; exact absurd hsp List.not_mem_nil
    | full g v fs k g' =>
      obtain ⟨y, -, e2⟩ := bind_ok he
      obtain ⟨ys, e3, e4⟩ := bind_ok e2
      cases e4
      simp only [Array.text, List.append_assoc, List.cons_append]
      refine .shift1 (.shift ?_)
      rw [List.map_cons] at hsp
      rcases List.mem_cons.1 hsp with rfl | hsp
      · exact .here rfl (quoted_starts h.2.1) (quoted_whole h.2.1)
      · exact .shift (elems_sits h.2.2.1 e3 sp hsp)

/-! ## items -/

theorem exec_spans (k : ExecKind) (i : ExecInstruction) : spansOf (k.instr i) = i.span :: exprSpans i.expr := by
  cases k <;> rfl

theorem kw_nb {kw k : Str} (h : lower kw = k) (hk : k = c!"from" ∨ k = c!"arg" ∨ k = c!"label" ∨ k = c!"copy" ∨ k = c!"env" ∨
    k = c!"run" ∨ k = c!"cmd" ∨ k = c!"entrypoint") : (∀ c ∈ kw, c ≠ '\n' ∧ c ≠ '\r') ∧ Firm kw := by
  have h1 : ∀ c ∈ kw, c ≠ '\n' ∧ c ≠ '\r' := lower_nb h (by
    rcases hk with rfl | rfl | rfl | rfl | rfl | rfl | rfl | rfl <;> decide)
  refine ⟨h1, .over (lower_ne h ?_) h1⟩
  rcases hk with rfl | rfl | rfl | rfl | rfl | rfl | rfl | rfl <;> decide

theorem execKind_nb {k : ExecKind} {kw : Str} (h : lower kw = k.keyword) : (∀ c ∈ kw, c ≠ '\n' ∧ c ≠ '\r') ∧ Firm kw :=
  kw_nb h (by cases k <;> simp [ExecKind.keyword])

theorem item_sits {i : Item} {r : Str} {p : Nat} {x : Instruction} (h : i.Fits r) (he : i.eval unq p = .ok (some x)) :
    ∀ sp ∈ spansOf x, Sits p (i.text ++ r) sp := by
  intro sp hsp
  cases i with
  | blank => cases he
  | comment t => cases he
  | «from» kw fs g i a =>
    obtain ⟨fl, hfl, he⟩ := bind_ok he
    obtain ⟨_, -, he⟩ := bind_ok he
    cases he
    obtain ⟨h1, h2, h3, h4, h5, h6⟩ := h
    obtain ⟨hk1, hk2⟩ := kw_nb h1 (by simp)
    have hi : ∀ c ∈ i, c ≠ '\n' ∧ c ≠ '\r' := fun c hc => image_nb (h5 c hc)
    rcases List.mem_cons.1 hsp with rfl | hsp
    · refine .here rfl (hk2.append _) (.right (by simp [h4]) (.right (by simp [h4]) (.right (by simp [h4])
        (.append (fun _ => .over hi) ?_))))
      cases a with
      | none => exact .nil
      | some a =>
        obtain ⟨-, -, -, k4, k5⟩ := h6 a rfl
        exact .right (by simp [k4]) (.right (by simp [k4]) (.right k4 (.over fun c hc => ident_nb (k5 c hc))))
    · simp only [Item.text, List.append_assoc]
      refine .shift ?_
      rcases List.mem_append.1 hsp with hsp | hsp
      · exact flags_sits h2 hfl sp hsp
      · refine .shift (.shift ?_)
        rcases List.mem_cons.1 hsp with rfl | hsp
        · exact .here rfl (.over h4 hi) (.over hi)
        · refine .shift ?_
          cases a with
          | none => cases hsp
          | some a =>
            obtain ⟨-, -, -, k4, k5⟩ := h6 a rfl
            cases List.mem_singleton.1 hsp
            simp only [aliasText, AliasText.text, List.append_assoc]
            exact .shift (.shift (.shift (.here rfl (.over k4 fun c hc => ident_nb (k5 c hc))
              (.over fun c hc => ident_nb (k5 c hc)))))
  | arg kw g n v =>
    obtain ⟨h1, h2, ⟨c0, b0, rfl, h3, h4⟩, h6⟩ := h
    obtain ⟨hk1, hk2⟩ := kw_nb h1 (by simp)
    have hn : ∀ c ∈ c0 :: b0, c ≠ '\n' ∧ c ≠ '\r' := by
      intro c hc
      rcases List.mem_cons.1 hc with rfl | hc
      · exact alpha_nb h3
      · exact wordc_nb (h4 c hc)
    cases v with
    | none =>
      cases he
      simp only [spansOf, fieldSpans, Option.map_none, Option.toList_none, List.mem_cons, List.not_mem_nil, or_false] at hsp
      rcases hsp with rfl | rfl
      · exact .here rfl (hk2.append _) (.right (by simp) (.right (by simp) (.append (fun _ => .over hn) .nil)))
      · simp only [Item.text, List.append_assoc]
        exact .shift (.shift (.here rfl (.over (by simp) hn) (.over hn)))
    | some v =>
      obtain ⟨_, -, he⟩ := bind_ok he
      cases he
      simp only [spansOf, fieldSpans, Option.map_some, Option.toList_some, List.mem_cons, List.not_mem_nil, or_false] at hsp
      have hv := value_whole (c := r) (h6 v rfl)
      rcases hsp with rfl | rfl | rfl
      · exact .here rfl (hk2.append _) (.right (by simp) (.right (by simp) (.right (by simp [valueText])
          (.cons (by decide) hv))))
      · simp only [Item.text, List.append_assoc]
        exact .shift (.shift (.here rfl (.over (by simp) hn) (.over hn)))
      · simp only [Item.text, List.append_assoc, valueText, List.cons_append]
        exact .shift (.shift (.shift (x := c0 :: b0) (.shift1 (.here rfl (value_starts (h6 v rfl)) hv))))
  | label kw ps t =>
    obtain ⟨fl, hfl, he⟩ := bind_ok he
    cases he
    obtain ⟨h1, h2, h3, h4, h5⟩ := h
    obtain ⟨hk1, hk2⟩ := kw_nb h1 (by simp)
    rcases List.mem_cons.1 hsp with rfl | hsp
    · exact .here rfl (hk2.append _) (.append (fun _ => .over hk1)
        (.append (fun _ => pairs_whole (fun _ _ _ h => value_whole h.2.2) h2) (space_whole h3)))
    · simp only [Item.text, List.append_assoc]
      exact .shift (pairs_sits label_sits h2 hfl sp hsp)
  | label1 kw g n g' v =>
    obtain ⟨_, -, he⟩ := bind_ok he
    obtain ⟨_, -, he⟩ := bind_ok he
    cases he
    obtain ⟨h1, h2, h3, h4, h5⟩ := h
    obtain ⟨hk1, hk2⟩ := kw_nb h1 (by simp)
    have hvn := starts_ne (value_starts h5)
    simp only [spansOf, fieldSpans, List.flatMap_cons, List.flatMap_nil, List.append_nil, List.mem_cons, List.not_mem_nil,
      or_false] at hsp
    have hw : Whole (g ++ (n.text ++ (g' ++ v.text))) r :=
      .right (by simp [hvn]) (.right (by simp [hvn]) (.right hvn (value_whole h5)))
    rcases hsp with rfl | rfl | rfl | rfl
    · exact .here rfl (hk2.append _) (.right (by simp [hvn]) hw)
    · rw [Item.text, List.append_assoc]
      refine .shift (.here ?_ ((gap_starts h2).append _) hw)
      simp only [blen_append]; omega
    · simp only [Item.text, List.append_assoc]
      exact .shift (.shift (.here rfl (name_starts h3) (name_whole h3)))
    · simp only [Item.text, List.append_assoc]
      exact .shift (.shift (.shift (.shift (.here rfl (value_starts h5) (value_whole h5)))))
  | shell k kw g s =>
    simp only [Item.eval] at he
    obtain ⟨h1, h2, h3, h4⟩ := h
    obtain ⟨hk1, hk2⟩ := execKind_nb h1
    have hs := starts_ne (shell_starts h3)
    by_cases hh : '#' ∈ g
    · rw [if_pos hh] at he; cases he
    · rw [if_neg hh] at he
      cases he
      rw [exec_spans] at hsp
      rcases List.mem_cons.1 hsp with rfl | hsp
      · exact .here rfl (hk2.append _) (.right (by simp [hs]) (.right hs (shell_whole h3)))
      · simp only [Item.text, List.append_assoc]
        exact .shift (.shift (shell_sits h3 sp hsp))
  | exec k kw g a =>
    simp only [Item.eval] at he
    obtain ⟨h1, h2, h3⟩ := h
    obtain ⟨hk1, hk2⟩ := execKind_nb h1
    have hs := starts_ne (array_starts a)
    by_cases hh : '#' ∈ g
    · rw [if_pos hh] at he; cases he
    · rw [if_neg hh] at he
      obtain ⟨fl, hfl, he⟩ := bind_ok he
      cases he
      rw [exec_spans] at hsp
      rcases List.mem_cons.1 hsp with rfl | hsp
      · exact .here rfl (hk2.append _) (.right (by simp [hs]) (.right hs array_whole))
      · simp only [Item.text, List.append_assoc]
        exact .shift (.shift (array_sits h3 hfl sp hsp))
  | copy kw fs ss d =>
    obtain ⟨fl, hfl, he⟩ := bind_ok he
    obtain ⟨xs, hxs, he⟩ := bind_ok he
    obtain ⟨y, hy, he⟩ := bind_ok he
    cases he
    obtain ⟨h1, h2, h3, h4, h5⟩ := h
    obtain ⟨hk1, hk2⟩ := kw_nb h1 (by simp)
    have hsplit : ∀ {ss : List Arg}, ArgsFit (ss ++ [d]) r → ArgsFit ss (d.text ++ r) ∧ d.Fits r := by
      intro ss
      induction ss with
      | nil => exact fun h => ⟨trivial, by simpa [argsText] using h.1⟩
      | cons a ss ih =>
        intro h
        refine ⟨⟨?_, (ih h.2).1⟩, (ih h.2).2⟩
        have e : argsText ss ++ (d.text ++ r) = argsText (ss ++ [d]) ++ r := by simp [argsText]
        rw [e]
        exact h.1
    obtain ⟨k1, k2⟩ := hsplit h4
    have e : argsText (ss ++ [d]) ++ r = argsText ss ++ (d.text ++ r) := by simp [argsText]
    rw [e] at h2
    have hd : d.text ≠ [] := by simp [Arg.text, k2.2.1]
    rcases List.mem_cons.1 hsp with rfl | hsp
    · exact .here rfl (hk2.append _) (.right (by simp [hd]) (.right (by simp [hd]) (.right hd
        (.right k2.2.1 (.over (word_nb k2.2))))))
    · simp only [Item.text, List.append_assoc]
      refine .shift ?_
      rcases List.mem_append.1 hsp with hsp | hsp
      · exact flags_sits h2 hfl sp hsp
      · refine .shift ?_
        rcases List.mem_append.1 hsp with hsp | hsp
        · exact args_sits k1 hxs sp hsp
        · cases List.mem_singleton.1 hsp
          exact .shift (arg_sits k2 hy)
  | env kw ps t =>
    obtain ⟨fl, hfl, he⟩ := bind_ok he
    cases he
    obtain ⟨h1, h2, h3, h4, h5⟩ := h
    obtain ⟨hk1, hk2⟩ := kw_nb h1 (by simp)
    rcases List.mem_cons.1 hsp with rfl | hsp
    · exact .here rfl (hk2.append _) (.append (fun _ => .over hk1)
        (.append (fun _ => pairs_whole (fun _ _ _ h => value_whole h.2.2) h2) (space_whole h3)))
    · simp only [Item.text, List.append_assoc]
      exact .shift (pairs_sits env_sits h2 hfl sp hsp)
  | env1 kw g n g' s =>
    cases he
    obtain ⟨h1, h2, h3, h4, h5, h6, h7⟩ := h
    obtain ⟨hk1, hk2⟩ := kw_nb h1 (by simp)
    have hs := starts_ne (shell_starts h6)
    have hn : ∀ c ∈ n, c ≠ '\n' ∧ c ≠ '\r' := fun c hc => wordc_nb (h4 c hc)
    simp only [spansOf, fieldSpans, List.flatMap_cons, List.flatMap_nil, List.append_nil] at hsp
    have hw : Whole (n ++ (g' ++ s.text)) r := .right (by simp [hs]) (.right hs (shell_whole h6))
    rcases List.mem_cons.1 hsp with rfl | hsp
    · exact .here rfl (hk2.append _) (.right (by simp [hs]) (.right (by simp [hs]) hw))
    rcases List.mem_cons.1 hsp with rfl | hsp
    · have e : (Item.env1 kw g n g' s).text ++ r = kw ++ (g ++ ((n ++ (g' ++ s.text)) ++ r)) := by simp [Item.text]
      rw [e]
      refine .shift (.shift (.here ?_ ((Firm.over h3 hn).append _) hw))
      simp only [blen_append]; omega
    simp only [Item.text, List.append_assoc]
    refine .shift (.shift ?_)
    rcases List.mem_cons.1 hsp with rfl | hsp
    · exact .here rfl (.over h3 hn) (.over hn)
    · exact .shift (.shift (shell_sits h6 sp hsp))
  | env1q kw g n g' v =>
    obtain ⟨_, -, he⟩ := bind_ok he
    cases he
    obtain ⟨h1, h2, h3, h4, h5, h6⟩ := h
    obtain ⟨hk1, hk2⟩ := kw_nb h1 (by simp)
    have hs := starts_ne (quoted_starts h6)
    have hn : ∀ c ∈ n, c ≠ '\n' ∧ c ≠ '\r' := fun c hc => wordc_nb (h4 c hc)
    simp only [spansOf, fieldSpans, List.flatMap_cons, List.flatMap_nil, List.append_nil] at hsp
    have hw : Whole (n ++ (g' ++ v)) r := .right (by simp [hs]) (.right hs (quoted_whole h6))
    rcases List.mem_cons.1 hsp with rfl | hsp
    · exact .here rfl (hk2.append _) (.right (by simp [hs]) (.right (by simp [hs]) hw))
    rcases List.mem_cons.1 hsp with rfl | hsp
    · have e : (Item.env1q kw g n g' v).text ++ r = kw ++ (g ++ ((n ++ (g' ++ v)) ++ r)) := by simp [Item.text]
      rw [e]
      refine .shift (.shift (.here ?_ ((Firm.over h3 hn).append _) hw))
      simp only [blen_append]; omega
    simp only [Item.text, List.append_assoc]
    refine .shift (.shift ?_)
    simp only [breakableSpans, componentSpan, List.map_cons, List.map_nil, List.mem_cons, List.not_mem_nil, or_false] at hsp
    rcases hsp with rfl | rfl | rfl
    · exact .here rfl (.over h3 hn) (.over hn)
    · exact .shift (.shift (.here rfl (quoted_starts h6) (quoted_whole h6)))
    · exact .shift (.shift (.here rfl (quoted_starts h6) (quoted_whole h6)))
  | misc w a =>
    cases he
    obtain ⟨h1, h2, h3, h4, h5⟩ := h
    have hs := starts_ne (shell_starts h3)
    have hn : ∀ c ∈ w, c ≠ '\n' ∧ c ≠ '\r' := fun c hc => alpha_nb (h2 c hc)
    rcases List.mem_cons.1 hsp with rfl | hsp
    · exact .here rfl ((Firm.over h1 hn).append _) (.right hs (shell_whole h3))
    simp only [Item.text, List.append_assoc]
    rcases List.mem_cons.1 hsp with rfl | hsp
    · exact .here rfl (.over h1 hn) (.over hn)
    · exact .shift (shell_sits h3 sp hsp)

theorem line_sits {l : Line} {r : Str} {p : Nat} {o : Option Instruction} (h : l.Fits r)
    (he : l.item.eval unq (p + blen l.indent) = .ok o) : ∀ x ∈ o.toList, ∀ sp ∈ spansOf x, Sits p (l.text ++ r) sp := by
  intro x hx sp hsp
  cases o with
  | none => cases hx
  | some y =>
    cases List.mem_singleton.1 hx
    simp only [Line.text, List.append_assoc]
    exact .shift (item_sits h.2.1 he sp hsp)

theorem doc_sits {ms : List (Str × Line)} : ∀ {l p is}, DocFits l ms → evalDoc unq p l ms = .ok is →
    ∀ x ∈ is, ∀ sp ∈ spansOf x, Sits p (docText l ms) sp := by
  induction ms with
  | nil =>
    intro l p is hf he x hx sp hsp
    obtain ⟨o, e1, e2⟩ := bind_ok he
    cases e2
    have := line_sits hf e1 x hx sp hsp
    simpa [docText] using this
  | cons y ms ih =>
    obtain ⟨n, m⟩ := y
    intro l p is hf he x hx sp hsp
    obtain ⟨o, e1, e2⟩ := bind_ok he
    obtain ⟨js, e3, e4⟩ := bind_ok e2
    cases e4
    rcases List.mem_append.1 hx with hx | hx
    · exact line_sits hf.1 e1 x hx sp hsp
    · exact .shift (.shift (ih hf.2.2 e3 x hx sp hsp))

end
end Src
end Verif
