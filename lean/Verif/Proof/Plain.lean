import Verif.Proof.PrintDoc
import Verif.Spec.Plain
import Verif.Model.Enquote

/-! # Plain lines -/

namespace Verif
open Spec

/-! ## quoting -/

theorem simpleEscape_quote {q c : Char} (hq : q = '"' ∨ q = '\'') (hc : c = q ∨ c = '\\') :
    Enquote.simpleEscape c = some c := by
  rcases hc with rfl | rfl
  · rcases hq with rfl | rfl <;> rfl
  · rfl

theorem unescape_escaped {q : Char} (hq : q = '"' ∨ q = '\'') (t : Str) :
    ∀ n, (escaped q t).length ≤ n → Enquote.unescape q n (escaped q t) = .ok t := by
  induction t with
  | nil => intro n _; cases n <;> rfl
  | cons c t ih =>
    intro n hn
    have hq' : ('\\' : Char) ≠ q := by rcases hq with rfl | rfl <;> decide
    unfold escaped at hn ih ⊢
    simp only [List.flatMap_cons] at hn ⊢
    by_cases hc : c = q ∨ c = '\\'
    · rw [if_pos hc] at hn ⊢
      simp only [List.cons_append, List.nil_append, List.length_cons] at hn ⊢
      cases n with
      | zero => omega
      | succ n =>
        rw [Enquote.unescape, if_neg hq', if_pos rfl]
        simp only [simpleEscape_quote hq hc]
        rw [ih n (by omega)]
        rfl
    · rw [if_neg hc] at hn ⊢
      simp only [not_or] at hc
      simp only [List.cons_append, List.nil_append, List.length_cons] at hn ⊢
      cases n with
      | zero => omega
      | succ n =>
        rw [Enquote.unescape.eq_def]
        simp only [if_neg hc.1, if_neg hc.2]
        rw [ih n (by omega)]
        rfl

/-- `enquote::unquote` undoes quoting. -/
theorem unquote_undoes : UndoesQuoting Enquote.unquote := by
  intro q t hq
  unfold quoteWith
  cases h : escaped q t ++ [q] with
  | nil => simp at h
  | cons c cs =>
    rw [Enquote.unquote, ← h]
    rw [if_neg (by simp), if_pos (hq.imp id .inl), List.dropLast_concat]
    exact unescape_escaped hq t _ (Nat.le_refl _)

theorem quotedBody_escaped {q : Char} (hq : q = '"' ∨ q = '\'') {t : Str}
    (h : ∀ c ∈ t, c ≠ '\x00' ∧ c ≠ '\x1F') : QuotedBody q (escaped q t) := by
  induction t with
  | nil => exact .nil
  | cons c t ih =>
    have ih := ih fun c hc => h c (by simp [hc])
    unfold escaped at ih ⊢
    rw [List.flatMap_cons]
    by_cases hc : c = q ∨ c = '\\'
    · rw [if_pos hc]
      refine .escaped ?_ ih
      rcases hc with rfl | rfl
      · rcases hq with h | h
        · exact .inl h
        · exact .inr (.inl h)
      · exact .inr (.inr rfl)
    · rw [if_neg hc]
      simp only [not_or] at hc
      have := h c (by simp)
      exact .chr hc.1 hc.2 this.1 this.2 ih

theorem quotedText_quoteWith {q : Char} (hq : q = '"' ∨ q = '\'') {t : Str}
    (h : ∀ c ∈ t, c ≠ '\x00' ∧ c ≠ '\x1F') : QuotedText (quoteWith q t) :=
  ⟨q, _, rfl, hq, quotedBody_escaped hq h⟩

/-! ## single lines -/

theorem blanks_space : Blanks [' '] := by intro c hc; rw [List.mem_singleton.1 hc]; exact .inl rfl

theorem gap_space (a : Str) : Gap [' '] a :=
  ⟨.blank (.inl rfl) .nil, by simp, .inl blanks_space⟩

theorem lineText_doc {unq : Unquote} {w t : Str} {i : Item} (hw : Blanks w) (ht : Blanks t)
    (h : i.OK unq) (hg : i.Greedy → t = []) :
    Dockerfile.parse unq (w ++ (i.text ++ t)) =
      .ok (documentOf (w ++ (i.text ++ t)) (i.instr (blen w)).toList) := by
  have := parse_docText (unq := unq) (l := ⟨w, i, t⟩) (ms := []) ⟨hw, h, ht, hg⟩
  simp only [docText, docInstrs, LineText.text, LineText.instrs, Nat.zero_add] at this
  exact this

theorem item_doc {unq : Unquote} {i : Item} (h : i.OK unq) :
    Dockerfile.parse unq i.text = .ok (documentOf i.text (i.instr 0).toList) := by
  have := lineText_doc (w := []) (t := []) .nil .nil h (fun _ => rfl)
  simpa using this

theorem reads_plain {unq : Unquote} {w : Str} (h : PlainWord w) : Reads unq w w := .inr ⟨h.2, rfl⟩

def flagOf (f : Str × Str) : FlagText := ⟨[' '], f.1, f.2, f.2⟩
def fieldOf (w : Str) : FieldText := ⟨[' '], w, w⟩
def pairOf (f : Str × Str) : PairText := ⟨[' '], f.1, f.1, f.2, f.2⟩
def elemOf (t : Str) : ElemText := ⟨[], [' '], quoteWith '"' t, t⟩

theorem flagsText_of (fs : List (Str × Str)) : flagsText (fs.map flagOf) = plainFlags fs := by
  simp [flagsText, plainFlags, List.flatMap_map, flagOf, FlagText.text, FlagText.body]

theorem fieldsText_of (ws : List Str) : fieldsText (ws.map fieldOf) = plainWords ws := by
  simp [fieldsText, plainWords, List.flatMap_map, fieldOf, FieldText.text]

theorem pairsText_of (ps : List (Str × Str)) : pairsText (ps.map pairOf) = plainPairs ps := by
  simp [pairsText, plainPairs, List.flatMap_map, pairOf, PairText.text, PairText.body]

theorem flagsAt_of (fs : List (Str × Str)) (p : Nat) :
    (flagsAt p (fs.map flagOf)).map (fun x => (x.name.content, x.value.content)) = fs := by
  induction fs generalizing p with
  | nil => rfl
  | cons f fs ih => simp [flagsAt, ih, flagOf, FlagText.flag]

theorem fieldsAt_of (ws : List Str) (p : Nat) :
    (fieldsAt p (ws.map fieldOf)).map (·.content) = ws := by
  induction ws generalizing p with
  | nil => rfl
  | cons f fs ih => simp [fieldsAt, ih, fieldOf, FieldText.field]

theorem labelsAt_of (ps : List (Str × Str)) (p : Nat) :
    (labelsAt p (ps.map pairOf)).map (fun x => (x.name.content, x.value.content)) = ps := by
  induction ps generalizing p with
  | nil => rfl
  | cons f fs ih => simp [labelsAt, ih, pairOf, PairText.label, PairText.nameAt]

theorem envVarsAt_of (ps : List (Str × Str)) (p : Nat) :
    (envVarsAt p (ps.map pairOf)).map (fun x => (x.key.content, x.value.display)) = ps := by
  induction ps generalizing p with
  | nil => rfl
  | cons f fs ih =>
    have ih := ih (p + blen (pairOf f).text)
    rw [List.map_cons, envVarsAt, List.map_cons, ih]
    simp [pairOf, PairText.envVar, PairText.nameAt, BreakableString.display]

theorem elemsAt_of (ts : List Str) (p : Nat) : (elemsAt p (ts.map elemOf)).map (·.content) = ts := by
  induction ts generalizing p with
  | nil => rfl
  | cons f fs ih => simp [elemsAt, ih, elemOf, ElemText.elem]

theorem flagOf_ok {unq : Unquote} {f : Str × Str} (h : (f.1 ≠ [] ∧ ∀ c ∈ f.1, IsAlpha c) ∧
    PlainWord f.2) : (flagOf f).OK unq :=
  ⟨gap_space _, h.1.1, h.1.2, h.2.1, reads_plain h.2⟩

theorem fieldOf_ok {unq : Unquote} {w : Str} (h : PlainWord w) : (fieldOf w).OK unq :=
  ⟨gap_space _, h.1, reads_plain h⟩

theorem plain_noquote {w : Str} (h : PlainWord w) : ∀ r, w ≠ '"' :: r ∧ w ≠ '\'' :: r := by
  intro r
  exact ⟨fun e => h.2 ⟨_, r, e, .inl rfl⟩, fun e => h.2 ⟨_, r, e, .inr (.inl rfl)⟩⟩

end Verif
