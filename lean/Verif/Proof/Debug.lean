import Verif.Model.Debug
import Verif.Props.StageOrder

/-! # Proofs about `Debug` output (C67) -/

namespace Verif.Dbg

/-! ## texts that can be read off -/

/-- `r` does not begin with a decimal digit -/
def Stop (r : Str) : Prop := ∀ c cs, r = c :: cs → ¬ ('0' ≤ c ∧ c ≤ '9')

/-- where `t` or `u` ends can be seen -/
def Clear (t u : Str) : Prop := ∀ r r', Stop r → Stop r' → t ++ r = u ++ r' → t = u ∧ r = r'

structure Reads {α : Type} (f : α → Str) : Prop where
  clear : ∀ a b, Clear (f a) (f b)
  inj : ∀ a b, f a = f b → a = b

theorem stop_nil : Stop [] := by
  intro c cs h
  cases h

theorem stop_cons {c : Char} (h : ¬ ('0' ≤ c ∧ c ≤ '9')) (r : Str) : Stop (c :: r) := by
  intro d ds e
  cases e
  exact h

theorem clear_same (t : Str) : Clear t t := fun _ _ _ _ h => ⟨rfl, List.append_cancel_left h⟩

theorem split_while {p : Char → Prop} : ∀ {a b r r' : Str}, (∀ c ∈ a, p c) → (∀ c ∈ b, p c) →
    (∀ c cs, r = c :: cs → ¬ p c) → (∀ c cs, r' = c :: cs → ¬ p c) → a ++ r = b ++ r' →
    a = b ∧ r = r' := by
  intro a
  induction a with
  | nil =>
    intro b r r' _ hb hr _ h
    cases b with
    | nil => exact ⟨rfl, h⟩
    | cons c cs => exact absurd (hb c List.mem_cons_self) (hr c (cs ++ r') h)
  | cons c a ih =>
    intro b r r' ha hb hr hr' h
    cases b with
    | nil => exact absurd (ha c List.mem_cons_self) (hr' c (a ++ r) h.symm)
    | cons d b =>
      simp only [List.cons_append, List.cons.injEq] at h
      obtain ⟨rfl, h⟩ := h
      obtain ⟨rfl, rfl⟩ := ih (fun c hc => ha c (List.mem_cons_of_mem _ hc))
        (fun c hc => hb c (List.mem_cons_of_mem _ hc)) hr hr' h
      exact ⟨rfl, rfl⟩

/-! ## numbers -/

theorem digit_inj : ∀ a b : Fin 10, Char.ofNat (48 + a.val) = Char.ofNat (48 + b.val) → a = b := by
  decide

theorem decimal_inj {m n : Nat} (h : decimal m = decimal n) : m = n := by
  obtain ⟨ds, -, h1, h2⟩ := decimalUpTo_digits m m (lt_ten_pow m)
  obtain ⟨es, -, h3, h4⟩ := decimalUpTo_digits n n (lt_ten_pow n)
  rw [decimal, decimal, h1, h3] at h
  have := (List.map_inj_right (fun a b => digit_inj a b)).1 h
  rw [h2, h4, this]

theorem reads_decimal : Reads decimal where
  clear a b _ _ hr hr' h := split_while (C63_decimal a).2.1 (C63_decimal b).2.1 hr hr' h
  inj _ _ h := decimal_inj h

/-- the value of a hexadecimal digit -/
def hexValue (c : Char) : Nat := if c.toNat < 58 then c.toNat - 48 else c.toNat - 87

theorem hexDigit_spec : ∀ n, n < 16 → hexValue (hexDigit n) = n ∧ hexDigit n ≠ '}' := by decide

theorem hexUpTo_spec (k n : Nat) (h : n < 16 ^ (k + 1)) :
    (hexUpTo k n).foldl (fun a c => 16 * a + hexValue c) 0 = n ∧ ∀ c ∈ hexUpTo k n, c ≠ '}' := by
  induction k generalizing n with
  | zero =>
    have h0 : n < 16 := by simpa using h
    have := hexDigit_spec (n % 16) (by omega)
    simp only [hexUpTo, List.foldl_cons, List.foldl_nil, this.1, List.mem_singleton, forall_eq]
    exact ⟨by omega, this.2⟩
  | succ k ih =>
    unfold hexUpTo
    split
    · next hn =>
      have := hexDigit_spec n hn
      simp only [List.foldl_cons, List.foldl_nil, this.1, List.mem_singleton, forall_eq]
      exact ⟨by omega, this.2⟩
    · have h1 : n / 16 < 16 ^ (k + 1) := by
        rw [Nat.pow_succ] at h
        omega
      obtain ⟨h2, h3⟩ := ih (n / 16) h1
      have := hexDigit_spec (n % 16) (by omega)
      refine ⟨?_, ?_⟩
      · rw [List.foldl_append, h2]
        simp only [List.foldl_cons, List.foldl_nil, this.1]
        omega
      · intro c hc
        rcases List.mem_append.1 hc with hc | hc
        · exact h3 c hc
        · rw [List.mem_singleton.1 hc]
          exact this.2

theorem lt_hex_pow (n : Nat) : n < 16 ^ (n + 1) := by
  induction n with
  | zero => decide
  | succ n ih =>
    rw [Nat.pow_succ]
    omega

theorem hex_inj {m n : Nat} (h : hex m = hex n) : m = n := by
  have h1 := (hexUpTo_spec m m (lt_hex_pow m)).1
  have h2 := (hexUpTo_spec n n (lt_hex_pow n)).1
  rw [show hexUpTo m m = hexUpTo n n from h] at h1
  exact h1.symm.trans h2

theorem hex_end {m n : Nat} {r r' : Str} (h : hex m ++ '}' :: r = hex n ++ '}' :: r') :
    m = n ∧ r = r' := by
  have key : ∀ r : Str, ∀ c cs, '}' :: r = c :: cs → ¬ c ≠ '}' := by
    intro r c cs e
    cases e
    exact fun h => h rfl
  obtain ⟨h1, h2⟩ := split_while (p := (· ≠ '}')) (hexUpTo_spec m m (lt_hex_pow m)).2
    (hexUpTo_spec n n (lt_hex_pow n)).2 (key r) (key r') h
  cases h2
  exact ⟨hex_inj h1, rfl⟩

/-! ## strings -/

theorem escapeChar_cases (plain : Char → Bool) (c : Char) :
    (∃ x, escapeChar plain c = ['\\', x] ∧ x ≠ 'u' ∧ (c, x) ∈ [('\x00', '0'), ('\t', 't'), ('\r', 'r'),
      ('\n', 'n'), ('"', '"'), ('\\', '\\')]) ∨
    (escapeChar plain c = [c] ∧ c ≠ '\\' ∧ c ≠ '"') ∨
    escapeChar plain c = '\\' :: 'u' :: '{' :: (hex c.toNat ++ ['}']) := by
  unfold escapeChar
  repeat' split
  · next h => subst h; exact .inl ⟨_, rfl, by decide, by simp⟩
  · next h => subst h; exact .inl ⟨_, rfl, by decide, by simp⟩
  · next h => subst h; exact .inl ⟨_, rfl, by decide, by simp⟩
  · next h => subst h; exact .inl ⟨_, rfl, by decide, by simp⟩
  · next h => rcases h with rfl | rfl <;> exact .inl ⟨_, rfl, by decide, by simp⟩
  · next h _ => exact .inr (.inl ⟨rfl, fun e => h (.inr e), fun e => h (.inl e)⟩)
  · exact .inr (.inr rfl)

theorem escapeChar_inj (plain : Char → Bool) {c d : Char} {r r' : Str}
    (h : escapeChar plain c ++ r = escapeChar plain d ++ r') : c = d ∧ r = r' := by
  rcases escapeChar_cases plain c with ⟨x, h1, h2, h3⟩ | ⟨h1, h2, h3⟩ | h1 <;>
    rcases escapeChar_cases plain d with ⟨y, g1, g2, g3⟩ | ⟨g1, g2, g3⟩ | g1 <;> rw [h1, g1] at h
  · simp only [List.cons_append, List.nil_append, List.cons.injEq, true_and] at h
    obtain ⟨rfl, rfl⟩ := h
    refine ⟨?_, rfl⟩
    simp only [List.mem_cons, Prod.mk.injEq, List.not_mem_nil, or_false] at h3 g3
    rcases h3 with ⟨rfl, rfl⟩ | ⟨rfl, rfl⟩ | ⟨rfl, rfl⟩ | ⟨rfl, rfl⟩ | ⟨rfl, rfl⟩ | ⟨rfl, rfl⟩ <;>
      (simp at g3; exact g3.symm)
  · cases h; exact absurd rfl g2
  · cases h; exact absurd rfl h2
  · cases h; exact absurd rfl h2
  · cases h; exact ⟨rfl, rfl⟩
  · cases h; exact absurd rfl h2
  · cases h; exact absurd rfl g2
  · cases h; exact absurd rfl g2
  · simp only [List.cons_append, List.append_assoc, List.nil_append, List.cons.injEq, true_and] at h
    obtain ⟨h1, h2⟩ := hex_end h
    refine ⟨?_, h2⟩
    rw [← Char.ofNat_toNat c, h1, Char.ofNat_toNat]

theorem escapeChar_quote (plain : Char → Bool) (c : Char) (r r' : Str) :
    escapeChar plain c ++ r ≠ '"' :: r' := by
  intro h
  rcases escapeChar_cases plain c with ⟨x, h1, -⟩ | ⟨h1, -, h3⟩ | h1 <;> rw [h1] at h <;> cases h
  exact h3 rfl

theorem escape_inj (plain : Char → Bool) (s : Str) : ∀ t r r' : Str,
    s.flatMap (escapeChar plain) ++ '"' :: r = t.flatMap (escapeChar plain) ++ '"' :: r' →
    s = t ∧ r = r' := by
  induction s with
  | nil =>
    intro t r r' h
    cases t with
    | nil => cases h; exact ⟨rfl, rfl⟩
    | cons c t =>
      rw [List.flatMap_cons, List.append_assoc] at h
      exact absurd h.symm (escapeChar_quote _ _ _ _)
  | cons c s ih =>
    intro t r r' h
    rw [List.flatMap_cons, List.append_assoc] at h
    cases t with
    | nil => exact absurd h (escapeChar_quote _ _ _ _)
    | cons d t =>
      rw [List.flatMap_cons, List.append_assoc] at h
      obtain ⟨rfl, h1⟩ := escapeChar_inj plain h
      obtain ⟨rfl, rfl⟩ := ih _ _ _ h1
      exact ⟨rfl, rfl⟩

theorem debugStr_inj (plain : Char → Bool) {s t r r' : Str}
    (h : debugStr plain s ++ r = debugStr plain t ++ r') : s = t ∧ r = r' := by
  simp only [debugStr, List.cons_append, List.append_assoc, List.nil_append, List.cons.injEq,
    true_and] at h
  exact escape_inj plain s t r r' h

theorem reads_str (plain : Char → Bool) : Reads (debugStr plain) where
  clear a b r r' _ _ h := by
    obtain ⟨rfl, rfl⟩ := debugStr_inj plain h
    exact ⟨rfl, rfl⟩
  inj a b h := (debugStr_inj plain (r := []) (r' := []) (by rw [h])).1

/-! ## structures, tuples, lists, options -/

inductive Fields : List (Str × Str) → List (Str × Str) → Prop
  | nil : Fields [] []
  | cons (n : Str) {t u : Str} {l l' : List (Str × Str)} : Clear t u → Fields l l' →
      Fields ((n, t) :: l) ((n, u) :: l')

def fieldText (x : Str × Str) : Str := x.1 ++ c!": " ++ x.2

theorem fields_inj {l l' : List (Str × Str)} (h : Fields l l') : ∀ r r' : Str,
    commas (l.map fieldText) ++ (c!" }" ++ r) = commas (l'.map fieldText) ++ (c!" }" ++ r') →
    l = l' ∧ r = r' := by
  induction h with
  | nil =>
    intro r r' e
    simp only [List.map_nil, commas, List.nil_append, List.cons_append, List.cons.injEq,
      true_and] at e
    exact ⟨rfl, e⟩
  | @cons n t u l l' hc hl ih =>
    intro r r' e
    have hs : ∀ r : Str, Stop (c!" }" ++ r) := fun r => stop_cons (by decide) _
    have hs' : ∀ r : Str, Stop (c!", " ++ r) := fun r => stop_cons (by decide) _
    cases hl with
    | nil =>
      simp only [List.map_cons, List.map_nil, commas, fieldText, List.append_assoc] at e
      obtain ⟨rfl, e1⟩ := hc _ _ (hs _) (hs _)
        (List.append_cancel_left (List.append_cancel_left e))
      exact ⟨rfl, List.append_cancel_left e1⟩
    | @cons n' t' u' k k' hc' hl' =>
      have key : ∀ (n t n' t' : Str) (k : List (Str × Str)),
          commas (((n, t) :: (n', t') :: k).map fieldText) =
            n ++ (c!": " ++ (t ++ (c!", " ++ commas (((n', t') :: k).map fieldText)))) := by
        intro n t n' t' k
        simp only [List.map_cons, commas, fieldText, List.append_assoc]
      rw [key, key] at e
      simp only [List.append_assoc] at e
      obtain ⟨rfl, e1⟩ := hc _ _ (hs' _) (hs' _)
        (List.append_cancel_left (List.append_cancel_left e))
      obtain ⟨h1, h2⟩ := ih r r' (List.append_cancel_left e1)
      exact ⟨by rw [h1], h2⟩

theorem debugStruct_inj {name : Str} {l l' : List (Str × Str)} (h : Fields l l') {r r' : Str}
    (e : debugStruct name l ++ r = debugStruct name l' ++ r') : l = l' ∧ r = r' := by
  have key : ∀ (l : List (Str × Str)) (r : Str), debugStruct name l ++ r =
      name ++ (c!" { " ++ (commas (l.map fieldText) ++ (c!" }" ++ r))) := by
    intro l r
    rw [debugStruct, List.append_assoc, List.append_assoc, List.append_assoc]
    rfl
  rw [key, key] at e
  exact fields_inj h _ _ (List.append_cancel_left (List.append_cancel_left e))

theorem reads_struct {α : Type} {f : α → Str} (name : Str) (fields : α → List (Str × Str))
    (hf : ∀ a, f a = debugStruct name (fields a)) (h : ∀ a b, Fields (fields a) (fields b))
    (hi : ∀ a b, fields a = fields b → a = b) : Reads f where
  clear a b r r' _ _ e := by
    rw [hf, hf] at e ⊢
    obtain ⟨h1, h2⟩ := debugStruct_inj (h a b) e
    exact ⟨by rw [h1], h2⟩
  inj a b e := by
    rw [hf, hf] at e
    exact hi a b (debugStruct_inj (h a b) (r := []) (r' := []) (by rw [e])).1

theorem stop_close (r : Str) : Stop (c!")" ++ r) := stop_cons (by decide) _

theorem debugTuple_inj {name t u r r' : Str} (h : Clear t u)
    (e : debugTuple name [t] ++ r = debugTuple name [u] ++ r') : t = u ∧ r = r' := by
  simp only [debugTuple, commas, List.append_assoc] at e
  obtain ⟨rfl, e1⟩ := h _ _ (stop_close _) (stop_close _)
    (List.append_cancel_left (List.append_cancel_left e))
  exact ⟨rfl, List.append_cancel_left e1⟩

theorem clear_tuple {name t u : Str} (h : Clear t u) :
    Clear (debugTuple name [t]) (debugTuple name [u]) := by
  intro r r' _ _ e
  obtain ⟨rfl, rfl⟩ := debugTuple_inj h e
  exact ⟨rfl, rfl⟩

theorem tuple_text {name t u : Str} (h : Clear t u) (e : debugTuple name [t] = debugTuple name [u]) :
    t = u := (debugTuple_inj h (r := []) (r' := []) (by rw [e])).1

theorem clear_of_ne {t u : Str} (h : ∀ r r' : Str, t ++ r ≠ u ++ r') : Clear t u :=
  fun r r' _ _ e => absurd e (h r r')

theorem reads_option {α : Type} {f : α → Str} (hf : Reads f) :
    Reads (fun o : Option α => debugOption (o.map f)) where
  clear a b := by
    cases a <;> cases b
    · exact clear_same _
    · exact clear_of_ne fun r r' e => by simp [debugOption, debugTuple] at e
    · exact clear_of_ne fun r r' e => by simp [debugOption, debugTuple] at e
    · exact clear_tuple (hf.clear _ _)
  inj a b e := by
    cases a <;> cases b
    · rfl
    · simp [debugOption, debugTuple] at e
    · simp [debugOption, debugTuple] at e
    · exact congrArg some (hf.inj _ _ (tuple_text (hf.clear _ _) e))

theorem commas_cons (t : Str) (ts : List Str) :
    commas (t :: ts) = t ++ (match ts with | [] => [] | _ :: _ => c!", " ++ commas ts) := by
  cases ts with
  | nil => simp [commas]
  | cons u ts => simp only [commas, List.append_assoc]

theorem list_inj {α : Type} {f : α → Str} (hf : Reads f)
    (hn : ∀ a, ∃ c cs, f a = c :: cs ∧ c ≠ ']') (l : List α) : ∀ (l' : List α) (r r' : Str),
    commas (l.map f) ++ (c!"]" ++ r) = commas (l'.map f) ++ (c!"]" ++ r') → l = l' ∧ r = r' := by
  have hs : ∀ r : Str, Stop (c!"]" ++ r) := fun r => stop_cons (by decide) _
  have hs' : ∀ r : Str, Stop (c!", " ++ r) := fun r => stop_cons (by decide) _
  induction l with
  | nil =>
    intro l' r r' e
    cases l' with
    | nil => exact ⟨rfl, List.append_cancel_left e⟩
    | cons b l' =>
      obtain ⟨c, cs, h1, h2⟩ := hn b
      rw [List.map_cons, commas_cons, h1] at e
      simp only [List.map_nil, commas, List.nil_append, List.cons_append, List.cons.injEq] at e
      exact absurd e.1.symm h2
  | cons a l ih =>
    intro l' r r' e
    cases l' with
    | nil =>
      obtain ⟨c, cs, h1, h2⟩ := hn a
      rw [List.map_cons, commas_cons, h1] at e
      simp only [List.map_nil, commas, List.nil_append, List.cons_append, List.cons.injEq] at e
      exact absurd e.1 h2
    | cons b l' =>
      rw [List.map_cons, List.map_cons, commas_cons, commas_cons] at e
      cases l with
      | nil =>
        cases l' with
        | nil =>
          simp only [List.map_nil, List.append_nil] at e
          obtain ⟨h1, h2⟩ := hf.clear a b _ _ (hs _) (hs _) e
          rw [hf.inj a b h1]
          exact ⟨rfl, List.append_cancel_left h2⟩
        | cons b' l' =>
          simp only [List.map_nil, List.map_cons, List.append_nil, List.append_assoc] at e
          obtain ⟨h1, h2⟩ := hf.clear a b _ _ (hs _) (hs' _) e
          simp at h2
      | cons a' l =>
        cases l' with
        | nil =>
          simp only [List.map_nil, List.map_cons, List.append_nil, List.append_assoc] at e
          obtain ⟨h1, h2⟩ := hf.clear a b _ _ (hs' _) (hs _) e
          simp at h2
        | cons b' l' =>
          simp only [List.map_cons, List.append_assoc] at e
          obtain ⟨h1, h2⟩ := hf.clear a b _ _ (hs' _) (hs' _) e
          obtain ⟨h3, h4⟩ := ih (b' :: l') r r' (List.append_cancel_left h2)
          rw [hf.inj a b h1, h3]
          exact ⟨rfl, h4⟩

theorem reads_list {α : Type} {f : α → Str} (hf : Reads f)
    (hn : ∀ a, ∃ c cs, f a = c :: cs ∧ c ≠ ']') :
    Reads (fun l : List α => debugList (l.map f)) := by
  have key : ∀ (l l' : List α) (r r' : Str),
      debugList (l.map f) ++ r = debugList (l'.map f) ++ r' → l = l' ∧ r = r' := by
    intro l l' r r' e
    simp only [debugList, List.append_assoc] at e
    exact list_inj hf hn l l' r r' (List.append_cancel_left e)
  constructor
  · intro a b r r' _ _ e
    obtain ⟨rfl, rfl⟩ := key _ _ _ _ e
    exact ⟨rfl, rfl⟩
  · intro a b e
    exact (key a b [] [] (by rw [e])).1

/-! ## the types -/

theorem reads_span : Reads Span.debug := by
  have key : ∀ (a b : Span) (r r' : Str), a.debug ++ r = b.debug ++ r' → a = b ∧ r = r' := by
    intro a b r r' e
    have hs' : ∀ r : Str, Stop (c!", " ++ r) := fun r => stop_cons (by decide) _
    simp only [Span.debug, debugTuple, commas, List.append_assoc] at e
    obtain ⟨h1, e1⟩ := reads_decimal.clear _ _ _ _ (hs' _) (hs' _)
      (List.append_cancel_left (List.append_cancel_left e))
    obtain ⟨h2, e2⟩ := reads_decimal.clear _ _ _ _ (stop_close _) (stop_close _)
      (List.append_cancel_left e1)
    obtain ⟨s, t⟩ := a
    obtain ⟨s', t'⟩ := b
    cases decimal_inj h1
    cases decimal_inj h2
    exact ⟨rfl, List.append_cancel_left e2⟩
  constructor
  · intro a b r r' _ _ e
    obtain ⟨rfl, rfl⟩ := key _ _ _ _ e
    exact ⟨rfl, rfl⟩
  · intro a b e
    exact (key a b [] [] (by rw [e])).1

variable (plain : Char → Bool)

theorem reads_spannedString : Reads (SpannedString.debug plain) := by
  refine reads_struct _ _ (fun _ => rfl) (fun a b => .cons _ (reads_span.clear _ _)
    (.cons _ ((reads_str plain).clear _ _) .nil)) (fun a b e => ?_)
  simp only [List.cons.injEq, Prod.mk.injEq, true_and, and_true] at e
  cases a
  cases b
  rw [SpannedString.mk.injEq]
  exact ⟨reads_span.inj _ _ e.1, (reads_str plain).inj _ _ e.2⟩

theorem reads_spannedComment : Reads (SpannedComment.debug plain) := by
  refine reads_struct _ _ (fun _ => rfl) (fun a b => .cons _ (reads_span.clear _ _)
    (.cons _ ((reads_str plain).clear _ _) .nil)) (fun a b e => ?_)
  simp only [List.cons.injEq, Prod.mk.injEq, true_and, and_true] at e
  cases a
  cases b
  rw [SpannedComment.mk.injEq]
  exact ⟨reads_span.inj _ _ e.1, (reads_str plain).inj _ _ e.2⟩

theorem reads_component : Reads (BreakableStringComponent.debug plain) where
  clear a b := by
    cases a <;> cases b
    · exact clear_tuple ((reads_spannedString plain).clear _ _)
    · exact clear_of_ne fun r r' e => by simp [BreakableStringComponent.debug, debugTuple] at e
    · exact clear_of_ne fun r r' e => by simp [BreakableStringComponent.debug, debugTuple] at e
    · exact clear_tuple ((reads_spannedComment plain).clear _ _)
  inj a b e := by
    cases a <;> cases b
    · exact congrArg _ ((reads_spannedString plain).inj _ _
        (tuple_text ((reads_spannedString plain).clear _ _) e))
    · simp [BreakableStringComponent.debug, debugTuple] at e
    · simp [BreakableStringComponent.debug, debugTuple] at e
    · exact congrArg _ ((reads_spannedComment plain).inj _ _
        (tuple_text ((reads_spannedComment plain).clear _ _) e))

theorem struct_head {c : Char} (hc : c ≠ ']') (cs : Str) (l : List (Str × Str)) :
    ∃ d ds, debugStruct (c :: cs) l = d :: ds ∧ d ≠ ']' := ⟨c, _, rfl, hc⟩

theorem reads_components :
    Reads (fun l : List BreakableStringComponent => debugList (l.map (·.debug plain))) :=
  reads_list (reads_component plain) fun a => by
    cases a
    · exact ⟨'S', _, rfl, by decide⟩
    · exact ⟨'C', _, rfl, by decide⟩

theorem reads_strings : Reads (fun l : List SpannedString => debugList (l.map (·.debug plain))) :=
  reads_list (reads_spannedString plain) fun _ => struct_head (by decide) _ _

theorem reads_breakable : Reads (BreakableString.debug plain) := by
  refine reads_struct _ _ (fun _ => rfl) (fun a b => .cons _ (reads_span.clear _ _)
    (.cons _ ((reads_components plain).clear _ _) .nil)) (fun a b e => ?_)
  simp only [List.cons.injEq, Prod.mk.injEq, true_and, and_true] at e
  cases a
  cases b
  rw [BreakableString.mk.injEq]
  exact ⟨reads_span.inj _ _ e.1, (reads_components plain).inj _ _ e.2⟩

theorem reads_array : Reads (StringArray.debug plain) := by
  refine reads_struct _ _ (fun _ => rfl) (fun a b => .cons _ (reads_span.clear _ _)
    (.cons _ ((reads_strings plain).clear _ _) .nil)) (fun a b e => ?_)
  simp only [List.cons.injEq, Prod.mk.injEq, true_and, and_true] at e
  cases a
  cases b
  rw [StringArray.mk.injEq]
  exact ⟨reads_span.inj _ _ e.1, (reads_strings plain).inj _ _ e.2⟩

theorem reads_expr : Reads (ShellOrExecExpr.debug plain) where
  clear a b := by
    cases a <;> cases b
    · exact clear_tuple ((reads_breakable plain).clear _ _)
    · exact clear_of_ne fun r r' e => by simp [ShellOrExecExpr.debug, debugTuple] at e
    · exact clear_of_ne fun r r' e => by simp [ShellOrExecExpr.debug, debugTuple] at e
    · exact clear_tuple ((reads_array plain).clear _ _)
  inj a b e := by
    cases a <;> cases b
    · exact congrArg _ ((reads_breakable plain).inj _ _
        (tuple_text ((reads_breakable plain).clear _ _) e))
    · simp [ShellOrExecExpr.debug, debugTuple] at e
    · simp [ShellOrExecExpr.debug, debugTuple] at e
    · exact congrArg _ ((reads_array plain).inj _ _
        (tuple_text ((reads_array plain).clear _ _) e))

theorem reads_optStr : Reads (fun o : Option Str => debugOption (o.map (debugStr plain))) :=
  reads_option (reads_str plain)

theorem reads_optString : Reads (fun o : Option SpannedString => debugOption (o.map (·.debug plain))) :=
  reads_option (reads_spannedString plain)

theorem reads_image : Reads (ImageRef.debug plain) := by
  refine reads_struct _ _ (fun _ => rfl) (fun a b => .cons _ ((reads_optStr plain).clear _ _)
    (.cons _ ((reads_str plain).clear _ _) (.cons _ ((reads_optStr plain).clear _ _)
    (.cons _ ((reads_optStr plain).clear _ _) .nil)))) (fun a b e => ?_)
  simp only [List.cons.injEq, Prod.mk.injEq, true_and, and_true] at e
  cases a
  cases b
  rw [ImageRef.mk.injEq]
  exact ⟨(reads_optStr plain).inj _ _ e.1, (reads_str plain).inj _ _ e.2.1,
    (reads_optStr plain).inj _ _ e.2.2.1, (reads_optStr plain).inj _ _ e.2.2.2⟩

theorem reads_flag (name : Str) : Reads (Flag.debug plain name) := by
  refine reads_struct _ _ (fun _ => rfl) (fun a b => .cons _ (reads_span.clear _ _)
    (.cons _ ((reads_spannedString plain).clear _ _)
    (.cons _ ((reads_spannedString plain).clear _ _) .nil))) (fun a b e => ?_)
  simp only [List.cons.injEq, Prod.mk.injEq, true_and, and_true] at e
  cases a
  cases b
  rw [Flag.mk.injEq]
  exact ⟨reads_span.inj _ _ e.1, (reads_spannedString plain).inj _ _ e.2.1,
    (reads_spannedString plain).inj _ _ e.2.2⟩

theorem reads_flags (c : Char) (hc : c ≠ ']') (cs : Str) :
    Reads (fun l : List Flag => debugList (l.map (·.debug plain (c :: cs)))) :=
  reads_list (reads_flag plain _) fun _ => struct_head hc _ _

theorem reads_from : Reads (FromInstruction.debug plain) := by
  have hf := reads_flags plain 'F' (by decide) c!"romFlag"
  refine reads_struct _ _ (fun _ => rfl) (fun a b => .cons _ (reads_span.clear _ _)
    (.cons _ (hf.clear _ _) (.cons _ ((reads_spannedString plain).clear _ _)
    (.cons _ ((reads_image plain).clear _ _) (.cons _ (reads_decimal.clear _ _)
    (.cons _ ((reads_optString plain).clear _ _) .nil)))))) (fun a b e => ?_)
  simp only [List.cons.injEq, Prod.mk.injEq, true_and, and_true] at e
  cases a
  cases b
  rw [FromInstruction.mk.injEq]
  exact ⟨reads_span.inj _ _ e.1, hf.inj _ _ e.2.1, (reads_spannedString plain).inj _ _ e.2.2.1,
    (reads_image plain).inj _ _ e.2.2.2.1, reads_decimal.inj _ _ e.2.2.2.2.1,
    (reads_optString plain).inj _ _ e.2.2.2.2.2⟩

theorem reads_arg : Reads (ArgInstruction.debug plain) := by
  refine reads_struct _ _ (fun _ => rfl) (fun a b => .cons _ (reads_span.clear _ _)
    (.cons _ ((reads_spannedString plain).clear _ _)
    (.cons _ ((reads_optString plain).clear _ _) .nil))) (fun a b e => ?_)
  simp only [List.cons.injEq, Prod.mk.injEq, true_and, and_true] at e
  cases a
  cases b
  rw [ArgInstruction.mk.injEq]
  exact ⟨reads_span.inj _ _ e.1, (reads_spannedString plain).inj _ _ e.2.1,
    (reads_optString plain).inj _ _ e.2.2⟩

theorem reads_label1 : Reads (Label.debug plain) := by
  refine reads_struct _ _ (fun _ => rfl) (fun a b => .cons _ (reads_span.clear _ _)
    (.cons _ ((reads_spannedString plain).clear _ _)
    (.cons _ ((reads_spannedString plain).clear _ _) .nil))) (fun a b e => ?_)
  simp only [List.cons.injEq, Prod.mk.injEq, true_and, and_true] at e
  cases a
  cases b
  rw [Label.mk.injEq]
  exact ⟨reads_span.inj _ _ e.1, (reads_spannedString plain).inj _ _ e.2.1,
    (reads_spannedString plain).inj _ _ e.2.2⟩

theorem reads_label : Reads (LabelInstruction.debug plain) := by
  have hl := reads_list (reads_label1 plain) fun _ => struct_head (by decide) _ _
  refine reads_struct _ _ (fun _ => rfl) (fun a b => .cons _ (reads_span.clear _ _)
    (.cons _ (hl.clear _ _) .nil)) (fun a b e => ?_)
  simp only [List.cons.injEq, Prod.mk.injEq, true_and, and_true] at e
  cases a
  cases b
  rw [LabelInstruction.mk.injEq]
  exact ⟨reads_span.inj _ _ e.1, hl.inj _ _ e.2⟩

theorem reads_exec (name : Str) : Reads (ExecInstruction.debug plain name) := by
  refine reads_struct _ _ (fun _ => rfl) (fun a b => .cons _ (reads_span.clear _ _)
    (.cons _ ((reads_expr plain).clear _ _) .nil)) (fun a b e => ?_)
  simp only [List.cons.injEq, Prod.mk.injEq, true_and, and_true] at e
  cases a
  cases b
  rw [ExecInstruction.mk.injEq]
  exact ⟨reads_span.inj _ _ e.1, (reads_expr plain).inj _ _ e.2⟩

theorem reads_copy : Reads (CopyInstruction.debug plain) := by
  have hf := reads_flags plain 'C' (by decide) c!"opyFlag"
  refine reads_struct _ _ (fun _ => rfl) (fun a b => .cons _ (reads_span.clear _ _)
    (.cons _ (hf.clear _ _) (.cons _ ((reads_strings plain).clear _ _)
    (.cons _ ((reads_spannedString plain).clear _ _) .nil)))) (fun a b e => ?_)
  simp only [List.cons.injEq, Prod.mk.injEq, true_and, and_true] at e
  cases a
  cases b
  rw [CopyInstruction.mk.injEq]
  exact ⟨reads_span.inj _ _ e.1, hf.inj _ _ e.2.1, (reads_strings plain).inj _ _ e.2.2.1,
    (reads_spannedString plain).inj _ _ e.2.2.2⟩

theorem reads_envVar : Reads (EnvVar.debug plain) := by
  refine reads_struct _ _ (fun _ => rfl) (fun a b => .cons _ (reads_span.clear _ _)
    (.cons _ ((reads_spannedString plain).clear _ _)
    (.cons _ ((reads_breakable plain).clear _ _) .nil))) (fun a b e => ?_)
  simp only [List.cons.injEq, Prod.mk.injEq, true_and, and_true] at e
  cases a
  cases b
  rw [EnvVar.mk.injEq]
  exact ⟨reads_span.inj _ _ e.1, (reads_spannedString plain).inj _ _ e.2.1,
    (reads_breakable plain).inj _ _ e.2.2⟩

theorem reads_env : Reads (EnvInstruction.debug plain) := by
  have hl := reads_list (reads_envVar plain) fun _ => struct_head (by decide) _ _
  refine reads_struct _ _ (fun _ => rfl) (fun a b => .cons _ (reads_span.clear _ _)
    (.cons _ (hl.clear _ _) .nil)) (fun a b e => ?_)
  simp only [List.cons.injEq, Prod.mk.injEq, true_and, and_true] at e
  cases a
  cases b
  rw [EnvInstruction.mk.injEq]
  exact ⟨reads_span.inj _ _ e.1, hl.inj _ _ e.2⟩

theorem reads_misc : Reads (MiscInstruction.debug plain) := by
  refine reads_struct _ _ (fun _ => rfl) (fun a b => .cons _ (reads_span.clear _ _)
    (.cons _ ((reads_spannedString plain).clear _ _)
    (.cons _ ((reads_breakable plain).clear _ _) .nil))) (fun a b e => ?_)
  simp only [List.cons.injEq, Prod.mk.injEq, true_and, and_true] at e
  cases a
  cases b
  rw [MiscInstruction.mk.injEq]
  exact ⟨reads_span.inj _ _ e.1, (reads_spannedString plain).inj _ _ e.2.1,
    (reads_breakable plain).inj _ _ e.2.2⟩

/-- the name of the variant -/
def variantName : Instruction → Str
  | .from _ => c!"From"
  | .arg _ => c!"Arg"
  | .label _ => c!"Label"
  | .run _ => c!"Run"
  | .entrypoint _ => c!"Entrypoint"
  | .cmd _ => c!"Cmd"
  | .copy _ => c!"Copy"
  | .env _ => c!"Env"
  | .misc _ => c!"Misc"

theorem variantName_spec (i : Instruction) :
    (∃ t, i.debug plain = debugTuple (variantName i) [t]) ∧ ∀ c ∈ variantName i, c ≠ '(' := by
  cases i <;> exact ⟨⟨_, rfl⟩, by simp [variantName]⟩

theorem instruction_inj (a b : Instruction) (r r' : Str) (e : a.debug plain ++ r = b.debug plain ++ r') :
    a = b ∧ r = r' := by
  have key : ∀ r : Str, ∀ c cs, '(' :: r = c :: cs → ¬ c ≠ '(' := by
    intro r c cs e
    cases e
    exact fun h => h rfl
  have hn : variantName a = variantName b := by
    obtain ⟨⟨t, h1⟩, h2⟩ := variantName_spec plain a
    obtain ⟨⟨u, h3⟩, h4⟩ := variantName_spec plain b
    rw [h1, h3] at e
    simp only [debugTuple, List.append_assoc] at e
    exact (split_while (p := (· ≠ '(')) h2 h4 (key _) (key _) e).1
  cases a with
  | «from» i =>
    cases b with
    | «from» j =>
      obtain ⟨h1, h2⟩ := debugTuple_inj ((reads_from plain).clear _ _) e
      exact ⟨congrArg _ ((reads_from plain).inj _ _ h1), h2⟩
    | _ => simp [variantName] at hn
  | arg i =>
    cases b with
    | arg j =>
      obtain ⟨h1, h2⟩ := debugTuple_inj ((reads_arg plain).clear _ _) e
      exact ⟨congrArg _ ((reads_arg plain).inj _ _ h1), h2⟩
    | _ => simp [variantName] at hn
  | label i =>
    cases b with
    | label j =>
      obtain ⟨h1, h2⟩ := debugTuple_inj ((reads_label plain).clear _ _) e
      exact ⟨congrArg _ ((reads_label plain).inj _ _ h1), h2⟩
    | _ => simp [variantName] at hn
  | run i =>
    cases b with
    | run j =>
      obtain ⟨h1, h2⟩ := debugTuple_inj ((reads_exec plain _).clear _ _) e
      exact ⟨congrArg _ ((reads_exec plain _).inj _ _ h1), h2⟩
    | _ => simp [variantName] at hn
  | entrypoint i =>
    cases b with
    | entrypoint j =>
      obtain ⟨h1, h2⟩ := debugTuple_inj ((reads_exec plain _).clear _ _) e
      exact ⟨congrArg _ ((reads_exec plain _).inj _ _ h1), h2⟩
    | _ => simp [variantName] at hn
  | cmd i =>
    cases b with
    | cmd j =>
      obtain ⟨h1, h2⟩ := debugTuple_inj ((reads_exec plain _).clear _ _) e
      exact ⟨congrArg _ ((reads_exec plain _).inj _ _ h1), h2⟩
    | _ => simp [variantName] at hn
  | copy i =>
    cases b with
    | copy j =>
      obtain ⟨h1, h2⟩ := debugTuple_inj ((reads_copy plain).clear _ _) e
      exact ⟨congrArg _ ((reads_copy plain).inj _ _ h1), h2⟩
    | _ => simp [variantName] at hn
  | env i =>
    cases b with
    | env j =>
      obtain ⟨h1, h2⟩ := debugTuple_inj ((reads_env plain).clear _ _) e
      exact ⟨congrArg _ ((reads_env plain).inj _ _ h1), h2⟩
    | _ => simp [variantName] at hn
  | misc i =>
    cases b with
    | misc j =>
      obtain ⟨h1, h2⟩ := debugTuple_inj ((reads_misc plain).clear _ _) e
      exact ⟨congrArg _ ((reads_misc plain).inj _ _ h1), h2⟩
    | _ => simp [variantName] at hn

theorem reads_instruction : Reads (Instruction.debug plain) where
  clear a b r r' _ _ e := by
    obtain ⟨rfl, rfl⟩ := instruction_inj plain a b r r' e
    exact ⟨rfl, rfl⟩
  inj a b e := (instruction_inj plain a b [] [] (by rw [e])).1

theorem reads_dockerfile : Reads (Dockerfile.debug plain) := by
  have ha := reads_list (reads_arg plain) fun _ => struct_head (by decide) _ _
  have hi := reads_list (reads_instruction plain) fun i => by
    cases i
    · exact ⟨'F', _, rfl, by decide⟩
    · exact ⟨'A', _, rfl, by decide⟩
    · exact ⟨'L', _, rfl, by decide⟩
    · exact ⟨'R', _, rfl, by decide⟩
    · exact ⟨'E', _, rfl, by decide⟩
    · exact ⟨'C', _, rfl, by decide⟩
    · exact ⟨'C', _, rfl, by decide⟩
    · exact ⟨'E', _, rfl, by decide⟩
    · exact ⟨'M', _, rfl, by decide⟩
  refine reads_struct _ _ (fun _ => rfl) (fun a b => .cons _ ((reads_str plain).clear _ _)
    (.cons _ (ha.clear _ _) (.cons _ (hi.clear _ _) .nil))) (fun a b e => ?_)
  simp only [List.cons.injEq, Prod.mk.injEq, true_and, and_true] at e
  cases a
  cases b
  rw [Dockerfile.mk.injEq]
  exact ⟨(reads_str plain).inj _ _ e.1, ha.inj _ _ e.2.1, hi.inj _ _ e.2.2⟩

end Verif.Dbg
