import Verif.Props.Subst
import Verif.Props.Print
import Verif.Props.Parse
import Verif.Props.Loop

/-! # Proofs about the size of resolved images (C62) -/

namespace Verif
open Spec

/-! ## from above -/

theorem one_le_blen_of_ne {s : Str} (h : s ≠ []) : 1 ≤ blen s := by
  cases s with
  | nil => exact absurd rfl h
  | cons c cs =>
    have := c.utf8Size_pos
    simp only [blen]
    omega

theorem refAt_size {s n r : Str} (h : RefAt s n r) : 2 + blen r ≤ blen s := by
  obtain ⟨hn, -, h⟩ := h
  have := one_le_blen_of_ne hn
  have e : ('$' : Char).utf8Size = 1 := rfl
  have e2 : ('{' : Char).utf8Size = 1 := rfl
  have e3 : ('}' : Char).utf8Size = 1 := rfl
  rcases h with ⟨rfl, -⟩ | rfl
  · simp only [blen, blen_append]
    omega
  · simp only [blen, blen_append]
    omega

/-- Values of at most `V ≥ 2` bytes: every level multiplies the size by at most `V / 2`. -/
theorem expands_size {vars : VarMap} {V : Nat} (hV : 2 ≤ V)
    (hv : ∀ n v, vars n = some v → blen v ≤ V) {d : Nat} {s t : Str} (h : Expands vars d s t) :
    2 ^ d * blen t ≤ blen s * V ^ d := by
  induction h with
  | nil d => simp
  | lit d c cs t _ _ ih =>
    have : 2 ^ d ≤ V ^ d := Nat.pow_le_pow_left hV d
    have := Nat.mul_le_mul_left c.utf8Size this
    simp only [blen, Nat.mul_add, Nat.add_mul]
    rw [Nat.mul_comm (2 ^ d)]
    omega
  | ref d s n rest v e t hr hn he ht ih1 ih2 =>
    have h1 := refAt_size hr
    have h2 := hv n v hn
    have h3 : blen v * V ^ d ≤ V ^ (d + 1) := by
      rw [Nat.pow_succ, Nat.mul_comm]
      exact Nat.mul_le_mul_left _ h2
    have h4 : (2 + blen rest) * V ^ (d + 1) ≤ blen s * V ^ (d + 1) := Nat.mul_le_mul_right _ h1
    have h5 : 2 ^ (d + 1) * blen e = 2 * (2 ^ d * blen e) := by
      rw [Nat.pow_succ, Nat.mul_comm (2 ^ d) 2, Nat.mul_assoc]
    rw [blen_append, Nat.mul_add, h5]
    rw [Nat.add_mul] at h4
    omega

/-! ## fields of a document are no longer than the text -/

theorem sliceOf_size {s t : Str} {sp : Span} (h : SliceOf s sp t) : blen t ≤ blen s := by
  obtain ⟨a, c, rfl, -⟩ := h
  simp only [blen_append]
  omega

theorem argsBeforeFrom_mem {is : List Instruction} {a : ArgInstruction}
    (h : a ∈ argsBeforeFrom is) : Instruction.arg a ∈ is := by
  induction is with
  | nil => cases h
  | cons i is ih =>
    cases i <;> simp only [argsBeforeFrom] at h
    case «from» => cases h
    case arg b =>
      rcases List.mem_cons.1 h with rfl | h
      · exact List.mem_cons_self
      · exact List.mem_cons_of_mem _ (ih h)
    all_goals exact List.mem_cons_of_mem _ (ih h)

theorem field_size {unq : Unquote} (hu : ∀ q t, unq q = .ok t → blen t ≤ blen q) {s : Str}
    {d : Dockerfile} (h : Dockerfile.parse unq s = .ok d) {i : Instruction}
    (hi : i ∈ d.instructions) {f : SpannedString} (hf : f ∈ plainStrings i) :
    blen f.content ≤ blen s := by
  obtain ⟨t, h1, h2⟩ := C07_plain_strings unq s d h i hi f hf
  refine Nat.le_trans ?_ (sliceOf_size h1)
  rcases h2 with ⟨-, h2⟩ | ⟨-, rfl⟩
  · exact hu _ _ h2
  · exact Nat.le_refl _

theorem value_size {unq : Unquote} (hu : ∀ q t, unq q = .ok t → blen t ≤ blen q) {s : Str}
    {d : Dockerfile} (h : Dockerfile.parse unq s = .ok d) {k v : Str}
    (hv : argVars d.global_args k = some v) : blen v ≤ blen s := by
  obtain ⟨pre, a, post, w, e, -, hw, rfl, -⟩ := (C30_variables _ _ _).1 hv
  have ha : a ∈ argsBeforeFrom d.instructions := by
    rw [← C09_global_args unq s d h, e]
    simp
  exact field_size hu h (argsBeforeFrom_mem ha) (f := w) (by simp [plainStrings, hw])

/-! ## `enquote::unquote` does not lengthen -/

namespace Enquote

theorem takePad_size (n : Nat) (s : Str) :
    (takePad n s).1.length = n ∧
      ('\x00' ∈ (takePad n s).1 ∨ s = (takePad n s).1 ++ (takePad n s).2) := by
  induction n generalizing s with
  | zero => exact ⟨rfl, .inr rfl⟩
  | succ n ih =>
    cases s with
    | nil => exact ⟨by simp [takePad, (ih []).1], .inl (by simp [takePad])⟩
    | cons c cs =>
      refine ⟨by simp [takePad, (ih cs).1], ?_⟩
      rcases (ih cs).2 with h | h
      · exact .inl (by simp [takePad, h])
      · refine .inr ?_
        simp only [takePad, List.cons_append, List.cons.injEq, true_and]
        exact h

theorem digits_nul {radix : Nat} {s : Str} (h : '\x00' ∈ s) (acc : Nat) :
    digits? radix acc s = none := by
  induction s generalizing acc with
  | nil => cases h
  | cons c cs ih =>
    rcases List.mem_cons.1 h with rfl | h
    · have : digit? radix '\x00' = none := by simp [digit?]
      simp [digits?, this]
    · simp only [digits?]
      cases digit? radix c with
      | none => rfl
      | some d => exact ih h _

theorem fromStrRadix_nul {radix max : Nat} {s : Str} (h : '\x00' ∈ s) :
    fromStrRadix radix max s = none := by
  have key : ∀ ds : Str, '\x00' ∈ ds → (match ds with
      | [] => none
      | _ => match digits? radix 0 ds with
        | some n => if n ≤ max then some n else none
        | none => none : Option Nat) = none := by
    intro ds hd
    rw [digits_nul hd]
    cases ds <;> rfl
  unfold fromStrRadix
  split
  · next r => exact key _ (by simpa using h)
  · exact key _ h

theorem blen_length (s : Str) : s.length ≤ blen s := by
  induction s with
  | nil => exact Nat.le_refl _
  | cons c cs ih =>
    have := c.utf8Size_pos
    simp only [List.length_cons, blen]
    omega

theorem decodeUnicode_nul {n : Nat} {s : Str} {v : Char}
    (h : decodeUnicode (takePad n s).1 = .ok v) : n + blen (takePad n s).2 ≤ blen s := by
  obtain ⟨h1, h2 | h2⟩ := takePad_size n s
  · rw [decodeUnicode, fromStrRadix_nul h2] at h
    cases h
  · have := blen_length (takePad n s).1
    rw [congrArg blen h2, blen_append]
    omega

theorem takePad_le (n : Nat) (s : Str) : blen (takePad n s).2 ≤ blen s := by
  induction n generalizing s with
  | zero => exact Nat.le_refl _
  | succ n ih =>
    cases s with
    | nil => simpa [takePad] using ih []
    | cons c cs =>
      have := ih cs
      simp only [takePad, blen]
      omega

theorem utf8_byte : ∀ n, n ≤ 255 → (Char.ofNat n).utf8Size ≤ 2 := by decide +kernel

theorem simpleEscape_size {e v : Char} (h : simpleEscape e = some v) : v.utf8Size = 1 := by
  unfold simpleEscape at h
  split at h
  · next hc =>
    cases h
    rcases hc with rfl | rfl | rfl | rfl <;> rfl
  all_goals (repeat' split at h) <;> first | (cases h; rfl) | cases h

theorem fromStrRadix_le {radix max n : Nat} {s : Str} (h : fromStrRadix radix max s = some n) :
    n ≤ max := by
  have key : ∀ ds : Str, (match ds with
      | [] => none
      | _ => match digits? radix 0 ds with
        | some n => if n ≤ max then some n else none
        | none => none : Option Nat) = some n → n ≤ max := by
    intro ds hd
    cases ds with
    | nil => cases hd
    | cons c cs =>
      simp only at hd
      split at hd
      · split at hd
        · cases hd
          assumption
        · cases hd
      · cases hd
  unfold fromStrRadix at h
  split at h
  · exact key _ h
  · exact key _ h

theorem bind_cons {v : Char} {e : Except UnquoteError Str} {t : Str}
    (h : (do return v :: (← e)) = (.ok t : Except UnquoteError Str)) :
    ∃ u, e = .ok u ∧ t = v :: u := by
  cases e with
  | error x => cases h
  | ok u =>
    cases h
    exact ⟨u, rfl, rfl⟩

theorem bind_cons2 {e' : Except UnquoteError Char} {e : Except UnquoteError Str} {t : Str}
    (h : (do return (← e') :: (← e)) = (.ok t : Except UnquoteError Str)) :
    ∃ v u, e' = .ok v ∧ e = .ok u ∧ t = v :: u := by
  cases e' with
  | error x => cases h
  | ok v =>
    obtain ⟨u, h1, h2⟩ := bind_cons (v := v) (e := e) h
    exact ⟨v, u, rfl, h1, h2⟩

theorem unescape_size {q : Char} (n : Nat) (s t : Str) (h : unescape q n s = .ok t) :
    blen t ≤ blen s := by
  induction n generalizing s t with
  | zero =>
    cases s with
    | nil => cases h; exact Nat.le_refl _
    | cons c cs => cases h; exact Nat.zero_le _
  | succ n ih =>
    cases s with
    | nil => cases h; exact Nat.le_refl _
    | cons c cs =>
      have hb : ('\\' : Char).utf8Size = 1 := rfl
      simp only [unescape] at h
      split at h
      · cases h
      · split at h
        · next hc =>
          subst hc
          split at h
          · cases h
          · next e rest =>
            have he := e.utf8Size_pos
            simp only [blen]
            split at h
            · next v hv =>
              obtain ⟨u, h1, rfl⟩ := bind_cons h
              have h2 := ih _ _ h1
              have h3 := simpleEscape_size hv
              simp only [blen]
              omega
            · split at h
              · split at h
                · next v hv =>
                  obtain ⟨u, h1, rfl⟩ := bind_cons h
                  have h2 := ih _ _ h1
                  have h3 := takePad_le 2 rest
                  have h4 := utf8_byte _ (fromStrRadix_le hv)
                  simp only [blen]
                  omega
                · cases h
              · split at h
                · split at h
                  · next v hv =>
                    obtain ⟨u, h1, rfl⟩ := bind_cons h
                    have h2 := ih _ _ h1
                    have h3 := takePad_le 2 rest
                    have h4 := utf8_byte _ (fromStrRadix_le hv)
                    simp only [blen]
                    omega
                  · cases h
                · split at h
                  · obtain ⟨v, u, h0, h1, rfl⟩ := bind_cons2 h
                    have h2 := ih _ _ h1
                    have h3 := decodeUnicode_nul h0
                    have h4 := v.utf8Size_le_four
                    simp only [blen]
                    omega
                  · split at h
                    · obtain ⟨v, u, h0, h1, rfl⟩ := bind_cons2 h
                      have h2 := ih _ _ h1
                      have h3 := decodeUnicode_nul h0
                      have h4 := v.utf8Size_le_four
                      simp only [blen]
                      omega
                    · cases h
        · obtain ⟨u, h1, rfl⟩ := bind_cons h
          have h2 := ih _ _ h1
          simp only [blen]
          omega

theorem dropLast_size (s : Str) : blen s.dropLast ≤ blen s := by
  rcases List.eq_nil_or_concat s with rfl | ⟨a, c, rfl⟩
  · exact Nat.le_refl _
  · rw [List.concat_eq_append, List.dropLast_concat, blen_append]
    omega

theorem unquote_size {q t : Str} (h : unquote q = .ok t) : blen t ≤ blen q := by
  unfold unquote at h
  split at h
  · cases h
  · cases h
  · next a c cs =>
    split at h
    · cases h
    · split at h
      · have h1 := unescape_size _ _ _ h
        have h2 := dropLast_size (c :: cs)
        have e : blen (a :: c :: cs) = a.utf8Size + blen (c :: cs) := rfl
        omega
      · cases h

end Enquote

/-! ## from below -/

/-- `$c`, `m` times -/
def refs (c : Char) : Nat → Str
  | 0 => []
  | m + 1 => '$' :: c :: refs c m

/-- the value of a variable with the names `cs` after it: `m` references to the next one, or `2 m`
letters -/
def growValue (m : Nat) : List Char → Str
  | [] => List.replicate (2 * m) 'x'
  | c :: _ => refs c m

/-- the names, each with its value -/
def growArgs (m : Nat) : List Char → List (Char × Str)
  | [] => []
  | c :: cs => (c, growValue m cs) :: growArgs m cs

/-- `ARG c=value` for each name, then `FROM` -/
def growLines (img : Str) : List (Char × Str) → Str
  | [] => c!"FROM " ++ img
  | (c, v) :: ps => c!"ARG " ++ c :: '=' :: (v ++ '\n' :: growLines img ps)

theorem isWordChar_iff' {c : Char} : IsAlpha c → WordChar c := by
  unfold IsAlpha WordChar
  rintro (h | h)
  · exact .inr (.inl h)
  · exact .inl h

theorem refs_head {c : Char} {m : Nat} {d : Char} {r : Str} (h : refs c m = d :: r) : d = '$' := by
  cases m with
  | zero => cases h
  | succ m => cases h; rfl

theorem dollar_not_word : ¬ WordChar '$' := by
  unfold WordChar
  decide

theorem refs_refAt {c : Char} (hc : WordChar c) (m : Nat) : RefAt (refs c (m + 1)) [c] (refs c m) := by
  refine ⟨by simp, by simpa using hc, .inl ⟨rfl, ?_⟩⟩
  intro d cs h
  cases refs_head h
  exact dollar_not_word

theorem expands_refs {vars : VarMap} {c : Char} {v e : Str} {d : Nat} (hc : WordChar c)
    (hv : vars [c] = some v) (he : Expands vars d v e) (m : Nat) :
    Expands vars (d + 1) (refs c m) (List.replicate m e).flatten := by
  induction m with
  | zero => exact .nil _
  | succ m ih =>
    rw [List.replicate_succ, List.flatten_cons]
    exact .ref _ _ _ _ _ _ _ (refs_refAt hc m) hv he ih

theorem noref_x {s n : Str} (h : ∀ c ∈ s, c ≠ '$') : ¬ References s n := by
  intro hr
  induction hr with
  | here s n r h' =>
    rcases h'.2.2 with ⟨rfl, -⟩ | rfl <;> exact absurd rfl (h '$' List.mem_cons_self)
  | afterRef s k r n h' _ _ =>
    rcases h'.2.2 with ⟨rfl, -⟩ | rfl <;> exact absurd rfl (h '$' List.mem_cons_self)
  | afterLit c cs n _ _ ih => exact ih fun d hd => h d (List.mem_cons_of_mem _ hd)

theorem replicate_flatten (m n : Nat) (a : Char) :
    (List.replicate m (List.replicate n a)).flatten = List.replicate (m * n) a := by
  induction m with
  | zero => simp
  | succ m ih =>
    rw [List.replicate_succ, List.flatten_cons, ih, List.replicate_append_replicate, Nat.succ_mul,
      Nat.add_comm]

theorem grow_expands {vars : VarMap} {m : Nat} (cs : List Char) (hc : ∀ c ∈ cs, WordChar c)
    (hv : ∀ p ∈ growArgs m cs, vars [p.1] = some p.2) :
    Expands vars cs.length (growValue m cs) (List.replicate (2 * m ^ (cs.length + 1)) 'x') := by
  induction cs with
  | nil =>
    refine (expands_noref _ _ _ (fun n => noref_x ?_) _).2 (by simp [growValue])
    intro c h
    rw [(List.mem_replicate.1 h).2]
    decide
  | cons c cs ih =>
    have h1 := ih (fun d hd => hc d (List.mem_cons_of_mem _ hd))
      (fun p hp => hv p (List.mem_cons_of_mem _ hp))
    have h2 := expands_refs (hc c List.mem_cons_self) (hv (c, _) List.mem_cons_self) h1 m
    rw [replicate_flatten] at h2
    have e : m * (2 * m ^ (cs.length + 1)) = 2 * m ^ ((c :: cs).length + 1) := by
      rw [List.length_cons, Nat.pow_succ m (cs.length + 1), Nat.mul_left_comm, Nat.mul_comm m]
    rw [e] at h2
    exact h2

/-! ### the documents are read as intended -/

def argLine (p : Char × Str) : LineText :=
  ⟨[], .arg c!"ARG" c!" " [p.1] (some (p.2, p.2)), []⟩

def fromLine (img : Str) : LineText := ⟨[], .from c!"FROM" [] c!" " img none, []⟩

theorem gap_blank (a : Str) : Gap c!" " a :=
  ⟨.blank (.inl rfl) .nil, by simp, .inl (by intro c hc; left; simpa using hc)⟩

theorem grow_doc {unq : Unquote} {img : Str} (hi : img ≠ []) (hi' : ∀ c ∈ img, IsImageChar c)
    (hd : DigestOK (ImageRef.parse img)) (ps : List (Char × Str))
    (hp : ∀ p ∈ ps, IsAlpha p.1 ∧ ValueText p.2 ∧ ¬ StartsQuoted p.2) :
    ∃ l ms, DocOK unq l ms ∧ docText l ms = growLines img ps ∧
      ∀ o, ∃ (as : List ArgInstruction) (f : FromInstruction), docInstrs o l ms = as.map .arg ++ [.from f] ∧
        as.map (fun a => (a.name.content, a.value.map (·.content))) =
          ps.map (fun p => ([p.1], some p.2)) ∧
        f.image_parsed = ImageRef.parse img := by
  induction ps with
  | nil =>
    refine ⟨fromLine img, [], ⟨blanks_nil, ?_, blanks_nil, fun _ => rfl⟩, ?_, ?_⟩
    · exact ⟨rfl, by simp, gap_blank _, hi, hi', hd, by simp⟩
    · simp [docText, LineText.text, fromLine, Item.text, growLines, flagsText]
    · intro o
      exact ⟨[], _, rfl, rfl, rfl⟩
  | cons p ps ih =>
    obtain ⟨l, ms, h1, h2, h3⟩ := ih fun q hq => hp q (List.mem_cons_of_mem _ hq)
    obtain ⟨ha, hv, hq⟩ := hp p List.mem_cons_self
    refine ⟨argLine p, (['\n'], l) :: ms, ⟨⟨blanks_nil, ?_, blanks_nil, fun _ => rfl⟩, .inl rfl, h1⟩,
      ?_, ?_⟩
    · refine ⟨rfl, gap_blank _, ⟨p.1, [], rfl, ha, by simp⟩, ?_⟩
      intro x hx
      cases hx
      exact ⟨hv, .inr ⟨hq, rfl⟩⟩
    · simp [docText, LineText.text, argLine, Item.text, growLines, h2]
    · intro o
      obtain ⟨as, f, e1, e2, e3⟩ := h3 (o + blen (argLine p).text + blen ['\n'])
      obtain ⟨a, a1, a2⟩ : ∃ a, (argLine p).instrs o = [.arg a] ∧
          (a.name.content, a.value.map (·.content)) = ([p.1], some p.2) := ⟨_, rfl, rfl⟩
      refine ⟨a :: as, f, ?_, ?_, e3⟩
      · simp only [docInstrs, e1, a1]
        rfl
      · simp only [List.map_cons, e2, a2]

theorem globalArgs_args (as : List ArgInstruction) (f : FromInstruction) :
    globalArgs (as.map .arg ++ [.from f]) = as := by
  induction as with
  | nil => rfl
  | cons a as ih => simp only [List.map_cons, List.cons_append, globalArgs, ih]

theorem numberStages_args (n : Nat) (as : List ArgInstruction) (f : FromInstruction) :
    numberStages n (as.map .arg ++ [.from f]) = as.map .arg ++ [.from { f with index := n }] := by
  induction as with
  | nil => rfl
  | cons a as ih => simp only [List.map_cons, List.cons_append, numberStages, ih]

/-- names without repetitions: every value is in force -/
theorem grow_vars {as : List ArgInstruction} {ps : List (Char × Str)}
    (e : as.map (fun a => (a.name.content, a.value.map (·.content))) =
      ps.map (fun p => ([p.1], some p.2)))
    (hn : (ps.map (·.1)).Nodup) : ∀ p ∈ ps, argVars as [p.1] = some p.2 := by
  intro p hp
  refine (C30_variables _ _ _).2 ?_
  induction ps generalizing as with
  | nil => cases hp
  | cons q ps ih =>
    cases as with
    | nil => cases e
    | cons a as =>
      simp only [List.map_cons, List.cons.injEq, Prod.mk.injEq] at e
      obtain ⟨⟨e1, e2⟩, e3⟩ := e
      rw [List.map_cons, List.nodup_cons] at hn
      rcases List.mem_cons.1 hp with rfl | hp
      · cases hw : a.value with
        | none => rw [hw] at e2; cases e2
        | some w =>
          rw [hw] at e2
          refine ⟨[], a, as, w, rfl, e1, hw, by simpa using e2, ?_⟩
          intro b hb hbn
          have : (b.name.content, b.value.map (·.content)) ∈
              ps.map (fun p => ([p.1], some p.2)) := by
            rw [← e3]
            exact List.mem_map_of_mem hb
          obtain ⟨r, hr, hr'⟩ := List.mem_map.1 this
          have h1 := congrArg Prod.fst hr'
          simp only [hbn, List.cons.injEq, and_true] at h1
          exact absurd (List.mem_map.2 ⟨r, hr, h1⟩) hn.1
      · obtain ⟨pre, b, post, w, h1, h2⟩ := ih e3 hn.2 hp
        exact ⟨a :: pre, b, post, w, by rw [h1]; rfl, h2⟩

theorem growArgs_names (m : Nat) (cs : List Char) : (growArgs m cs).map (·.1) = cs := by
  induction cs with
  | nil => rfl
  | cons c cs ih => simp [growArgs, ih]

theorem refs_mem {c d : Char} {m : Nat} (h : d ∈ refs c m) : d = '$' ∨ d = c := by
  induction m with
  | zero => cases h
  | succ m ih =>
    rcases List.mem_cons.1 h with rfl | h
    · exact .inl rfl
    · rcases List.mem_cons.1 h with rfl | h
      · exact .inr rfl
      · exact ih h

theorem growValue_chars {m : Nat} (hm : 0 < m) {cs : List Char} (hc : ∀ c ∈ cs, IsAlpha c) :
    growValue m cs ≠ [] ∧ ∀ c ∈ growValue m cs, c = '$' ∨ IsAlpha c := by
  cases cs with
  | nil =>
    constructor
    · simp only [growValue, ne_eq, List.replicate_eq_nil_iff]
      omega
    · intro c h
      rw [(List.mem_replicate.1 h).2]
      exact .inr (by unfold IsAlpha; decide)
  | cons d cs =>
    constructor
    · cases m with
      | zero => omega
      | succ m => simp [growValue, refs]
    · intro c h
      rcases refs_mem h with rfl | rfl
      · exact .inl rfl
      · exact .inr (hc _ List.mem_cons_self)

theorem refs_size {c : Char} (hc : c.utf8Size = 1) (m : Nat) : blen (refs c m) = 2 * m := by
  induction m with
  | zero => rfl
  | succ m ih =>
    have e : ('$' : Char).utf8Size = 1 := rfl
    simp only [refs, blen, ih, hc, e]
    omega

theorem replicate_size (n : Nat) : blen (List.replicate n 'x') = n := by
  induction n with
  | zero => rfl
  | succ n ih =>
    have e : ('x' : Char).utf8Size = 1 := rfl
    simp only [List.replicate_succ, blen, ih, e]
    omega

theorem growValue_size {m : Nat} {cs : List Char} (hc : ∀ c ∈ cs, c.utf8Size = 1) :
    blen (growValue m cs) = 2 * m := by
  cases cs with
  | nil => exact replicate_size _
  | cons c cs => exact refs_size (hc c List.mem_cons_self) m

theorem growLines_size {m : Nat} (img : Str) {cs : List Char} (hc : ∀ c ∈ cs, c.utf8Size = 1) :
    blen (growLines img (growArgs m cs)) = cs.length * (2 * m + 7) + 5 + blen img := by
  induction cs with
  | nil =>
    have : blen c!"FROM " = 5 := rfl
    simp only [growArgs, growLines, blen_append, this, List.length_nil]
    omega
  | cons c cs ih =>
    have e1 : blen c!"ARG " = 4 := rfl
    have e2 : ('=' : Char).utf8Size = 1 := rfl
    have e3 : ('\n' : Char).utf8Size = 1 := rfl
    have h1 := ih fun d hd => hc d (List.mem_cons_of_mem _ hd)
    have h2 := growValue_size (m := m) fun d hd => hc d (List.mem_cons_of_mem c hd)
    have h3 := hc c List.mem_cons_self
    rw [growArgs, growLines, blen_append, e1]
    simp only [blen_append, blen, h1, h2, h3, e2, e3, List.length_cons, Nat.add_mul, Nat.one_mul]
    omega

/-! ### images without a digest -/

theorem digestOK_of_noAt {s : Str} (h : '@' ∉ s) : DigestOK (ImageRef.parse s) := by
  intro g hg
  refine absurd ?_ h
  have ht : (ImageRef.parse s).tag = none := by
    rcases C19_tag_hash_exclusive s with h' | h'
    · exact h'
    · rw [hg] at h'
      cases h'
  have e := C18_display_parse s
  rw [← e, ImageRef.display, hg, ht]
  simp

theorem growValue_ok {m : Nat} (hm : 0 < m) {cs : List Char} (hc : ∀ c ∈ cs, IsAlpha c) :
    ValueText (growValue m cs) ∧ ¬ StartsQuoted (growValue m cs) ∧ '@' ∉ growValue m cs ∧
      ∀ c ∈ growValue m cs, IsImageChar c := by
  obtain ⟨h1, h2⟩ := growValue_chars hm hc
  have key : ∀ x : Char, (x = '$' ∨ IsAlpha x) → x ≠ ' ' ∧ x ≠ '\t' ∧ x ≠ '\n' ∧ x ≠ '\r' ∧
      x ≠ '\\' ∧ x ≠ '"' ∧ x ≠ '\'' ∧ x ≠ '`' ∧ x ≠ '@' := by
    intro x hx
    unfold IsAlpha at hx
    refine ⟨?_, ?_, ?_, ?_, ?_, ?_, ?_, ?_, ?_⟩ <;> rintro rfl <;> revert hx <;> decide
  refine ⟨.inr ⟨⟨h1, ?_, ?_⟩, ?_⟩, ?_, ?_, ?_⟩
  · intro c hc
    have := key c (h2 c hc)
    exact ⟨this.1, this.2.1, this.2.2.1, this.2.2.2.1⟩
  · intro h
    exact (key _ (h2 _ (List.mem_of_getLast? h))).2.2.2.2.1 rfl
  · intro r
    constructor <;> intro h
    · exact (key _ (h2 _ (by rw [h]; exact List.mem_cons_self))).2.2.2.2.2.1 rfl
    · exact (key _ (h2 _ (by rw [h]; exact List.mem_cons_self))).2.2.2.2.2.2.1 rfl
  · rintro ⟨c, r, h, hq⟩
    have := key c (h2 c (by rw [h]; exact List.mem_cons_self))
    rcases hq with rfl | rfl | rfl
    · exact this.2.2.2.2.2.1 rfl
    · exact this.2.2.2.2.2.2.1 rfl
    · exact this.2.2.2.2.2.2.2.1 rfl
  · intro h
    exact (key _ (h2 _ h)).2.2.2.2.2.2.2.2 rfl
  · intro c hc
    rcases h2 c hc with rfl | h
    · simp [IsImageChar]
    · exact .inl h

theorem growArgs_mem {m : Nat} {cs : List Char} {p : Char × Str} (h : p ∈ growArgs m cs) :
    p.1 ∈ cs ∧ ∃ ds, (∀ d ∈ ds, d ∈ cs) ∧ p.2 = growValue m ds := by
  induction cs with
  | nil => cases h
  | cons c cs ih =>
    rcases List.mem_cons.1 h with rfl | h
    · exact ⟨List.mem_cons_self, cs, fun d hd => List.mem_cons_of_mem _ hd, rfl⟩
    · obtain ⟨h1, ds, h2, h3⟩ := ih h
      exact ⟨List.mem_cons_of_mem _ h1, ds, fun d hd => List.mem_cons_of_mem _ (h2 d hd), h3⟩

theorem from_two {unq : Unquote} {s : Str} {d : Dockerfile} (h : Dockerfile.parse unq s = .ok d)
    {f : FromInstruction} (hf : .from f ∈ d.instructions) : 2 ≤ blen s := by
  obtain ⟨t, h1, h2, -⟩ := C47_keyword unq s d h _ hf
  obtain ⟨a, c, r, rfl, e, -⟩ := h2 _ rfl
  have h3 := sliceOf_size h1
  have h4 := Enquote.blen_length a
  have h5 : a.length = 4 := by
    have := congrArg List.length e
    simpa [lower] using this
  simp only [blen_append] at h3
  omega

end Verif
