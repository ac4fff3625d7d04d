import Verif.Model.Machine
import Verif.Props.Regex
import Verif.Props.Parse
import Verif.Props.Loop

/-!
# Machine integers (C80)

Splicing, relative spans and substituting with the integers of a 64-bit target.
-/

namespace Verif
namespace Mach

/-! ## what machine integers stand for -/

/-- the values of `usize` and `isize` -/
def Span.val (sp : Span) : Verif.Span := ⟨sp.start.toNat, sp.stop.toNat⟩
def SpliceOffset.val (o : SpliceOffset) : Verif.SpliceOffset := ⟨o.position.toNat, o.offset.toInt⟩
def Splicer.val (s : Splicer) : Verif.Splicer := ⟨s.content, s.offsets.map SpliceOffset.val⟩

theorem toInt_cond (x : Int64) : x.toInt = if 2 * x.toUInt64.toNat < 2 ^ 64 then (x.toUInt64.toNat : Int) else (x.toUInt64.toNat : Int) - 2 ^ 64 := by
  have := BitVec.toInt_eq_toNat_cond x.toBitVec
  exact this

theorem toNat_lt (x : UInt64) : x.toNat < 2 ^ 64 := x.toBitVec.isLt

theorem toInt_range (x : Int64) : -2 ^ 63 ≤ x.toInt ∧ x.toInt < 2 ^ 63 := by
  have := toInt_cond x
  have := toNat_lt x.toUInt64
  split at * <;> omega

theorem asUsize_toInt (x : Int64) : x.toUInt64.toNat = asUsize x.toInt := by
  have := toInt_cond x
  have := toNat_lt x.toUInt64
  unfold asUsize
  split at * <;> split <;> omega

theorem toInt_toInt64 {x : UInt64} (h : x.toNat < 2 ^ 63) : x.toInt64.toInt = x.toNat := by
  have := toInt_cond x.toInt64
  rw [UInt64.toUInt64_toInt64] at this
  split at * <;> omega

theorem bmod_fits {x : Int} (h : fitsI x = true) : x.bmod (2 ^ 64) = x := by
  simp only [fitsI, Bool.and_eq_true, decide_eq_true_eq] at h
  rw [Int.bmod_def]
  split <;> omega

theorem addI_ok {a b : Int64} (m : Mode) (h : fitsI (a.toInt + b.toInt) = true) :
    ∃ c, addI m a b = some c ∧ c.toInt = a.toInt + b.toInt := by
  refine ⟨a + b, ?_, ?_⟩
  · cases m
    · simp only [addI, h, if_true]
    · rfl
  · rw [Int64.toInt_add, bmod_fits h]

theorem subI_ok {a b : Int64} (m : Mode) (h : fitsI (a.toInt - b.toInt) = true) :
    ∃ c, subI m a b = some c ∧ c.toInt = a.toInt - b.toInt := by
  refine ⟨a - b, ?_, ?_⟩
  · cases m
    · simp only [subI, h, if_true]
    · rfl
  · rw [Int64.toInt_sub, bmod_fits h]

theorem addU_ok {a b : UInt64} (m : Mode) (h : a.toNat + b.toNat < 2 ^ 64) :
    ∃ c, addU m a b = some c ∧ c.toNat = a.toNat + b.toNat := by
  refine ⟨a + b, ?_, ?_⟩
  · cases m
    · simp only [addU, h, if_true]
    · rfl
  · rw [UInt64.toNat_add, Nat.mod_eq_of_lt h]

theorem subU_ok {a b : UInt64} (m : Mode) (h : b.toNat ≤ a.toNat) :
    ∃ c, subU m a b = some c ∧ c.toNat = a.toNat - b.toNat := by
  refine ⟨a - b, ?_, ?_⟩
  · cases m
    · simp only [subU, h, if_true]
    · rfl
  · rw [UInt64.toNat_sub_of_le _ _ (UInt64.le_iff_toNat_le.2 h)]

theorem subU_wrap {a b c : UInt64} {m : Mode} (h : a.toNat < b.toNat) (e : subU m a b = some c) :
    c.toNat + b.toNat = a.toNat + 2 ^ 64 := by
  have := toNat_lt b
  have := toNat_lt a
  cases m
  · simp only [subU] at e
    rw [if_neg (by omega)] at e
    cases e
  · simp only [subU, Option.some.injEq] at e
    subst e
    rw [UInt64.toNat_sub]
    omega

theorem clamp_val (x : Int64) : (clamp x).toNat = if x.toInt < 0 then 0 else x.toInt.toNat := by
  unfold clamp
  have h : x < 0 ↔ x.toInt < 0 := by rw [Int64.lt_iff_toInt_lt]; rfl
  simp only [h]
  split
  · rfl
  · rw [asUsize_toInt, asUsize]; split <;> omega

/-! ## splicing -/

/-- the sums of the positive and of the negative offsets -/
def grown : List Verif.SpliceOffset → Nat
  | [] => 0
  | o :: os => o.offset.toNat + grown os
def shrunk : List Verif.SpliceOffset → Nat
  | [] => 0
  | o :: os => (-o.offset).toNat + shrunk os

theorem grown_concat (os : List Verif.SpliceOffset) (o : Verif.SpliceOffset) : grown (os ++ [o]) = grown os + o.offset.toNat := by
  induction os with
  | nil => simp [grown]
  | cons a os ih => simp only [List.cons_append, grown, ih]; omega

theorem shrunk_concat (os : List Verif.SpliceOffset) (o : Verif.SpliceOffset) : shrunk (os ++ [o]) = shrunk os + (-o.offset).toNat := by
  induction os with
  | nil => simp [shrunk]
  | cons a os ih => simp only [List.cons_append, shrunk, ih]; omega

theorem val_step (b : Int × Int) (o : SpliceOffset) : Verif.Span.adjustStep b o.val =
    if o.position.toNat < asUsize b.1 then (b.1 + o.offset.toInt, b.2 + o.offset.toInt)
    else if o.position.toNat < asUsize b.2 then (b.1, b.2 + o.offset.toInt)
    else b := rfl

theorem fold_ok (m : Mode) (os : List SpliceOffset) : ∀ b : Int64 × Int64,
    -2 ^ 63 ≤ b.1.toInt - shrunk (os.map SpliceOffset.val) → b.1.toInt + grown (os.map SpliceOffset.val) < 2 ^ 63 →
    -2 ^ 63 ≤ b.2.toInt - shrunk (os.map SpliceOffset.val) → b.2.toInt + grown (os.map SpliceOffset.val) < 2 ^ 63 →
    ∃ c, os.foldlM (adjustStep m) b = some c ∧
      (c.1.toInt, c.2.toInt) = (os.map SpliceOffset.val).foldl Verif.Span.adjustStep (b.1.toInt, b.2.toInt) := by
  induction os with
  | nil => intro b _ _ _ _; exact ⟨b, rfl, rfl⟩
  | cons o os ih =>
    intro b h1 h2 h3 h4
    simp only [List.map_cons, shrunk, grown, SpliceOffset.val] at h1 h2 h3 h4
    have hs : fitsI (b.1.toInt + o.offset.toInt) = true := by
      simp only [fitsI, Bool.and_eq_true, decide_eq_true_eq]; omega
    have he : fitsI (b.2.toInt + o.offset.toInt) = true := by
      simp only [fitsI, Bool.and_eq_true, decide_eq_true_eq]; omega
    obtain ⟨s, s1, s2⟩ := addI_ok m hs
    obtain ⟨e, e1, e2⟩ := addI_ok m he
    have c1 : o.position < b.1.toUInt64 ↔ o.position.toNat < asUsize b.1.toInt := by
      rw [UInt64.lt_iff_toNat_lt, asUsize_toInt]
    have c2 : o.position < b.2.toUInt64 ↔ o.position.toNat < asUsize b.2.toInt := by
      rw [UInt64.lt_iff_toNat_lt, asUsize_toInt]
    have key : ∃ c, adjustStep m b o = some c ∧
        (c.1.toInt, c.2.toInt) = Verif.Span.adjustStep (b.1.toInt, b.2.toInt) o.val ∧
        (c.1.toInt = b.1.toInt ∨ c.1.toInt = b.1.toInt + o.offset.toInt) ∧
        (c.2.toInt = b.2.toInt ∨ c.2.toInt = b.2.toInt + o.offset.toInt) := by
      simp only [val_step, adjustStep, c1, c2, s1, e1]
      by_cases p1 : o.position.toNat < asUsize b.1.toInt
      · simp only [if_pos p1]
        exact ⟨(s, e), rfl, by rw [s2, e2], .inr s2, .inr e2⟩
      · simp only [if_neg p1]
        by_cases p2 : o.position.toNat < asUsize b.2.toInt
        · simp only [if_pos p2]
          exact ⟨(b.1, e), rfl, by rw [e2], .inl rfl, .inr e2⟩
        · simp only [if_neg p2]
          exact ⟨b, rfl, rfl, .inl rfl, .inl rfl⟩
    obtain ⟨c, k1, k2, bound, bound'⟩ := key
    obtain ⟨d, d1, d2⟩ := ih c (by omega) (by omega) (by omega) (by omega)
    refine ⟨d, ?_, ?_⟩
    · rw [List.foldlM_cons, k1]; exact d1
    · rw [d2, List.map_cons, List.foldl_cons, k2]

theorem adjust_eq {sp : Verif.Span} {os : List Verif.SpliceOffset} {a b : Int}
    (h : os.foldl Verif.Span.adjustStep ((sp.start : Int), (sp.stop : Int)) = (a, b)) :
    sp.adjustOffsets os = ⟨if a < 0 then 0 else a.toNat, if b < 0 then 0 else b.toNat⟩ := by
  simp only [Verif.Span.adjustOffsets, h]

theorem splice_eq {s : Verif.Splicer} {sp : Verif.Span} {a b : Nat} (r : Str) (h : sp.adjustOffsets s.offsets = ⟨a, b⟩) :
    s.splice sp r =
      if b < a then none
      else
        match splitAtByte s.content a with
        | none => none
        | some (beginning, rest) =>
          match splitAtByte rest (b - a) with
          | none => none
          | some (_, «end») => some ⟨beginning ++ r ++ «end», s.offsets ++ [⟨a, (blen r : Int) - ((b - a : Nat) : Int)⟩]⟩ := by
  simp only [Verif.Splicer.splice, h]
  rfl

theorem adjust_ok (m : Mode) (sp : Span) (os : List SpliceOffset)
    (h1 : sp.start.toNat + grown (os.map SpliceOffset.val) < 2 ^ 63)
    (h2 : sp.stop.toNat + grown (os.map SpliceOffset.val) < 2 ^ 63) (h3 : shrunk (os.map SpliceOffset.val) < 2 ^ 63) :
    ∃ c, sp.adjustOffsets m os = some c ∧ c.val = sp.val.adjustOffsets (os.map SpliceOffset.val) := by
  have a1 := toInt_toInt64 (x := sp.start) (by omega)
  have a2 := toInt_toInt64 (x := sp.stop) (by omega)
  obtain ⟨c, c1, c2⟩ := fold_ok m os (sp.start.toInt64, sp.stop.toInt64) (by simp only; omega) (by simp only; omega)
    (by simp only; omega) (by simp only; omega)
  refine ⟨⟨clamp c.1, clamp c.2⟩, ?_, ?_⟩
  · simp only [Span.adjustOffsets, c1, Option.bind_eq_bind, Option.bind_some]
  · simp only [a1, a2] at c2
    rw [adjust_eq (show (os.map SpliceOffset.val).foldl Verif.Span.adjustStep ((sp.val.start : Int), (sp.val.stop : Int)) = _ from c2.symm)]
    simp only [Span.val, clamp_val]

/-- the length of a text after a splice -/
theorem splice_length {s s' : Verif.Splicer} {sp : Verif.Span} {r : Str} (h : s.splice sp r = some s') :
    ∃ o : Verif.SpliceOffset, s'.offsets = s.offsets ++ [o] ∧ (blen s'.content : Int) = blen s.content + o.offset ∧ o.offset ≤ blen r := by
  unfold Verif.Splicer.splice at h
  simp only at h
  split at h
  · cases h
  · split at h
    · cases h
    · next h1 =>
      split at h
      · cases h
      · next h2 =>
        cases h
        obtain ⟨e1, e2⟩ := splitAtByte_some h1
        obtain ⟨e3, e4⟩ := splitAtByte_some h2
        refine ⟨_, rfl, ?_, ?_⟩
        · simp only [e1, e3, blen_append]; omega
        · simp only; omega

theorem fold_le (os : List Verif.SpliceOffset) : ∀ b : Int × Int,
    (os.foldl Verif.Span.adjustStep b).1 ≤ b.1 + grown os ∧ (os.foldl Verif.Span.adjustStep b).2 ≤ b.2 + grown os := by
  induction os with
  | nil => intro b; simp [grown]
  | cons o os ih =>
    intro b
    obtain ⟨h1, h2⟩ := ih (Verif.Span.adjustStep b o)
    have : (Verif.Span.adjustStep b o).1 ≤ b.1 + o.offset.toNat ∧ (Verif.Span.adjustStep b o).2 ≤ b.2 + o.offset.toNat := by
      unfold Verif.Span.adjustStep
      split
      · simp only; omega
      · split
        · simp only; omega
        · omega
    simp only [List.foldl_cons, grown]
    omega

theorem adjust_le (sp : Verif.Span) (os : List Verif.SpliceOffset) :
    (sp.adjustOffsets os).start ≤ sp.start + grown os ∧ (sp.adjustOffsets os).stop ≤ sp.stop + grown os := by
  have := fold_le os (sp.start, sp.stop)
  rw [adjust_eq (a := (os.foldl Verif.Span.adjustStep (sp.start, sp.stop)).1) (b := (os.foldl Verif.Span.adjustStep (sp.start, sp.stop)).2) rfl]
  simp only at this ⊢
  constructor <;> split <;> omega

theorem splitAtByte_large {s : Str} {n : Nat} (h : blen s < n) : splitAtByte s n = none := by
  cases h1 : splitAtByte s n with
  | none => rfl
  | some x =>
    obtain ⟨a, b⟩ := x
    obtain ⟨e1, e2⟩ := splitAtByte_some h1
    rw [e1, blen_append] at h
    omega

theorem splice_ok (m : Mode) (s : Splicer) (sp : Span) (r : Str)
    (h1 : sp.start.toNat + grown s.val.offsets < 2 ^ 63) (h2 : sp.stop.toNat + grown s.val.offsets < 2 ^ 63)
    (h3 : shrunk s.val.offsets < 2 ^ 63) (h4 : blen r < 2 ^ 63) (h5 : blen s.content < 2 ^ 63) :
    (s.splice m sp r).map Splicer.val = s.val.splice sp.val r := by
  obtain ⟨c, c1, c2⟩ := adjust_ok m sp s.offsets h1 h2 h3
  have hle := adjust_le sp.val s.val.offsets
  have c2 : c.val = sp.val.adjustOffsets s.val.offsets := c2
  rw [← c2] at hle
  have hs : c.start.toNat < 2 ^ 63 := Nat.lt_of_le_of_lt hle.1 h1
  have he : c.stop.toNat < 2 ^ 63 := Nat.lt_of_le_of_lt hle.2 h2
  rw [splice_eq r (show sp.val.adjustOffsets s.val.offsets = ⟨c.start.toNat, c.stop.toNat⟩ from c2.symm)]
  unfold Splicer.splice
  simp only [c1, Option.bind_eq_bind, Option.bind_some]
  by_cases hlt : c.stop.toNat < c.start.toNat
  · rw [if_pos hlt]
    cases hu : subU m c.stop c.start with
    | none => rfl
    | some k =>
      have hk := subU_wrap hlt hu
      simp only [Option.bind_some]
      cases subI m (UInt64.ofNat (blen r)).toInt64 k.toInt64 with
      | none => rfl
      | some o =>
        simp only [Option.bind_some]
        cases hb : splitAtByte s.content c.start.toNat with
        | none => rfl
        | some x =>
          obtain ⟨a, b⟩ := x
          obtain ⟨e1, e2⟩ := splitAtByte_some hb
          simp only [Option.bind_some]
          rw [splitAtByte_large (s := b)]
          · rfl
          · rw [e1, blen_append] at h5; omega
  · rw [if_neg hlt]
    obtain ⟨k, k1, k2⟩ := subU_ok m (a := c.stop) (b := c.start) (by omega)
    have hr : (UInt64.ofNat (blen r)).toNat = blen r := by
      rw [UInt64.toNat_ofNat']; omega
    have hr' : (UInt64.ofNat (blen r)).toInt64.toInt = blen r := by
      rw [toInt_toInt64 (by omega), hr]
    have hk' : k.toInt64.toInt = k.toNat := toInt_toInt64 (by omega)
    obtain ⟨o, o1, o2⟩ := subI_ok m (a := (UInt64.ofNat (blen r)).toInt64) (b := k.toInt64) (by
      simp only [fitsI, Bool.and_eq_true, decide_eq_true_eq]
      omega)
    simp only [k1, o1, Option.bind_some, k2]
    rw [show s.val.content = s.content from rfl]
    cases hb : splitAtByte s.content c.start.toNat with
    | none => rfl
    | some x =>
      obtain ⟨a, b⟩ := x
      simp only [Option.bind_some]
      cases hc : splitAtByte b (c.stop.toNat - c.start.toNat) with
      | none => rfl
      | some y =>
        obtain ⟨u, v⟩ := y
        simp only [Option.bind_some, Option.map_some, Splicer.val, List.map_append, List.map_cons, List.map_nil,
          SpliceOffset.val, o2, hr', hk', k2]

/-- the sum of the lengths of all texts of a history -/
def total : List (Span × Str) → Nat
  | [] => 0
  | e :: es => blen e.2 + total es

theorem spliceAll_ok (m : Mode) (n : Nat) (es : List (Span × Str)) : ∀ s : Splicer,
    blen s.content + shrunk s.val.offsets = n + grown s.val.offsets → n + grown s.val.offsets + total es < 2 ^ 63 →
    (∀ e ∈ es, e.1.start.toNat + grown s.val.offsets + total es < 2 ^ 63 ∧
      e.1.stop.toNat + grown s.val.offsets + total es < 2 ^ 63) →
    (s.spliceAll m es).map Splicer.val = s.val.spliceAll (es.map fun e => (e.1.val, e.2)) := by
  induction es with
  | nil => intro s _ _ _; rfl
  | cons e es ih =>
    intro s h1 h2 h3
    obtain ⟨sp, r⟩ := e
    have he := h3 (sp, r) (by simp)
    simp only [total] at h2 h3 he
    have := splice_ok m s sp r (by omega) (by omega) (by omega) (by omega) (by omega)
    simp only [Splicer.spliceAll, List.map_cons, Verif.Splicer.spliceAll]
    rw [← this]
    cases hs : s.splice m sp r with
    | none => rfl
    | some s' =>
      rw [hs] at this
      obtain ⟨o, o1, o2, o3⟩ := splice_length this.symm
      have o2 : (blen s'.content : Int) = blen s.content + o.offset := o2
      have g := grown_concat s.val.offsets o
      have k := shrunk_concat s.val.offsets o
      rw [← o1] at g k
      simp only [Option.map_some]
      refine ih s' (by omega) (by omega) fun f hf => ?_
      have := h3 f (by simp [hf])
      omega

/-- **C80**, splicing: as long as the length of the text, and the numbers in the spans, stay below `2^63`
when the lengths of all new texts are added, splicing with machine integers gives what splicing with
integers gives, including the panics, in debug builds and in release builds. -/
theorem C80_splicing (m : Mode) (s : Str) (es : List (Span × Str)) (h : blen s + total es < 2 ^ 63)
    (hs : ∀ e ∈ es, e.1.start.toNat + total es < 2 ^ 63 ∧ e.1.stop.toNat + total es < 2 ^ 63) :
    ((Splicer.fromStr s).spliceAll m es).map Splicer.val =
      (Verif.Splicer.fromStr s).spliceAll (es.map fun e => (e.1.val, e.2)) :=
  spliceAll_ok m (blen s) es (Splicer.fromStr s) rfl h hs

example (m : Mode) : ((Splicer.fromStr c!"FROM a:1 as b").spliceAll m
      [(⟨5, 8⟩, c!"image:22"), (⟨12, 13⟩, [])]).map Splicer.val =
    (Verif.Splicer.fromStr c!"FROM a:1 as b").spliceAll [(⟨5, 8⟩, c!"image:22"), (⟨12, 13⟩, [])] :=
  C80_splicing m _ _ (by decide +kernel) (by decide +kernel)

/-- Specification: what becomes of a number in a span without earlier splices -/
def Clamped (x : UInt64) (n : Nat) : Prop := (x.toNat < 2 ^ 63 ∧ n = x.toNat) ∨ (2 ^ 63 ≤ x.toNat ∧ n = 0)

/-- **C80**, numbers from `2^63` on: they are negative as `isize`, and count as 0. -/
theorem C80_large (m : Mode) (s : Str) (sp : Span) (r : Str) (a b : Nat) (hs : blen s < 2 ^ 63) (hr : blen r < 2 ^ 63)
    (ha : Clamped sp.start a) (hb : Clamped sp.stop b) :
    ((Splicer.fromStr s).splice m sp r).map (·.content) =
      ((Verif.Splicer.fromStr s).splice ⟨a, b⟩ r).map (·.content) := by
  have key : ∀ {x : UInt64} {n : Nat}, Clamped x n → (clamp x.toInt64).toNat = n := by
    intro x n h
    have h1 := toInt_cond x.toInt64
    rw [UInt64.toUInt64_toInt64] at h1
    rw [clamp_val]
    have := toNat_lt x
    rcases h with ⟨h, rfl⟩ | ⟨h, rfl⟩
    · rw [if_pos (by omega)] at h1
      rw [h1, if_neg (by omega)]
      omega
    · rw [if_neg (by omega)] at h1
      rw [h1, if_pos (by omega)]
  have small : ∀ {x : UInt64} {n : Nat}, Clamped x n → n < 2 ^ 63 := by
    rintro x n (⟨h, rfl⟩ | ⟨h, rfl⟩) <;> omega
  have ea : clamp sp.start.toInt64 = UInt64.ofNat a := by
    rw [← UInt64.toNat_inj, key ha, UInt64.toNat_ofNat']; have := small ha; omega
  have eb : clamp sp.stop.toInt64 = UInt64.ofNat b := by
    rw [← UInt64.toNat_inj, key hb, UInt64.toNat_ofNat']; have := small hb; omega
  have na : (UInt64.ofNat a).toNat = a := by rw [UInt64.toNat_ofNat']; have := small ha; omega
  have nb : (UInt64.ofNat b).toNat = b := by rw [UInt64.toNat_ofNat']; have := small hb; omega
  have same : ∀ sp', clamp sp'.start.toInt64 = clamp sp.start.toInt64 → clamp sp'.stop.toInt64 = clamp sp.stop.toInt64 →
      (Splicer.fromStr s).splice m sp r = (Splicer.fromStr s).splice m sp' r := by
    intro sp' e1 e2
    simp only [Splicer.splice, Splicer.fromStr, Span.adjustOffsets, List.foldlM_nil, Option.pure_def, Option.bind_eq_bind,
      Option.bind_some, e1, e2]
  have small' : ∀ {n : Nat}, n < 2 ^ 63 → clamp (UInt64.ofNat n).toInt64 = UInt64.ofNat n := by
    intro n hn
    have e : (UInt64.ofNat n).toNat = n := by rw [UInt64.toNat_ofNat']; omega
    rw [← UInt64.toNat_inj, key (n := n), e]
    exact .inl ⟨by omega, e.symm⟩
  rw [same ⟨UInt64.ofNat a, UInt64.ofNat b⟩ (by rw [ea]; exact small' (small ha)) (by rw [eb]; exact small' (small hb))]
  have := splice_ok m (Splicer.fromStr s) ⟨UInt64.ofNat a, UInt64.ofNat b⟩ r
    (by have := small ha; simp only [na]; exact this) (by have := small hb; simp only [nb]; exact this) (by simp [Splicer.val, Splicer.fromStr, shrunk]) hr hs
  have e : (Splicer.fromStr s).val.splice (Span.val ⟨UInt64.ofNat a, UInt64.ofNat b⟩) r =
      (Verif.Splicer.fromStr s).splice ⟨a, b⟩ r := by
    simp only [Span.val, na, nb]
    rfl
  rw [← e, ← this, Option.map_map]
  rfl

example (m : Mode) : ((Splicer.fromStr c!"FROM a").splice m ⟨2 ^ 64 - 1, 4⟩ c!"x").map (·.content) =
    ((Verif.Splicer.fromStr c!"FROM a").splice ⟨0, 4⟩ c!"x").map (·.content) :=
  C80_large m _ _ _ 0 4 (by decide +kernel) (by decide +kernel) (.inr ⟨by decide +kernel, rfl⟩)
    (.inl ⟨by decide +kernel, by decide +kernel⟩)

/-! ## C21 with machine integers -/

/-- Specification: a range of a text (on boundaries of characters) -/
def Range (s : Str) (a b : Nat) : Prop :=
  a ≤ b ∧ (∃ x y, s = x ++ y ∧ blen x = a) ∧ (∃ x y, s = x ++ y ∧ blen x = b)

/-- the second part of C21 as it is stated: `splice` panics exactly if the span is no range of the text -/
def C21_panic_statement : Prop := ∀ (m : Mode) (s : Str) (sp : Span) (r : Str), blen s < 2 ^ 63 → blen r < 2 ^ 63 →
  ((Splicer.fromStr s).splice m sp r = none ↔ ¬ Range s sp.start.toNat sp.stop.toNat)

/-- C21 (panic), exactly: numbers from `2^63` on count as 0. -/
theorem C21_panic_exact (m : Mode) (s : Str) (sp : Span) (r : Str) (a b : Nat) (hs : blen s < 2 ^ 63) (hr : blen r < 2 ^ 63)
    (ha : Clamped sp.start a) (hb : Clamped sp.stop b) :
    (Splicer.fromStr s).splice m sp r = none ↔ ¬ Range s a b := by
  have h := C80_large m s sp r a b hs hr ha hb
  have h' := C21_panic_iff s ⟨a, b⟩ r
  refine Iff.trans ?_ h'
  cases h1 : (Splicer.fromStr s).splice m sp r <;> cases h2 : (Verif.Splicer.fromStr s).splice ⟨a, b⟩ r <;>
    simp [h1, h2] at h ⊢

example (m : Mode) : (Splicer.fromStr c!"aé").splice m ⟨2, 2 ^ 64 - 1⟩ c!"x" = none ↔ ¬ Range c!"aé" 2 0 :=
  C21_panic_exact m _ _ _ 2 0 (by decide +kernel) (by decide +kernel)
    (.inl ⟨by decide +kernel, by decide +kernel⟩) (.inr ⟨by decide +kernel, rfl⟩)

/-- C21 (panic) for numbers below `2^63`, as they are in all spans of documents.  Missing: larger
numbers, for which the statement is false (`C21_panic_negation`). -/
theorem C21_panic_partial (m : Mode) (s : Str) (sp : Span) (r : Str) (hs : blen s < 2 ^ 63) (hr : blen r < 2 ^ 63)
    (h1 : sp.start.toNat < 2 ^ 63) (h2 : sp.stop.toNat < 2 ^ 63) :
    (Splicer.fromStr s).splice m sp r = none ↔ ¬ Range s sp.start.toNat sp.stop.toNat :=
  C21_panic_exact m s sp r _ _ hs hr (.inl ⟨h1, rfl⟩) (.inl ⟨h2, rfl⟩)

example (m : Mode) : (Splicer.fromStr c!"aé").splice m ⟨1, 2⟩ c!"x" = none ↔ ¬ Range c!"aé" 1 2 :=
  C21_panic_partial m _ _ _ (by decide +kernel) (by decide +kernel) (by decide +kernel) (by decide +kernel)

/-- The span `(usize::MAX, usize::MAX)` does not panic: the text is put at the front. -/
theorem C21_panic_negation : ¬ C21_panic_statement := by
  intro h
  have h1 := (h .debug c!"FROM a" ⟨2 ^ 64 - 1, 2 ^ 64 - 1⟩ c!"x" (by decide) (by decide)).2 (by
    rintro ⟨-, ⟨x, y, e, hx⟩, -⟩
    have h2 := congrArg blen e
    rw [blen_append, hx] at h2
    have h3 : (UInt64.toNat (2 ^ 64 - 1)) = 18446744073709551615 := by decide +kernel
    have h4 : blen c!"FROM a" = 6 := by decide +kernel
    rw [h4] at h2
    simp only at h2
    omega)
  have h5 : ((Splicer.fromStr c!"FROM a").splice .debug ⟨2 ^ 64 - 1, 2 ^ 64 - 1⟩ c!"x").isSome = true := by decide +kernel
  rw [h1] at h5
  cases h5

example : Clamped (2 ^ 64 - 1) 0 ∧ Clamped 5 5 ∧ Range c!"FROM a" 5 6 :=
  ⟨.inr ⟨by decide +kernel, rfl⟩, .inl ⟨by decide +kernel, by decide +kernel⟩,
    by decide, ⟨c!"FROM ", c!"a", rfl, rfl⟩, ⟨c!"FROM a", [], rfl, rfl⟩⟩

/-! ## relative spans -/

theorem relLoop_ok (m : Mode) (start : UInt64) (bs : List UInt8) : ∀ (i lines off : UInt64),
    i.toNat + bs.length < 2 ^ 64 → lines.toNat ≤ i.toNat →
    ∃ a b, relLoop m start i bs lines off = some (a, b) ∧
      (a.toNat, b.toNat) = Verif.relLoop start.toNat i.toNat bs lines.toNat off.toNat := by
  induction bs with
  | nil => intro i lines off _ _; exact ⟨_, _, rfl, rfl⟩
  | cons c bs ih =>
    intro i lines off h1 h2
    simp only [List.length_cons] at h1
    have one : (1 : UInt64).toNat = 1 := rfl
    obtain ⟨i', e1, e2⟩ := addU_ok m (a := i) (b := 1) (by omega)
    obtain ⟨l', e3, e4⟩ := addU_ok m (a := lines) (b := 1) (by omega)
    rw [one] at e2 e4
    simp only [relLoop, Verif.relLoop, UInt64.toNat_inj]
    split
    · exact ⟨_, _, rfl, rfl⟩
    · simp only [e1, Option.bind_eq_bind, Option.bind_some]
      split
      · simp only [e3, Option.bind_some]
        obtain ⟨a, b, f1, f2⟩ := ih i' l' i' (by omega) (by omega)
        exact ⟨a, b, f1, by rw [f2, e2, e4]⟩
      · obtain ⟨a, b, f1, f2⟩ := ih i' lines off (by omega) (by omega)
        exact ⟨a, b, f1, by rw [f2, e2]⟩

theorem relative_eq {sp : Verif.Span} {d : Dockerfile} {l o : Nat} (h : Verif.relLoop sp.start 0 (bytes d.content) 0 0 = (l, o)) :
    sp.relativeSpan d = if sp.start < o then none else if sp.stop < sp.start then none
      else some (l, ⟨sp.start - o, sp.start - o + (sp.stop - sp.start)⟩) := by
  simp only [Verif.Span.relativeSpan, h]

/-- **C80**, `relative_span`: for a span that does not end before its start, there is no overflow, and
the result is that with natural numbers. -/
theorem C80_relative (m : Mode) (d : Dockerfile) (sp : Span) (hd : blen d.content < 2 ^ 63) (h : sp.start.toNat ≤ sp.stop.toNat) :
    (sp.relativeSpan m d.content).map (fun x => (x.1.toNat, x.2.val)) = sp.val.relativeSpan d := by
  have hb := bytes_length d.content
  obtain ⟨a, b, e1, e2⟩ := relLoop_ok m sp.start (bytes d.content) 0 0 0
    (by rw [hb]; simp only [UInt64.toNat_zero]; omega) (Nat.le_refl _)
  have hoff := C26_relative_span_total d sp.val h
  rw [relative_eq (l := a.toNat) (o := b.toNat) e2.symm] at hoff ⊢
  rw [show sp.val.start = sp.start.toNat from rfl, show sp.val.stop = sp.stop.toNat from rfl] at hoff ⊢
  by_cases h1 : sp.start.toNat < b.toNat
  · rw [if_pos h1] at hoff
    simp at hoff
  · rw [if_neg h1, if_neg (by omega)]
    have hle := toNat_lt sp.stop
    obtain ⟨u, u1, u2⟩ := subU_ok m (a := sp.start) (b := b) (by omega)
    obtain ⟨v, v1, v2⟩ := subU_ok m (a := sp.stop) (b := sp.start) (by omega)
    obtain ⟨w, w1, w2⟩ := addU_ok m (a := u) (b := v) (by omega)
    simp only [Span.relativeSpan, e1, u1, v1, w1, Option.bind_eq_bind, Option.bind_some, Option.map_some, u2, v2, w2, Span.val]

example (m : Mode) : ((⟨7, 12⟩ : Span).relativeSpan m c!"FROM\na\nRUN b").map (fun x => (x.1.toNat, x.2.val)) =
    (⟨7, 12⟩ : Span).val.relativeSpan ⟨c!"FROM\na\nRUN b", [], []⟩ :=
  C80_relative m ⟨c!"FROM\na\nRUN b", [], []⟩ ⟨7, 12⟩ (by decide +kernel) (by decide +kernel)

/-! ## the depth of `substitute` -/

/-- **C80**, the depth: with an `u8` it is what it is with a natural number. -/
theorem C80_depth (vars : VarMap) (d : UInt8) (s : Str) (used : List Str) :
    (Rx.pattern Rx.varText).map (fun v => substitute v vars d s used) = some (Verif.substitute vars d.toNat s used) := by
  rw [← Rx.C79_substitute vars d.toNat s used]
  congr 1
  funext v
  suffices h : ∀ n (d : UInt8), d.toNat = n → ∀ s used, substitute v vars d s used = Rx.substitute v vars n s used from h _ d rfl s used
  intro n
  induction n with
  | zero =>
    intro d hd s used
    have : d = 0 := UInt8.toNat_inj.1 hd
    subst this
    rw [substitute]
    rfl
  | succ n ih =>
    intro d hd s used
    have h0 : d ≠ 0 := by rintro rfl; cases hd
    have hp : (saturatingPred d).toNat = n := by
      have one : (1 : UInt8).toNat = 1 := rfl
      rw [saturatingPred, if_neg h0, UInt8.toNat_sub_of_le]
      · omega
      · rw [UInt8.le_iff_toNat_le]; omega
    rw [substitute, Rx.substitute, hd]
    congr 1
    funext s used
    rw [dif_neg h0]
    exact ih _ hp s used

/-! ## documents -/

/-- **C80**, documents: whatever is done to the spans of a document, as often and in whatever order, it
is the same with machine integers as long as the text and the new texts have less than `2^63` bytes
together. -/
theorem C80_document (m : Mode) (unq : Unquote) (s : Str) (d : Dockerfile) (h : Dockerfile.parse unq s = .ok d)
    (es : List (Span × Str)) (hes : ∀ e ∈ es, ∃ i ∈ d.instructions, e.1.val ∈ Spec.spansOf i) (hl : blen s + total es < 2 ^ 63) :
    ((Splicer.fromStr d.content).spliceAll m es).map Splicer.val =
      (Verif.Splicer.ofDockerfile d).spliceAll (es.map fun e => (e.1.val, e.2)) := by
  have hc : d.content = s := ((ens_parse unq s).ok_of h).1
  refine C80_splicing m d.content es (by rw [hc]; exact hl) fun e he => ?_
  obtain ⟨i, hi, hsp⟩ := hes e he
  obtain ⟨h1, h2⟩ := C04_span_bounds unq s d h i hi _ hsp
  rw [hc] at h2
  simp only [Span.val] at h1 h2
  omega

theorem index_lt (unq : Unquote) (s : Str) (d : Dockerfile) (h : Dockerfile.parse unq s = .ok d) (pre : List Instruction) :
    ∀ (i : Instruction) (post : List Instruction), d.instructions = pre ++ i :: post → pre.length < i.span.stop := by
  induction pre using snocInd with
  | nil =>
    intro i post e
    have := C04_span_bounds unq s d h i (by simp [e]) i.span (List.mem_cons_self ..)
    simp only [List.length_nil]; omega
  | snoc pre j ih =>
    intro i post e
    have e' : d.instructions = pre ++ j :: ([] ++ i :: post) := by rw [e]; simp
    have h1 := ih j _ e'
    have h2 := C05_instructions_in_order unq s d h pre [] post j i e'
    have h3 := C04_span_bounds unq s d h i (by simp [e]) i.span (List.mem_cons_self ..)
    simp only [List.length_append, List.length_singleton]; omega

/-- **C80**, counting: a document has not more instructions than bytes, so that indices of FROMs, stages
and instructions fit. -/
theorem C80_counts (unq : Unquote) (s : Str) (d : Dockerfile) (h : Dockerfile.parse unq s = .ok d) :
    d.instructions.length ≤ blen s ∧ ∀ f, .from f ∈ d.instructions → f.index < blen s := by
  have hc : d.content = s := ((ens_parse unq s).ok_of h).1
  have key : ∀ pre i post, d.instructions = pre ++ i :: post → pre.length < blen s := by
    intro pre i post e
    have h1 := index_lt unq s d h pre i post e
    have h2 := C04_span_bounds unq s d h i (by simp [e]) i.span (List.mem_cons_self ..)
    rw [hc] at h2
    omega
  constructor
  · cases hl : d.instructions.reverse with
    | nil => simp only [List.reverse_eq_nil_iff] at hl; simp [hl]
    | cons i l =>
      have e : d.instructions = l.reverse ++ i :: [] := by
        rw [← List.reverse_reverse d.instructions, hl]; simp
      have := key _ _ _ e
      rw [e]
      simp only [List.length_append, List.length_singleton]; omega
  · intro f hf
    obtain ⟨pre, post, e⟩ := List.append_of_mem hf
    have h1 := key _ _ _ e
    rw [C10_from_index unq s d h pre post f e]
    exact Nat.lt_of_le_of_lt List.countP_le_length h1

/-! ## examples -/

example (m : Mode) : ((Splicer.fromStr c!"FROM a:1 as b").spliceAll m
    [(⟨5, 8⟩, c!"image:22"), (⟨12, 13⟩, []), (⟨5, 8⟩, c!"x")]).map (·.content) = some c!"FROM x as " := by
  cases m <;> decide +kernel

/-- the spans of a document: the image and the alias -/
example : (Dockerfile.parse Enquote.unquote c!"FROM a:1 as b").toOption.map (fun d => d.instructions.flatMap Spec.spansOf) =
    some [⟨0, 13⟩, ⟨5, 8⟩, ⟨12, 13⟩] := by decide +kernel

/-- a span at the end of all numbers: `Model/Splicer` says that this panics; but the numbers are -1 as
`isize`, and the text is put at the front -/
theorem C80_front (m : Mode) : (((Splicer.fromStr c!"FROM a").splice m ⟨2 ^ 64 - 1, 2 ^ 64 - 1⟩ c!"x").map (·.content)) =
      some c!"xFROM a" ∧
    (Verif.Splicer.fromStr c!"FROM a").splice (Span.val ⟨2 ^ 64 - 1, 2 ^ 64 - 1⟩) c!"x" = none := by
  cases m <;> decide +kernel

/-- a span that ends before its start: a release build does not notice -/
theorem C80_backwards : (Span.relativeSpan .release ⟨6, 3⟩ c!"FROM\na\nRUN b") = some (1, ⟨1, 2 ^ 64 - 2⟩) ∧
    (Span.relativeSpan .debug ⟨6, 3⟩ c!"FROM\na\nRUN b") = none := by
  decide +kernel

example (m : Mode) : (Span.relativeSpan m ⟨7, 12⟩ c!"FROM\na\nRUN b") = some (2, ⟨0, 5⟩) := by
  cases m <;> decide +kernel

example : (saturatingPred 16, saturatingPred 0, (saturatingPred 255).toNat) = (15, 0, 254) := by decide

end Mach
end Verif
