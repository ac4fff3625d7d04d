import Verif.Model.Machine32
import Verif.Props.Machine
import Verif.Props.Regex
import Verif.Props.Parse
import Verif.Props.Loop

/-!
# Machine integers of 32-bit targets (C87)

Splicing, relative spans and substituting with the integers of a 32-bit target.
-/

namespace Verif
namespace Mach32
open Mach

/-! ## what machine integers stand for -/

/-- the values of `usize` and `isize` -/
def Span.val (sp : Span) : Verif.Span := ⟨sp.start.toNat, sp.stop.toNat⟩
def SpliceOffset.val (o : SpliceOffset) : Verif.SpliceOffset := ⟨o.position.toNat, o.offset.toInt⟩
def Splicer.val (s : Splicer) : Verif.Splicer := ⟨s.content, s.offsets.map SpliceOffset.val⟩

theorem toInt_cond (x : Int32) : x.toInt = if 2 * x.toUInt32.toNat < 2 ^ 32 then (x.toUInt32.toNat : Int) else (x.toUInt32.toNat : Int) - 2 ^ 32 := by
  have := BitVec.toInt_eq_toNat_cond x.toBitVec
  exact this

theorem toNat_lt (x : UInt32) : x.toNat < 2 ^ 32 := x.toBitVec.isLt

theorem toInt_range (x : Int32) : -2 ^ 31 ≤ x.toInt ∧ x.toInt < 2 ^ 31 := by
  have := toInt_cond x
  have := toNat_lt x.toUInt32
  split at * <;> omega

/-- `as usize` for 32 bits -/
def asUsize32 (x : Int) : Nat := if x < 0 then (x + 2 ^ 32).toNat else x.toNat

theorem low_asUsize {p : Nat} {x : Int} (hp : p < 2 ^ 31) (hx : -2 ^ 31 ≤ x) : p < asUsize32 x ↔ p < asUsize x := by
  unfold asUsize32 asUsize
  split <;> omega

theorem asUsize_toInt (x : Int32) : x.toUInt32.toNat = asUsize32 x.toInt := by
  have := toInt_cond x
  have := toNat_lt x.toUInt32
  unfold asUsize32
  split at * <;> split <;> omega

theorem toInt_toInt32 {x : UInt32} (h : x.toNat < 2 ^ 31) : x.toInt32.toInt = x.toNat := by
  have := toInt_cond x.toInt32
  rw [UInt32.toUInt32_toInt32] at this
  split at * <;> omega

theorem bmod_fits {x : Int} (h : fitsI x = true) : x.bmod (2 ^ 32) = x := by
  simp only [fitsI, Bool.and_eq_true, decide_eq_true_eq] at h
  rw [Int.bmod_def]
  split <;> omega

theorem addI_ok {a b : Int32} (m : Mode) (h : fitsI (a.toInt + b.toInt) = true) :
    ∃ c, addI m a b = some c ∧ c.toInt = a.toInt + b.toInt := by
  refine ⟨a + b, ?_, ?_⟩
  · cases m
    · simp only [addI, h, if_true]
    · rfl
  · rw [Int32.toInt_add, bmod_fits h]

theorem subI_ok {a b : Int32} (m : Mode) (h : fitsI (a.toInt - b.toInt) = true) :
    ∃ c, subI m a b = some c ∧ c.toInt = a.toInt - b.toInt := by
  refine ⟨a - b, ?_, ?_⟩
  · cases m
    · simp only [subI, h, if_true]
    · rfl
  · rw [Int32.toInt_sub, bmod_fits h]

theorem addU_ok {a b : UInt32} (m : Mode) (h : a.toNat + b.toNat < 2 ^ 32) :
    ∃ c, addU m a b = some c ∧ c.toNat = a.toNat + b.toNat := by
  refine ⟨a + b, ?_, ?_⟩
  · cases m
    · simp only [addU, h, if_true]
    · rfl
  · rw [UInt32.toNat_add, Nat.mod_eq_of_lt h]

theorem subU_ok {a b : UInt32} (m : Mode) (h : b.toNat ≤ a.toNat) :
    ∃ c, subU m a b = some c ∧ c.toNat = a.toNat - b.toNat := by
  refine ⟨a - b, ?_, ?_⟩
  · cases m
    · simp only [subU, h, if_true]
    · rfl
  · rw [UInt32.toNat_sub_of_le _ _ (UInt32.le_iff_toNat_le.2 h)]

theorem subU_wrap {a b c : UInt32} {m : Mode} (h : a.toNat < b.toNat) (e : subU m a b = some c) :
    c.toNat + b.toNat = a.toNat + 2 ^ 32 := by
  have := toNat_lt b
  have := toNat_lt a
  cases m
  · simp only [subU] at e
    rw [if_neg (by omega)] at e
    cases e
  · simp only [subU, Option.some.injEq] at e
    subst e
    rw [UInt32.toNat_sub]
    omega

theorem clamp_val (x : Int32) : (clamp x).toNat = if x.toInt < 0 then 0 else x.toInt.toNat := by
  unfold clamp
  have h : x < 0 ↔ x.toInt < 0 := by rw [Int32.lt_iff_toInt_lt]; rfl
  simp only [h]
  split
  · rfl
  · rw [asUsize_toInt, asUsize32]; split <;> omega

theorem clamp_lt (x : Int32) : (clamp x).toNat < 2 ^ 31 := by
  have := toInt_range x
  rw [clamp_val]
  split <;> omega

/-! ## splicing -/

theorem val_step (b : Int × Int) (o : SpliceOffset) : Verif.Span.adjustStep b o.val =
    if o.position.toNat < asUsize b.1 then (b.1 + o.offset.toInt, b.2 + o.offset.toInt)
    else if o.position.toNat < asUsize b.2 then (b.1, b.2 + o.offset.toInt)
    else b := rfl

/-- all positions are less than `2^31` -/
def Low (os : List SpliceOffset) : Prop := ∀ o ∈ os, o.position.toNat < 2 ^ 31

theorem fold_ok (m : Mode) (os : List SpliceOffset) (hp : Low os) : ∀ b : Int32 × Int32,
    -2 ^ 31 ≤ b.1.toInt - shrunk (os.map SpliceOffset.val) → b.1.toInt + grown (os.map SpliceOffset.val) < 2 ^ 31 →
    -2 ^ 31 ≤ b.2.toInt - shrunk (os.map SpliceOffset.val) → b.2.toInt + grown (os.map SpliceOffset.val) < 2 ^ 31 →
    ∃ c, os.foldlM (adjustStep m) b = some c ∧
      (c.1.toInt, c.2.toInt) = (os.map SpliceOffset.val).foldl Verif.Span.adjustStep (b.1.toInt, b.2.toInt) := by
  induction os with
  | nil => intro b _ _ _ _; exact ⟨b, rfl, rfl⟩
  | cons o os ih =>
    intro b h1 h2 h3 h4
    simp only [List.map_cons, shrunk, grown, SpliceOffset.val] at h1 h2 h3 h4
    have hs : fitsI (b.1.toInt + o.offset.toInt) = true := by
      simp only [fitsI, Bool.and_eq_true, decide_eq_true_eq]; omega
    have he : fitsI (b.2.toInt + o.offset.toInt) = true := by
      simp only [fitsI, Bool.and_eq_true, decide_eq_true_eq]; omega
    obtain ⟨s, s1, s2⟩ := addI_ok m hs
    obtain ⟨e, e1, e2⟩ := addI_ok m he
    have ho := hp o List.mem_cons_self
    replace ih := ih fun x hx => hp x (List.mem_cons_of_mem _ hx)
    have c1 : o.position < b.1.toUInt32 ↔ o.position.toNat < asUsize b.1.toInt := by
      rw [UInt32.lt_iff_toNat_lt, asUsize_toInt, low_asUsize ho (by omega)]
    have c2 : o.position < b.2.toUInt32 ↔ o.position.toNat < asUsize b.2.toInt := by
      rw [UInt32.lt_iff_toNat_lt, asUsize_toInt, low_asUsize ho (by omega)]
    have key : ∃ c, adjustStep m b o = some c ∧
        (c.1.toInt, c.2.toInt) = Verif.Span.adjustStep (b.1.toInt, b.2.toInt) o.val ∧
        (c.1.toInt = b.1.toInt ∨ c.1.toInt = b.1.toInt + o.offset.toInt) ∧
        (c.2.toInt = b.2.toInt ∨ c.2.toInt = b.2.toInt + o.offset.toInt) := by
      simp only [val_step, adjustStep, c1, c2, s1, e1]
      by_cases p1 : o.position.toNat < asUsize b.1.toInt
      · simp only [if_pos p1]
        exact ⟨(s, e), rfl, by rw [s2, e2], .inr s2, .inr e2⟩
      · simp only [if_neg p1]
        by_cases p2 : o.position.toNat < asUsize b.2.toInt
        · simp only [if_pos p2]
          exact ⟨(b.1, e), rfl, by rw [e2], .inl rfl, .inr e2⟩
        · simp only [if_neg p2]
          exact ⟨b, rfl, rfl, .inl rfl, .inl rfl⟩
    obtain ⟨c, k1, k2, bound, bound'⟩ := key
    obtain ⟨d, d1, d2⟩ := ih c (by omega) (by omega) (by omega) (by omega)
    refine ⟨d, ?_, ?_⟩
    · rw [List.foldlM_cons, k1]; exact d1
    · rw [d2, List.map_cons, List.foldl_cons, k2]

theorem adjust_ok (m : Mode) (sp : Span) (os : List SpliceOffset) (hp : Low os)
    (h1 : sp.start.toNat + grown (os.map SpliceOffset.val) < 2 ^ 31)
    (h2 : sp.stop.toNat + grown (os.map SpliceOffset.val) < 2 ^ 31) (h3 : shrunk (os.map SpliceOffset.val) < 2 ^ 31) :
    ∃ c, sp.adjustOffsets m os = some c ∧ c.val = sp.val.adjustOffsets (os.map SpliceOffset.val) := by
  have a1 := toInt_toInt32 (x := sp.start) (by omega)
  have a2 := toInt_toInt32 (x := sp.stop) (by omega)
  obtain ⟨c, c1, c2⟩ := fold_ok m os hp (sp.start.toInt32, sp.stop.toInt32) (by simp only; omega) (by simp only; omega)
    (by simp only; omega) (by simp only; omega)
  refine ⟨⟨clamp c.1, clamp c.2⟩, ?_, ?_⟩
  · simp only [Span.adjustOffsets, c1, Option.bind_eq_bind, Option.bind_some]
  · simp only [a1, a2] at c2
    rw [adjust_eq (show (os.map SpliceOffset.val).foldl Verif.Span.adjustStep ((sp.val.start : Int), (sp.val.stop : Int)) = _ from c2.symm)]
    simp only [Span.val, clamp_val]

theorem splice_ok (m : Mode) (s : Splicer) (sp : Span) (r : Str) (hp : Low s.offsets)
    (h1 : sp.start.toNat + grown s.val.offsets < 2 ^ 31) (h2 : sp.stop.toNat + grown s.val.offsets < 2 ^ 31)
    (h3 : shrunk s.val.offsets < 2 ^ 31) (h4 : blen r < 2 ^ 31) (h5 : blen s.content < 2 ^ 31) :
    (s.splice m sp r).map Splicer.val = s.val.splice sp.val r := by
  obtain ⟨c, c1, c2⟩ := adjust_ok m sp s.offsets hp h1 h2 h3
  have hle := adjust_le sp.val s.val.offsets
  have c2 : c.val = sp.val.adjustOffsets s.val.offsets := c2
  rw [← c2] at hle
  have hs : c.start.toNat < 2 ^ 31 := Nat.lt_of_le_of_lt hle.1 h1
  have he : c.stop.toNat < 2 ^ 31 := Nat.lt_of_le_of_lt hle.2 h2
  rw [splice_eq r (show sp.val.adjustOffsets s.val.offsets = ⟨c.start.toNat, c.stop.toNat⟩ from c2.symm)]
  unfold Splicer.splice
  simp only [c1, Option.bind_eq_bind, Option.bind_some]
  by_cases hlt : c.stop.toNat < c.start.toNat
  · rw [if_pos hlt]
    cases hu : subU m c.stop c.start with
    | none => rfl
    | some k =>
      have hk := subU_wrap hlt hu
      simp only [Option.bind_some]
      cases subI m (UInt32.ofNat (blen r)).toInt32 k.toInt32 with
      | none => rfl
      | some o =>
        simp only [Option.bind_some]
        cases hb : splitAtByte s.content c.start.toNat with
        | none => rfl
        | some x =>
          obtain ⟨a, b⟩ := x
          obtain ⟨e1, e2⟩ := splitAtByte_some hb
          simp only [Option.bind_some]
          rw [splitAtByte_large (s := b)]
          · rfl
          · rw [e1, blen_append] at h5; omega
  · rw [if_neg hlt]
    obtain ⟨k, k1, k2⟩ := subU_ok m (a := c.stop) (b := c.start) (by omega)
    have hr : (UInt32.ofNat (blen r)).toNat = blen r := by
      rw [UInt32.toNat_ofNat']; omega
    have hr' : (UInt32.ofNat (blen r)).toInt32.toInt = blen r := by
      rw [toInt_toInt32 (by omega), hr]
    have hk' : k.toInt32.toInt = k.toNat := toInt_toInt32 (by omega)
    obtain ⟨o, o1, o2⟩ := subI_ok m (a := (UInt32.ofNat (blen r)).toInt32) (b := k.toInt32) (by
      simp only [fitsI, Bool.and_eq_true, decide_eq_true_eq]
      omega)
    simp only [k1, o1, Option.bind_some, k2]
    rw [show s.val.content = s.content from rfl]
    cases hb : splitAtByte s.content c.start.toNat with
    | none => rfl
    | some x =>
      obtain ⟨a, b⟩ := x
      simp only [Option.bind_some]
      cases hc : splitAtByte b (c.stop.toNat - c.start.toNat) with
      | none => rfl
      | some y =>
        obtain ⟨u, v⟩ := y
        simp only [Option.bind_some, Option.map_some, Splicer.val, List.map_append, List.map_cons, List.map_nil,
          SpliceOffset.val, o2, hr', hk', k2]

theorem splice_low {m : Mode} {s s' : Splicer} {sp : Span} {r : Str} (h0 : Low s.offsets)
    (h : s.splice m sp r = some s') : Low s'.offsets := by
  simp only [Splicer.splice, Span.adjustOffsets, Option.bind_eq_bind, Option.bind_eq_some_iff] at h
  obtain ⟨c, ⟨b, -, hc⟩, -, -, o, -, x, -, -, -, y, -, e⟩ := h
  cases hc
  cases e
  intro q hq
  rcases List.mem_append.1 hq with hq | hq
  · exact h0 q hq
  · rw [List.mem_singleton] at hq
    subst hq
    exact clamp_lt _

/-- the sum of the lengths of all texts of a history -/
def total : List (Span × Str) → Nat
  | [] => 0
  | e :: es => blen e.2 + total es

theorem spliceAll_ok (m : Mode) (n : Nat) (es : List (Span × Str)) : ∀ s : Splicer, Low s.offsets →
    blen s.content + shrunk s.val.offsets = n + grown s.val.offsets → n + grown s.val.offsets + total es < 2 ^ 31 →
    (∀ e ∈ es, e.1.start.toNat + grown s.val.offsets + total es < 2 ^ 31 ∧
      e.1.stop.toNat + grown s.val.offsets + total es < 2 ^ 31) →
    (s.spliceAll m es).map Splicer.val = s.val.spliceAll (es.map fun e => (e.1.val, e.2)) := by
  induction es with
  | nil => intro s _ _ _ _; rfl
  | cons e es ih =>
    intro s h0 h1 h2 h3
    obtain ⟨sp, r⟩ := e
    have he := h3 (sp, r) (by simp)
    simp only [total] at h2 h3 he
    have := splice_ok m s sp r h0 (by omega) (by omega) (by omega) (by omega) (by omega)
    simp only [Splicer.spliceAll, List.map_cons, Verif.Splicer.spliceAll]
    rw [← this]
    cases hs : s.splice m sp r with
    | none => rfl
    | some s' =>
      rw [hs] at this
      obtain ⟨o, o1, o2, o3⟩ := splice_length this.symm
      have o2 : (blen s'.content : Int) = blen s.content + o.offset := o2
      have g := grown_concat s.val.offsets o
      have k := shrunk_concat s.val.offsets o
      rw [← o1] at g k
      simp only [Option.map_some]
      refine ih s' (splice_low h0 hs) (by omega) (by omega) fun f hf => ?_
      have := h3 f (by simp [hf])
      omega

/-- **C87**, splicing: as long as the length of the text, and the numbers in the spans, stay below `2^31`
when the lengths of all new texts are added, splicing with machine integers gives what splicing with
integers gives, including the panics, in debug builds and in release builds. -/
theorem C87_splicing (m : Mode) (s : Str) (es : List (Span × Str)) (h : blen s + total es < 2 ^ 31)
    (hs : ∀ e ∈ es, e.1.start.toNat + total es < 2 ^ 31 ∧ e.1.stop.toNat + total es < 2 ^ 31) :
    ((Splicer.fromStr s).spliceAll m es).map Splicer.val =
      (Verif.Splicer.fromStr s).spliceAll (es.map fun e => (e.1.val, e.2)) :=
  spliceAll_ok m (blen s) es (Splicer.fromStr s) (by intro o ho; cases ho) rfl h hs

/-- Specification: what becomes of a number in a span without earlier splices -/
def Clamped (x : UInt32) (n : Nat) : Prop := (x.toNat < 2 ^ 31 ∧ n = x.toNat) ∨ (2 ^ 31 ≤ x.toNat ∧ n = 0)

/-- **C87**, numbers from `2^31` on: they are negative as `isize`, and count as 0. -/
theorem C87_large (m : Mode) (s : Str) (sp : Span) (r : Str) (a b : Nat) (hs : blen s < 2 ^ 31) (hr : blen r < 2 ^ 31)
    (ha : Clamped sp.start a) (hb : Clamped sp.stop b) :
    ((Splicer.fromStr s).splice m sp r).map (·.content) =
      ((Verif.Splicer.fromStr s).splice ⟨a, b⟩ r).map (·.content) := by
  have key : ∀ {x : UInt32} {n : Nat}, Clamped x n → (clamp x.toInt32).toNat = n := by
    intro x n h
    have h1 := toInt_cond x.toInt32
    rw [UInt32.toUInt32_toInt32] at h1
    rw [clamp_val]
    have := toNat_lt x
    rcases h with ⟨h, rfl⟩ | ⟨h, rfl⟩
    · rw [if_pos (by omega)] at h1
      rw [h1, if_neg (by omega)]
      omega
    · rw [if_neg (by omega)] at h1
      rw [h1, if_pos (by omega)]
  have small : ∀ {x : UInt32} {n : Nat}, Clamped x n → n < 2 ^ 31 := by
    rintro x n (⟨h, rfl⟩ | ⟨h, rfl⟩) <;> omega
  have ea : clamp sp.start.toInt32 = UInt32.ofNat a := by
    rw [← UInt32.toNat_inj, key ha, UInt32.toNat_ofNat']; have := small ha; omega
  have eb : clamp sp.stop.toInt32 = UInt32.ofNat b := by
    rw [← UInt32.toNat_inj, key hb, UInt32.toNat_ofNat']; have := small hb; omega
  have na : (UInt32.ofNat a).toNat = a := by rw [UInt32.toNat_ofNat']; have := small ha; omega
  have nb : (UInt32.ofNat b).toNat = b := by rw [UInt32.toNat_ofNat']; have := small hb; omega
  have same : ∀ sp', clamp sp'.start.toInt32 = clamp sp.start.toInt32 → clamp sp'.stop.toInt32 = clamp sp.stop.toInt32 →
      (Splicer.fromStr s).splice m sp r = (Splicer.fromStr s).splice m sp' r := by
    intro sp' e1 e2
    simp only [Splicer.splice, Splicer.fromStr, Span.adjustOffsets, List.foldlM_nil, Option.pure_def, Option.bind_eq_bind,
      Option.bind_some, e1, e2]
  have small' : ∀ {n : Nat}, n < 2 ^ 31 → clamp (UInt32.ofNat n).toInt32 = UInt32.ofNat n := by
    intro n hn
    have e : (UInt32.ofNat n).toNat = n := by rw [UInt32.toNat_ofNat']; omega
    rw [← UInt32.toNat_inj, key (n := n), e]
    exact .inl ⟨by omega, e.symm⟩
  rw [same ⟨UInt32.ofNat a, UInt32.ofNat b⟩ (by rw [ea]; exact small' (small ha)) (by rw [eb]; exact small' (small hb))]
  have := splice_ok m (Splicer.fromStr s) ⟨UInt32.ofNat a, UInt32.ofNat b⟩ r (by intro o ho; cases ho)
    (by have := small ha; simp only [na]; exact this) (by have := small hb; simp only [nb]; exact this) (by simp [Splicer.val, Splicer.fromStr, shrunk]) hr hs
  have e : (Splicer.fromStr s).val.splice (Span.val ⟨UInt32.ofNat a, UInt32.ofNat b⟩) r =
      (Verif.Splicer.fromStr s).splice ⟨a, b⟩ r := by
    simp only [Span.val, na, nb]
    rfl
  rw [← e, ← this, Option.map_map]
  rfl

/-! ## panics -/

/-- Specification: a range of a text (on boundaries of characters) -/
def Range (s : Str) (a b : Nat) : Prop :=
  a ≤ b ∧ (∃ x y, s = x ++ y ∧ blen x = a) ∧ (∃ x y, s = x ++ y ∧ blen x = b)

/-- **C87**, panics of `splice` (C21) exactly: numbers from `2^31` on count as 0. -/
theorem C87_panic (m : Mode) (s : Str) (sp : Span) (r : Str) (a b : Nat) (hs : blen s < 2 ^ 31) (hr : blen r < 2 ^ 31)
    (ha : Clamped sp.start a) (hb : Clamped sp.stop b) :
    (Splicer.fromStr s).splice m sp r = none ↔ ¬ Range s a b := by
  have h := C87_large m s sp r a b hs hr ha hb
  have h' := C21_panic_iff s ⟨a, b⟩ r
  refine Iff.trans ?_ h'
  cases h1 : (Splicer.fromStr s).splice m sp r <;> cases h2 : (Verif.Splicer.fromStr s).splice ⟨a, b⟩ r <;>
    simp [h1, h2] at h ⊢

example : Clamped (2 ^ 32 - 1) 0 ∧ Clamped 5 5 ∧ Range c!"FROM a" 5 6 :=
  ⟨.inr ⟨by decide +kernel, rfl⟩, .inl ⟨by decide +kernel, by decide +kernel⟩,
    by decide, ⟨c!"FROM ", c!"a", rfl, rfl⟩, ⟨c!"FROM a", [], rfl, rfl⟩⟩

/-! ## relative spans -/

theorem relLoop_ok (m : Mode) (start : UInt32) (bs : List UInt8) : ∀ (i lines off : UInt32),
    i.toNat + bs.length < 2 ^ 32 → lines.toNat ≤ i.toNat →
    ∃ a b, relLoop m start i bs lines off = some (a, b) ∧
      (a.toNat, b.toNat) = Verif.relLoop start.toNat i.toNat bs lines.toNat off.toNat := by
  induction bs with
  | nil => intro i lines off _ _; exact ⟨_, _, rfl, rfl⟩
  | cons c bs ih =>
    intro i lines off h1 h2
    simp only [List.length_cons] at h1
    have one : (1 : UInt32).toNat = 1 := rfl
    obtain ⟨i', e1, e2⟩ := addU_ok m (a := i) (b := 1) (by omega)
    obtain ⟨l', e3, e4⟩ := addU_ok m (a := lines) (b := 1) (by omega)
    rw [one] at e2 e4
    simp only [relLoop, Verif.relLoop, UInt32.toNat_inj]
    split
    · exact ⟨_, _, rfl, rfl⟩
    · simp only [e1, Option.bind_eq_bind, Option.bind_some]
      split
      · simp only [e3, Option.bind_some]
        obtain ⟨a, b, f1, f2⟩ := ih i' l' i' (by omega) (by omega)
        exact ⟨a, b, f1, by rw [f2, e2, e4]⟩
      · obtain ⟨a, b, f1, f2⟩ := ih i' lines off (by omega) (by omega)
        exact ⟨a, b, f1, by rw [f2, e2]⟩

/-- **C87**, `relative_span`: for a span that does not end before its start, there is no overflow, and
the result is that with natural numbers. -/
theorem C87_relative (m : Mode) (d : Dockerfile) (sp : Span) (hd : blen d.content < 2 ^ 31) (h : sp.start.toNat ≤ sp.stop.toNat) :
    (sp.relativeSpan m d.content).map (fun x => (x.1.toNat, x.2.val)) = sp.val.relativeSpan d := by
  have hb := bytes_length d.content
  obtain ⟨a, b, e1, e2⟩ := relLoop_ok m sp.start (bytes d.content) 0 0 0
    (by rw [hb]; simp only [UInt32.toNat_zero]; omega) (Nat.le_refl _)
  have hoff := C26_relative_span_total d sp.val h
  rw [relative_eq (l := a.toNat) (o := b.toNat) e2.symm] at hoff ⊢
  rw [show sp.val.start = sp.start.toNat from rfl, show sp.val.stop = sp.stop.toNat from rfl] at hoff ⊢
  by_cases h1 : sp.start.toNat < b.toNat
  · rw [if_pos h1] at hoff
    simp at hoff
  · rw [if_neg h1, if_neg (by omega)]
    have hle := toNat_lt sp.stop
    obtain ⟨u, u1, u2⟩ := subU_ok m (a := sp.start) (b := b) (by omega)
    obtain ⟨v, v1, v2⟩ := subU_ok m (a := sp.stop) (b := sp.start) (by omega)
    obtain ⟨w, w1, w2⟩ := addU_ok m (a := u) (b := v) (by omega)
    simp only [Span.relativeSpan, e1, u1, v1, w1, Option.bind_eq_bind, Option.bind_some, Option.map_some, u2, v2, w2, Span.val]

/-! ## documents -/

/-- **C87**, documents: whatever is done to the spans of a document, as often and in whatever order, it
is the same with machine integers as long as the text and the new texts have less than `2^31` bytes
together. -/
theorem C87_document (m : Mode) (unq : Unquote) (s : Str) (d : Dockerfile) (h : Dockerfile.parse unq s = .ok d)
    (es : List (Span × Str)) (hes : ∀ e ∈ es, ∃ i ∈ d.instructions, e.1.val ∈ Spec.spansOf i) (hl : blen s + total es < 2 ^ 31) :
    ((Splicer.fromStr d.content).spliceAll m es).map Splicer.val =
      (Verif.Splicer.ofDockerfile d).spliceAll (es.map fun e => (e.1.val, e.2)) := by
  have hc : d.content = s := ((ens_parse unq s).ok_of h).1
  refine C87_splicing m d.content es (by rw [hc]; exact hl) fun e he => ?_
  obtain ⟨i, hi, hsp⟩ := hes e he
  obtain ⟨h1, h2⟩ := C04_span_bounds unq s d h i hi _ hsp
  rw [hc] at h2
  simp only [Span.val] at h1 h2
  omega

/-! ## examples -/

example (m : Mode) : ((Splicer.fromStr c!"FROM a:1 as b").spliceAll m
    [(⟨5, 8⟩, c!"image:22"), (⟨12, 13⟩, []), (⟨5, 8⟩, c!"x")]).map (·.content) = some c!"FROM x as " := by
  cases m <;> decide +kernel

/-- the spans of a document: the image and the alias -/
example : (Dockerfile.parse Enquote.unquote c!"FROM a:1 as b").toOption.map (fun d => d.instructions.flatMap Spec.spansOf) =
    some [⟨0, 13⟩, ⟨5, 8⟩, ⟨12, 13⟩] := by decide +kernel

/-- a span at the end of all numbers: `Model/Splicer` says that this panics; but the numbers are -1 as
`isize`, and the text is put at the front -/
theorem C87_front (m : Mode) : (((Splicer.fromStr c!"FROM a").splice m ⟨2 ^ 32 - 1, 2 ^ 32 - 1⟩ c!"x").map (·.content)) =
      some c!"xFROM a" ∧
    (Verif.Splicer.fromStr c!"FROM a").splice (Span.val ⟨2 ^ 32 - 1, 2 ^ 32 - 1⟩) c!"x" = none := by
  cases m <;> decide +kernel

/-- a span that ends before its start: a release build does not notice -/
theorem C87_backwards : (Span.relativeSpan .release ⟨6, 3⟩ c!"FROM\na\nRUN b") = some (1, ⟨1, 2 ^ 32 - 2⟩) ∧
    (Span.relativeSpan .debug ⟨6, 3⟩ c!"FROM\na\nRUN b") = none := by
  decide +kernel

example (m : Mode) : (Span.relativeSpan m ⟨7, 12⟩ c!"FROM\na\nRUN b") = some (2, ⟨0, 5⟩) := by
  cases m <;> decide +kernel

end Mach32
end Verif
