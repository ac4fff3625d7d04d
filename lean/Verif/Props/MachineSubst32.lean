import Verif.Props.Machine32
import Verif.Props.MachineSubst
import Verif.Spec.Machine
import Verif.Props.Subst

/-!
# 32-bit machine integers in `substitute` (C87)

The splicer inside of `substitute` replaces places from left to right, so that all numbers are places in texts that
have been allocated: nothing overflows.
-/

namespace Verif
namespace Mach32
open Mach
open Spec

/-- The source `pre` has become `u`, and what follows is not changed yet; with machine integers. -/
structure MInv (m : Mode) (sp : Splicer) (pre u rest : Str) : Prop where
  content : sp.content = u ++ rest
  places : ∀ x y : Nat, blen pre ≤ x → x ≤ y → y ≤ blen pre + blen rest →
    ∃ c, sp.offsets.foldlM (adjustStep m) ((UInt32.ofNat x).toInt32, (UInt32.ofNat y).toInt32) = some c ∧
      c.1.toInt + blen pre = x + blen u ∧ c.2.toInt + blen pre = y + blen u

theorem ofNat_toNat {n : Nat} (h : n < 2 ^ 31) : (UInt32.ofNat n).toNat = n := by
  rw [UInt32.toNat_ofNat']; omega

theorem ofNat_toInt {n : Nat} (h : n < 2 ^ 31) : (UInt32.ofNat n).toInt32.toInt = n := by
  rw [toInt_toInt32 (by rw [ofNat_toNat h]; exact h), ofNat_toNat h]

theorem MInv.start (m : Mode) {s : Str} (h : blen s < 2 ^ 31) : MInv m (Splicer.fromStr s) [] [] s :=
  ⟨rfl, fun x y _ h2 h3 => ⟨_, rfl, by
    simp only [blen_nil, Nat.zero_add] at h3
    rw [ofNat_toInt (by omega)], by
    simp only [blen_nil, Nat.zero_add] at h3
    rw [ofNat_toInt (by omega)]⟩⟩

theorem MInv.lit {m sp pre u c r} (h : MInv m sp pre u (c :: r)) : MInv m sp (pre ++ [c]) (u ++ [c]) r := by
  refine ⟨by rw [h.content]; simp, fun x y h1 h2 h3 => ?_⟩
  have e : blen (c :: r) = blen [c] + blen r := blen_append [c] r
  simp only [blen_append] at h1 h3 ⊢
  obtain ⟨d, d1, d2, d3⟩ := h.places x y (by omega) h2 (by omega)
  exact ⟨d, d1, by omega, by omega⟩

theorem MInv.splice {m sp pre u src r} (h : MInv m sp pre u (src ++ r)) (hne : src ≠ []) (e : Str)
    (hp : blen pre + blen (src ++ r) < 2 ^ 31) (hu : blen u + blen (src ++ r) < 2 ^ 31) (he : blen e < 2 ^ 31) :
    ∃ sp', sp.splice m (.ofRange ⟨blen pre, blen (pre ++ src)⟩) e = some sp' ∧ sp'.content = u ++ e ++ r ∧
      (blen (u ++ e ++ r) < 2 ^ 31 → MInv m sp' (pre ++ src) (u ++ e) r) := by
  have hs := blen_pos hne
  simp only [blen_append] at hp hu
  obtain ⟨c, c1, c2, c3⟩ := h.places (blen pre) (blen (pre ++ src)) (Nat.le_refl _) (by rw [blen_append]; omega)
    (by simp only [blen_append]; omega)
  simp only [blen_append] at c2 c3
  have k1 : (clamp c.1).toNat = blen u := by rw [clamp_val]; split <;> omega
  have k2 : (clamp c.2).toNat = blen u + blen src := by rw [clamp_val]; split <;> omega
  obtain ⟨l, l1, l2⟩ := subU_ok m (a := clamp c.2) (b := clamp c.1) (by omega)
  have l3 : l.toNat = blen src := by omega
  have l4 : l.toInt32.toInt = blen src := by rw [toInt_toInt32 (by omega)]; omega
  obtain ⟨o, o1, o2⟩ := subI_ok m (a := (UInt32.ofNat (blen e)).toInt32) (b := l.toInt32) (by
    rw [ofNat_toInt he]
    simp only [fitsI, Bool.and_eq_true, decide_eq_true_eq]
    omega)
  rw [ofNat_toInt he, l4] at o2
  refine ⟨⟨u ++ e ++ r, sp.offsets ++ [⟨clamp c.1, o⟩]⟩, ?_, rfl, fun hb => ⟨by simp, fun x y h1 h2 h3 => ?_⟩⟩
  · simp only [Splicer.splice, Span.adjustOffsets, Span.ofRange, c1, Option.bind_eq_bind, Option.bind_some, l1, o1, h.content, k1, l3,
      splitAtByte_append]
  · simp only [blen_append] at h1 h3 hb ⊢
    obtain ⟨d, d1, d2, d3⟩ := h.places x y (by omega) h2 (by simp only [blen_append]; omega)
    have hpos : clamp c.1 < d.1.toUInt32 := by
      rw [UInt32.lt_iff_toNat_lt, k1, asUsize_toInt]
      unfold asUsize32; split <;> omega
    obtain ⟨a, a1, a2⟩ := addI_ok m (a := d.1) (b := o) (by
      simp only [fitsI, Bool.and_eq_true, decide_eq_true_eq]
      omega)
    obtain ⟨b, b1, b2⟩ := addI_ok m (a := d.2) (b := o) (by
      simp only [fitsI, Bool.and_eq_true, decide_eq_true_eq]
      omega)
    refine ⟨(a, b), ?_, by simp only; omega, by simp only; omega⟩
    rw [List.foldlM_append, d1]
    simp only [Option.bind_eq_bind, Option.bind_some, List.foldlM_cons, List.foldlM_nil, adjustStep, if_pos hpos, a1, b1, Option.pure_def]

/-! ## the texts that are built -/

/-- What `res` should be: `none` if a text that is too large is built, `val` otherwise. -/
def Correct {α : Type} (P : Str → Prop) (res val : Option α) : Prop :=
  (res = none ∧ ∃ t, P t ∧ 2 ^ 31 ≤ blen t) ∨ (res = val ∧ ∀ t, P t → blen t < 2 ^ 31)

theorem loop_correct (m : Mode) {vars : VarMap} {d : UInt8} (hd : d ≠ 0) {k : Nat}
    (hvars : ∀ n v, vars n = some v → blen v < 2 ^ 31) {sub : Str → List Str → Option (Option Str × List Str)}
    (hsub : ∀ v used, blen v < 2 ^ 31 → Correct (Built vars k [] v) (sub v used) (Verif.substitute vars k v used)) (n : Nat) :
    ∀ (pre u rest : Str) (cs : List Rx.Caps) (sp : Splicer) (sp' : Verif.Splicer) (used : List Str), rest.length ≤ n →
      MInv m sp pre u rest → VInv sp' pre u rest → blen pre + blen rest < 2 ^ 31 → blen u + blen rest < 2 ^ 31 →
      cs.map (fun c => (c.whole, (c.get 1).or (c.get 2))) = (capturesFrom n (blen pre) rest).map (fun c => (c.range, some c.name)) →
      Correct (Built vars (k + 1) u rest) (loop m vars d sub cs sp used)
        (substLoop vars (Verif.substitute vars k) (capturesFrom n (blen pre) rest) sp' used) := by
  induction n with
  | zero =>
    intro pre u rest cs sp sp' used hn hm hv hp hu hcs
    obtain rfl : rest = [] := by simpa using hn
    obtain rfl : cs = [] := by simpa [capturesFrom] using hcs
    refine .inr ⟨by simp [loop, substLoop, capturesFrom, hm.content, hv.content], fun t ht => ?_⟩
    cases ht with
    | here => rw [blen_append]; exact hu
    | inner h => exact absurd h.length_lt (by simp)
    | next h => exact absurd h.length_lt (by simp)
  | succ n ih =>
    intro pre u rest cs sp sp' used hn hm hv hp hu hcs
    cases rest with
    | nil =>
      obtain rfl : cs = [] := by simpa [capturesFrom] using hcs
      refine .inr ⟨by simp [loop, substLoop, capturesFrom, hm.content, hv.content], fun t ht => ?_⟩
      cases ht with
      | here => rw [blen_append]; exact hu
      | inner h => exact absurd h.length_lt (by simp)
      | next h => exact absurd h.length_lt (by simp)
    | cons c rest =>
      rcases ref_cases c rest with ⟨name, r, href, hmv⟩ | ⟨hno, hmv⟩
      · obtain ⟨src, hsrc, hsplit⟩ := href.split
        have hlen := href.length_lt
        have hbl : blen pre + (blen (c :: rest) - blen r) = blen (pre ++ src) := by
          rw [hsplit]; simp
        simp only [capturesFrom, hmv, hbl] at hcs ⊢
        cases cs with
        | nil => cases hcs
        | cons x cs =>
          simp only [List.map_cons, List.cons.injEq, Prod.mk.injEq] at hcs
          obtain ⟨⟨e1, e2⟩, e3⟩ := hcs
          simp only [loop, substLoop, e2, e1, hd, if_false]
          have hhere : blen (u ++ (c :: rest)) < 2 ^ 31 := by rw [blen_append]; exact hu
          cases hvn : vars name with
          | none =>
            refine .inr ⟨rfl, fun t ht => ?_⟩
            cases ht with
            | here => exact hhere
            | lit h => exact absurd href (h _ _)
            | inner h hv' =>
              obtain ⟨rfl, -⟩ := h.unique href
              rw [hvn] at hv'; cases hv'
            | next h hv' =>
              obtain ⟨rfl, -⟩ := h.unique href
              rw [hvn] at hv'; cases hv'
          | some v =>
            simp only
            rcases hsub v used (hvars _ _ hvn) with ⟨h1, t, h2, h3⟩ | ⟨h1, h2⟩
            · rw [h1]
              exact .inl ⟨rfl, t, .inner href hvn h2, h3⟩
            · rw [h1]
              obtain ⟨o, used', h4, h5⟩ := C27_substitute_is_expansion vars k v used
              rw [h4]
              have hin : ∀ {n' r' v' t}, RefAt (c :: rest) n' r' → vars n' = some v' → Built vars k [] v' t → blen t < 2 ^ 31 := by
                intro n' r' v' t h hv' ht
                obtain ⟨rfl, -⟩ := h.unique href
                rw [hvn] at hv'; cases hv'
                exact h2 t ht
              cases o with
              | none =>
                refine .inr ⟨rfl, fun t ht => ?_⟩
                cases ht with
                | here => exact hhere
                | lit h => exact absurd href (h _ _)
                | inner h hv' ht => exact hin h hv' ht
                | next h hv' he =>
                  obtain ⟨rfl, -⟩ := h.unique href
                  rw [hvn] at hv'; cases hv'
                  cases (h5 _).2 he
              | some e =>
                have he := (h5 e).1 rfl
                have hbe : blen e < 2 ^ 31 := h2 _ (expands_built he [])
                rw [hsplit] at hm hv hp hu
                obtain ⟨sq, q1, q2, q3⟩ := hm.splice hsrc e hp hu hbe
                obtain ⟨sv, v1, v2⟩ := hv.splice hsrc e
                simp only [Splicer.spliceAlloc, q1, v1, fitsAlloc, q2]
                by_cases hbig : blen (u ++ e ++ r) < 2 ^ 31
                · simp only [decide_eq_true hbig, if_true]
                  have := ih (pre ++ src) (u ++ e) r cs sq sv (setInsert name used') (by
                      rw [List.length_cons] at hlen hn; omega) (q3 hbig) v2 (by
                      simp only [blen_append] at hp ⊢; omega) (by simp only [blen_append] at hbig ⊢; omega) e3
                  rcases this with ⟨f1, t, f2, f3⟩ | ⟨f1, f2⟩
                  · exact .inl ⟨f1, t, .next href hvn he f2, f3⟩
                  · refine .inr ⟨f1, fun t ht => ?_⟩
                    cases ht with
                    | here => exact hhere
                    | lit h => exact absurd href (h _ _)
                    | inner h hv' ht => exact hin h hv' ht
                    | next h hv' he' ht =>
                      obtain ⟨rfl, rfl⟩ := h.unique href
                      rw [hvn] at hv'; cases hv'
                      obtain rfl := C27_expansion_unique _ _ _ _ _ he he'
                      exact f2 t ht
                · simp only [decide_eq_false hbig]
                  exact .inl ⟨rfl, _, .next href hvn he .here, by omega⟩
      · simp only [capturesFrom, hmv] at hcs ⊢
        have hb : blen pre + c.utf8Size = blen (pre ++ [c]) := by simp
        rw [hb] at hcs ⊢
        have e : blen (c :: rest) = blen [c] + blen rest := blen_append [c] rest
        rcases ih (pre ++ [c]) (u ++ [c]) rest cs sp sp' used (by simpa using hn) hm.lit hv.lit (by simp only [blen_append]; omega)
          (by simp only [blen_append]; omega) hcs with ⟨f1, t, f2, f3⟩ | ⟨f1, f2⟩
        · exact .inl ⟨f1, t, .lit hno f2, f3⟩
        · refine .inr ⟨f1, fun t ht => ?_⟩
          cases ht with
          | here => rw [blen_append]; exact hu
          | lit _ ht => exact f2 t ht
          | inner h => exact absurd h (hno _ _)
          | next h => exact absurd h (hno _ _)

theorem substitute_correct (m : Mode) (vars : VarMap) (hvars : ∀ n v, vars n = some v → blen v < 2 ^ 31) (k : Nat) :
    ∀ (d : UInt8) (s : Str) (used : List Str), d.toNat = k → blen s < 2 ^ 31 →
      Correct (Built vars k [] s) (substituteFull m Rx.var vars d s used) (Verif.substitute vars k s used) := by
  induction k with
  | zero =>
    intro d s used hd hs
    have : d = 0 := UInt8.toNat_inj.1 hd
    subst this
    refine .inr ⟨?_, fun t ht => by rw [built_zero ht]; exact hs⟩
    have hc := Rx.C79_captures s
    rw [substituteFull]
    simp only [Verif.substitute]
    cases hl : captures s with
    | nil =>
      rw [hl] at hc
      have : Rx.capturesIter Rx.var (s.length + 1) 0 s = [] := by simpa using hc
      rw [this]; rfl
    | cons c cs =>
      rw [hl] at hc
      cases hi : Rx.capturesIter Rx.var (s.length + 1) 0 s with
      | nil => rw [hi] at hc; cases hc
      | cons x xs => rfl
  | succ k ih =>
    intro d s used hd hs
    have h0 : d ≠ 0 := by rintro rfl; cases hd
    have hp : (saturatingPred d).toNat = k := by
      have one : (1 : UInt8).toNat = 1 := rfl
      rw [saturatingPred, if_neg h0, UInt8.toNat_sub_of_le]
      · omega
      · rw [UInt8.le_iff_toNat_le]; omega
    rw [substituteFull]
    exact loop_correct m h0 hvars (fun v used hv => by rw [dif_neg h0]; exact ih _ v used hp hv) s.length [] [] s _ _ _ used
      (Nat.le_refl _) (MInv.start m hs) (VInv.start s) (by simpa using hs) (by simpa using hs) (Rx.C79_captures s)

/-- **C87**, `substitute` with machine integers throughout: it panics if a text of `2^31` bytes or more would have to
be allocated on the way, and otherwise it gives what it gives with unbounded numbers.  The build makes no
difference. -/
theorem C87_substitute (m : Mode) (vars : VarMap) (hvars : ∀ n v, vars n = some v → blen v < 2 ^ 31) (d : UInt8) (s : Str)
    (hs : blen s < 2 ^ 31) (used : List Str) (var : Rx.Re) (hvar : Rx.pattern Rx.varText = some var) :
    ((∃ t, Built vars d.toNat [] s t ∧ 2 ^ 31 ≤ blen t) → substituteFull m var vars d s used = none) ∧
    ((∀ t, Built vars d.toNat [] s t → blen t < 2 ^ 31) →
      substituteFull m var vars d s used = Verif.substitute vars d.toNat s used) := by
  rw [Rx.C79_patterns.1, Option.some.injEq] at hvar
  subst hvar
  rcases substitute_correct m vars hvars _ d s used rfl hs with ⟨h1, t, h2, h3⟩ | ⟨h1, h2⟩
  · exact ⟨fun _ => h1, fun h => absurd (h t h2) (by omega)⟩
  · exact ⟨fun ⟨t, ht, hb⟩ => absurd (h2 t ht) (by omega), fun _ => h1⟩

/-- **C87**, `substitute`: a text is given only if it fits, and the expansion of the text. -/
theorem C87_substitute_result (m : Mode) (vars : VarMap) (hvars : ∀ n v, vars n = some v → blen v < 2 ^ 31) (d : UInt8) (s : Str)
    (hs : blen s < 2 ^ 31) (used used' : List Str) (t : Str)
    (h : substituteFull m Rx.var vars d s used = some (some t, used')) : blen t < 2 ^ 31 ∧ Expands vars d.toNat s t := by
  rcases substitute_correct m vars hvars _ d s used rfl hs with ⟨h1, -⟩ | ⟨h1, h2⟩
  · rw [h1] at h; cases h
  · obtain ⟨o, u, h4, h5⟩ := C27_substitute_is_expansion vars d.toNat s used
    rw [h1, h4] at h
    cases h
    have he := (h5 t).1 rfl
    exact ⟨h2 _ (expands_built he []), he⟩

/-! ## both targets -/

/-- Specification: the sum of the lengths of the new texts -/
def newText (es : List (Verif.Span × Str)) : Nat := (es.map fun e => blen e.2).sum

/-- the same history on the two targets -/
def hist32 (es : List (Verif.Span × Str)) : List (Span × Str) := es.map fun e => (.ofRange e.1, e.2)
def hist64 (es : List (Verif.Span × Str)) : List (Mach.Span × Str) := es.map fun e => (.ofRange e.1, e.2)

theorem total32 (es : List (Verif.Span × Str)) : total (hist32 es) = newText es := by
  induction es with
  | nil => rfl
  | cons e es ih =>
    simp only [hist32, newText] at ih
    simp only [hist32, newText, List.map_cons, List.sum_cons, total, ih]

theorem total64 (es : List (Verif.Span × Str)) : Mach.total (hist64 es) = newText es := by
  induction es with
  | nil => rfl
  | cons e es ih =>
    simp only [hist64, newText] at ih
    simp only [hist64, newText, List.map_cons, List.sum_cons, Mach.total, ih]

/-- **C87**, targets: a history of splices that is small enough for 32 bits gives the same text, or the same panic, on
both targets, in all builds. -/
theorem C87_targets (m m' : Mode) (s : Str) (es : List (Verif.Span × Str)) (h : blen s + newText es < 2 ^ 31)
    (hs : ∀ e ∈ es, e.1.start + newText es < 2 ^ 31 ∧ e.1.stop + newText es < 2 ^ 31) :
    ((Splicer.fromStr s).spliceAll m (hist32 es)).map (·.content) =
      ((Mach.Splicer.fromStr s).spliceAll m' (hist64 es)).map (·.content) := by
  have n32 : ∀ {n : Nat}, n < 2 ^ 31 → (UInt32.ofNat n).toNat = n := fun h => ofNat_toNat h
  have n64 : ∀ {n : Nat}, n < 2 ^ 31 → (UInt64.ofNat n).toNat = n := fun h => by rw [UInt64.toNat_ofNat']; omega
  have h32 := C87_splicing m s (hist32 es) (by rw [total32]; exact h) (by
    rw [total32]
    intro e he
    obtain ⟨e', he', rfl⟩ := List.mem_map.1 he
    have := hs e' he'
    simp only [Span.ofRange]
    rw [n32 (by omega), n32 (by omega)]
    exact this)
  have h64 := Mach.C80_splicing m' s (hist64 es) (by rw [total64]; omega) (by
    rw [total64]
    intro e he
    obtain ⟨e', he', rfl⟩ := List.mem_map.1 he
    have := hs e' he'
    simp only [Mach.Span.ofRange]
    rw [n64 (by omega), n64 (by omega)]
    omega)
  have e : (hist32 es).map (fun e => (e.1.val, e.2)) = (hist64 es).map (fun e => (e.1.val, e.2)) := by
    simp only [hist32, hist64, List.map_map]
    refine List.map_congr_left fun e he => ?_
    have := hs e he
    simp only [Function.comp, Span.ofRange, Mach.Span.ofRange, Span.val, Mach.Span.val]
    rw [n32 (by omega), n32 (by omega), n64 (by omega), n64 (by omega)]
  rw [e, ← h64] at h32
  have := congrArg (Option.map fun s : Verif.Splicer => s.content) h32
  rw [Option.map_map, Option.map_map] at this
  exact this

/-- **C87**, targets: `substitute` gives the same on both targets if all texts that are built have less than `2^31` bytes. -/
theorem C87_targets_substitute (m m' : Mode) (vars : VarMap) (hvars : ∀ n v, vars n = some v → blen v < 2 ^ 31) (d : UInt8)
    (s : Str) (used : List Str) (h : ∀ t, Built vars d.toNat [] s t → blen t < 2 ^ 31) :
    substituteFull m Rx.var vars d s used = Mach.substituteFull m' Rx.var vars d s used := by
  have hs : blen s < 2 ^ 31 := h s .here
  rw [(C87_substitute m vars hvars d s hs used Rx.var Rx.C79_patterns.1).2 h,
    (Mach.C80_substitute m' vars (fun n v e => by have := hvars n v e; omega) d s (by omega) used Rx.var Rx.C79_patterns.1).2
      fun t ht => by have := h t ht; omega]

/-- Above that, they differ: the same splice panics on one target and not on the other. -/
theorem C87_targets_differ (m : Mode) : ((Splicer.fromStr c!"FROM a").splice m ⟨2 ^ 31, 2 ^ 31⟩ c!"x").map (·.content) = some c!"xFROM a" ∧
    (Mach.Splicer.fromStr c!"FROM a").splice m ⟨2 ^ 31, 2 ^ 31⟩ c!"x" = none := by
  cases m <;> decide +kernel

/-! ## examples -/

/-- two levels, texts that grow and texts that shrink -/
example (m : Mode) : substituteFull m Rx.var (fun n => if n = c!"x" then some c!"<${longer}>" else if n = c!"longer" then some c!"é" else none)
    3 c!"a$x-${longer}$x" [] = some (some c!"a<é>-é<é>", [c!"longer", c!"x"]) := by
  cases m <;> decide +kernel

/-- a text of `3 * N` bytes is built, for instance with `N = 2^30`: the third replacement panics -/
example (N : Nat) (h1 : N < 2 ^ 31) (h3 : 2 ^ 31 ≤ 3 * N) (m : Mode) (used : List Str) :
    substituteFull m Rx.var (fun _ => some (List.replicate N 'a')) 16 c!"$x$x$x" used = none := by
  have hb : ∀ n, blen (List.replicate n 'a') = n := by
    intro n
    induction n with
    | zero => rfl
    | succ n ih =>
      have e : blen ('a' :: List.replicate n 'a') = blen ['a'] + blen (List.replicate n 'a') := blen_append ['a'] _
      have : blen ['a'] = 1 := rfl
      rw [List.replicate_succ, e, ih]; omega
  have hx : ∀ k n, Expands (fun _ => some (List.replicate N 'a')) k (List.replicate n 'a') (List.replicate n 'a') := by
    intro k n
    induction n with
    | zero => exact .nil k
    | succ n ih =>
      refine .lit _ _ _ _ (fun n r h => ?_) ih
      rcases h.2.2 with ⟨h, -⟩ | h <;> cases h
  have hr : ∀ r : Str, (r = [] ∨ ∃ r', r = '$' :: r') → RefAt ('$' :: 'x' :: r) c!"x" r := by
    refine fun r hr => ⟨by decide, ?_, .inl ⟨rfl, ?_⟩⟩
    · simp only [List.mem_cons, List.not_mem_nil, or_false, forall_eq]
      exact .inr (.inl (by decide))
    · rcases hr with rfl | ⟨r', rfl⟩
      · intro c cs h; cases h
      · intro c cs h
        cases h
        unfold WordChar; decide
  refine (C87_substitute m _ ?_ 16 c!"$x$x$x" (by decide) used Rx.var Rx.C79_patterns.1).1 ⟨_, .next (hr _ (.inr ⟨_, rfl⟩)) rfl (hx _ _)
    (.next (hr _ (.inr ⟨_, rfl⟩)) rfl (hx _ _) (.next (hr _ (.inl rfl)) rfl (hx _ _) .here)), ?_⟩
  · intro n v hv
    cases hv
    rw [hb]; exact h1
  · simp only [blen_append, hb, blen_nil]; omega

example : blen c!"FROM a:1 as b" + newText [(⟨5, 8⟩, c!"image:22"), (⟨12, 13⟩, []), (⟨5, 8⟩, c!"x")] < 2 ^ 31 := by decide +kernel

end Mach32
end Verif
