import Verif.Props.Machine
import Verif.Spec.Machine
import Verif.Props.Subst

/-!
# Machine integers in `substitute` (C80)

The splicer inside of `substitute` replaces places from left to right, so that all numbers are places in texts that
have been allocated: nothing overflows.
-/

namespace Verif
namespace Mach
open Spec

/-- The source `pre` has become `u`, and what follows is not changed yet; with machine integers. -/
structure MInv (m : Mode) (sp : Splicer) (pre u rest : Str) : Prop where
  content : sp.content = u ++ rest
  places : ∀ x y : Nat, blen pre ≤ x → x ≤ y → y ≤ blen pre + blen rest →
    ∃ c, sp.offsets.foldlM (adjustStep m) ((UInt64.ofNat x).toInt64, (UInt64.ofNat y).toInt64) = some c ∧
      c.1.toInt + blen pre = x + blen u ∧ c.2.toInt + blen pre = y + blen u

/-- the same with integers -/
structure VInv (sp : Verif.Splicer) (pre u rest : Str) : Prop where
  content : sp.content = u ++ rest
  places : ∀ x y : Nat, blen pre ≤ x → x ≤ y → y ≤ blen pre + blen rest →
    sp.offsets.foldl Verif.Span.adjustStep ((x : Int), (y : Int)) = ((x : Int) + blen u - blen pre, (y : Int) + blen u - blen pre)

theorem ofNat_toNat {n : Nat} (h : n < 2 ^ 63) : (UInt64.ofNat n).toNat = n := by
  rw [UInt64.toNat_ofNat']; omega

theorem ofNat_toInt {n : Nat} (h : n < 2 ^ 63) : (UInt64.ofNat n).toInt64.toInt = n := by
  rw [toInt_toInt64 (by rw [ofNat_toNat h]; exact h), ofNat_toNat h]

theorem MInv.start (m : Mode) {s : Str} (h : blen s < 2 ^ 63) : MInv m (Splicer.fromStr s) [] [] s :=
  ⟨rfl, fun x y _ h2 h3 => ⟨_, rfl, by
    simp only [blen_nil, Nat.zero_add] at h3
    rw [ofNat_toInt (by omega)], by
    simp only [blen_nil, Nat.zero_add] at h3
    rw [ofNat_toInt (by omega)]⟩⟩

theorem VInv.start (s : Str) : VInv (Verif.Splicer.fromStr s) [] [] s :=
  ⟨rfl, fun x y _ _ _ => by simp [Verif.Splicer.fromStr]⟩

theorem MInv.lit {m sp pre u c r} (h : MInv m sp pre u (c :: r)) : MInv m sp (pre ++ [c]) (u ++ [c]) r := by
  refine ⟨by rw [h.content]; simp, fun x y h1 h2 h3 => ?_⟩
  have e : blen (c :: r) = blen [c] + blen r := blen_append [c] r
  simp only [blen_append] at h1 h3 ⊢
  obtain ⟨d, d1, d2, d3⟩ := h.places x y (by omega) h2 (by omega)
  exact ⟨d, d1, by omega, by omega⟩

theorem VInv.lit {sp pre u c r} (h : VInv sp pre u (c :: r)) : VInv sp (pre ++ [c]) (u ++ [c]) r := by
  refine ⟨by rw [h.content]; simp, fun x y h1 h2 h3 => ?_⟩
  have e : blen (c :: r) = blen [c] + blen r := blen_append [c] r
  simp only [blen_append] at h1 h3 ⊢
  rw [h.places x y (by omega) h2 (by omega), Prod.mk.injEq]
  omega

theorem VInv.splice {sp pre u src r} (h : VInv sp pre u (src ++ r)) (hne : src ≠ []) (e : Str) :
    ∃ sp', sp.splice ⟨blen pre, blen (pre ++ src)⟩ e = some sp' ∧ VInv sp' (pre ++ src) (u ++ e) r := by
  have hs := blen_pos hne
  have hp := h.places (blen pre) (blen (pre ++ src)) (Nat.le_refl _) (by rw [blen_append]; omega) (by simp only [blen_append]; omega)
  have ha : (⟨blen pre, blen (pre ++ src)⟩ : Verif.Span).adjustOffsets sp.offsets = ⟨blen u, blen u + blen src⟩ := by
    rw [adjust_eq hp]
    simp only [blen_append]
    congr 1 <;> split <;> omega
  refine ⟨⟨u ++ e ++ r, sp.offsets ++ [⟨blen u, (blen e : Int) - blen src⟩]⟩, ?_, by simp, fun x y h1 h2 h3 => ?_⟩
  · rw [splice_eq e ha, if_neg (by omega), h.content, splitAtByte_append]
    simp only [Nat.add_sub_cancel_left, splitAtByte_append]
  · simp only [blen_append] at h1 h3 ⊢
    rw [List.foldl_append, h.places x y (by omega) h2 (by simp only [blen_append]; omega)]
    simp only [List.foldl_cons, List.foldl_nil, Verif.Span.adjustStep]
    rw [if_pos (by unfold asUsize; split <;> omega), Prod.mk.injEq]
    omega

theorem MInv.splice {m sp pre u src r} (h : MInv m sp pre u (src ++ r)) (hne : src ≠ []) (e : Str)
    (hp : blen pre + blen (src ++ r) < 2 ^ 63) (hu : blen u + blen (src ++ r) < 2 ^ 63) (he : blen e < 2 ^ 63) :
    ∃ sp', sp.splice m (.ofRange ⟨blen pre, blen (pre ++ src)⟩) e = some sp' ∧ sp'.content = u ++ e ++ r ∧
      (blen (u ++ e ++ r) < 2 ^ 63 → MInv m sp' (pre ++ src) (u ++ e) r) := by
  have hs := blen_pos hne
  simp only [blen_append] at hp hu
  obtain ⟨c, c1, c2, c3⟩ := h.places (blen pre) (blen (pre ++ src)) (Nat.le_refl _) (by rw [blen_append]; omega)
    (by simp only [blen_append]; omega)
  simp only [blen_append] at c2 c3
  have k1 : (clamp c.1).toNat = blen u := by rw [clamp_val]; split <;> omega
  have k2 : (clamp c.2).toNat = blen u + blen src := by rw [clamp_val]; split <;> omega
  obtain ⟨l, l1, l2⟩ := subU_ok m (a := clamp c.2) (b := clamp c.1) (by omega)
  have l3 : l.toNat = blen src := by omega
  have l4 : l.toInt64.toInt = blen src := by rw [toInt_toInt64 (by omega)]; omega
  obtain ⟨o, o1, o2⟩ := subI_ok m (a := (UInt64.ofNat (blen e)).toInt64) (b := l.toInt64) (by
    rw [ofNat_toInt he]
    simp only [fitsI, Bool.and_eq_true, decide_eq_true_eq]
    omega)
  rw [ofNat_toInt he, l4] at o2
  refine ⟨⟨u ++ e ++ r, sp.offsets ++ [⟨clamp c.1, o⟩]⟩, ?_, rfl, fun hb => ⟨by simp, fun x y h1 h2 h3 => ?_⟩⟩
  · simp only [Splicer.splice, Span.adjustOffsets, Span.ofRange, c1, Option.bind_eq_bind, Option.bind_some, l1, o1, h.content, k1, l3,
      splitAtByte_append]
  · simp only [blen_append] at h1 h3 hb ⊢
    obtain ⟨d, d1, d2, d3⟩ := h.places x y (by omega) h2 (by simp only [blen_append]; omega)
    have hpos : clamp c.1 < d.1.toUInt64 := by
      rw [UInt64.lt_iff_toNat_lt, k1, asUsize_toInt]
      unfold asUsize; split <;> omega
    obtain ⟨a, a1, a2⟩ := addI_ok m (a := d.1) (b := o) (by
      simp only [fitsI, Bool.and_eq_true, decide_eq_true_eq]
      omega)
    obtain ⟨b, b1, b2⟩ := addI_ok m (a := d.2) (b := o) (by
      simp only [fitsI, Bool.and_eq_true, decide_eq_true_eq]
      omega)
    refine ⟨(a, b), ?_, by simp only; omega, by simp only; omega⟩
    rw [List.foldlM_append, d1]
    simp only [Option.bind_eq_bind, Option.bind_some, List.foldlM_cons, List.foldlM_nil, adjustStep, if_pos hpos, a1, b1, Option.pure_def]

/-! ## the texts that are built -/

theorem expands_built {vars : VarMap} {d : Nat} {r e : Str} (h : Expands vars d r e) : ∀ u, Built vars d u r (u ++ e) := by
  induction h with
  | nil d => exact fun u => .here
  | lit d c cs t hn _ ih =>
    intro u
    have := ih (u ++ [c])
    rw [List.append_assoc] at this
    exact .lit hn this
  | ref d s n rest v e t h hv he _ _ ih =>
    intro u
    have := ih (u ++ e)
    rw [List.append_assoc] at this
    exact .next h hv he this

/-- What `res` should be: `none` if a text that is too large is built, `val` otherwise. -/
def Correct {α : Type} (P : Str → Prop) (res val : Option α) : Prop :=
  (res = none ∧ ∃ t, P t ∧ 2 ^ 63 ≤ blen t) ∨ (res = val ∧ ∀ t, P t → blen t < 2 ^ 63)

theorem loop_correct (m : Mode) {vars : VarMap} {d : UInt8} (hd : d ≠ 0) {k : Nat}
    (hvars : ∀ n v, vars n = some v → blen v < 2 ^ 63) {sub : Str → List Str → Option (Option Str × List Str)}
    (hsub : ∀ v used, blen v < 2 ^ 63 → Correct (Built vars k [] v) (sub v used) (Verif.substitute vars k v used)) (n : Nat) :
    ∀ (pre u rest : Str) (cs : List Rx.Caps) (sp : Splicer) (sp' : Verif.Splicer) (used : List Str), rest.length ≤ n →
      MInv m sp pre u rest → VInv sp' pre u rest → blen pre + blen rest < 2 ^ 63 → blen u + blen rest < 2 ^ 63 →
      cs.map (fun c => (c.whole, (c.get 1).or (c.get 2))) = (capturesFrom n (blen pre) rest).map (fun c => (c.range, some c.name)) →
      Correct (Built vars (k + 1) u rest) (loop m vars d sub cs sp used)
        (substLoop vars (Verif.substitute vars k) (capturesFrom n (blen pre) rest) sp' used) := by
  induction n with
  | zero =>
    intro pre u rest cs sp sp' used hn hm hv hp hu hcs
    obtain rfl : rest = [] := by simpa using hn
    obtain rfl : cs = [] := by simpa [capturesFrom] using hcs
    refine .inr ⟨by simp [loop, substLoop, capturesFrom, hm.content, hv.content], fun t ht => ?_⟩
    cases ht with
    | here => rw [blen_append]; exact hu
    | inner h => exact absurd h.length_lt (by simp)
    | next h => exact absurd h.length_lt (by simp)
  | succ n ih =>
    intro pre u rest cs sp sp' used hn hm hv hp hu hcs
    cases rest with
    | nil =>
      obtain rfl : cs = [] := by simpa [capturesFrom] using hcs
      refine .inr ⟨by simp [loop, substLoop, capturesFrom, hm.content, hv.content], fun t ht => ?_⟩
      cases ht with
      | here => rw [blen_append]; exact hu
      | inner h => exact absurd h.length_lt (by simp)
      | next h => exact absurd h.length_lt (by simp)
    | cons c rest =>
      rcases ref_cases c rest with ⟨name, r, href, hmv⟩ | ⟨hno, hmv⟩
      · obtain ⟨src, hsrc, hsplit⟩ := href.split
        have hlen := href.length_lt
        have hbl : blen pre + (blen (c :: rest) - blen r) = blen (pre ++ src) := by
          rw [hsplit]; simp
        simp only [capturesFrom, hmv, hbl] at hcs ⊢
        cases cs with
        | nil => cases hcs
        | cons x cs =>
          simp only [List.map_cons, List.cons.injEq, Prod.mk.injEq] at hcs
          obtain ⟨⟨e1, e2⟩, e3⟩ := hcs
          simp only [loop, substLoop, e2, e1, hd, if_false]
          have hhere : blen (u ++ (c :: rest)) < 2 ^ 63 := by rw [blen_append]; exact hu
          cases hvn : vars name with
          | none =>
            refine .inr ⟨rfl, fun t ht => ?_⟩
            cases ht with
            | here => exact hhere
            | lit h => exact absurd href (h _ _)
            | inner h hv' =>
              obtain ⟨rfl, -⟩ := h.unique href
              rw [hvn] at hv'; cases hv'
            | next h hv' =>
              obtain ⟨rfl, -⟩ := h.unique href
              rw [hvn] at hv'; cases hv'
          | some v =>
            simp only
            rcases hsub v used (hvars _ _ hvn) with ⟨h1, t, h2, h3⟩ | ⟨h1, h2⟩
            · rw [h1]
              exact .inl ⟨rfl, t, .inner href hvn h2, h3⟩
            · rw [h1]
              obtain ⟨o, used', h4, h5⟩ := C27_substitute_is_expansion vars k v used
              rw [h4]
              have hin : ∀ {n' r' v' t}, RefAt (c :: rest) n' r' → vars n' = some v' → Built vars k [] v' t → blen t < 2 ^ 63 := by
                intro n' r' v' t h hv' ht
                obtain ⟨rfl, -⟩ := h.unique href
                rw [hvn] at hv'; cases hv'
                exact h2 t ht
              cases o with
              | none =>
                refine .inr ⟨rfl, fun t ht => ?_⟩
                cases ht with
                | here => exact hhere
                | lit h => exact absurd href (h _ _)
                | inner h hv' ht => exact hin h hv' ht
                | next h hv' he =>
                  obtain ⟨rfl, -⟩ := h.unique href
                  rw [hvn] at hv'; cases hv'
                  cases (h5 _).2 he
              | some e =>
                have he := (h5 e).1 rfl
                have hbe : blen e < 2 ^ 63 := h2 _ (expands_built he [])
                rw [hsplit] at hm hv hp hu
                obtain ⟨sq, q1, q2, q3⟩ := hm.splice hsrc e hp hu hbe
                obtain ⟨sv, v1, v2⟩ := hv.splice hsrc e
                simp only [Splicer.spliceAlloc, q1, v1, fitsAlloc, q2]
                by_cases hbig : blen (u ++ e ++ r) < 2 ^ 63
                · simp only [decide_eq_true hbig, if_true]
                  have := ih (pre ++ src) (u ++ e) r cs sq sv (setInsert name used') (by
                      rw [List.length_cons] at hlen hn; omega) (q3 hbig) v2 (by
                      simp only [blen_append] at hp ⊢; omega) (by simp only [blen_append] at hbig ⊢; omega) e3
                  rcases this with ⟨f1, t, f2, f3⟩ | ⟨f1, f2⟩
                  · exact .inl ⟨f1, t, .next href hvn he f2, f3⟩
                  · refine .inr ⟨f1, fun t ht => ?_⟩
                    cases ht with
                    | here => exact hhere
                    | lit h => exact absurd href (h _ _)
                    | inner h hv' ht => exact hin h hv' ht
                    | next h hv' he' ht =>
                      obtain ⟨rfl, rfl⟩ := h.unique href
                      rw [hvn] at hv'; cases hv'
                      obtain rfl := C27_expansion_unique _ _ _ _ _ he he'
                      exact f2 t ht
                · simp only [decide_eq_false hbig]
                  exact .inl ⟨rfl, _, .next href hvn he .here, by omega⟩
      · simp only [capturesFrom, hmv] at hcs ⊢
        have hb : blen pre + c.utf8Size = blen (pre ++ [c]) := by simp
        rw [hb] at hcs ⊢
        have e : blen (c :: rest) = blen [c] + blen rest := blen_append [c] rest
        rcases ih (pre ++ [c]) (u ++ [c]) rest cs sp sp' used (by simpa using hn) hm.lit hv.lit (by simp only [blen_append]; omega)
          (by simp only [blen_append]; omega) hcs with ⟨f1, t, f2, f3⟩ | ⟨f1, f2⟩
        · exact .inl ⟨f1, t, .lit hno f2, f3⟩
        · refine .inr ⟨f1, fun t ht => ?_⟩
          cases ht with
          | here => rw [blen_append]; exact hu
          | lit _ ht => exact f2 t ht
          | inner h => exact absurd h (hno _ _)
          | next h => exact absurd h (hno _ _)

theorem built_zero {vars : VarMap} {u r t : Str} (h : Built vars 0 u r t) : t = u ++ r := by
  generalize hd : 0 = d at h
  induction h with
  | here => rfl
  | lit _ _ ih => rw [ih hd]; simp
  | inner => cases hd
  | next => cases hd

theorem substitute_correct (m : Mode) (vars : VarMap) (hvars : ∀ n v, vars n = some v → blen v < 2 ^ 63) (k : Nat) :
    ∀ (d : UInt8) (s : Str) (used : List Str), d.toNat = k → blen s < 2 ^ 63 →
      Correct (Built vars k [] s) (substituteFull m Rx.var vars d s used) (Verif.substitute vars k s used) := by
  induction k with
  | zero =>
    intro d s used hd hs
    have : d = 0 := UInt8.toNat_inj.1 hd
    subst this
    refine .inr ⟨?_, fun t ht => by rw [built_zero ht]; exact hs⟩
    have hc := Rx.C79_captures s
    rw [substituteFull]
    simp only [Verif.substitute]
    cases hl : captures s with
    | nil =>
      rw [hl] at hc
      have : Rx.capturesIter Rx.var (s.length + 1) 0 s = [] := by simpa using hc
      rw [this]; rfl
    | cons c cs =>
      rw [hl] at hc
      cases hi : Rx.capturesIter Rx.var (s.length + 1) 0 s with
      | nil => rw [hi] at hc; cases hc
      | cons x xs => rfl
  | succ k ih =>
    intro d s used hd hs
    have h0 : d ≠ 0 := by rintro rfl; cases hd
    have hp : (saturatingPred d).toNat = k := by
      have one : (1 : UInt8).toNat = 1 := rfl
      rw [saturatingPred, if_neg h0, UInt8.toNat_sub_of_le]
      · omega
      · rw [UInt8.le_iff_toNat_le]; omega
    rw [substituteFull]
    exact loop_correct m h0 hvars (fun v used hv => by rw [dif_neg h0]; exact ih _ v used hp hv) s.length [] [] s _ _ _ used
      (Nat.le_refl _) (MInv.start m hs) (VInv.start s) (by simpa using hs) (by simpa using hs) (Rx.C79_captures s)

/-- **C80**, `substitute` with machine integers throughout: it panics if a text of `2^63` bytes or more would have to
be allocated on the way, and otherwise it gives what it gives with unbounded numbers.  The build makes no
difference. -/
theorem C80_substitute (m : Mode) (vars : VarMap) (hvars : ∀ n v, vars n = some v → blen v < 2 ^ 63) (d : UInt8) (s : Str)
    (hs : blen s < 2 ^ 63) (used : List Str) (var : Rx.Re) (hvar : Rx.pattern Rx.varText = some var) :
    ((∃ t, Built vars d.toNat [] s t ∧ 2 ^ 63 ≤ blen t) → substituteFull m var vars d s used = none) ∧
    ((∀ t, Built vars d.toNat [] s t → blen t < 2 ^ 63) →
      substituteFull m var vars d s used = Verif.substitute vars d.toNat s used) := by
  rw [Rx.C79_patterns.1, Option.some.injEq] at hvar
  subst hvar
  rcases substitute_correct m vars hvars _ d s used rfl hs with ⟨h1, t, h2, h3⟩ | ⟨h1, h2⟩
  · exact ⟨fun _ => h1, fun h => absurd (h t h2) (by omega)⟩
  · exact ⟨fun ⟨t, ht, hb⟩ => absurd (h2 t ht) (by omega), fun _ => h1⟩

/-- **C80**, `substitute`: a text is given only if it fits, and the expansion of the text. -/
theorem C80_substitute_result (m : Mode) (vars : VarMap) (hvars : ∀ n v, vars n = some v → blen v < 2 ^ 63) (d : UInt8) (s : Str)
    (hs : blen s < 2 ^ 63) (used used' : List Str) (t : Str)
    (h : substituteFull m Rx.var vars d s used = some (some t, used')) : blen t < 2 ^ 63 ∧ Expands vars d.toNat s t := by
  rcases substitute_correct m vars hvars _ d s used rfl hs with ⟨h1, -⟩ | ⟨h1, h2⟩
  · rw [h1] at h; cases h
  · obtain ⟨o, u, h4, h5⟩ := C27_substitute_is_expansion vars d.toNat s used
    rw [h1, h4] at h
    cases h
    have he := (h5 t).1 rfl
    exact ⟨h2 _ (expands_built he []), he⟩

/-! ## examples -/

/-- two levels, texts that grow and texts that shrink -/
example (m : Mode) : substituteFull m Rx.var (fun n => if n = c!"x" then some c!"<${longer}>" else if n = c!"longer" then some c!"é" else none)
    3 c!"a$x-${longer}$x" [] = some (some c!"a<é>-é<é>", [c!"longer", c!"x"]) := by
  cases m <;> decide +kernel

/-- a text of `3 * N` bytes is built, for instance with `N = 2^62`: the third replacement panics -/
example (N : Nat) (h1 : N < 2 ^ 63) (h3 : 2 ^ 63 ≤ 3 * N) (m : Mode) (used : List Str) :
    substituteFull m Rx.var (fun _ => some (List.replicate N 'a')) 16 c!"$x$x$x" used = none := by
  have hb : ∀ n, blen (List.replicate n 'a') = n := by
    intro n
    induction n with
    | zero => rfl
    | succ n ih =>
      have e : blen ('a' :: List.replicate n 'a') = blen ['a'] + blen (List.replicate n 'a') := blen_append ['a'] _
      have : blen ['a'] = 1 := rfl
      rw [List.replicate_succ, e, ih]; omega
  have hx : ∀ k n, Expands (fun _ => some (List.replicate N 'a')) k (List.replicate n 'a') (List.replicate n 'a') := by
    intro k n
    induction n with
    | zero => exact .nil k
    | succ n ih =>
      refine .lit _ _ _ _ (fun n r h => ?_) ih
      rcases h.2.2 with ⟨h, -⟩ | h <;> cases h
  have hr : ∀ r : Str, (r = [] ∨ ∃ r', r = '$' :: r') → RefAt ('$' :: 'x' :: r) c!"x" r := by
    refine fun r hr => ⟨by decide, ?_, .inl ⟨rfl, ?_⟩⟩
    · simp only [List.mem_cons, List.not_mem_nil, or_false, forall_eq]
      exact .inr (.inl (by decide))
    · rcases hr with rfl | ⟨r', rfl⟩
      · intro c cs h; cases h
      · intro c cs h
        cases h
        unfold WordChar; decide
  refine (C80_substitute m _ ?_ 16 c!"$x$x$x" (by decide) used Rx.var Rx.C79_patterns.1).1 ⟨_, .next (hr _ (.inr ⟨_, rfl⟩)) rfl (hx _ _)
    (.next (hr _ (.inr ⟨_, rfl⟩)) rfl (hx _ _) (.next (hr _ (.inl rfl)) rfl (hx _ _) .here)), ?_⟩
  · intro n v hv
    cases hv
    rw [hb]; exact h1
  · simp only [blen_append, hb, blen_nil]; omega

end Mach
end Verif
