import Verif.Model.Regex

/-!
# Machine integers

`Model/Splicer` computes with integers and natural numbers, `Model/Image` with a natural number as
the depth.  Here the same functions of `/repo/src/splicer.rs` and `substitute` are written with the
integers of a 64-bit target, in both ways in which Rust treats overflow: in a debug build it panics,
in a release build the result wraps around.  C80 says for which arguments nothing changes.

Texts are lists of characters; their lengths in bytes are taken to fit (`str::len` is at most
`isize::MAX`).
-/

namespace Verif
namespace Mach

/-- how overflow is treated -/
inductive Mode where
  | debug
  | release
  deriving DecidableEq, Repr

/-- `a + b` for `usize` -/
def addU (m : Mode) (a b : UInt64) : Option UInt64 :=
  match m with
  | .debug => if a.toNat + b.toNat < 2 ^ 64 then some (a + b) else none
  | .release => some (a + b)

/-- `a - b` for `usize` -/
def subU (m : Mode) (a b : UInt64) : Option UInt64 :=
  match m with
  | .debug => if b.toNat ≤ a.toNat then some (a - b) else none
  | .release => some (a - b)

/-- the values of `isize` -/
def fitsI (x : Int) : Bool := decide (-2 ^ 63 ≤ x) && decide (x < 2 ^ 63)

/-- `a + b` for `isize` -/
def addI (m : Mode) (a b : Int64) : Option Int64 :=
  match m with
  | .debug => if fitsI (a.toInt + b.toInt) then some (a + b) else none
  | .release => some (a + b)

/-- `a - b` for `isize` -/
def subI (m : Mode) (a b : Int64) : Option Int64 :=
  match m with
  | .debug => if fitsI (a.toInt - b.toInt) then some (a - b) else none
  | .release => some (a - b)

/-- `SpliceOffset` (`/repo/src/splicer.rs:11-14`) -/
structure SpliceOffset where
  position : UInt64
  offset : Int64
  deriving DecidableEq, Repr

/-- `Span` (`/repo/src/splicer.rs:18-21`) -/
structure Span where
  start : UInt64
  stop : UInt64
  deriving DecidableEq, Repr

/-- the loop body of `adjust_offsets` (`/repo/src/splicer.rs:41-48`); `as usize` keeps the bits -/
def adjustStep (m : Mode) (b : Int64 × Int64) (o : SpliceOffset) : Option (Int64 × Int64) :=
  if o.position < b.1.toUInt64 then do
    let start ← addI m b.1 o.offset
    let stop ← addI m b.2 o.offset
    some (start, stop)
  else if o.position < b.2.toUInt64 then do
    let stop ← addI m b.2 o.offset
    some (b.1, stop)
  else some b

/-- `try_into().ok().unwrap_or(0)` from `isize` to `usize` (`/repo/src/splicer.rs:51-52`) -/
def clamp (x : Int64) : UInt64 := if x < 0 then 0 else x.toUInt64

/-- `Span::adjust_offsets` (`/repo/src/splicer.rs:37-54`); `as isize` keeps the bits -/
def Span.adjustOffsets (m : Mode) (sp : Span) (offsets : List SpliceOffset) : Option Span := do
  let b ← offsets.foldlM (adjustStep m) (sp.start.toInt64, sp.stop.toInt64)
  some ⟨clamp b.1, clamp b.2⟩

/-- `Splicer` (`/repo/src/splicer.rs:132-137`) -/
structure Splicer where
  content : Str
  offsets : List SpliceOffset
  deriving DecidableEq, Repr

/-- `Splicer::from_str` (`/repo/src/splicer.rs:148-153`) -/
def Splicer.fromStr (s : Str) : Splicer := ⟨s, []⟩

/-- `Splicer::splice` (`/repo/src/splicer.rs:163-178`); `none` is a panic -/
def Splicer.splice (m : Mode) (s : Splicer) (span : Span) (replacement : Str) : Option Splicer := do
  let sp ← span.adjustOffsets m s.offsets
  let prevLen ← subU m sp.stop sp.start
  let newLen := UInt64.ofNat (blen replacement)
  let offset ← subI m newLen.toInt64 prevLen.toInt64
  let offsets := s.offsets ++ [⟨sp.start, offset⟩]
  let (beginning, rest) ← splitAtByte s.content sp.start.toNat
  let len ← subU m sp.stop sp.start
  let (_, «end») ← splitAtByte rest len.toNat
  some ⟨beginning ++ replacement ++ «end», offsets⟩

/-- a history of calls to `splice` -/
def Splicer.spliceAll (m : Mode) : Splicer → List (Span × Str) → Option Splicer
  | s, [] => some s
  | s, (span, r) :: es =>
    match s.splice m span r with
    | none => none
    | some s' => Splicer.spliceAll m s' es

/-- the loop of `relative_span` (`/repo/src/splicer.rs:65-74`) -/
def relLoop (m : Mode) (start : UInt64) : UInt64 → List UInt8 → UInt64 → UInt64 → Option (UInt64 × UInt64)
  | _, [], lines, off => some (lines, off)
  | i, c :: cs, lines, off =>
    if i = start then some (lines, off)
    else do
      let next ← addU m i 1
      if c = 10 then do
        let lines ← addU m lines 1
        let off ← addU m i 1
        relLoop m start next cs lines off
      else relLoop m start next cs lines off

/-- `Span::relative_span` (`/repo/src/splicer.rs:62-80`) in a document with the given text -/
def Span.relativeSpan (m : Mode) (sp : Span) (content : Str) : Option (UInt64 × Span) := do
  let (lines, off) ← relLoop m sp.start 0 (bytes content) 0 0
  let start ← subU m sp.start off
  let len ← subU m sp.stop sp.start
  let stop ← addU m start len
  some (lines, ⟨start, stop⟩)

/-- `saturating_sub(1)` for `u8` -/
def saturatingPred (d : UInt8) : UInt8 := if d = 0 then 0 else d - 1

/-- `substitute` (`/repo/src/image.rs:55-94`) with its depth as it is declared; in the loop the depth
is only compared to 0 -/
def substitute (var : Rx.Re) (vars : VarMap) (d : UInt8) (s : Str) (used : List Str) :
    Option (Option Str × List Str) :=
  Rx.loop vars d.toNat
    (fun s used => if _h : d = 0 then none else substitute var vars (saturatingPred d) s used)
    (Rx.capturesIter var (s.length + 1) 0 s) (Verif.Splicer.fromStr s) used
termination_by d.toNat
decreasing_by
  have hd : d.toNat ≠ 0 := fun h => _h (UInt8.toNat_inj.1 h)
  simp only [saturatingPred, _h, if_false]
  have : (d - 1).toNat = d.toNat - 1 := by
    rw [UInt8.toNat_sub_of_le]
    · rfl
    · rw [UInt8.le_iff_toNat_le]
      have : (1 : UInt8).toNat = 1 := rfl
      omega
  omega

/-- what an allocation can have at most: `isize::MAX` bytes, that is less than `2^63` -/
def fitsAlloc (s : Str) : Bool := decide (blen s < 2 ^ 63)

/-- a call to `splice` in `substitute` (`/repo/src/image.rs:90`): the new text is allocated by `format!`, which
panics if it is too large -/
def Splicer.spliceAlloc (m : Mode) (s : Splicer) (span : Span) (replacement : Str) : Option Splicer :=
  match s.splice m span replacement with
  | none => none
  | some s' => if fitsAlloc s'.content then some s' else none

/-- `Span::new(full_range.start, full_range.end)`: a `Range<usize>` -/
def Span.ofRange (r : Verif.Span) : Span := ⟨UInt64.ofNat r.start, UInt64.ofNat r.stop⟩

/-- the loop of `substitute` (`/repo/src/image.rs:72-91`) with machine integers in the splicer -/
def loop (m : Mode) (vars : VarMap) (d : UInt8) (sub : Str → List Str → Option (Option Str × List Str)) :
    List Rx.Caps → Splicer → List Str → Option (Option Str × List Str)
  | [], sp, used => some (some sp.content, used)
  | caps :: more, sp, used =>
    if d = 0 then some (none, used)
    else
      match (caps.get 1).or (caps.get 2) with
      | none => some (none, used)
      | some name =>
        match vars name with
        | none => some (none, used)
        | some content =>
          match sub content used with
          | none => none
          | some (none, used) => some (none, used)
          | some (some text, used) =>
            let used := setInsert name used
            match sp.spliceAlloc m (.ofRange caps.whole) text with
            | none => none
            | some sp => loop m vars d sub more sp used

theorem pred_lt {d : UInt8} (h : d ≠ 0) : (saturatingPred d).toNat < d.toNat := by
  have hd : d.toNat ≠ 0 := fun h' => h (UInt8.toNat_inj.1 h')
  simp only [saturatingPred, h, if_false]
  have : (d - 1).toNat = d.toNat - 1 := by
    rw [UInt8.toNat_sub_of_le]
    · rfl
    · rw [UInt8.le_iff_toNat_le]
      have : (1 : UInt8).toNat = 1 := rfl
      omega
  omega

/-- `substitute` (`/repo/src/image.rs:55-94`) with machine integers throughout -/
def substituteFull (m : Mode) (var : Rx.Re) (vars : VarMap) (d : UInt8) (s : Str) (used : List Str) :
    Option (Option Str × List Str) :=
  loop m vars d
    (fun s used => if _h : d = 0 then none else substituteFull m var vars (saturatingPred d) s used)
    (Rx.capturesIter var (s.length + 1) 0 s) (Splicer.fromStr s) used
termination_by d.toNat
decreasing_by exact pred_lt _h

end Mach
end Verif
