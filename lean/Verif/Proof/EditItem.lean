import Verif.Proof.EditSeg

/-!
# Lines in segments
-/

namespace Verif
namespace Src
open Spec

@[local simp] theorem size_dash : '-'.utf8Size = 1 := rfl
@[local simp] theorem size_equals : '='.utf8Size = 1 := rfl
@[local simp] theorem size_backslash : '\\'.utf8Size = 1 := rfl
@[local simp] theorem size_comma : ','.utf8Size = 1 := rfl
@[local simp] theorem size_bracket : '['.utf8Size = 1 := rfl

/-! ## the segments -/

def Flag.segs (f : Flag) : List Seg :=
  [.fix f.gap, .fix c!"--", .fld .alpha f.name, .fix c!"=", .fld .value f.value]
def flagsSegs (fs : List Flag) : List Seg := fs.flatMap (·.segs)

def Arg.segs (f : Arg) : List Seg := [.fix f.gap, .fld .path f.value]
def argsSegs (fs : List Arg) : List Seg := fs.flatMap (·.segs)

def Pair.segs (k v : Kind) (f : Pair) : List Seg :=
  [.fix f.gap, .fld k f.name.text, .fix c!"=", .fld v f.value.text]
def pairsSegs (k v : Kind) (fs : List Pair) : List Seg := fs.flatMap (·.segs k v)

/-- `k` for physical lines, `c` for comments -/
def Shell.segs (k c : Kind) : Shell → List Seg
  | last t => [.fld k t]
  | lastComment w t n => [.fix w, .fld c t, .fix n]
  | more t w n r => .fld k t :: .fix c!"\\" :: .fix w :: .fix n :: r.segs k c
  | comment w t n r => .fix w :: .fld c t :: .fix n :: r.segs k c

/-- the first physical line, if no comment comes before it -/
def Shell.first : Shell → Option Str
  | last t => some t
  | more t _ _ _ => some t
  | _ => none

/-- the kind of the physical lines of the value of a variable -/
def Shell.envKind : Shell → Kind
  | last _ => .env
  | _ => .text True

/-- the first physical line starts with a blank and is not blank -/
def Shell.BlankWord (s : Shell) : Prop :=
  ∃ t b c u, s.first = some t ∧ t = b ++ c :: u ∧ b ≠ [] ∧ Blanks b ∧ c ≠ ' ' ∧ c ≠ '\t'

def Elem.segs (e : Elem) : List Seg := [.fix e.before, .fix c!",", .fix e.after, .fld .value e.value]
def elemsSegs (es : List Elem) : List Seg := es.flatMap (·.segs)

def Array.segs : Array → List Seg
  | empty g => [.fix c!"[", .fix g, .fix c!"]"]
  | full g v es c g' => .fix c!"[" :: .fix g :: .fld .value v :: (elemsSegs es ++ [.fix (tail c g')])

def aliasSegs : Option AliasText → List Seg
  | some a => [.fix a.gap, .fix a.kw, .fix a.gap', .fld .ident a.name]
  | none => []

def valueSegs : Option Value → List Seg
  | some v => [.fix c!"=", .fld .value v.text]
  | none => []

/-- everything behind the keyword -/
def Item.rest : Item → List Seg
  | blank => []
  | comment t => [.fix t]
  | «from» _ fs g i a => flagsSegs fs ++ .fix g :: .fld .image i :: aliasSegs a
  | arg _ g n v => .fix g :: .fld .argName n :: valueSegs v
  | label _ ps t => pairsSegs .label .label ps ++ [.fix t]
  | label1 _ g n g' v => [.fix g, .fld .label n.text, .fix g', .fld .label v.text]
  | shell _ _ g s => .fix g :: s.segs (.text True) (.text True)
  | exec _ _ g a => .fix g :: a.segs
  | copy _ fs ss d => flagsSegs fs ++ (argsSegs ss ++ d.segs)
  | env _ ps t => pairsSegs .word .env ps ++ [.fix t]
  | env1 _ g n g' s => .fix g :: .fld .word n :: .fix g' :: s.segs s.envKind (.text True)
  | env1q _ g n g' v => [.fix g, .fld .word n, .fix g', .fld .env v]
  | misc w a => a.segs (.text (¬ IsKeyword w ∧ a.BlankWord)) (.text (¬ IsKeyword w ∧ a.BlankWord))

def Item.kw : Item → Str
  | blank => []
  | comment _ => []
  | «from» kw _ _ _ _ => kw
  | arg kw _ _ _ => kw
  | label kw _ _ => kw
  | label1 kw _ _ _ _ => kw
  | shell _ kw _ _ => kw
  | exec _ kw _ _ => kw
  | copy kw _ _ _ => kw
  | env kw _ _ => kw
  | env1 kw _ _ _ _ => kw
  | env1q kw _ _ _ _ => kw
  | misc w _ => w

def Item.segs (i : Item) : List Seg := .fix i.kw :: i.rest

def Line.segs (l : Line) : List Seg := .fix l.indent :: (l.item.segs ++ [.fix l.trail])

def docSegs : Line → List (Str × Line) → List Seg
  | l, [] => l.segs
  | l, (n, m) :: ms => l.segs ++ .fix n :: docSegs m ms

theorem flags_text (fs : List Flag) : segText (flagsSegs fs) = flagsText fs := by
  induction fs with
  | nil => rfl
  | cons f fs ih =>
    rw [flagsText_cons, ← ih]
    simp [flagsSegs, Flag.segs, Flag.text, Flag.body]

theorem args_text (fs : List Arg) : segText (argsSegs fs) = argsText fs := by
  induction fs with
  | nil => rfl
  | cons f fs ih =>
    rw [argsText_cons, ← ih]
    simp [argsSegs, Arg.segs, Arg.text]

theorem arg_text (f : Arg) : segText f.segs = f.text := by simp [Arg.segs, Arg.text]

theorem pair_text (k v : Kind) (f : Pair) : segText (f.segs k v) = f.text := by
  simp [Pair.segs, Pair.text, Pair.body]

theorem pairs_text (k v : Kind) (fs : List Pair) : segText (pairsSegs k v fs) = pairsText fs := by
  induction fs with
  | nil => rfl
  | cons f fs ih =>
    rw [pairsText_cons, ← ih, ← pair_text k v]
    simp [pairsSegs]

theorem shell_text (k c : Kind) (s : Shell) : segText (s.segs k c) = s.text := by
  induction s <;> simp_all [Shell.segs, Shell.text]

theorem elems_text (fs : List Elem) : segText (elemsSegs fs) = elemsText fs := by
  induction fs with
  | nil => rfl
  | cons f fs ih =>
    rw [elemsText_cons, ← ih]
    simp [elemsSegs, Elem.segs, Elem.text]

theorem array_text (a : Array) : segText a.segs = a.text := by
  cases a <;> simp [Array.segs, Array.text, elems_text]

theorem alias_text (a : Option AliasText) : segText (aliasSegs a) = aliasText a := by
  cases a <;> simp [aliasSegs, aliasText, AliasText.text]

theorem value_text (v : Option Value) : segText (valueSegs v) = valueText v := by
  cases v <;> simp [valueSegs, valueText]

theorem item_text (i : Item) : segText i.segs = i.text := by
  cases i <;> simp [Item.segs, Item.kw, Item.rest, Item.text, flags_text, args_text, pairs_text, shell_text,
    array_text, alias_text, value_text, arg_text]

theorem item_text_kw (i : Item) : i.text = i.kw ++ segText i.rest := by
  rw [← item_text]; simp [Item.segs]

theorem line_segs_text (l : Line) : segText l.segs = l.text := by
  simp [Line.segs, Line.text, item_text]

theorem docSegs_text (ms : List (Str × Line)) : ∀ l, segText (docSegs l ms) = docText l ms := by
  induction ms with
  | nil => exact line_segs_text
  | cons m ms ih =>
    intro l
    simp [docSegs, docText, line_segs_text, ih]

/-! ## replacing -/

variable (new : Span → Option Str)

def Flag.put (p : Nat) (f : Flag) : Flag :=
  { f with name := Src.put new (p + blen f.gap + 2) f.name
           value := Src.put new (p + blen f.gap + 2 + blen f.name + 1) f.value }

def flagsPut : Nat → List Flag → List Flag
  | _, [] => []
  | p, f :: fs => f.put new p :: flagsPut (p + blen f.text) fs

def Arg.put (p : Nat) (f : Arg) : Arg := { f with value := Src.put new (p + blen f.gap) f.value }

def argsPut : Nat → List Arg → List Arg
  | _, [] => []
  | p, f :: fs => f.put new p :: argsPut (p + blen f.text) fs

def Value.put (p : Nat) : Value → Value
  | quoted t => quoted (Src.put new p t)
  | bare t => bare (Src.put new p t)

def Pair.put (p : Nat) (f : Pair) : Pair :=
  { f with name := f.name.put new (p + blen f.gap)
           value := f.value.put new (p + blen f.gap + blen f.name.text + 1) }

def pairsPut : Nat → List Pair → List Pair
  | _, [] => []
  | p, f :: fs => f.put new p :: pairsPut (p + blen f.text) fs

def Shell.put (p : Nat) : Shell → Shell
  | last t => last (Src.put new p t)
  | lastComment w t n => lastComment w (Src.put new (p + blen w) t) n
  | more t w n r => more (Src.put new p t) w n (r.put (p + blen t + 1 + blen w + blen n))
  | comment w t n r => comment w (Src.put new (p + blen w) t) n (r.put (p + blen w + blen t + blen n))

def Elem.put (p : Nat) (e : Elem) : Elem :=
  { e with value := Src.put new (p + blen e.before + 1 + blen e.after) e.value }

def elemsPut : Nat → List Elem → List Elem
  | _, [] => []
  | p, f :: fs => f.put new p :: elemsPut (p + blen f.text) fs

def Array.put (p : Nat) : Array → Array
  | empty g => empty g
  | full g v es c g' => full g (Src.put new (p + 1 + blen g) v) (elemsPut new (p + 1 + blen g + blen v) es) c g'

def aliasPut (p : Nat) (a : AliasText) : AliasText :=
  { a with name := put new (p + blen a.gap + blen a.kw + blen a.gap') a.name }

def Item.put (p : Nat) : Item → Item
  | blank => blank
  | comment t => comment t
  | «from» kw fs g i a => «from» kw (flagsPut new (p + blen kw) fs) g
      (Src.put new (p + blen kw + blen (flagsText fs) + blen g) i)
      (a.map (aliasPut new (p + blen kw + blen (flagsText fs) + blen g + blen i)))
  | arg kw g n v => arg kw g (Src.put new (p + blen kw + blen g) n)
      (v.map (Value.put new (p + blen kw + blen g + blen n + 1)))
  | label kw ps t => label kw (pairsPut new (p + blen kw) ps) t
  | label1 kw g n g' v => label1 kw g (n.put new (p + blen kw + blen g)) g'
      (v.put new (p + blen kw + blen g + blen n.text + blen g'))
  | shell k kw g s => shell k kw g (s.put new (p + blen kw + blen g))
  | exec k kw g a => exec k kw g (a.put new (p + blen kw + blen g))
  | copy kw fs ss d => copy kw (flagsPut new (p + blen kw) fs)
      (argsPut new (p + blen kw + blen (flagsText fs)) ss)
      (d.put new (p + blen kw + blen (flagsText fs) + blen (argsText ss)))
  | env kw ps t => env kw (pairsPut new (p + blen kw) ps) t
  | env1 kw g n g' s => env1 kw g (Src.put new (p + blen kw + blen g) n) g'
      (s.put new (p + blen kw + blen g + blen n + blen g'))
  | env1q kw g n g' v => env1q kw g (Src.put new (p + blen kw + blen g) n) g'
      (Src.put new (p + blen kw + blen g + blen n + blen g') v)
  | misc w a => misc w (a.put new (p + blen w))

def Line.put (p : Nat) (l : Line) : Line := { l with item := l.item.put new (p + blen l.indent) }

/-- `p`: where the first line break starts -/
def docPut : Nat → List (Str × Line) → List (Str × Line)
  | _, [] => []
  | p, (n, m) :: ms => (n, m.put new (p + blen n)) :: docPut (p + blen n + blen m.text) ms

variable {new : Span → Option Str}

@[simp] theorem Value.put_text (p : Nat) (v : Value) : (v.put new p).text = Src.put new p v.text := by
  cases v <;> rfl

theorem flags_put (fs : List Flag) : ∀ p, segPut new p (flagsSegs fs) = flagsSegs (flagsPut new p fs) := by
  induction fs with
  | nil => intro p; rfl
  | cons f fs ih =>
    intro p
    rw [show flagsSegs (f :: fs) = f.segs ++ flagsSegs fs by simp [flagsSegs], segPut_append, ih]
    have : blen (segText f.segs) = blen f.text := by simp [Flag.segs, Flag.text, Flag.body]
    rw [this, flagsPut, show ∀ x xs, flagsSegs (x :: xs) = x.segs ++ flagsSegs xs by simp [flagsSegs]]
    simp [Flag.segs, segPut, Flag.put, Nat.add_assoc]

theorem args_put (fs : List Arg) : ∀ p, segPut new p (argsSegs fs) = argsSegs (argsPut new p fs) := by
  induction fs with
  | nil => intro p; rfl
  | cons f fs ih =>
    intro p
    rw [show argsSegs (f :: fs) = f.segs ++ argsSegs fs by simp [argsSegs], segPut_append, ih, arg_text,
      argsPut, show ∀ x xs, argsSegs (x :: xs) = x.segs ++ argsSegs xs by simp [argsSegs]]
    simp [Arg.segs, segPut, Arg.put]

theorem pairs_put (k v : Kind) (fs : List Pair) : ∀ p,
    segPut new p (pairsSegs k v fs) = pairsSegs k v (pairsPut new p fs) := by
  induction fs with
  | nil => intro p; rfl
  | cons f fs ih =>
    intro p
    rw [show pairsSegs k v (f :: fs) = f.segs k v ++ pairsSegs k v fs by simp [pairsSegs], segPut_append, ih, pair_text,
      pairsPut, show ∀ x xs, pairsSegs k v (x :: xs) = x.segs k v ++ pairsSegs k v xs by simp [pairsSegs]]
    simp [Pair.segs, segPut, Pair.put, Nat.add_assoc]

theorem shell_put (k c : Kind) (s : Shell) : ∀ p, segPut new p (s.segs k c) = (s.put new p).segs k c := by
  induction s with
  | last t => intro p; rfl
  | lastComment w t n => intro p; rfl
  | more t w n s ih => intro p; simp [Shell.segs, Shell.put, segPut, ih, Nat.add_assoc]
  | comment w t n s ih => intro p; simp [Shell.segs, Shell.put, segPut, ih, Nat.add_assoc]

theorem elems_put (fs : List Elem) : ∀ p, segPut new p (elemsSegs fs) = elemsSegs (elemsPut new p fs) := by
  induction fs with
  | nil => intro p; rfl
  | cons f fs ih =>
    intro p
    rw [show elemsSegs (f :: fs) = f.segs ++ elemsSegs fs by simp [elemsSegs], segPut_append, ih]
    have : blen (segText f.segs) = blen f.text := by simp [Elem.segs, Elem.text]
    rw [this, elemsPut, show ∀ x xs, elemsSegs (x :: xs) = x.segs ++ elemsSegs xs by simp [elemsSegs]]
    simp [Elem.segs, segPut, Elem.put, Nat.add_assoc]

theorem array_put (a : Array) (p : Nat) : segPut new p a.segs = (a.put new p).segs := by
  cases a with
  | empty g => rfl
  | full g v es c g' => simp [Array.segs, Array.put, segPut, segPut_append, elems_put, Nat.add_assoc]

theorem item_rest_put (i : Item) (p : Nat) :
    segText (segPut new (p + blen i.kw) i.rest) = segText (i.put new p).rest := by
  cases i with
  | blank => rfl
  | comment t => rfl
  | «from» kw fs g i a =>
    cases a <;> simp [Item.kw, Item.rest, Item.put, segPut_append, flags_put, flags_text, segPut, aliasSegs,
      aliasPut]
  | arg kw g n v =>
    cases v <;> simp [Item.kw, Item.rest, Item.put, segPut, valueSegs]
  | label kw ps t => simp [Item.kw, Item.rest, Item.put, segPut_append, pairs_put, segPut]
  | label1 kw g n g' v => simp [Item.kw, Item.rest, Item.put, segPut]
  | shell k kw g s => simp [Item.kw, Item.rest, Item.put, segPut, shell_put]
  | exec k kw g a => simp [Item.kw, Item.rest, Item.put, segPut, array_put]
  | copy kw fs ss d =>
    simp [Item.kw, Item.rest, Item.put, segPut_append, flags_put, args_put, flags_text, args_text, segPut,
      Arg.segs, Arg.put]
  | env kw ps t => simp [Item.kw, Item.rest, Item.put, segPut_append, pairs_put, segPut]
  | env1 kw g n g' s => simp [Item.kw, Item.rest, Item.put, segPut, shell_put, shell_text]
  | env1q kw g n g' v => simp [Item.kw, Item.rest, Item.put, segPut]
  | misc w a => simp [Item.kw, Item.rest, Item.put, shell_put, shell_text]

theorem item_kw_put (i : Item) (p : Nat) : (i.put new p).kw = i.kw := by cases i <;> rfl

theorem item_put (i : Item) (p : Nat) : segText (segPut new p i.segs) = (i.put new p).text := by
  rw [Item.segs, segPut, segText_fix, item_rest_put, item_text_kw, item_kw_put]

theorem line_put (l : Line) (p : Nat) : segText (segPut new p l.segs) = (l.put new p).text := by
  rw [Line.segs, segPut, segText_fix, segPut_append, segText_append, item_put, Line.text, Line.put, segPut, segPut]
  simp

theorem doc_put (ms : List (Str × Line)) : ∀ (l : Line) (p : Nat),
    segText (segPut new p (docSegs l ms)) = docText (l.put new p) (docPut new (p + blen l.text) ms) := by
  induction ms with
  | nil => exact fun l p => line_put l p
  | cons m ms ih =>
    intro l p
    rw [docSegs, segPut_append, segText_append, line_put, line_segs_text, segPut, segText_fix, ih]
    rfl

end Src
end Verif
