import Verif.Spec.Document
import Verif.Spec.Fields
import Verif.Spec.Keyword

/-!
# Specification: writing down a Dockerfile

`Item` is a line (possibly continued over several physical lines) of a Dockerfile in written form,
with all freedom of layout: casing of keywords, blanks, continuations, comments inside of
continuations, quoting.  `text` is what is written, `instr p` is the instruction it stands for when
written at byte offset `p`, and `OK` are the conditions under which it is well-formed.  Nothing
here refers to the grammar or the parser.  (C35-C40)
-/

namespace Verif
namespace Spec

/-! ## space -/

/-- a line break -/
def Break (n : Str) : Prop := n = ['\n'] ∨ n = ['\r', '\n']

/-- blank lines and comment lines -/
inductive SkipLines : Str → Prop
  | nil : SkipLines []
  | blank {w n r} : Blanks w → Break n → SkipLines r → SkipLines (w ++ (n ++ r))
  | comment {w t n r} : Blanks w → CommentText t → Break n → SkipLines r →
      SkipLines (w ++ (t ++ (n ++ r)))

/-- blanks and line continuations, the latter possibly followed by blank and comment lines -/
inductive Space : Str → Prop
  | nil : Space []
  | blank {c g} : c = ' ' ∨ c = '\t' → Space g → Space (c :: g)
  | continuation {w n l g} : Blanks w → Break n → SkipLines l → Space g →
      Space ('\\' :: (w ++ (n ++ (l ++ g))))

/-- the space `g` in front of the argument `a`; an argument that looks like a comment cannot be
put on a new line -/
def Gap (g a : Str) : Prop := Space g ∧ g ≠ [] ∧ (Blanks g ∨ ∀ r, a ≠ '#' :: r)

/-! ## arguments -/

def NoSpace (w : Str) : Prop := ∀ c ∈ w, c ≠ ' ' ∧ c ≠ '\t' ∧ c ≠ '\n' ∧ c ≠ '\r'

/-- a word: no blanks or line breaks, and no backslash at the end -/
def WordText (w : Str) : Prop := w ≠ [] ∧ NoSpace w ∧ w.getLast? ≠ some '\\'

/-- what may stand between quotes `q`: characters other than the quote, backslash and two control
characters; backslash with a quote or backslash; any other backslash -/
inductive QuotedBody (q : Char) : Str → Prop
  | nil : QuotedBody q []
  | chr {c t} : c ≠ q → c ≠ '\\' → c ≠ '\x00' → c ≠ '\x1F' → QuotedBody q t → QuotedBody q (c :: t)
  | escaped {c t} : c = '"' ∨ c = '\'' ∨ c = '\\' → QuotedBody q t → QuotedBody q ('\\' :: c :: t)
  | backslash {c t} : c ≠ '"' → c ≠ '\'' → c ≠ '\\' → QuotedBody q (c :: t) →
      QuotedBody q ('\\' :: c :: t)

def QuotedText (t : Str) : Prop :=
  ∃ q b, t = q :: (b ++ [q]) ∧ (q = '"' ∨ q = '\'') ∧ QuotedBody q b

/-- a quoted text or a word that does not start with a quote -/
def ValueText (t : Str) : Prop :=
  QuotedText t ∨ (WordText t ∧ ∀ r, t ≠ '"' :: r ∧ t ≠ '\'' :: r)

/-! ## flags: `--name=value` -/

structure FlagText where
  gap : Str
  name : Str
  value : Str
  /-- what the value stands for -/
  content : Str

namespace FlagText
def body (f : FlagText) : Str := '-' :: '-' :: (f.name ++ '=' :: f.value)
def text (f : FlagText) : Str := f.gap ++ f.body
def flag (p : Nat) (f : FlagText) : Flag :=
  let s := p + blen f.gap
  { span := ⟨s, s + blen f.body⟩
    name := ⟨⟨s + 2, s + 2 + blen f.name⟩, f.name⟩
    value := ⟨⟨s + 2 + blen f.name + 1, s + blen f.body⟩, f.content⟩ }
def OK (unq : Unquote) (f : FlagText) : Prop :=
  Gap f.gap f.body ∧ f.name ≠ [] ∧ (∀ c ∈ f.name, IsAlpha c) ∧ WordText f.value ∧
    Reads unq f.value f.content
end FlagText

def flagsText (fs : List FlagText) : Str := fs.flatMap (·.text)

def flagsAt : Nat → List FlagText → List Flag
  | _, [] => []
  | p, f :: fs => f.flag p :: flagsAt (p + blen f.text) fs

/-- the text of a flag -/
def LooksLikeFlag (w : Str) : Prop :=
  ∃ n v, w = '-' :: '-' :: (n ++ '=' :: v) ∧ n ≠ [] ∧ (∀ c ∈ n, IsAlpha c) ∧ v ≠ []

/-! ## fields -/

/-- an argument after a gap: its text, and what it stands for -/
structure FieldText where
  gap : Str
  value : Str
  content : Str

namespace FieldText
def text (f : FieldText) : Str := f.gap ++ f.value
def field (p : Nat) (f : FieldText) : SpannedString :=
  ⟨⟨p + blen f.gap, p + blen f.gap + blen f.value⟩, f.content⟩
/-- the field is a word -/
def OK (unq : Unquote) (f : FieldText) : Prop :=
  Gap f.gap f.value ∧ WordText f.value ∧ Reads unq f.value f.content
end FieldText

def fieldsText (fs : List FieldText) : Str := fs.flatMap (·.text)

def fieldsAt : Nat → List FieldText → List SpannedString
  | _, [] => []
  | p, f :: fs => f.field p :: fieldsAt (p + blen f.text) fs

/-! ## pairs: `name=value` -/

structure PairText where
  gap : Str
  name : Str
  nameContent : Str
  value : Str
  content : Str

namespace PairText
def body (f : PairText) : Str := f.name ++ '=' :: f.value
def text (f : PairText) : Str := f.gap ++ f.body
def nameAt (p : Nat) (f : PairText) : SpannedString :=
  ⟨⟨p + blen f.gap, p + blen f.gap + blen f.name⟩, f.nameContent⟩
def valueSpan (p : Nat) (f : PairText) : Span :=
  ⟨p + blen f.gap + blen f.name + 1, p + blen f.gap + blen f.body⟩
def label (p : Nat) (f : PairText) : Label :=
  { span := ⟨p + blen f.gap, p + blen f.gap + blen f.body⟩
    name := f.nameAt p
    value := ⟨f.valueSpan p, f.content⟩ }
def envVar (p : Nat) (f : PairText) : EnvVar :=
  { span := ⟨p + blen f.gap, p + blen f.gap + blen f.body⟩
    key := f.nameAt p
    value := ⟨f.valueSpan p, [.string ⟨f.valueSpan p, f.content⟩]⟩ }
end PairText

def pairsText (fs : List PairText) : Str := fs.flatMap (·.text)

def labelsAt : Nat → List PairText → List Label
  | _, [] => []
  | p, f :: fs => f.label p :: labelsAt (p + blen f.text) fs

def envVarsAt : Nat → List PairText → List EnvVar
  | _, [] => []
  | p, f :: fs => f.envVar p :: envVarsAt (p + blen f.text) fs

/-- an environment variable: the value is quoted, or a word that stands for itself -/
def PairText.EnvOK (unq : Unquote) (f : PairText) : Prop :=
  Gap f.gap f.body ∧ f.name ≠ [] ∧ (∀ c ∈ f.name, IsWord c) ∧ f.nameContent = f.name ∧
    ((QuotedText f.value ∧ unq f.value = .ok f.content) ∨
     (WordText f.value ∧ (∀ r, f.value ≠ '"' :: r ∧ f.value ≠ '\'' :: r) ∧ f.content = f.value))

/-- the unquoted name of a label -/
def LabelWord (t : Str) : Prop :=
  t ≠ [] ∧ NoSpace t ∧ (∀ c ∈ t, c ≠ '=') ∧ ¬ StartsQuoted t

def LabelName (unq : Unquote) (t c : Str) : Prop :=
  (QuotedText t ∧ LabelReads unq t c) ∨ (LabelWord t ∧ c = t)

/-- the value of a label: quoted, or a word not starting with one of the quotes `"` and `'` (a word
starting with a backquote must be readable) -/
def LabelValue (unq : Unquote) (t c : Str) : Prop :=
  (QuotedText t ∧ LabelReads unq t c) ∨
  (WordText t ∧ (∀ r, t ≠ '"' :: r ∧ t ≠ '\'' :: r) ∧ Reads unq t c)

def PairText.LabelOK (unq : Unquote) (f : PairText) : Prop :=
  Gap f.gap f.body ∧ LabelName unq f.name f.nameContent ∧ LabelValue unq f.value f.content

/-! ## shell text -/

/-- a logical line over several physical ones -/
inductive Shell where
  /-- the last physical line -/
  | last (t : Str)
  /-- `t`, backslash, blanks `w`, line break `n` -/
  | more (t w n : Str) (rest : Shell)
  /-- blanks `w`, a comment `t`, line break `n` -/
  | comment (w t n : Str) (rest : Shell)

namespace Shell
def text : Shell → Str
  | last t => t
  | more t w n r => t ++ '\\' :: (w ++ (n ++ r.text))
  | comment w t n r => w ++ (t ++ (n ++ r.text))
def components (p : Nat) : Shell → List BreakableStringComponent
  | last t => [.string ⟨⟨p, p + blen t⟩, t⟩]
  | more t w n r => .string ⟨⟨p, p + blen t⟩, t⟩ ::
      r.components (p + blen t + 1 + blen w + blen n)
  | comment w t n r => .comment ⟨⟨p + blen w, p + blen w + blen t⟩, t⟩ ::
      r.components (p + blen w + blen t + blen n)
def string (p : Nat) (s : Shell) : BreakableString :=
  { span := ⟨p, p + blen s.text⟩, components := s.components p }
/-- the text of one physical line, not a comment -/
def LineOK (t : Str) : Prop :=
  t ≠ [] ∧ (∀ c ∈ t, c ≠ '\n' ∧ c ≠ '\r') ∧ ∀ w r, Blanks w → t ≠ w ++ '#' :: r
def OK : Shell → Prop
  | last t => LineOK t ∧ ∀ a w, Blanks w → t ≠ a ++ '\\' :: w
  | more t w n r => LineOK t ∧ Blanks w ∧ Break n ∧ r.OK
  | comment w t n r => Blanks w ∧ CommentText t ∧ Break n ∧ r.OK
/-- does not start with a comment line -/
def StartsWithText : Shell → Prop
  | comment .. => False
  | _ => True
end Shell

/-- shell text after a gap -/
def StartsArgument (t : Str) : Prop :=
  ∃ c r, t = c :: r ∧ c ≠ ' ' ∧ c ≠ '\t' ∧ c ≠ '#'

/-- does not look like the beginning of an array -/
def NotArray (t : Str) : Prop :=
  ∀ w c r, Blanks w → t = '[' :: (w ++ c :: r) → c = ' ' ∨ c = '\t' ∨
    (c ≠ '"' ∧ c ≠ '\'' ∧ c ≠ ']' ∧ c ≠ '\\')

/-! ## arrays -/

/-- an element other than the first: space, comma, space, string -/
structure ElemText where
  before : Str
  after : Str
  value : Str
  content : Str

namespace ElemText
def text (e : ElemText) : Str := e.before ++ ',' :: (e.after ++ e.value)
def elem (p : Nat) (e : ElemText) : SpannedString :=
  let s := p + blen e.before + 1 + blen e.after
  ⟨⟨s, s + blen e.value⟩, e.content⟩
def OK (unq : Unquote) (e : ElemText) : Prop :=
  Space e.before ∧ Space e.after ∧ QuotedText e.value ∧ unq e.value = .ok e.content
end ElemText

def elemsText (es : List ElemText) : Str := es.flatMap (·.text)

def elemsAt : Nat → List ElemText → List SpannedString
  | _, [] => []
  | p, e :: es => e.elem p :: elemsAt (p + blen e.text) es

inductive ArrayText where
  | empty (gap : Str)
  /-- the first element after a gap, the others, an optional comma, and a gap -/
  | full (gap value content : Str) (rest : List ElemText) (comma : Bool) (gap' : Str)

namespace ArrayText
def text : ArrayText → Str
  | empty g => '[' :: (g ++ [']'])
  | full g v _ es c g' => '[' :: (g ++ (v ++ (elemsText es ++
      ((if c then [','] else []) ++ (g' ++ [']'])))))
def elements (p : Nat) : ArrayText → List SpannedString
  | empty _ => []
  | full g v c es _ _ =>
    ⟨⟨p + 1 + blen g, p + 1 + blen g + blen v⟩, c⟩ :: elemsAt (p + 1 + blen g + blen v) es
def OK (unq : Unquote) : ArrayText → Prop
  | empty g => Space g
  | full g v c es _ g' =>
    Space g ∧ QuotedText v ∧ unq v = .ok c ∧ (∀ e ∈ es, e.OK unq) ∧ Space g'
end ArrayText

/-! ## items -/

inductive ExecKind where
  | run | cmd | entrypoint

def ExecKind.keyword : ExecKind → Str
  | run => c!"run"
  | cmd => c!"cmd"
  | entrypoint => c!"entrypoint"

def ExecKind.instr : ExecKind → ExecInstruction → Instruction
  | run, i => .run i
  | cmd, i => .cmd i
  | entrypoint, i => .entrypoint i

/-- gap, the word `AS`, gap, name -/
structure AliasText where
  gap : Str
  kw : Str
  gap' : Str
  name : Str

namespace AliasText
def text (a : AliasText) : Str := a.gap ++ (a.kw ++ (a.gap' ++ a.name))
def name_at (p : Nat) (a : AliasText) : SpannedString :=
  let s := p + blen a.gap + blen a.kw + blen a.gap'
  ⟨⟨s, s + blen a.name⟩, a.name⟩
def OK (a : AliasText) : Prop :=
  Gap a.gap a.kw ∧ lower a.kw = c!"as" ∧ Gap a.gap' a.name ∧ a.name ≠ [] ∧
    ∀ c ∈ a.name, IsIdent c
end AliasText

/-- the digest of an image, if any, is the word `sha256`, a colon, and 64 bytes containing a hex
digit -/
def DigestOK (r : ImageRef) : Prop :=
  ∀ h, r.hash = some h → ∃ d, h = c!"sha256:" ++ d ∧ ':' ∉ d ∧ blen d = 64 ∧
    ∃ c ∈ d, ('0' ≤ c ∧ c ≤ '9') ∨ ('a' ≤ c ∧ c ≤ 'f') ∨ ('A' ≤ c ∧ c ≤ 'F')

inductive Item where
  | blank
  | comment (t : Str)
  | «from» (kw : Str) (flags : List FlagText) (gap image : Str) (alias : Option AliasText)
  | arg (kw gap name : Str) (value : Option (Str × Str))
  /-- `LABEL name=value ...` -/
  | label (kw : Str) (pairs : List PairText) (trail : Str)
  /-- `LABEL name value` -/
  | label1 (kw : Str) (name value : FieldText)
  | shell (k : ExecKind) (kw gap : Str) (s : Shell)
  | exec (k : ExecKind) (kw gap : Str) (a : ArrayText)
  | copy (kw : Str) (flags : List FlagText) (sources : List FieldText) (dest : FieldText)
  /-- `ENV name=value ...` -/
  | env (kw : Str) (pairs : List PairText) (trail : Str)
  /-- `ENV name text` -/
  | env1 (kw gap name gap' : Str) (s : Shell)
  /-- `ENV name "text"` -/
  | env1q (kw gap name gap' value content : Str)
  | misc (word : Str) (args : Shell)

namespace Item

def text : Item → Str
  | blank => []
  | comment t => t
  | «from» kw fs g i a => kw ++ (flagsText fs ++ (g ++ (i ++ (a.map (·.text)).getD [])))
  | arg kw g n v => kw ++ (g ++ (n ++ (v.map fun v => '=' :: v.1).getD []))
  | label kw ps t => kw ++ (pairsText ps ++ t)
  | label1 kw n v => kw ++ (n.text ++ v.text)
  | shell _ kw g s => kw ++ (g ++ s.text)
  | exec _ kw g a => kw ++ (g ++ a.text)
  | copy kw fs ss d => kw ++ (flagsText fs ++ (fieldsText ss ++ d.text))
  | env kw ps t => kw ++ (pairsText ps ++ t)
  | env1 kw g n g' s => kw ++ (g ++ (n ++ (g' ++ s.text)))
  | env1q kw g n g' v _ => kw ++ (g ++ (n ++ (g' ++ v)))
  | misc w a => w ++ a.text

/-- The instruction written at offset `p`; the index of a `FROM` is left at 0. -/
def instr (p : Nat) (i : Item) : Option Instruction :=
  let span : Span := ⟨p, p + blen i.text⟩
  match i with
  | blank => none
  | comment _ => none
  | «from» kw fs g i a =>
    let q := p + blen kw + blen (flagsText fs) + blen g
    some (.from { span, flags := flagsAt (p + blen kw) fs
                  image := ⟨⟨q, q + blen i⟩, i⟩, image_parsed := ImageRef.parse i, index := 0
                  alias := a.map (·.name_at (q + blen i)) })
  | arg kw g n v =>
    let q := p + blen kw + blen g
    some (.arg { span, name := ⟨⟨q, q + blen n⟩, n⟩
                 value := v.map fun v =>
                   ⟨⟨q + blen n + 1, q + blen n + 1 + blen v.1⟩, v.2⟩ })
  | label kw ps _ => some (.label { span, labels := labelsAt (p + blen kw) ps })
  | label1 kw n v =>
    let q := p + blen kw
    some (.label { span, labels := [{ span := ⟨q, q + blen n.text + blen v.text⟩
                                      name := n.field q
                                      value := v.field (q + blen n.text) }] })
  | shell k kw g s => some (k.instr { span, expr := .shell (s.string (p + blen kw + blen g)) })
  | exec k kw g a =>
    let q := p + blen kw + blen g
    some (k.instr { span, expr := .exec ⟨⟨q, q + blen a.text⟩, a.elements q⟩ })
  | copy kw fs ss d =>
    let q := p + blen kw + blen (flagsText fs)
    some (.copy { span, flags := flagsAt (p + blen kw) fs, sources := fieldsAt q ss
                  destination := d.field (q + blen (fieldsText ss)) })
  | env kw ps _ => some (.env { span, vars := envVarsAt (p + blen kw) ps })
  | env1 kw g n g' s =>
    let q := p + blen kw + blen g
    let r := q + blen n + blen g'
    some (.env { span, vars := [{ span := ⟨q, r + blen s.text⟩, key := ⟨⟨q, q + blen n⟩, n⟩
                                  value := s.string r }] })
  | env1q kw g n g' v c =>
    let q := p + blen kw + blen g
    let r := q + blen n + blen g'
    let sp : Span := ⟨r, r + blen v⟩
    some (.env { span, vars := [{ span := ⟨q, r + blen v⟩, key := ⟨⟨q, q + blen n⟩, n⟩
                                  value := ⟨sp, [.string ⟨sp, c⟩]⟩ }] })
  | misc w a => some (.misc { span, instruction := ⟨⟨p, p + blen w⟩, w⟩
                              arguments := a.string (p + blen w) })

def OK (unq : Unquote) : Item → Prop
  | blank => True
  | comment t => CommentText t
  | «from» kw fs g i a =>
    lower kw = c!"from" ∧ (∀ f ∈ fs, f.OK unq) ∧ Gap g i ∧ i ≠ [] ∧ (∀ c ∈ i, IsImageChar c) ∧
      DigestOK (ImageRef.parse i) ∧ ∀ x, a = some x → x.OK
  | arg kw g n v =>
    lower kw = c!"arg" ∧ Gap g n ∧ (∃ c r, n = c :: r ∧ IsAlpha c ∧ ∀ d ∈ r, IsWord d) ∧
      ∀ x, v = some x → ValueText x.1 ∧ Reads unq x.1 x.2
  | label kw ps t =>
    lower kw = c!"label" ∧ (∀ f ∈ ps, f.LabelOK unq) ∧ Blanks t ∧ (ps ≠ [] ∨ t ≠ [])
  | label1 kw n v =>
    lower kw = c!"label" ∧ Gap n.gap n.value ∧ LabelName unq n.value n.content ∧
      Gap v.gap v.value ∧ (∀ r, v.gap ≠ '\\' :: r) ∧ LabelValue unq v.value v.content
  | shell k kw g s =>
    lower kw = k.keyword ∧ Gap g s.text ∧ '#' ∉ g ∧ s.OK ∧ s.StartsWithText ∧
      StartsArgument s.text ∧ NotArray s.text
  | exec k kw g a => lower kw = k.keyword ∧ Gap g a.text ∧ '#' ∉ g ∧ a.OK unq
  | copy kw fs ss d =>
    lower kw = c!"copy" ∧ (∀ f ∈ fs, f.OK unq) ∧ ss ≠ [] ∧ (∀ f ∈ ss, f.OK unq) ∧ d.OK unq ∧
      ∀ f r, ss = f :: r → ¬ LooksLikeFlag f.value
  | env kw ps t => lower kw = c!"env" ∧ (∀ f ∈ ps, f.EnvOK unq) ∧ Blanks t ∧ (ps ≠ [] ∨ t ≠ [])
  | env1 kw g n g' s =>
    lower kw = c!"env" ∧ Gap g n ∧ n ≠ [] ∧ (∀ c ∈ n, IsWord c) ∧ Gap g' s.text ∧ s.OK ∧
      s.StartsWithText ∧ StartsArgument s.text ∧ ∀ r, s.text ≠ '"' :: r ∧ s.text ≠ '\'' :: r
  | env1q kw g n g' v c =>
    lower kw = c!"env" ∧ Gap g n ∧ n ≠ [] ∧ (∀ c ∈ n, IsWord c) ∧ Gap g' v ∧ QuotedText v ∧
      unq v = .ok c
  | misc w a =>
    w ≠ [] ∧ (∀ c ∈ w, IsAlpha c) ∧ ¬ IsKeyword w ∧ a.OK ∧ ∀ c r, a.text = c :: r → ¬ IsAlpha c

/-- blanks after the item would belong to it -/
def Greedy : Item → Prop
  | comment _ => True
  | label .. => True
  | shell .. => True
  | env .. => True
  | env1 .. => True
  | misc .. => True
  | _ => False

end Item

/-! ## documents -/

/-- an item with blanks around it -/
structure LineText where
  indent : Str
  item : Item
  trail : Str

namespace LineText
def text (l : LineText) : Str := l.indent ++ (l.item.text ++ l.trail)
def OK (unq : Unquote) (l : LineText) : Prop :=
  Blanks l.indent ∧ l.item.OK unq ∧ Blanks l.trail ∧ (l.item.Greedy → l.trail = [])
/-- the instruction on the line, if there is one -/
def instrs (p : Nat) (l : LineText) : List Instruction :=
  (l.item.instr (p + blen l.indent)).toList
end LineText

/-- the first line, and the others with the line breaks in front of them -/
def docText : LineText → List (Str × LineText) → Str
  | l, [] => l.text
  | l, (n, m) :: ms => l.text ++ (n ++ docText m ms)

/-- all lines are well-formed -/
def DocOK (unq : Unquote) : LineText → List (Str × LineText) → Prop
  | l, [] => l.OK unq
  | l, (n, m) :: ms => l.OK unq ∧ LineBreak n (docText m ms) ∧ DocOK unq m ms

/-- the instructions of a document at offset `p` -/
def docInstrs : Nat → LineText → List (Str × LineText) → List Instruction
  | p, l, [] => l.instrs p
  | p, l, (n, m) :: ms => l.instrs p ++ docInstrs (p + blen l.text + blen n) m ms

/-- numbering the stages, starting with `n` -/
def numberStages : Nat → List Instruction → List Instruction
  | _, [] => []
  | n, .from f :: is => .from { f with index := n } :: numberStages (n + 1) is
  | n, i :: is => i :: numberStages n is

/-- the `ARG`s before the first `FROM` -/
def globalArgs : List Instruction → List ArgInstruction
  | [] => []
  | .from _ :: _ => []
  | .arg a :: is => a :: globalArgs is
  | _ :: is => globalArgs is

/-- the document with the text `s` and the instructions `is` -/
def documentOf (s : Str) (is : List Instruction) : Dockerfile :=
  { content := s, global_args := globalArgs is, instructions := numberStages 0 is }

end Spec
end Verif
