import Verif.Spec.Print

/-!
# Specification: the source text of Dockerfiles, exactly

`Src.Item` is a line (possibly continued over several physical lines) of a Dockerfile.  `text` is
what is written, and `Fits r` says that it is well-formed when followed by the text `r`.  `eval` is
what it means: the instruction it stands for, or the error when a text in quotes cannot be read, a
digest is invalid, or a comment stands in front of the arguments of `RUN`, `CMD` or `ENTRYPOINT`.

In contrast to `Spec.Item` this description is meant to be complete: *every* text that the parser
accepts can be cut into items that fit (and no other text can).  The price is that
well-formedness depends on the text that follows, e.g. a quote may be an ordinary character when
there is no closing quote in the rest of the document.  Nothing here refers to the grammar or the
parser.  (C51)
-/

namespace Verif
namespace Src
open Spec

/-! ## space -/

/-- the end of the line or of the text -/
def Eol (r : Str) : Prop := ∀ c b, r = c :: b → c = '\n' ∨ c = '\r'

/-- `u` starts with a line continuation: backslash, blanks, line break -/
def Continuation (u : Str) : Prop :=
  ∃ w n t, u = '\\' :: (w ++ (n ++ t)) ∧ Blanks w ∧ LineBreak n t

/-- `u` starts with space: a blank or a line continuation -/
def StartsSpace (u : Str) : Prop :=
  (∃ c t, u = c :: t ∧ (c = ' ' ∨ c = '\t')) ∨ Continuation u

/-- `u` starts with a blank line or a comment line -/
def Skippable (u : Str) : Prop :=
  ∃ w v, u = w ++ v ∧ Blanks w ∧ ((∃ t, v = '#' :: t) ∨ ∃ n t, v = n ++ t ∧ LineBreak n t)

/-- `l` are all the blank lines and comment lines in front of `r` -/
inductive SkipLines : Str → Str → Prop
  | nil {r} : ¬ Skippable r → SkipLines [] r
  | blank {w n l r} : Blanks w → LineBreak n (l ++ r) → SkipLines l r → SkipLines (w ++ (n ++ l)) r
  | comment {w t n l r} : Blanks w → CommentText t → LineBreak n (l ++ r) → SkipLines l r →
      SkipLines (w ++ (t ++ (n ++ l))) r
  /-- a comment at the very end of the document -/
  | lastComment {w t} : Blanks w → CommentText t → SkipLines (w ++ t) []

/-- `g` is all the space in front of `r`: blanks and line continuations, the latter possibly
followed by blank lines and comment lines -/
inductive Space : Str → Str → Prop
  | nil {r} : ¬ StartsSpace r → Space [] r
  | blank {c g r} : c = ' ' ∨ c = '\t' → Space g r → Space (c :: g) r
  | continuation {w n l g r} : Blanks w → LineBreak n (l ++ (g ++ r)) → SkipLines l (g ++ r) →
      Space g r → Space ('\\' :: (w ++ (n ++ (l ++ g)))) r

def Gap (g r : Str) : Prop := g ≠ [] ∧ Space g r

/-! ## words and values -/

/-- a word ends in front of `r` -/
def WordEnd (r : Str) : Prop := Eol r ∨ StartsSpace r

/-- `w` is the word in front of `r` -/
def Word (w r : Str) : Prop :=
  w ≠ [] ∧ (∀ a b, w = a ++ b → b ≠ [] → ¬ WordEnd (b ++ r)) ∧ WordEnd r

/-- the characters that end the name of a label -/
def EndsName (c : Char) : Prop := c = ' ' ∨ c = '\t' ∨ c = '\n' ∨ c = '\r' ∨ c = '='

/-- `t` is the text in front of `r` up to a blank, a line break or an equals sign -/
def NameWord (t r : Str) : Prop :=
  t ≠ [] ∧ (∀ c ∈ t, ¬ EndsName c) ∧ ∀ c b, r = c :: b → EndsName c

/-- `u` does not start with a quoted text -/
def NoQuoted (u : Str) : Prop := ∀ t r, u = t ++ r → ¬ QuotedText t

/-- a text in quotes or a bare text -/
inductive Value where
  | quoted (t : Str)
  | bare (t : Str)

namespace Value
def text : Value → Str
  | quoted t => t
  | bare t => t
/-- as a value: in front of `r` -/
def Fits (r : Str) : Value → Prop
  | quoted t => QuotedText t
  | bare t => NoQuoted (t ++ r) ∧ Word t r
/-- as the name of a label -/
def FitsName (r : Str) : Value → Prop
  | quoted t => QuotedText t
  | bare t => NoQuoted (t ++ r) ∧ NameWord t r
end Value

/-! ## reading -/

/-- the unquoting of a text -/
def unquoted (unq : Unquote) (t : Str) : Result Str :=
  match unq t with
  | .ok c => .ok c
  | .error e => .error (.err (.unescape e))

/-- a text that starts with one of three quotes is unquoted, others stand for themselves -/
def read (unq : Unquote) : Str → Result Str
  | [] => .ok []
  | c :: t => if c = '"' ∨ c = '\'' ∨ c = '`' then unquoted unq (c :: t) else .ok (c :: t)

/-- a text without its pairs of backslash and newline -/
def joinLines : Str → Str
  | '\\' :: '\n' :: t => joinLines t
  | c :: t => c :: joinLines t
  | [] => []

/-- names and values of labels: a text in quotes may go over several lines -/
def Value.readLabel (unq : Unquote) : Value → Result Str
  | .quoted t => unquoted unq (joinLines t)
  | .bare t => read unq t

/-- values of variables: only a text in quotes is unquoted -/
def Value.readEnv (unq : Unquote) : Value → Result Str
  | .quoted t => unquoted unq t
  | .bare t => .ok t

/-! ## flags: `--name=value` -/

structure Flag where
  gap : Str
  name : Str
  value : Str

namespace Flag
def body (f : Flag) : Str := '-' :: '-' :: (f.name ++ '=' :: f.value)
def text (f : Flag) : Str := f.gap ++ f.body
def Fits (f : Flag) (r : Str) : Prop :=
  Gap f.gap (f.body ++ r) ∧ f.name ≠ [] ∧ (∀ c ∈ f.name, IsAlpha c) ∧ Word f.value r
def eval (unq : Unquote) (p : Nat) (f : Flag) : Result Verif.Flag := do
  let s := p + blen f.gap
  let c ← read unq f.value
  return { span := ⟨s, s + blen f.body⟩
           name := ⟨⟨s + 2, s + 2 + blen f.name⟩, f.name⟩
           value := ⟨⟨s + 2 + blen f.name + 1, s + blen f.body⟩, c⟩ }
end Flag

def flagsText (fs : List Flag) : Str := fs.flatMap (·.text)

def FlagsFit : List Flag → Str → Prop
  | [], _ => True
  | f :: fs, r => f.Fits (flagsText fs ++ r) ∧ FlagsFit fs r

def evalFlags (unq : Unquote) : Nat → List Flag → Result (List Verif.Flag)
  | _, [] => .ok []
  | p, f :: fs => do
    let x ← f.eval unq p
    let xs ← evalFlags unq (p + blen f.text) fs
    return x :: xs

/-- `u` starts with the text of a flag -/
def StartsFlag (u : Str) : Prop :=
  ∃ n v r, u = '-' :: '-' :: (n ++ '=' :: (v ++ r)) ∧ n ≠ [] ∧ (∀ c ∈ n, IsAlpha c) ∧ Word v r

/-! ## arguments of `COPY` -/

structure Arg where
  gap : Str
  value : Str

namespace Arg
def text (f : Arg) : Str := f.gap ++ f.value
def Fits (f : Arg) (r : Str) : Prop := Gap f.gap (f.value ++ r) ∧ Word f.value r
def eval (unq : Unquote) (p : Nat) (f : Arg) : Result SpannedString := do
  let c ← read unq f.value
  return ⟨⟨p + blen f.gap, p + blen f.gap + blen f.value⟩, c⟩
end Arg

def argsText (fs : List Arg) : Str := fs.flatMap (·.text)

def ArgsFit : List Arg → Str → Prop
  | [], _ => True
  | f :: fs, r => f.Fits (argsText fs ++ r) ∧ ArgsFit fs r

def evalArgs (unq : Unquote) : Nat → List Arg → Result (List SpannedString)
  | _, [] => .ok []
  | p, f :: fs => do
    let x ← f.eval unq p
    let xs ← evalArgs unq (p + blen f.text) fs
    return x :: xs

/-! ## pairs: `name=value` -/

structure Pair where
  gap : Str
  name : Value
  value : Value

namespace Pair
def body (f : Pair) : Str := f.name.text ++ '=' :: f.value.text
def text (f : Pair) : Str := f.gap ++ f.body
def FitsLabel (f : Pair) (r : Str) : Prop :=
  Gap f.gap (f.body ++ r) ∧ f.name.FitsName ('=' :: (f.value.text ++ r)) ∧ f.value.Fits r
def FitsEnv (f : Pair) (r : Str) : Prop :=
  Gap f.gap (f.body ++ r) ∧ (∃ n, f.name = .bare n ∧ n ≠ [] ∧ ∀ c ∈ n, IsWord c) ∧ f.value.Fits r
def nameSpan (p : Nat) (f : Pair) : Span := ⟨p + blen f.gap, p + blen f.gap + blen f.name.text⟩
def valueSpan (p : Nat) (f : Pair) : Span :=
  ⟨p + blen f.gap + blen f.name.text + 1, p + blen f.gap + blen f.body⟩
def evalLabel (unq : Unquote) (p : Nat) (f : Pair) : Result Label := do
  let n ← f.name.readLabel unq
  let c ← f.value.readLabel unq
  return { span := ⟨p + blen f.gap, p + blen f.gap + blen f.body⟩
           name := ⟨f.nameSpan p, n⟩, value := ⟨f.valueSpan p, c⟩ }
def evalEnv (unq : Unquote) (p : Nat) (f : Pair) : Result EnvVar := do
  let c ← f.value.readEnv unq
  return { span := ⟨p + blen f.gap, p + blen f.gap + blen f.body⟩
           key := ⟨f.nameSpan p, f.name.text⟩
           value := ⟨f.valueSpan p, [.string ⟨f.valueSpan p, c⟩]⟩ }
end Pair

def pairsText (fs : List Pair) : Str := fs.flatMap (·.text)

def PairsFit (F : Pair → Str → Prop) : List Pair → Str → Prop
  | [], _ => True
  | f :: fs, r => F f (pairsText fs ++ r) ∧ PairsFit F fs r

def evalPairs {α : Type} (ev : Nat → Pair → Result α) : Nat → List Pair → Result (List α)
  | _, [] => .ok []
  | p, f :: fs => do
    let x ← ev p f
    let xs ← evalPairs ev (p + blen f.text) fs
    return x :: xs

/-! ## shell text -/

/-- a logical line over several physical ones -/
inductive Shell where
  /-- the last physical line -/
  | last (t : Str)
  /-- blanks `w` and a comment `t` in the last line, which ends with the line break `n` or with the
  document (`n = []`) -/
  | lastComment (w t n : Str)
  /-- `t`, backslash, blanks `w`, line break `n` -/
  | more (t w n : Str) (rest : Shell)
  /-- blanks `w`, a comment `t`, line break `n` -/
  | comment (w t n : Str) (rest : Shell)

namespace Shell
def text : Shell → Str
  | last t => t
  | lastComment w t n => w ++ (t ++ n)
  | more t w n r => t ++ '\\' :: (w ++ (n ++ r.text))
  | comment w t n r => w ++ (t ++ (n ++ r.text))
def components (p : Nat) : Shell → List BreakableStringComponent
  | last t => [.string ⟨⟨p, p + blen t⟩, t⟩]
  | lastComment w t _ => [.comment ⟨⟨p + blen w, p + blen w + blen t⟩, t⟩]
  | more t w n r => .string ⟨⟨p, p + blen t⟩, t⟩ ::
      r.components (p + blen t + 1 + blen w + blen n)
  | comment w t n r => .comment ⟨⟨p + blen w, p + blen w + blen t⟩, t⟩ ::
      r.components (p + blen w + blen t + blen n)
def string (p : Nat) (s : Shell) : BreakableString :=
  { span := ⟨p, p + blen s.text⟩, components := s.components p }
/-- `t` is a piece of a line in front of `r`, and not a comment line -/
def Piece (t r : Str) : Prop :=
  t ≠ [] ∧ (∀ c ∈ t, c ≠ '\n' ∧ c ≠ '\r') ∧
    (∀ a b, t = a ++ b → b ≠ [] → ¬ Continuation (b ++ r)) ∧
    ∀ w u, Blanks w → t ++ r ≠ w ++ '#' :: u
def Fits : Shell → Str → Prop
  | last t, r => Piece t r ∧ Eol r
  | lastComment w t n, r => Blanks w ∧ CommentText t ∧
      ((n = [] ∧ r = []) ∨ (LineBreak n r ∧ Eol r))
  | more t w n s, r => Piece t ('\\' :: (w ++ (n ++ (s.text ++ r)))) ∧ Blanks w ∧
      LineBreak n (s.text ++ r) ∧ s.Fits r
  | comment w t n s, r => Blanks w ∧ CommentText t ∧ LineBreak n (s.text ++ r) ∧ s.Fits r
end Shell

/-! ## arrays -/

/-- an element other than the first: space, comma, space, string -/
structure Elem where
  before : Str
  after : Str
  value : Str

namespace Elem
def text (e : Elem) : Str := e.before ++ ',' :: (e.after ++ e.value)
def Fits (e : Elem) (r : Str) : Prop :=
  Space e.before (',' :: (e.after ++ (e.value ++ r))) ∧ Space e.after (e.value ++ r) ∧
    QuotedText e.value
def eval (unq : Unquote) (p : Nat) (e : Elem) : Result SpannedString := do
  let s := p + blen e.before + 1 + blen e.after
  let c ← unquoted unq e.value
  return ⟨⟨s, s + blen e.value⟩, c⟩
end Elem

def elemsText (es : List Elem) : Str := es.flatMap (·.text)

def ElemsFit : List Elem → Str → Prop
  | [], _ => True
  | e :: es, r => e.Fits (elemsText es ++ r) ∧ ElemsFit es r

def evalElems (unq : Unquote) : Nat → List Elem → Result (List SpannedString)
  | _, [] => .ok []
  | p, e :: es => do
    let x ← e.eval unq p
    let xs ← evalElems unq (p + blen e.text) es
    return x :: xs

inductive Array where
  | empty (gap : Str)
  /-- the first element after a gap, the others, an optional comma, and a gap -/
  | full (gap value : Str) (rest : List Elem) (comma : Bool) (gap' : Str)

namespace Array
/-- what comes after the elements -/
def tail (comma : Bool) (g : Str) : Str := (if comma then [','] else []) ++ (g ++ [']'])
def text : Array → Str
  | empty g => '[' :: (g ++ [']'])
  | full g v es c g' => '[' :: (g ++ (v ++ (elemsText es ++ tail c g')))
def Fits : Array → Str → Prop
  | empty g, r => Space g (']' :: r)
  | full g v es c g', r => Space g (v ++ (elemsText es ++ (tail c g' ++ r))) ∧ QuotedText v ∧
      ElemsFit es (tail c g' ++ r) ∧ Space g' (']' :: r)
def eval (unq : Unquote) (p : Nat) : Array → Result (List SpannedString)
  | empty _ => .ok []
  | full g v es _ _ => do
    let c ← unquoted unq v
    let xs ← evalElems unq (p + 1 + blen g + blen v) es
    return ⟨⟨p + 1 + blen g, p + 1 + blen g + blen v⟩, c⟩ :: xs
end Array

/-- `u` does not start with an array -/
def NoArray (u : Str) : Prop := ∀ (a : Array) (r : Str), u = a.text ++ r → ¬ a.Fits r

/-! ## which texts are read as an instruction of their own -/

/-- The text `u` after the keyword `k` starts like the instruction `k`.  Otherwise the keyword is
taken for an unknown word. -/
def Begins (k u : Str) : Prop :=
  if k = c!"from" then
    ∃ fs g c r, u = flagsText fs ++ (g ++ c :: r) ∧ FlagsFit fs (g ++ c :: r) ∧ Gap g (c :: r) ∧
      IsImageChar c ∧ ¬ StartsFlag (c :: r)
  else if k = c!"arg" then ∃ g c r, u = g ++ c :: r ∧ Gap g (c :: r) ∧ IsAlpha c
  else if k = c!"copy" then
    ∃ fs a b r, u = flagsText fs ++ (a.text ++ (b.text ++ r)) ∧
      FlagsFit fs (a.text ++ (b.text ++ r)) ∧ Arg.Fits a (b.text ++ r) ∧ Arg.Fits b r ∧
      ¬ StartsFlag (a.value ++ (b.text ++ r))
  else if k = c!"label" ∨ k = c!"env" then StartsSpace u
  else ∃ g r, u = g ++ r ∧ Gap g r ∧ ¬ Eol r

/-! ## items -/

inductive Item where
  | blank
  | comment (t : Str)
  | «from» (kw : Str) (flags : List Flag) (gap image : Str) (alias : Option AliasText)
  | arg (kw gap name : Str) (value : Option Value)
  /-- `LABEL name=value ...` -/
  | label (kw : Str) (pairs : List Pair) (trail : Str)
  /-- `LABEL name value` -/
  | label1 (kw gap : Str) (name : Value) (gap' : Str) (value : Value)
  | shell (k : ExecKind) (kw gap : Str) (s : Shell)
  | exec (k : ExecKind) (kw gap : Str) (a : Array)
  | copy (kw : Str) (flags : List Flag) (sources : List Arg) (dest : Arg)
  /-- `ENV name=value ...` -/
  | env (kw : Str) (pairs : List Pair) (trail : Str)
  /-- `ENV name text` -/
  | env1 (kw gap name gap' : Str) (s : Shell)
  /-- `ENV name "text"` -/
  | env1q (kw gap name gap' value : Str)
  /-- any other word, or a keyword whose arguments are not as they should be -/
  | misc (word : Str) (args : Shell)

/-- an alias in front of `r` -/
def AliasFits (a : AliasText) (r : Str) : Prop :=
  Gap a.gap (a.kw ++ (a.gap' ++ (a.name ++ r))) ∧ lower a.kw = c!"as" ∧
    Gap a.gap' (a.name ++ r) ∧ a.name ≠ [] ∧ ∀ c ∈ a.name, IsIdent c

def aliasText (a : Option AliasText) : Str :=
  match a with
  | some a => a.text
  | none => []

def valueText (v : Option Value) : Str :=
  match v with
  | some v => '=' :: v.text
  | none => []

open Classical in
/-- the digest of an image must be valid -/
noncomputable def checkDigest (i : Str) : Result Unit :=
  if DigestOK (ImageRef.parse i) then .ok () else .error (.err (.generic .digestInvalid))

namespace Item

def text : Item → Str
  | blank => []
  | comment t => t
  | «from» kw fs g i a => kw ++ (flagsText fs ++ (g ++ (i ++ aliasText a)))
  | arg kw g n v => kw ++ (g ++ (n ++ valueText v))
  | label kw ps t => kw ++ (pairsText ps ++ t)
  | label1 kw g n g' v => kw ++ (g ++ (n.text ++ (g' ++ v.text)))
  | shell _ kw g s => kw ++ (g ++ s.text)
  | exec _ kw g a => kw ++ (g ++ a.text)
  | copy kw fs ss d => kw ++ (flagsText fs ++ (argsText ss ++ d.text))
  | env kw ps t => kw ++ (pairsText ps ++ t)
  | env1 kw g n g' s => kw ++ (g ++ (n ++ (g' ++ s.text)))
  | env1q kw g n g' v => kw ++ (g ++ (n ++ (g' ++ v)))
  | misc w a => w ++ a.text

/-- The item is well-formed in front of `r`. -/
def Fits : Item → Str → Prop
  | blank, _ => True
  | comment t, r => CommentText t ∧ Eol r
  | «from» kw fs g i a, r =>
    lower kw = c!"from" ∧ FlagsFit fs (g ++ (i ++ (aliasText a ++ r))) ∧
      Gap g (i ++ (aliasText a ++ r)) ∧ i ≠ [] ∧ (∀ c ∈ i, IsImageChar c) ∧
      ∀ x, a = some x → AliasFits x r
  | arg kw g n v, r =>
    lower kw = c!"arg" ∧ Gap g (n ++ (valueText v ++ r)) ∧
      (∃ c b, n = c :: b ∧ IsAlpha c ∧ ∀ d ∈ b, IsWord d) ∧ ∀ x, v = some x → x.Fits r
  | label kw ps t, r =>
    lower kw = c!"label" ∧ PairsFit Pair.FitsLabel ps (t ++ r) ∧ Space t r ∧ (ps ≠ [] ∨ t ≠ []) ∧
      Eol r
  | label1 kw g n g' v, r =>
    lower kw = c!"label" ∧ Gap g (n.text ++ (g' ++ (v.text ++ r))) ∧
      n.FitsName (g' ++ (v.text ++ r)) ∧ Gap g' (v.text ++ r) ∧ v.Fits r
  | shell k kw g s, r =>
    lower kw = k.keyword ∧ Gap g (s.text ++ r) ∧ s.Fits r ∧ NoArray (s.text ++ r)
  | exec k kw g a, r => lower kw = k.keyword ∧ Gap g (a.text ++ r) ∧ a.Fits r
  | copy kw fs ss d, r =>
    lower kw = c!"copy" ∧ FlagsFit fs (argsText (ss ++ [d]) ++ r) ∧ ss ≠ [] ∧
      ArgsFit (ss ++ [d]) r ∧
      ∀ f b, ss = f :: b → ¬ StartsFlag (f.value ++ (argsText (b ++ [d]) ++ r))
  | env kw ps t, r =>
    lower kw = c!"env" ∧ PairsFit Pair.FitsEnv ps (t ++ r) ∧ Space t r ∧ (ps ≠ [] ∨ t ≠ []) ∧
      Eol r
  | env1 kw g n g' s, r =>
    lower kw = c!"env" ∧ Gap g (n ++ (g' ++ (s.text ++ r))) ∧ n ≠ [] ∧ (∀ c ∈ n, IsWord c) ∧
      Gap g' (s.text ++ r) ∧ s.Fits r ∧ NoQuoted (s.text ++ r)
  | env1q kw g n g' v, r =>
    lower kw = c!"env" ∧ Gap g (n ++ (g' ++ (v ++ r))) ∧ n ≠ [] ∧ (∀ c ∈ n, IsWord c) ∧
      Gap g' (v ++ r) ∧ QuotedText v
  | misc w a, r =>
    w ≠ [] ∧ (∀ c ∈ w, IsAlpha c) ∧ a.Fits r ∧ (∀ c b, a.text = c :: b → ¬ IsAlpha c) ∧
      (IsKeyword w → ¬ Begins (lower w) (a.text ++ r))

/-- What the item at offset `p` stands for; the index of a `FROM` is left at 0. -/
noncomputable def eval (unq : Unquote) (p : Nat) (i : Item) : Result (Option Instruction) :=
  let span : Span := ⟨p, p + blen i.text⟩
  match i with
  | blank => .ok none
  | comment _ => .ok none
  | «from» kw fs g i a => do
    let q := p + blen kw + blen (flagsText fs) + blen g
    let flags ← evalFlags unq (p + blen kw) fs
    checkDigest i
    return some (.from { span, flags, image := ⟨⟨q, q + blen i⟩, i⟩
                         image_parsed := ImageRef.parse i, index := 0
                         alias := a.map (·.name_at (q + blen i)) })
  | arg kw g n v => do
    let q := p + blen kw + blen g
    let name : SpannedString := ⟨⟨q, q + blen n⟩, n⟩
    match v with
    | none => return some (.arg { span, name, value := none })
    | some v => do
      let c ← read unq v.text
      let value : SpannedString := ⟨⟨q + blen n + 1, q + blen n + 1 + blen v.text⟩, c⟩
      return some (.arg { span, name, value := some value })
  | label kw ps _ => do
    let labels ← evalPairs (Pair.evalLabel unq) (p + blen kw) ps
    return some (.label { span, labels })
  | label1 kw g n g' v => do
    let q := p + blen kw + blen g
    let r := q + blen n.text + blen g'
    let c ← n.readLabel unq
    let d ← v.readLabel unq
    return some (.label { span, labels := [{ span := ⟨p + blen kw, r + blen v.text⟩
                                             name := ⟨⟨q, q + blen n.text⟩, c⟩
                                             value := ⟨⟨r, r + blen v.text⟩, d⟩ }] })
  | shell k kw g s =>
    if '#' ∈ g then .error (.err (.generic (.unexpectedToken .comment)))
    else .ok (some (k.instr { span, expr := .shell (s.string (p + blen kw + blen g)) }))
  | exec k kw g a => do
    let q := p + blen kw + blen g
    if '#' ∈ g then .error (.err (.generic (.unexpectedToken .comment)))
    else
      let elements ← a.eval unq q
      return some (k.instr { span, expr := .exec ⟨⟨q, q + blen a.text⟩, elements⟩ })
  | copy kw fs ss d => do
    let q := p + blen kw + blen (flagsText fs)
    let flags ← evalFlags unq (p + blen kw) fs
    let sources ← evalArgs unq q ss
    let destination ← d.eval unq (q + blen (argsText ss))
    return some (.copy { span, flags, sources, destination })
  | env kw ps _ => do
    let vars ← evalPairs (Pair.evalEnv unq) (p + blen kw) ps
    return some (.env { span, vars })
  | env1 kw g n g' s =>
    let q := p + blen kw + blen g
    let r := q + blen n + blen g'
    .ok (some (.env { span, vars := [{ span := ⟨q, r + blen s.text⟩, key := ⟨⟨q, q + blen n⟩, n⟩
                                       value := s.string r }] }))
  | env1q kw g n g' v => do
    let q := p + blen kw + blen g
    let r := q + blen n + blen g'
    let sp : Span := ⟨r, r + blen v⟩
    let c ← unquoted unq v
    return some (.env { span, vars := [{ span := ⟨q, r + blen v⟩, key := ⟨⟨q, q + blen n⟩, n⟩
                                         value := ⟨sp, [.string ⟨sp, c⟩]⟩ }] })
  | misc w a => .ok (some (.misc { span, instruction := ⟨⟨p, p + blen w⟩, w⟩
                                   arguments := a.string (p + blen w) }))

end Item

/-! ## documents -/

/-- an item with blanks around it -/
structure Line where
  indent : Str
  item : Item
  trail : Str

namespace Line
def text (l : Line) : Str := l.indent ++ (l.item.text ++ l.trail)
/-- well-formed in front of `r` -/
def Fits (l : Line) (r : Str) : Prop :=
  Blanks l.indent ∧ l.item.Fits (l.trail ++ r) ∧ Blanks l.trail
end Line

/-- the first line, and the others with the line breaks in front of them -/
def docText : Line → List (Str × Line) → Str
  | l, [] => l.text
  | l, (n, m) :: ms => l.text ++ (n ++ docText m ms)

/-- all lines are well-formed -/
def DocFits : Line → List (Str × Line) → Prop
  | l, [] => l.Fits []
  | l, (n, m) :: ms => l.Fits (n ++ docText m ms) ∧ LineBreak n (docText m ms) ∧ DocFits m ms

/-- the instructions of a document at offset `p`, or the first error -/
noncomputable def evalDoc (unq : Unquote) : Nat → Line → List (Str × Line) → Result (List Instruction)
  | p, l, [] => do
    let i ← l.item.eval unq (p + blen l.indent)
    return i.toList
  | p, l, (n, m) :: ms => do
    let i ← l.item.eval unq (p + blen l.indent)
    let is ← evalDoc unq (p + blen l.text + blen n) m ms
    return i.toList ++ is

end Src
end Verif
