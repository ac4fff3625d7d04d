import Verif.Spec.Source

/-!
# Specification: the ways in which a line can be wrong

`Src.Item` (Spec/Source.lean) says which lines are well-formed.  Here is the list of the ways in which a line is
not: `Malformed u` for the text `u` of the document from the first character of the line that is no blank.
Nothing here refers to the grammar or the parser.  (C81)
-/

namespace Verif
namespace Src
open Spec

/-- nothing but blanks up to the end of the line -/
def Clean (r : Str) : Prop := ∃ w v, r = w ++ v ∧ Blanks w ∧ Eol v

/-- The shell text in front of us cannot be read to its end: a line of it is continued by a backslash, and the next
line is empty or has nothing in front of another backslash. -/
inductive Unfinished : Str → Prop
  /-- a continuation with nothing in front of it -/
  | nothing {v} : Continuation v → Unfinished v
  /-- a continued line, and then an empty line or the end of the document -/
  | empty {t w n v} : Shell.Piece t ('\\' :: (w ++ (n ++ v))) → Blanks w → LineBreak n v → Eol v →
      Unfinished (t ++ '\\' :: (w ++ (n ++ v)))
  /-- a continued line, and the rest is unfinished -/
  | more {t w n v} : Shell.Piece t ('\\' :: (w ++ (n ++ v))) → Blanks w → LineBreak n v → Unfinished v →
      Unfinished (t ++ '\\' :: (w ++ (n ++ v)))
  /-- a comment line, and the rest is unfinished -/
  | comment {w t n v} : Blanks w → CommentText t → LineBreak n v → Unfinished v → Unfinished (w ++ (t ++ (n ++ v)))

/-- `LABEL name value` or the like starts with `u`, the text after the keyword, and goes on with `r` -/
def LabelOne (u r : Str) : Prop :=
  ∃ (g : Str) (n : Value) (g' : Str) (v : Value), u = g ++ (n.text ++ (g' ++ (v.text ++ r))) ∧
    Gap g (n.text ++ (g' ++ (v.text ++ r))) ∧ n.FitsName (g' ++ (v.text ++ r)) ∧ Gap g' (v.text ++ r) ∧ v.Fits r

/-- `ENV name` with something after it, `r`: `u` is the text after the keyword -/
def EnvOne (u r : Str) : Prop :=
  ∃ g n g', u = g ++ (n ++ (g' ++ r)) ∧ Gap g (n ++ (g' ++ r)) ∧ n ≠ [] ∧ (∀ c ∈ n, IsWord c) ∧ Gap g' r ∧ ¬ Eol r

/-- The pairs `ps` and the space `t` are all that can be read, and something else follows: `r`. -/
def PairsCut (F : Pair → Str → Prop) (ps : List Pair) (t r : Str) : Prop :=
  PairsFit F ps (t ++ r) ∧ Space t r ∧ (ps ≠ [] ∨ t ≠ []) ∧ ¬ Eol r ∧
    (t ≠ [] → ∀ f r', r = f.body ++ r' → f.gap = t → ¬ F f r')

/-- The line that starts with `u` is not well-formed.  (`u` does not start with a blank.) -/
inductive Malformed : Str → Prop
  /-- It starts with something that is neither a letter nor a hash. -/
  | start {c t} : c ≠ ' ' → c ≠ '\t' → c ≠ '\n' → c ≠ '\r' → c ≠ '#' → ¬ IsAlpha c → Malformed (c :: t)
  /-- a word alone -/
  | word {w v} : w ≠ [] → (∀ c ∈ w, IsAlpha c) → Eol v → Malformed (w ++ v)
  /-- An unknown word, or a keyword that is not followed by what starts its arguments, with unfinished text after it. -/
  | misc {w v} : w ≠ [] → (∀ c ∈ w, IsAlpha c) → (∀ c b, v = c :: b → ¬ IsAlpha c) →
      (IsKeyword w → ¬ Begins (lower w) v) → Unfinished v → Malformed (w ++ v)
  /-- `RUN`, `CMD`, `ENTRYPOINT` with unfinished shell text -/
  | shell {k : ExecKind} {kw g v} : lower kw = k.keyword → Gap g v → NoArray v → Unfinished v →
      Malformed (kw ++ (g ++ v))
  /-- `RUN`, `CMD`, `ENTRYPOINT` with something after the array -/
  | exec {k : ExecKind} {kw g} {a : Array} {r} : lower kw = k.keyword → Gap g (a.text ++ r) → a.Fits r → ¬ Clean r →
      Malformed (kw ++ (g ++ (a.text ++ r)))
  /-- `FROM` with something else than an alias after the image, or something after the alias -/
  | «from» {kw fs g i r} : lower kw = c!"from" → FlagsFit fs (g ++ (i ++ r)) → Gap g (i ++ r) → i ≠ [] →
      (∀ c ∈ i, IsImageChar c) → ¬ StartsFlag (i ++ r) → (∀ c b, r = c :: b → ¬ IsImageChar c) → ¬ Clean r →
      (∀ a r', r = a.text ++ r' → AliasFits a r' → ¬ Clean r') →
      Malformed (kw ++ (flagsText fs ++ (g ++ (i ++ r))))
  /-- `ARG` with something else than a value after the name, or something after the value -/
  | arg {kw g c n r} : lower kw = c!"arg" → Gap g (c :: (n ++ r)) → IsAlpha c → (∀ d ∈ n, IsWord d) →
      (∀ c b, r = c :: b → ¬ IsWord c) → ¬ Clean r →
      (∀ (v : Value) r', r = '=' :: (v.text ++ r') → v.Fits r' → ¬ Clean r') →
      Malformed (kw ++ (g ++ (c :: (n ++ r))))
  /-- `COPY` with a line continuation after the last argument -/
  | copy {kw fs} {a : Arg} {as g r} : lower kw = c!"copy" → FlagsFit fs (a.text ++ (argsText as ++ (g ++ r))) →
      as ≠ [] → ArgsFit (a :: as) (g ++ r) → ¬ StartsFlag (a.value ++ (argsText as ++ (g ++ r))) →
      Space g r → ¬ Blanks g → Eol r →
      Malformed (kw ++ (flagsText fs ++ (a.text ++ (argsText as ++ (g ++ r)))))
  /-- `LABEL name value` with something after the value -/
  | label1 {kw u r} : lower kw = c!"label" → LabelOne u r → ¬ Clean r → Malformed (kw ++ u)
  /-- `LABEL` with something that is no pair -/
  | label {kw ps t r} : lower kw = c!"label" → (∀ r', ¬ LabelOne (pairsText ps ++ (t ++ r)) r') →
      PairsCut Pair.FitsLabel ps t r → Malformed (kw ++ (pairsText ps ++ (t ++ r)))
  /-- `ENV name text` with unfinished text -/
  | env1 {kw u r} : lower kw = c!"env" → EnvOne u r → NoQuoted r → Unfinished r → Malformed (kw ++ u)
  /-- `ENV name "text"` with something after the text -/
  | env1q {kw u v r} : lower kw = c!"env" → EnvOne u (v ++ r) → QuotedText v → ¬ Clean r → Malformed (kw ++ u)
  /-- `ENV` with something that is no pair -/
  | env {kw ps t r} : lower kw = c!"env" → (∀ r', ¬ EnvOne (pairsText ps ++ (t ++ r)) r') →
      PairsCut Pair.FitsEnv ps t r → Malformed (kw ++ (pairsText ps ++ (t ++ r)))

/-- The line at the beginning of `z` is malformed, apart from its indentation. -/
def MalformedLine (z : Str) : Prop := ∃ w u, z = w ++ u ∧ Blanks w ∧ Malformed u

end Src
end Verif
