import Verif.Spec.Source
import Verif.Spec.Remap

/-!
# Specification: the layout of a line

`bare` forgets the layout of an item: the space between its parts, the case of its keywords, blanks
after a backslash and in front of a comment, and the kind of line breaks.  Two items with the same
`bare` differ in nothing but layout.  (C42, C52)
-/

namespace Verif
namespace Src
open Spec

def Flag.bare (f : Flag) : Flag := { f with gap := [' '] }
def Arg.bare (f : Arg) : Arg := { f with gap := [' '] }
def Pair.bare (f : Pair) : Pair := { f with gap := [' '] }
def Elem.bare (e : Elem) : Elem := { before := [], after := [' '], value := e.value }
def Array.bare : Array → Array
  | empty _ => .empty []
  | full _ v es _ _ => .full [] v (es.map (·.bare)) false []
def Shell.bare : Shell → Shell
  | last t => .last t
  | lastComment _ t _ => .lastComment [] t []
  | more t _ _ s => .more t [] ['\n'] s.bare
  | comment _ t _ s => .comment [] t ['\n'] s.bare
/-- (of `Spec.AliasText`) -/
def aliasBare (a : AliasText) : AliasText := { gap := [' '], kw := c!"as", gap' := [' '], name := a.name }

/-- the item without its layout -/
def Item.bare : Item → Item
  | blank => .blank
  | comment t => .comment t
  | «from» _ fs _ i a => .from c!"from" (fs.map (·.bare)) [' '] i (a.map aliasBare)
  | arg _ _ n v => .arg c!"arg" [' '] n v
  | label _ ps _ => .label c!"label" (ps.map (·.bare)) []
  | label1 _ _ n _ v => .label1 c!"label" [' '] n [' '] v
  | shell k _ _ s => .shell k k.keyword [' '] s.bare
  | exec k _ _ a => .exec k k.keyword [' '] a.bare
  | copy _ fs ss d => .copy c!"copy" (fs.map (·.bare)) (ss.map (·.bare)) d.bare
  | env _ ps _ => .env c!"env" (ps.map (·.bare)) []
  | env1 _ _ n _ s => .env1 c!"env" [' '] n [' '] s.bare
  | env1q _ _ n _ v => .env1q c!"env" [' '] n [' '] v
  | misc w a => .misc w a.bare

/-- a `RUN`, `CMD` or `ENTRYPOINT` with a comment in front of its arguments -/
def Item.CommentFirst : Item → Prop
  | shell _ _ g _ => '#' ∈ g
  | exec _ _ g _ => '#' ∈ g
  | _ => False

/-- the items of a document -/
def docItems (l : Line) (ms : List (Str × Line)) : List Item := l.item :: ms.map (·.2.item)

/-- neither a blank line nor a comment -/
def Item.IsInstr : Item → Bool
  | blank => false
  | comment _ => false
  | _ => true

/-- Two documents with the same instructions, apart from layout, and apart from blank lines and
comment lines. -/
def SameItems (is js : List Item) : Prop :=
  (is.filter Item.IsInstr).map Item.bare = (js.filter Item.IsInstr).map Item.bare

end Src
end Verif
