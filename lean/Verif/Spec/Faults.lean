import Verif.Spec.Source

/-!
# Specification: what can be wrong with a text that has the right form

Three things: a text in quotes that cannot be read, the digest of an image, and a comment in front of
the arguments of `RUN`, `CMD` or `ENTRYPOINT`.  `docChecks` lists, in the order of the text, all
places of a document where something of that kind can be wrong.  (C72)
-/

namespace Verif
namespace Src
open Spec

inductive Check where
  /-- the text `t` has to be unquoted -/
  | unquote (t : Str)
  /-- the digest of the image `i` -/
  | digest (i : Str)
  /-- a gap that must be without comments -/
  | gap (g : Str)

open Classical in
/-- what is wrong, if anything -/
noncomputable def Check.fault (unq : Unquote) : Check → Option Error
  | unquote t => match unq t with
    | .ok _ => none
    | .error e => some (.unescape e)
  | digest i => if DigestOK (ImageRef.parse i) then none else some (.generic .digestInvalid)
  | gap g => if '#' ∈ g then some (.generic (.unexpectedToken .comment)) else none

/-- words are unquoted if they start with a quote, even if that is not closed -/
def wordChecks : Str → List Check
  | [] => []
  | c :: t => if c = '"' ∨ c = '\'' ∨ c = '`' then [.unquote (c :: t)] else []

def Value.labelChecks : Value → List Check
  | quoted t => [.unquote (joinLines t)]
  | bare t => wordChecks t

def Value.envChecks : Value → List Check
  | quoted t => [.unquote t]
  | bare _ => []

def Array.checks : Array → List Check
  | empty _ => []
  | full _ v es _ _ => .unquote v :: es.map fun e => .unquote e.value

def Item.checks : Item → List Check
  | blank => []
  | comment _ => []
  | «from» _ fs _ i _ => fs.flatMap (wordChecks ·.value) ++ [.digest i]
  | arg _ _ _ v => match v with
    | none => []
    | some v => wordChecks v.text
  | label _ ps _ => ps.flatMap fun f => f.name.labelChecks ++ f.value.labelChecks
  | label1 _ _ n _ v => n.labelChecks ++ v.labelChecks
  | shell _ _ g _ => [.gap g]
  | exec _ _ g a => .gap g :: a.checks
  | copy _ fs ss d => fs.flatMap (wordChecks ·.value) ++ (ss.flatMap (wordChecks ·.value) ++ wordChecks d.value)
  | env _ ps _ => ps.flatMap fun f => f.value.envChecks
  | env1 _ _ _ _ _ => []
  | env1q _ _ _ _ v => [.unquote v]
  | misc _ _ => []

/-- all checks of a document -/
def docChecks (l : Line) (ms : List (Str × Line)) : List Check :=
  l.item.checks ++ ms.flatMap fun m => m.2.item.checks

/-- the first fault -/
noncomputable def firstFault (unq : Unquote) (cs : List Check) : Option Error := cs.findSome? (·.fault unq)

end Src
end Verif
