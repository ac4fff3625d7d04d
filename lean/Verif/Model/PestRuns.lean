import Verif.Model.Pest
import Verif.Proof.Peg

/-!
# What a pest grammar means

The usual semantics of parsing expressions for the expressions of a grammar as read from its text
(`Pest.Expr`), where a name stands for the rule of that name. The built-in rules are those of
`Model/Grammar`.
-/

namespace Verif
namespace Pest

def Grammar.rule? (g : Grammar) (i : Str) : Option RuleDef := g.find? (·.name = i)

/-- `skip_until`: go on to the first place where one of the texts begins, or to the end -/
def skipTo (ws : List Str) : Nat → Str → Nat × Str
  | p, [] => (p, [])
  | p, c :: s => if ws.any (fun w => (stripPrefix w (c :: s)).isSome) then (p, c :: s)
      else skipTo ws (p + c.utf8Size) s

/-- `Runs g e q p s o`: in the grammar `g`, the expression `e` at position `p` with the rest `s`
comes out as `o` (`q`: inside of an atomic rule). -/
inductive Runs (g : Grammar) : Expr → Bool → Nat → Str → Out → Prop
  | str_ok {w q p s s'} : stripPrefix w s = some s' →
      Runs g (.str w) q p s (some (p + blen w, s', []))
  | str_fail {w q p s} : stripPrefix w s = none → Runs g (.str w) q p s none
  | insens_ok {w q p s s'} : stripPrefixI w s = some s' →
      Runs g (.insens w) q p s (some (p + blen w, s', []))
  | insens_fail {w q p s} : stripPrefixI w s = none → Runs g (.insens w) q p s none
  | builtin {i x q p s o} : builtin i = some x → Sem x q p s o → Runs g (.ident i) q p s o
  | silent {i r q p s o} : builtin i = none → g.rule? i = some r → r.kind = .silent →
      Runs g r.expr q p s o → Runs g (.ident i) q p s o
  | rule_ok {i r x q p s p1 s1 t1} : builtin i = none → g.rule? i = some r → r.kind ≠ .silent →
      ruleOf i = some x → Runs g r.expr (innerQuiet r.kind q) p s (some (p1, s1, t1)) →
      Runs g (.ident i) q p s
        (some (p1, s1, emitToks r.kind x q p p1 (s.take (s.length - s1.length)) t1))
  | rule_fail {i r x q p s} : builtin i = none → g.rule? i = some r → r.kind ≠ .silent →
      ruleOf i = some x → Runs g r.expr (innerQuiet r.kind q) p s none →
      Runs g (.ident i) q p s none
  | neg_ok {e q p s} : Runs g e q p s none → Runs g (.neg e) q p s (some (p, s, []))
  | neg_fail {e q p s r} : Runs g e q p s (some r) → Runs g (.neg e) q p s none
  | seq_ok {a b q p s p1 s1 t1 p2 s2 t2} : Runs g a q p s (some (p1, s1, t1)) →
      Runs g b q p1 s1 (some (p2, s2, t2)) → Runs g (.seq a b) q p s (some (p2, s2, t1 ++ t2))
  | seq_fail1 {a b q p s} : Runs g a q p s none → Runs g (.seq a b) q p s none
  | seq_fail2 {a b q p s p1 s1 t1} : Runs g a q p s (some (p1, s1, t1)) →
      Runs g b q p1 s1 none → Runs g (.seq a b) q p s none
  | choice_left {a b q p s r} : Runs g a q p s (some r) → Runs g (.choice a b) q p s (some r)
  | choice_right {a b q p s o} : Runs g a q p s none → Runs g b q p s o →
      Runs g (.choice a b) q p s o
  | opt_some {e q p s r} : Runs g e q p s (some r) → Runs g (.opt e) q p s (some r)
  | opt_none {e q p s} : Runs g e q p s none → Runs g (.opt e) q p s (some (p, s, []))
  | rep_nil {e q p s} : Runs g e q p s none → Runs g (.rep e) q p s (some (p, s, []))
  | rep_cons {e q p s p1 s1 t1 p2 s2 t2} : Runs g e q p s (some (p1, s1, t1)) →
      Runs g (.rep e) q p1 s1 (some (p2, s2, t2)) →
      Runs g (.rep e) q p s (some (p2, s2, t1 ++ t2))
  | plus {e q p s o} : Runs g (.seq e (.rep e)) q p s o → Runs g (.plus e) q p s o
  | exact_zero {e q p s} : Runs g (.exact e 0) q p s (some (p, s, []))
  | exact_succ {e n q p s o} : Runs g (.seq e (.exact e n)) q p s o →
      Runs g (.exact e (n + 1)) q p s o
  | atLeast_zero {e q p s o} : Runs g (.rep e) q p s o → Runs g (.atLeast e 0) q p s o
  | atLeast_succ {e n q p s o} : Runs g (.seq e (.atLeast e n)) q p s o →
      Runs g (.atLeast e (n + 1)) q p s o
  | skip {ws q p s} : Runs g (.skip ws) q p s (some ((skipTo ws p s).1, (skipTo ws p s).2, []))

end Pest
end Verif
