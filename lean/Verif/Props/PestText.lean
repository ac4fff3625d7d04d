import Verif.Proof.PestInline

/-!
# The grammar file

The expressions of `Model/Grammar` are written by hand; here they are compared with the text of the
grammar file (`Model/PestText`), by a reader for pest's syntax and a model of pest's optimiser.

C58: running the rule `dockerfile` of the grammar file, as written or as optimised by pest, comes
out exactly as the model's parser does.
-/

namespace Verif
namespace Pest

deriving instance DecidableEq for PExpr

/-- the rules of `/repo/src/dockerfile_parser.pest` -/
def grammar : Grammar := (read pestText).getD []

/-- The file can be read, and has 70 rules. -/
theorem C58_read : read pestText = some grammar ∧ grammar.length = 70 := by
  have h : (read pestText).isSome = true ∧ ((read pestText).getD []).length = 70 := by decide +kernel
  refine ⟨?_, h.2⟩
  cases hr : read pestText with
  | none => rw [hr] at h; cases h.1
  | some g => rw [grammar, hr]; rfl

/-- Nothing is skipped between the parts of a rule, no rule is defined twice or has the name of a
built-in one, and every rule that is not silent has a name in `Rule`. -/
theorem C58_names : (∀ r ∈ grammar, r.name ≠ c!"WHITESPACE" ∧ r.name ≠ c!"COMMENT") ∧
    (List.map (·.name) grammar).Nodup ∧ (∀ r ∈ grammar, builtin r.name = none) ∧
    List.map (·.name) (grammar.filter (·.kind ≠ .silent)) = ruleNames.map (·.1) := by
  decide +kernel

/-- The expressions of `Model/Grammar` are what the first and the third pass of the optimiser make of
the file, with bodies for names. -/
theorem C58_bodies :
    let g := grammar.passes [.rotate, .unroll]
    inline g 1000 [] (.ident c!"dockerfile") = some G.dockerfile ∧
    inline g 1000 [] (.ident c!"any_breakable") = some (G.body .any_breakable) ∧
    inline g 1000 [] (.ident c!"inner") = some (G.body .inner) ∧
    inline g 1000 [] (.ident c!"single_quoted_inner") = some (G.body .single_quoted_inner) := by
  decide +kernel

theorem recOK_grammar : RecOK (grammar.passes [.rotate, .unroll]) := by
  obtain ⟨_, h1, h2, h3⟩ := C58_bodies
  intro i r h
  have hm := List.mem_of_find?_eq_some h
  simp only [recNames, List.mem_cons, List.not_mem_nil, or_false, Prod.mk.injEq] at hm
  rcases hm with ⟨rfl, rfl⟩ | ⟨rfl, rfl⟩ | ⟨rfl, rfl⟩
  · exact ⟨_, h1⟩
  · exact ⟨_, h2⟩
  · exact ⟨_, h3⟩

/-- **C58** for the file as it is written: what the rule `dockerfile` comes out as is what the
model's parser returns. -/
theorem C58_text (s : Str) (o : Out) :
    Runs grammar (.ident c!"dockerfile") false 0 s o ↔ parse G.dockerfile false 0 s = o :=
  (runs_passes (by decide)).symm.trans
    ((runs_iff_sem recOK_grammar C58_bodies.1).trans (parse_eq_iff safe_dockerfile).symm)

/-- The passes but the last one do not change what a grammar means, in whatever order and however
often they are run. -/
theorem C58_passes (g : Grammar) (xs : List Pass) (hx : Pass.list ∉ xs) (e : Expr) (q : Bool) (p : Nat)
    (s : Str) (o : Out) : Runs (g.passes xs) e q p s o ↔ Runs g e q p s o := runs_passes hx

/-- The last pass finds nothing to do. -/
theorem C58_list : grammar.optimize =
    grammar.passes [.rotate, .skip, .unroll, .concatenate, .factorize] := by
  decide +kernel

/-- **C58** for the file as pest's optimiser leaves it. -/
theorem C58_optimized (s : Str) (o : Out) :
    Runs grammar.optimize (.ident c!"dockerfile") false 0 s o ↔ parse G.dockerfile false 0 s = o := by
  rw [C58_list]
  exact (runs_passes (by decide)).trans (C58_text s o)

/-- Later versions of the optimiser also look up names when they look for texts to skip to; that is
the same here. -/
theorem C58_skip : let g := grammar.passes [.rotate]
    g.map (fun k e => if k = .atomic then mapTop (skipStepIn grammar) e.size e else e) =
      grammar.passes [.rotate, .skip] := by
  decide +kernel

/-- The optimiser does something: the bodies of three rules change beyond the first and third pass. -/
theorem C58_changed :
    ((grammar.optimize.zip (grammar.passes [.rotate, .unroll])).filter (fun x => x.1 ≠ x.2)).map
      (·.1.name) = [c!"inner", c!"single_quoted_inner", c!"string_array"] := by
  decide +kernel

/-- The last pass is not harmless in general: `("a" ~ "b")* ~ "a"` does not match `ab`, but what the
pass makes of it matches the `a`. -/
theorem C58_list_unsound :
    let e := Expr.seq (.rep (.seq (.str c!"a") (.str c!"b"))) (.str c!"a")
    Runs [] e false 0 c!"ab" none ∧
    Runs [] (Pass.list.run .normal e) false 0 c!"ab" (some (1, c!"b", [])) := by
  refine ⟨?_, ?_⟩
  · exact .seq_fail2
      (.rep_cons (.seq_ok (.str_ok (s' := c!"b") rfl) (.str_ok (s' := []) rfl))
        (.rep_nil (.seq_fail1 (.str_fail rfl)))) (.str_fail rfl)
  · exact .seq_ok (t1 := []) (.str_ok (w := c!"a") (s' := c!"b") rfl)
      (.rep_nil (.seq_fail2 (.str_ok (s' := []) rfl) (.str_fail rfl)))

/-- an example: a document is accepted by the grammar file, to its end -/
example : ∃ ts, Runs grammar.optimize (.ident c!"dockerfile") false 0 c!"FROM a\nRUN [\"b\", \"c\"]"
    (some (21, [], ts)) := by
  have h : ((parse G.dockerfile false 0 c!"FROM a\nRUN [\"b\", \"c\"]").map fun r => (r.1, r.2.1)) =
      some (21, []) := by decide +kernel
  cases hp : parse G.dockerfile false 0 c!"FROM a\nRUN [\"b\", \"c\"]" with
  | none => rw [hp] at h; cases h
  | some r =>
    obtain ⟨p, s, ts⟩ := r
    rw [hp] at h
    cases h
    exact ⟨ts, (C58_optimized _ _).2 hp⟩

/-- and a text that is not -/
example : Runs grammar (.ident c!"dockerfile") false 0 c!"FROM" none :=
  (C58_text _ _).2 (by
    have h : (parse G.dockerfile false 0 c!"FROM").isNone = true := by decide +kernel
    exact Option.isNone_iff_eq_none.1 h)

end Pest
end Verif
