import Verif.Model.Image
import Verif.Spec.Image

namespace Verif

theorem splitFirst_some {c : Char} {s a b : Str} (h : splitFirst c s = some (a, b)) :
    s = a ++ c :: b ∧ c ∉ a := by
  fun_induction splitFirst c s generalizing a b <;> grind

theorem splitFirst_none {c : Char} {s : Str} (h : splitFirst c s = none) : c ∉ s := by
  fun_induction splitFirst c s <;> grind

theorem splitFirst_append {c : Char} {a b : Str} (h : c ∉ a) :
    splitFirst c (a ++ c :: b) = some (a, b) := by
  induction a with
  | nil => simp [splitFirst]
  | cons d ds ih =>
    have h1 : c ∉ ds := by grind
    have h2 : d ≠ c := by grind
    simp [splitFirst, ih h1, h2]

theorem splitFirst_of_notMem {c : Char} {s : Str} (h : c ∉ s) : splitFirst c s = none := by
  cases hs : splitFirst c s with
  | none => rfl
  | some ab =>
    obtain ⟨a, b⟩ := ab
    have := splitFirst_some hs
    grind

theorem isRegistry_iff {h : Str} : isRegistry h = true ↔ Spec.IsRegistryHost h := by
  simp [isRegistry, Spec.IsRegistryHost, or_assoc]

open Spec in
/-- first-slash decompositions are unique -/
theorem hasRegistry_unique {s h r h' r' : Str} (h1 : HasRegistry s h r)
    (h2 : HasRegistry s h' r') : h = h' ∧ r = r' := by
  obtain ⟨e1, n1, -⟩ := h1
  obtain ⟨e2, n2, -⟩ := h2
  have a1 := splitFirst_append (b := r) n1
  have a2 := splitFirst_append (b := r') n2
  rw [← e1] at a1
  rw [← e2, a1] at a2
  simpa using a2

open Spec in
theorem bodySpec_unique {b i i' : Str} {t t' h h' : Option Str} (h1 : BodySpec b i t h)
    (h2 : BodySpec b i' t' h') : i = i' ∧ t = t' ∧ h = h' := by
  cases h1 with
  | hash x e n =>
    cases h2 with
    | hash y e' n' =>
      have a1 := splitFirst_append (b := x) n
      have a2 := splitFirst_append (b := y) n'
      rw [← e] at a1; rw [← e', a1] at a2; simp at a2; grind
    | tag y m e' n' => subst e; simp at m
    | plain m m' e' => subst e; simp at m
  | tag x m e n =>
    cases h2 with
    | hash y e' n' => subst e'; simp at m
    | tag y m e' n' =>
      have a1 := splitFirst_append (b := x) n
      have a2 := splitFirst_append (b := y) n'
      rw [← e] at a1; rw [← e', a1] at a2; simp at a2; grind
    | plain m' k e' => subst e; simp at k
  | plain m k e =>
    cases h2 with
    | hash y e' n' => subst e'; simp at m
    | tag y m e' n' => subst e'; simp at k
    | plain => grind

theorem display_eq (r : ImageRef) : r.display =
    (match r.registry with
      | some h => h ++ ['/']
      | none => []) ++ r.image ++ Spec.suffixText r.tag r.hash := by
  obtain ⟨rr, ri, rt, rh⟩ := r
  cases rt <;> cases rh <;> rfl

/-- the part of `ImageRef::parse` after the registry has been split off -/
def parseBody (registry : Option Str) (imageFull : Str) : ImageRef :=
  match splitFirst '@' imageFull with
  | some (image, hash) => { registry, image, hash := some hash, tag := none }
  | none =>
    match splitFirst ':' imageFull with
    | some (image, tag) => { registry, image, tag := some tag, hash := none }
    | none => { registry, image := imageFull, tag := none, hash := none }

theorem parseBody_spec (reg : Option Str) (b : Str) :
    (parseBody reg b).registry = reg ∧
    Spec.BodySpec b (parseBody reg b).image (parseBody reg b).tag (parseBody reg b).hash := by
  unfold parseBody
  split
  · rename_i image hash h
    obtain ⟨h1, h2⟩ := splitFirst_some h
    exact ⟨rfl, .hash _ h1 h2⟩
  · rename_i h
    have h0 := splitFirst_none h
    split
    · rename_i image tag h
      obtain ⟨h1, h2⟩ := splitFirst_some h
      exact ⟨rfl, .tag _ h0 h1 h2⟩
    · rename_i h
      exact ⟨rfl, .plain h0 (splitFirst_none h) rfl⟩

theorem parse_cases (s : Str) :
    (∃ host rest, Spec.HasRegistry s host rest ∧ ImageRef.parse s = parseBody (some host) rest) ∨
    ((¬ ∃ host rest, Spec.HasRegistry s host rest) ∧ ImageRef.parse s = parseBody none s) := by
  cases h : splitFirst '/' s with
  | none =>
    right
    have hn := splitFirst_none h
    refine ⟨?_, by simp [ImageRef.parse, h, parseBody]; rfl⟩
    rintro ⟨a, b, e, -, -⟩
    subst e; simp at hn
  | some ab =>
    obtain ⟨a, b⟩ := ab
    obtain ⟨e, hn⟩ := splitFirst_some h
    by_cases hr : isRegistry a = true
    · left
      exact ⟨a, b, ⟨e, hn, isRegistry_iff.mp hr⟩, by simp [ImageRef.parse, h, parseBody, hr]; rfl⟩
    · right
      refine ⟨?_, by simp [ImageRef.parse, h, parseBody, hr]; rfl⟩
      rintro ⟨x, y, e', hx, hxr⟩
      have a1 := splitFirst_append (b := y) hx
      rw [← e', h] at a1
      simp at a1
      exact hr (isRegistry_iff.mpr (a1.1 ▸ hxr))

end Verif
