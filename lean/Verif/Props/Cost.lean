import Verif.Proof.CostLow
import Verif.Proof.CostNest

/-!
# How much work parsing takes, and how deep it nests (C53, C54, C55)

`engineMeter s` is the reading of the meter when pest runs the grammar on the text `s`: `evals`
counts evaluations of grammar expressions, `nest` is the largest number of them in progress at the
same time.
-/

namespace Verif
open Spec

/-- The meter is on the run that `Dockerfile.parse` uses. -/
theorem C53_metered (s : Str) :
    (runM G.body (s.length + 2) G.dockerfile false 0 s).1 =
      runFuel G.body (s.length + 2) G.dockerfile false 0 s := runM_fst _ _ _ _ _ _

/-- C53: the work is at most quadratic in the length of the text, accepted or not. -/
theorem C53_quadratic (s : Str) : (engineMeter s).evals ≤ 78068 * (s.length + 1) ^ 2 := by
  obtain ⟨o, h⟩ := engine_semM s
  have B : Sound G.dockerfile ⟨78068, 1, 78068, 2, 78068, 2, true⟩ :=
    sound_of_bnd ovAll_ok (by decide +kernel) (by decide +kernel)
  have := B _ _ _ _ _ h
  cases o with
  | none => exact this.1
  | some r => exact this.2

/-- C54: there are accepted documents of `n` instructions and `17 n` characters on which at least
`n * n` expressions are evaluated. -/
theorem C54_family (unq : Unquote) (n : Nat) :
    (∃ d, Dockerfile.parse unq (scanDoc n) = .ok d ∧ d.instructions.length = n) ∧
    (scanDoc n).length = 17 * n ∧ n * n ≤ (engineMeter (scanDoc n)).evals :=
  ⟨scan_accepted unq n, length_scanDoc n, scan_engine n⟩

/-- C54: the work is not linear in the length of the text, not even for accepted documents. -/
theorem C54_not_linear (unq : Unquote) : ¬ ∃ K : Nat, ∀ s d, Dockerfile.parse unq s = .ok d →
    (engineMeter s).evals ≤ K * (s.length + 1) := by
  rintro ⟨K, h⟩
  obtain ⟨⟨d, hd, -⟩, hl, hw⟩ := C54_family unq (18 * K + 1)
  have := h _ _ hd
  rw [hl] at this
  have h1 : 17 * (18 * K + 1) + 1 ≤ 18 * (18 * K + 1) := by omega
  have h2 := Nat.mul_le_mul (Nat.le_refl K) h1
  have h3 : (18 * K + 1) * (18 * K + 1) = K * (18 * (18 * K + 1)) + (18 * K + 1) := by
    rw [Nat.add_mul, Nat.one_mul, ← Nat.mul_assoc, Nat.mul_comm K 18]
  omega

/-- C55: the nesting is bounded by the number of backslashes and hashes in the text, whatever its
length. -/
theorem C55_nesting (s : Str) : (engineMeter s).nest ≤ 65 + 30 * marks s := by
  have h := engine_nest s
  rw [show dpt G.dockerfile = 65 by decide +kernel, show nestStep = 30 by decide +kernel] at h
  exact h

/-- C55: in particular it is bounded for texts without backslashes and hashes. -/
theorem C55_plain (s : Str) (h : ∀ c ∈ s, c ≠ '\\' ∧ c ≠ '#') : (engineMeter s).nest ≤ 65 := by
  have : marks s = 0 := by
    induction s with
    | nil => rfl
    | cons c s ih =>
      have := h c (by simp)
      simp only [marks, this, ih (fun d hd => h d (by simp [hd]))]
      simp
  have := C55_nesting s
  omega

/-- C55: there are accepted documents with a single instruction, over `n + 1` lines, for which `n`
evaluations are in progress at the same time. -/
theorem C55_family (unq : Unquote) (n : Nat) :
    (∃ d, Dockerfile.parse unq (deepDoc n) = .ok d ∧ d.instructions.length = 1) ∧
    n ≤ (engineMeter (deepDoc n)).nest :=
  ⟨deep_accepted unq n, deep_engine n⟩

/-- C55: so there is no bound for all accepted documents. -/
theorem C55_unbounded (unq : Unquote) : ¬ ∃ K : Nat, ∀ s d, Dockerfile.parse unq s = .ok d →
    (engineMeter s).nest ≤ K := by
  rintro ⟨K, h⟩
  obtain ⟨⟨d, hd, -⟩, hn⟩ := C55_family unq (K + 1)
  have := h _ _ hd
  omega

/-! ## examples -/

example : engineMeter [] = ⟨68, 21⟩ := by decide +kernel
example : engineMeter c!"FROM a\nRUN b" = ⟨190, 28⟩ := by decide +kernel
example : engineMeter (scanDoc 2) = ⟨1319, 53⟩ := by decide +kernel
example : engineMeter (scanDoc 4) = ⟨3493, 56⟩ := by decide +kernel
example : engineMeter (deepDoc 2) = ⟨215, 37⟩ := by decide +kernel
example : scanDoc 2 = c!"CMD [\",\"\\\n#\"\\\n,\"\nCMD [\",\"\\\n#\"\\\n,\"\n" := by decide
example : deepDoc 2 = c!"RUN x\\\nx\\\nx" := by decide
example : marks (deepDoc 2) = 2 := by decide

end Verif
