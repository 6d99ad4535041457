import Verif.Spec.Causal
import Verif.Spec.Exact
import Mathlib.Probability.Distributions.Gaussian.Multivariate

/-!
# Specification vocabulary: normally distributed random numbers

The generator of a search is a sequence of real numbers and a position in it. The sequence is the
random object: its entries are independent and standard normally distributed.
-/

namespace Cmaes
variable {n : Nat}

/-- The generator that gives the numbers `ω 0, ω 1, …` for every seed. Its state is the position.
(A search uses `seed` and `normal` only.) -/
noncomputable def streamRng (ω : Nat → ℝ) : RngOps Nat XR where
  seed _ := 0
  normal k := (.fin (ω k), k + 1)
  unit k := (.fin 0, k + 1)
  u64 k := (0, k + 1)
  uniform lo _ k := (lo, k + 1)

/-- The sequence `ω` with the entries from number `N` on replaced by the rows of `z`. -/
def replaceFrom {m : Nat} (ω : Nat → ℝ) (N : Nat) (z : Fin m → Fin n → ℝ) : Nat → ℝ := fun k =>
  if h : N ≤ k ∧ k - N < m * n then
    z ⟨(k - N) / n, Nat.div_lt_of_lt_mul (by rw [Nat.mul_comm]; exact h.2)⟩
      ⟨(k - N) % n, Nat.mod_lt _ (Nat.pos_of_ne_zero fun e => by simp [e] at h)⟩
  else ω k

open MeasureTheory ProbabilityTheory in
/-- The law of `m` independent vectors of `n` independent standard normal numbers. -/
noncomputable def standardNormal (m n : Nat) : Measure (Fin m → Fin n → ℝ) :=
  Measure.pi fun _ => Measure.pi fun _ => gaussianReal 0 1

/-- The values that the objective returns do not depend on the points; they may depend on the number
of calls so far. -/
def Obj.IgnoresPoint {F : Type} (obj : Obj n F) : Prop :=
  ∀ log log' x x', log.length = log'.length → obj.f log x = obj.f log' x'

end Cmaes
