import Verif.Spec.Trace
import Verif.Float.Bin64
import Mathlib.Analysis.SpecialFunctions.Log.Basic
import Mathlib.Analysis.SpecialFunctions.Pow.Real

/-!
# Specification vocabulary: accuracy of binary64 results
-/

namespace Cmaes

/-- `x` is a finite binary64 number that differs from the real number `r` by at most `ε |r|`. For
`r = 0` this means that `x` is zero. -/
def Within (ε r : ℝ) (x : F64) : Prop := ∃ a : Bin64, x = .fin a ∧ |((a.1 : ℚ) : ℝ) - r| ≤ ε * |r|

/-- The mathematical library is accurate: the logarithm of numbers from one on has a relative error of
at most `2^-51` (four times the rounding error), and the square root one of at most `2^-52`. -/
structure AccurateLibm [Libm F64] : Prop where
  ln : ∀ a : Bin64, 1 ≤ a.1 → Within (1 / 2 ^ 51) (Real.log (a.1 : ℚ)) (Flt.ln (.fin a : F64))
  sqrt : ∀ a : Bin64, 0 ≤ a.1 → Within (1 / 2 ^ 52) (Real.sqrt (a.1 : ℚ)) (Flt.sqrt (.fin a : F64))

/-- The unnormalised weights of the parents, as published in Hansen, "The CMA evolution
strategy: a tutorial": `ln ((lambda + 1) / 2) - ln i` for the `i`-th best, or all equal. -/
noncomputable def publishedWeights (lambda : ℕ) (s : Weights) : List ℝ :=
  (List.range (lambda / 2)).map fun i =>
    if s = .uniform then 1 else Real.log (((lambda : ℝ) + 1) / 2) - Real.log ((i + 1 : ℕ) : ℝ)

end Cmaes
