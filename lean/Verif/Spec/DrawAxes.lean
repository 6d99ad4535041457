import Verif.Spec.Draw
import Verif.Spec.Exact
import Mathlib.Analysis.SpecialFunctions.Log.Base

/-!
# Specification vocabulary: the axes of the charts, in exact arithmetic
-/

namespace Cmaes

/-- The exact functions. -/
noncomputable instance : DrawMath XR where
  log10
    | .nan => .nan
    | .ninf => .nan
    | .pinf => .pinf
    | .fin x => if x < 0 then .nan else if x = 0 then .ninf else .fin (Real.logb 10 x)
  round
    | .fin x => .fin (if 0 ≤ x then ⌊x + 1 / 2⌋ else ⌈x - 1 / 2⌉)
    | x => x

/-- `mn` and `mx` are the smallest and the largest value drawn in the chart, and all drawn values
are real. -/
structure Chart.Extremes (ch : Chart XR) (mn mx : ℝ) : Prop where
  min : ∃ q ∈ ch.points, q.2 = .fin mn
  max : ∃ q ∈ ch.points, q.2 = .fin mx
  between : ∀ q ∈ ch.points, ∃ y, q.2 = .fin y ∧ mn ≤ y ∧ y ≤ mx

/-- The vertical axis is logarithmic and reaches from `10^-0.4` times the smallest to `10^0.4` times
the largest drawn value. It is to have as many labels as it has powers of ten, up to rounding, but
at most 26. -/
def Chart.LogFits (ch : Chart XR) : Prop :=
  ∃ mn mx : ℝ, ch.Extremes mn mx ∧ 0 < mn ∧ ch.yAxis.kind = .log ∧
    ch.yAxis.lo = .fin (mn / 10 ^ (0.4 : ℝ)) ∧ ch.yAxis.hi = .fin (mx * 10 ^ (0.4 : ℝ)) ∧
    ch.yAxis.numLabels = min ⌊Real.logb 10 (mx / mn) + 0.8 + 1 / 2⌋.toNat 26

/-- All drawn values are strictly within the vertical axis. -/
def Chart.Inside (ch : Chart XR) : Prop :=
  ∃ lo hi : ℝ, ch.yAxis.lo = .fin lo ∧ ch.yAxis.hi = .fin hi ∧
    ∀ q ∈ ch.points, ∃ y, q.2 = .fin y ∧ lo < y ∧ y < hi

/-- The vertical axis exceeds the drawn values by 15% of their spread at either end; if there is only
one value, by 15% of it, or by 0.15 if it is zero. -/
def Chart.LinearFits (ch : Chart XR) : Prop :=
  ∃ mn mx m : ℝ, ch.Extremes mn mx ∧ ch.yAxis.lo = .fin (mn - m) ∧ ch.yAxis.hi = .fin (mx + m) ∧
    (mn < mx → m = 0.15 * (mx - mn)) ∧ (mn = mx → mx ≠ 0 → m = 0.15 * mx) ∧
    (mn = mx → mx = 0 → m = 0.15)

end Cmaes
