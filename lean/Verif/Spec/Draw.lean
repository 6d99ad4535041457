import Verif.Spec.Plot
import Verif.Model.Draw

/-!
# Specification vocabulary: what is drawn
-/

namespace Cmaes
variable {n : Nat} {F : Type} [Flt F]

/-- The series of `d` are those of the points `pts`. -/
structure PlotData.Shows (d : PlotData n F) (pts : List (PlotPoint n F)) : Prop where
  functionEvals : d.functionEvals = pts.map PlotPoint.evals
  bestFunctionValue : d.bestFunctionValue = pts.map PlotPoint.best
  medianFunctionValue : d.medianFunctionValue = pts.map PlotPoint.median
  sigma : d.sigma = pts.map PlotPoint.sigma
  axisRatio : d.axisRatio = pts.map PlotPoint.axisRatio
  meanDimensions : ∀ i, d.meanDimensions i = pts.map fun pt => pt.mean i
  sqrtEigenvalues : ∀ i, d.sqrtEigenvalues i = pts.map fun pt => pt.sqrtEigenvalues i
  coordAxisScales : ∀ i, d.coordAxisScales i = pts.map fun pt => pt.coordAxisScales i

/-- The run passed through the state `c1` on its way to `c`: `c1` was reached by the first of the calls
`t`, and `c` from there by the remaining ones. -/
def PassedThrough {R : Type} (env : Env n F R) (obj : Obj n F) (o : Options n F)
    (t : List (NextCall n F)) (c1 c : CMAES n F R) : Prop :=
  ∃ t1 t2, t = t1 ++ t2 ∧ History.Of env obj o t1 c1 ∧ Exec env c1 t2 c

/-- `l` lists, from left to right and without repetition, the points `(pt.evals, y pt)` of those
`pt` in `pts` that satisfy `P` and for which `y pt` is a number. -/
structure Curve (pts : List (PlotPoint n F)) (P : PlotPoint n F → Prop) (y : PlotPoint n F → F)
    (l : List (Nat × F)) : Prop where
  mem : ∀ p, p ∈ l ↔ ∃ pt ∈ pts, P pt ∧ Flt.isNaN (y pt) = false ∧ p = (pt.evals, y pt)
  sorted : l.Pairwise fun a b => a.1 < b.1

/-- The chart has one curve for each dimension, labelled with `label`, and nothing else. -/
structure Chart.Dimensions (c : Chart F) (pts : List (PlotPoint n F)) (label : Nat → Option String)
    (y : Fin n → PlotPoint n F → F) : Prop where
  length : c.series.length = n
  series : ∀ i : Fin n, ∃ s, c.series[i.val]? = some s ∧ s.label = label i ∧
    Curve pts (fun _ => True) (y i) s.points
  markers : c.markers = []

/-- `b` is the first of the points whose recorded best value is best: a number that no recorded
number beats. -/
structure FirstBest (mode : Mode) (pts : List (PlotPoint n F)) (b : PlotPoint n F) : Prop where
  mem : b ∈ pts
  number : Flt.isNaN b.best = false
  best : ∀ pt ∈ pts, ¬ Better mode pt.best b.best
  first : ∀ pt ∈ pts, Flt.feq pt.best b.best = true → b.evals ≤ pt.evals

/-- The distance of the recorded best value of `pt` from that of `b`, plus 1e-20. -/
def PlotPoint.distance (b pt : PlotPoint n F) : F := nudged (Flt.abs (pt.best - b.best))

/-- The best value is recorded for a point other than `b`. -/
def Repeated (pts : List (PlotPoint n F)) (b : PlotPoint n F) : Prop :=
  ∃ pt ∈ pts, pt.evals ≠ b.evals ∧ Flt.feq pt.best b.best = true

/-- All drawn points of a chart. -/
def Chart.points (c : Chart F) : List (Nat × F) := c.series.flatMap Series.points ++ c.markers

end Cmaes
