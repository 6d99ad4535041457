import Verif.Spec.Termination

/-!
# Specification vocabulary: recorded plot data and printed rows
-/

namespace Cmaes
variable {n : Nat} {F R : Type} [Flt F]

/-- One point of the plot. -/
structure PlotPoint (n : Nat) (F : Type) where
  evals : Nat
  best : F
  median : F
  sigma : F
  axisRatio : F
  mean : Vec n F
  sqrtEigenvalues : Vec n F
  coordAxisScales : Vec n F

/-- `x` moved away from zero by 1e-20, so that its logarithm exists; zero counts as positive. -/
def nudged (x : F) : F :=
  if Flt.le 0 x then x + Flt.ofRat (1 / 100000000000000000000)
  else x - Flt.ofRat (1 / 100000000000000000000)

/-- `pt` describes the state of `c`: its evaluation count, the best and median value of its last
generation (NaN before the first one), its step size and axis ratio (these four and the following
ones moved away from zero by 1e-20), its mean, the lengths of the principal axes in increasing order, and the
lengths of the coordinate axes. -/
structure PlotPoint.Describes (pt : PlotPoint n F) (c : CMAES n F R) : Prop where
  evals : pt.evals = c.functionEvals
  best : pt.best = nudged (match c.currentBestIndividual with
    | some b => b.value
    | none => Flt.nan)
  median : pt.median = nudged (match c.history.medianValues with
    | m :: _ => m
    | [] => Flt.nan)
  sigma : pt.sigma = nudged c.sigma
  axisRatio : pt.axisRatio = nudged c.axisRatio
  mean : pt.mean = c.mean
  sqrtEigenvalues : ∃ l : List F, l.Perm (List.ofFn fun i => c.state.cov.sqrtEigenvalues i i) ∧
    ((∀ x ∈ l, Flt.isNaN x = false) → l.Pairwise fun a b => Flt.le a b = true) ∧
    List.ofFn pt.sqrtEigenvalues = l.map nudged
  coordAxisScales : ∀ i, pt.coordAxisScales i = nudged (Flt.sqrt (c.covarianceMatrix i i))

/-- `d'` is `d` with the point `pt` appended. -/
structure PlotData.Appended (d : PlotData n F) (pt : PlotPoint n F) (d' : PlotData n F) :
    Prop where
  functionEvals : d'.functionEvals = d.functionEvals ++ [pt.evals]
  bestFunctionValue : d'.bestFunctionValue = d.bestFunctionValue ++ [pt.best]
  medianFunctionValue : d'.medianFunctionValue = d.medianFunctionValue ++ [pt.median]
  sigma : d'.sigma = d.sigma ++ [pt.sigma]
  axisRatio : d'.axisRatio = d.axisRatio ++ [pt.axisRatio]
  meanDimensions : ∀ i, d'.meanDimensions i = d.meanDimensions i ++ [pt.mean i]
  sqrtEigenvalues : ∀ i, d'.sqrtEigenvalues i = d.sqrtEigenvalues i ++ [pt.sqrtEigenvalues i]
  coordAxisScales : ∀ i, d'.coordAxisScales i = d.coordAxisScales i ++ [pt.coordAxisScales i]

/-- The last point of `d` is `pt`. -/
structure PlotData.EndsWith (d : PlotData n F) (pt : PlotPoint n F) : Prop where
  functionEvals : d.functionEvals.getLast? = some pt.evals
  bestFunctionValue : d.bestFunctionValue.getLast? = some pt.best
  medianFunctionValue : d.medianFunctionValue.getLast? = some pt.median
  sigma : d.sigma.getLast? = some pt.sigma
  axisRatio : d.axisRatio.getLast? = some pt.axisRatio
  meanDimensions : ∀ i, (d.meanDimensions i).getLast? = some (pt.mean i)
  sqrtEigenvalues : ∀ i, (d.sqrtEigenvalues i).getLast? = some (pt.sqrtEigenvalues i)
  coordAxisScales : ∀ i, (d.coordAxisScales i).getLast? = some (pt.coordAxisScales i)

/-- All series of `d` have length `k`. -/
structure PlotData.Aligned (d : PlotData n F) (k : Nat) : Prop where
  functionEvals : d.functionEvals.length = k
  bestFunctionValue : d.bestFunctionValue.length = k
  medianFunctionValue : d.medianFunctionValue.length = k
  sigma : d.sigma.length = k
  axisRatio : d.axisRatio.length = k
  meanDimensions : ∀ i, (d.meanDimensions i).length = k
  sqrtEigenvalues : ∀ i, (d.sqrtEigenvalues i).length = k
  coordAxisScales : ∀ i, (d.coordAxisScales i).length = k

/-- Every series keeps exactly its last element. -/
structure PlotData.Cleared (d d' : PlotData n F) : Prop where
  functionEvals : d'.functionEvals = d.functionEvals.getLast?.toList
  bestFunctionValue : d'.bestFunctionValue = d.bestFunctionValue.getLast?.toList
  medianFunctionValue : d'.medianFunctionValue = d.medianFunctionValue.getLast?.toList
  sigma : d'.sigma = d.sigma.getLast?.toList
  axisRatio : d'.axisRatio = d.axisRatio.getLast?.toList
  meanDimensions : ∀ i, d'.meanDimensions i = (d.meanDimensions i).getLast?.toList
  sqrtEigenvalues : ∀ i, d'.sqrtEigenvalues i = (d.sqrtEigenvalues i).getLast?.toList
  coordAxisScales : ∀ i, d'.coordAxisScales i = (d.coordAxisScales i).getLast?.toList

/-- `x` is the smallest of the numbers `v`, if none of them is NaN. -/
def IsMinOf (v : Vec n F) (x : F) : Prop :=
  (∀ i, Flt.isNaN (v i) = false) → (∃ i, v i = x) ∧ ∀ i, Flt.le x (v i) = true

/-- `x` is the largest of the numbers `v`, if none of them is NaN. -/
def IsMaxOf (v : Vec n F) (x : F) : Prop :=
  (∀ i, Flt.isNaN (v i) = false) → (∃ i, v i = x) ∧ ∀ i, Flt.le (v i) x = true

/-- `e` is the row of information on the state of `c`: generation, evaluations, best value of the
last generation, axis ratio, step size, and the smallest and the largest standard deviation. -/
def PrintEvent.IsRowOf (e : PrintEvent n F) (c : CMAES n F R) : Prop :=
  ∃ mn mx, IsMinOf (fun i => c.covarianceMatrix i i) mn ∧
    IsMaxOf (fun i => c.covarianceMatrix i i) mx ∧
    e = .info c.generation c.functionEvals (c.currentBestIndividual.map fun b => b.value)
      c.axisRatio c.sigma (c.sigma * Flt.sqrt mn) (c.sigma * Flt.sqrt mx)

/-- `e` is the final information on `c`: the reasons, the best values of the last generation and
overall, and the mean. -/
def PrintEvent.IsFinalOf (e : PrintEvent n F) (reasons : List TerminationReason)
    (c : CMAES n F R) : Prop :=
  e = .final reasons
    (match c.currentBestIndividual, c.overallBestIndividual with
      | some a, some b => some (a.value, b.value)
      | _, _ => none) c.mean

/-- The last call that evaluated a whole generation did not report `PosDefCov`. -/
def Settled (t : List (NextCall n F)) : Prop :=
  ∀ s, (t.filter fun s => ¬ s.Failed).getLast? = some s → ¬ s.ReportsPosDef

instance (t : List (NextCall n F)) : Decidable (Settled t) :=
  decidable_of_iff (∀ s ∈ (t.filter fun x : NextCall n F => ¬ x.Failed).getLast?.toList,
      ¬ NextCall.ReportsPosDef s)
    (by simp [Settled])

/-- The evaluation count after the calls `t` and the evaluation count of the last scheduled print:
with a minimum gap `gap` a print is scheduled for a completed generation if at least `gap`
evaluations were made since the last one. -/
def printSchedule (lambda gap : Nat) (t : List (NextCall n F)) : Nat × Nat :=
  t.foldl (fun acc s =>
    if s.Failed then acc
    else if s.ReportsPosDef then (acc.1 + lambda, acc.2)
    else (acc.1 + lambda, if acc.2 + gap ≤ acc.1 + lambda then acc.1 + lambda else acc.2)) (0, 0)

end Cmaes
