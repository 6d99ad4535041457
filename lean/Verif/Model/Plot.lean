import Verif.Model.Termination

/-!
# Recording of plot data: `plotting/data.rs`, `plotting/mod.rs`, `plotting/utils.rs`

The `plotters` feature is taken to be enabled.
-/

namespace Cmaes
variable {n : Nat} {F R : Type} [Flt F]

/-- `usize` addition in the checked profile. Used at /repo/src/plotting/mod.rs:101. -/
def usizeAdd (a b : Nat) : Outcome Nat := if 2 ^ 64 ≤ a + b then .panic .overflow else .ok (a + b)

/-- `usize` multiplication in the checked profile. Used at /repo/src/restart/ipop.rs:76,84 and
/repo/src/restart/bipop.rs:144,155. -/
def usizeMul (a b : Nat) : Outcome Nat := if 2 ^ 64 ≤ a * b then .panic .overflow else .ok (a * b)

/-- `apply_offset`, `/repo/src/plotting/utils.rs:4-11`. -/
def applyOffset (x : F) : F :=
  if Flt.le 0 x then x + Flt.ofRat (1 / 10 ^ 20) else x - Flt.ofRat (1 / 10 ^ 20)

/-- `PlotData`, `/repo/src/plotting/data.rs:10-22`. The per-dimension series are functions of the
dimension. -/
structure PlotData (n : Nat) (F : Type) where
  functionEvals : List Nat
  bestFunctionValue : List F
  medianFunctionValue : List F
  sigma : List F
  axisRatio : List F
  meanDimensions : Fin n → List F
  sqrtEigenvalues : Fin n → List F
  coordAxisScales : Fin n → List F

/-- `PlotData::new`, `/repo/src/plotting/data.rs:26-37`. -/
def PlotData.new : PlotData n F :=
  { functionEvals := [], bestFunctionValue := [], medianFunctionValue := [], sigma := [],
    axisRatio := [], meanDimensions := fun _ => [], sqrtEigenvalues := fun _ => [],
    coordAxisScales := fun _ => [] }

/-- `PlotData::len`, `/repo/src/plotting/data.rs:40-42`. -/
def PlotData.len (d : PlotData n F) : Nat := d.functionEvals.length

/-- The square roots of the eigenvalues in increasing order,
`/repo/src/plotting/data.rs:120-122`. -/
def sortedSqrtEigenvalues (s : State n F) : List F :=
  stableSort (fun a b => partialCmp a b != .gt) (List.ofFn s.cov.sqrtEigenvalues.diag)

theorem length_sortedSqrtEigenvalues (s : State n F) : (sortedSqrtEigenvalues s).length = n := by
  simp [sortedSqrtEigenvalues, stableSort]

/-- `PlotData::add_data_point`, `/repo/src/plotting/data.rs:87-132`. -/
def PlotData.addDataPoint (d : PlotData n F) (evals : Nat) (s : State n F) (h : History n F) :
    PlotData n F :=
  let best := (h.currentBest.map fun x => x.value).getD Flt.nan
  let med := h.medianValues.head?.getD Flt.nan
  { functionEvals := d.functionEvals ++ [evals]
    bestFunctionValue := d.bestFunctionValue ++ [applyOffset best]
    medianFunctionValue := d.medianFunctionValue ++ [applyOffset med]
    sigma := d.sigma ++ [applyOffset s.sigma]
    axisRatio := d.axisRatio ++ [applyOffset s.axisRatio]
    meanDimensions := fun i => d.meanDimensions i ++ [s.mean i]
    sqrtEigenvalues := fun i => d.sqrtEigenvalues i ++
      [applyOffset ((sortedSqrtEigenvalues s)[i.val]'(by
        rw [length_sortedSqrtEigenvalues]; exact i.isLt))]
    coordAxisScales := fun i => d.coordAxisScales i ++ [applyOffset (Flt.sqrt (s.cov.cov i i))] }

/-- `data.swap(0, len - 1); data.truncate(1)`, `/repo/src/plotting/data.rs:137-141`; `len - 1`
panics for an empty vector. -/
def clearSeries {α : Type} (l : List α) : Outcome (List α) :=
  match l with
  | [] => .panic .overflow
  | a :: l' =>
    let last := (a :: l').getLast (by simp)
    .ok ((((a :: l').set 0 last).set l'.length a).take 1)

/-- `for x in &mut ... { clear(x) }`, `/repo/src/plotting/data.rs:152-162`. -/
def clearDims (f : Fin n → List F) : Outcome (Fin n → List F) := do
  let ls ← (List.finRange n).mapM fun i => clearSeries (f i)
  .ok fun i => ls.getD i []

/-- `PlotData::clear`, `/repo/src/plotting/data.rs:136-163`. -/
def PlotData.clear (d : PlotData n F) : Outcome (PlotData n F) := do
  let functionEvals ← clearSeries d.functionEvals
  let bestFunctionValue ← clearSeries d.bestFunctionValue
  let medianFunctionValue ← clearSeries d.medianFunctionValue
  let sigma ← clearSeries d.sigma
  let axisRatio ← clearSeries d.axisRatio
  let meanDimensions ← clearDims d.meanDimensions
  let coordAxisScales ← clearDims d.coordAxisScales
  let sqrtEigenvalues ← clearDims d.sqrtEigenvalues
  .ok { functionEvals, bestFunctionValue, medianFunctionValue, sigma, axisRatio, meanDimensions,
        sqrtEigenvalues, coordAxisScales }

/-- `Plot`, `/repo/src/plotting/mod.rs:74-84`. -/
structure Plot (n : Nat) (F : Type) where
  data : PlotData n F
  options : PlotOptions
  mode : Mode
  lastDataPointEvals : Option Nat
  lastDataPointGeneration : Option Nat

/-- `Plot::new`, `/repo/src/plotting/mod.rs:88-96`. -/
def Plot.new (options : PlotOptions) (mode : Mode) : Plot n F :=
  { data := PlotData.new, options, mode, lastDataPointEvals := none,
    lastDataPointGeneration := none }

/-- `Plot::get_next_data_point_evals`, `/repo/src/plotting/mod.rs:99-104`. -/
def Plot.nextDataPointEvals (p : Plot n F) : Outcome Nat :=
  match p.lastDataPointEvals with
  | some evals => usizeAdd evals p.options.minGapEvals
  | none => .ok 0

/-- `Plot::add_data_point`, `/repo/src/plotting/mod.rs:107-123`. -/
def Plot.addDataPoint (p : Plot n F) (evals : Nat) (s : State n F) (h : History n F) : Plot n F :=
  let alreadyAdded := match p.lastDataPointGeneration with
    | some g => g == s.generation
    | none => false
  if alreadyAdded then p
  else
    { p with
      data := p.data.addDataPoint evals s h
      lastDataPointEvals := some evals
      lastDataPointGeneration := some s.generation }

/-- `Plot::clear`, `/repo/src/plotting/mod.rs:184-186`. -/
def Plot.clear (p : Plot n F) : Outcome (Plot n F) := do
  let data ← p.data.clear
  .ok { p with data }

end Cmaes
