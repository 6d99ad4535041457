import Verif.Model.Plot

/-!
# What `Plot::save_to_file` draws: `plotting/draw.rs`, `plotting/mod.rs:148-170`

The crate hands four charts to the `plotters` library. A chart is modelled by what the crate passes:
caption, axis ranges, series of points, markers, and whether there is a legend. What `plotters` and
the file system do with it is not modelled; neither are colours, fonts and sizes.
-/

namespace Cmaes
variable {n : Nat} {F : Type} [Flt F]

/-- The `f64` functions that are used for drawing only. Used at
/repo/src/plotting/draw.rs:351-364,422-441. -/
class DrawMath (F : Type) where
  /-- `f64::log10` -/
  log10 : F → F
  /-- `f64::round` -/
  round : F → F

/-- `Iterator::min_by`: the first of several minima. Used at /repo/src/plotting/draw.rs:74,427,449.
-/
def iterMinBy {α : Type} (cmp : α → α → Ordering) : List α → Option α
  | [] => none
  | a :: l => some (l.foldl (fun x y => if cmp x y = .gt then y else x) a)

/-- `Iterator::max_by`: the last of several maxima. Used at /repo/src/plotting/draw.rs:431,450. -/
def iterMaxBy {α : Type} (cmp : α → α → Ordering) : List α → Option α
  | [] => none
  | a :: l => some (l.foldl (fun x y => if cmp x y = .gt then x else y) a)

/-- `YAxisKind`, `/repo/src/plotting/draw.rs:50-58`. -/
inductive YAxisKind where
  | log
  | linear (scientificNotation : Bool)
deriving DecidableEq

/-- `YAxis`, `/repo/src/plotting/draw.rs:30-37`; `lo..hi` is the range. -/
structure YAxis (F : Type) where
  lo : F
  hi : F
  numLabels : Nat
  kind : YAxisKind

/-- A series of points joined by lines; `label` is its legend entry. Drawn in
/repo/src/plotting/draw.rs:62-320, the legend entry in /repo/src/plotting/draw.rs:402-406. -/
structure Series (F : Type) where
  label : Option String
  points : List (Nat × F)

/-- What is drawn to one of the four areas. It is set up in /repo/src/plotting/draw.rs:324-399. -/
structure Chart (F : Type) where
  caption : String
  xStart : Nat
  xEnd : Nat
  yAxis : YAxis F
  series : List (Series F)
  markers : List (Nat × F)
  legend : Bool

/-- `get_points`, `/repo/src/plotting/draw.rs:409-418`. -/
def getPoints (xs : List Nat) (ys : List F) : List (Nat × F) :=
  (xs.zip ys).filter fun p => !Flt.isNaN p.2

/-- `get_log_y_axis`, `/repo/src/plotting/draw.rs:422-439`. -/
def getLogYAxis [DrawMath F] (ys : List F) : Outcome (YAxis F) := do
  let margin : F := Flt.ofRat (4 / 10)
  let mn ← Outcome.unwrap .unwrap (iterMinBy partialCmp ys)
  let logMin := DrawMath.log10 mn - margin
  let mx ← Outcome.unwrap .unwrap (iterMaxBy partialCmp ys)
  let logMax := DrawMath.log10 mx + margin
  .ok { lo := Flt.powf 10 logMin, hi := Flt.powf 10 logMax
        numLabels := min (Flt.toUsize (DrawMath.round (logMax - logMin))) 26, kind := .log }

/-- `get_linear_y_axis`, `/repo/src/plotting/draw.rs:445-474`. -/
def getLinearYAxis (ys : List F) (scientificNotation : Bool) : Outcome (YAxis F) := do
  let mn ← Outcome.unwrap .unwrap (iterMinBy partialCmp ys)
  let mx ← Outcome.unwrap .unwrap (iterMaxBy partialCmp ys)
  let margin := (mx - mn) * Flt.ofRat (15 / 100)
  let margin :=
    if Flt.feq margin 0 then
      if Flt.feq mx 0 then Flt.ofRat (15 / 100) else mx * Flt.ofRat (15 / 100)
    else margin
  .ok { lo := mn - margin, hi := mx + margin, numLabels := 26, kind := .linear scientificNotation }

/-- `DrawingAreaSetup::configure_area`, `/repo/src/plotting/draw.rs:350-398`. -/
def configureArea (evals : List Nat) (caption : String) (legend : Bool) (yAxis : YAxis F)
    (draw : Outcome (List (Series F) × List (Nat × F))) : Outcome (Chart F) := do
  let xStart ← Outcome.unwrap .unwrap evals.head?
  let last ← Outcome.unwrap .unwrap evals.getLast?
  let xEnd := Flt.toUsize (Flt.ofNat last * Flt.ofRat (105 / 100) : F)
  let (series, markers) ← draw
  .ok { caption, xStart, xEnd, yAxis, series, markers, legend }

/-- The best recorded value and its index, `/repo/src/plotting/draw.rs:68-74`. -/
def bestRecorded (mode : Mode) (d : PlotData n F) : Option (Nat × F) :=
  iterMinBy (fun a b => mode.sortCmp a.2 b.2)
    ((d.bestFunctionValue.zipIdx.map fun p => (p.2, p.1)).filter fun p => !Flt.isNaN p.2)

/-- The number of times the best value appears, `/repo/src/plotting/draw.rs:78-83`. -/
def bestCount (d : PlotData n F) (best : F) : Nat :=
  (d.bestFunctionValue.filter fun y => Flt.feq y best).length

/-- `dist_to_best`, `/repo/src/plotting/draw.rs:86-90`. -/
def distToBest (d : PlotData n F) (best : F) : List F :=
  d.bestFunctionValue.map fun y => applyOffset (Flt.abs (y - best))

/-- The values that determine the y axis, `/repo/src/plotting/draw.rs:96-115`. -/
def singleYValues (d : PlotData n F) (best : Option (Nat × F)) : List F :=
  let ys := d.bestFunctionValue.map Flt.abs ++ d.medianFunctionValue.map Flt.abs ++ d.sigma ++
    d.axisRatio
  let ys := match best with
    | none => ys
    | some (i, b) => ys ++ (((distToBest d b).zipIdx.filter fun (p : F × Nat) =>
        decide (1 < bestCount d b) || p.2 != i).map Prod.fst)
  ys.filter fun y => !Flt.isNaN y

/-- The distance to the best value and the marker, `/repo/src/plotting/draw.rs:122-157`. -/
def drawDistance (d : PlotData n F) : Option (Nat × F) →
    Outcome (List (Series F) × List (Nat × F))
  | none => .ok ([], [])
  | some (i, b) => do
    let numLeft := if 1 < bestCount d b then i + 1 else i
    let dist := distToBest d b
    let left : Series F := { label := some "abs(f - best)",
                             points := getPoints (d.functionEvals.take numLeft) (dist.take numLeft) }
    let right : Series F := { label := none,
                              points := getPoints (d.functionEvals.drop (i + 1)) (dist.drop (i + 1)) }
    if Flt.isNaN b then .ok ([left, right], [])
    else match d.functionEvals[i]? with
      | some e => .ok ([left, right], [(e, Flt.abs b)])
      | none => .panic .index

/-- `draw_single_dimensioned`, `/repo/src/plotting/draw.rs:62-203`. -/
def drawSingleDimensioned [DrawMath F] (mode : Mode) (d : PlotData n F) : Outcome (Chart F) := do
  let best := bestRecorded mode d
  let yAxis ← getLogYAxis (singleYValues d best)
  configureArea d.functionEvals "abs(f - best), abs(f), abs(median) Sigma, Axis Ratio" true yAxis do
    let (series, markers) ← drawDistance d best
    .ok (series ++
      [{ label := some "abs(f)"
         points := getPoints d.functionEvals (d.bestFunctionValue.map Flt.abs) },
       { label := some "abs(median)"
         points := getPoints d.functionEvals (d.medianFunctionValue.map Flt.abs) },
       { label := some "Sigma", points := getPoints d.functionEvals d.sigma },
       { label := some "Axis Ratio", points := getPoints d.functionEvals d.axisRatio }], markers)

/-- `MAX_LEGEND_VALUES`, `/repo/src/plotting/draw.rs:27`. -/
def maxLegendValues : Nat := 18

/-- `draw_mean`, `/repo/src/plotting/draw.rs:206-247`. -/
def drawMean (d : PlotData n F) (options : PlotOptions) : Outcome (Chart F) := do
  let yAxis ← getLinearYAxis ((List.finRange n).flatMap d.meanDimensions)
    options.scientificNotation
  configureArea d.functionEvals "Mean" (decide ¬ maxLegendValues < n) yAxis
    (.ok ((List.finRange n).map fun i =>
      { label := some s!"x[{i.val}]"
        points := getPoints d.functionEvals (d.meanDimensions i) }, []))

/-- `draw_sqrt_eigenvalues`, `/repo/src/plotting/draw.rs:250-278`. -/
def drawSqrtEigenvalues [DrawMath F] (d : PlotData n F) : Outcome (Chart F) := do
  let yAxis ← getLogYAxis ((List.finRange n).flatMap d.sqrtEigenvalues)
  configureArea d.functionEvals "Distribution Axis Scales" false yAxis
    (.ok ((List.finRange n).map fun i =>
      { label := none
        points := getPoints d.functionEvals (d.sqrtEigenvalues i) }, []))

/-- `draw_coord_axis_scales`, `/repo/src/plotting/draw.rs:281-321`. -/
def drawCoordAxisScales [DrawMath F] (d : PlotData n F) : Outcome (Chart F) := do
  let yAxis ← getLogYAxis ((List.finRange n).flatMap d.coordAxisScales)
  configureArea d.functionEvals "Coord. Axis Standard Deviations (without sigma)"
    (decide ¬ maxLegendValues < n) yAxis
    (.ok ((List.finRange n).map fun i =>
      { label := some s!"{i.val}"
        points := getPoints d.functionEvals (d.coordAxisScales i) }, []))

/-- The four charts of a plot. They are drawn at /repo/src/plotting/mod.rs:144-164. -/
structure Drawing (F : Type) where
  single : Chart F
  mean : Chart F
  sqrtEigenvalues : Chart F
  coordAxisScales : Chart F

/-- `Plot::build_plot`, `/repo/src/plotting/mod.rs:148-170`, the part of `save_to_file` that is in
the crate. -/
def Plot.draw [DrawMath F] (p : Plot n F) : Outcome (Drawing F) := do
  let single ← drawSingleDimensioned p.mode p.data
  let mean ← drawMean p.data p.options
  let sqrtEigenvalues ← drawSqrtEigenvalues p.data
  let coordAxisScales ← drawCoordAxisScales p.data
  .ok { single, mean, sqrtEigenvalues, coordAxisScales }

end Cmaes
