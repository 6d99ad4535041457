import Verif.Model.Sampling

/-!
# `options.rs`
-/

namespace Cmaes
variable {n : Nat} {F : Type} [Flt F]

/-- `Weights`, `/repo/src/parameters/weights.rs:9-20`. -/
inductive Weights where
  | positive
  | negative
  | uniform
deriving DecidableEq, Repr

/-- `PlotOptions`, `/repo/src/plotting/options.rs:5-11`. -/
structure PlotOptions where
  minGapEvals : Nat
  scientificNotation : Bool
deriving DecidableEq, Repr

/-- `CMAESOptions` without the initial mean, `/repo/src/options.rs:34-134`. Durations are
nanoseconds. -/
structure OptionsCore (F : Type) where
  mode : Mode
  initialStepSize : F
  populationSize : Nat
  constraints : Option (Constraint F)
  maxResamples : Option Nat
  weights : Weights
  parallelUpdate : Bool
  cm : F
  maxFunctionEvals : Option Nat
  maxGenerations : Option Nat
  maxTime : Option Nat
  funTarget : Option F
  tolFun : F
  tolFunRel : F
  tolFunHist : F
  tolX : Option F
  tolStagnation : Option Nat
  tolXUp : F
  tolConditionCov : F
  seed : Option Nat
  plotOptions : Option PlotOptions
  printGapEvals : Option Nat

/-- `CMAESOptions`, `/repo/src/options.rs:34-134`; the length of the initial mean is `n`. -/
structure Options (n : Nat) (F : Type) extends OptionsCore F where
  initialMean : Vec n F

/-- Default population size, `/repo/src/options.rs:152`. -/
def defaultPopulationSize (F : Type) [Flt F] (n : Nat) : Nat :=
  4 + Flt.toUsize (Flt.floor ((3 : F) * Flt.ln (Flt.ofNat n)))

/-- `CMAESOptions::new`, `/repo/src/options.rs:145-174`. -/
def Options.new (initialMean : Vec n F) (initialStepSize : F) : Options n F :=
  { mode := .minimize
    initialMean
    initialStepSize
    populationSize := defaultPopulationSize F n
    constraints := none
    maxResamples := some 10
    weights := .negative
    parallelUpdate := false
    cm := 1
    maxFunctionEvals := none
    maxGenerations := none
    maxTime := none
    funTarget := none
    tolFun := Flt.ofRat (1 / 10 ^ 12)
    tolFunRel := 0
    tolFunHist := Flt.ofRat (1 / 10 ^ 12)
    tolX := none
    tolStagnation := none
    tolXUp := Flt.ofRat (10 ^ 8)
    tolConditionCov := Flt.ofRat (10 ^ 14)
    seed := none
    plotOptions := none
    printGapEvals := none }

/-- The builder methods of `CMAESOptions`, `/repo/src/options.rs:177-336`, as a data type: one
constructor per method (`bounds` is `constraints` with a `Bounds`). -/
inductive Setter (F : Type) where
  | mode (m : Mode)
  | initialStepSize (x : F)
  | populationSize (k : Nat)
  | bounds (lower upper : List F)
  | constraints (c : Constraint F)
  | maxResamples (k : Option Nat)
  | weights (w : Weights)
  | parallelUpdate (b : Bool)
  | cm (x : F)
  | maxFunctionEvals (k : Nat)
  | maxGenerations (k : Nat)
  | maxTime (t : Nat)
  | funTarget (x : F)
  | tolFun (x : F)
  | tolFunRel (x : F)
  | tolFunHist (x : F)
  | tolX (x : F)
  | tolStagnation (k : Nat)
  | tolXUp (x : F)
  | tolConditionCov (x : F)
  | seed (s : Nat)
  | enablePlot (o : PlotOptions)
  | enablePrinting (gap : Nat)

/-- The effect of a builder method, `/repo/src/options.rs:177-336`. -/
def OptionsCore.set (o : OptionsCore F) : Setter F → OptionsCore F
  | .mode m => { o with mode := m }
  | .initialStepSize x => { o with initialStepSize := x }
  | .populationSize k => { o with populationSize := k }
  | .bounds lower upper => { o with constraints := some (Bounds.mk lower upper).meets }
  | .constraints c => { o with constraints := some c }
  | .maxResamples k => { o with maxResamples := k }
  | .weights w => { o with weights := w }
  | .parallelUpdate b => { o with parallelUpdate := b }
  | .cm x => { o with cm := x }
  | .maxFunctionEvals k => { o with maxFunctionEvals := some k }
  | .maxGenerations k => { o with maxGenerations := some k }
  | .maxTime t => { o with maxTime := some t }
  | .funTarget x => { o with funTarget := some x }
  | .tolFun x => { o with tolFun := x }
  | .tolFunRel x => { o with tolFunRel := x }
  | .tolFunHist x => { o with tolFunHist := x }
  | .tolX x => { o with tolX := some x }
  | .tolStagnation k => { o with tolStagnation := some k }
  | .tolXUp x => { o with tolXUp := x }
  | .tolConditionCov x => { o with tolConditionCov := x }
  | .seed s => { o with seed := some s }
  | .enablePlot p => { o with plotOptions := some p }
  | .enablePrinting gap => { o with printGapEvals := some gap }

/-- A builder method applied to full options. They are /repo/src/options.rs:177-336. -/
def Options.set (o : Options n F) (s : Setter F) : Options n F :=
  { o.toOptionsCore.set s with initialMean := o.initialMean }

/-- `CMAESOptions::initial_mean`, `/repo/src/options.rs:183-186`; may change the dimension. -/
def Options.withInitialMean (o : Options n F) {m : Nat} (mean : Vec m F) : Options m F :=
  { o.toOptionsCore with initialMean := mean }

/-- `is_initial_step_size_valid`, `/repo/src/options.rs:358-360`. -/
def isInitialStepSizeValid (x : F) : Bool := Flt.isNormal x && Flt.lt 0 x

/-- `InvalidOptionsError`, `/repo/src/options.rs:346-355`. -/
inductive InvalidOptionsError where
  | dimensions
  | populationSize
  | initialStepSize
  | cm
deriving DecidableEq, Repr

end Cmaes
