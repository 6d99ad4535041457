import Verif.Model.Restart

/-!
# Specification vocabulary: options as a collection of named values
-/

namespace Cmaes
variable {F : Type}

/-- The names of the options of `CMAESOptions`. -/
inductive OptionName where
  | mode | initialStepSize | populationSize | constraints | maxResamples | weights | parallelUpdate
  | cm | maxFunctionEvals | maxGenerations | maxTime | funTarget | tolFun | tolFunRel | tolFunHist
  | tolX | tolStagnation | tolXUp | tolConditionCov | seed | plotOptions | printGapEvals
deriving DecidableEq, Repr

/-- The value of an option. -/
inductive OptionValue (F : Type) where
  | mode (m : Mode)
  | float (x : F)
  | optFloat (x : Option F)
  | nat (k : Nat)
  | optNat (k : Option Nat)
  | bool (b : Bool)
  | weights (w : Weights)
  | constraints (c : Option (Constraint F))
  | plot (p : Option PlotOptions)

/-- The value of an option. -/
def OptionsCore.get (o : OptionsCore F) : OptionName → OptionValue F
  | .mode => .mode o.mode
  | .initialStepSize => .float o.initialStepSize
  | .populationSize => .nat o.populationSize
  | .constraints => .constraints o.constraints
  | .maxResamples => .optNat o.maxResamples
  | .weights => .weights o.weights
  | .parallelUpdate => .bool o.parallelUpdate
  | .cm => .float o.cm
  | .maxFunctionEvals => .optNat o.maxFunctionEvals
  | .maxGenerations => .optNat o.maxGenerations
  | .maxTime => .optNat o.maxTime
  | .funTarget => .optFloat o.funTarget
  | .tolFun => .float o.tolFun
  | .tolFunRel => .float o.tolFunRel
  | .tolFunHist => .float o.tolFunHist
  | .tolX => .optFloat o.tolX
  | .tolStagnation => .optNat o.tolStagnation
  | .tolXUp => .float o.tolXUp
  | .tolConditionCov => .float o.tolConditionCov
  | .seed => .optNat o.seed
  | .plotOptions => .plot o.plotOptions
  | .printGapEvals => .optNat o.printGapEvals

/-- The option a builder method sets. `bounds` sets the constraints. -/
def Setter.name : Setter F → OptionName
  | .mode _ => .mode
  | .initialStepSize _ => .initialStepSize
  | .populationSize _ => .populationSize
  | .bounds _ _ => .constraints
  | .constraints _ => .constraints
  | .maxResamples _ => .maxResamples
  | .weights _ => .weights
  | .parallelUpdate _ => .parallelUpdate
  | .cm _ => .cm
  | .maxFunctionEvals _ => .maxFunctionEvals
  | .maxGenerations _ => .maxGenerations
  | .maxTime _ => .maxTime
  | .funTarget _ => .funTarget
  | .tolFun _ => .tolFun
  | .tolFunRel _ => .tolFunRel
  | .tolFunHist _ => .tolFunHist
  | .tolX _ => .tolX
  | .tolStagnation _ => .tolStagnation
  | .tolXUp _ => .tolXUp
  | .tolConditionCov _ => .tolConditionCov
  | .seed _ => .seed
  | .enablePlot _ => .plotOptions
  | .enablePrinting _ => .printGapEvals

/-- The value a builder method sets. -/
def Setter.value [Flt F] : Setter F → OptionValue F
  | .mode m => .mode m
  | .initialStepSize x => .float x
  | .populationSize k => .nat k
  | .bounds lower upper => .constraints (some (Bounds.mk lower upper).meets)
  | .constraints c => .constraints (some c)
  | .maxResamples k => .optNat k
  | .weights w => .weights w
  | .parallelUpdate b => .bool b
  | .cm x => .float x
  | .maxFunctionEvals k => .optNat (some k)
  | .maxGenerations k => .optNat (some k)
  | .maxTime t => .optNat (some t)
  | .funTarget x => .optFloat (some x)
  | .tolFun x => .float x
  | .tolFunRel x => .float x
  | .tolFunHist x => .float x
  | .tolX x => .optFloat (some x)
  | .tolStagnation k => .optNat (some k)
  | .tolXUp x => .float x
  | .tolConditionCov x => .float x
  | .seed s => .optNat (some s)
  | .enablePlot p => .plot (some p)
  | .enablePrinting gap => .optNat (some gap)

/-- The names of the options of `RestartOptions` that have a builder method. -/
inductive RestartOptionName where
  | mode | parallelUpdate | defaultOptions | funTarget | maxFunctionEvals | maxTime
  | maxFunctionEvalsPerRun | maxGenerationsPerRun | enablePrinting | seed
deriving DecidableEq, Repr

/-- The value of an option of `RestartOptions`. -/
inductive RestartOptionValue (F : Type) where
  | mode (m : Mode)
  | optFloat (x : Option F)
  | optNat (k : Option Nat)
  | bool (b : Bool)
  | options (o : OptionsCore F)

/-- The value of an option. -/
def RestartOptions.get {n : Nat} (o : RestartOptions n F) : RestartOptionName → RestartOptionValue F
  | .mode => .mode o.mode
  | .parallelUpdate => .bool o.parallelUpdate
  | .defaultOptions => .options o.defaultOptions
  | .funTarget => .optFloat o.funTarget
  | .maxFunctionEvals => .optNat o.maxFunctionEvals
  | .maxTime => .optNat o.maxTime
  | .maxFunctionEvalsPerRun => .optNat o.maxFunctionEvalsPerRun
  | .maxGenerationsPerRun => .optNat o.maxGenerationsPerRun
  | .enablePrinting => .bool o.enablePrinting
  | .seed => .optNat o.seed

/-- The option a builder method sets. -/
def RestartSetter.name : RestartSetter F → RestartOptionName
  | .mode _ => .mode
  | .parallelUpdate _ => .parallelUpdate
  | .defaultOptions _ => .defaultOptions
  | .funTarget _ => .funTarget
  | .maxFunctionEvals _ => .maxFunctionEvals
  | .maxTime _ => .maxTime
  | .maxFunctionEvalsPerRun _ => .maxFunctionEvalsPerRun
  | .maxGenerationsPerRun _ => .maxGenerationsPerRun
  | .enablePrinting _ => .enablePrinting
  | .seed _ => .seed

/-- The value a builder method sets. -/
def RestartSetter.value : RestartSetter F → RestartOptionValue F
  | .mode m => .mode m
  | .parallelUpdate b => .bool b
  | .defaultOptions o => .options o
  | .funTarget x => .optFloat (some x)
  | .maxFunctionEvals k => .optNat (some k)
  | .maxTime t => .optNat (some t)
  | .maxFunctionEvalsPerRun k => .optNat (some k)
  | .maxGenerationsPerRun k => .optNat (some k)
  | .enablePrinting b => .bool b
  | .seed s => .optNat (some s)

end Cmaes
