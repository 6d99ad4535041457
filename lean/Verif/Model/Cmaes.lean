import Verif.Model.Plot

/-!
# `lib.rs`: the `CMAES` type
-/

namespace Cmaes
variable {n : Nat} {F R : Type} [Flt F]

/-- `RestartTerminationReason`, `/repo/src/restart/mod.rs:46-58`. -/
inductive RestartTerminationReason where
  | maxRuns
  | funTarget
  | maxFunctionEvals
  | maxTime
  | invalidFunctionValue
deriving DecidableEq, Repr

/-- A parameter of a restart strategy that is printed: a number or a count. The values of
/repo/src/restart/strategy.rs:69. -/
inductive RestartParameter (F : Type) where
  | number (x : F)
  | count (k : Nat)
deriving DecidableEq

/-- What is written to standard output. Rows are recorded with the numbers that are printed; the
text is in `Verif.Model.PrintText`. The `println!`s of /repo/src/lib.rs:499-586 and
/repo/src/restart/mod.rs:84-93,438-497. -/
inductive PrintEvent (n : Nat) (F : Type) where
  /-- `print_initial_info`, `/repo/src/lib.rs:499-520`: weights setting, dimension, population
  size, seed -/
  | initial (setting : Weights) (dim lambda seed : Nat)
  /-- one row of `print_info`, `/repo/src/lib.rs:532-551` -/
  | info (generation evals : Nat) (best : Option F) (axisRatio sigma minStd maxStd : F)
  /-- the end of `print_final_info`, `/repo/src/lib.rs:569-584` -/
  | final (reasons : List TerminationReason) (best : Option (F × F)) (mean : Vec n F)
  /-- `Restarter::print_initial_info`, `/repo/src/restart/mod.rs:438-457` -/
  | restartInitial (algorithm : String) (dim : Nat) (start stop : F)
      (parameters : List (String × RestartParameter F)) (seed : Nat)
  /-- `print_run_info`, `/repo/src/restart/mod.rs:469-477` -/
  | runInfo (run lambda : Nat) (sigma0 : F) (seed : Nat)
  /-- `print_run_results`, `/repo/src/restart/mod.rs:480-497` -/
  | runResults (run : Nat) (best : Option F) (reasons : List TerminationReason) (evals : Nat)
  /-- `RestartResults::print_results`, `/repo/src/restart/mod.rs:84-93` -/
  | restartResults (evals : Nat) (reason : RestartTerminationReason)
      (best : Option (Individual n F))

/-- The position of a run in its environment: how often the clock was read, how many steps were
made, and the output so far (oldest first). Stands for the effects outside a `CMAES` at
/repo/src/lib.rs:284,505-584. -/
structure World (n : Nat) (F : Type) where
  clockReads : Nat
  steps : Nat
  out : List (PrintEvent n F)

/-- The world before anything happened. Simplification: the world starts with the call of
`CMAES::new`, /repo/src/lib.rs:229. -/
def World.init : World n F := { clockReads := 0, steps := 0, out := [] }

/-- `println!`. Used at /repo/src/lib.rs:505-584. -/
def World.print (w : World n F) (e : PrintEvent n F) : World n F := { w with out := w.out ++ [e] }

/-- `Instant::now`. Used at /repo/src/lib.rs:284. -/
def World.now (env : Env n F R) (w : World n F) : Nat × World n F :=
  (env.clock w.clockReads, { w with clockReads := w.clockReads + 1 })

/-- `TerminationData`, `/repo/src/lib.rs:171-180`. -/
structure TerminationData (n : Nat) (F : Type) where
  currentBest : Option (Individual n F)
  overallBest : Option (Individual n F)
  finalMean : Vec n F
  reasons : List TerminationReason

/-- `CMAES`, `/repo/src/lib.rs:205-224`, together with its position in the environment. -/
structure CMAES (n : Nat) (F R : Type) where
  sampler : Sampler n F R
  parameters : Parameters F
  state : State n F
  history : History n F
  plot : Option (Plot n F)
  printGapEvals : Option Nat
  lastPrintEvals : Nat
  timeCreated : Nat
  world : World n F

namespace CMAES

/-- `CMAES::add_plot_point`, `/repo/src/lib.rs:484-488`. -/
def addPlotPoint (c : CMAES n F R) : CMAES n F R :=
  { c with plot := c.plot.map fun p => p.addDataPoint c.sampler.functionEvals c.state c.history }

/-- Appends to the output. Used at /repo/src/lib.rs:499-586. -/
def print (c : CMAES n F R) (e : PrintEvent n F) : CMAES n F R :=
  { c with world := c.world.print e }

/-- `CMAES::print_initial_info`, `/repo/src/lib.rs:499-520`. -/
def printInitialInfo (c : CMAES n F R) : CMAES n F R :=
  c.print (.initial c.parameters.setting c.parameters.dim c.parameters.lambda c.parameters.seed)

/-- The row printed by `print_info`, `/repo/src/lib.rs:532-551`. -/
def infoRow (c : CMAES n F R) : PrintEvent n F :=
  .info c.state.generation c.sampler.functionEvals (c.history.currentBest.map fun x => x.value)
    c.state.axisRatio c.state.sigma
    (c.state.sigma * Flt.sqrt c.state.cov.cov.diag.min)
    (c.state.sigma * Flt.sqrt c.state.cov.cov.diag.max)

/-- `CMAES::print_info`, `/repo/src/lib.rs:532-551`. -/
def printInfo (c : CMAES n F R) : CMAES n F R := c.print c.infoRow

/-- `CMAES::print_final_info`, `/repo/src/lib.rs:564-585`. -/
def printFinalInfo (c : CMAES n F R) (reasons : List TerminationReason) : CMAES n F R :=
  let c := if c.sampler.functionEvals ≠ c.lastPrintEvals then c.printInfo else c
  let best := match c.history.currentBest, c.history.overallBest with
    | some cur, some overall => some (cur.value, overall.value)
    | _, _ => none
  c.print (.final reasons best c.state.mean)

/-- `print_run_info`, `/repo/src/restart/mod.rs:469-477`, called by the restarter on the `CMAES` of
its run number `run`. -/
def printRunInfo (c : CMAES n F R) (run : Nat) : CMAES n F R :=
  c.print (.runInfo run c.parameters.lambda c.parameters.initialSigma c.parameters.seed)

/-- The checks at the start of `CMAES::new`, `/repo/src/lib.rs:230-246`. -/
def validate (o : Options n F) : Option InvalidOptionsError :=
  if n = 0 then some .dimensions
  else if o.populationSize < 2 then some .populationSize
  else if !isInitialStepSizeValid o.initialStepSize then some .initialStepSize
  else if !Flt.isNormal o.cm || Flt.le o.cm 0 || Flt.lt 1 o.cm then some .cm
  else none

/-- The rest of `CMAES::new`, `/repo/src/lib.rs:248-298`. -/
def create (env : Env n F R) (w : World n F) (obj : Obj n F) (o : Options n F) : CMAES n F R :=
  let seed := o.seed.getD env.randomSeed
  let (now, w) := w.now env
  let c : CMAES n F R :=
    { sampler := Sampler.new env o.constraints o.maxResamples o.populationSize obj seed
      parameters := Parameters.fromOptions o seed
      state := State.new o.initialMean o.initialStepSize
      history := History.new
      plot := o.plotOptions.map fun po => Plot.new po o.mode
      printGapEvals := o.printGapEvals
      lastPrintEvals := 0
      timeCreated := now
      world := w }
  let c := c.addPlotPoint
  if c.printGapEvals.isSome then c.printInitialInfo else c

/-- `CMAES::new` and `CMAESOptions::build`, `/repo/src/lib.rs:229-299`,
`/repo/src/options.rs:339-341`. -/
def new (env : Env n F R) (w : World n F) (obj : Obj n F) (o : Options n F) :
    Except InvalidOptionsError (CMAES n F R) :=
  match validate o with
  | some e => .error e
  | none => .ok (create env w obj o)

/-- `CMAES::get_termination_data`, `/repo/src/lib.rs:472-479`. -/
def terminationData (c : CMAES n F R) (reasons : List TerminationReason) : TerminationData n F :=
  { currentBest := c.history.currentBest
    overallBest := c.history.overallBest
    finalMean := c.state.mean
    reasons }

/-- Plotting in `next_internal`, `/repo/src/lib.rs:331-338`. `||` short-circuits. -/
def autoPlot (c : CMAES n F R) : Outcome (CMAES n F R) :=
  match c.plot with
  | none => .ok c
  | some p =>
    if c.state.generation ≤ 1 then .ok c.addPlotPoint
    else do
      let next ← p.nextDataPointEvals
      .ok (if next ≤ c.sampler.functionEvals then c.addPlotPoint else c)

/-- Printing in `next_internal`, `/repo/src/lib.rs:341-351`. -/
def autoPrint (c : CMAES n F R) : Outcome (CMAES n F R) :=
  match c.printGapEvals with
  | none => .ok c
  | some gap => do
    let next ← usizeAdd c.lastPrintEvals gap
    .ok (if next ≤ c.sampler.functionEvals then
        { c.printInfo with lastPrintEvals := c.sampler.functionEvals }
      else if c.state.generation < 4 then c.printInfo
      else c)

/-- The termination check in `next_internal`, `/repo/src/lib.rs:354-368`; the clock is read only if
a time limit is set (`/repo/src/termination.rs:127-128`). `Instant::elapsed` saturates at zero. -/
def checkTermination (env : Env n F R) (inds : List (EvaluatedPoint n F)) (c : CMAES n F R) :
    Outcome (CMAES n F R × Option (TerminationData n F)) := do
  let (now, w) := if c.parameters.termination.maxTime.isSome then c.world.now env
    else (c.timeCreated, c.world)
  let c := { c with world := w }
  let reasons ← ({ evals := c.sampler.functionEvals, elapsed := now - c.timeCreated
                   parameters := c.parameters, state := c.state, history := c.history
                   individuals := inds } : TerminationCheck n F).check env.medianNaN
  .ok (c, if reasons.isEmpty then none else some (c.terminationData reasons))

/-- `CMAES::next_internal`, `/repo/src/lib.rs:319-369`. -/
def nextInternal (env : Env n F R) (tree : SplitTree) (inds : List (EvaluatedPoint n F))
    (c : CMAES n F R) : Outcome (CMAES n F R × Option (TerminationData n F)) := do
  let (state, success) ← c.state.update env.eigen tree c.sampler.functionEvals c.parameters inds
  let c := { c with state }
  if success then do
    let c ← c.autoPlot
    let c ← c.autoPrint
    c.checkTermination env inds
  else .ok (c, some (c.terminationData [.posDefCov]))

/-- `CMAES::next` and `CMAES::next_parallel` with `sample`, `sample_parallel` and
`sample_internal`, `/repo/src/lib.rs:313-316, 609-640, 662-691`. -/
def next (env : Env n F R) (kind : EvalKind) (c : CMAES n F R) :
    Outcome (CMAES n F R × Option (TerminationData n F)) := do
  let step := c.world.steps
  let (res, sampler) ← c.sampler.sample env kind (env.sched step) c.state.cov.transform
    c.state.mean c.state.sigma c.parameters.mode
  let c := { c with sampler, world := { c.world with steps := step + 1 } }
  match res with
  | none => .ok (c, some (c.terminationData [.invalidFunctionValue]))
  | some inds => do
    let history ← c.history.update c.parameters.mode inds
    nextInternal env (env.redTree step) inds { c with history }

/-- `CMAES::run_internal`, `/repo/src/lib.rs:302-310`. -/
def runInternal (c : CMAES n F R) (d : TerminationData n F) : CMAES n F R :=
  let c := c.addPlotPoint
  if c.printGapEvals.isSome then c.printFinalInfo d.reasons else c

/-- The loop of `CMAES::run` and `CMAES::run_parallel`, `/repo/src/lib.rs:593-597, 650-654`. -/
def runLoop (env : Env n F R) (kind : EvalKind) :
    Nat → CMAES n F R → Outcome (CMAES n F R × TerminationData n F)
  | 0, _ => .diverge
  | fuel + 1, c => do
    let (c, r) ← c.next env kind
    match r with
    | some d => .ok (c, d)
    | none => runLoop env kind fuel c

/-- `CMAES::run` and `CMAES::run_parallel`, `/repo/src/lib.rs:592-602, 649-659`. -/
def run (env : Env n F R) (kind : EvalKind) (c : CMAES n F R) :
    Outcome (CMAES n F R × TerminationData n F) := do
  let (c, d) ← runLoop env kind env.runFuel c
  .ok (c.runInternal d, d)

/-- `get_mut_plot().unwrap().clear()`, `/repo/src/lib.rs:454-456`, `/repo/src/plotting/mod.rs:184`;
nothing happens without a plot. -/
def clearPlot (c : CMAES n F R) : Outcome (CMAES n F R) :=
  match c.plot with
  | none => .ok c
  | some p => do
    let p ← p.clear
    .ok { c with plot := some p }

/-- `CMAES::generation`, `/repo/src/lib.rs:383-385`. -/
def generation (c : CMAES n F R) : Nat := c.state.generation
/-- `CMAES::function_evals`, `/repo/src/lib.rs:388-390`. -/
def functionEvals (c : CMAES n F R) : Nat := c.sampler.functionEvals
/-- `CMAES::mean`, `/repo/src/lib.rs:393-395`. -/
def mean (c : CMAES n F R) : Vec n F := c.state.mean
/-- `CMAES::covariance_matrix`, `/repo/src/lib.rs:398-400`. -/
def covarianceMatrix (c : CMAES n F R) : Mat n F := c.state.cov.cov
/-- `CMAES::eigenvalues`, `/repo/src/lib.rs:403-408`. -/
def eigenvalues (c : CMAES n F R) : Vec n F := fun i => Flt.powi (c.state.cov.sqrtEigenvalues i i) 2
/-- `CMAES::sigma`, `/repo/src/lib.rs:411-413`. -/
def sigma (c : CMAES n F R) : F := c.state.sigma
/-- `CMAES::axis_ratio`, `/repo/src/lib.rs:416-418`. -/
def axisRatio (c : CMAES n F R) : F := c.state.axisRatio
/-- `CMAES::current_best_individual`, `/repo/src/lib.rs:424-426`. -/
def currentBestIndividual (c : CMAES n F R) : Option (Individual n F) := c.history.currentBest
/-- `CMAES::overall_best_individual`, `/repo/src/lib.rs:432-434`. -/
def overallBestIndividual (c : CMAES n F R) : Option (Individual n F) := c.history.overallBest
/-- `CMAES::into_objective_function`, `/repo/src/lib.rs:373-375`. -/
def intoObjectiveFunction (c : CMAES n F R) : Obj n F := c.sampler.obj
/-- `CMAES::generations_per_eigen_update`, `/repo/src/lib.rs:464-469`. -/
def generationsPerEigenUpdate (c : CMAES n F R) : Nat :=
  Flt.toUsize (Flt.ceil ((Flt.ofNat (evalsPerEigenUpdate c.parameters) : F) /
    Flt.ofNat c.parameters.lambda))

end CMAES

/-- The calls a user or the restarter can make on a `CMAES` that change something. They are
/repo/src/lib.rs:454,484,499,532,564,592,628,649,679. -/
inductive Op where
  /-- `next` or `next_parallel` -/
  | next (kind : EvalKind)
  /-- `run` or `run_parallel` -/
  | run (kind : EvalKind)
  /-- `add_plot_point` -/
  | addPlotPoint
  /-- `get_mut_plot` and `clear` -/
  | clearPlot
  /-- `print_initial_info` -/
  | printInitialInfo
  /-- `print_info` -/
  | printInfo
  /-- `print_final_info` -/
  | printFinalInfo (reasons : List TerminationReason)
  /-- `print_run_info`, called by the restarter -/
  | printRunInfo (run : Nat)
deriving DecidableEq, Repr

/-- One user call and the `TerminationData` it returns, if any. The calls are
/repo/src/lib.rs:454,484-586,592-690. -/
def CMAES.apply (env : Env n F R) (c : CMAES n F R) :
    Op → Outcome (CMAES n F R × Option (TerminationData n F))
  | .next kind => c.next env kind
  | .run kind => do
    let (c, d) ← c.run env kind
    .ok (c, some d)
  | .addPlotPoint => .ok (c.addPlotPoint, none)
  | .clearPlot => do
    let c ← c.clearPlot
    .ok (c, none)
  | .printInitialInfo => .ok (c.printInitialInfo, none)
  | .printInfo => .ok (c.printInfo, none)
  | .printFinalInfo reasons => .ok (c.printFinalInfo reasons, none)
  | .printRunInfo run => .ok (c.printRunInfo run, none)

/-- A sequence of user calls, with the data returned by each. Calls may go on after termination. The
calls are /repo/src/lib.rs:454,484-586,592-690. -/
def CMAES.applyAll (env : Env n F R) :
    List Op → CMAES n F R → Outcome (CMAES n F R × List (Option (TerminationData n F)))
  | [], c => .ok (c, [])
  | op :: ops, c => do
    let (c, r) ← c.apply env op
    let (c, rs) ← CMAES.applyAll env ops c
    .ok (c, r :: rs)

/-- `c` is the result of building a `CMAES` with options `o` and then making the calls `ops`, which
returned `rs`. `CMAES::new` is /repo/src/lib.rs:229-299. -/
def Reaches (env : Env n F R) (obj : Obj n F) (o : Options n F) (ops : List Op) (c : CMAES n F R)
    (rs : List (Option (TerminationData n F))) : Prop :=
  ∃ w c0, CMAES.new env w obj o = .ok c0 ∧ c0.applyAll env ops = .ok (c, rs)

end Cmaes
