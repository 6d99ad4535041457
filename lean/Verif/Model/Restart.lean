import Verif.Model.Functions

/-!
# `restart/*`
-/

namespace Cmaes
variable {n : Nat} {F R : Type} [Flt F]

/-- `InvalidRestartStrategyOptionsError`, `/repo/src/restart/options.rs:21-26`. -/
inductive InvalidRestartStrategyOptionsError where
  | initialStepSize
  | populationSize
deriving DecidableEq, Repr

/-- `RestartControl`, `/repo/src/restart/strategy.rs:10-15`. -/
inductive RestartControl where
  | continue
  | maxRunsReached
deriving DecidableEq, Repr

/-! ### Local -/

/-- `Local`, `/repo/src/restart/local.rs:20-27`. -/
structure Local (F : Type) where
  runs : Nat
  initialStepSizeFactor : F
  maxRuns : Nat

/-- `Local::new`, `/repo/src/restart/local.rs:35-51`. -/
def Local.new (maxRuns : Nat) (factor : Option F) :
    Except InvalidRestartStrategyOptionsError (Local F) :=
  if (match factor with | some f => !isInitialStepSizeValid f | none => false) then
    .error .initialStepSize
  else .ok { runs := 0, initialStepSizeFactor := factor.getD (Flt.ofRat (1 / 2)), maxRuns }

/-- `Local::get_initial_step_size`, `/repo/src/restart/local.rs:54-56`. -/
def Local.initialStepSize (s : Local F) (size : F) : F :=
  size * s.initialStepSizeFactor * Flt.ofRat (1 / 100)

/-! ### IPOP -/

/-- `IPOP`, `/repo/src/restart/ipop.rs:21-29`. -/
structure IPOP where
  runs : Nat
  currentMultiplier : Nat
  increaseFactor : Nat
deriving DecidableEq, Repr

/-- `IPOP::new`, `/repo/src/restart/ipop.rs:37-47`. -/
def IPOP.new (increaseFactor : Nat) : Except InvalidRestartStrategyOptionsError IPOP :=
  if increaseFactor = 0 then .error .populationSize
  else .ok { runs := 0, currentMultiplier := 1, increaseFactor }

/-- `impl Default for IPOP`, `/repo/src/restart/ipop.rs:55-59`, with `DEFAULT_INCREASE_FACTOR`,
`/repo/src/restart/ipop.rs:10`. -/
def IPOP.default : Outcome IPOP :=
  match IPOP.new 2 with
  | .ok s => .ok s
  | .error _ => .panic .unwrap

/-- `IPOP::get_initial_step_size`, `/repo/src/restart/ipop.rs:50-52`. -/
def ipopInitialStepSize (size : F) : F := size / 2

/-- `MAX_RUNS`, `/repo/src/restart/ipop.rs:12`. -/
def ipopMaxRuns : Nat := 10

/-! ### BIPOP -/

/-- `BIPOP`, `/repo/src/restart/bipop.rs:26-44`. -/
structure BIPOP (F : Type) where
  ipopRuns : Nat
  ipopFunctionEvals : Nat
  ipopCurrentMultiplier : Nat
  ipopIncreaseFactor : Nat
  lastIpopFunctionEvalsUsed : Nat
  lastIpopMultiplier : Nat
  lrInitialStepSizeFactor : F
  lrFunctionEvals : Nat

/-- `BIPOP::new`, `/repo/src/restart/bipop.rs:54-84`. -/
def BIPOP.new (lrFactor : Option F) (increaseFactor : Option Nat) :
    Except InvalidRestartStrategyOptionsError (BIPOP F) :=
  if (match lrFactor with | some f => !isInitialStepSizeValid f | none => false) then
    .error .initialStepSize
  else if increaseFactor = some 0 then .error .populationSize
  else .ok
    { ipopRuns := 0
      ipopFunctionEvals := 0
      ipopCurrentMultiplier := 1
      ipopIncreaseFactor := increaseFactor.getD 2
      lastIpopFunctionEvalsUsed := 0
      lastIpopMultiplier := 1
      lrInitialStepSizeFactor := lrFactor.getD (Flt.ofRat (2 / 10))
      lrFunctionEvals := 0 }

/-- `impl Default for BIPOP`, `/repo/src/restart/bipop.rs:167-171`. -/
def BIPOP.default : Outcome (BIPOP F) :=
  match BIPOP.new (F := F) none none with
  | .ok s => .ok s
  | .error _ => .panic .unwrap

/-- `MAX_IPOP_RUNS`, `/repo/src/restart/bipop.rs:12`. -/
def bipopMaxIpopRuns : Nat := 10

/-- `BIPOP::get_initial_step_size_lr`, `/repo/src/restart/bipop.rs:87-89`; `u` is the random
number. -/
def BIPOP.initialStepSizeLr (s : BIPOP F) (size u : F) : F :=
  size * s.lrInitialStepSizeFactor * Flt.powf 10 (-2 * u)

/-- `BIPOP::get_population_size_lr`, `/repo/src/restart/bipop.rs:92-99`; `u` is the random
number. -/
def BIPOP.populationSizeLr (s : BIPOP F) (defaultSize : Nat) (u : F) : Nat :=
  let multiplier := Flt.fmax
    (Flt.powf (Flt.ofNat s.lastIpopMultiplier / 2) (Flt.powi u 2)) 1
  Flt.toUsize (Flt.floor (Flt.ofNat defaultSize * multiplier))

/-- `BIPOP::get_initial_step_size_ipop`, `/repo/src/restart/bipop.rs:102-104`. -/
def bipopInitialStepSizeIpop (size : F) : F := size / 5

/-- The choice between the two regimes, `/repo/src/restart/bipop.rs:186`. -/
def BIPOP.useLr (s : BIPOP F) : Bool :=
  s.ipopRuns != 0 && decide (s.lrFunctionEvals < s.ipopFunctionEvals)

/-! ### Strategies -/

/-- `RestartStrategy`, `/repo/src/restart/strategy.rs:31-38`. -/
inductive Strategy (F : Type) where
  | local (s : Local F)
  | ipop (s : IPOP)
  | bipop (s : BIPOP F)

/-- `has_zero_max_runs`, `/repo/src/restart/strategy.rs:73-79`, `local.rs:60-62`, `ipop.rs:62-64`,
`bipop.rs:174-176`. -/
def Strategy.hasZeroMaxRuns : Strategy F → Bool
  | .local s => s.maxRuns == 0
  | .ipop _ => false
  | .bipop _ => false

/-- `get_algorithm_name`, `/repo/src/restart/strategy.rs:114-120`, `local.rs:91-93`, `ipop.rs:95-97`,
`bipop.rs:195-197`. -/
def Strategy.algorithmName : Strategy F → String
  | .local _ => "LR-aCMA-ES"
  | .ipop _ => "IPOP-aCMA-ES"
  | .bipop _ => "BIPOP-aCMA-ES"

/-- `get_parameters_as_strings`, `/repo/src/restart/strategy.rs:122-128`, `local.rs:95-101`,
`ipop.rs:99-105`, `bipop.rs:199-211`. -/
def Strategy.parameters : Strategy F → List (String × RestartParameter F)
  | .local s => [("sigma0_factor", .number s.initialStepSizeFactor)]
  | .ipop s => [("increase_factor", .count s.increaseFactor)]
  | .bipop s => [("lr_sigma0_factor", .number s.lrInitialStepSizeFactor),
      ("ipop_increase_factor", .count s.ipopIncreaseFactor)]

/-- The first part of `next_run` (before `build`): the options of the run.
`/repo/src/restart/local.rs:73`, `ipop.rs:75-76`, `bipop.rs:116-122, 143-144, 186-192`. -/
def Strategy.configure (rng : RngOps R F) (s : Strategy F) (o : Options n F) (size : F) (r : R) :
    Outcome (Options n F × R) :=
  match s with
  | .local s => .ok ({ o with initialStepSize := s.initialStepSize size }, r)
  | .ipop s => do
    let populationSize ← usizeMul o.populationSize s.currentMultiplier
    .ok ({ o with initialStepSize := ipopInitialStepSize size, populationSize }, r)
  | .bipop s =>
    if s.useLr then
      let (u1, r) := rng.unit r
      let (u2, r) := rng.unit r
      .ok ({ o with
        initialStepSize := s.initialStepSizeLr size u1
        populationSize := s.populationSizeLr o.populationSize u2
        maxFunctionEvals := o.maxFunctionEvals.map fun m => min m (s.lastIpopFunctionEvalsUsed / 2)
        }, r)
    else do
      let populationSize ← usizeMul o.populationSize s.ipopCurrentMultiplier
      .ok ({ o with initialStepSize := bipopInitialStepSizeIpop size, populationSize }, r)

/-- The last part of `next_run` (after the run, which used `evals` function evaluations): the new
state of the strategy. `/repo/src/restart/local.rs:80-86`, `ipop.rs:83-90`,
`bipop.rs:129-131, 151-161`. -/
def Strategy.finish (evals : Nat) : Strategy F → Outcome (Strategy F × RestartControl)
  | .local s =>
    let s := { s with runs := s.runs + 1 }
    .ok (.local s, if s.maxRuns ≤ s.runs then .maxRunsReached else .continue)
  | .ipop s => do
    let currentMultiplier ← usizeMul s.currentMultiplier s.increaseFactor
    let s := { s with runs := s.runs + 1, currentMultiplier }
    .ok (.ipop s, if ipopMaxRuns ≤ s.runs then .maxRunsReached else .continue)
  | .bipop s =>
    if s.useLr then
      .ok (.bipop { s with lrFunctionEvals := s.lrFunctionEvals + evals }, .continue)
    else do
      let ipopCurrentMultiplier ← usizeMul s.ipopCurrentMultiplier s.ipopIncreaseFactor
      let s := { s with
        ipopRuns := s.ipopRuns + 1
        ipopFunctionEvals := s.ipopFunctionEvals + evals
        lastIpopFunctionEvalsUsed := evals
        lastIpopMultiplier := s.ipopCurrentMultiplier
        ipopCurrentMultiplier }
      .ok (.bipop s, if bipopMaxIpopRuns ≤ s.ipopRuns then .maxRunsReached else .continue)

/-! ### Options and the restarter -/

/-- `RestartOptions`, `/repo/src/restart/options.rs:40-82`. The dimension is the index `n`; of the
default options everything but the initial mean is used. -/
structure RestartOptions (n : Nat) (F : Type) where
  strategy : Strategy F
  mode : Mode
  parallelUpdate : Bool
  defaultOptions : OptionsCore F
  searchStart : F
  searchEnd : F
  funTarget : Option F
  maxFunctionEvals : Option Nat
  maxTime : Option Nat
  maxFunctionEvalsPerRun : Option Nat
  maxGenerationsPerRun : Option Nat
  enablePrinting : Bool
  seed : Option Nat

/-- `RestartOptions::new`, `/repo/src/restart/options.rs:87-112`. `RangeInclusive::is_empty` is
`!(start <= end)`. -/
def RestartOptions.new (n : Nat) (start stop : F) (strategy : Strategy F) : RestartOptions n F :=
  let (start, stop) := if Flt.le start stop then (start, stop) else (stop, start)
  { strategy
    mode := .minimize
    parallelUpdate := false
    defaultOptions := (Options.new (fun _ : Fin n => (0 : F)) (Flt.ofRat (1 / 2))).toOptionsCore
    searchStart := start
    searchEnd := stop
    funTarget := none
    maxFunctionEvals := none
    maxTime := none
    maxFunctionEvalsPerRun := none
    maxGenerationsPerRun := none
    enablePrinting := false
    seed := none }

/-- The builder methods of `RestartOptions`, `/repo/src/restart/options.rs:115-172`. -/
inductive RestartSetter (F : Type) where
  | mode (m : Mode)
  | parallelUpdate (b : Bool)
  | defaultOptions (o : OptionsCore F)
  | funTarget (x : F)
  | maxFunctionEvals (k : Nat)
  | maxTime (t : Nat)
  | maxFunctionEvalsPerRun (k : Nat)
  | maxGenerationsPerRun (k : Nat)
  | enablePrinting (b : Bool)
  | seed (s : Nat)

/-- The effect of a builder method, `/repo/src/restart/options.rs:115-172`. -/
def RestartOptions.set (o : RestartOptions n F) : RestartSetter F → RestartOptions n F
  | .mode m => { o with mode := m }
  | .parallelUpdate b => { o with parallelUpdate := b }
  | .defaultOptions d => { o with defaultOptions := d }
  | .funTarget x => { o with funTarget := some x }
  | .maxFunctionEvals k => { o with maxFunctionEvals := some k }
  | .maxTime t => { o with maxTime := some t }
  | .maxFunctionEvalsPerRun k => { o with maxFunctionEvalsPerRun := some k }
  | .maxGenerationsPerRun k => { o with maxGenerationsPerRun := some k }
  | .enablePrinting b => { o with enablePrinting := b }
  | .seed s => { o with seed := some s }

/-- `InvalidRestartOptionsError`, `/repo/src/restart/options.rs:11-17`. -/
inductive InvalidRestartOptionsError where
  | dimensions
  | searchRange
deriving DecidableEq, Repr

/-- `Restarter`, `/repo/src/restart/mod.rs:127-159`. The seed is resolved. -/
structure Restarter (n : Nat) (F R : Type) where
  options : RestartOptions n F
  strategy : Strategy F
  seed : Nat
  rng : R
  overallBest : Option (Individual n F)

/-- `Restarter::new` and `RestartOptions::build`, `/repo/src/restart/mod.rs:164-190`,
`/repo/src/restart/options.rs:175-177`. -/
def Restarter.new (env : Env n F R) (o : RestartOptions n F) :
    Except InvalidRestartOptionsError (Restarter n F R) :=
  let seed := o.seed.getD env.randomSeed
  if n = 0 then .error .dimensions
  else if Flt.feq (o.searchEnd - o.searchStart) 0 then .error .searchRange
  else .ok { options := o, strategy := o.strategy, seed, rng := env.restartRng.seed seed,
             overallBest := none }

/-- `rng.gen_range(lo..=hi)` of the `rand` crate (0.8): panics if the range is empty or its scale is
not finite. Used at /repo/src/restart/mod.rs:463. -/
def genRange (rng : RngOps R F) (lo hi : F) (r : R) : Outcome (F × R) :=
  let scale := (hi - lo) / (1 - Flt.ofRat (1 / 2 ^ 52))
  if Flt.le lo hi && !Flt.isInf scale && !Flt.isNaN scale then .ok (rng.uniform lo hi r)
  else .panic .range

/-- `k` draws from the search range. As in /repo/src/restart/mod.rs:461-464. -/
def genRanges (rng : RngOps R F) (lo hi : F) : Nat → R → Outcome (List F × R)
  | 0, r => .ok ([], r)
  | k + 1, r => do
    let (x, r) ← genRange rng lo hi r
    let (xs, r) ← genRanges rng lo hi k r
    .ok (x :: xs, r)

/-- `Restarter::generate_initial_mean`, `/repo/src/restart/mod.rs:460-465`. -/
def generateInitialMean (rng : RngOps R F) (lo hi : F) (r : R) : Outcome (Vec n F × R) := do
  let (xs, r) ← genRanges rng lo hi n r
  .ok (fun i => xs.getD i 0, r)

/-- The options of a run before the strategy changes them, `/repo/src/restart/mod.rs:320-329`. -/
def RestartOptions.runOptions (o : RestartOptions n F) (mean : Vec n F) (seed : Nat) :
    Options n F :=
  { o.defaultOptions with
    initialMean := mean
    mode := o.mode
    parallelUpdate := o.parallelUpdate
    seed := some seed
    maxFunctionEvals := o.maxFunctionEvalsPerRun
    maxGenerations := o.maxGenerationsPerRun
    funTarget := o.funTarget }

/-- What happened in one run: the objective function and the options it was built with, its final
state and the data it returned. Recorded by the model only. A run is made by a strategy's
`next_run`, /repo/src/restart/strategy.rs:58. -/
structure RunRecord (n : Nat) (F R : Type) where
  obj : Obj n F
  options : Options n F
  final : CMAES n F R
  data : TerminationData n F

/-- `RestartResults`, `/repo/src/restart/mod.rs:68-80`. -/
structure RestartResults (n : Nat) (F : Type) where
  best : Option (Individual n F)
  reason : RestartTerminationReason
  functionEvals : Nat
  runs : Nat

/-- The closure `get_objective_function` of `run_internal`. It is at
/repo/src/restart/mod.rs:269,274; the callers that provide it are /repo/src/restart/mod.rs:201-265.
-/
inductive ObjSource (n : Nat) (F : Type) where
  /-- the closure given to `run` or `run_parallel`; what it returns may depend on the calls made to
  the objective functions of the earlier runs -/
  | factory (get : List (List (Vec n F × F)) → Obj n F)
  /-- `|| function.take().unwrap()` of `run_with_reuse` and `run_parallel_with_reuse`,
  `/repo/src/restart/mod.rs:235-236, 258-261` -/
  | once (function : Option (Obj n F))

/-- Calling the closure; `logs` are the calls made in the earlier runs. The call is in
/repo/src/restart/mod.rs:348-350. -/
def ObjSource.call (logs : List (List (Vec n F × F))) :
    ObjSource n F → Outcome (Obj n F × ObjSource n F)
  | .factory get => .ok (get logs, .factory get)
  | .once (some obj) => .ok (obj, .once none)
  | .once none => .panic .unwrap

/-- The state of the loop in `run_internal`, `/repo/src/restart/mod.rs:283-288`. `source` and
`sourceCalls` are the closure `get_objective_function` and how often it was called, `stored` is the
variable `objective_function`, and `records` lists the runs so far. -/
structure RestartState (n : Nat) (F R : Type) where
  restarter : Restarter n F R
  timeStarted : Nat
  functionEvals : Nat
  runs : Nat
  world : World n F
  source : ObjSource n F
  sourceCalls : Nat
  stored : Option (Obj n F)
  records : List (RunRecord n F R)

/-- `objective_function.take().unwrap_or_else(&mut get_objective_function)`,
`/repo/src/restart/mod.rs:348-350`. -/
def RestartState.takeObjective (s : RestartState n F R) : Outcome (Obj n F × RestartState n F R) :=
  match s.stored with
  | some obj => .ok (obj, { s with stored := none })
  | none => do
    let (obj, source) ← s.source.call (s.records.map fun r => r.final.sampler.obj.log)
    .ok (obj, { s with source, sourceCalls := s.sourceCalls + 1 })

/-- `Restarter::update_best_individual`, `/repo/src/restart/mod.rs:426-435`. -/
def updateBestIndividual (mode : Mode) (best : Option (Individual n F)) (ind : Individual n F) :
    Option (Individual n F) :=
  match best with
  | some cur => if mode.isBetter ind.value cur.value then some ind else some cur
  | none => some ind

/-- `print` if printing is enabled. As at /repo/src/restart/mod.rs:278-280. -/
def RestartState.print (s : RestartState n F R) (e : PrintEvent n F) : RestartState n F R :=
  if s.restarter.options.enablePrinting then { s with world := s.world.print e } else s

/-- The checks before a run, `/repo/src/restart/mod.rs:294-313`. -/
def RestartState.precheck (env : Env n F R) (s : RestartState n F R) :
    Option RestartTerminationReason × RestartState n F R :=
  if s.restarter.strategy.hasZeroMaxRuns then (some .maxRuns, s)
  else if (match s.restarter.options.maxFunctionEvals with
      | some m => decide (m ≤ s.functionEvals)
      | none => false) then (some .maxFunctionEvals, s)
  else
    match s.restarter.options.maxTime with
    | none => (none, s)
    | some m =>
      let (now, w) := s.world.now env
      let s := { s with world := w }
      if m ≤ now - s.timeStarted then (some .maxTime, s) else (none, s)

/-- One run, `/repo/src/restart/mod.rs:316-374`. -/
def RestartState.oneRun (env : Env n F R) (kind : EvalKind) (s : RestartState n F R) :
    Outcome (RestartState n F R × RunRecord n F R × RestartControl) := do
  let o := s.restarter.options
  let (mean, rng) ← generateInitialMean env.restartRng o.searchStart o.searchEnd s.restarter.rng
  let (seed, rng) := env.restartRng.u64 rng
  let options := o.runOptions mean seed
  let size := Flt.abs (o.searchEnd - o.searchStart)
  let (obj, s) ← s.takeObjective
  let (options, rng) ← s.restarter.strategy.configure env.restartRng options size rng
  match CMAES.new env s.world obj options with
  | .error _ => .panic .unwrap
  | .ok c => do
    let c := if o.enablePrinting then c.printRunInfo (s.runs + 1) else c
    let (c, d) ← c.run env kind
    let (strategy, control) ← s.restarter.strategy.finish c.functionEvals
    let s := { s with restarter := { s.restarter with rng, strategy }, world := c.world }
    let s := s.print (.runResults (s.runs + 1) (c.overallBestIndividual.map fun i => i.value)
      d.reasons c.functionEvals)
    let record : RunRecord n F R := { obj, options, final := c, data := d }
    .ok ({ s with
      functionEvals := s.functionEvals + c.functionEvals
      runs := s.runs + 1
      records := s.records ++ [record] }, record, control)

/-- The checks after a run, `/repo/src/restart/mod.rs:377-402`. -/
def RestartState.postcheck (s : RestartState n F R) (record : RunRecord n F R)
    (control : RestartControl) : Option RestartTerminationReason × RestartState n F R :=
  if record.data.reasons.any (· == .invalidFunctionValue) then (some .invalidFunctionValue, s)
  else
    let s := match record.final.overallBestIndividual with
      | some best => { s with restarter := { s.restarter with
          overallBest := updateBestIndividual s.restarter.options.mode s.restarter.overallBest best } }
      | none => s
    if record.data.reasons.any (· == .funTarget) then (some .funTarget, s)
    else match control with
      | .continue => (none, s)
      | .maxRunsReached => (some .maxRuns, s)

/-- The end of the loop body, `/repo/src/restart/mod.rs:405-407`. -/
def RestartState.store (reuse : Bool) (s : RestartState n F R) (record : RunRecord n F R) :
    RestartState n F R :=
  if reuse then { s with stored := some record.final.intoObjectiveFunction } else s

/-- The loop of `run_internal`, `/repo/src/restart/mod.rs:291-408`. -/
def RestartState.loop (env : Env n F R) (kind : EvalKind) (reuse : Bool) :
    Nat → RestartState n F R → Outcome (RestartTerminationReason × RestartState n F R)
  | 0, _ => .diverge
  | fuel + 1, s =>
    match s.precheck env with
    | (some r, s) => .ok (r, s)
    | (none, s) => do
      let (s, record, control) ← s.oneRun env kind
      match s.postcheck record control with
      | (some r, s) => .ok (r, s)
      | (none, s) => RestartState.loop env kind reuse fuel (s.store reuse record)

/-- The state when the loop starts, `/repo/src/restart/mod.rs:277-288`. -/
def Restarter.start (env : Env n F R) (source : ObjSource n F) (r : Restarter n F R) :
    RestartState n F R :=
  let w : World n F := World.init
  let w := if r.options.enablePrinting then w.print (.restartInitial r.strategy.algorithmName n
    r.options.searchStart r.options.searchEnd r.strategy.parameters r.seed) else w
  let (now, w) := w.now env
  { restarter := r, timeStarted := now, functionEvals := 0, runs := 0, world := w, source
    sourceCalls := 0, stored := none, records := [] }

/-- `Restarter::run_internal`, `/repo/src/restart/mod.rs:267-423`. The final state of the loop is
returned too. -/
def Restarter.runInternal (env : Env n F R) (kind : EvalKind) (source : ObjSource n F)
    (reuse : Bool) (r : Restarter n F R) : Outcome (RestartResults n F × RestartState n F R) := do
  let (reason, s) ← (r.start env source).loop env kind reuse env.restartFuel
  let results : RestartResults n F :=
    { best := s.restarter.overallBest, reason, functionEvals := s.functionEvals, runs := s.runs }
  .ok (results, s.print (.restartResults results.functionEvals results.reason results.best))

/-- `Restarter::run` and `Restarter::run_parallel`, `/repo/src/restart/mod.rs:201-207, 244-250`. -/
def Restarter.run (env : Env n F R) (kind : EvalKind)
    (get : List (List (Vec n F × F)) → Obj n F) (r : Restarter n F R) :
    Outcome (RestartResults n F × RestartState n F R) :=
  r.runInternal env kind (.factory get) false

/-- `Restarter::run_with_reuse` and `Restarter::run_parallel_with_reuse`,
`/repo/src/restart/mod.rs:234-237, 254-264`. -/
def Restarter.runWithReuse (env : Env n F R) (kind : EvalKind) (obj : Obj n F)
    (r : Restarter n F R) : Outcome (RestartResults n F × RestartState n F R) :=
  r.runInternal env kind (.once (some obj)) true

end Cmaes
