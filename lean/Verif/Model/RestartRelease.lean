import Verif.Model.Release
import Verif.Model.Restart

/-!
# Restarts in release builds

`Verif.Model.Restart` compiled without overflow checks: the population sizes of `IPOP` and `BIPOP`
wrap around, and the runs are those of `Verif.Model.Release`. Everything else is shared.
-/

namespace Cmaes
variable {n : Nat} {F R : Type} [Flt F]

/-- `usize` multiplication that wraps around. For the multiplications of
/repo/src/restart/ipop.rs:76,84 and /repo/src/restart/bipop.rs:144,155. -/
def wrapMul (a b : Nat) : Nat := a * b % 2 ^ 64

/-- As `Strategy.configure`: `/repo/src/restart/local.rs:73`, `ipop.rs:75-76`,
`bipop.rs:116-122, 143-144, 186-192`. -/
def Strategy.configureR (rng : RngOps R F) (s : Strategy F) (o : Options n F) (size : F) (r : R) :
    Options n F × R :=
  match s with
  | .local s => ({ o with initialStepSize := s.initialStepSize size }, r)
  | .ipop s => ({ o with
      initialStepSize := ipopInitialStepSize size
      populationSize := wrapMul o.populationSize s.currentMultiplier }, r)
  | .bipop s =>
    if s.useLr then
      let (u1, r) := rng.unit r
      let (u2, r) := rng.unit r
      ({ o with
        initialStepSize := s.initialStepSizeLr size u1
        populationSize := s.populationSizeLr o.populationSize u2
        maxFunctionEvals := o.maxFunctionEvals.map fun m => min m (s.lastIpopFunctionEvalsUsed / 2)
        }, r)
    else ({ o with
      initialStepSize := bipopInitialStepSizeIpop size
      populationSize := wrapMul o.populationSize s.ipopCurrentMultiplier }, r)

/-- As `Strategy.finish`: `/repo/src/restart/local.rs:80-86`, `ipop.rs:83-90`,
`bipop.rs:129-131, 151-161`. -/
def Strategy.finishR (evals : Nat) : Strategy F → Strategy F × RestartControl
  | .local s =>
    let s := { s with runs := s.runs + 1 }
    (.local s, if s.maxRuns ≤ s.runs then .maxRunsReached else .continue)
  | .ipop s =>
    let s := { s with
      runs := s.runs + 1, currentMultiplier := wrapMul s.currentMultiplier s.increaseFactor }
    (.ipop s, if ipopMaxRuns ≤ s.runs then .maxRunsReached else .continue)
  | .bipop s =>
    if s.useLr then
      (.bipop { s with lrFunctionEvals := s.lrFunctionEvals + evals }, .continue)
    else
      let s := { s with
        ipopRuns := s.ipopRuns + 1
        ipopFunctionEvals := s.ipopFunctionEvals + evals
        lastIpopFunctionEvalsUsed := evals
        lastIpopMultiplier := s.ipopCurrentMultiplier
        ipopCurrentMultiplier := wrapMul s.ipopCurrentMultiplier s.ipopIncreaseFactor }
      (.bipop s, if bipopMaxIpopRuns ≤ s.ipopRuns then .maxRunsReached else .continue)

/-- One run, `/repo/src/restart/mod.rs:316-374`. -/
def RestartState.oneRunR (env : Env n F R) (kind : EvalKind) (s : RestartState n F R) :
    Outcome (RestartState n F R × RunRecord n F R × RestartControl) := do
  let o := s.restarter.options
  let (mean, rng) ← generateInitialMean env.restartRng o.searchStart o.searchEnd s.restarter.rng
  let (seed, rng) := env.restartRng.u64 rng
  let options := o.runOptions mean seed
  let size := Flt.abs (o.searchEnd - o.searchStart)
  let (obj, s) ← s.takeObjective
  let (options, rng) := s.restarter.strategy.configureR env.restartRng options size rng
  match CMAES.new env s.world obj options with
  | .error _ => .panic .unwrap
  | .ok c => do
    let c := if o.enablePrinting then c.printRunInfo (s.runs + 1) else c
    let (c, d) ← c.runR env kind
    let (strategy, control) := s.restarter.strategy.finishR c.functionEvals
    let s := { s with restarter := { s.restarter with rng, strategy }, world := c.world }
    let s := s.print (.runResults (s.runs + 1) (c.overallBestIndividual.map fun i => i.value)
      d.reasons c.functionEvals)
    let record : RunRecord n F R := { obj, options, final := c, data := d }
    .ok ({ s with
      functionEvals := s.functionEvals + c.functionEvals
      runs := s.runs + 1
      records := s.records ++ [record] }, record, control)

/-- The loop of `run_internal`, `/repo/src/restart/mod.rs:291-408`. -/
def RestartState.loopR (env : Env n F R) (kind : EvalKind) (reuse : Bool) :
    Nat → RestartState n F R → Outcome (RestartTerminationReason × RestartState n F R)
  | 0, _ => .diverge
  | fuel + 1, s =>
    match s.precheck env with
    | (some r, s) => .ok (r, s)
    | (none, s) => do
      let (s, record, control) ← s.oneRunR env kind
      match s.postcheck record control with
      | (some r, s) => .ok (r, s)
      | (none, s) => RestartState.loopR env kind reuse fuel (s.store reuse record)

/-- `Restarter::run_internal`, `/repo/src/restart/mod.rs:267-423`, with which `run`,
`run_parallel`, `run_with_reuse` and `run_parallel_with_reuse` are implemented. -/
def Restarter.runInternalR (env : Env n F R) (kind : EvalKind) (source : ObjSource n F)
    (reuse : Bool) (r : Restarter n F R) : Outcome (RestartResults n F × RestartState n F R) := do
  let (reason, s) ← (r.start env source).loopR env kind reuse env.restartFuel
  let results : RestartResults n F :=
    { best := s.restarter.overallBest, reason, functionEvals := s.functionEvals, runs := s.runs }
  .ok (results, s.print (.restartResults results.functionEvals results.reason results.best))

end Cmaes
