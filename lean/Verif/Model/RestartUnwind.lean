import Verif.Model.Unwind
import Verif.Model.Restart

/-!
# Panics of user code inside a restarter

`Restarter::run` and its variants take the restarter by value, so a caller who catches a panic of
the objective function or of a constraint is left with what was printed and with what the objective
functions have seen. The functions of `restart/mod.rs` again, with these. A panic of the closure that
makes the objective functions is in `Verif.Model.RestartMaker`.
-/

namespace Cmaes
variable {n : Nat} {F R : Type} [Flt F]

/-- What is left of a restarter after a panic: the output, and the calls of the objective functions,
run by run; the last entry belongs to the run that panicked. The restarter itself is consumed by
`run`, /repo/src/restart/mod.rs:201,234,244,254. -/
structure RestartLeft (n : Nat) (F : Type) where
  output : List (PrintEvent n F)
  calls : List (List (Vec n F × F))

/-- When the objective functions panic; this may depend on the calls made in the earlier runs. The
functions are called within the runs started at /repo/src/restart/mod.rs:359-365. -/
abbrev RestartPanics (n : Nat) (F : Type) := List (List (Vec n F × F)) → Panics n F

/-- One run, `/repo/src/restart/mod.rs:316-374`. -/
def RestartState.oneRunU (env : Env n F R) (pan : RestartPanics n F) (kind : EvalKind)
    (s : RestartState n F R) :
    Outcome (Ended (RestartLeft n F) (RestartState n F R × RunRecord n F R × RestartControl)) := do
  let o := s.restarter.options
  let logs := s.records.map fun r => r.final.sampler.obj.log
  let (mean, rng) ← generateInitialMean env.restartRng o.searchStart o.searchEnd s.restarter.rng
  let (seed, rng) := env.restartRng.u64 rng
  let options := o.runOptions mean seed
  let size := Flt.abs (o.searchEnd - o.searchStart)
  let (obj, s) ← s.takeObjective
  let (options, rng) ← s.restarter.strategy.configure env.restartRng options size rng
  match CMAES.new env s.world obj options with
  | .error _ => .panic .unwrap
  | .ok c => do
    let c := if o.enablePrinting then c.printRunInfo (s.runs + 1) else c
    match ← c.runU env (pan logs) kind with
    | .unwound c =>
      .ok (.unwound { output := c.world.out, calls := logs ++ [c.sampler.obj.log] })
    | .returned (c, d) => do
      let (strategy, control) ← s.restarter.strategy.finish c.functionEvals
      let s := { s with restarter := { s.restarter with rng, strategy }, world := c.world }
      let s := s.print (.runResults (s.runs + 1) (c.overallBestIndividual.map fun i => i.value)
        d.reasons c.functionEvals)
      let record : RunRecord n F R := { obj, options, final := c, data := d }
      .ok (.returned ({ s with
        functionEvals := s.functionEvals + c.functionEvals
        runs := s.runs + 1
        records := s.records ++ [record] }, record, control))

/-- The loop of `run_internal`, `/repo/src/restart/mod.rs:291-408`. -/
def RestartState.loopU (env : Env n F R) (pan : RestartPanics n F) (kind : EvalKind)
    (reuse : Bool) : Nat → RestartState n F R →
      Outcome (Ended (RestartLeft n F) (RestartTerminationReason × RestartState n F R))
  | 0, _ => .diverge
  | fuel + 1, s =>
    match s.precheck env with
    | (some r, s) => .ok (.returned (r, s))
    | (none, s) => do
      match ← s.oneRunU env pan kind with
      | .unwound l => .ok (.unwound l)
      | .returned (s, record, control) =>
        match s.postcheck record control with
        | (some r, s) => .ok (.returned (r, s))
        | (none, s) => RestartState.loopU env pan kind reuse fuel (s.store reuse record)

/-- `Restarter::run_internal`, `/repo/src/restart/mod.rs:267-423`. -/
def Restarter.runInternalU (env : Env n F R) (pan : RestartPanics n F) (kind : EvalKind)
    (source : ObjSource n F) (reuse : Bool) (r : Restarter n F R) :
    Outcome (Ended (RestartLeft n F) (RestartResults n F × RestartState n F R)) := do
  match ← (r.start env source).loopU env pan kind reuse env.restartFuel with
  | .unwound l => .ok (.unwound l)
  | .returned (reason, s) =>
    let results : RestartResults n F :=
      { best := s.restarter.overallBest, reason, functionEvals := s.functionEvals, runs := s.runs }
    .ok (.returned
      (results, s.print (.restartResults results.functionEvals results.reason results.best)))

/-- `Restarter::run` and `Restarter::run_parallel`, `/repo/src/restart/mod.rs:201-207, 244-250`. -/
def Restarter.runU (env : Env n F R) (pan : RestartPanics n F) (kind : EvalKind)
    (get : List (List (Vec n F × F)) → Obj n F) (r : Restarter n F R) :
    Outcome (Ended (RestartLeft n F) (RestartResults n F × RestartState n F R)) :=
  r.runInternalU env pan kind (.factory get) false

/-- `Restarter::run_with_reuse` and `Restarter::run_parallel_with_reuse`,
`/repo/src/restart/mod.rs:234-237, 254-264`. -/
def Restarter.runWithReuseU (env : Env n F R) (pan : Panics n F) (kind : EvalKind) (obj : Obj n F)
    (r : Restarter n F R) :
    Outcome (Ended (RestartLeft n F) (RestartResults n F × RestartState n F R)) :=
  r.runInternalU env (fun _ => pan) kind (.once (some obj)) true

end Cmaes
