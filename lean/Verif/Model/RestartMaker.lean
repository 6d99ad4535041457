import Verif.Model.RestartUnwind

/-!
# Panics of the closure that makes the objective functions

`Restarter::run` and `Restarter::run_parallel` call a closure for the objective function of each
run. It is user code and may panic. The functions of `restart/mod.rs` again, with this.
-/

namespace Cmaes
variable {n : Nat} {F R : Type} [Flt F]

/-- When the closure `get_objective_function` panics. This may depend on the calls that the objective
functions of the earlier runs have seen, and so on how often it was called before. It is called at
`/repo/src/restart/mod.rs:348-350`. -/
abbrev MakerPanics (n : Nat) (F : Type) := List (List (Vec n F × F)) → Bool

/-- One run, `/repo/src/restart/mod.rs:316-374`. The closure is called after the initial mean was
drawn (316), and only if no objective function is stored (348-350). -/
def RestartState.oneRunM (env : Env n F R) (pan : RestartPanics n F) (mk : MakerPanics n F)
    (kind : EvalKind) (s : RestartState n F R) :
    Outcome (Ended (RestartLeft n F) (RestartState n F R × RunRecord n F R × RestartControl)) := do
  let o := s.restarter.options
  let logs := s.records.map fun r => r.final.sampler.obj.log
  let _ ← generateInitialMean (n := n) env.restartRng o.searchStart o.searchEnd s.restarter.rng
  if s.stored.isNone && mk logs then
    .ok (.unwound { output := s.world.out, calls := logs })
  else s.oneRunU env pan kind

/-- The loop of `run_internal`, `/repo/src/restart/mod.rs:291-408`, for a new objective function in
each run. -/
def RestartState.loopM (env : Env n F R) (pan : RestartPanics n F) (mk : MakerPanics n F)
    (kind : EvalKind) : Nat → RestartState n F R →
      Outcome (Ended (RestartLeft n F) (RestartTerminationReason × RestartState n F R))
  | 0, _ => .diverge
  | fuel + 1, s =>
    match s.precheck env with
    | (some r, s) => .ok (.returned (r, s))
    | (none, s) => do
      match ← s.oneRunM env pan mk kind with
      | .unwound l => .ok (.unwound l)
      | .returned (s, record, control) =>
        match s.postcheck record control with
        | (some r, s) => .ok (.returned (r, s))
        | (none, s) => RestartState.loopM env pan mk kind fuel (s.store false record)

/-- `Restarter::run` and `Restarter::run_parallel` with `run_internal`,
`/repo/src/restart/mod.rs:201-207, 244-250, 267-423`. -/
def Restarter.runM (env : Env n F R) (pan : RestartPanics n F) (mk : MakerPanics n F)
    (kind : EvalKind) (get : List (List (Vec n F × F)) → Obj n F) (r : Restarter n F R) :
    Outcome (Ended (RestartLeft n F) (RestartResults n F × RestartState n F R)) := do
  match ← (r.start env (.factory get)).loopM env pan mk kind env.restartFuel with
  | .unwound l => .ok (.unwound l)
  | .returned (reason, s) =>
    let results : RestartResults n F :=
      { best := s.restarter.overallBest, reason, functionEvals := s.functionEvals, runs := s.runs }
    .ok (.returned
      (results, s.print (.restartResults results.functionEvals results.reason results.best)))

end Cmaes
