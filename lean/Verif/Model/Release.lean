import Verif.Model.Cmaes

/-!
# Release builds

`Verif.Model.Cmaes` is the crate compiled with overflow checks (Cargo's `dev` profile), in which an
integer overflow is a panic. Here are the functions in which an overflow can happen, compiled without
them (the `release` profile): integers wrap around. Everything else is shared. The other
subtractions that are checked in the model cannot overflow in either profile (C26), and are left as
they are.
-/

namespace Cmaes
variable {n : Nat} {F R : Type} [Flt F]

/-- `usize` addition that wraps around. Used at /repo/src/plotting/mod.rs:101 and
/repo/src/lib.rs:343. -/
def wrapAdd (a b : Nat) : Nat := (a + b) % 2 ^ 64

/-- The `i32` with the same lower 32 bits. For `generation as i32` at /repo/src/state.rs:87. -/
def wrapI32 (z : Int) : Int := (z + 2 ^ 31) % 2 ^ 32 - 2 ^ 31

/-- `f64::powi` with any `i32` exponent: with a negative one it is the reciprocal of the power. Used
at /repo/src/state.rs:87. -/
def powiInt (x : F) (e : Int) : F :=
  if 0 ≤ e then Flt.powi x e.toNat else 1 / Flt.powi x (-e).toNat

/-- The exponent `2 * (generation as i32 + 1)`, `/repo/src/state.rs:87`. -/
def exponentR (generation : Nat) : Int := wrapI32 (2 * wrapI32 (wrapI32 generation + 1))

/-- `hs`, `/repo/src/state.rs:86-93`. -/
def heavisideR (p : Parameters F) (generation : Nat) (pathSigma : Vec n F) : F :=
  if Flt.lt
      (pathSigma.magnitude / Flt.sqrt (1 - powiInt (1 - p.cs) (exponentR generation)))
      ((Flt.ofRat (14 / 10) + 2 / (Flt.ofNat p.dim + 1)) * chiN F p.dim) then 1 else 0

/-- `State::update`, `/repo/src/state.rs:50-144`. -/
def State.updateR (eigen : Mat n F → Option (Mat n F × Vec n F)) (tree : SplitTree)
    (evals : Nat) (p : Parameters F) (inds : List (EvaluatedPoint n F)) (s : State n F) :
    Outcome (State n F × Bool) := do
  let yw ← weightedStep p inds
  let mean := s.mean.add (yw.smul (p.cm * s.sigma))
  let pathSigma := newPathSigma p s yw
  let hs := heavisideR p s.generation pathSigma
  let pathC := newPathC p s hs yw
  let sigma := newSigma p s.sigma pathSigma
  let rankMu ← rankMuUpdate p tree s.cov.sqrtInv inds
  let covNew := newCov p s.cov.cov hs pathC rankMu
  let doEigenUpdate := decide (s.lastEigenUpdateEvals + evalsPerEigenUpdate p ≤ evals)
  let (cov, ok) := s.cov.setCov eigen covNew doEigenUpdate
  if ok then
    .ok ({ generation := s.generation + 1, mean, cov, sigma, pathC, pathSigma
           lastEigenUpdateEvals := if doEigenUpdate then evals else s.lastEigenUpdateEvals }, true)
  else
    .ok ({ s with mean, cov, sigma, pathC, pathSigma }, false)

/-- `Plot::get_next_data_point_evals`, `/repo/src/plotting/mod.rs:99-104`. -/
def Plot.nextDataPointEvalsR (p : Plot n F) : Nat :=
  match p.lastDataPointEvals with
  | some evals => wrapAdd evals p.options.minGapEvals
  | none => 0

namespace CMAES

/-- Plotting in `next_internal`, `/repo/src/lib.rs:331-338`. -/
def autoPlotR (c : CMAES n F R) : CMAES n F R :=
  match c.plot with
  | none => c
  | some p =>
    if c.state.generation ≤ 1 then c.addPlotPoint
    else if p.nextDataPointEvalsR ≤ c.sampler.functionEvals then c.addPlotPoint else c

/-- Printing in `next_internal`, `/repo/src/lib.rs:341-351`. -/
def autoPrintR (c : CMAES n F R) : CMAES n F R :=
  match c.printGapEvals with
  | none => c
  | some gap =>
    if wrapAdd c.lastPrintEvals gap ≤ c.sampler.functionEvals then
      { c.printInfo with lastPrintEvals := c.sampler.functionEvals }
    else if c.state.generation < 4 then c.printInfo
    else c

/-- `CMAES::next_internal`, `/repo/src/lib.rs:319-369`. -/
def nextInternalR (env : Env n F R) (tree : SplitTree) (inds : List (EvaluatedPoint n F))
    (c : CMAES n F R) : Outcome (CMAES n F R × Option (TerminationData n F)) := do
  let (state, success) ← c.state.updateR env.eigen tree c.sampler.functionEvals c.parameters inds
  let c := { c with state }
  if success then c.autoPlotR.autoPrintR.checkTermination env inds
  else .ok (c, some (c.terminationData [.posDefCov]))

/-- `CMAES::next` and `CMAES::next_parallel`, `/repo/src/lib.rs:313-316, 609-640, 662-691`. -/
def nextR (env : Env n F R) (kind : EvalKind) (c : CMAES n F R) :
    Outcome (CMAES n F R × Option (TerminationData n F)) := do
  let step := c.world.steps
  let (res, sampler) ← c.sampler.sample env kind (env.sched step) c.state.cov.transform
    c.state.mean c.state.sigma c.parameters.mode
  let c := { c with sampler, world := { c.world with steps := step + 1 } }
  match res with
  | none => .ok (c, some (c.terminationData [.invalidFunctionValue]))
  | some inds => do
    let history ← c.history.update c.parameters.mode inds
    nextInternalR env (env.redTree step) inds { c with history }

/-- The loop of `CMAES::run` and `CMAES::run_parallel`, `/repo/src/lib.rs:593-597, 650-654`. -/
def runLoopR (env : Env n F R) (kind : EvalKind) :
    Nat → CMAES n F R → Outcome (CMAES n F R × TerminationData n F)
  | 0, _ => .diverge
  | fuel + 1, c => do
    let (c, r) ← c.nextR env kind
    match r with
    | some d => .ok (c, d)
    | none => runLoopR env kind fuel c

/-- `CMAES::run` and `CMAES::run_parallel`, `/repo/src/lib.rs:592-602, 649-659`. -/
def runR (env : Env n F R) (kind : EvalKind) (c : CMAES n F R) :
    Outcome (CMAES n F R × TerminationData n F) := do
  let (c, d) ← runLoopR env kind env.runFuel c
  .ok (c.runInternal d, d)

/-- One user call, as `CMAES.apply`. The calls are /repo/src/lib.rs:454,484-586,592-690. -/
def applyR (env : Env n F R) (c : CMAES n F R) :
    Op → Outcome (CMAES n F R × Option (TerminationData n F))
  | .next kind => c.nextR env kind
  | .run kind => do
    let (c, d) ← c.runR env kind
    .ok (c, some d)
  | op => c.apply env op

/-- A sequence of user calls, with the data returned by each, as `CMAES.applyAll`. The calls are
/repo/src/lib.rs:454,484-586,592-690. -/
def applyAllR (env : Env n F R) :
    List Op → CMAES n F R → Outcome (CMAES n F R × List (Option (TerminationData n F)))
  | [], c => .ok (c, [])
  | op :: ops, c => do
    let (c, r) ← c.applyR env op
    let (c, rs) ← applyAllR env ops c
    .ok (c, r :: rs)

end CMAES
end Cmaes
