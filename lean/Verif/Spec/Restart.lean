import Verif.Spec.Trace
import Verif.Model.Restart

/-!
# Specification vocabulary: what a `Restarter` did

A `Restarter` that ran is described by the list of its runs, oldest first.
-/

namespace Cmaes
variable {n : Nat} {F R : Type} [Flt F]

/-- The record describes a run that took place: a `CMAES` was built with the recorded options for
the recorded objective function and, perhaps after printing a line, run until it terminated. -/
def RunRecord.Real (env : Env n F R) (kind : EvalKind) (r : RunRecord n F R) : Prop :=
  ∃ w c0 c1, CMAES.new env w r.obj r.options = .ok c0 ∧
    (c1 = c0 ∨ ∃ k, c1 = c0.printRunInfo k) ∧ c1.run env kind = .ok (r.final, r.data)

/-- The run's `function_evals()`. -/
def RunRecord.evals (r : RunRecord n F R) : Nat := r.final.functionEvals

/-- The run ended with `InvalidFunctionValue`. -/
def RunRecord.Invalid (r : RunRecord n F R) : Prop :=
  TerminationReason.invalidFunctionValue ∈ r.data.reasons

instance (r : RunRecord n F R) : Decidable r.Invalid := inferInstanceAs (Decidable (_ ∈ _))

/-- The run ended with `FunTarget`. -/
def RunRecord.HitTarget (r : RunRecord n F R) : Prop :=
  TerminationReason.funTarget ∈ r.data.reasons

instance (r : RunRecord n F R) : Decidable r.HitTarget := inferInstanceAs (Decidable (_ ∈ _))

/-- The evaluations used by all the runs together. -/
def totalEvals (rs : List (RunRecord n F R)) : Nat := (rs.map RunRecord.evals).sum

/-- How often the clock had been read when the runs `rs` were over: once when the restarter started
and then as often as counted until the end of the last of them. -/
def clockReadsAfter (rs : List (RunRecord n F R)) : Nat :=
  match rs.getLast? with
  | some x => x.final.world.clockReads
  | none => 1

/-- Every run got the objective function, with all the calls made to it, from the run before it; the
first run got `obj`. -/
def Threaded (obj : Obj n F) : List (RunRecord n F R) → Prop
  | [] => True
  | x :: xs => x.obj = obj ∧ Threaded x.final.intoObjectiveFunction xs

/-- The objective function after the runs, given that it was `obj` before them and was reused. -/
def objectiveAfter (obj : Obj n F) (rs : List (RunRecord n F R)) : Obj n F :=
  match rs.getLast? with
  | some x => x.final.intoObjectiveFunction
  | none => obj

/-- A strategy as the user can make it, with `Local::new`, `IPOP::new`, `BIPOP::new` or
`Default`. -/
def Strategy.Made : Strategy F → Prop
  | .local s => ∃ maxRuns factor, Local.new maxRuns factor = .ok s
  | .ipop s => ∃ factor, IPOP.new factor = .ok s
  | .bipop s => ∃ lrFactor factor, BIPOP.new lrFactor factor = .ok s

/-- The search range size `|B - A|`. -/
def RestartOptions.rangeSize (o : RestartOptions n F) : F := Flt.abs (o.searchEnd - o.searchStart)

/-! ### BIPOP -/

/-- The two kinds of runs of BIPOP. -/
inductive Regime where
  /-- a run with a large population -/
  | ipop
  /-- a local run -/
  | small
deriving DecidableEq, Repr

/-- The number of runs of the kind `g`. -/
def runsOf (g : Regime) (ls : List (Regime × RunRecord n F R)) : Nat :=
  (ls.filter fun x => x.1 = g).length

/-- The evaluations used by the runs of the kind `g`. -/
def spent (g : Regime) (ls : List (Regime × RunRecord n F R)) : Nat :=
  totalEvals ((ls.filter fun x => x.1 = g).map Prod.snd)

/-- The most recent run with a large population. -/
def lastIpop (ls : List (Regime × RunRecord n F R)) : Option (RunRecord n F R) :=
  ((ls.filter fun x => x.1 = .ipop).map Prod.snd).getLast?

/-- `u` can be drawn by the restarter as a number between 0 and 1. -/
def Env.CanDraw (env : Env n F R) (u : F) : Prop := ∃ r, (env.restartRng.unit r).1 = u

/-- The documented configuration of a run of BIPOP of the kind `g` after the runs `pre`: `size` is
the size of the search range, `default` the default population size, `limit` the limit on the
evaluations per run and `factor` the increase factor. A run with a large population uses `default`,
`default * factor`, `default * factor²`, ... points. A local run uses a random step size, a random
population size and, if there is a limit on the evaluations, at most half of the evaluations of the
last run with a large population. -/
def BipopRun (env : Env n F R) (size lrFactor : F) (default : Nat) (limit : Option Nat)
    (factor : Nat) (pre : List (Regime × RunRecord n F R)) (g : Regime) (x : Options n F) : Prop :=
  match g with
  | .ipop => x.populationSize = default * factor ^ runsOf .ipop pre ∧
      x.initialStepSize = size / 5 ∧ x.maxFunctionEvals = limit
  | .small => ∃ last u1 u2, lastIpop pre = some last ∧ env.CanDraw u1 ∧ env.CanDraw u2 ∧
      x.initialStepSize = size * lrFactor * Flt.powf 10 (-2 * u1) ∧
      x.populationSize = Flt.toUsize (Flt.floor (Flt.ofNat default * Flt.fmax
        (Flt.powf (Flt.ofNat (factor ^ (runsOf .ipop pre - 1)) / 2) (Flt.powi u2 2)) 1)) ∧
      x.maxFunctionEvals = limit.map fun m => min m (last.evals / 2)

/-- The facts about the labelled runs of BIPOP. -/
def BipopRuns (env : Env n F R) (o : RestartOptions n F) (lrFactor : F) (factor : Nat)
    (ls : List (Regime × RunRecord n F R)) : Prop :=
  ∀ pre g x post, ls = pre ++ (g, x) :: post →
    (g = .small ↔ pre ≠ [] ∧ spent .small pre < spent .ipop pre) ∧
    BipopRun env o.rangeSize lrFactor o.defaultOptions.populationSize o.maxFunctionEvalsPerRun
      factor pre g x.options

/-- `x` are options with which the restarter may build a run: everything but the nine options chosen
by the restarter is as in the default options, and the limit on the generations, the target, the mode
and `parallel_update` are the restarter's. -/
def RestartOptions.MayRun (o : RestartOptions n F) (x : Options n F) : Prop :=
  ∃ mean seed step population evals,
    x = { o.defaultOptions with
      mode := o.mode, initialMean := mean, seed := some seed, parallelUpdate := o.parallelUpdate,
      maxGenerations := o.maxGenerationsPerRun, funTarget := o.funTarget,
      maxFunctionEvals := evals, initialStepSize := step, populationSize := population }

/-- `step` and `population` can be chosen for a run: for `Local` (search range size) * factor * 0.01
and the default population; for IPOP half of the search range and a multiple of the default; for
BIPOP a fifth of the range and a multiple of the default, or what is computed from the numbers drawn
for a local run. -/
def RestartOptions.MayChoose (env : Env n F R) (o : RestartOptions n F) (step : F)
    (population : Nat) : Prop :=
  match o.strategy with
  | .local l => step = o.rangeSize * l.initialStepSizeFactor * Flt.ofRat (1 / 100) ∧
      population = o.defaultOptions.populationSize
  | .ipop l => step = o.rangeSize / 2 ∧
      ∃ k, population = o.defaultOptions.populationSize * l.increaseFactor ^ k
  | .bipop b => (step = o.rangeSize / 5 ∧
      ∃ k, population = o.defaultOptions.populationSize * b.ipopIncreaseFactor ^ k) ∨
      ∃ u1 u2 k, env.CanDraw u1 ∧ env.CanDraw u2 ∧
        step = o.rangeSize * b.lrInitialStepSizeFactor * Flt.powf 10 (-2 * u1) ∧
        population = Flt.toUsize (Flt.floor (Flt.ofNat o.defaultOptions.populationSize * Flt.fmax
          (Flt.powf (Flt.ofNat (b.ipopIncreaseFactor ^ k) / 2) (Flt.powi u2 2)) 1))

/-- The largest population of the strategy fits into 64 bits, with some room. -/
def RestartOptions.NoOverflow (o : RestartOptions n F) : Prop :=
  match o.strategy with
  | .local _ => True
  | .ipop l => o.defaultOptions.populationSize * l.increaseFactor ^ 10 < 2 ^ 64
  | .bipop b => o.defaultOptions.populationSize * b.ipopIncreaseFactor ^ 10 < 2 ^ 64

/-- The search range is usable by the generator: ordered, and its (scaled) width is finite. -/
def RestartOptions.RangeUsable (o : RestartOptions n F) : Prop :=
  Flt.le o.searchStart o.searchEnd = true ∧
    Flt.isInf ((o.searchEnd - o.searchStart) / (1 - Flt.ofRat (1 / 2 ^ 52))) = false ∧
    Flt.isNaN ((o.searchEnd - o.searchStart) / (1 - Flt.ofRat (1 / 2 ^ 52))) = false

end Cmaes
