import Verif.Model.Memory
import Verif.Spec.Trace

/-!
# Specification vocabulary: constraints with memory
-/

namespace Cmaes
variable {n : Nat} {F R : Type} [Flt F]

/-- The answers in `asked` are those of the constraint `k`, asked about the points of `asked` one
after the other. -/
def AnswersOf (k : MemConstraint n F) (asked : List (Vec n F × Bool)) : Prop :=
  ∀ i (h : i < asked.length), k (asked.take i) asked[i].1 = .ok asked[i].2

/-- The points that were accepted, in the order of the questions. -/
def acceptedPoints (asked : List (Vec n F × Bool)) : List (Vec n F) :=
  (asked.filter fun q => q.2).map Prod.fst

/-- A generator whose normally distributed numbers are those in a list, whatever the seed. -/
def replayRng (l : List F) : RngOps (List F) F where
  seed _ := l
  normal
    | [] => (0, [])
    | x :: l => (x, l)
  unit l := (0, l)
  u64 l := (0, l)
  uniform lo _ l := (lo, l)

/-- The same machine with the random numbers `l`. -/
def Env.replay (env : Env n F R) (l : List F) : Env n F (List F) where
  rng := replayRng l
  restartRng := replayRng l
  eigen := env.eigen
  clock := env.clock
  sched := env.sched
  redTree := env.redTree
  medianNaN := env.medianNaN
  randomSeed := env.randomSeed
  resampleFuel := env.resampleFuel + 2
  runFuel := env.runFuel
  restartFuel := env.restartFuel

/-- The same `CMAES` without constraint and with the random numbers `l` to come. What the API shows
(search state, history, plot, output, objective calls and their number) is the same. -/
def CMAES.replay (c : CMAES n F R) (l : List F) : CMAES n F (List F) where
  sampler :=
    { constraints := none, maxResamples := c.sampler.maxResamples
      populationSize := c.sampler.populationSize, rng := l, obj := c.sampler.obj
      functionEvals := c.sampler.functionEvals }
  parameters := c.parameters
  state := c.state
  history := c.history
  plot := c.plot
  printGapEvals := c.printGapEvals
  lastPrintEvals := c.lastPrintEvals
  timeCreated := c.timeCreated
  world := c.world

end Cmaes
