import Verif.Spec.Simulation
import Verif.Model.Restart

/-!
# Specification vocabulary: running the same program again
-/

namespace Cmaes
variable {n : Nat} {F R : Type} [Flt F]

/-- The same program on the same kind of machine: generators and numerical libraries compute the
same. The clock, the scheduling of threads and the source of random seeds may differ. (The last
three fields are the cut-offs of the model.) -/
structure SameMachine (env env' : Env n F R) : Prop where
  rng : env'.rng = env.rng
  restartRng : env'.restartRng = env.restartRng
  eigen : env'.eigen = env.eigen
  medianNaN : env'.medianNaN = env.medianNaN
  resampleFuel : env'.resampleFuel = env.resampleFuel
  runFuel : env'.runFuel = env.runFuel
  restartFuel : env'.restartFuel = env.restartFuel

/-- A `CMAES` without the time of its creation. -/
def CMAES.eraseTime (c : CMAES n F R) : CMAES n F R := { c with timeCreated := 0 }

/-- A `CMAES` without what was printed so far. -/
def CMAES.eraseOutput (c : CMAES n F R) : CMAES n F R :=
  { c with world := { c.world with out := [] } }

/-- A run of a restarter, with its final `CMAES` seen through `e`. -/
def RunRecord.see (e : CMAES n F R → CMAES n F R) (x : RunRecord n F R) : RunRecord n F R :=
  { x with final := e x.final }

/-- A run of a restarter without the record of the objective calls made so far. -/
def RunRecord.eraseLog (x : RunRecord n F R) : RunRecord n F R :=
  { x with obj := { x.obj with log := [] }, final := x.final.eraseLog }

/-- Where the objective functions come from, if they have no state: a closure that returns, for the
`k`-th run, a function without state, or one such function that is reused. -/
inductive ObjSource.Stateless : ObjSource n F → Prop
  | factory (g : Nat → Obj n F) (h : ∀ k, Cmaes.Stateless (g k).f) :
    ObjSource.Stateless (.factory fun logs => g logs.length)
  | once (f : Obj n F) (h : Cmaes.Stateless f.f) : ObjSource.Stateless (.once (some f))

end Cmaes
