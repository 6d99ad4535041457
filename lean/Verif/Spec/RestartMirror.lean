import Verif.Spec.Simulation
import Verif.Model.Restart

/-!
# Specification vocabulary: restarts with the other mode
-/

namespace Cmaes
variable {n : Nat} {F R : Type} [Flt F]

/-- Restart results with the value of the best individual negated. -/
def RestartResults.negated (r : RestartResults n F) : RestartResults n F :=
  { r with best := r.best.map Individual.negated }

/-- The options for minimizing `-f` that correspond to options `o` for maximizing `f`. -/
def RestartOptions.mirrored (o : RestartOptions n F) : RestartOptions n F :=
  { o with mode := .minimize, funTarget := o.funTarget.map fun v => -v }

/-- An objective function that returns the negated values of another. -/
def Obj.Mirrors (obj obj' : Obj n F) : Prop :=
  Transformed (fun v => -v) obj.f obj'.f ∧ obj'.log = mapCalls (fun v => -v) obj.log

/-- Sources of objective functions of which the second gives, in the situation in which the first
gives `f`, the function `-f`; `f` satisfies `P`. -/
inductive ObjSource.Mirrored (P : Obj n F → Prop) : ObjSource n F → ObjSource n F → Prop
  | factory {get get' : List (List (Vec n F × F)) → Obj n F}
    (h : ∀ logs, P (get logs) ∧ (get logs).Mirrors (get' (logs.map (mapCalls fun v => -v)))) :
    ObjSource.Mirrored P (.factory get) (.factory get')
  | once {f f' : Obj n F} (h : P f ∧ f.Mirrors f') :
    ObjSource.Mirrored P (.once (some f)) (.once (some f'))

/-- Two runs of a restarter of which the second mirrors the first. -/
structure RunRecord.Mirrors (a b : RunRecord n F R) : Prop where
  options : b.options = a.options.mirrored
  data : b.data = a.data.negated
  mean : b.final.mean = a.final.mean
  sigma : b.final.sigma = a.final.sigma
  covarianceMatrix : b.final.covarianceMatrix = a.final.covarianceMatrix
  generation : b.final.generation = a.final.generation
  functionEvals : b.final.functionEvals = a.final.functionEvals
  overallBest : b.final.overallBestIndividual =
    a.final.overallBestIndividual.map Individual.negated
  calls : b.final.intoObjectiveFunction.log =
    mapCalls (fun v => -v) a.final.intoObjectiveFunction.log

end Cmaes
