import Verif.Spec.Move
import Verif.Model.Restart

/-!
# Specification vocabulary: restarts in a moved and scaled search range
-/

namespace Cmaes
variable {n : Nat} {R : Type}

/-- `o'` are the restart options for the problem whose points are `α * x + τ` (with the same `τ` in
all coordinates, as the search range is): the ends of the search range and the constraints are
moved, `tol_x` (if given) is scaled, everything else is equal, except for the initial step size of
the default options, which does not matter. -/
structure MovedRestart (α τ : ℝ) (o o' : RestartOptions n XR) : Prop where
  rest : o' = { o with
    searchStart := .fin α * o.searchStart + .fin τ
    searchEnd := .fin α * o.searchEnd + .fin τ
    defaultOptions := { o.defaultOptions with
      tolX := o.defaultOptions.tolX.map fun x => .fin α * x
      constraints := o'.defaultOptions.constraints
      initialStepSize := o'.defaultOptions.initialStepSize } }
  constraints : Option.Rel (MovedConstraint (affine α fun _ : Fin n => τ))
    o.defaultOptions.constraints o'.defaultOptions.constraints

/-- The generator draws from the moved range the moved number that it draws from the range. (A
uniform draw is `lo + u * (hi - lo)`, for a random `u` that does not depend on the range.) -/
def MovedDraws (env : Env n XR R) (α τ lo hi : ℝ) : Prop :=
  ∀ r, env.restartRng.uniform (.fin (α * lo + τ)) (.fin (α * hi + τ)) r =
    (.fin α * (env.restartRng.uniform (.fin lo) (.fin hi) r).1 + .fin τ,
      (env.restartRng.uniform (.fin lo) (.fin hi) r).2)

/-- An objective function that has at the moved point the value that another has at the point. -/
def Obj.MovedBy (A : Vec n XR → Vec n XR) (obj obj' : Obj n XR) : Prop :=
  Moved A obj.f obj'.f ∧ obj'.log = moveCalls A obj.log

/-- Sources of objective functions of which the second gives, in the situation in which the first
gives `f`, the moved function. -/
inductive ObjSource.MovedBy (A : Vec n XR → Vec n XR) : ObjSource n XR → ObjSource n XR → Prop
  | factory {get get' : List (List (Vec n XR × XR)) → Obj n XR}
    (h : ∀ logs, (get logs).MovedBy A (get' (logs.map (moveCalls A)))) :
    ObjSource.MovedBy A (.factory get) (.factory get')
  | once {f f' : Obj n XR} (h : f.MovedBy A f') :
    ObjSource.MovedBy A (.once (some f)) (.once (some f'))

/-- Restart results with a moved best point. -/
def RestartResults.moved (A : Vec n XR → Vec n XR) (r : RestartResults n XR) :
    RestartResults n XR :=
  { r with best := r.best.map (Individual.moved A) }

/-- Two runs of a restarter of which the second is the first moved by `α * x + τ`. -/
structure RunRecord.MovedBy (α : ℝ) (τ : Fin n → ℝ) (a b : RunRecord n XR R) : Prop where
  options : MovedOptions α τ a.options b.options
  data : b.data = a.data.moved (affine α τ)
  mean : b.final.mean = affine α τ a.final.mean
  sigma : b.final.sigma = .fin α * a.final.sigma
  covarianceMatrix : b.final.covarianceMatrix = a.final.covarianceMatrix
  generation : b.final.generation = a.final.generation
  functionEvals : b.final.functionEvals = a.final.functionEvals
  overallBest : b.final.overallBestIndividual =
    a.final.overallBestIndividual.map (Individual.moved (affine α τ))
  calls : b.final.intoObjectiveFunction.log =
    moveCalls (affine α τ) a.final.intoObjectiveFunction.log

end Cmaes
