import Verif.Model.Unwind
import Verif.Spec.Trace
import Verif.Spec.Draws

/-!
# Specification for C85: panics of user code that the caller catches
-/

namespace Cmaes
variable {n : Nat} {F R : Type} [Flt F]

/-- Nothing a user can see of `c` differs in `c'`; only the generator, the objective function and
the count of `next` calls may differ. -/
structure Intact (c c' : CMAES n F R) : Prop where
  mean : c'.mean = c.mean
  sigma : c'.sigma = c.sigma
  covariance : c'.covarianceMatrix = c.covarianceMatrix
  eigenvalues : c'.eigenvalues = c.eigenvalues
  axisRatio : c'.axisRatio = c.axisRatio
  generation : c'.generation = c.generation
  functionEvals : c'.functionEvals = c.functionEvals
  currentBest : c'.currentBestIndividual = c.currentBestIndividual
  overallBest : c'.overallBestIndividual = c.overallBestIndividual
  parameters : c'.parameters = c.parameters
  plot : c'.plot = c.plot
  output : c'.world.out = c.world.out
  rest : c' = { c with
    sampler := { c.sampler with rng := c'.sampler.rng, obj := c'.sampler.obj }
    world := { c.world with steps := c'.world.steps } }

/-- The objective function that returns NaN where `obj` panics. -/
def Obj.silenced (pan : Panics n F) (obj : Obj n F) : Obj n F :=
  { obj with f := fun log x => if pan log x then Flt.nan else obj.f log x }

/-- The `CMAES` with that objective function. -/
def CMAES.silenced (pan : Panics n F) (c : CMAES n F R) : CMAES n F R :=
  { c with sampler := { c.sampler with obj := c.sampler.obj.silenced pan } }

/-- What the caller of `next` sees if the objective returns NaN instead of panicking. -/
def asFailure (pan : Panics n F) :
    Ended (CMAES n F R) (CMAES n F R × Option (TerminationData n F)) →
      CMAES n F R × Option (TerminationData n F)
  | .returned (c, r) => (c.silenced pan, r)
  | .unwound c => (c.silenced pan,
      some ((c.silenced pan).terminationData [.invalidFunctionValue]))

/-- One of the calls `calls`, made after the calls `log`, panicked. -/
def PanickedIn (pan : Panics n F) (log calls : List (Vec n F × F)) : Prop :=
  ∃ pre x v post, calls = pre ++ (x, v) :: post ∧ pan (log ++ pre) x = true

/-- The constraints panic for some point. -/
def PanickingConstraint (n : Nat) (constraints : Option (Constraint F)) : Prop :=
  ∃ k, constraints = some k ∧ ∃ (x : Vec n F) (p : Panic), k (List.ofFn x) = .panic p

/-- A `next` call that may have been ended by a panic. -/
inductive Attempt (n : Nat) (F : Type) where
  | returned (s : NextCall n F)
  | caught (kind : EvalKind) (calls : List (Vec n F × F))

/-- Executions in which the caller catches panics of the objective function and goes on:
`ExecU env pan c t c'` says that `c'` can be reached from `c` with the `next` calls `t`. -/
inductive ExecU (env : Env n F R) (pan : Panics n F) :
    CMAES n F R → List (Attempt n F) → CMAES n F R → Prop
  | refl (c : CMAES n F R) : ExecU env pan c [] c
  | next {c c' c'' : CMAES n F R} {t : List (Attempt n F)} {kind : EvalKind}
      {calls : List (Vec n F × F)} {r : Option (TerminationData n F)} :
      ExecU env pan c t c' → c'.nextU env pan kind = .ok (.returned (c'', r)) →
      c''.sampler.obj.log = c'.sampler.obj.log ++ calls →
      ExecU env pan c (t ++ [.returned { kind, calls, result := r }]) c''
  | caught {c c' c'' : CMAES n F R} {t : List (Attempt n F)} {kind : EvalKind}
      {calls : List (Vec n F × F)} :
      ExecU env pan c t c' → c'.nextU env pan kind = .ok (.unwound c'') →
      c''.sampler.obj.log = c'.sampler.obj.log ++ calls →
      ExecU env pan c (t ++ [.caught kind calls]) c''
  | quiet {c c' c'' : CMAES n F R} {t : List (Attempt n F)} {op : Op}
      {r : Option (TerminationData n F)} :
      ExecU env pan c t c' → op.Quiet → c'.apply env op = .ok (c'', r) → ExecU env pan c t c''

/-- How a call looks if the objective function returns NaN instead of panicking: a call that
returned is the same, a call that panicked has made the same calls of the objective and reports
`InvalidFunctionValue`. -/
inductive Attempt.LooksLike : Attempt n F → NextCall n F → Prop
  | returned (s : NextCall n F) : LooksLike (.returned s) s
  | caught {kind : EvalKind} {calls : List (Vec n F × F)} {d : TerminationData n F} :
      d.reasons = [.invalidFunctionValue] →
      LooksLike (.caught kind calls) { kind, calls, result := some d }

end Cmaes
