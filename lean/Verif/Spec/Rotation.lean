import Verif.Spec.Move
import Verif.Spec.Generation
import Verif.Spec.Stream

/-!
# Specification vocabulary: rotating the search space
-/

namespace Cmaes
variable {n : Nat} {R R' : Type}
open Matrix

/-- The real value of a number (zero for infinities and NaN). -/
def realValue : XR → ℝ
  | .fin x => x
  | _ => 0

/-- The point `Q x`, for a real point `x`. -/
noncomputable def turn (Q : Matrix (Fin n) (Fin n) ℝ) (x : Vec n XR) : Vec n XR :=
  Vec.fin (Q *ᵥ fun i => realValue (x i))

/-- All coordinates are real numbers. -/
def RealPoint (x : Vec n XR) : Prop := ∃ u, x = Vec.fin u

/-- `f'` has at the point `Q x` the value that `f` has at the real point `x`. (An objective is a
function of all its earlier calls and of the point; `f'` has seen the turned points.) -/
def TurnedObjective (Q : Matrix (Fin n) (Fin n) ℝ)
    (f f' : List (Vec n XR × XR) → Vec n XR → XR) : Prop :=
  ∀ log x, (∀ e ∈ log, RealPoint e.1) → RealPoint x →
    f' (moveCalls (turn Q) log) (turn Q x) = f log x

/-- `k'` accepts the point `Q x` whenever `k` accepts the real point `x`. -/
def TurnedConstraint (Q : Matrix (Fin n) (Fin n) ℝ) (k k' : Constraint XR) : Prop :=
  ∀ x : Vec n XR, RealPoint x → k' (List.ofFn (turn Q x)) = k (List.ofFn x)

/-- The options for the turned problem: initial mean and constraints are turned, the rest is equal.
Nothing is plotted or printed automatically. -/
structure TurnedOptions (Q : Matrix (Fin n) (Fin n) ℝ) (o o' : Options n XR) : Prop where
  rest : o' = { o with
    initialMean := turn Q o.initialMean
    constraints := o'.constraints
    plotOptions := none
    printGapEvals := none }
  constraints : Option.Rel (TurnedConstraint Q) o.constraints o'.constraints

/-- Environments that may differ in the random numbers and in the eigensolver (which, in exact
arithmetic, may return any orthonormal basis of eigenvectors), and in the order in which rayon adds
up matrices. -/
structure SameSurroundings (env : Env n XR R) (env' : Env n XR R') : Prop where
  sched : env'.sched = env.sched
  clock : env'.clock = env.clock
  randomSeed : env'.randomSeed = env.randomSeed
  medianNaN : env'.medianNaN = env.medianNaN
  resampleFuel : env'.resampleFuel = env.resampleFuel

/-- An eigensolver that is exact on real symmetric matrices. -/
def ExactSolver (eigen : Mat n XR → Option (Mat n XR × Vec n XR)) : Prop :=
  ∀ C : Matrix (Fin n) (Fin n) ℝ, Cᵀ = C →
    ∃ B d, eigen (Mat.fin C) = some (Mat.fin B, Vec.fin d) ∧ Decomposes C B d

/-- The reasons for termination that do not depend on the choice of coordinates. -/
def coordinateFree (l : List TerminationReason) : List TerminationReason :=
  l.filter fun r => decide (r ≠ .tolX) && decide (r ≠ .noEffectCoord)

/-- The call `s'` made on the turned problem corresponds to `s`: same kind, objective called on the
turned points in the same order with the same values, and the returned reasons are the same up to
the two criteria that look at single coordinates. (`next` returns `Some` iff there is a reason.) -/
structure TurnedCall (Q : Matrix (Fin n) (Fin n) ℝ) (s s' : NextCall n XR) : Prop where
  kind : s'.kind = s.kind
  calls : s'.calls = moveCalls (turn Q) s.calls
  reasons : coordinateFree ((s'.result.map fun d => d.reasons).getD []) =
    coordinateFree ((s.result.map fun d => d.reasons).getD [])

/-- The optimizer `c'` of the turned problem is where `c` is, turned by `Q`. -/
structure TurnedRun (Q : Matrix (Fin n) (Fin n) ℝ) (c : CMAES n XR R) (c' : CMAES n XR R') :
    Prop where
  mean : c'.mean = turn Q c.mean
  sigma : c'.sigma = c.sigma
  cov : ∃ C : Matrix (Fin n) (Fin n) ℝ, c.covarianceMatrix = Mat.fin C ∧
    c'.covarianceMatrix = Mat.fin (Q * C * Qᵀ)
  axisRatio : c'.axisRatio = c.axisRatio
  generation : c'.generation = c.generation
  functionEvals : c'.functionEvals = c.functionEvals
  currentBest : c'.currentBestIndividual = c.currentBestIndividual.map (Individual.moved (turn Q))
  overallBest : c'.overallBestIndividual = c.overallBestIndividual.map (Individual.moved (turn Q))

/-- What a `next` call leaves to be seen: all calls to the objective so far, the mean, the step size,
the covariance matrix and the reasons for termination, apart from those that look at single
coordinates. -/
structure Seen (n : Nat) where
  calls : List (Vec n XR × XR)
  mean : Vec n XR
  sigma : XR
  cov : Mat n XR
  reasons : List TerminationReason

/-- What is seen after a call that ended in `d` and returned `res`. -/
def seen (d : CMAES n XR R) (res : Option (TerminationData n XR)) : Seen n where
  calls := d.sampler.obj.log
  mean := d.mean
  sigma := d.sigma
  cov := d.covarianceMatrix
  reasons := coordinateFree ((res.map fun x => x.reasons).getD [])

/-- The same in coordinates turned by `Q`. -/
noncomputable def Seen.turned (Q : Matrix (Fin n) (Fin n) ℝ) (s : Seen n) : Seen n where
  calls := moveCalls (turn Q) s.calls
  mean := turn Q s.mean
  sigma := s.sigma
  cov := Mat.fin (Q * Matrix.of (fun i j => realValue (s.cov i j)) * Qᵀ)
  reasons := s.reasons

/-- During the `j`-th of `m` calls, which is made in the state `s j` and uses the random vectors
`N j` to `N (j + 1) - 1`, the generator of `env'` returns the vectors that the one of `env` returns,
turned by the matrix `O (s j)`. -/
def TurnsDraws (O : State n XR → Matrix (Fin n) (Fin n) ℝ) (env : Env n XR R) (env' : Env n XR R')
    (seed : Nat) (s : Nat → State n XR) (N : Nat → Nat) (m : Nat) : Prop :=
  ∀ j < m, ∀ k, N j ≤ k → k < N (j + 1) → ∀ z : Fin n → ℝ,
    env.rng.vector (env.rng.seed seed) k = Vec.fin z →
    env'.rng.vector (env'.rng.seed seed) k = Vec.fin (O (s j) *ᵥ z)

end Cmaes
