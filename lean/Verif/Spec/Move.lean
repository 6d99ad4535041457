import Verif.Spec.Trace
import Verif.Float.XR

/-!
# Specification vocabulary: moving and scaling the search space
-/

namespace Cmaes
variable {n : Nat} {F R : Type}

/-- The point `α * x + τ`, in exact arithmetic. -/
noncomputable def affine (α : ℝ) (τ : Fin n → ℝ) (x : Vec n XR) : Vec n XR :=
  fun i => .fin α * x i + .fin (τ i)

/-- The calls of a run with all points moved by `A`. -/
def moveCalls (A : Vec n F → Vec n F) (l : List (Vec n F × F)) : List (Vec n F × F) :=
  l.map fun e => (A e.1, e.2)

/-- `f'` has at the moved point the value that `f` has at the point. (An objective is a function of
all its earlier calls and of the point; `f'` has seen the moved points.) -/
def Moved (A : Vec n F → Vec n F) (f f' : List (Vec n F × F) → Vec n F → F) : Prop :=
  ∀ log x, f' (moveCalls A log) (A x) = f log x

/-- `c'` accepts the moved point whenever `c` accepts the point (and panics when `c` does). -/
def MovedConstraint (A : Vec n F → Vec n F) (c c' : Constraint F) : Prop :=
  ∀ x : Vec n F, c' (List.ofFn (A x)) = c (List.ofFn x)

/-- An individual at the moved point. -/
def Individual.moved (A : Vec n F → Vec n F) (x : Individual n F) : Individual n F :=
  { x with point := A x.point }

/-- Termination data with moved points. -/
def TerminationData.moved (A : Vec n F → Vec n F) (d : TerminationData n F) :
    TerminationData n F :=
  { currentBest := d.currentBest.map (Individual.moved A)
    overallBest := d.overallBest.map (Individual.moved A)
    finalMean := A d.finalMean
    reasons := d.reasons }

/-- A `next` call with moved points. -/
def NextCall.moved (A : Vec n F → Vec n F) (s : NextCall n F) : NextCall n F :=
  { kind := s.kind, calls := moveCalls A s.calls, result := s.result.map (TerminationData.moved A) }

/-- `o'` are the options for the problem whose points are `α * x + τ`: initial mean and constraints
are moved, the initial step size and `tol_x` (if given) are scaled, everything else is equal. -/
structure MovedOptions (α : ℝ) (τ : Fin n → ℝ) (o o' : Options n XR) : Prop where
  rest : o' = { o with
    initialMean := affine α τ o.initialMean
    initialStepSize := .fin α * o.initialStepSize
    tolX := o.tolX.map fun x => .fin α * x
    constraints := o'.constraints }
  constraints : Option.Rel (MovedConstraint (affine α τ)) o.constraints o'.constraints

end Cmaes
