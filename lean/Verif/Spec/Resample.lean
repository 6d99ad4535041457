import Verif.Spec.Draws

/-!
# Specification of resampling

What the sampling of a generation is meant to do, without limits on the number of rounds, without
panics and without fuel.
-/

namespace Cmaes
variable {n : Nat} {F R : Type} [Flt F]

/-- The steps made of the next `m` random vectors of the generator `r`. -/
def nextSteps (rng : RngOps R F) (T : Mat n F) (m : Nat) (r : R) : List (Vec n F) :=
  (List.range m).map fun j => stepOf T (rng.vector r j)

/-- The acceptable steps found in the first `i` rounds and the generator's state after them. Every
round draws as many standard normal vectors as are still missing, transforms them, and keeps those
whose point `mean + sigma * step` satisfies the constraint `k`. -/
def acceptedRounds (rng : RngOps R F) (T : Mat n F) (mean : Vec n F) (sigma : F)
    (k : Constraint F) (lambda : Nat) : Nat → R → List (Vec n F) × R
  | 0, r => ([], r)
  | i + 1, r =>
    let (found, r) := acceptedRounds rng T mean sigma k lambda i r
    let missing := lambda - found.length
    (found ++ (nextSteps rng T missing r).filter
      fun y => decide (k (List.ofFn (pointAt mean sigma y)) = .ok true), rng.after r (missing * n))

/-- The steps of a generation with at most `m` constrained rounds: the accepted ones, and as many
unconstrained ones as are then missing. -/
def limitedSteps (rng : RngOps R F) (T : Mat n F) (mean : Vec n F) (sigma : F)
    (k : Constraint F) (lambda m : Nat) (r : R) : List (Vec n F) × R :=
  let (found, r) := acceptedRounds rng T mean sigma k lambda m r
  let missing := lambda - found.length
  (found ++ nextSteps rng T missing r, rng.after r (missing * n))

end Cmaes
