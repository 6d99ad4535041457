import Verif.Model.Sampling

/-!
# Specification vocabulary: random vectors, steps and points
-/

namespace Cmaes
variable {n : Nat} {F R : Type}

/-- The generator `r` after `k` draws from the normal distribution. -/
def RngOps.after (rng : RngOps R F) (r : R) : Nat → R
  | 0 => r
  | k + 1 => (rng.normal (rng.after r k)).2

/-- The `k`-th draw (counted from 0) of the generator `r` from the normal distribution. -/
def RngOps.draw (rng : RngOps R F) (r : R) (k : Nat) : F := (rng.normal (rng.after r k)).1

/-- The draws number `k n` to `k n + n - 1` of the generator `r`, as a vector. -/
def RngOps.vector (rng : RngOps R F) (r : R) (k : Nat) : Vec n F :=
  fun i => rng.draw r (k * n + i)

variable [Flt F]

/-- The step that the matrix `T` makes of the random vector `z`: its component `i` is the sum of
all `T i j * z j`, added one after the other. -/
def stepOf (T : Mat n F) (z : Vec n F) : Vec n F :=
  fun i => (List.ofFn fun j => T i j * z j).foldl (fun s x => s + x) 0

/-- The point reached from `mean` by `sigma` times the step `y`. -/
def pointAt (mean : Vec n F) (sigma : F) (y : Vec n F) : Vec n F := fun i => mean i + sigma * y i

end Cmaes
