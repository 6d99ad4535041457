import Verif.Spec.Stream

/-!
# Specification vocabulary: the same search with other random numbers
-/

namespace Cmaes
variable {n : Nat} {F R : Type}

/-- The same machine with another generator for the points of a search. -/
def Env.withRng (env : Env n F R) (rng : RngOps R F) : Env n F R := { env with rng }

/-- The same `CMAES` with another state of its generator. Nothing in the API shows the state of the
generator: every method and every later step without a draw is the same. -/
def CMAES.withGenerator (c : CMAES n F R) (r : R) : CMAES n F R :=
  { c with sampler := { c.sampler with rng := r } }

/-- The generators `rng` and `rng'`, seeded with `seed`, give the same first `N` numbers. -/
def RngOps.AgreeUpTo (rng rng' : RngOps R F) (seed N : Nat) : Prop :=
  ∀ k < N, rng'.draw (rng'.seed seed) k = rng.draw (rng.seed seed) k

end Cmaes
