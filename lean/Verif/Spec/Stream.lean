import Verif.Spec.Trace
import Verif.Spec.Draws

/-!
# Specification vocabulary: the stream of random numbers
-/

namespace Cmaes
variable {n : Nat} {F R : Type}

variable [Flt F]

/-- The points on which the call `s` made from the state `c1` calls the objective function are made
of the random vectors with the numbers `ks`, in this order, of the generator seeded with `seed`:
they are `mean + sigma * (transform * vector)`. A parallel call evaluates them in any order, and a
call that meets a NaN need not evaluate all of them. -/
structure PointsFrom (env : Env n F R) (seed : Nat) (c1 : CMAES n F R) (s : NextCall n F)
    (ks : List Nat) : Prop where
  points : (s.calls.map Prod.fst).Subperm (ks.map fun k => pointAt c1.mean c1.sigma
    (stepOf c1.state.cov.transform (env.rng.vector (env.rng.seed seed) k)))
  order : s.kind = .seq → s.calls.map Prod.fst <+: ks.map fun k => pointAt c1.mean c1.sigma
    (stepOf c1.state.cov.transform (env.rng.vector (env.rng.seed seed) k))
  complete : ¬ s.Failed → s.calls.length = ks.length

/-- The objective was called on the points `xs`, one after the other in a sequential call and in
any order in a parallel call; on all of them unless the call met a NaN. -/
structure NextCall.On (s : NextCall n F) (xs : List (Vec n F)) : Prop where
  points : (s.calls.map Prod.fst).Subperm xs
  order : s.kind = .seq → s.calls.map Prod.fst <+: xs
  complete : ¬ s.Failed → (s.calls.map Prod.fst).Perm xs

end Cmaes
