import Verif.Spec.Restart

/-!
# Specification vocabulary: the random decisions of a `Restarter`
-/

namespace Cmaes
variable {n : Nat} {F R : Type} [Flt F]

/-- From the state `g`, successive draws of the generator from `lo..=hi` give the list of numbers
and leave it in the state `g'`. -/
inductive Drawn (rng : RngOps R F) (lo hi : F) : R → List F → R → Prop
  | nil (g : R) : Drawn rng lo hi g [] g
  | cons {g g' : R} {xs : List F} : Drawn rng lo hi (rng.uniform lo hi g).2 xs g' →
      Drawn rng lo hi g ((rng.uniform lo hi g).1 :: xs) g'

/-- The random decisions of the run `x`, for which the generator goes from the state `g` to the
state `g'`. First every coordinate of the mean is drawn from the search range, then the seed of the
run. That is all, except for a local run of BIPOP, for which a number for the step size and a number
for the population size follow. -/
def RunDraws (env : Env n F R) (o : RestartOptions n F) (g : R) (x : RunRecord n F R) (g' : R) :
    Prop :=
  ∃ g1 seed g2, Drawn env.restartRng o.searchStart o.searchEnd g (List.ofFn x.options.initialMean) g1 ∧
    env.restartRng.u64 g1 = (seed, g2) ∧ x.options.seed = some seed ∧
    match o.strategy with
    | .local _ | .ipop _ => g' = g2
    | .bipop b => (g' = g2 ∧ x.options.initialStepSize = o.rangeSize / 5) ∨
      ∃ u1 g3 u2 multiplier, env.restartRng.unit g2 = (u1, g3) ∧ env.restartRng.unit g3 = (u2, g') ∧
        x.options.initialStepSize = o.rangeSize * b.lrInitialStepSizeFactor * Flt.powf 10 (-2 * u1) ∧
        x.options.populationSize = Flt.toUsize (Flt.floor
          (Flt.ofNat o.defaultOptions.populationSize * Flt.fmax
            (Flt.powf (Flt.ofNat multiplier / 2) (Flt.powi u2 2)) 1))

/-- The random decisions of the runs, each of which starts with the generator as the one before it
left it. -/
inductive RunsDraw (env : Env n F R) (o : RestartOptions n F) (g : R) : List (RunRecord n F R) → R → Prop
  | nil : RunsDraw env o g [] g
  | snoc {rs : List (RunRecord n F R)} {x : RunRecord n F R} {g1 g2 : R} :
      RunsDraw env o g rs g1 → RunDraws env o g1 x g2 → RunsDraw env o g (rs ++ [x]) g2

end Cmaes
