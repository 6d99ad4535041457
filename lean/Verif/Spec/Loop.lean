import Verif.Spec.Trace

/-!
# Specification vocabulary: calling `next` by hand
-/

namespace Cmaes
variable {n : Nat} {F R : Type} [Flt F]

/-- `Continues env kind c k c'`: `k` calls of `next` (or `next_parallel`), all of which returned
`None`, lead from `c` to `c'`. -/
inductive Continues (env : Env n F R) (kind : EvalKind) : CMAES n F R → Nat → CMAES n F R → Prop
  | refl (c : CMAES n F R) : Continues env kind c 0 c
  | step {c c1 d : CMAES n F R} {k : Nat} : c.next env kind = .ok (c1, none) →
      Continues env kind c1 k d → Continues env kind c (k + 1) d

/-- What `run` does after the loop: one plot point (if a plot is kept) and the final lines (if
printing is enabled). -/
def afterLoop (c : CMAES n F R) (d : TerminationData n F) : CMAES n F R :=
  match c.printGapEvals with
  | some _ => c.addPlotPoint.printFinalInfo d.reasons
  | none => c.addPlotPoint

end Cmaes
