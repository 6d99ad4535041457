import Verif.Spec.Restart
import Verif.Spec.Plot

/-!
# Specification vocabulary: what a `Restarter` prints
-/

namespace Cmaes
variable {n : Nat} {F R : Type} [Flt F]

/-- A row of the table or the final information of a single run. -/
def PrintEvent.OfRun : PrintEvent n F → Prop
  | .info .. => True
  | .final .. => True
  | _ => False

/-- What a run that was built with `o` prints when it is built. -/
def Options.heading (o : Options n F) : List (PrintEvent n F) :=
  match o.printGapEvals with
  | none => []
  | some _ => [.initial o.weights n o.populationSize (o.seed.getD 0)]

/-- `block` is what is printed for the run number `i`, which is recorded as `x`: with `printing`, a line
with the settings of the run and afterwards its results. If the default options enable printing, then
also the heading of the run, its table and its final information. -/
def RunRecord.PrintedAs (printing : Bool) (i : Nat) (x : RunRecord n F R)
    (block : List (PrintEvent n F)) : Prop :=
  ∃ rows : List (PrintEvent n F),
    (∀ e ∈ rows, e.OfRun) ∧
    (if x.options.printGapEvals = none then rows = []
      else ∃ e, rows.getLast? = some e ∧ e.IsFinalOf x.data.reasons x.final) ∧
    block = x.options.heading ++
      (if printing then [.runInfo i x.options.populationSize x.options.initialStepSize
        (x.options.seed.getD 0)] else []) ++ rows ++
      (if printing then [.runResults i (x.final.overallBestIndividual.map fun b => b.value)
        x.data.reasons x.evals] else [])

/-- The name that is printed for a strategy. -/
def Strategy.printedName : Strategy F → String
  | .local _ => "LR-aCMA-ES"
  | .ipop _ => "IPOP-aCMA-ES"
  | .bipop _ => "BIPOP-aCMA-ES"

/-- The parameters that are printed for a strategy. -/
def Strategy.printedParameters : Strategy F → List (String × RestartParameter F)
  | .local s => [("sigma0_factor", .number s.initialStepSizeFactor)]
  | .ipop s => [("increase_factor", .count s.increaseFactor)]
  | .bipop s => [("lr_sigma0_factor", .number s.lrInitialStepSizeFactor),
      ("ipop_increase_factor", .count s.ipopIncreaseFactor)]

end Cmaes
