import Verif.Model.RestartMaker
import Verif.Spec.RestartUnwind

/-!
# Specification for C110: panics of the closure that makes the objective functions
-/

namespace Cmaes
variable {n : Nat} {F R : Type} [Flt F]

/-- What the objective functions have seen when the restarter has ended, run by run. -/
def seenCalls : Ended (RestartLeft n F) (RestartResults n F × RestartState n F R) →
    List (List (Vec n F × F))
  | .returned (_, s) => s.calls
  | .unwound left => left.calls

/-- What was printed when the restarter has ended. -/
def seenOutput : Ended (RestartLeft n F) (RestartResults n F × RestartState n F R) →
    List (PrintEvent n F)
  | .returned (_, s) => s.world.out
  | .unwound left => left.output

/-- The closure would panic first when it is asked for the objective function of run `k + 1` of the
runs in which the objective functions see `calls`. -/
def FirstMakerPanic (mk : MakerPanics n F) (calls : List (List (Vec n F × F))) (k : Nat) : Prop :=
  k < calls.length ∧ mk (calls.take k) = true ∧ ∀ j < k, mk (calls.take j) = false

/-- The output of a restarter that prints ends with its heading, if no run is complete, or else with
the results of run `k`. -/
def EndsAfterRun (k : Nat) (out : List (PrintEvent n F)) : Prop :=
  match k with
  | 0 => ∃ name dim start stop ps seed, out = [.restartInitial name dim start stop ps seed]
  | k + 1 => ∃ before best reasons evals, out = before ++ [.runResults (k + 1) best reasons evals]

end Cmaes
