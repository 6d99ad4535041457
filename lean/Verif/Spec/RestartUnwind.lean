import Verif.Model.RestartUnwind
import Verif.Spec.Unwind

/-!
# Specification for C108: panics of user code inside a restarter
-/

namespace Cmaes
variable {n : Nat} {F R : Type} [Flt F]

/-- The calls of the objective functions, run by run. -/
def RestartState.calls (s : RestartState n F R) : List (List (Vec n F × F)) :=
  s.records.map fun r => r.final.intoObjectiveFunction.log

/-- How a restarter whose objective functions may panic (`u`) compares to one whose objective
functions return NaN instead (`v`): it returns the same after the same calls and output; or it
panics where the other one ends with `InvalidFunctionValue`, after the same calls and the beginning
of the same output (or the other one overflows the population size of the run after that). -/
def PanicLooksLikeNaN
    (u : Outcome (Ended (RestartLeft n F) (RestartResults n F × RestartState n F R)))
    (v : Outcome (RestartResults n F × RestartState n F R)) : Prop :=
  match u with
  | .panic p => v = .panic p
  | .diverge => v = .diverge
  | .ok (.returned (res, s)) =>
    ∃ s', v = .ok (res, s') ∧ s'.calls = s.calls ∧ s'.world.out = s.world.out
  | .ok (.unwound left) => v = .panic .overflow ∨
    ∃ res s', v = .ok (res, s') ∧ res.reason = .invalidFunctionValue ∧ s'.calls = left.calls ∧
      left.output <+: s'.world.out

/-- None of the calls panicked. -/
def NoCallPanicked (pan : RestartPanics n F) (calls : List (List (Vec n F × F))) : Prop :=
  ∀ pre l post, calls = pre ++ l :: post → ¬ PanickedIn (pan pre) [] l

/-- In the last run a call panicked, and none in the runs before. -/
def LastRunPanicked (pan : RestartPanics n F) (calls : List (List (Vec n F × F))) : Prop :=
  ∃ pre l, calls = pre ++ [l] ∧ NoCallPanicked pan pre ∧ PanickedIn (pan pre) [] l

end Cmaes
