/-!
# Specification for C93: how many candidates are shown to the constraints
-/

namespace Cmaes

/-- How many candidates are shown to the constraints in `m` rounds, if each round has as many
candidates as points are missing; `ok j` says whether candidate `j` is acceptable. -/
def questions (ok : Nat → Bool) (pop : Nat) : Nat → Nat
  | 0 => 0
  | m + 1 => questions ok pop m + (pop - ((List.range (questions ok pop m)).filter ok).length)

end Cmaes
