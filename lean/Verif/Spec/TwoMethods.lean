import Verif.Model.TwoMethods
import Verif.Spec.Trace

/-!
# Specification vocabulary: executions with an objective that has two methods
-/

namespace Cmaes
variable {n : Nat} {F R : Type} [Flt F]

/-- `Exec2 env g s t s'`: from `s` the user can reach `s'`, and `t` lists the `next` calls made on
the way, oldest first (as `Exec`). -/
inductive Exec2 (env : Env n F R) (g : Methods n F) :
    Search2 n F R → List (NextCall n F) → Search2 n F R → Prop
  | refl (s : Search2 n F R) : Exec2 env g s [] s
  | next {s s' s'' : Search2 n F R} {t : List (NextCall n F)} {kind : EvalKind}
      {calls : List (Vec n F × F)} {r : Option (TerminationData n F)} :
      Exec2 env g s t s' → s'.next env g kind = .ok (s'', r) →
      s''.search.sampler.obj.log = s'.search.sampler.obj.log ++ calls →
      Exec2 env g s (t ++ [{ kind, calls, result := r }]) s''
  | quiet {s s' s'' : Search2 n F R} {t : List (NextCall n F)} {op : Op}
      {r : Option (TerminationData n F)} :
      Exec2 env g s t s' → op.Quiet → s'.apply env g op = .ok (s'', r) → Exec2 env g s t s''

/-- `s` is reached from a `CMAES` freshly built with options `o` for an objective with the methods
`g`, through the `next` calls `t`. -/
def History2.Of (env : Env n F R) (g : Methods n F) (o : Options n F) (t : List (NextCall n F))
    (s : Search2 n F R) : Prop :=
  ∃ w s0, Search2.new env w g o = .ok s0 ∧ Exec2 env g s0 t s

/-- The method of each objective call: `evaluate` (`seq`) for the calls made by `next`,
`evaluate_parallel` (`par`) for those made by `next_parallel`. -/
def methodsUsed (t : List (NextCall n F)) : List EvalKind :=
  t.flatMap fun s => List.replicate s.calls.length s.kind

/-- All objective calls, in order, each with the method that was called. -/
def callsWithMethods (t : List (NextCall n F)) : List (EvalKind × (Vec n F × F)) :=
  t.flatMap fun s => s.calls.map fun e => (s.kind, e)

/-- The values in `calls` are what the methods `g` return when they are called on the points of
`calls`, one after the other. -/
def Faithful2 (g : Methods n F) (calls : List (EvalKind × (Vec n F × F))) : Prop :=
  ∀ i (h : i < calls.length), calls[i].2.2 = g calls[i].1 (calls.take i) calls[i].2.1

end Cmaes
