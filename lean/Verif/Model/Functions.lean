import Verif.Model.Cmaes

/-!
# `functions.rs` and `Scale` of `objective_function.rs`
-/

namespace Cmaes
variable {n : Nat} {F R : Type} [Flt F]

/-- `PRINT_GAP_EVALS`, `/repo/src/functions.rs:7`. -/
def printGapEvalsConst : Nat := 200

/-- Shared body of the convenience functions: build, run, return the overall best individual. The
final `CMAES` is returned too. The common part of /repo/src/functions.rs:31-38,58-65,88-96,116-124.
-/
def optimize (env : Env n F R) (kind : EvalKind) (obj : Obj n F) (o : Options n F) :
    Outcome (Individual n F × CMAES n F R) :=
  match CMAES.new env World.init obj o with
  | .error _ => .panic .invalidOptions
  | .ok c => do
    let (c, d) ← c.run env kind
    let best ← Outcome.unwrap .invalidValue d.overallBest
    .ok (best, c)

/-- `fmin` (`kind = seq`), `/repo/src/functions.rs:26-38`, and `fmin_parallel` (`kind = par`),
53-65. -/
def fmin (env : Env n F R) (kind : EvalKind) (obj : Obj n F) (initialMean : Vec n F)
    (initialStepSize : F) : Outcome (Individual n F × CMAES n F R) :=
  optimize env kind obj
    ((Options.new initialMean initialStepSize).set (.enablePrinting printGapEvalsConst))

/-- `fmax` (`kind = seq`), `/repo/src/functions.rs:83-96`, and `fmax_parallel` (`kind = par`),
111-124. -/
def fmax (env : Env n F R) (kind : EvalKind) (obj : Obj n F) (initialMean : Vec n F)
    (initialStepSize : F) : Outcome (Individual n F × CMAES n F R) :=
  optimize env kind obj
    (((Options.new initialMean initialStepSize).set (.mode .maximize)).set
      (.enablePrinting printGapEvalsConst))

/-- `Scale`, `/repo/src/objective_function.rs:193-196`, with its wrapped function. The scales may
have a length `m` different from the length of the points. -/
structure Scale (n m : Nat) (F : Type) where
  function : Obj n F
  scales : Vec m F

/-- `Scale::scale`, `/repo/src/objective_function.rs:209-211`: nalgebra's `component_mul` panics if
the dimensions differ. -/
def Scale.scale {m : Nat} (s : Scale n m F) (x : Vec n F) : Outcome (Vec n F) :=
  if h : n = m then .ok (fun i => x i * s.scales (i.cast h)) else .panic .dims

/-- `evaluate` and `evaluate_parallel` of `Scale`, `/repo/src/objective_function.rs:225-228,
238-241`. -/
def Scale.evaluate {m : Nat} (s : Scale n m F) (x : Vec n F) : Outcome (F × Scale n m F) := do
  let scaled ← s.scale x
  let (v, f) := s.function.call scaled
  .ok (v, { s with function := f })

/-- `Scale::into_wrapped_function`, `/repo/src/objective_function.rs:219-221`. -/
def Scale.intoWrappedFunction {m : Nat} (s : Scale n m F) : Obj n F := s.function

/-- A `Scale` with scales of the right length, used as an objective function: the value at `x` is
the wrapped function's value at the scaled point, given the scaled points of the earlier calls. As
in /repo/src/objective_function.rs:224-248. -/
def Scale.toObj (f : Obj n F) (scales : Vec n F) : Obj n F :=
  { f := fun log x => f.f (f.log ++ log.map fun e => (e.1.cmul scales, e.2)) (x.cmul scales)
    log := [] }

end Cmaes
