import Verif.Model.Mode

/-!
# `sampling.rs`, and the objective function
-/

namespace Cmaes
variable {n : Nat} {F R : Type} [Flt F]

/-- The objective function together with its state (`ObjectiveFunction`/
`ParallelObjectiveFunction`, `/repo/src/objective_function.rs:77-98, 150-164`). `f` gives the
value at a point as an arbitrary function of all earlier calls, `log` is the sequence of calls
made so far, oldest first. Simplifications: the function does not panic (panics are
in `Verif.Model.Unwind`); concurrent calls take
effect one after the other; a type implementing both traits computes the same in both (as for
closures; types for which they differ are in `Verif.Model.TwoMethods`). -/
structure Obj (n : Nat) (F : Type) where
  f : List (Vec n F × F) → Vec n F → F
  log : List (Vec n F × F)

/-- One call of the objective function. It is made at /repo/src/sampling.rs:179 or 199. -/
def Obj.call (o : Obj n F) (x : Vec n F) : F × Obj n F :=
  let v := o.f o.log x
  (v, { o with log := o.log ++ [(x, v)] })

/-- A constraint predicate (`Constraints::meets_constraints`, `/repo/src/sampling.rs:14-17`); it
may panic. Simplification: it has no interior mutable state (`Verif.Model.Memory` has constraints
with memory). -/
abbrev Constraint (F : Type) := List F → Outcome Bool

/-- `Bounds`, `/repo/src/sampling.rs:25-29`. -/
structure Bounds (F : Type) where
  lower : List F
  upper : List F

/-- The loop of `Bounds::meets_constraints`, `/repo/src/sampling.rs:33`: coordinate `i` onwards. -/
def Bounds.meetsFrom (b : Bounds F) (i : Nat) : List F → Outcome Bool
  | [] => .ok true
  | x :: xs =>
    match b.lower[i]? with
    | none => .panic .index
    | some lo =>
      if Flt.le lo x then
        match b.upper[i]? with
        | none => .panic .index
        | some hi => if Flt.le x hi then b.meetsFrom (i + 1) xs else .ok false
      else .ok false

/-- `Bounds::meets_constraints`, `/repo/src/sampling.rs:32-34`. -/
def Bounds.meets (b : Bounds F) : Constraint F := fun x => b.meetsFrom 0 x

/-- `EvaluatedPoint`, `/repo/src/sampling.rs:208-217`. -/
structure EvaluatedPoint (n : Nat) (F : Type) where
  point : Vec n F
  unscaledStep : Vec n F
  value : F

/-- `to_point`, `/repo/src/sampling.rs:219-221`. -/
def toPoint (y mean : Vec n F) (sigma : F) : Vec n F := mean.add (y.smul sigma)

/-- `EvaluatedPoint::new`, `/repo/src/sampling.rs:228-246`; `none` is
`InvalidFunctionValueError`. -/
def EvaluatedPoint.new (y mean : Vec n F) (sigma : F) (o : Obj n F) :
    Option (EvaluatedPoint n F) × Obj n F :=
  let point := toPoint y mean sigma
  let (value, o) := o.call point
  if Flt.isNaN value then (none, o)
  else (some { point, unscaledStep := y, value }, o)

/-- `Sampler`, `/repo/src/sampling.rs:41-58` (`dim` is the index `n`). -/
structure Sampler (n : Nat) (F R : Type) where
  constraints : Option (Constraint F)
  maxResamples : Option Nat
  populationSize : Nat
  rng : R
  obj : Obj n F
  functionEvals : Nat

/-- `Sampler::new`, `/repo/src/sampling.rs:61-78`. -/
def Sampler.new (env : Env n F R) (constraints : Option (Constraint F))
    (maxResamples : Option Nat) (populationSize : Nat) (obj : Obj n F) (seed : Nat) :
    Sampler n F R :=
  { constraints, maxResamples, populationSize, rng := env.rng.seed seed, obj, functionEvals := 0 }

/-- `k` draws from the normal distribution, in order. They are made at /repo/src/sampling.rs:96-99.
-/
def drawNormals (rng : RngOps R F) : Nat → R → List F × R
  | 0, r => ([], r)
  | k + 1, r =>
    let (x, r) := rng.normal r
    let (xs, r) := drawNormals rng k r
    (x :: xs, r)

/-- One random vector, `/repo/src/sampling.rs:97-100`. -/
def drawVec (rng : RngOps R F) (r : R) : Vec n F × R :=
  let (xs, r) := drawNormals rng n r
  (fun i => xs.getD i 0, r)

/-- `m` random vectors, `/repo/src/sampling.rs:95-102`. -/
def drawVecs (rng : RngOps R F) : Nat → R → List (Vec n F) × R
  | 0, r => ([], r)
  | m + 1, r =>
    let (z, r) := drawVec rng r
    let (zs, r) := drawVecs rng m r
    (z :: zs, r)

/-- The filter on the constraints, `/repo/src/sampling.rs:105-122`. The parallel and the sequential
variant give the same result in the same order (rayon's `filter`/`collect` keep the order). -/
def filterOk (ok : Vec n F → Outcome Bool) : List (Vec n F) → Outcome (List (Vec n F))
  | [] => .ok []
  | y :: ys => do
    let b ← ok y
    let rest ← filterOk ok ys
    .ok (if b then y :: rest else rest)

/-- The closure `sample`, `/repo/src/sampling.rs:94-123`: `m` transformed steps, filtered. -/
def sampleRound (rng : RngOps R F) (transform : Mat n F) (mean : Vec n F) (sigma : F)
    (constraints : Option (Constraint F)) (m : Nat) (r : R) : Outcome (List (Vec n F) × R) := do
  let (zs, r) := drawVecs rng m r
  let ys := zs.map transform.mulVec
  let ok : Vec n F → Outcome Bool := fun y =>
    match constraints with
    | some c => c (List.ofFn (toPoint y mean sigma))
    | none => .ok true
  let ys ← filterOk ok ys
  .ok (ys, r)

/-- The resampling loop, `/repo/src/sampling.rs:125-144`, with `i` rounds done and `y` collected.
`population_size - y.len()` panics on underflow. -/
def resample (rng : RngOps R F) (transform : Mat n F) (mean : Vec n F) (sigma : F)
    (constraints : Option (Constraint F)) (maxResamples : Option Nat) (populationSize : Nat) :
    Nat → Nat → List (Vec n F) → R → Outcome (List (Vec n F) × R)
  | 0, _, _, _ => .diverge
  | fuel + 1, i, y, r =>
    if populationSize < y.length then .panic .overflow
    else
      let remain := populationSize - y.length
      if remain = 0 then .ok (y, r)
      else do
        let cs :=
          match maxResamples with
          | some mx => if mx ≤ i then none else constraints
          | none => constraints
        let (new, r) ← sampleRound rng transform mean sigma cs remain r
        resample rng transform mean sigma constraints maxResamples populationSize
          fuel (i + 1) (y ++ new) r

/-- Sequential evaluation, `/repo/src/sampling.rs:175-183`: stops at the first NaN. -/
def evalSeq (mean : Vec n F) (sigma : F) :
    List (Vec n F) → Obj n F → Option (List (EvaluatedPoint n F)) × Obj n F
  | [], o => (some [], o)
  | y :: ys, o =>
    match EvaluatedPoint.new y mean sigma o with
    | (none, o) => (none, o)
    | (some p, o) =>
      match evalSeq mean sigma ys o with
      | (none, o) => (none, o)
      | (some ps, o) => (some (p :: ps), o)

/-- Parallel evaluation: items are evaluated in the order given by the schedule; `left` is the
number of items that may still be evaluated (`none` = no NaN found so far). Results are returned
with their index. As in /repo/src/sampling.rs:196-202. -/
def evalOrder (mean : Vec n F) (sigma : F) (ys : List (Vec n F)) (extra : Nat) :
    List Nat → Option Nat → Obj n F → List (Nat × Option (EvaluatedPoint n F)) × Obj n F
  | [], _, o => ([], o)
  | i :: is, left, o =>
    match left with
    | some 0 => ([], o)
    | _ =>
      match ys[i]? with
      | none => evalOrder mean sigma ys extra is left o
      | some y =>
        let (r, o) := EvaluatedPoint.new y mean sigma o
        let left' := match left with
          | some k => some (k - 1)
          | none => if r.isNone then some extra else none
        let (rs, o) := evalOrder mean sigma ys extra is left' o
        ((i, r) :: rs, o)

/-- Parallel evaluation, `/repo/src/sampling.rs:195-203`. rayon's `collect::<Result<Vec<_>, _>>`
returns the values in index order if there is no error; once an error is found the remaining items
may or may not be evaluated. -/
def evalPar (s : Sched) (mean : Vec n F) (sigma : F) (ys : List (Vec n F)) (o : Obj n F) :
    Option (List (EvaluatedPoint n F)) × Obj n F :=
  let (rs, o) := evalOrder mean sigma ys s.extra (s.order ys.length) none o
  if rs.any (fun r => r.2.isNone) then (none, o)
  else ((List.range ys.length).mapM (fun i => (rs.lookup i).join), o)

/-- `points.sort_by(...)`, `/repo/src/sampling.rs:150`: Rust's stable sort. -/
def sortPoints (mode : Mode) (ps : List (EvaluatedPoint n F)) : List (EvaluatedPoint n F) :=
  stableSort (fun a b => mode.sortCmp a.value b.value != .gt) ps

/-- How a generation is evaluated: `sample` or `sample_parallel`. They are
/repo/src/sampling.rs:169-184 and 189-205. -/
inductive EvalKind where
  | seq
  | par
deriving DecidableEq, Repr

/-- `Sampler::sample_internal`, `/repo/src/sampling.rs:81-152`, with `sample` (169-184) or
`sample_parallel` (189-204). The result `none` is `InvalidFunctionValueError`. -/
def Sampler.sample (env : Env n F R) (kind : EvalKind) (sched : Sched) (transform : Mat n F)
    (mean : Vec n F) (sigma : F) (mode : Mode) (s : Sampler n F R) :
    Outcome (Option (List (EvaluatedPoint n F)) × Sampler n F R) := do
  let (ys, rng) ← resample env.rng transform mean sigma s.constraints s.maxResamples
    s.populationSize env.resampleFuel 0 [] s.rng
  let (res, obj) := match kind with
    | .seq => evalSeq mean sigma ys s.obj
    | .par => evalPar sched mean sigma ys s.obj
  match res with
  | none => .ok (none, { s with rng, obj })
  | some ps =>
    .ok (some (sortPoints mode ps),
      { s with rng, obj, functionEvals := s.functionEvals + ps.length })

end Cmaes
