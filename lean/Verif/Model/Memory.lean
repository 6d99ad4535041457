import Verif.Model.Cmaes

/-!
# Constraints with memory

`Constraints::meets_constraints` (`/repo/src/sampling.rs:14-17`) takes `&self`, but an
implementation can count or remember what it was asked (atomics, locks) and answer accordingly.
`Verif.Model.Sampling` has constraints that always give the same answer. Here are the functions that
ask them, for constraints whose answers may depend on all earlier questions.
-/

namespace Cmaes
variable {n : Nat} {F R : Type} [Flt F]

/-- A constraint with memory: its answer about a point as an arbitrary function of the earlier
questions and answers, oldest first. It may panic. An implementation of the trait of
/repo/src/sampling.rs:14-17 that uses interior mutability. -/
abbrev MemConstraint (n : Nat) (F : Type) := List (Vec n F × Bool) → Vec n F → Outcome Bool

/-- The questions of one round about the points `xs`, asked in the given order
(`/repo/src/sampling.rs:112-122`: one question for each candidate); the answers come with the numbers
of the points. -/
def askAll (k : MemConstraint n F) (xs : List (Vec n F)) :
    List Nat → List (Vec n F × Bool) → Outcome (List (Nat × Bool) × List (Vec n F × Bool))
  | [], asked => .ok ([], asked)
  | i :: is, asked =>
    match xs[i]? with
    | none => askAll k xs is asked
    | some x => do
      let b ← k asked x
      let (bs, asked) ← askAll k xs is (asked ++ [(x, b)])
      .ok ((i, b) :: bs, asked)

/-- The candidates that were accepted, in their order (`filter` and `collect`,
`/repo/src/sampling.rs:112-122`). -/
def keepAccepted (ys : List (Vec n F)) (bs : List (Nat × Bool)) : List (Vec n F) :=
  (List.range ys.length).filterMap fun i => if bs.lookup i = some true then ys[i]? else none

/-- The closure `sample`, `/repo/src/sampling.rs:94-123`, with the constraint `k` or none (after
`max_resamples` rounds). `order` is the order in which the candidates are examined. -/
def sampleRoundM (rng : RngOps R F) (transform : Mat n F) (mean : Vec n F) (sigma : F)
    (k : Option (MemConstraint n F)) (order : List Nat) (m : Nat) (r : R)
    (asked : List (Vec n F × Bool)) : Outcome (List (Vec n F) × R × List (Vec n F × Bool)) :=
  let (zs, r) := drawVecs rng m r
  let ys := zs.map transform.mulVec
  match k with
  | none => .ok (ys, r, asked)
  | some k => do
    let (bs, asked) ← askAll k (ys.map (toPoint · mean sigma)) order asked
    .ok (keepAccepted ys bs, r, asked)

/-- The resampling loop, `/repo/src/sampling.rs:125-144`, as `resample`. `order i m` is the order of
the `m` questions of round `i`. -/
def resampleM (rng : RngOps R F) (transform : Mat n F) (mean : Vec n F) (sigma : F)
    (k : MemConstraint n F) (order : Nat → Nat → List Nat) (maxResamples : Option Nat)
    (populationSize : Nat) : Nat → Nat → List (Vec n F) → R → List (Vec n F × Bool) →
      Outcome (List (Vec n F) × R × List (Vec n F × Bool))
  | 0, _, _, _, _ => .diverge
  | fuel + 1, i, y, r, asked =>
    if populationSize < y.length then .panic .overflow
    else
      let remain := populationSize - y.length
      if remain = 0 then .ok (y, r, asked)
      else do
        let k' :=
          match maxResamples with
          | some mx => if mx ≤ i then none else some k
          | none => some k
        let (new, r, asked) ← sampleRoundM rng transform mean sigma k' (order i remain) remain r asked
        resampleM rng transform mean sigma k order maxResamples populationSize fuel (i + 1)
          (y ++ new) r asked

/-- What `next` and `next_parallel` do once the steps of the generation are drawn,
`/repo/src/sampling.rs:146-151`, `/repo/src/lib.rs:313-369`: the same as in `Sampler.sample` and
`CMAES.next`. -/
def CMAES.nextWith (env : Env n F R) (kind : EvalKind) (ys : List (Vec n F)) (rng : R)
    (c : CMAES n F R) : Outcome (CMAES n F R × Option (TerminationData n F)) := do
  let step := c.world.steps
  let (res, obj) := match kind with
    | .seq => evalSeq c.state.mean c.state.sigma ys c.sampler.obj
    | .par => evalPar (env.sched step) c.state.mean c.state.sigma ys c.sampler.obj
  match res with
  | none =>
    let c := { c with sampler := { c.sampler with rng, obj }
                      world := { c.world with steps := step + 1 } }
    .ok (c, some (c.terminationData [.invalidFunctionValue]))
  | some ps => do
    let inds := sortPoints c.parameters.mode ps
    let history ← c.history.update c.parameters.mode inds
    nextInternal env (env.redTree step) inds
      { c with sampler := { c.sampler with rng, obj
                                           functionEvals := c.sampler.functionEvals + ps.length }
               world := { c.world with steps := step + 1 }, history }

/-- A `CMAES` whose constraint has memory: `asked` are the questions and answers so far. The
constraint in `search` is not used. The constraint is the field of the sampler at
/repo/src/sampling.rs:42-58. -/
structure SearchM (n : Nat) (F R : Type) where
  search : CMAES n F R
  asked : List (Vec n F × Bool)

/-- A constraint with memory and the order in which it is asked: `order s i m` for the `m` questions
of round `i` of step `s`. With `parallel_update` rayon can examine the candidates of a round in any
order, without it they are examined one after the other (`/repo/src/sampling.rs:112-122`). -/
structure Asking (n : Nat) (F : Type) where
  k : MemConstraint n F
  order : Nat → Nat → Nat → List Nat
  perm : ∀ s i m, (order s i m).Perm (List.range m)

namespace SearchM

/-- `CMAESOptions::build`, `/repo/src/options.rs:339-341`. It asks nothing. -/
def new (env : Env n F R) (w : World n F) (obj : Obj n F) (o : Options n F) :
    Except InvalidOptionsError (SearchM n F R) :=
  match CMAES.new env w obj { o with constraints := none } with
  | .error e => .error e
  | .ok c => .ok { search := c, asked := [] }

/-- `next` and `next_parallel`, `/repo/src/lib.rs:313-316, 609-640, 662-691`. -/
def next (env : Env n F R) (a : Asking n F) (kind : EvalKind) (s : SearchM n F R) :
    Outcome (SearchM n F R × Option (TerminationData n F)) := do
  let c := s.search
  let (ys, rng, asked) ← resampleM env.rng c.state.cov.transform c.state.mean c.state.sigma a.k
    (a.order c.world.steps) c.sampler.maxResamples c.sampler.populationSize env.resampleFuel 0 []
    c.sampler.rng s.asked
  let (c, r) ← c.nextWith env kind ys rng
  .ok ({ search := c, asked }, r)

/-- The loop of `run` and `run_parallel`, `/repo/src/lib.rs:593-597, 650-654`. -/
def runLoop (env : Env n F R) (a : Asking n F) (kind : EvalKind) :
    Nat → SearchM n F R → Outcome (SearchM n F R × TerminationData n F)
  | 0, _ => .diverge
  | fuel + 1, s => do
    let (s, r) ← s.next env a kind
    match r with
    | some d => .ok (s, d)
    | none => runLoop env a kind fuel s

/-- `run` and `run_parallel`, `/repo/src/lib.rs:592-602, 649-659`. -/
def run (env : Env n F R) (a : Asking n F) (kind : EvalKind) (s : SearchM n F R) :
    Outcome (SearchM n F R × TerminationData n F) := do
  let (s, d) ← s.runLoop env a kind env.runFuel
  .ok ({ s with search := s.search.runInternal d }, d)

/-- One user call. Plotting and printing (`CMAES.apply`) do not involve the constraint. The calls
are /repo/src/lib.rs:592,628,649,679. -/
def apply (env : Env n F R) (a : Asking n F) (s : SearchM n F R) :
    Op → Outcome (SearchM n F R × Option (TerminationData n F))
  | .next kind => s.next env a kind
  | .run kind => do
    let (s, d) ← s.run env a kind
    .ok (s, some d)
  | op => do
    let (c, r) ← s.search.apply env op
    .ok ({ s with search := c }, r)

/-- A sequence of user calls, with the data returned by each. The calls are
/repo/src/lib.rs:592,628,649,679. -/
def applyAll (env : Env n F R) (a : Asking n F) :
    List Op → SearchM n F R → Outcome (SearchM n F R × List (Option (TerminationData n F)))
  | [], s => .ok (s, [])
  | op :: ops, s => do
    let (s, r) ← s.apply env a op
    let (s, rs) ← applyAll env a ops s
    .ok (s, r :: rs)

end SearchM
end Cmaes
