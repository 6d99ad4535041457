import Verif.Model.Cmaes

/-!
# Objective functions with two different methods

`ObjectiveFunction::evaluate` and `ParallelObjectiveFunction::evaluate_parallel`
(`/repo/src/objective_function.rs:77-98, 150-164`) are two methods of one value, and a user type can
implement them differently. Both may change the state of the value (`evaluate_parallel` through
interior mutability), so what either returns may depend on the earlier calls of both.
-/

namespace Cmaes
variable {n : Nat} {F R : Type} [Flt F]

/-- A type implementing both traits: the value a call of the method `kind` (`seq` is `evaluate`,
`par` is `evaluate_parallel`) returns at a point, as an arbitrary function of all earlier calls of
both methods, oldest first. The traits are /repo/src/objective_function.rs:79-81 and 158-160. -/
abbrev Methods (n : Nat) (F : Type) := EvalKind → List (EvalKind × (Vec n F × F)) → Vec n F → F

/-- The same `CMAES`, asking `f` for the values. The objective is the field at
/repo/src/sampling.rs:55. -/
def CMAES.withF (f : List (Vec n F × F) → Vec n F → F) (c : CMAES n F R) : CMAES n F R :=
  { c with sampler := { c.sampler with obj := { c.sampler.obj with f } } }

/-- A `CMAES` for an objective with two methods: `methods` has the method that was called for each
entry of the log in `search`. What `search` has as its objective is not used. The two kinds of calls
are at /repo/src/sampling.rs:179 and 199. -/
structure Search2 (n : Nat) (F R : Type) where
  search : CMAES n F R
  methods : List EvalKind

/-- The values found by calls of the method `kind` that follow the calls of the methods `ms`: the
calls after those were all of the method `kind`. They are made by one call of
/repo/src/lib.rs:592,628,649 or 679. -/
def Methods.during (g : Methods n F) (kind : EvalKind) (ms : List EvalKind) :
    List (Vec n F × F) → Vec n F → F :=
  fun log x => g kind ((ms ++ List.replicate (log.length - ms.length) kind).zip log) x

/-- `CMAESOptions::build`, `/repo/src/options.rs:339-341`, `/repo/src/lib.rs:229-299`, for an
objective with two methods. It calls neither. -/
def Search2.new (env : Env n F R) (w : World n F) (g : Methods n F) (o : Options n F) :
    Except InvalidOptionsError (Search2 n F R) :=
  match CMAES.new env w { f := g.during .seq [], log := [] } o with
  | .error e => .error e
  | .ok c => .ok { search := c, methods := [] }

/-- `next` (`/repo/src/lib.rs:609-640`, `/repo/src/sampling.rs:169-184`: only
`objective_function.evaluate` is called) or `next_parallel` (`/repo/src/lib.rs:662-691`,
`/repo/src/sampling.rs:189-204`: only `objective_function.evaluate_parallel` is called). Everything
else is as in `CMAES.next`. -/
def Search2.next (env : Env n F R) (g : Methods n F) (kind : EvalKind) (s : Search2 n F R) :
    Outcome (Search2 n F R × Option (TerminationData n F)) := do
  let (c, r) ← (s.search.withF (g.during kind s.methods)).next env kind
  .ok ({ search := c
         methods := s.methods ++
           List.replicate (c.sampler.obj.log.length - s.search.sampler.obj.log.length) kind }, r)

/-- The loop of `run` and `run_parallel`, `/repo/src/lib.rs:593-597, 650-654`. -/
def Search2.runLoop (env : Env n F R) (g : Methods n F) (kind : EvalKind) :
    Nat → Search2 n F R → Outcome (Search2 n F R × TerminationData n F)
  | 0, _ => .diverge
  | fuel + 1, s => do
    let (s, r) ← s.next env g kind
    match r with
    | some d => .ok (s, d)
    | none => Search2.runLoop env g kind fuel s

/-- `run` and `run_parallel`, `/repo/src/lib.rs:592-602, 649-659`. -/
def Search2.run (env : Env n F R) (g : Methods n F) (kind : EvalKind) (s : Search2 n F R) :
    Outcome (Search2 n F R × TerminationData n F) := do
  let (s, d) ← s.runLoop env g kind env.runFuel
  .ok ({ s with search := s.search.runInternal d }, d)

/-- One user call. Plotting and printing (`CMAES.apply`) do not involve the objective. The calls are
/repo/src/lib.rs:592,628,649,679. -/
def Search2.apply (env : Env n F R) (g : Methods n F) (s : Search2 n F R) :
    Op → Outcome (Search2 n F R × Option (TerminationData n F))
  | .next kind => s.next env g kind
  | .run kind => do
    let (s, d) ← s.run env g kind
    .ok (s, some d)
  | op => do
    let (c, r) ← s.search.apply env op
    .ok ({ s with search := c }, r)

/-- A sequence of user calls, with the data returned by each. The calls are
/repo/src/lib.rs:592,628,649,679. -/
def Search2.applyAll (env : Env n F R) (g : Methods n F) :
    List Op → Search2 n F R → Outcome (Search2 n F R × List (Option (TerminationData n F)))
  | [], s => .ok (s, [])
  | op :: ops, s => do
    let (s, r) ← s.apply env g op
    let (s, rs) ← Search2.applyAll env g ops s
    .ok (s, r :: rs)

end Cmaes
