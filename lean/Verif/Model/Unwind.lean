import Verif.Model.Cmaes

/-!
# Panics of user code

What is left in a `CMAES` when the objective function or a constraint panics inside `next` or `run`
and the caller catches the panic (`std::panic::catch_unwind`). The functions of `sampling.rs` and
`lib.rs` again, with the state that unwinding leaves behind. A mutable borrow keeps everything that
was written through it before the panic; local variables are dropped.
-/

namespace Cmaes
variable {n : Nat} {F R : Type} [Flt F]

/-- The end of a call: it ran to its end, or a panic of user code was unwound through it and left
the state `s` behind. User code is called at /repo/src/sampling.rs:106,179,199. -/
inductive Ended (σ α : Type) where
  | returned (a : α)
  | unwound (s : σ)

/-- When the objective function panics: at the point, after the given earlier calls. It is called at
/repo/src/sampling.rs:179,199. -/
abbrev Panics (n : Nat) (F : Type) := List (Vec n F × F) → Vec n F → Bool

/-- One call of an objective function that may panic. A call that panics is recorded with the value
NaN, which stands for no value; the objective may have changed its state before panicking, so later
values may depend on that call. It is made at /repo/src/sampling.rs:179 or 199. -/
def Obj.callU (pan : Panics n F) (o : Obj n F) (x : Vec n F) : Ended Unit F × Obj n F :=
  if pan o.log x then (.unwound (), { o with log := o.log ++ [(x, Flt.nan)] })
  else
    let v := o.f o.log x
    (.returned v, { o with log := o.log ++ [(x, v)] })

/-- `EvaluatedPoint::new`, `/repo/src/sampling.rs:228-246`. -/
def EvaluatedPoint.newU (pan : Panics n F) (y mean : Vec n F) (sigma : F) (o : Obj n F) :
    Ended Unit (Option (EvaluatedPoint n F)) × Obj n F :=
  let point := toPoint y mean sigma
  match o.callU pan point with
  | (.unwound _, o) => (.unwound (), o)
  | (.returned value, o) =>
    if Flt.isNaN value then (.returned none, o)
    else (.returned (some { point, unscaledStep := y, value }), o)

/-- Sequential evaluation, `/repo/src/sampling.rs:175-183`: stops at the first NaN or panic. -/
def evalSeqU (pan : Panics n F) (mean : Vec n F) (sigma : F) :
    List (Vec n F) → Obj n F → Ended Unit (Option (List (EvaluatedPoint n F))) × Obj n F
  | [], o => (.returned (some []), o)
  | y :: ys, o =>
    match EvaluatedPoint.newU pan y mean sigma o with
    | (.unwound _, o) => (.unwound (), o)
    | (.returned none, o) => (.returned none, o)
    | (.returned (some p), o) =>
      match evalSeqU pan mean sigma ys o with
      | (.unwound _, o) => (.unwound (), o)
      | (.returned none, o) => (.returned none, o)
      | (.returned (some ps), o) => (.returned (some (p :: ps)), o)

/-- Parallel evaluation in the order of the schedule. After an error or a panic further items may or
may not be evaluated, `left` many. As in /repo/src/sampling.rs:196-202. -/
def evalOrderU (pan : Panics n F) (mean : Vec n F) (sigma : F) (ys : List (Vec n F)) (extra : Nat) :
    List Nat → Option Nat → Obj n F →
      List (Nat × Ended Unit (Option (EvaluatedPoint n F))) × Obj n F
  | [], _, o => ([], o)
  | i :: is, left, o =>
    match left with
    | some 0 => ([], o)
    | _ =>
      match ys[i]? with
      | none => evalOrderU pan mean sigma ys extra is left o
      | some y =>
        let (r, o) := EvaluatedPoint.newU pan y mean sigma o
        let left' := match left with
          | some k => some (k - 1)
          | none =>
            match r with
            | .returned (some _) => none
            | _ => some extra
        let (rs, o) := evalOrderU pan mean sigma ys extra is left' o
        ((i, r) :: rs, o)

/-- The item panicked. An item is one call of /repo/src/sampling.rs:198-200. -/
def Ended.isUnwound {σ α : Type} : Ended σ α → Bool
  | .unwound _ => true
  | .returned _ => false

/-- The value of an item, if it has one. An item is one call of /repo/src/sampling.rs:198-200. -/
def Ended.value {σ α : Type} : Ended σ (Option α) → Option α
  | .returned a => a
  | .unwound _ => none

/-- Parallel evaluation, `/repo/src/sampling.rs:195-203`: rayon propagates a panic of any item, also
if another item returned an error. -/
def evalParU (pan : Panics n F) (s : Sched) (mean : Vec n F) (sigma : F) (ys : List (Vec n F))
    (o : Obj n F) : Ended Unit (Option (List (EvaluatedPoint n F))) × Obj n F :=
  let (rs, o) := evalOrderU pan mean sigma ys s.extra (s.order ys.length) none o
  if rs.any (fun r => r.2.isUnwound) then (.unwound (), o)
  else if rs.any (fun r => r.2.value.isNone) then (.returned none, o)
  else (.returned ((List.range ys.length).mapM (fun i => (rs.lookup i).bind Ended.value)), o)

/-- The resampling loop, `/repo/src/sampling.rs:125-144`, with the generator that a panic of a
constraint leaves behind. All vectors of a round are drawn before the first constraint is asked. -/
def resampleU (rng : RngOps R F) (transform : Mat n F) (mean : Vec n F) (sigma : F)
    (constraints : Option (Constraint F)) (maxResamples : Option Nat) (populationSize : Nat) :
    Nat → Nat → List (Vec n F) → R → Outcome (Ended R (List (Vec n F) × R))
  | 0, _, _, _ => .diverge
  | fuel + 1, i, y, r =>
    if populationSize < y.length then .panic .overflow
    else
      let remain := populationSize - y.length
      if remain = 0 then .ok (.returned (y, r))
      else
        let cs :=
          match maxResamples with
          | some mx => if mx ≤ i then none else constraints
          | none => constraints
        match sampleRound rng transform mean sigma cs remain r with
        | .ok (new, r) => resampleU rng transform mean sigma constraints maxResamples populationSize
            fuel (i + 1) (y ++ new) r
        | .panic _ => .ok (.unwound (drawVecs (n := n) rng remain r).2)
        | .diverge => .diverge

/-- `Sampler::sample_internal`, `/repo/src/sampling.rs:81-152`, with `sample` (169-184) or
`sample_parallel` (189-204). The counter is increased after the evaluation. -/
def Sampler.sampleU (env : Env n F R) (pan : Panics n F) (kind : EvalKind) (sched : Sched)
    (transform : Mat n F) (mean : Vec n F) (sigma : F) (mode : Mode) (s : Sampler n F R) :
    Outcome (Ended (Sampler n F R) (Option (List (EvaluatedPoint n F)) × Sampler n F R)) := do
  match ← resampleU env.rng transform mean sigma s.constraints s.maxResamples
    s.populationSize env.resampleFuel 0 [] s.rng with
  | .unwound rng => .ok (.unwound { s with rng })
  | .returned (ys, rng) =>
    let (res, obj) := match kind with
      | .seq => evalSeqU pan mean sigma ys s.obj
      | .par => evalParU pan sched mean sigma ys s.obj
    match res with
    | .unwound _ => .ok (.unwound { s with rng, obj })
    | .returned none => .ok (.returned (none, { s with rng, obj }))
    | .returned (some ps) =>
      .ok (.returned (some (sortPoints mode ps),
        { s with rng, obj, functionEvals := s.functionEvals + ps.length }))

namespace CMAES

/-- `CMAES::next` and `CMAES::next_parallel` with `sample`, `sample_parallel` and
`sample_internal`, `/repo/src/lib.rs:313-316, 609-640, 662-691`. User code is called by the sampler
only. -/
def nextU (env : Env n F R) (pan : Panics n F) (kind : EvalKind) (c : CMAES n F R) :
    Outcome (Ended (CMAES n F R) (CMAES n F R × Option (TerminationData n F))) := do
  let step := c.world.steps
  let world := { c.world with steps := step + 1 }
  match ← c.sampler.sampleU env pan kind (env.sched step) c.state.cov.transform c.state.mean
    c.state.sigma c.parameters.mode with
  | .unwound sampler => .ok (.unwound { c with sampler, world })
  | .returned (res, sampler) =>
    let c := { c with sampler, world }
    match res with
    | none => .ok (.returned (c, some (c.terminationData [.invalidFunctionValue])))
    | some inds => do
      let history ← c.history.update c.parameters.mode inds
      let r ← nextInternal env (env.redTree step) inds { c with history }
      .ok (.returned r)

/-- The loop of `CMAES::run` and `CMAES::run_parallel`, `/repo/src/lib.rs:593-597, 650-654`. -/
def runLoopU (env : Env n F R) (pan : Panics n F) (kind : EvalKind) :
    Nat → CMAES n F R → Outcome (Ended (CMAES n F R) (CMAES n F R × TerminationData n F))
  | 0, _ => .diverge
  | fuel + 1, c => do
    match ← c.nextU env pan kind with
    | .unwound c => .ok (.unwound c)
    | .returned (c, some d) => .ok (.returned (c, d))
    | .returned (c, none) => runLoopU env pan kind fuel c

/-- `CMAES::run` and `CMAES::run_parallel`, `/repo/src/lib.rs:592-602, 649-659`. -/
def runU (env : Env n F R) (pan : Panics n F) (kind : EvalKind) (c : CMAES n F R) :
    Outcome (Ended (CMAES n F R) (CMAES n F R × TerminationData n F)) := do
  match ← runLoopU env pan kind env.runFuel c with
  | .unwound c => .ok (.unwound c)
  | .returned (c, d) => .ok (.returned (c.runInternal d, d))

end CMAES
end Cmaes
