import Verif.Model.State

/-!
# `termination.rs`
-/

namespace Cmaes
variable {n : Nat} {F R : Type} [Flt F]

/-- `TerminationReason`, `/repo/src/termination.rs:19-67`. -/
inductive TerminationReason where
  | maxFunctionEvals
  | maxGenerations
  | maxTime
  | funTarget
  | tolFun
  | tolFunRel
  | tolFunHist
  | tolX
  | tolStagnation
  | tolXUp
  | noEffectAxis
  | noEffectCoord
  | tolConditionCov
  | invalidFunctionValue
  | posDefCov
deriving DecidableEq, Repr

/-- The number of generations considered by `TolFun*`, `/repo/src/termination.rs:145`. -/
def pastGenerationsA (F : Type) [Flt F] (dim lambda : Nat) : Nat :=
  10 + Flt.toUsize (Flt.ceil ((30 : F) * Flt.ofNat dim / Flt.ofNat lambda))

/-- `get_tol_stagnation_generations`, `/repo/src/termination.rs:285-300`. -/
def tolStagnationGenerations (option generation : Nat) : Option Nat :=
  let generations := min (generation / 5) maxHistoryLength
  if generations < option then none else some generations

/-- `Data::median` of the `statrs` crate (used at `/repo/src/termination.rs:247-248`): the middle of
the sorted data, the mean of the two middle values for an even number of values, NaN for no data.
With a NaN among the data the result is left to the environment. -/
def statrsMedian (medianNaN : List F → Outcome F) (l : List F) : Outcome F :=
  if l.any Flt.isNaN then medianNaN l
  else
    let s := stableSort (fun a b => Flt.le a b) l
    let k := l.length / 2
    if l.length = 0 then .ok Flt.nan
    else if l.length % 2 = 1 then Outcome.unwrap .index s[k]?
    else do
      let a ← Outcome.unwrap .index s[k - 1]?
      let b ← Outcome.unwrap .index s[k]?
      .ok ((a + b) / 2)

/-- `did_values_regress`, `/repo/src/termination.rs:223-250`. -/
def didValuesRegress (medianNaN : List F → Outcome F) (mode : Mode) (generations : Nat)
    (values : List F) : Outcome Bool := do
  let len := Flt.toUsize (Flt.ofNat generations * Flt.ofRat (3 / 10) : F)
  let first := (values.take generations).take len
  if generations < len then .panic .overflow
  else
    let last := (values.take generations).drop (generations - len)
    let l ← statrsMedian medianNaN last
    let f ← statrsMedian medianNaN first
    .ok (mode.isBetter l f)

/-- `Iterator::max_by` with `utils::partial_cmp`, `/repo/src/termination.rs:263-266`: the last of
the maximal elements. -/
def maxBy (l : List F) : Outcome F :=
  match l with
  | [] => .panic .unwrap
  | a :: l => .ok (l.foldl (fun x y => if partialCmp x y = .gt then x else y) a)

/-- Everything `check_termination_criteria` looks at, `/repo/src/termination.rs:77-86`; `elapsed`
is the time since creation. -/
structure TerminationCheck (n : Nat) (F : Type) where
  evals : Nat
  elapsed : Nat
  parameters : Parameters F
  state : State n F
  history : History n F
  individuals : List (EvaluatedPoint n F)

namespace TerminationCheck

/-- `MaxFunctionEvals`, `/repo/src/termination.rs:113-117`. -/
def maxFunctionEvals (t : TerminationCheck n F) : Bool :=
  match t.parameters.termination.maxFunctionEvals with
  | some m => decide (m ≤ t.evals)
  | none => false

/-- `MaxGenerations`, `/repo/src/termination.rs:120-124`. -/
def maxGenerations (t : TerminationCheck n F) : Bool :=
  match t.parameters.termination.maxGenerations with
  | some m => decide (m ≤ t.state.generation)
  | none => false

/-- `MaxTime`, `/repo/src/termination.rs:127-131`. -/
def maxTime (t : TerminationCheck n F) : Bool :=
  match t.parameters.termination.maxTime with
  | some m => decide (m ≤ t.elapsed)
  | none => false

/-- `FunTarget`, `/repo/src/termination.rs:134-142`. -/
def funTarget (t : TerminationCheck n F) : Bool :=
  match t.parameters.termination.funTarget with
  | some v => t.individuals.any fun ind => t.parameters.mode.isBetter ind.value v
  | none => false

/-- Adds `r` to the list if the condition holds (`result.push`). Used at
/repo/src/termination.rs:113-270. -/
def reason (b : Bool) (r : TerminationReason) : List TerminationReason := if b then [r] else []

/-- `TolFunHist`, `TolFun` and `TolFunRel`, `/repo/src/termination.rs:145-178`. -/
def tolFun (t : TerminationCheck n F) : Outcome (List TerminationReason) :=
  let past := pastGenerationsA F t.parameters.dim t.parameters.lambda
  if past ≤ t.history.bestValues.length then do
    let rangeHistory ← Outcome.unwrap .unwrap (range (t.history.bestValues.take past))
    let rangeCurrent ← Outcome.unwrap .unwrap (range (t.individuals.map fun p => p.value))
    let tp := t.parameters.termination
    let rel := match t.history.firstMedian, t.history.bestMedian with
      | some first, some best =>
        let r := tp.tolFunRel * Flt.abs (first - best)
        Flt.lt rangeHistory r && Flt.lt rangeCurrent r
      | _, _ => false
    .ok (reason (Flt.lt rangeHistory tp.tolFunHist) .tolFunHist ++
      reason (Flt.lt rangeHistory tp.tolFun && Flt.lt rangeCurrent tp.tolFun) .tolFun ++
      reason rel .tolFunRel)
  else .ok []

/-- `TolX`, `/repo/src/termination.rs:181-185`. -/
def tolX (t : TerminationCheck n F) : Bool :=
  ((List.finRange n).all fun i =>
    Flt.lt (Flt.abs (t.state.sigma * t.state.cov.cov i i)) t.parameters.termination.tolX) &&
  ((List.finRange n).all fun i =>
    Flt.lt (Flt.abs (t.state.sigma * t.state.pathC i)) t.parameters.termination.tolX)

/-- `TolConditionCov`, `/repo/src/termination.rs:188-192`. -/
def tolConditionCov (t : TerminationCheck n F) : Bool :=
  let cond := Flt.powi t.state.axisRatio 2
  !Flt.isNormal cond || Flt.lt t.parameters.termination.tolConditionCov cond

/-- `NoEffectAxis`, `/repo/src/termination.rs:196-205`. The index `generation % dim` panics for
dimension zero. -/
def noEffectAxis (t : TerminationCheck n F) : Outcome Bool :=
  if h : 0 < n then
    let i : Fin n := ⟨t.state.generation % n, Nat.mod_lt _ h⟩
    let step := (t.state.cov.eigenvectors.col i).smul
      (Flt.ofRat (1 / 10) * t.state.sigma * t.state.cov.sqrtEigenvalues i i)
    .ok (t.state.mean.beq (t.state.mean.add step))
  else .panic .remZero

/-- `NoEffectCoord`, `/repo/src/termination.rs:208-210`. -/
def noEffectCoord (t : TerminationCheck n F) : Bool :=
  (List.finRange n).any fun i =>
    Flt.feq (t.state.mean i)
      (t.state.mean i + Flt.ofRat (2 / 10) * t.state.sigma * t.state.cov.cov i i)

/-- `TolStagnation`, `/repo/src/termination.rs:213-258`. -/
def tolStagnation (medianNaN : List F → Outcome F) (t : TerminationCheck n F) : Outcome Bool :=
  match tolStagnationGenerations t.parameters.termination.tolStagnation t.state.generation with
  | none => .ok false
  | some g =>
    if g ≤ t.history.bestValues.length && g ≤ t.history.medianValues.length then do
      let a ← didValuesRegress medianNaN t.parameters.mode g t.history.bestValues
      if a then didValuesRegress medianNaN t.parameters.mode g t.history.medianValues
      else .ok false
    else .ok false

/-- `TolXUp`, `/repo/src/termination.rs:261-270`. -/
def tolXUp (t : TerminationCheck n F) : Outcome Bool := do
  let m ← maxBy (List.ofFn t.state.cov.sqrtEigenvalues.diag)
  .ok (Flt.lt t.parameters.termination.tolXUp
    (t.state.sigma * m / t.parameters.initialSigma))

/-- `check_termination_criteria`, `/repo/src/termination.rs:90-273`. -/
def check (medianNaN : List F → Outcome F) (t : TerminationCheck n F) :
    Outcome (List TerminationReason) := do
  let tolFun ← t.tolFun
  let noEffectAxis ← t.noEffectAxis
  let tolStagnation ← t.tolStagnation medianNaN
  let tolXUp ← t.tolXUp
  .ok (reason t.maxFunctionEvals .maxFunctionEvals ++
    reason t.maxGenerations .maxGenerations ++
    reason t.maxTime .maxTime ++
    reason t.funTarget .funTarget ++
    tolFun ++
    reason t.tolX .tolX ++
    reason t.tolConditionCov .tolConditionCov ++
    reason noEffectAxis .noEffectAxis ++
    reason t.noEffectCoord .noEffectCoord ++
    reason tolStagnation .tolStagnation ++
    reason tolXUp .tolXUp)

end TerminationCheck
end Cmaes
