import Verif.Model.Sampling

/-!
# `history.rs`
-/

namespace Cmaes
variable {n : Nat} {F : Type} [Flt F]

/-- `Individual`, `/repo/src/lib.rs:150-159`. -/
structure Individual (n : Nat) (F : Type) where
  point : Vec n F
  value : F

/-- `MAX_HISTORY_LENGTH`, `/repo/src/history.rs:10`. -/
def maxHistoryLength : Nat := 20000

/-- `History`, `/repo/src/history.rs:14-28` (deques as lists, front first). -/
structure History (n : Nat) (F : Type) where
  bestValues : List F
  medianValues : List F
  currentBest : Option (Individual n F)
  overallBest : Option (Individual n F)
  firstMedian : Option F
  bestMedian : Option F

/-- `History::new`, `/repo/src/history.rs:31-40`. -/
def History.new : History n F :=
  { bestValues := [], medianValues := [], currentBest := none, overallBest := none,
    firstMedian := none, bestMedian := none }

/-- `push_front` followed by `pop_back` if too long, `/repo/src/history.rs:81-84, 87-90`. -/
def pushCapped (x : F) (l : List F) : List F :=
  let l := x :: l
  if maxHistoryLength < l.length then l.dropLast else l

/-- `get_median_value`, `/repo/src/history.rs:139-147`. -/
def medianValue (inds : List (EvaluatedPoint n F)) : Outcome F :=
  if inds.length % 2 = 0 then
    if inds.length / 2 = 0 then .panic .overflow
    else do
      let a ← Outcome.unwrap .index inds[inds.length / 2 - 1]?
      let b ← Outcome.unwrap .index inds[inds.length / 2]?
      .ok ((a.value + b.value) / 2)
  else do
    let a ← Outcome.unwrap .index inds[inds.length / 2]?
    .ok a.value

/-- `History::update_best_individuals`, `/repo/src/history.rs:103-114`. -/
def History.updateBest (h : History n F) (mode : Mode) (cur : Individual n F) : History n F :=
  { h with
    currentBest := some cur
    overallBest := match h.overallBest with
      | some overall => if mode.isBetter cur.value overall.value then some cur else some overall
      | none => some cur }

/-- `History::update`, `/repo/src/history.rs:78-100`. -/
def History.update (h : History n F) (mode : Mode) (inds : List (EvaluatedPoint n F)) :
    Outcome (History n F) := do
  let best ← Outcome.unwrap .index inds[0]?
  let bestValues := pushCapped best.value h.bestValues
  let med ← medianValue inds
  let medianValues := pushCapped med h.medianValues
  let firstMedian := h.firstMedian.or (some med)
  let bestMedian := match h.bestMedian with
    | some v => some (mode.chooseBest v med)
    | none => some med
  .ok ({ h with bestValues, medianValues, firstMedian, bestMedian }.updateBest mode
    { point := best.point, value := best.value })

end Cmaes
