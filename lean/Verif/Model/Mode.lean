import Verif.Model.Basic

/-!
# `mode.rs` and the numeric helpers of `utils.rs`
-/

namespace Cmaes
variable {F : Type} [Flt F]

/-- `/repo/src/mode.rs:11-16`. -/
inductive Mode where
  | minimize
  | maximize
deriving DecidableEq, Repr

/-- `utils::partial_cmp`, `/repo/src/utils.rs:6-8`. -/
def partialCmp (a b : F) : Ordering := (Flt.partialCmp? a b).getD .eq

namespace Mode

/-- `Mode::sort_cmp`, `/repo/src/mode.rs:27-32`. -/
def sortCmp (m : Mode) (a b : F) : Ordering :=
  match m with
  | minimize => partialCmp a b
  | maximize => partialCmp b a

/-- `Mode::is_better`, `/repo/src/mode.rs:35-40` (`a > b` is `b < a`). -/
def isBetter (m : Mode) (a b : F) : Bool :=
  match m with
  | minimize => Flt.lt a b
  | maximize => Flt.lt b a

/-- `Mode::choose_best`, `/repo/src/mode.rs:42-47`. -/
def chooseBest (m : Mode) (a b : F) : F :=
  match m with
  | minimize => Flt.fmin a b
  | maximize => Flt.fmax a b

end Mode

/-- The loop of `utils::range`, `/repo/src/utils.rs:39-53`. -/
def rangeLoop (mn mx : F) : List F → Option F
  | [] => some (mx - mn)
  | x :: xs =>
    if Flt.isNaN x then none
    else
      let mn := if partialCmp x mn = .lt then x else mn
      let mx := if partialCmp x mx = .gt then x else mx
      rangeLoop mn mx xs

/-- `utils::range`, `/repo/src/utils.rs:31-54`. -/
def range : List F → Option F
  | [] => none
  | x :: xs => rangeLoop x x xs

end Cmaes
