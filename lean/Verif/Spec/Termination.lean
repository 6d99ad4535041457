import Verif.Spec.Trace
import Mathlib.Data.Rat.Floor

/-!
# Specification vocabulary: termination criteria
-/

namespace Cmaes
variable {n : Nat} {F R : Type} [Flt F]

/-- The reasons returned by a `next` call; none if it returned `None`. -/
def NextCall.reasons (s : NextCall n F) : List TerminationReason :=
  match s.result with
  | some d => d.reasons
  | none => []

/-- The call completed a generation, including the update of the search distribution. -/
def NextCall.Checked (s : NextCall n F) : Prop := ¬ s.Failed ∧ ¬ s.ReportsPosDef

instance (s : NextCall n F) : Decidable s.Checked := inferInstanceAs (Decidable (_ ∧ _))

/-- The order in which reasons are reported. -/
def reasonOrder : List TerminationReason :=
  [.maxFunctionEvals, .maxGenerations, .maxTime, .funTarget, .tolFunHist, .tolFun, .tolFunRel,
    .tolX, .tolConditionCov, .noEffectAxis, .noEffectCoord, .tolStagnation, .tolXUp,
    .invalidFunctionValue, .posDefCov]

/-- The `next` calls whose sampling succeeded, newest first. -/
def completedNewest (t : List (NextCall n F)) : List (NextCall n F) :=
  (t.filter fun s => ¬ s.Failed).reverse

/-- `v` is the best of the values returned by `calls`. -/
def IsBest (mode : Mode) (calls : List (Vec n F × F)) (v : F) : Prop :=
  (∃ e ∈ calls, e.2 = v) ∧ ∀ e ∈ calls, ¬ Better mode e.2 v

/-- `d` is the largest element of `l` minus its smallest. -/
def IsSpread (l : List F) (d : F) : Prop :=
  ∃ mx ∈ l, ∃ mn ∈ l, (∀ x ∈ l, Flt.le mn x = true ∧ Flt.le x mx = true) ∧ d = mx - mn

/-- `m` is the median of `l`: the middle element in increasing order, or half the sum of the two
middle ones. -/
def IsMedian (l : List F) (m : F) : Prop :=
  ∃ s : List F, s.Perm l ∧ s.Pairwise (fun a b => Flt.le a b = true) ∧
    (l.length % 2 = 1 → s[l.length / 2]? = some m) ∧
    (l.length % 2 = 0 → ∃ a b, s[l.length / 2 - 1]? = some a ∧ s[l.length / 2]? = some b ∧
      m = (a + b) / 2)

/-- The objective values of a `next` call. -/
def NextCall.values (s : NextCall n F) : List F := s.calls.map fun e => e.2

/-- The number of generations the `TolFun*` criteria look at in dimension `n` with population size
`lambda`. -/
def pastGenerations (n lambda : Nat) : Nat := 10 + ⌈(30 * n : ℚ) / lambda⌉₊

/-- The number of values the history keeps. -/
def historyCap : Nat := 20000

/-- `vs` are the best values of the `k` most recent generations, newest first; there are that many,
and no more than are kept. -/
def RecentBest (mode : Mode) (t : List (NextCall n F)) (k : Nat) (vs : List F) : Prop :=
  vs.length = k ∧ k ≤ historyCap ∧
    List.Forall₂ (fun s v => IsBest mode s.calls v) ((completedNewest t).take k) vs

/-- `vs` are the medians of the `k` most recent generations, newest first; there are that many,
and no more than are kept. -/
def RecentMedians (t : List (NextCall n F)) (k : Nat) (vs : List F) : Prop :=
  vs.length = k ∧ k ≤ historyCap ∧
    List.Forall₂ (fun s v => IsMedian s.values v) ((completedNewest t).take k) vs

/-- `m` is the median of the first completed generation. -/
def IsFirstMedian (t : List (NextCall n F)) (m : F) : Prop :=
  ∃ s, (t.filter fun s => ¬ s.Failed).head? = some s ∧ IsMedian s.values m

/-- `m` is the best of the medians of all generations; it is NaN only if all of them are. -/
def IsBestMedian (mode : Mode) (t : List (NextCall n F)) (m : F) : Prop :=
  (∃ s ∈ t, ¬ s.Failed ∧ IsMedian s.values m) ∧
  ∀ s ∈ t, ¬ s.Failed → ∀ m', IsMedian s.values m' →
    ¬ Better mode m' m ∧ (Flt.isNaN m = true → Flt.isNaN m' = true)

/-- The values became worse from the oldest 30% to the newest 30% of `vs` (newest first): the median
of the oldest is better than the median of the newest. -/
def Regressed (mode : Mode) (vs : List F) : Prop :=
  ∃ old new, IsMedian (vs.drop (vs.length - 3 * vs.length / 10)) old ∧
    IsMedian (vs.take (3 * vs.length / 10)) new ∧ Better mode old new

end Cmaes
