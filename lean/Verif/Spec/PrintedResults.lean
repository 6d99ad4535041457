import Verif.Spec.PrintText
import Verif.Model.PrintText
import Verif.Spec.Restart

/-!
# Specification vocabulary: the printed results

Which lines a user should see for what a run or a restarter returned.
-/

namespace Cmaes.Printed
variable {n : Nat} {R : Type}

/-- Names in backticks, separated by commas. -/
def ticked (names : List (List Char)) : List Char :=
  List.intercalate ", ".toList (names.map fun x => "`".toList ++ x ++ "`".toList)

/-- The lines that announce the data returned by a run: the reasons, the two best values if there are
any, and the mean. -/
def runAnnounced (d : Display n) (data : TerminationData n F64) : List (List Char) :=
  match data.currentBest, data.overallBest with
  | some current, some overall =>
    ["Terminated with reason(s): ".toList ++ ticked (data.reasons.map TerminationReason.name),
      "Current best function value: ".toList ++ d.exponential current.value,
      "Overall best function value: ".toList ++ d.exponential overall.value,
      "Final mean: ".toList ++ d.vector data.finalMean]
  | _, _ =>
    ["Terminated with reason(s): ".toList ++ ticked (data.reasons.map TerminationReason.name),
      "Final mean: ".toList ++ d.vector data.finalMean]

/-- The line announces the settings of a restarter. -/
def SettingsLine (d : Display n) (o : RestartOptions n F64) (seed : Nat) (line : List Char) : Prop :=
  ∃ dim s k : List Char, ShowsCount dim n ∧ ShowsCount s seed ∧
    match o.strategy with
    | .local x => line = "LR-aCMA-ES with dimension=".toList ++ dim ++ ", search_range=[".toList ++
        d.plain o.searchStart ++ ", ".toList ++ d.plain o.searchEnd ++ "], sigma0_factor=".toList ++
        d.plain x.initialStepSizeFactor ++ ", seed=".toList ++ s
    | .ipop x => ShowsCount k x.increaseFactor ∧ line = "IPOP-aCMA-ES with dimension=".toList ++
        dim ++ ", search_range=[".toList ++ d.plain o.searchStart ++ ", ".toList ++
        d.plain o.searchEnd ++ "], increase_factor=".toList ++ k ++ ", seed=".toList ++ s
    | .bipop x => ShowsCount k x.ipopIncreaseFactor ∧
        line = "BIPOP-aCMA-ES with dimension=".toList ++
        dim ++ ", search_range=[".toList ++ d.plain o.searchStart ++ ", ".toList ++
        d.plain o.searchEnd ++ "], lr_sigma0_factor=".toList ++ d.plain x.lrInitialStepSizeFactor ++
        ", ipop_increase_factor=".toList ++ k ++ ", seed=".toList ++ s

/-- The two lines describe the run number `i` of a restarter, which is recorded as `x`. -/
def RunLines (i : Nat) (x : RunRecord n F64 R) (before after : List Char) : Prop :=
  ∃ a lambda sigma seed b best evals,
    before = "Run ".toList ++ a ++ " parameters: lambda=".toList ++ lambda ++ ", sigma0=".toList ++
      sigma ++ ", seed=".toList ++ seed ∧
    ShowsCount a i ∧ ShowsCount lambda x.options.populationSize ∧
    ShowsNumber 5 sigma x.options.initialStepSize ∧ ShowsCount seed (x.options.seed.getD 0) ∧
    after = "Run ".toList ++ b ++ " results: best f-val=".toList ++ best ++
      ", termination_reasons=[".toList ++ ticked (x.data.reasons.map TerminationReason.name) ++
      "], f-evals=".toList ++ evals ∧
    ShowsCount b i ∧ ShowsCount evals x.evals ∧
    match x.data.overallBest with
    | some y => ShowsNumber 12 best y.value
    | none => best = "None".toList

/-- The lines announce the results returned by a restarter. -/
def ResultsLines (d : Display n) (res : RestartResults n F64) (lines : List (List Char)) : Prop :=
  ∃ evals, ShowsCount evals res.functionEvals ∧
    match res.best with
    | some b => lines = ["Terminated in ".toList ++ evals ++ " f-evals with reason: `".toList ++
          res.reason.name ++ "`".toList,
        "Best function value: ".toList ++ d.exponential b.value,
        "Best point: ".toList ++ d.vector b.point]
    | none => lines = ["Terminated in ".toList ++ evals ++ " f-evals with reason: `".toList ++
          res.reason.name ++ "`".toList]

end Cmaes.Printed
