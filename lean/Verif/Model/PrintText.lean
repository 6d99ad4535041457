import Verif.Model.Cmaes
import Verif.Model.FormatNum

/-!
# The text that is printed: `lib.rs:499-585`, `restart/mod.rs:60-64, 84-93, 438-497`

A line is a list of characters. Each `println!` gives one line; the text of a vector may contain
line breaks.
-/

namespace Cmaes
variable {n : Nat}

/-- The parts of the text that come from the standard library and from `nalgebra` and are not
modelled: the shortest decimal representation of a number with `{}` and `{:e}`, and the layout of a
vector. Used at /repo/src/utils.rs:14, /repo/src/lib.rs:580-584 and
/repo/src/restart/mod.rs:438-457. -/
structure Display (n : Nat) where
  /-- `{}` -/
  plain : F64 → List Char
  /-- `{:e}` -/
  exponential : F64 → List Char
  /-- `{}` of a `DVector` -/
  vector : Vec n F64 → List Char

/-- `format!("{:^w$}", s)`: the larger half of the fill is on the right. Used at
/repo/src/lib.rs:513-516. -/
def centred (w : Nat) (cs : List Char) : List Char :=
  let fill := w - cs.length
  List.replicate (fill / 2) ' ' ++ cs ++ List.replicate (fill - fill / 2) ' '

/-- `slice.join(sep)`. Used at /repo/src/lib.rs:573 and /repo/src/restart/mod.rs:446,489. -/
def joined (sep : List Char) : List (List Char) → List Char
  | [] => []
  | [x] => x
  | x :: xs => x ++ sep ++ joined sep xs

/-- `title_string`, `/repo/src/lib.rs:513-516`. -/
def titleString : List Char :=
  joined " | ".toList [centred 7 "Gen #".toList, centred 7 "f evals".toList,
    centred 19 "Best function value".toList, centred 10 "Axis Ratio".toList,
    centred 10 "Sigma".toList, centred 10 "Min std".toList, centred 10 "Max std".toList]

/-- The name of the variant, `/repo/src/lib.rs:501-504`. -/
def Weights.variantName : Weights → List Char
  | .positive => "CMA-ES".toList
  | .uniform => "CMA-ES".toList
  | .negative => "aCMA-ES".toList

/-- The lines of `print_initial_info`, `/repo/src/lib.rs:499-520`. -/
def initialText (setting : Weights) (dim lambda seed : Nat) : List (List Char) :=
  [setting.variantName ++ " with dimension=".toList ++ natText dim ++ ", lambda=".toList ++
    natText lambda ++ ", seed=".toList ++ natText seed,
   titleString, List.replicate titleString.length '-']

/-- The line of `print_info`, `/repo/src/lib.rs:532-551`. -/
def rowText (generation evals : Nat) (best : Option F64) (axisRatio sigma minStd maxStd : F64) :
    Outcome (List Char) := do
  let best ← match best with
    | some x => formatNum x 19
    | none => .ok (padLeft 19 [])
  let axisRatio ← formatNum axisRatio 11
  let sigma ← formatNum sigma 11
  let minStd ← formatNum minStd 11
  let maxStd ← formatNum maxStd 11
  .ok (padLeft 7 (natText generation) ++ " | ".toList ++ padLeft 7 (natText evals) ++
    " | ".toList ++ best ++ " |".toList ++ axisRatio ++ " |".toList ++ sigma ++ " |".toList ++
    minStd ++ " |".toList ++ maxStd)

/-- `Display for TerminationReason`, `/repo/src/termination.rs:69-73`: the derived `Debug`. -/
def TerminationReason.name : TerminationReason → List Char
  | .maxFunctionEvals => "MaxFunctionEvals".toList
  | .maxGenerations => "MaxGenerations".toList
  | .maxTime => "MaxTime".toList
  | .funTarget => "FunTarget".toList
  | .tolFun => "TolFun".toList
  | .tolFunRel => "TolFunRel".toList
  | .tolFunHist => "TolFunHist".toList
  | .tolX => "TolX".toList
  | .tolStagnation => "TolStagnation".toList
  | .tolXUp => "TolXUp".toList
  | .noEffectAxis => "NoEffectAxis".toList
  | .noEffectCoord => "NoEffectCoord".toList
  | .tolConditionCov => "TolConditionCov".toList
  | .invalidFunctionValue => "InvalidFunctionValue".toList
  | .posDefCov => "PosDefCov".toList

/-- `reasons_str`, `/repo/src/lib.rs:569-573`, `/repo/src/restart/mod.rs:485-489`. -/
def reasonsText (reasons : List TerminationReason) : List Char :=
  joined ", ".toList (reasons.map fun r => '`' :: r.name ++ ['`'])

/-- The lines of `print_final_info` after the row, `/repo/src/lib.rs:569-584`. -/
def finalText (d : Display n) (reasons : List TerminationReason) (best : Option (F64 × F64))
    (mean : Vec n F64) : List (List Char) :=
  ["Terminated with reason(s): ".toList ++ reasonsText reasons] ++
  (match best with
    | some (current, overall) =>
      ["Current best function value: ".toList ++ d.exponential current,
       "Overall best function value: ".toList ++ d.exponential overall]
    | none => []) ++
  ["Final mean: ".toList ++ d.vector mean]

/-- `get_parameters_as_strings`, `/repo/src/restart/local.rs:95-101`, `ipop.rs:99-105`,
`bipop.rs:199-211`, and `parameters_str`, `/repo/src/restart/mod.rs:440-446`. -/
def parametersText (d : Display n) (ps : List (String × RestartParameter F64)) : List Char :=
  joined ", ".toList (ps.map fun p => p.1.toList ++ '=' :: match p.2 with
    | .number x => d.plain x
    | .count k => natText k)

/-- The line of `Restarter::print_initial_info`, `/repo/src/restart/mod.rs:438-457`. -/
def restartInitialText (d : Display n) (algorithm : String) (dim : Nat) (start stop : F64)
    (parameters : List (String × RestartParameter F64)) (seed : Nat) : List Char :=
  algorithm.toList ++ " with dimension=".toList ++ natText dim ++ ", search_range=[".toList ++
    d.plain start ++ ", ".toList ++ d.plain stop ++ "], ".toList ++ parametersText d parameters ++
    ", seed=".toList ++ natText seed

/-- The line of `print_run_info`, `/repo/src/restart/mod.rs:469-477`. -/
def runInfoText (run lambda : Nat) (sigma0 : F64) (seed : Nat) : Outcome (List Char) := do
  let sigma0 ← formatNum sigma0 12
  .ok ("Run ".toList ++ natText run ++ " parameters: lambda=".toList ++ natText lambda ++
    ", sigma0=".toList ++ sigma0 ++ ", seed=".toList ++ natText seed)

/-- The line of `print_run_results`, `/repo/src/restart/mod.rs:480-497`. -/
def runResultsText (run : Nat) (best : Option F64) (reasons : List TerminationReason)
    (evals : Nat) : Outcome (List Char) := do
  let best ← match best with
    | some x => formatNum x 19
    | none => .ok "None".toList
  .ok ("Run ".toList ++ natText run ++ " results: best f-val=".toList ++ best ++
    ", termination_reasons=[".toList ++ reasonsText reasons ++ "], f-evals=".toList ++
    natText evals)

/-- `Display for RestartTerminationReason`, `/repo/src/restart/mod.rs:60-64`. -/
def RestartTerminationReason.name : RestartTerminationReason → List Char
  | .maxRuns => "MaxRuns".toList
  | .maxFunctionEvals => "MaxFunctionEvals".toList
  | .maxTime => "MaxTime".toList
  | .funTarget => "FunTarget".toList
  | .invalidFunctionValue => "InvalidFunctionValue".toList

/-- The lines of `RestartResults::print_results`, `/repo/src/restart/mod.rs:84-93`. -/
def restartResultsText (d : Display n) (evals : Nat) (reason : RestartTerminationReason)
    (best : Option (Individual n F64)) : List (List Char) :=
  ["Terminated in ".toList ++ natText evals ++ " f-evals with reason: `".toList ++ reason.name ++
    "`".toList] ++
  match best with
  | some b => ["Best function value: ".toList ++ d.exponential b.value,
      "Best point: ".toList ++ d.vector b.point]
  | none => []

/-- The lines that are printed. They are those of /repo/src/lib.rs:499-586 and
/repo/src/restart/mod.rs:84-93,438-497. -/
def PrintEvent.text (d : Display n) : PrintEvent n F64 → Outcome (List (List Char))
  | .initial setting dim lambda seed => .ok (initialText setting dim lambda seed)
  | .info generation evals best axisRatio sigma minStd maxStd => do
    let row ← rowText generation evals best axisRatio sigma minStd maxStd
    .ok [row]
  | .final reasons best mean => .ok (finalText d reasons best mean)
  | .restartInitial algorithm dim start stop parameters seed =>
    .ok [restartInitialText d algorithm dim start stop parameters seed]
  | .runInfo run lambda sigma0 seed => do
    let line ← runInfoText run lambda sigma0 seed
    .ok [line]
  | .runResults run best reasons evals => do
    let line ← runResultsText run best reasons evals
    .ok [line]
  | .restartResults evals reason best => .ok (restartResultsText d evals reason best)

/-- The text of everything that was printed. It is written by /repo/src/lib.rs:499-586 and
/repo/src/restart/mod.rs:84-93,438-497. -/
def printedText (d : Display n) : List (PrintEvent n F64) → Outcome (List (List Char))
  | [] => .ok []
  | e :: es => do
    let first ← e.text d
    let rest ← printedText d es
    .ok (first ++ rest)

end Cmaes
