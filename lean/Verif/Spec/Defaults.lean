import Verif.Spec.Options

/-!
# Specification vocabulary: the documented defaults
-/

namespace Cmaes
variable {F : Type} [Flt F]

/-- The value the builder methods `ss`, called in this order, give to the option `k`: that of the
last method setting it, or `d` if there is none. -/
def settingOf (ss : List (Setter F)) (k : OptionName) (d : OptionValue F) : OptionValue F :=
  (((ss.filter fun s => s.name = k).getLast?).map Setter.value).getD d

/-- The documented default values, as in the doc comments of `/repo/src/options.rs:34-134`, for
`CMAESOptions::new` with an initial mean of dimension `n` and the step size `step`. -/
def documentedDefault (n : Nat) (step : F) : OptionName → OptionValue F
  | .mode => .mode .minimize
  | .initialStepSize => .float step
  | .populationSize => .nat (4 + Flt.toUsize (Flt.floor ((3 : F) * Flt.ln (Flt.ofNat n))))
  | .constraints => .constraints none
  | .maxResamples => .optNat (some 10)
  | .weights => .weights .negative
  | .parallelUpdate => .bool false
  | .cm => .float 1
  | .maxFunctionEvals => .optNat none
  | .maxGenerations => .optNat none
  | .maxTime => .optNat none
  | .funTarget => .optFloat none
  | .tolFun => .float (Flt.ofRat (1 / 1000000000000))
  | .tolFunRel => .float 0
  | .tolFunHist => .float (Flt.ofRat (1 / 1000000000000))
  | .tolX => .optFloat none
  | .tolStagnation => .optNat none
  | .tolXUp => .float (Flt.ofRat 100000000)
  | .tolConditionCov => .float (Flt.ofRat 100000000000000)
  | .seed => .optNat none
  | .plotOptions => .plot none
  | .printGapEvals => .optNat none

end Cmaes
