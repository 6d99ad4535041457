import Verif.Model.Options

/-!
# `parameters/weights.rs` and `parameters/mod.rs`
-/

namespace Cmaes
variable {n : Nat} {F : Type} [Flt F]

/-- `InitialWeights`, `/repo/src/parameters/weights.rs:28-33`. -/
structure InitialWeights (F : Type) where
  weights : List F
  setting : Weights
  mu : Nat

/-- The unnormalised weight of rank `i` (from 1), `/repo/src/parameters/weights.rs:44, 48`. -/
def rawWeight (lambda i : Nat) : F :=
  Flt.ln ((Flt.ofNat lambda + 1) / 2) - Flt.ln (Flt.ofNat i)

/-- `InitialWeights::new`, `/repo/src/parameters/weights.rs:37-58`. -/
def InitialWeights.new (lambda : Nat) (setting : Weights) : InitialWeights F :=
  let mu := lambda / 2
  let weights := match setting with
    | .uniform => List.replicate mu 1
    | .positive => (List.range mu).map fun i => rawWeight lambda (i + 1)
    | .negative => (List.range lambda).map fun i => rawWeight lambda (i + 1)
  { weights, setting, mu }

/-- `InitialWeights::mu_eff`, `/repo/src/parameters/weights.rs:66-75`. -/
def InitialWeights.muEff (w : InitialWeights F) : F :=
  Flt.powi (fsum (w.weights.take w.mu)) 2 /
    fsum ((w.weights.take w.mu).map fun x => Flt.powi x 2)

/-- `InitialWeights::mu_eff_minus`, `/repo/src/parameters/weights.rs:79-93`. -/
def InitialWeights.muEffMinus (w : InitialWeights F) : Option F :=
  if w.mu < w.weights.length then
    some (Flt.powi (fsum (w.weights.drop w.mu)) 2 /
      fsum ((w.weights.drop w.mu).map fun x => Flt.powi x 2))
  else none

/-- Normalisation of the positive weights, `/repo/src/parameters/weights.rs:103-109`. -/
def normalizePos (ws : List F) : List F :=
  let s := fsum (ws.filter fun w => Flt.lt 0 w)
  ws.map fun w => if Flt.lt 0 w then w / s else w

/-- Normalisation of the negative weights to the sum `-a`,
`/repo/src/parameters/weights.rs:121-127`. -/
def normalizeNeg (a : F) (ws : List F) : List F :=
  let s := Flt.abs (fsum (ws.filter fun w => Flt.lt w 0))
  ws.map fun w => if Flt.lt w 0 then w * a / s else w

/-- `InitialWeights::finalize`, `/repo/src/parameters/weights.rs:97-134`. -/
def InitialWeights.finalize (w : InitialWeights F) (dim : Nat) (c1 cmu : F) : List F :=
  let muEff := w.muEff
  let weights := normalizePos w.weights
  match w.muEffMinus with
  | some muEffMinus =>
    let aMu := 1 + c1 / cmu
    let aMuEff := 1 + (2 * muEffMinus) / (muEff + 2)
    let aPosDef := (1 - c1 - cmu) / (Flt.ofNat dim * cmu)
    let a := Flt.fmin aMu (Flt.fmin aMuEff aPosDef)
    normalizeNeg a weights
  | none => weights

/-- `TerminationParameters`, `/repo/src/parameters/mod.rs:17-40`. -/
structure TerminationParameters (F : Type) where
  maxFunctionEvals : Option Nat
  maxGenerations : Option Nat
  maxTime : Option Nat
  funTarget : Option F
  tolFun : F
  tolFunRel : F
  tolFunHist : F
  tolX : F
  tolStagnation : Nat
  tolXUp : F
  tolConditionCov : F

/-- `get_default_tol_stagnation_option`, `/repo/src/termination.rs:278-280`. -/
def defaultTolStagnation (F : Type) [Flt F] (dim lambda : Nat) : Nat :=
  100 + Flt.toUsize (Flt.ceil
    ((100 : F) * Flt.powf (Flt.ofNat dim) (Flt.ofRat (3 / 2)) / Flt.ofNat lambda))

/-- `TerminationParameters::from_options`, `/repo/src/parameters/mod.rs:44-64`. -/
def TerminationParameters.fromOptions (o : Options n F) : TerminationParameters F :=
  { maxFunctionEvals := o.maxFunctionEvals
    maxGenerations := o.maxGenerations
    maxTime := o.maxTime
    funTarget := o.funTarget
    tolFun := o.tolFun
    tolFunRel := o.tolFunRel
    tolFunHist := o.tolFunHist
    tolX := o.tolX.getD (Flt.ofRat (1 / 10 ^ 12) * o.initialStepSize)
    tolStagnation := o.tolStagnation.getD (defaultTolStagnation F n o.populationSize)
    tolXUp := o.tolXUp
    tolConditionCov := o.tolConditionCov }

/-- `Parameters`, `/repo/src/parameters/mod.rs:70-104`. -/
structure Parameters (F : Type) where
  mode : Mode
  dim : Nat
  lambda : Nat
  mu : Nat
  initialSigma : F
  muEff : F
  weights : List F
  setting : Weights
  cc : F
  c1 : F
  cs : F
  cmu : F
  cm : F
  dampS : F
  termination : TerminationParameters F
  seed : Nat
  parallelUpdate : Bool

/-- `cc`, `/repo/src/parameters/mod.rs:119`. -/
def paramCc (dim : Nat) (muEff : F) : F :=
  (4 + muEff / Flt.ofNat dim) / (Flt.ofNat dim + 4 + 2 * muEff / Flt.ofNat dim)

/-- `c1`, `/repo/src/parameters/mod.rs:120`. -/
def paramC1 (dim : Nat) (muEff : F) : F :=
  2 / (Flt.powi (Flt.ofNat dim + Flt.ofRat (13 / 10)) 2 + muEff)

/-- `cmu`, `/repo/src/parameters/mod.rs:121-124`. -/
def paramCmu (dim : Nat) (muEff c1 : F) : F :=
  Flt.fmin (1 - c1)
    (2 * (muEff - 2 + 1 / muEff) / (Flt.powi (Flt.ofNat dim + 2) 2 + 2 * muEff / 2))

/-- `cs`, `/repo/src/parameters/mod.rs:129`. -/
def paramCs (dim : Nat) (muEff : F) : F := (muEff + 2) / (Flt.ofNat dim + muEff + 5)

/-- `damp_s`, `/repo/src/parameters/mod.rs:130`. -/
def paramDampS (dim : Nat) (muEff cs : F) : F :=
  1 + cs + 2 * Flt.fmax (Flt.sqrt ((muEff - 1) / (Flt.ofNat dim + 1)) - 1) 0

/-- `Parameters::from_options` and `Parameters::new`, `/repo/src/parameters/mod.rs:107-155`. -/
def Parameters.fromOptions (o : Options n F) (seed : Nat) : Parameters F :=
  let iw : InitialWeights F := InitialWeights.new o.populationSize o.weights
  let muEff := iw.muEff
  let cc := paramCc n muEff
  let c1 := paramC1 n muEff
  let cmu := paramCmu n muEff c1
  let cs := paramCs n muEff
  { mode := o.mode
    dim := n
    lambda := o.populationSize
    mu := iw.mu
    initialSigma := o.initialStepSize
    muEff
    weights := iw.finalize n c1 cmu
    setting := o.weights
    cc
    c1
    cs
    cmu
    cm := o.cm
    dampS := paramDampS n muEff cs
    termination := TerminationParameters.fromOptions o
    seed
    parallelUpdate := o.parallelUpdate }

end Cmaes
