import Verif.Model.Parameters
import Verif.Model.History

/-!
# `matrix.rs` and `state.rs`
-/

namespace Cmaes
variable {n : Nat} {F R : Type} [Flt F]

/-- `CovarianceMatrix`, `/repo/src/matrix.rs:10-23`. -/
structure CovMat (n : Nat) (F : Type) where
  cov : Mat n F
  eigenvectors : Mat n F
  sqrtEigenvalues : Mat n F
  sqrtInv : Mat n F
  transform : Mat n F

/-- `CovarianceMatrix::new`, `/repo/src/matrix.rs:26-34`. -/
def CovMat.new : CovMat n F :=
  { cov := Mat.one, eigenvectors := Mat.one, sqrtEigenvalues := Mat.one, sqrtInv := Mat.one,
    transform := Mat.one }

/-- nalgebra `normalize_mut` on every column, `/repo/src/matrix.rs:81-83`. -/
def normalizeCols (B : Mat n F) : Mat n F := fun i j => B i j / (B.col j).magnitude

/-- `CovarianceMatrix::update_eigendecomposition`, `/repo/src/matrix.rs:63-100`; `none` is
`PosDefCovError`. -/
def CovMat.updateEigen (eigen : Mat n F → Option (Mat n F × Vec n F)) (c : CovMat n F) :
    Option (CovMat n F) :=
  match eigen c.cov with
  | none => none
  | some (vecs, vals) =>
    let vecs := normalizeCols vecs
    if (List.ofFn vals).any (fun x => Flt.le x 0) then none
    else
      let sqrtEigenvalues := Mat.diagonal fun i => Flt.sqrt (vals i)
      some
        { cov := c.cov
          eigenvectors := vecs
          sqrtEigenvalues
          sqrtInv :=
            (vecs.mul (sqrtEigenvalues.map fun d => if Flt.lt 0 d then 1 / d else d)).mul
              vecs.transpose
          transform := vecs.mul sqrtEigenvalues }

/-- `CovarianceMatrix::set_cov`, `/repo/src/matrix.rs:44-58`. The second component is `false` for
`PosDefCovError`; the new covariance matrix is stored even then. -/
def CovMat.setCov (eigen : Mat n F → Option (Mat n F × Vec n F)) (c : CovMat n F) (new : Mat n F)
    (updateEigen : Bool) : CovMat n F × Bool :=
  let c := { c with cov := new.fillLower }
  if updateEigen then
    match c.updateEigen eigen with
    | some c => (c, true)
    | none => (c, false)
  else (c, true)

/-- `State`, `/repo/src/state.rs:11-26`. -/
structure State (n : Nat) (F : Type) where
  generation : Nat
  mean : Vec n F
  cov : CovMat n F
  sigma : F
  pathC : Vec n F
  pathSigma : Vec n F
  lastEigenUpdateEvals : Nat

/-- `State::new`, `/repo/src/state.rs:30-47`. -/
def State.new (mean : Vec n F) (sigma : F) : State n F :=
  { generation := 0, mean, cov := CovMat.new, sigma, pathC := Vec.zero, pathSigma := Vec.zero,
    lastEigenUpdateEvals := 0 }

/-- `State::axis_ratio`, `/repo/src/state.rs:172-175`. -/
def State.axisRatio (s : State n F) : F :=
  s.cov.sqrtEigenvalues.diag.max / s.cov.sqrtEigenvalues.diag.min

/-- `State::evals_per_eigen_update`, `/repo/src/state.rs:186-190`. -/
def evalsPerEigenUpdate (p : Parameters F) : Nat :=
  Flt.toUsize (Flt.ceil (Flt.ofRat (1 / 2) * Flt.ofNat p.dim * Flt.ofNat p.lambda /
    ((p.c1 + p.cmu) * Flt.ofNat (p.dim ^ 2))))

/-- The step used for the mean, `/repo/src/state.rs:68-73`: the sum of the first `mu` steps times
their weights. -/
def weightedStep (p : Parameters F) (inds : List (EvaluatedPoint n F)) : Outcome (Vec n F) := do
  let terms ← (inds.take p.mu).zipIdx.mapM fun (ind, i) => do
    let w ← Outcome.unwrap .index p.weights[i]?
    Outcome.ok (ind.unscaledStep.smul w)
  sumNonempty Vec.add terms

/-- `chi_n`, `/repo/src/state.rs:83-84`. -/
def chiN (F : Type) [Flt F] (dim : Nat) : F :=
  Flt.sqrt (Flt.ofNat dim) *
    (1 - 1 / (4 * Flt.ofNat dim) + 1 / (21 * Flt.ofNat (dim ^ 2)))

/-- `path_sigma`, `/repo/src/state.rs:79-80`. -/
def newPathSigma (p : Parameters F) (s : State n F) (yw : Vec n F) : Vec n F :=
  (s.pathSigma.smul (1 - p.cs)).add
    ((s.cov.sqrtInv.smul (Flt.sqrt (p.cs * (2 - p.cs) * p.muEff))).mulVec yw)

/-- `hs`, `/repo/src/state.rs:86-93`. The exponent `2 * (generation as i32 + 1)` is an `i32`. -/
def heaviside (p : Parameters F) (generation : Nat) (pathSigma : Vec n F) : Outcome F :=
  if 2 ^ 31 ≤ 2 * (generation + 1) then .panic .overflow
  else
    .ok (if Flt.lt
        (pathSigma.magnitude /
          Flt.sqrt (1 - Flt.powi (1 - p.cs) (2 * (generation + 1))))
        ((Flt.ofRat (14 / 10) + 2 / (Flt.ofNat p.dim + 1)) * chiN F p.dim) then 1 else 0)

/-- `path_c`, `/repo/src/state.rs:95`. -/
def newPathC (p : Parameters F) (s : State n F) (hs : F) (yw : Vec n F) : Vec n F :=
  (s.pathC.smul (1 - p.cc)).add (yw.smul (hs * Flt.sqrt (p.cc * (2 - p.cc) * p.muEff)))

/-- `sigma`, `/repo/src/state.rs:98`. -/
def newSigma (p : Parameters F) (sigma : F) (pathSigma : Vec n F) : F :=
  sigma * Flt.exp ((p.cs / p.dampS) * ((pathSigma.magnitude / chiN F p.dim) - 1))

/-- `map_weights`, `/repo/src/state.rs:103-114`: the contribution of the individual of rank `i`. -/
def rankMuTerm (p : Parameters F) (sqrtInv : Mat n F) (inds : List (EvaluatedPoint n F))
    (i : Nat) (w : F) : Outcome (Mat n F) := do
  let ind ← Outcome.unwrap .index inds[i]?
  let y := ind.unscaledStep
  let wc := if Flt.lt w 0 then
      w * (Flt.ofNat p.dim / Flt.powi (sqrtInv.mulVec y).magnitude 2)
    else w
  .ok (Mat.outer (y.smul wc) y)

/-- rayon's `reduce`, `/repo/src/state.rs:228-233`: every leaf folds its items starting from the
identity, inner nodes combine their halves. -/
def treeReduce {α : Type} (identity : α) (op : α → α → α) : SplitTree → List α → α
  | .leaf, l => l.foldl op identity
  | .node k a b, l => op (treeReduce identity op a (l.take k)) (treeReduce identity op b (l.drop k))

/-- `rank_mu_update` and `rank_mu_update_parallel`, `/repo/src/state.rs:115-121, 215-234`. -/
def rankMuUpdate (p : Parameters F) (tree : SplitTree) (sqrtInv : Mat n F)
    (inds : List (EvaluatedPoint n F)) : Outcome (Mat n F) := do
  let terms ← p.weights.zipIdx.mapM fun (w, i) => rankMuTerm p sqrtInv inds i w
  if p.parallelUpdate then
    .ok (treeReduce Mat.zero Mat.add tree terms)
  else sumNonempty Mat.add terms

/-- `cov_new`, `/repo/src/state.rs:123-127`. -/
def newCov (p : Parameters F) (cov : Mat n F) (hs : F) (pathC : Vec n F) (rankMu : Mat n F) :
    Mat n F :=
  let deltaHs := (1 - hs) * p.cc * (2 - p.cc)
  ((cov.smul (1 + p.c1 * deltaHs - p.c1 - p.cmu * fsum p.weights)).add
    (Mat.outer (pathC.smul p.c1) pathC)).add (rankMu.smul p.cmu)

/-- `State::update`, `/repo/src/state.rs:50-144`. The sum `last_eigen_update_evals + evals_per_eigen`
is taken not to overflow: `evals_per_eigen` is at most about `lambda * ((dim + 1.3)² + lambda) / dim`,
and vectors with `dim` and `lambda` elements were allocated. The second component is `false` for
`PosDefCovError`: mean, step size, paths and covariance matrix have then already been changed, but
not the generation. -/
def State.update (eigen : Mat n F → Option (Mat n F × Vec n F)) (tree : SplitTree)
    (evals : Nat) (p : Parameters F) (inds : List (EvaluatedPoint n F)) (s : State n F) :
    Outcome (State n F × Bool) := do
  let yw ← weightedStep p inds
  let mean := s.mean.add (yw.smul (p.cm * s.sigma))
  let pathSigma := newPathSigma p s yw
  let hs ← heaviside p s.generation pathSigma
  let pathC := newPathC p s hs yw
  let sigma := newSigma p s.sigma pathSigma
  let rankMu ← rankMuUpdate p tree s.cov.sqrtInv inds
  let covNew := newCov p s.cov.cov hs pathC rankMu
  let doEigenUpdate := decide (s.lastEigenUpdateEvals + evalsPerEigenUpdate p ≤ evals)
  let (cov, ok) := s.cov.setCov eigen covNew doEigenUpdate
  if ok then
    .ok ({ generation := s.generation + 1, mean, cov, sigma, pathC, pathSigma
           lastEigenUpdateEvals := if doEigenUpdate then evals else s.lastEigenUpdateEvals }, true)
  else
    .ok ({ s with mean, cov, sigma, pathC, pathSigma }, false)

end Cmaes
