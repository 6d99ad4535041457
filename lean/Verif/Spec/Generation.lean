import Verif.Spec.Exact

/-!
# Specification: one generation of CMA-ES over the real numbers

The update equations of CMA-ES as they are published (Hansen, "The CMA Evolution Strategy: A
Tutorial", with active covariance adaptation), for real vectors and matrices. Only the relations in
the last section, `Rep`, `Shows` and `HasParams`, refer to the model of the code.
-/

namespace Cmaes
open Matrix

/-- Strategy parameters: `mu` selected points, recombination weights (best point first), and the
learning rates. -/
structure RealParams where
  mu : ℕ
  weights : List ℝ
  muEff : ℝ
  cm : ℝ
  cc : ℝ
  c1 : ℝ
  cs : ℝ
  cmu : ℝ
  dampS : ℝ

/-- The search distribution and the evolution paths. `B`, `d` is the eigendecomposition in use,
which may be older than `C`. -/
structure RealState (n : ℕ) where
  mean : Fin n → ℝ
  sigma : ℝ
  C : Matrix (Fin n) (Fin n) ℝ
  pathC : Fin n → ℝ
  pathSigma : Fin n → ℝ
  B : Matrix (Fin n) (Fin n) ℝ
  d : Fin n → ℝ

namespace RealState
variable {n : ℕ}

/-- `B diag(d)^(1/2)`: turns standard normal vectors into steps. -/
noncomputable def transform (r : RealState n) : Matrix (Fin n) (Fin n) ℝ :=
  r.B * diagonal fun i => Real.sqrt (r.d i)

/-- `B diag(d)^(-1/2) Bᵀ`, the inverse square root of the matrix that was decomposed. -/
noncomputable def invSqrt (r : RealState n) : Matrix (Fin n) (Fin n) ℝ :=
  r.B * (diagonal fun i => 1 / Real.sqrt (r.d i)) * r.Bᵀ

/-- The matrix that was decomposed. -/
def decomposed (r : RealState n) : Matrix (Fin n) (Fin n) ℝ := r.B * diagonal r.d * r.Bᵀ

end RealState

/-- Approximation of the expected length of a standard normal vector. -/
noncomputable def realChi (n : ℕ) : ℝ := Real.sqrt n * (1 - 1 / (4 * n) + 1 / (21 * n ^ 2))

/-- Euclidean length. -/
noncomputable def len {n : ℕ} (x : Fin n → ℝ) : ℝ := Real.sqrt (x ⬝ᵥ x)

namespace RealParams
variable {n : ℕ} (p : RealParams) (r : RealState n) (g : ℕ) (ys : List (Fin n → ℝ))

/-- The weighted mean of the `mu` best steps. -/
noncomputable def step : Fin n → ℝ := (List.zipWith (· • ·) (p.weights.take p.mu) ys).sum

/-- The new mean. -/
noncomputable def mean : Fin n → ℝ := r.mean + (p.cm * r.sigma) • p.step ys

/-- The new conjugate evolution path. -/
noncomputable def pathSigma : Fin n → ℝ :=
  (1 - p.cs) • r.pathSigma + Real.sqrt (p.cs * (2 - p.cs) * p.muEff) • (r.invSqrt *ᵥ p.step ys)

open Classical in
/-- Zero if the conjugate path is too long (the update of the path for `C` is then stalled). -/
noncomputable def hs : ℝ :=
  if len (p.pathSigma r ys) / Real.sqrt (1 - (1 - p.cs) ^ (2 * (g + 1))) <
    (14 / 10 + 2 / (n + 1)) * realChi n then 1 else 0

/-- The new evolution path. -/
noncomputable def pathC : Fin n → ℝ :=
  (1 - p.cc) • r.pathC + (p.hs r g ys * Real.sqrt (p.cc * (2 - p.cc) * p.muEff)) • p.step ys

/-- The new step size. -/
noncomputable def sigma : ℝ :=
  r.sigma * Real.exp (p.cs / p.dampS * (len (p.pathSigma r ys) / realChi n - 1))

open Classical in
/-- The weight of a step in the rank-mu update: negative weights are scaled with the length of the
step in the coordinates of the search distribution. -/
noncomputable def covWeight (w : ℝ) (y : Fin n → ℝ) : ℝ :=
  if w < 0 then w * (n / len (r.invSqrt *ᵥ y) ^ 2) else w

/-- The rank-mu matrix. -/
noncomputable def rankMu : Matrix (Fin n) (Fin n) ℝ :=
  (List.zipWith (fun w y => covWeight r w y • vecMulVec y y) p.weights ys).sum

/-- The new covariance matrix. -/
noncomputable def cov : Matrix (Fin n) (Fin n) ℝ :=
  (1 + p.c1 * ((1 - p.hs r g ys) * p.cc * (2 - p.cc)) - p.c1 - p.cmu * p.weights.sum) • r.C +
    p.c1 • vecMulVec (p.pathC r g ys) (p.pathC r g ys) + p.cmu • p.rankMu r ys

end RealParams

/-- `r'` results from `r` by one generation, number `g + 1`, with the steps `ys`, best first. The
eigendecomposition in use is kept or replaced by one of the new matrix. -/
structure Generation {n : ℕ} (q : RealParams) (g : ℕ) (ys : List (Fin n → ℝ)) (r r' : RealState n) :
    Prop where
  mean : r'.mean = q.mean r ys
  sigma : r'.sigma = q.sigma r ys
  pathSigma : r'.pathSigma = q.pathSigma r ys
  pathC : r'.pathC = q.pathC r g ys
  cov : r'.C = q.cov r g ys
  eigen : (r'.B = r.B ∧ r'.d = r.d) ∨ Decomposes r'.C r'.B r'.d

/-! ### The model's values as real numbers -/

variable {n : ℕ}

/-- The model's state represents a state over the real numbers. -/
structure Rep (s : State n XR) (r : RealState n) : Prop where
  mean : s.mean = Vec.fin r.mean
  sigma : s.sigma = .fin r.sigma
  cov : s.cov.cov = Mat.fin r.C
  pathC : s.pathC = Vec.fin r.pathC
  pathSigma : s.pathSigma = Vec.fin r.pathSigma
  eigenvectors : s.cov.eigenvectors = Mat.fin r.B
  sqrtEigenvalues : s.cov.sqrtEigenvalues = Mat.fin (diagonal fun i => Real.sqrt (r.d i))
  sqrtInv : s.cov.sqrtInv = Mat.fin r.invSqrt
  transform : s.cov.transform = Mat.fin r.transform

/-- The accessors `mean()`, `sigma()`, `covariance_matrix()` and `eigenvalues()` return the values
of `r`. -/
structure Shows {R : Type} (c : CMAES n XR R) (r : RealState n) : Prop where
  mean : c.mean = Vec.fin r.mean
  sigma : c.sigma = .fin r.sigma
  cov : c.covarianceMatrix = Mat.fin r.C
  eigenvalues : c.eigenvalues = Vec.fin r.d

/-- The decomposition in use is orthonormal with positive eigenvalues, the covariance matrix is
symmetric and the step size positive. -/
structure RealState.Good (r : RealState n) : Prop where
  orthonormal : r.Bᵀ * r.B = 1
  pos : ∀ i, 0 < r.d i
  symm : r.Cᵀ = r.C
  sigma : 0 < r.sigma

/-- The model's parameters are the real numbers `q`. -/
structure HasParams (p : Parameters XR) (q : RealParams) : Prop where
  mu : p.mu = q.mu
  weights : p.weights = q.weights.map .fin
  muEff : p.muEff = .fin q.muEff
  cm : p.cm = .fin q.cm
  cc : p.cc = .fin q.cc
  c1 : p.c1 = .fin q.c1
  cs : p.cs = .fin q.cs
  cmu : p.cmu = .fin q.cmu
  dampS : p.dampS = .fin q.dampS

end Cmaes
