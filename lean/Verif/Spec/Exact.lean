import Verif.Float.XRLemmas
import Verif.Model.Cmaes
import Verif.Spec.Draws
import Mathlib.LinearAlgebra.Matrix.PosDef
import Mathlib.Data.Real.Star

/-!
# Specification vocabulary: runs in exact arithmetic

`XR` has infinities and NaN besides the real numbers. `Vec.fin`/`Mat.fin` embed real vectors and
matrices. What the outside world must do for a run to be exact:

* the eigensolver returns an exact decomposition of every real symmetric matrix (`ExactEigen`);
* the random numbers are real (`RealDraws`), and no drawn vector is zero (`NonzeroDraws`).
-/

namespace Cmaes
variable {n : Nat} {R : Type}
open Matrix

/-- A real vector. -/
def Vec.fin (x : Fin n → ℝ) : Vec n XR := fun i => .fin (x i)

/-- A real matrix. -/
def Mat.fin (A : Matrix (Fin n) (Fin n) ℝ) : Mat n XR := fun i j => .fin (A i j)

/-- `C = B diag(d) Bᵀ` with orthonormal columns of `B`. -/
structure Decomposes (C B : Matrix (Fin n) (Fin n) ℝ) (d : Fin n → ℝ) : Prop where
  orthonormal : Bᵀ * B = 1
  eq : C = B * diagonal d * Bᵀ

/-- The eigensolver is exact on real symmetric matrices. -/
def ExactEigen (env : Env n XR R) : Prop :=
  ∀ C : Matrix (Fin n) (Fin n) ℝ, Cᵀ = C →
    ∃ B d, env.eigen (Mat.fin C) = some (Mat.fin B, Vec.fin d) ∧ Decomposes C B d

/-- Every drawn vector is real. -/
def RealDraws (env : Env n XR R) : Prop :=
  ∀ r, ∃ z : Fin n → ℝ, env.rng.vector r 0 = Vec.fin z

/-- Every drawn vector is real and not zero. -/
def NonzeroDraws (env : Env n XR R) : Prop :=
  ∀ r, ∃ z : Fin n → ℝ, z ≠ 0 ∧ env.rng.vector r 0 = Vec.fin z

theorem NonzeroDraws.real {env : Env n XR R} (h : NonzeroDraws env) : RealDraws env :=
  fun r => let ⟨z, _, hz⟩ := h r; ⟨z, hz⟩

/-- A run in exact arithmetic: the eigensolver is exact, the random numbers are real, no drawn
vector is zero if negative weights are used, and the initial mean is real. -/
structure ExactRun (env : Env n XR R) (o : Options n XR) : Prop where
  eigen : ExactEigen env
  draws : RealDraws env
  nonzero : o.weights = .negative → NonzeroDraws env
  mean : ∃ m, o.initialMean = Vec.fin m

end Cmaes
