import Verif.Spec.Exact
import Mathlib.Analysis.Matrix.Spectrum

/-!
# Vector and matrix operations on real entries
-/

namespace Cmaes
set_option linter.unusedSectionVars false
variable {n : Nat}
open Matrix XR

theorem fsum_map_fin (l : List ℝ) : fsum (l.map (.fin : ℝ → XR)) = .fin l.sum := by
  unfold fsum
  rw [zero_eq, foldl_fin, zero_add]

theorem fsum_ofFn (f : Fin n → ℝ) : fsum (List.ofFn fun i => (.fin (f i) : XR)) = .fin (∑ i, f i) := by
  have : (List.ofFn fun i => (.fin (f i) : XR)) = (List.ofFn f).map .fin := by
    rw [List.map_ofFn]; rfl
  rw [this, fsum_map_fin, List.sum_ofFn]

theorem Vec.fin_injective : Function.Injective (Vec.fin (n := n)) := fun x y h => by
  funext i
  have := congrFun h i
  simpa [Vec.fin] using this

theorem Mat.fin_injective : Function.Injective (Mat.fin (n := n)) := fun A B h => by
  funext i j
  have := congrFun (congrFun h i) j
  simpa [Mat.fin] using this

theorem Vec.add_fin (x y : Fin n → ℝ) : (Vec.fin x).add (Vec.fin y) = Vec.fin (x + y) := rfl

theorem Vec.smul_fin (a : ℝ) (x : Fin n → ℝ) : (Vec.fin x).smul (.fin a) = Vec.fin (a • x) := rfl

theorem Vec.zero_fin : (Vec.zero : Vec n XR) = Vec.fin 0 := by
  funext i; exact zero_eq

theorem Vec.magnitude_fin (x : Fin n → ℝ) : (Vec.fin x).magnitude = .fin (Real.sqrt (x ⬝ᵥ x)) := by
  unfold Vec.magnitude Vec.fin
  simp only [mul_fin]
  rw [fsum_ofFn, sqrt_fin (Finset.sum_nonneg fun i _ => mul_self_nonneg _)]
  rfl

theorem Mat.add_fin (A B : Matrix (Fin n) (Fin n) ℝ) :
    (Mat.fin A).add (Mat.fin B) = Mat.fin (A + B) := rfl

theorem Mat.smul_fin (a : ℝ) (A : Matrix (Fin n) (Fin n) ℝ) :
    (Mat.fin A).smul (.fin a) = Mat.fin (a • A) := rfl

theorem Mat.zero_fin : (Mat.zero : Mat n XR) = Mat.fin 0 := by
  funext i j; exact zero_eq

theorem Mat.one_fin : (Mat.one : Mat n XR) = Mat.fin 1 := by
  funext i j
  simp only [Mat.one, Mat.fin, Matrix.one_apply, zero_eq, one_eq]
  split <;> rfl

theorem Mat.diagonal_fin (d : Fin n → ℝ) : Mat.diagonal (Vec.fin d) = Mat.fin (Matrix.diagonal d) := by
  funext i j
  simp only [Mat.diagonal, Mat.fin, Vec.fin, Matrix.diagonal_apply, zero_eq]
  split <;> rfl

theorem Mat.mul_fin (A B : Matrix (Fin n) (Fin n) ℝ) :
    (Mat.fin A).mul (Mat.fin B) = Mat.fin (A * B) := by
  funext i j
  simp only [Mat.mul, Mat.fin, XR.mul_fin]
  rw [fsum_ofFn]
  rfl

theorem Mat.mulVec_fin (A : Matrix (Fin n) (Fin n) ℝ) (x : Fin n → ℝ) :
    (Mat.fin A).mulVec (Vec.fin x) = Vec.fin (A *ᵥ x) := by
  funext i
  simp only [Mat.mulVec, Mat.fin, Vec.fin, XR.mul_fin]
  rw [fsum_ofFn]
  rfl

theorem Mat.transpose_fin (A : Matrix (Fin n) (Fin n) ℝ) :
    (Mat.fin A).transpose = Mat.fin Aᵀ := rfl

theorem Mat.outer_fin (x y : Fin n → ℝ) :
    Mat.outer (Vec.fin x) (Vec.fin y) = Mat.fin (vecMulVec x y) := rfl

theorem Mat.fillLower_fin {A : Matrix (Fin n) (Fin n) ℝ} (h : Aᵀ = A) :
    (Mat.fin A).fillLower = Mat.fin A := by
  funext i j
  simp only [Mat.fillLower, Mat.fin]
  split
  · congr 1
    have := congrFun (congrFun h i) j
    exact this
  · rfl

theorem Mat.col_fin (A : Matrix (Fin n) (Fin n) ℝ) (j : Fin n) :
    (Mat.fin A).col j = Vec.fin fun i => A i j := rfl

/-- Columns of an orthonormal matrix have length one. -/
theorem col_dot {B : Matrix (Fin n) (Fin n) ℝ} (h : Bᵀ * B = 1) (j : Fin n) :
    (fun i => B i j) ⬝ᵥ (fun i => B i j) = 1 := by
  have := congrFun (congrFun h j) j
  rw [Matrix.mul_apply, Matrix.one_apply_eq] at this
  exact this

theorem normalizeCols_fin {B : Matrix (Fin n) (Fin n) ℝ} (h : Bᵀ * B = 1) :
    normalizeCols (Mat.fin B) = Mat.fin B := by
  funext i j
  unfold normalizeCols
  rw [Mat.col_fin, Vec.magnitude_fin, col_dot h, Real.sqrt_one]
  simp only [Mat.fin]
  rw [div_fin one_ne_zero, div_one]

/-- Every real symmetric matrix has a decomposition. -/
theorem exists_decomposes {C : Matrix (Fin n) (Fin n) ℝ} (h : Cᵀ = C) : ∃ B d, Decomposes C B d := by
  have hC : C.IsHermitian := by
    rw [Matrix.IsHermitian, Matrix.conjTranspose_eq_transpose_of_trivial, h]
  refine ⟨hC.eigenvectorUnitary, hC.eigenvalues, ?_, ?_⟩
  · have := Matrix.mem_unitaryGroup_iff'.mp hC.eigenvectorUnitary.2
    rwa [star_eq_conjTranspose, conjTranspose_eq_transpose_of_trivial] at this
  · have := hC.spectral_theorem
    rw [Unitary.conjStarAlgAut_apply] at this
    rw [star_eq_conjTranspose, conjTranspose_eq_transpose_of_trivial] at this
    exact this

end Cmaes
