import Verif.Lemmas.RealState

/-!
# Positive definiteness of the covariance matrix over the real numbers
-/

namespace Cmaes
set_option linter.unusedSectionVars false
variable {n : Nat} {r : RealState n} {q : RealParams}
open Matrix

/-- `vᵀ A v`. -/
def quad (A : Matrix (Fin n) (Fin n) ℝ) (v : Fin n → ℝ) : ℝ := v ⬝ᵥ A *ᵥ v

theorem quad_add (A B : Matrix (Fin n) (Fin n) ℝ) (v : Fin n → ℝ) :
    quad (A + B) v = quad A v + quad B v := by
  unfold quad; rw [add_mulVec, dotProduct_add]

theorem quad_smul (a : ℝ) (A : Matrix (Fin n) (Fin n) ℝ) (v : Fin n → ℝ) :
    quad (a • A) v = a * quad A v := by
  unfold quad; rw [smul_mulVec, dotProduct_smul, smul_eq_mul]

theorem quad_vecMulVec (y v : Fin n → ℝ) : quad (vecMulVec y y) v = (v ⬝ᵥ y) ^ 2 := by
  unfold quad
  rw [vecMulVec_mulVec]
  simp only [op_smul_eq_smul, dotProduct_smul, smul_eq_mul]
  rw [dotProduct_comm y v]
  ring

theorem quad_sum (l : List (Matrix (Fin n) (Fin n) ℝ)) (v : Fin n → ℝ) :
    quad l.sum v = (l.map fun A => quad A v).sum := by
  induction l with
  | nil => simp [quad]
  | cons a l ih => rw [List.sum_cons, quad_add, ih, List.map_cons, List.sum_cons]

theorem posDef_of_quad {A : Matrix (Fin n) (Fin n) ℝ} (h : Aᵀ = A)
    (hq : ∀ v, v ≠ 0 → 0 < quad A v) : A.PosDef := by
  refine posDef_iff_dotProduct_mulVec.mpr ⟨?_, fun v hv => ?_⟩
  · rw [IsHermitian, conjTranspose_eq_transpose_of_trivial, h]
  · rw [star_trivial]; exact hq v hv

theorem PosDef.quad_pos {A : Matrix (Fin n) (Fin n) ℝ} (h : A.PosDef) {v : Fin n → ℝ} (hv : v ≠ 0) :
    0 < quad A v := by
  have := (posDef_iff_dotProduct_mulVec.mp h).2 hv
  rwa [star_trivial] at this

theorem PosDef.quad_nonneg {A : Matrix (Fin n) (Fin n) ℝ} (h : A.PosDef) (v : Fin n → ℝ) :
    0 ≤ quad A v := by
  by_cases hv : v = 0
  · subst hv; simp [quad]
  · exact (PosDef.quad_pos h hv).le

theorem PosDef.symm' {A : Matrix (Fin n) (Fin n) ℝ} (h : A.PosDef) : Aᵀ = A := by
  have := h.1
  rwa [IsHermitian, conjTranspose_eq_transpose_of_trivial] at this

/-! ### The decomposition -/

/-- The square root of the decomposed matrix. -/
noncomputable def RealState.root (r : RealState n) : Matrix (Fin n) (Fin n) ℝ :=
  r.B * (diagonal fun i => Real.sqrt (r.d i)) * r.Bᵀ

theorem RealState.Good.orthonormal' (h : r.Good) : r.B * r.Bᵀ = 1 :=
  mul_eq_one_comm.mp h.orthonormal

theorem conj_mul {B : Matrix (Fin n) (Fin n) ℝ} (h : Bᵀ * B = 1) (d e : Fin n → ℝ) :
    B * diagonal d * Bᵀ * (B * diagonal e * Bᵀ) = B * (diagonal fun i => d i * e i) * Bᵀ := by
  calc B * diagonal d * Bᵀ * (B * diagonal e * Bᵀ)
      = B * diagonal d * (Bᵀ * B) * diagonal e * Bᵀ := by simp only [Matrix.mul_assoc]
    _ = _ := by rw [h, Matrix.mul_one, Matrix.mul_assoc B, diagonal_mul_diagonal]

theorem conj_symm (B : Matrix (Fin n) (Fin n) ℝ) (d : Fin n → ℝ) :
    (B * diagonal d * Bᵀ)ᵀ = B * diagonal d * Bᵀ := by
  rw [transpose_mul, transpose_mul, transpose_transpose, diagonal_transpose, Matrix.mul_assoc]

theorem root_mul_invSqrt (h : r.Good) : r.root * r.invSqrt = 1 := by
  unfold RealState.root RealState.invSqrt
  rw [conj_mul h.orthonormal]
  have : (fun i => Real.sqrt (r.d i) * (1 / Real.sqrt (r.d i))) = fun _ => 1 := by
    funext i
    have := (Real.sqrt_pos.mpr (h.pos i)).ne'
    field_simp
  rw [this, diagonal_one, Matrix.mul_one, h.orthonormal']

theorem invSqrt_mul_root (h : r.Good) : r.invSqrt * r.root = 1 :=
  mul_eq_one_comm.mp (root_mul_invSqrt h)

theorem root_mul_root (h : r.Good) : r.root * r.root = r.decomposed := by
  unfold RealState.root RealState.decomposed
  rw [conj_mul h.orthonormal]
  congr 3
  funext i
  exact Real.mul_self_sqrt (h.pos i).le

theorem root_symm (r : RealState n) : r.rootᵀ = r.root := conj_symm _ _
theorem invSqrt_symm (r : RealState n) : r.invSqrtᵀ = r.invSqrt := conj_symm _ _
theorem decomposed_symm (r : RealState n) : r.decomposedᵀ = r.decomposed := conj_symm _ _

theorem dot_mulVec_symm {A : Matrix (Fin n) (Fin n) ℝ} (h : Aᵀ = A) (x y : Fin n → ℝ) :
    (A *ᵥ x) ⬝ᵥ y = x ⬝ᵥ (A *ᵥ y) := by
  rw [dotProduct_mulVec, ← mulVec_transpose, h]

theorem quad_decomposed (h : r.Good) (v : Fin n → ℝ) :
    quad r.decomposed v = (r.root *ᵥ v) ⬝ᵥ (r.root *ᵥ v) := by
  rw [dot_mulVec_symm (root_symm r), mulVec_mulVec, root_mul_root h]
  rfl

theorem decomposed_posDef (h : r.Good) : r.decomposed.PosDef := by
  refine posDef_of_quad (decomposed_symm r) fun v hv => ?_
  rw [quad_decomposed h]
  have h0 : r.root *ᵥ v ≠ 0 := by
    intro h1
    have : r.invSqrt *ᵥ (r.root *ᵥ v) = v := by
      rw [mulVec_mulVec, invSqrt_mul_root h, one_mulVec]
    rw [h1, mulVec_zero] at this
    exact hv this.symm
  have h1 : 0 ≤ (r.root *ᵥ v) ⬝ᵥ (r.root *ᵥ v) := Finset.sum_nonneg fun i _ => mul_self_nonneg _
  rcases h1.lt_or_eq with h2 | h2
  · exact h2
  · exact absurd (dotProduct_self_eq_zero.mp h2.symm) h0

theorem len_sq (x : Fin n → ℝ) : len x ^ 2 = x ⬝ᵥ x :=
  Real.sq_sqrt (Finset.sum_nonneg fun i _ => mul_self_nonneg _)

theorem len_nonneg (x : Fin n → ℝ) : 0 ≤ len x := Real.sqrt_nonneg _

theorem len_eq_zero {x : Fin n → ℝ} : len x = 0 ↔ x = 0 := by
  rw [← dotProduct_self_eq_zero, ← len_sq]
  simp

theorem dot_sq_le (x y : Fin n → ℝ) : (x ⬝ᵥ y) ^ 2 ≤ (x ⬝ᵥ x) * (y ⬝ᵥ y) := by
  have := Finset.sum_mul_sq_le_sq_mul_sq Finset.univ x y
  simpa only [dotProduct, pow_two] using this

/-- `y yᵀ` is at most `‖C^(-1/2) y‖² C` for the decomposed matrix `C`. -/
theorem dot_sq_le_decomposed (h : r.Good) (v y : Fin n → ℝ) :
    (v ⬝ᵥ y) ^ 2 ≤ len (r.invSqrt *ᵥ y) ^ 2 * quad r.decomposed v := by
  have e : v ⬝ᵥ y = (r.root *ᵥ v) ⬝ᵥ (r.invSqrt *ᵥ y) := by
    rw [dot_mulVec_symm (root_symm r), mulVec_mulVec, root_mul_invSqrt h, one_mulVec]
  rw [e, quad_decomposed h, len_sq, mul_comm]
  exact dot_sq_le _ _

theorem invSqrt_ne (h : r.Good) {y : Fin n → ℝ} (hy : y ≠ 0) : len (r.invSqrt *ᵥ y) ≠ 0 := by
  rw [Ne, len_eq_zero]
  intro h1
  have : r.root *ᵥ (r.invSqrt *ᵥ y) = y := by
    rw [mulVec_mulVec, root_mul_invSqrt h, one_mulVec]
  rw [h1, mulVec_zero] at this
  exact hy this.symm

theorem transform_ne (h : r.Good) {z : Fin n → ℝ} (hz : z ≠ 0) : r.transform *ᵥ z ≠ 0 := by
  intro h1
  apply hz
  have e : (diagonal fun i => 1 / Real.sqrt (r.d i)) * r.Bᵀ * r.transform = 1 := by
    unfold RealState.transform
    rw [Matrix.mul_assoc, ← Matrix.mul_assoc r.Bᵀ, h.orthonormal, Matrix.one_mul,
      diagonal_mul_diagonal]
    rw [← diagonal_one]
    congr 1
    funext i
    have := (Real.sqrt_pos.mpr (h.pos i)).ne'
    field_simp
  have : ((diagonal fun i => 1 / Real.sqrt (r.d i)) * r.Bᵀ) *ᵥ (r.transform *ᵥ z) = z := by
    rw [mulVec_mulVec, e, one_mulVec]
  rw [h1, mulVec_zero] at this
  exact this.symm

theorem posDef_iff_eigen {C B : Matrix (Fin n) (Fin n) ℝ} {d : Fin n → ℝ} (h : Decomposes C B d) :
    C.PosDef → ∀ i, 0 < d i := by
  intro hC i
  have hv : B *ᵥ Pi.single i 1 ≠ 0 := by
    intro h0
    have e : Bᵀ *ᵥ (B *ᵥ Pi.single i 1) = Pi.single i 1 := by
      rw [mulVec_mulVec, h.orthonormal, one_mulVec]
    rw [h0, mulVec_zero] at e
    have := congrFun e i
    simp at this
  have := PosDef.quad_pos hC hv
  unfold quad at this
  have e : C *ᵥ (B *ᵥ Pi.single i 1) = B *ᵥ (d i • Pi.single i 1) := by
    rw [h.eq, mulVec_mulVec, Matrix.mul_assoc, h.orthonormal, Matrix.mul_one, ← mulVec_mulVec,
      diagonal_mulVec_single, ← Pi.single_smul]
    simp
  rw [e, mulVec_smul, dotProduct_smul] at this
  have e2 : (B *ᵥ Pi.single i 1) ⬝ᵥ (B *ᵥ Pi.single i (1 : ℝ)) = 1 := by
    rw [dotProduct_mulVec, ← mulVec_transpose, mulVec_mulVec, h.orthonormal, one_mulVec]
    simp
  rw [e2] at this
  simpa using this

/-! ### One generation -/

/-- The sum of the negative weights. -/
noncomputable def negSum (ws : List ℝ) : ℝ := (ws.map fun w => min w 0).sum

theorem negSum_nonpos (ws : List ℝ) : negSum ws ≤ 0 := by
  unfold negSum
  induction ws with
  | nil => simp
  | cons w ws ih =>
    rw [List.map_cons, List.sum_cons]
    have := min_le_right w 0
    linarith

theorem rankMu_ge (h : r.Good) (v : Fin n → ℝ) (ws : List ℝ) (ys : List (Fin n → ℝ)) :
    n * negSum ws * quad r.decomposed v ≤
      quad (List.zipWith (fun w y => RealParams.covWeight r w y • vecMulVec y y) ws ys).sum v := by
  have hq := PosDef.quad_nonneg (decomposed_posDef h) v
  induction ws generalizing ys with
  | nil => simp [negSum, quad]
  | cons w ws ih =>
    cases ys with
    | nil =>
      have := negSum_nonpos (w :: ws)
      simp only [List.zipWith_nil_right, List.sum_nil]
      have e : quad (0 : Matrix (Fin n) (Fin n) ℝ) v = 0 := by simp [quad]
      rw [e]
      exact mul_nonpos_of_nonpos_of_nonneg
        (mul_nonpos_of_nonneg_of_nonpos (Nat.cast_nonneg n) this) hq
    | cons y ys =>
      rw [List.zipWith_cons_cons, List.sum_cons, quad_add, quad_smul, quad_vecMulVec]
      have e : negSum (w :: ws) = min w 0 + negSum ws := rfl
      rw [e]
      have h1 : n * min w 0 * quad r.decomposed v ≤ RealParams.covWeight r w y * (v ⬝ᵥ y) ^ 2 := by
        unfold RealParams.covWeight
        by_cases hw : w < 0
        · rw [if_pos hw, min_eq_left hw.le]
          by_cases hy : y = 0
          · subst hy
            simp only [dotProduct_zero, ne_eq, OfNat.ofNat_ne_zero, not_false_eq_true, zero_pow,
              mul_zero]
            exact mul_nonpos_of_nonpos_of_nonneg
              (mul_nonpos_of_nonneg_of_nonpos (Nat.cast_nonneg n) hw.le) hq
          · have hl := invSqrt_ne h hy
            have hl2 : 0 < len (r.invSqrt *ᵥ y) ^ 2 := by positivity
            have h2 := dot_sq_le_decomposed h v y
            have h3 : (v ⬝ᵥ y) ^ 2 / len (r.invSqrt *ᵥ y) ^ 2 ≤ quad r.decomposed v := by
              rw [div_le_iff₀ hl2, mul_comm]; exact h2
            have h4 : w * (n / len (r.invSqrt *ᵥ y) ^ 2) * (v ⬝ᵥ y) ^ 2 =
                n * w * ((v ⬝ᵥ y) ^ 2 / len (r.invSqrt *ᵥ y) ^ 2) := by ring
            rw [h4]
            exact mul_le_mul_of_nonpos_left h3
              (mul_nonpos_of_nonneg_of_nonpos (Nat.cast_nonneg n) hw.le)
        · rw [if_neg hw, min_eq_right (not_lt.mp hw), mul_zero, zero_mul]
          exact mul_nonneg (not_lt.mp hw) (sq_nonneg _)
      have h2 := ih ys
      have h3 : n * (min w 0 + negSum ws) * quad r.decomposed v =
          n * min w 0 * quad r.decomposed v + n * negSum ws * quad r.decomposed v := by ring
      rw [h3]
      linarith

/-- The new covariance matrix from below. -/
theorem cov_ge (h : r.Good) (hC : ∀ v, 0 ≤ quad r.C v) (hc1 : 0 ≤ q.c1) (hcmu : 0 ≤ q.cmu)
    (hcc : 0 < q.cc) (hcc' : q.cc < 1) (g : ℕ) (ys : List (Fin n → ℝ)) (v : Fin n → ℝ) :
    (1 - q.c1 - q.cmu * q.weights.sum) * quad r.C v +
      q.cmu * (n * negSum q.weights * quad r.decomposed v) ≤ quad (q.cov r g ys) v := by
  unfold RealParams.cov
  rw [quad_add, quad_add, quad_smul, quad_smul, quad_smul, quad_vecMulVec]
  have h1 := mul_le_mul_of_nonneg_left (rankMu_ge h v q.weights ys) hcmu
  have h2 : 0 ≤ q.c1 * (v ⬝ᵥ q.pathC r g ys) ^ 2 := by positivity
  have h3 : 0 ≤ 1 - q.hs r g ys := by
    unfold RealParams.hs
    split <;> norm_num
  have h4 : 0 ≤ q.c1 * ((1 - q.hs r g ys) * q.cc * (2 - q.cc)) * quad r.C v :=
    mul_nonneg (mul_nonneg hc1 (mul_nonneg (mul_nonneg h3 hcc.le) (by linarith))) (hC v)
  have e : (1 + q.c1 * ((1 - q.hs r g ys) * q.cc * (2 - q.cc)) - q.c1 - q.cmu * q.weights.sum) *
      quad r.C v = (1 - q.c1 - q.cmu * q.weights.sum) * quad r.C v +
        q.c1 * ((1 - q.hs r g ys) * q.cc * (2 - q.cc)) * quad r.C v := by ring
  rw [e]
  unfold RealParams.rankMu
  linarith

end Cmaes
