import Verif.Props.StepSize

/-!
# Second moments of normally distributed vectors
-/

set_option linter.unusedSectionVars false

namespace Cmaes
open MeasureTheory ProbabilityTheory Matrix WithLp
variable {n : Nat}

/-- The law of a vector of independent standard normal numbers. -/
noncomputable abbrev normalVec (n : Nat) : Measure (Fin n → ℝ) := Measure.pi fun _ => gaussianReal 0 1

instance (k n : Nat) : IsProbabilityMeasure (standardNormal k n) := by
  unfold standardNormal; infer_instance

/-- Flipping the sign of a coordinate. -/
theorem flip_preserving (a : Fin n) :
    MeasurePreserving (fun (z : Fin n → ℝ) i => if i = a then -z i else z i) (normalVec n)
      (normalVec n) := by
  refine measurePreserving_pi (fun _ => gaussianReal 0 1) (fun _ => gaussianReal 0 1)
    (f := fun i x => if i = a then -x else x) fun i => ?_
  by_cases h : i = a
  · simp only [h, if_true]
    exact ⟨by fun_prop, by rw [gaussianReal_map_neg, neg_zero]⟩
  · simp only [h, if_false]
    exact MeasurePreserving.id _

/-- Exchanging coordinates. -/
theorem perm_preserving (e : Equiv.Perm (Fin n)) :
    MeasurePreserving (fun (z : Fin n → ℝ) i => z (e i)) (normalVec n) (normalVec n) := by
  have := measurePreserving_piCongrLeft (fun _ : Fin n => gaussianReal 0 1) e.symm
  refine ⟨by fun_prop, ?_⟩
  refine Eq.trans ?_ this.map_eq
  congr 1
  funext z i
  rw [MeasurableEquiv.coe_piCongrLeft]
  conv_rhs => rw [← e.symm_apply_apply i]
  rw [Equiv.piCongrLeft_apply_apply]

theorem dot_flip (z : Fin n → ℝ) (a : Fin n) :
    (fun i => if i = a then -z i else z i) ⬝ᵥ (fun i => if i = a then -z i else z i) = z ⬝ᵥ z :=
  Finset.sum_congr rfl fun i _ => by dsimp only; split <;> ring

theorem dot_perm (z : Fin n → ℝ) (e : Equiv.Perm (Fin n)) :
    (fun i => z (e i)) ⬝ᵥ (fun i => z (e i)) = z ⬝ᵥ z :=
  Equiv.sum_comp e fun i => z i * z i

/-- A product of two coordinates, with a factor that depends on the length only. -/
theorem radial_integrable {φ : ℝ → ℝ} (hm : Measurable φ)
    (hi : Integrable (fun z => φ (z ⬝ᵥ z) * (z ⬝ᵥ z)) (normalVec n)) (a b : Fin n) :
    Integrable (fun z => φ (z ⬝ᵥ z) * (z a * z b)) (normalVec n) := by
  have hd : Measurable fun z : Fin n → ℝ => z ⬝ᵥ z := by
    unfold dotProduct; fun_prop
  refine hi.mono ((hm.comp hd).mul (by fun_prop)).aestronglyMeasurable (.of_forall fun z => ?_)
  simp only [Real.norm_eq_abs, abs_mul (φ _)]
  refine mul_le_mul_of_nonneg_left ?_ (abs_nonneg _)
  have h0 : ∀ i, z i * z i ≤ z ⬝ᵥ z := fun i =>
    Finset.single_le_sum (f := fun i => z i * z i) (fun i _ => mul_self_nonneg _) (Finset.mem_univ i)
  rw [abs_mul]
  refine le_trans ?_ (le_abs_self _)
  have ha := h0 a
  have hb := h0 b
  rw [← abs_mul_abs_self] at ha hb
  nlinarith [sq_nonneg (|z a| - |z b|)]

theorem radial_off {φ : ℝ → ℝ} {a b : Fin n} (hab : a ≠ b) :
    ∫ z, φ (z ⬝ᵥ z) * (z a * z b) ∂normalVec n = 0 := by
  by_cases hi : Integrable (fun z => φ (z ⬝ᵥ z) * (z a * z b)) (normalVec n)
  swap
  · exact integral_undef hi
  have h := (flip_preserving a)
  have e : ∫ z, φ (z ⬝ᵥ z) * (z a * z b) ∂normalVec n =
      ∫ z, -(φ (z ⬝ᵥ z) * (z a * z b)) ∂normalVec n := by
    conv_lhs => rw [← h.map_eq]
    rw [integral_map h.measurable.aemeasurable (by rw [h.map_eq]; exact hi.aestronglyMeasurable)]
    refine integral_congr_ae (.of_forall fun z => ?_)
    dsimp only
    rw [dot_flip, if_pos rfl, if_neg hab.symm]
    ring
  rw [integral_neg] at e
  linarith

theorem radial_diag {φ : ℝ → ℝ} (hm : Measurable φ)
    (hi : Integrable (fun z => φ (z ⬝ᵥ z) * (z ⬝ᵥ z)) (normalVec n)) (a : Fin n) :
    n * ∫ z, φ (z ⬝ᵥ z) * (z a * z a) ∂normalVec n = ∫ z, φ (z ⬝ᵥ z) * (z ⬝ᵥ z) ∂normalVec n := by
  have hall : ∀ b, ∫ z, φ (z ⬝ᵥ z) * (z b * z b) ∂normalVec n =
      ∫ z, φ (z ⬝ᵥ z) * (z a * z a) ∂normalVec n := by
    intro b
    have h := perm_preserving (Equiv.swap a b)
    conv_lhs => rw [← h.map_eq]
    rw [integral_map h.measurable.aemeasurable
      (by rw [h.map_eq]; exact (radial_integrable hm hi b b).aestronglyMeasurable)]
    refine integral_congr_ae (.of_forall fun z => ?_)
    dsimp only
    rw [dot_perm, Equiv.swap_apply_right]
  have e : ∀ z : Fin n → ℝ, φ (z ⬝ᵥ z) * (z ⬝ᵥ z) = ∑ b, φ (z ⬝ᵥ z) * (z b * z b) := fun z => by
    rw [← Finset.mul_sum]; rfl
  simp_rw [e]
  rw [integral_finset_sum _ fun b _ => radial_integrable hm hi b b]
  simp_rw [hall]
  rw [Finset.sum_const, Finset.card_univ, Fintype.card_fin, nsmul_eq_mul]

/-- The second moment in the direction `v`, with a factor that depends on the length only. -/
theorem radial_dir {φ : ℝ → ℝ} (hm : Measurable φ)
    (hi : Integrable (fun z => φ (z ⬝ᵥ z) * (z ⬝ᵥ z)) (normalVec n)) (v : Fin n → ℝ) :
    Integrable (fun z => φ (z ⬝ᵥ z) * (v ⬝ᵥ z) ^ 2) (normalVec n) ∧
    n * ∫ z, φ (z ⬝ᵥ z) * (v ⬝ᵥ z) ^ 2 ∂normalVec n =
      (v ⬝ᵥ v) * ∫ z, φ (z ⬝ᵥ z) * (z ⬝ᵥ z) ∂normalVec n := by
  have e : ∀ z : Fin n → ℝ, φ (z ⬝ᵥ z) * (v ⬝ᵥ z) ^ 2 =
      ∑ a, ∑ b, v a * v b * (φ (z ⬝ᵥ z) * (z a * z b)) := fun z => by
    rw [pow_two]
    unfold dotProduct
    rw [Finset.sum_mul_sum, Finset.mul_sum]
    refine Finset.sum_congr rfl fun a _ => ?_
    rw [Finset.mul_sum]
    exact Finset.sum_congr rfl fun b _ => by ring
  have hint : ∀ a b, Integrable (fun z => v a * v b * (φ (z ⬝ᵥ z) * (z a * z b))) (normalVec n) :=
    fun a b => (radial_integrable hm hi a b).const_mul _
  simp_rw [e]
  refine ⟨integrable_finset_sum _ fun a _ => integrable_finset_sum _ fun b _ => hint a b, ?_⟩
  rw [integral_finset_sum _ fun a _ => integrable_finset_sum _ fun b _ => hint a b]
  have h2 : ∀ a, ∫ z, ∑ b, v a * v b * (φ (z ⬝ᵥ z) * (z a * z b)) ∂normalVec n =
      v a * v a * ∫ z, φ (z ⬝ᵥ z) * (z a * z a) ∂normalVec n := by
    intro a
    rw [integral_finset_sum _ fun b _ => hint a b, Finset.sum_eq_single a]
    · exact integral_const_mul _ _
    · intro b _ hb
      rw [integral_const_mul, radial_off hb.symm, mul_zero]
    · simp
  simp_rw [h2]
  rw [Finset.mul_sum, dotProduct, Finset.sum_mul]
  refine Finset.sum_congr rfl fun a _ => ?_
  rw [← radial_diag hm hi a]
  ring

theorem normal_sq : Integrable (fun z => z ⬝ᵥ z) (normalVec n) ∧
    ∫ z, z ⬝ᵥ z ∂normalVec n = n := by
  have h1 : ∀ i : Fin n, Integrable (fun z : Fin n → ℝ => z i * z i) (normalVec n) ∧
      ∫ z : Fin n → ℝ, z i * z i ∂normalVec n = 1 := by
    intro i
    have h := measurePreserving_eval (fun _ : Fin n => gaussianReal 0 1) i
    have hL : MemLp (fun x : ℝ => x) 2 (gaussianReal 0 1) := memLp_id_gaussianReal 2
    have hI : Integrable (fun x : ℝ => x * x) (gaussianReal 0 1) := by
      simpa only [pow_two] using hL.integrable_sq
    refine ⟨h.integrable_comp_of_integrable hI, ?_⟩
    have hv := variance_fun_id_gaussianReal (μ := 0) (v := 1)
    rw [variance_eq_sub hL, integral_id_gaussianReal] at hv
    have hv : ∫ x : ℝ, x ^ 2 ∂gaussianReal 0 1 = 1 := by simpa using hv
    have := integral_map (μ := normalVec n) h.measurable.aemeasurable
      (f := fun x : ℝ => x * x) (by fun_prop)
    rw [h.map_eq] at this
    rw [← hv]
    simp only [pow_two]
    exact this.symm
  unfold dotProduct
  refine ⟨integrable_finset_sum _ fun i _ => (h1 i).1, ?_⟩
  rw [integral_finset_sum _ fun i _ => (h1 i).1]
  simp_rw [fun i => (h1 i).2]
  simp

/-- The second moment in the direction `v`. -/
theorem moment_dir (hn : n ≠ 0) (v : Fin n → ℝ) :
    Integrable (fun z => (v ⬝ᵥ z) ^ 2) (normalVec n) ∧
    ∫ z, (v ⬝ᵥ z) ^ 2 ∂normalVec n = v ⬝ᵥ v := by
  have h := radial_dir (n := n) (φ := fun _ => 1) measurable_const
    (by simpa using normal_sq.1) v
  simp only [one_mul, normal_sq.2] at h
  have : (n : ℝ) ≠ 0 := by exact_mod_cast hn
  exact ⟨h.1, mul_left_cancel₀ this (by rw [h.2, mul_comm])⟩

/-- The second moment in the direction `v` of the vector scaled to the length `√n`. -/
theorem moment_dir_scaled (hn : n ≠ 0) (v : Fin n → ℝ) :
    Integrable (fun z => n / (z ⬝ᵥ z) * (v ⬝ᵥ z) ^ 2) (normalVec n) ∧
    ∫ z, n / (z ⬝ᵥ z) * (v ⬝ᵥ z) ^ 2 ∂normalVec n = v ⬝ᵥ v := by
  have h0 : (n : ℝ) ≠ 0 := by exact_mod_cast hn
  have hz : (fun z : Fin n → ℝ => n / (z ⬝ᵥ z) * (z ⬝ᵥ z)) =ᵐ[normalVec n] fun _ => (n : ℝ) := by
    have h1 : ∀ᵐ x ∂gaussianReal 0 1, x ≠ 0 :=
      (gaussianReal_absolutelyContinuous 0 one_ne_zero).ae_le (Measure.ae_ne _ 0)
    have h2 : ∀ᵐ y ∂normalVec n, y ⟨0, Nat.pos_of_ne_zero hn⟩ ≠ 0 :=
      (Measure.quasiMeasurePreserving_eval (fun _ : Fin n => gaussianReal 0 1) _).ae h1
    filter_upwards [h2] with z hz
    refine div_mul_cancel₀ _ fun h => hz ?_
    rw [dotProduct_self_eq_zero.mp h]
    rfl
  have h := radial_dir (n := n) (φ := fun x => n / x) (by fun_prop)
    ((integrable_const (n : ℝ)).congr hz.symm) v
  rw [integral_congr_ae hz, integral_const] at h
  refine ⟨h.1, mul_left_cancel₀ h0 ?_⟩
  rw [h.2]
  simp [mul_comm]

/-- The law of a combination whose squared coefficients sum to one. -/
theorem combination_preserving {k : Nat} {a : Fin k → ℝ} (ha : ∑ j, a j ^ 2 = 1) :
    MeasurePreserving (fun z : Fin k → Fin n → ℝ => ∑ j, a j • z j) (standardNormal k n)
      (normalVec n) := by
  have hm : Measurable fun z : Fin k → Fin n → ℝ => ∑ j, a j • z j := by
    have : Continuous fun z : Fin k → Fin n → ℝ => ∑ j, a j • z j :=
      continuous_finset_sum _ fun j _ => (continuous_apply j).const_smul (a j)
    exact this.measurable
  refine ⟨hm, ?_⟩
  have h1 := map_combination (k := k) (n := n) 0 1 a
  have h2 := map_affine (n := n) 0 1
  rw [ha, one_smul, ← h2] at h1
  have h3 := congrArg (Measure.map (ofLp : EuclideanSpace ℝ (Fin n) → _)) h1
  have ml : Measurable (toLp 2 : (Fin n → ℝ) → EuclideanSpace ℝ (Fin n)) := by fun_prop
  simp only [one_mulVec, zero_add] at h3
  have mc : Measurable fun z : Fin k → Fin n → ℝ =>
      (toLp 2 (∑ j, a j • z j) : EuclideanSpace ℝ (Fin n)) := ml.comp hm
  rw [Measure.map_map (by fun_prop) mc, Measure.map_map (by fun_prop) ml] at h3
  have e : (ofLp : EuclideanSpace ℝ (Fin n) → _) ∘ (fun z => toLp 2 z) = id := rfl
  rw [e, Measure.map_id] at h3
  exact h3

end Cmaes
