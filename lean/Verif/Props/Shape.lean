import Verif.Lemmas.Moments
import Verif.Props.Schedule

/-!
# C98: without selection the covariance matrix keeps its shape on average
-/

set_option linter.unusedSectionVars false

namespace Cmaes
open MeasureTheory ProbabilityTheory Matrix WithLp XR
variable {n : Nat}

/-! ### The matrices in the order in which the points were drawn -/

theorem zipWith_sum' {α β V : Type} [DecidableEq α] [AddCommMonoid V] {f : ℝ → β → V}
    (hf : ∀ y, f 0 y = 0) (h : α → β) :
    ∀ (l : List α) (w : List ℝ), l.Nodup →
      (List.zipWith f w (l.map h)).sum = (l.map fun j => f (w.getD (l.idxOf j) 0) (h j)).sum := by
  intro l
  induction l with
  | nil => intro w _; simp
  | cons x l ih =>
    intro w hn
    obtain ⟨hx, hn⟩ := List.nodup_cons.mp hn
    have hidx : ∀ j ∈ l, (x :: l).idxOf j = l.idxOf j + 1 := fun j hj =>
      List.idxOf_cons_ne _ fun e => hx (e ▸ hj)
    cases w with
    | nil => simp [hf]
    | cons b w =>
      rw [List.map_cons, List.zipWith_cons_cons, List.sum_cons, List.map_cons, List.sum_cons,
        ih w hn, List.idxOf_cons_self]
      congr 2
      exact List.map_congr_left fun j hj => by rw [hidx j hj]; rfl

theorem sum_idx {α : Type} [DecidableEq α] {l : List α} {w : List ℝ} (hn : l.Nodup)
    (hl : w.length ≤ l.length) : (l.map fun j => w.getD (l.idxOf j) 0).sum = w.sum := by
  have h := zipWith_sum' (f := fun (x : ℝ) (_ : Unit) => x) (fun _ => rfl) (fun _ : α => ()) l w hn
  rw [← h]
  congr 1
  clear h hn
  induction w generalizing l with
  | nil => simp
  | cons b w ih =>
    cases l with
    | nil => simp at hl
    | cons x l => rw [List.map_cons, List.zipWith_cons_cons, ih (by simpa using hl)]

/-- The factor that a negative weight is scaled with, in the coordinates of the drawn vectors. -/
noncomputable def negFactor (w : ℝ) (z : Fin n → ℝ) : ℝ := if w < 0 then n / (z ⬝ᵥ z) else 1

theorem covWeight_transform {r : RealState n} (hg : r.Good) (w : ℝ) (z : Fin n → ℝ) :
    RealParams.covWeight r w (r.transform *ᵥ z) = w * negFactor w z := by
  unfold RealParams.covWeight negFactor
  split
  · have h0 : 0 ≤ (r.B *ᵥ z) ⬝ᵥ (r.B *ᵥ z) := Finset.sum_nonneg fun i _ => mul_self_nonneg _
    congr 2
    rw [mulVec_mulVec, invSqrt_mul_transform hg, len, Real.sq_sqrt h0, dotProduct_mulVec,
      vecMul_mulVec, hg.orthonormal, vecMul_one]
  · rw [mul_one]

theorem quad_rankMu {q : RealParams} {r : RealState n} (hg : r.Good) {k : Nat} {π : List (Fin k)}
    (hp : π.Perm (List.finRange k)) (z : Fin k → Fin n → ℝ) (x : Fin n → ℝ) :
    quad (q.rankMu r (π.map fun j => r.transform *ᵥ z j)) x =
      ∑ j, q.weights.getD (π.idxOf j) 0 *
        (negFactor (q.weights.getD (π.idxOf j) 0) (z j) * ((r.transformᵀ *ᵥ x) ⬝ᵥ z j) ^ 2) := by
  have hn : π.Nodup := hp.nodup_iff.mpr (List.nodup_finRange _)
  unfold RealParams.rankMu
  rw [zipWith_sum' (fun y => by simp [RealParams.covWeight]) _ _ _ hn, quad_sum, List.map_map,
    sum_univ_eq hp]
  refine Finset.sum_congr rfl fun j _ => ?_
  simp only [Function.comp]
  rw [quad_smul, quad_vecMulVec, covWeight_transform hg, mul_assoc, dotProduct_mulVec,
    mulVec_transpose]

theorem quad_transform {r : RealState n} (hg : r.Good) (x : Fin n → ℝ) :
    (r.transformᵀ *ᵥ x) ⬝ᵥ (r.transformᵀ *ᵥ x) = quad r.decomposed x := by
  unfold quad
  rw [← transform_mul_transpose hg, ← mulVec_mulVec, dotProduct_mulVec x, mulVec_transpose]

/-- The rank-mu matrix of a generation without selection is, on average, the sum of the weights
times the covariance matrix that the points were drawn with. -/
theorem rankMu_unbiased {q : RealParams} {r : RealState n} (hn : n ≠ 0) (hg : r.Good) {k : Nat}
    {π : List (Fin k)} (hp : π.Perm (List.finRange k)) (hl : q.weights.length ≤ k) (x : Fin n → ℝ) :
    Integrable (fun z => quad (q.rankMu r (π.map fun j => r.transform *ᵥ z j)) x)
      (standardNormal k n) ∧
    ∫ z, quad (q.rankMu r (π.map fun j => r.transform *ᵥ z j)) x ∂standardNormal k n =
      q.weights.sum * quad r.decomposed x := by
  set v := r.transformᵀ *ᵥ x with hv
  have hterm : ∀ (w : ℝ), Integrable (fun z => negFactor w z * (v ⬝ᵥ z) ^ 2) (normalVec n) ∧
      ∫ z, negFactor w z * (v ⬝ᵥ z) ^ 2 ∂normalVec n = v ⬝ᵥ v := by
    intro w
    unfold negFactor
    split
    · exact moment_dir_scaled hn v
    · simpa only [one_mul] using moment_dir hn v
  have hj : ∀ (j : Fin k) (w : ℝ),
      Integrable (fun z : Fin k → Fin n → ℝ => negFactor w (z j) * (v ⬝ᵥ z j) ^ 2) (standardNormal k n) ∧
      ∫ z : Fin k → Fin n → ℝ, negFactor w (z j) * (v ⬝ᵥ z j) ^ 2 ∂standardNormal k n = v ⬝ᵥ v := by
    intro j w
    have h := measurePreserving_eval (fun _ : Fin k => normalVec n) j
    refine ⟨h.integrable_comp_of_integrable (hterm w).1, ?_⟩
    rw [← (hterm w).2]
    have := integral_map (μ := standardNormal k n) h.measurable.aemeasurable
      (f := fun z => negFactor w z * (v ⬝ᵥ z) ^ 2)
      (by
        show AEStronglyMeasurable _ ((Measure.pi fun _ : Fin k => normalVec n).map _)
        rw [h.map_eq]; exact (hterm w).1.aestronglyMeasurable)
    refine this.symm.trans ?_
    show ∫ _, _ ∂((Measure.pi fun _ : Fin k => normalVec n).map _) = _
    rw [h.map_eq]
  simp_rw [quad_rankMu hg hp]
  refine ⟨integrable_finset_sum _ fun j _ => (hj j _).1.const_mul _, ?_⟩
  rw [integral_finset_sum _ fun j _ => (hj j _).1.const_mul _]
  simp_rw [integral_const_mul, fun j w => (hj j w).2]
  have hn' : π.Nodup := hp.nodup_iff.mpr (List.nodup_finRange _)
  rw [← Finset.sum_mul, ← sum_univ_eq hp, sum_idx hn' (by rw [hp.length_eq]; simpa using hl),
    quad_transform hg]

/-! ### The expected covariance matrix -/

variable {q : RealParams} {r : RealState n} {k : Nat} {π : List (Fin k)}

/-- The weights of the points for the mean, in the order in which they were drawn. -/
noncomputable def drawnWeight (q : RealParams) (π : List (Fin k)) (j : Fin k) : ℝ :=
  (q.weights.take q.mu).getD (π.idxOf j) 0

theorem step_drawn (hp : π.Perm (List.finRange k)) (z : Fin k → Fin n → ℝ) :
    q.step (π.map fun j => r.transform *ᵥ z j) =
      r.transform *ᵥ ∑ j, drawnWeight q π j • z j := by
  have hn : π.Nodup := hp.nodup_iff.mpr (List.nodup_finRange _)
  unfold RealParams.step
  rw [zipWith_sum _ _ _ hn, sum_univ_eq hp, ← Matrix.mulVecLin_apply, map_sum]
  exact Finset.sum_congr rfl fun j _ => by rw [map_smul]; rfl

theorem pathSigma_drawn (hg : r.Good) (hp : π.Perm (List.finRange k)) (z : Fin k → Fin n → ℝ) :
    q.pathSigma r (π.map fun j => r.transform *ᵥ z j) =
      (1 - q.cs) • r.pathSigma + Real.sqrt (q.cs * (2 - q.cs) * q.muEff) •
        (r.B *ᵥ ∑ j, drawnWeight q π j • z j) := by
  unfold RealParams.pathSigma
  rw [step_drawn hp, mulVec_mulVec, invSqrt_mul_transform hg]

theorem continuous_drawn (a : Fin k → ℝ) :
    Continuous fun z : Fin k → Fin n → ℝ => ∑ j, a j • z j :=
  continuous_finset_sum _ fun j _ => (continuous_apply j).const_smul (a j)

theorem hs_zero_or_one (g : Nat) (ys : List (Fin n → ℝ)) : q.hs r g ys = 0 ∨ q.hs r g ys = 1 := by
  unfold RealParams.hs
  split
  · exact .inr rfl
  · exact .inl rfl

theorem hs_measurable (hg : r.Good) (hp : π.Perm (List.finRange k)) (g : Nat) :
    Measurable fun z : Fin k → Fin n → ℝ => q.hs r g (π.map fun j => r.transform *ᵥ z j) := by
  unfold RealParams.hs
  refine Measurable.ite (measurableSet_lt ?_ measurable_const) measurable_const measurable_const
  simp_rw [pathSigma_drawn hg hp]
  have hc : Continuous fun z : Fin k → Fin n → ℝ =>
      (1 - q.cs) • r.pathSigma + Real.sqrt (q.cs * (2 - q.cs) * q.muEff) •
        (r.B *ᵥ ∑ j, drawnWeight q π j • z j) := by
    have h1 : Continuous fun z : Fin k → Fin n → ℝ => r.B *ᵥ ∑ j, drawnWeight q π j • z j :=
      Continuous.matrix_mulVec continuous_const (continuous_drawn _)
    have h2 : Continuous fun z : Fin k → Fin n → ℝ => Real.sqrt (q.cs * (2 - q.cs) * q.muEff) •
        (r.B *ᵥ ∑ j, drawnWeight q π j • z j) :=
      h1.const_smul (Real.sqrt (q.cs * (2 - q.cs) * q.muEff))
    exact continuous_const.add h2
  have : Continuous fun y : Fin n → ℝ => len y := by
    unfold len dotProduct
    fun_prop
  exact ((this.comp hc).div_const _).measurable

/-- The update of the covariance matrix in the direction `x`. -/
theorem quad_cov (hp : π.Perm (List.finRange k)) (g : Nat) (z : Fin k → Fin n → ℝ) (x : Fin n → ℝ) :
    let ys := π.map fun j => r.transform *ᵥ z j
    quad (q.cov r g ys) x = (1 - q.c1 - q.cmu * q.weights.sum) * quad r.C x +
      q.c1 * ((1 - q.hs r g ys) * (q.cc * (2 - q.cc)) * quad r.C x +
        ((1 - q.cc) * (x ⬝ᵥ r.pathC) + q.hs r g ys * Real.sqrt (q.cc * (2 - q.cc) * q.muEff) *
          ((r.transformᵀ *ᵥ x) ⬝ᵥ ∑ j, drawnWeight q π j • z j)) ^ 2) +
      q.cmu * quad (q.rankMu r ys) x := by
  intro ys
  have e : x ⬝ᵥ q.pathC r g ys = (1 - q.cc) * (x ⬝ᵥ r.pathC) +
      q.hs r g ys * Real.sqrt (q.cc * (2 - q.cc) * q.muEff) *
          ((r.transformᵀ *ᵥ x) ⬝ᵥ ∑ j, drawnWeight q π j • z j) := by
    unfold RealParams.pathC
    rw [step_drawn hp, dotProduct_add, dotProduct_smul, dotProduct_smul, smul_eq_mul, smul_eq_mul,
      dotProduct_mulVec, mulVec_transpose]
  rw [← e]
  unfold RealParams.cov
  rw [quad_add, quad_add, quad_smul, quad_smul, quad_smul, quad_vecMulVec]
  ring

theorem drawn_sq (hmu : 0 < q.muEff)
    (hsum : ∑ j, drawnWeight q π j ^ 2 = 1 / q.muEff) :
    ∑ j : Fin k, (Real.sqrt q.muEff * drawnWeight q π j) ^ 2 = 1 := by
  simp_rw [mul_pow]
  rw [← Finset.mul_sum, hsum, Real.sq_sqrt hmu.le, mul_one_div, div_self hmu.ne']

/-- The weighted mean of the drawn vectors, scaled so that it is a standard normal vector. -/
noncomputable def drawnMean (q : RealParams) (π : List (Fin k)) (z : Fin k → Fin n → ℝ) : Fin n → ℝ :=
  ∑ j, (Real.sqrt q.muEff * drawnWeight q π j) • z j

theorem drawnMean_eq (z : Fin k → Fin n → ℝ) :
    drawnMean q π z = Real.sqrt q.muEff • ∑ j, drawnWeight q π j • z j := by
  unfold drawnMean
  rw [Finset.smul_sum]
  exact Finset.sum_congr rfl fun j _ => (smul_smul _ _ _).symm

/-- Second moments of the scaled mean. -/
theorem drawnMean_moment (hn : n ≠ 0) (hmu : 0 < q.muEff)
    (hsum : ∑ j, drawnWeight q π j ^ 2 = 1 / q.muEff) (v : Fin n → ℝ) :
    Integrable (fun z => v ⬝ᵥ drawnMean q π z) (standardNormal k n) ∧
    ∫ z, v ⬝ᵥ drawnMean q π z ∂standardNormal k n = 0 ∧
    Integrable (fun z => (v ⬝ᵥ drawnMean q π z) ^ 2) (standardNormal k n) ∧
    ∫ z, (v ⬝ᵥ drawnMean q π z) ^ 2 ∂standardNormal k n = v ⬝ᵥ v := by
  have h : MeasurePreserving (drawnMean q π) (standardNormal k n) (normalVec n) :=
    combination_preserving (drawn_sq hmu hsum)
  obtain ⟨h1, h2⟩ := moment_dir hn v
  have hdot : Measurable fun z : Fin n → ℝ => v ⬝ᵥ z := by unfold dotProduct; fun_prop
  have hL : MemLp (fun z => v ⬝ᵥ z) 2 (normalVec n) :=
    (memLp_two_iff_integrable_sq hdot.aestronglyMeasurable).mpr h1
  have h3 : Integrable (fun z => v ⬝ᵥ z) (normalVec n) := hL.integrable (by norm_num)
  have h4 : ∫ z, v ⬝ᵥ z ∂normalVec n = 0 := by
    have hi : ∀ i : Fin n, Integrable (fun z : Fin n → ℝ => z i) (normalVec n) ∧
        ∫ z : Fin n → ℝ, z i ∂normalVec n = 0 := by
      intro i
      have hm := measurePreserving_eval (fun _ : Fin n => gaussianReal 0 1) i
      have hI : Integrable (fun x : ℝ => x) (gaussianReal 0 1) :=
        (memLp_id_gaussianReal 1).integrable le_rfl
      refine ⟨hm.integrable_comp_of_integrable hI, ?_⟩
      have := integral_map (μ := normalVec n) hm.measurable.aemeasurable
        (f := fun x : ℝ => x) (by fun_prop)
      rw [hm.map_eq, integral_id_gaussianReal] at this
      exact this.symm
    unfold dotProduct
    rw [integral_finset_sum _ fun i _ => (hi i).1.const_mul _]
    simp_rw [integral_const_mul, fun i => (hi i).2]
    simp
  have key : ∀ (f : (Fin n → ℝ) → ℝ), Integrable f (normalVec n) →
      ∫ z, f (drawnMean q π z) ∂standardNormal k n = ∫ y, f y ∂normalVec n := by
    intro f hf
    have := integral_map (μ := standardNormal k n) h.measurable.aemeasurable (f := f)
      (by rw [h.map_eq]; exact hf.aestronglyMeasurable)
    rw [h.map_eq] at this
    exact this.symm
  exact ⟨h.integrable_comp_of_integrable h3, by rw [key _ h3, h4],
    h.integrable_comp_of_integrable h1, by rw [key _ h1, h2]⟩

/-- Bounds on the expected covariance matrix after a generation without selection, in every
direction. -/
theorem expected_cov (hn : n ≠ 0) (hg : r.Good) (hp : π.Perm (List.finRange k))
    (hl : q.weights.length ≤ k) (hmu : 0 < q.muEff)
    (hsum : ∑ j, drawnWeight q π j ^ 2 = 1 / q.muEff) (hcc : 0 < q.cc) (hcc1 : q.cc < 1)
    (hc1 : 0 ≤ q.c1) (g : Nat) (x : Fin n → ℝ) (hC : 0 ≤ quad r.C x) :
    let Q := fun z : Fin k → Fin n → ℝ => q.cov r g (π.map fun j => r.transform *ᵥ z j)
    let base := (1 - q.c1 - q.cmu * q.weights.sum) * quad r.C x +
      q.cmu * q.weights.sum * quad r.decomposed x
    Integrable (fun z => quad (Q z) x) (standardNormal k n) ∧
    base ≤ ∫ z, quad (Q z) x ∂standardNormal k n ∧
    ∫ z, quad (Q z) x ∂standardNormal k n ≤ base + q.c1 * (2 * ((1 - q.cc) * (x ⬝ᵥ r.pathC)) ^ 2 +
      q.cc * (2 - q.cc) * (quad r.C x + quad r.decomposed x)) := by
  intro Q base
  obtain ⟨m1, m2⟩ := rankMu_unbiased (q := q) hn hg hp hl x
  set v := r.transformᵀ *ᵥ x with hv
  obtain ⟨i1, i2, i3, i4⟩ := drawnMean_moment hn hmu hsum v
  set b := q.cc * (2 - q.cc) with hb
  have hb0 : 0 ≤ b := mul_nonneg hcc.le (by linarith)
  set α := (1 - q.cc) * (x ⬝ᵥ r.pathC) with hα
  set H := fun z : Fin k → Fin n → ℝ => q.hs r g (π.map fun j => r.transform *ᵥ z j) with hH
  set G := fun z : Fin k → Fin n → ℝ => Real.sqrt b * (v ⬝ᵥ drawnMean q π z) with hG
  have hGm : Measurable G := by
    have : Continuous fun z : Fin k → Fin n → ℝ => v ⬝ᵥ drawnMean q π z :=
      continuous_const.dotProduct (continuous_drawn _)
    exact (this.const_mul _).measurable
  have hHm : Measurable H := hs_measurable hg hp g
  set T := fun z => (1 - H z) * b * quad r.C x + (α + H z * G z) ^ 2 with hT
  have hTm : Measurable T := by fun_prop
  have hGi : Integrable G (standardNormal k n) := i1.const_mul _
  have hGi0 : ∫ z, G z ∂standardNormal k n = 0 := by
    rw [hG]; dsimp only; rw [integral_const_mul, i2, mul_zero]
  have eG : ∀ z, G z ^ 2 = b * (v ⬝ᵥ drawnMean q π z) ^ 2 := fun z => by
    rw [hG]; dsimp only; rw [mul_pow, Real.sq_sqrt hb0]
  have hG2 : Integrable (fun z => G z ^ 2) (standardNormal k n) := by
    simp_rw [eG]; exact i3.const_mul _
  have hG2' : ∫ z, G z ^ 2 ∂standardNormal k n = b * quad r.decomposed x := by
    simp_rw [eG]
    rw [integral_const_mul, i4, quad_transform hg]
  set U := fun z => 2 * α ^ 2 + b * quad r.C x + 2 * α * G z + G z ^ 2 with hU
  have hT0 : ∀ z, 0 ≤ T z := fun z => by
    rcases hs_zero_or_one (q := q) (r := r) g (π.map fun j => r.transform *ᵥ z j) with h | h
    · have : H z = 0 := h
      simp only [hT, this]
      have := mul_nonneg hb0 hC
      nlinarith [sq_nonneg (α + 0 * G z)]
    · have : H z = 1 := h
      simp only [hT, this]
      nlinarith [sq_nonneg (α + 1 * G z)]
  have hTU : ∀ z, T z ≤ U z := fun z => by
    rcases hs_zero_or_one (q := q) (r := r) g (π.map fun j => r.transform *ᵥ z j) with h | h
    · have : H z = 0 := h
      simp only [hT, hU, this]
      nlinarith [sq_nonneg (α + G z)]
    · have : H z = 1 := h
      simp only [hT, hU, this]
      have := mul_nonneg hb0 hC
      nlinarith [sq_nonneg α]
  have hUi : Integrable U (standardNormal k n) :=
    ((integrable_const _).add (hGi.const_mul _)).add hG2
  have hTi : Integrable T (standardNormal k n) :=
    hUi.mono hTm.aestronglyMeasurable (.of_forall fun z => by
      rw [Real.norm_eq_abs, Real.norm_eq_abs, abs_of_nonneg (hT0 z),
        abs_of_nonneg ((hT0 z).trans (hTU z))]
      exact hTU z)
  have e : ∀ z, quad (Q z) x = (1 - q.c1 - q.cmu * q.weights.sum) * quad r.C x + q.c1 * T z +
      q.cmu * quad (q.rankMu r (π.map fun j => r.transform *ᵥ z j)) x := fun z => by
    have := quad_cov (q := q) (r := r) hp g z x
    refine this.trans ?_
    congr 3
    simp only [hT, hG, hH]
    rw [drawnMean_eq, dotProduct_smul, smul_eq_mul, Real.sqrt_mul hb0]
    ring
  simp_rw [e]
  have hint : Integrable (fun z => (1 - q.c1 - q.cmu * q.weights.sum) * quad r.C x + q.c1 * T z)
      (standardNormal k n) := (integrable_const _).add (hTi.const_mul _)
  have eI : ∫ z, ((1 - q.c1 - q.cmu * q.weights.sum) * quad r.C x + q.c1 * T z +
      q.cmu * quad (q.rankMu r (π.map fun j => r.transform *ᵥ z j)) x) ∂standardNormal k n =
      base + q.c1 * ∫ z, T z ∂standardNormal k n := by
    rw [integral_add hint (m1.const_mul _), integral_add (integrable_const _) (hTi.const_mul _),
      integral_const_mul q.c1, integral_const_mul q.cmu, m2]
    simp only [integral_const, probReal_univ, one_smul, base]
    ring
  refine ⟨hint.add (m1.const_mul _), ?_, ?_⟩
  · rw [eI]
    have := mul_nonneg hc1 (integral_nonneg (μ := standardNormal k n) hT0)
    linarith
  · rw [eI]
    have h1 : ∫ z, T z ∂standardNormal k n ≤ ∫ z, U z ∂standardNormal k n :=
      integral_mono hTi hUi hTU
    have h2 : ∫ z, U z ∂standardNormal k n = 2 * α ^ 2 + b * (quad r.C x + quad r.decomposed x) := by
      have a1 : Integrable (fun z => 2 * α ^ 2 + b * quad r.C x + 2 * α * G z) (standardNormal k n) :=
        (integrable_const _).add (hGi.const_mul _)
      rw [hU, integral_add a1 hG2, integral_add (integrable_const _) (hGi.const_mul _),
        integral_const_mul, hGi0, hG2']
      simp only [integral_const, probReal_univ, one_smul]
      ring
    rw [h2] at h1
    have := mul_le_mul_of_nonneg_left h1 hc1
    linarith

/-- The threshold of the length of the conjugate path is above the root of its expected square. -/
theorem threshold_ge (hn : n ≠ 0) : Real.sqrt n ≤ (14 / 10 + 2 / ((n : ℝ) + 1)) * realChi n := by
  have h1 : (1 : ℝ) ≤ n := by exact_mod_cast Nat.one_le_iff_ne_zero.mpr hn
  have h0 : (0 : ℝ) < n := by linarith
  unfold realChi
  have h3 : 1 ≤ (14 / 10 + 2 / ((n : ℝ) + 1)) * (1 - 1 / (4 * n) + 1 / (21 * (n : ℝ) ^ 2)) := by
    have a1 : 3 / 4 ≤ 1 - 1 / (4 * (n : ℝ)) + 1 / (21 * (n : ℝ) ^ 2) := by
      have b1 : 1 / (4 * (n : ℝ)) ≤ 1 / 4 := one_div_le_one_div_of_le (by norm_num) (by linarith)
      have b2 : 0 < 1 / (21 * (n : ℝ) ^ 2) := by positivity
      linarith
    have a2 : 14 / 10 ≤ 14 / 10 + 2 / ((n : ℝ) + 1) := by
      have : 0 < 2 / ((n : ℝ) + 1) := by positivity
      linarith
    nlinarith
  have := Real.sqrt_nonneg (n : ℝ)
  nlinarith

/-- Whether the path for the covariance matrix is updated in the first generation depends on the
length of the scaled mean of the drawn vectors only. -/
theorem hs_first (hn : n ≠ 0) (hg : r.Good) (hp : π.Perm (List.finRange k)) (hcs : 0 < q.cs)
    (hcs1 : q.cs < 1) (h0 : r.pathSigma = 0) (z : Fin k → Fin n → ℝ) :
    q.hs r 0 (π.map fun j => r.transform *ᵥ z j) =
      if Real.sqrt (drawnMean q π z ⬝ᵥ drawnMean q π z) <
        (14 / 10 + 2 / ((n : ℝ) + 1)) * realChi n then 1 else 0 := by
  unfold RealParams.hs
  have hb : 0 < q.cs * (2 - q.cs) := mul_pos hcs (by linarith)
  have e : q.pathSigma r (π.map fun j => r.transform *ᵥ z j) =
      Real.sqrt (q.cs * (2 - q.cs)) • (r.B *ᵥ drawnMean q π z) := by
    rw [pathSigma_drawn hg hp, h0, smul_zero, zero_add, drawnMean_eq, mulVec_smul, smul_smul,
      Real.sqrt_mul hb.le]
  have e2 : len (q.pathSigma r (π.map fun j => r.transform *ᵥ z j)) /
      Real.sqrt (1 - (1 - q.cs) ^ (2 * (0 + 1))) =
      Real.sqrt (drawnMean q π z ⬝ᵥ drawnMean q π z) := by
    have h1 : 1 - (1 - q.cs) ^ (2 * (0 + 1)) = q.cs * (2 - q.cs) := by ring
    have h2 : (r.B *ᵥ drawnMean q π z) ⬝ᵥ (r.B *ᵥ drawnMean q π z) =
        drawnMean q π z ⬝ᵥ drawnMean q π z := by
      rw [dotProduct_mulVec, vecMul_mulVec, hg.orthonormal, vecMul_one]
    rw [h1, e, len, smul_dotProduct, dotProduct_smul, h2, smul_eq_mul, smul_eq_mul, ← mul_assoc,
      Real.mul_self_sqrt hb.le, Real.sqrt_mul hb.le, mul_comm, mul_div_assoc,
      div_self (Real.sqrt_pos.mpr hb).ne', mul_one]
  rw [e2]

/-- The expected covariance matrix after the first generation without selection. -/
theorem expected_first (hn : n ≠ 0) (hg : r.Good) (hp : π.Perm (List.finRange k))
    (hl : q.weights.length ≤ k) (hmu : 0 < q.muEff)
    (hsum : ∑ j, drawnWeight q π j ^ 2 = 1 / q.muEff) (hcc : 0 < q.cc) (hcc1 : q.cc < 1)
    (hcs : 0 < q.cs) (hcs1 : q.cs < 1) (hc1 : 0 ≤ q.c1)
    (hps : r.pathSigma = 0) (hpc : r.pathC = 0) (hC : r.decomposed = r.C) :
    ∃ κ, 1 - q.c1 ≤ κ ∧ κ ≤ 1 - q.c1 * (1 - q.cc) ^ 2 ∧ ∀ x,
      ∫ z, quad (q.cov r 0 (π.map fun j => r.transform *ᵥ z j)) x ∂standardNormal k n =
        κ * quad r.C x := by
  classical
  set θ := (14 / 10 + 2 / ((n : ℝ) + 1)) * realChi n with hθ
  set φ : ℝ → ℝ := fun s => if Real.sqrt s < θ then 1 else 0 with hφ
  set b := q.cc * (2 - q.cc) with hb
  have hb0 : 0 ≤ b := mul_nonneg hcc.le (by linarith)
  have hn0 : (0 : ℝ) < n := by exact_mod_cast Nat.pos_of_ne_zero hn
  have hφm : Measurable φ :=
    Measurable.ite (measurableSet_lt (by fun_prop) measurable_const) measurable_const measurable_const
  have hφ01 : ∀ s, φ s = 0 ∨ φ s = 1 := fun s => by
    simp only [hφ]; split
    · exact .inr rfl
    · exact .inl rfl
  have hd : Measurable fun z : Fin n → ℝ => z ⬝ᵥ z := by unfold dotProduct; fun_prop
  have hd0 : ∀ z : Fin n → ℝ, 0 ≤ z ⬝ᵥ z := fun z => Finset.sum_nonneg fun i _ => mul_self_nonneg _
  obtain ⟨s1, s2⟩ := normal_sq (n := n)
  have hφs : Integrable (fun z => φ (z ⬝ᵥ z) * (z ⬝ᵥ z)) (normalVec n) :=
    s1.mono ((hφm.comp hd).mul hd).aestronglyMeasurable (.of_forall fun z => by
      rw [Real.norm_eq_abs, Real.norm_eq_abs, abs_mul]
      rcases hφ01 (z ⬝ᵥ z) with h | h <;> rw [h] <;> simp)
  have hφi : Integrable (fun z => φ (z ⬝ᵥ z)) (normalVec n) :=
    (integrable_const (1 : ℝ)).mono (hφm.comp hd).aestronglyMeasurable (.of_forall fun z => by
      rcases hφ01 (z ⬝ᵥ z) with h | h <;> rw [h] <;> simp)
  set I := ∫ z, φ (z ⬝ᵥ z) ∂normalVec n with hI
  set J := ∫ z, φ (z ⬝ᵥ z) * (z ⬝ᵥ z) ∂normalVec n with hJ
  have hI1 : I ≤ 1 := by
    have := integral_mono hφi (integrable_const (1 : ℝ)) (μ := normalVec n) fun z => by
      rcases hφ01 (z ⬝ᵥ z) with h | h <;> simp [h]
    simpa using this
  have hJ0 : 0 ≤ J := integral_nonneg fun z => by
    rcases hφ01 (z ⬝ᵥ z) with h | h <;> simp [h, hd0]
  have hIJ : 1 - I + J / n ≤ 1 := by
    have hpt : ∀ z : Fin n → ℝ, 1 - φ (z ⬝ᵥ z) + φ (z ⬝ᵥ z) * (z ⬝ᵥ z) / n ≤ (z ⬝ᵥ z) / n := by
      intro z
      by_cases h : Real.sqrt (z ⬝ᵥ z) < θ
      · have : φ (z ⬝ᵥ z) = 1 := if_pos h
        rw [this, one_mul, sub_self, zero_add]
      · have h1 : φ (z ⬝ᵥ z) = 0 := if_neg h
        rw [h1]
        have h2 : Real.sqrt n ≤ Real.sqrt (z ⬝ᵥ z) := (threshold_ge hn).trans (not_lt.mp h)
        have h3 : (n : ℝ) ≤ z ⬝ᵥ z := (Real.sqrt_le_sqrt_iff (hd0 z)).mp h2
        have : 1 ≤ (z ⬝ᵥ z) / n := by rwa [le_div_iff₀ hn0, one_mul]
        simpa using this
    have a1 : Integrable (fun z => 1 - φ (z ⬝ᵥ z)) (normalVec n) := (integrable_const _).sub hφi
    have a2 : Integrable (fun z => φ (z ⬝ᵥ z) * (z ⬝ᵥ z) / n) (normalVec n) := hφs.div_const _
    have := integral_mono (a1.add a2) (s1.div_const (n : ℝ)) hpt
    simp only [Pi.add_apply] at this
    rw [integral_add a1 a2, integral_sub (integrable_const _) hφi, integral_div, integral_div, s2,
      div_self hn0.ne'] at this
    simpa using this
  have h := combination_preserving (n := n) (drawn_sq (π := π) hmu hsum)
  have h : MeasurePreserving (drawnMean q π) (standardNormal k n) (normalVec n) := h
  have key : ∀ (f : (Fin n → ℝ) → ℝ), Integrable f (normalVec n) →
      ∫ z, f (drawnMean q π z) ∂standardNormal k n = ∫ y, f y ∂normalVec n := by
    intro f hf
    have := integral_map (μ := standardNormal k n) h.measurable.aemeasurable (f := f)
      (by rw [h.map_eq]; exact hf.aestronglyMeasurable)
    rw [h.map_eq] at this
    exact this.symm
  refine ⟨1 - q.c1 + q.c1 * b * (1 - I + J / n), ?_, ?_, ?_⟩
  · have : 0 ≤ q.c1 * b * (1 - I + J / n) :=
      mul_nonneg (mul_nonneg hc1 hb0) (by have := div_nonneg hJ0 hn0.le; linarith)
    linarith
  · have := mul_le_mul_of_nonneg_left hIJ (mul_nonneg hc1 hb0)
    have e : (1 - q.cc) ^ 2 = 1 - b := by rw [hb]; ring
    rw [e]
    linarith
  · intro x
    obtain ⟨m1, m2⟩ := rankMu_unbiased (q := q) hn hg hp hl x
    set v := r.transformᵀ *ᵥ x with hv
    have hvv : v ⬝ᵥ v = quad r.C x := by rw [hv, quad_transform hg, hC]
    obtain ⟨d1, d2⟩ := radial_dir hφm hφs v
    set T : (Fin n → ℝ) → ℝ := fun y =>
      (1 - φ (y ⬝ᵥ y)) * (b * quad r.C x) + b * (φ (y ⬝ᵥ y) * (v ⬝ᵥ y) ^ 2) with hT
    have t1 : Integrable (fun y => (1 - φ (y ⬝ᵥ y)) * (b * quad r.C x)) (normalVec n) :=
      ((integrable_const _).sub hφi).mul_const _
    have t2 : Integrable (fun y => b * (φ (y ⬝ᵥ y) * (v ⬝ᵥ y) ^ 2)) (normalVec n) := d1.const_mul _
    have hTi : Integrable T (normalVec n) := t1.add t2
    have hTe : ∫ y, T y ∂normalVec n = b * (1 - I + J / n) * quad r.C x := by
      have d3 : ∫ y, φ (y ⬝ᵥ y) * (v ⬝ᵥ y) ^ 2 ∂normalVec n = quad r.C x * J / n := by
        rw [eq_div_iff hn0.ne', mul_comm, d2, hvv]
      rw [hT, integral_add t1 t2, integral_mul_const, integral_const_mul, d3,
        integral_sub (integrable_const _) hφi]
      simp only [integral_const, probReal_univ, one_smul]
      ring
    have e : ∀ z, quad (q.cov r 0 (π.map fun j => r.transform *ᵥ z j)) x =
        (1 - q.c1 - q.cmu * q.weights.sum) * quad r.C x + q.c1 * T (drawnMean q π z) +
          q.cmu * quad (q.rankMu r (π.map fun j => r.transform *ᵥ z j)) x := fun z => by
      have := quad_cov (q := q) (r := r) hp 0 z x
      refine this.trans ?_
      congr 3
      have hH : q.hs r 0 (π.map fun j => r.transform *ᵥ z j) =
          φ (drawnMean q π z ⬝ᵥ drawnMean q π z) := by
        rw [hs_first hn hg hp hcs hcs1 hps]
      rw [hH, hpc, dotProduct_zero, mul_zero, zero_add, Real.sqrt_mul hb0]
      have hsq : φ (drawnMean q π z ⬝ᵥ drawnMean q π z) ^ 2 =
          φ (drawnMean q π z ⬝ᵥ drawnMean q π z) := by
        rcases hφ01 (drawnMean q π z ⬝ᵥ drawnMean q π z) with h | h <;> rw [h] <;> norm_num
      have hdm : v ⬝ᵥ drawnMean q π z =
          Real.sqrt q.muEff * (v ⬝ᵥ ∑ j, drawnWeight q π j • z j) := by
        rw [drawnMean_eq, dotProduct_smul, smul_eq_mul]
      simp only [hT]
      rw [hdm, mul_pow (Real.sqrt _), Real.sq_sqrt hmu.le, mul_pow, mul_pow, mul_pow, hsq,
        Real.sq_sqrt hb0, Real.sq_sqrt hmu.le]
      ring
    simp_rw [e]
    have hTi' : Integrable (fun z => T (drawnMean q π z)) (standardNormal k n) :=
      h.integrable_comp_of_integrable hTi
    have hint : Integrable (fun z => (1 - q.c1 - q.cmu * q.weights.sum) * quad r.C x +
        q.c1 * T (drawnMean q π z)) (standardNormal k n) :=
      (integrable_const _).add (hTi'.const_mul _)
    rw [integral_add hint (m1.const_mul _), integral_add (integrable_const _) (hTi'.const_mul _),
      integral_const_mul q.c1, integral_const_mul q.cmu, m2, key T hTi, hTe, hC]
    simp only [integral_const, probReal_univ, one_smul]
    ring

/-! ### The theorems -/

variable {env : Env n XR Nat} {obj : Obj n XR} {o : Options n XR} {t : List (NextCall n XR)}
  {c : CMAES n XR Nat}

theorem drawn_sum_sq {v : Fin o.populationSize → XR} (hl : 2 ≤ o.populationSize)
    (hmu : (optParams o).mu ≤ o.populationSize) :
    ∑ j, drawnWeight (optParams o) (ranking o.mode v) j ^ 2 = 1 / (optParams o).muEff := by
  have hnd : (ranking o.mode v).Nodup :=
    (ranking_perm o.mode v).nodup_iff.mpr (List.nodup_finRange _)
  have hlen : ((optParams o).weights.take (optParams o).mu).length ≤ (ranking o.mode v).length := by
    rw [(ranking_perm o.mode v).length_eq, List.length_finRange, List.length_take]
    exact (min_le_left _ _).trans hmu
  rw [← sum_univ_eq (ranking_perm o.mode v)]
  unfold drawnWeight
  rw [sum_sq_idx _ _ hnd hlen, sum_sq_weights o hl]

/-- **C98.** Without selection the covariance matrix does not shrink on average, in any direction,
by more than the learning rate of its rank-one update. In the setting of C88, let the objective
ignore the points it is called on. The covariance matrix after the next generation, evaluated
sequentially or in parallel, is a random matrix `Q z`. In the direction `x` its expected value is bounded from below and above in
terms of the covariance matrix `C`, the matrix `C1` that the points are drawn with (`C1 = C` if the
decomposition is fresh), and the evolution path `p`. In particular the rank-mu update contributes
the sum of the weights times `C1`, exactly, even with negative weights; and if the decomposition is
fresh, the expected value in the direction `x` is at least `1 - c1` times the value before. -/
theorem c98_bounds {ω : Nat → ℝ} (hx : ExactRun (env.withRng (streamRng ω)) o)
    (h : History.Of (env.withRng (streamRng ω)) obj o t c) (hcon : o.constraints = none) {a b : ℝ}
    (h1 : c.parameters.c1 = .fin a) (h2 : c.parameters.cmu = .fin b) (hs : a + b < 1)
    (hig : obj.IgnoresPoint) (hnan : ∀ log x, Flt.isNaN (obj.f log x) = false) (kind : EvalKind) :
    let N := o.populationSize * t.length * n
    let last := c.generation - c.generation % c.generationsPerEigenUpdate
    ∃ (t1 : List (NextCall n XR)) (c1 : CMAES n XR Nat) (C C1 : Matrix (Fin n) (Fin n) ℝ)
      (w : List ℝ) (cc : ℝ) (p : Fin n → ℝ)
      (Q : (Fin o.populationSize → Fin n → ℝ) → Matrix (Fin n) (Fin n) ℝ),
      t1 <+: t ∧ History.Of (env.withRng (streamRng ω)) obj o t1 c1 ∧ c1.generation = last ∧
      c1.covarianceMatrix = Mat.fin C1 ∧ c.covarianceMatrix = Mat.fin C ∧
      (c.generation % c.generationsPerEigenUpdate = 0 → C1 = C) ∧
      c.parameters.weights = w.map .fin ∧ c.parameters.cc = .fin cc ∧ c.state.pathC = Vec.fin p ∧
      (∀ z : Fin o.populationSize → Fin n → ℝ,
        History.Of (env.withRng (streamRng (replaceFrom ω N z))) obj o t c) ∧
      (∀ᵐ z ∂standardNormal o.populationSize n, ∀ d res,
        c.next (env.withRng (streamRng (replaceFrom ω N z))) kind = .ok (d, res) →
        d.covarianceMatrix = Mat.fin (Q z)) ∧
      ∀ x : Fin n → ℝ,
        Integrable (fun z => x ⬝ᵥ Q z *ᵥ x) (standardNormal o.populationSize n) ∧
        (1 - a - b * w.sum) * (x ⬝ᵥ C *ᵥ x) + b * w.sum * (x ⬝ᵥ C1 *ᵥ x) ≤
          ∫ z, x ⬝ᵥ Q z *ᵥ x ∂standardNormal o.populationSize n ∧
        ∫ z, x ⬝ᵥ Q z *ᵥ x ∂standardNormal o.populationSize n ≤
          (1 - a - b * w.sum) * (x ⬝ᵥ C *ᵥ x) + b * w.sum * (x ⬝ᵥ C1 *ᵥ x) +
            a * (2 * ((1 - cc) * (x ⬝ᵥ p)) ^ 2 + cc * (2 - cc) * (x ⬝ᵥ C *ᵥ x + x ⬝ᵥ C1 *ᵥ x)) := by
  intro N last
  obtain ⟨r, y, i⟩ := exact_inv hx (by rw [rateSum_eq h h1 h2]; exact hs) h
  obtain ⟨t1, c1, s1, s2, s3, s4⟩ := i.snap
  obtain ⟨hp, hq⟩ := params_rep h
  obtain ⟨_, _, _, p⟩ := params_real h
  have hl2 : 2 ≤ o.populationSize := p.size
  set v : Fin o.populationSize → XR := fun j =>
    obj.f (List.replicate (c.sampler.obj.log.length + callPos kind (env.sched c.world.steps)
      o.populationSize j) (c.mean, c.sigma)) c.mean with hvdef
  have hv : ∀ (j : Fin o.populationSize) log x, log.length = c.sampler.obj.log.length +
      callPos kind (env.sched c.world.steps) o.populationSize j → obj.f log x = v j := fun j log x hj => hig _ _ _ _ (by rw [hj, List.length_replicate])
  have ea : a = (optParams o).c1 := by have := h1.symm.trans hp.c1; injection this
  have eb : b = (optParams o).cmu := by have := h2.symm.trans hp.cmu; injection this
  have hmu : 0 < (optParams o).muEff := by
    have : (optParams o).muEff = realMuEff o.populationSize o.weights := rfl
    rw [this]
    linarith [one_le_realMuEff hl2 o.weights]
  refine ⟨t1, c1, r.C, r.decomposed, (optParams o).weights, (optParams o).cc, r.pathC,
    fun z => (optParams o).cov r c.state.generation
      ((ranking o.mode v).map fun j => r.transform *ᵥ z j), s1, s2, s3, s4, i.rep.cov,
    i.fresh, hp.weights, hp.cc, i.rep.pathC, (stream_history h hcon).2, ?_, ?_⟩
  · filter_upwards [exact_ae N hx o.populationSize] with z hz d res hn
    obtain ⟨r', ok, hu⟩ := neutral_updated h hcon i.rep i.good hnan hv hz hn
    show d.state.cov.cov = _
    rw [hu.cov', hu.cov]
  · intro x
    have hC : 0 ≤ quad r.C x :=
      (mul_nonneg i.x_pos.le (PosDef.quad_nonneg (decomposed_posDef i.good) x)).trans (i.cov x)
    rw [ea, eb]
    exact expected_cov hp.dim_ne i.good (ranking_perm o.mode v) hq.length hmu
      (drawn_sum_sq hl2 hq.mu_lambda) hp.cc_pos hp.cc_lt hq.c1.le _ x hC

/-- **C98, fresh decomposition.** In the setting of `c98_bounds`, if the covariance matrix `C` has
just been decomposed, its expected value after the next generation is at least `(1 - c1) C`, in
every direction. -/
theorem c98_fresh {ω : Nat → ℝ} (hx : ExactRun (env.withRng (streamRng ω)) o)
    (h : History.Of (env.withRng (streamRng ω)) obj o t c) (hcon : o.constraints = none) {a b : ℝ}
    (h1 : c.parameters.c1 = .fin a) (h2 : c.parameters.cmu = .fin b) (hs : a + b < 1)
    (hfresh : c.generation % c.generationsPerEigenUpdate = 0)
    (hig : obj.IgnoresPoint) (hnan : ∀ log x, Flt.isNaN (obj.f log x) = false) (kind : EvalKind) :
    let N := o.populationSize * t.length * n
    ∃ (C : Matrix (Fin n) (Fin n) ℝ)
      (Q : (Fin o.populationSize → Fin n → ℝ) → Matrix (Fin n) (Fin n) ℝ),
      c.covarianceMatrix = Mat.fin C ∧
      (∀ᵐ z ∂standardNormal o.populationSize n, ∀ d res,
        c.next (env.withRng (streamRng (replaceFrom ω N z))) kind = .ok (d, res) →
        d.covarianceMatrix = Mat.fin (Q z)) ∧
      ∀ x : Fin n → ℝ,
        Integrable (fun z => x ⬝ᵥ Q z *ᵥ x) (standardNormal o.populationSize n) ∧
        (1 - a) * (x ⬝ᵥ C *ᵥ x) ≤ ∫ z, x ⬝ᵥ Q z *ᵥ x ∂standardNormal o.populationSize n := by
  intro N
  obtain ⟨t1, c1, C, C1, w, cc, p, Q, -, -, -, -, e5, e6, -, -, -, -, e11, e12⟩ :=
    c98_bounds hx h hcon h1 h2 hs hig hnan kind
  obtain rfl := e6 hfresh
  refine ⟨C1, Q, e5, e11, fun x => ⟨(e12 x).1, le_trans (le_of_eq ?_) (e12 x).2.1⟩⟩
  ring

/-- At first the covariance matrix is the identity and both evolution paths are zero. -/
theorem rep_first {env : Env n XR Nat} (hx : ExactRun env o) (h : History.Of env obj o [] c) :
    ∃ m s, 0 < s ∧ Rep c.state ⟨m, s, 1, 0, 0, 1, fun _ => 1⟩ ∧ c.state.generation = 0 := by
  obtain ⟨w, c0, h0, he⟩ := h
  obtain ⟨m, hm⟩ := hx.mean
  obtain ⟨s, hs2, hrep, hg, -⟩ := fresh_rep h0 hm
  have key : ∀ {t' : List (NextCall n XR)} {c' : CMAES n XR Nat}, Exec env c0 t' c' → t' = [] →
      c'.state = c0.state := by
    intro t' c' he
    induction he with
    | refl => intro _; rfl
    | quiet he' hq ha ih =>
      intro ht
      rw [(quiet_sameSearch hq ha).1.state]
      exact ih ht
    | next _ _ _ _ => intro ht; simp at ht
  rw [key he rfl]
  exact ⟨m, s, hs2, hrep, hg⟩

/-- **C98, first generation.** The covariance matrix is the identity at first. After the first
generation without selection its expected value is a multiple `κ` of the identity: no direction is
preferred. The factor `κ` lies between `1 - c1` and `1 - c1 (1 - cc)²`, which is less than one. -/
theorem c98_first {ω : Nat → ℝ} (hx : ExactRun (env.withRng (streamRng ω)) o)
    (h : History.Of (env.withRng (streamRng ω)) obj o [] c) (hcon : o.constraints = none)
    (hig : obj.IgnoresPoint) (hnan : ∀ log x, Flt.isNaN (obj.f log x) = false) (kind : EvalKind) :
    ∃ (a cc κ : ℝ) (Q : (Fin o.populationSize → Fin n → ℝ) → Matrix (Fin n) (Fin n) ℝ),
      c.parameters.c1 = .fin a ∧ c.parameters.cc = .fin cc ∧ 0 < a ∧ 0 < cc ∧ cc < 1 ∧
      c.covarianceMatrix = Mat.fin 1 ∧
      (∀ᵐ z ∂standardNormal o.populationSize n, ∀ d res,
        c.next (env.withRng (streamRng (replaceFrom ω 0 z))) kind = .ok (d, res) →
        d.covarianceMatrix = Mat.fin (Q z)) ∧
      (∀ x : Fin n → ℝ, Integrable (fun z => x ⬝ᵥ Q z *ᵥ x) (standardNormal o.populationSize n) ∧
        ∫ z, x ⬝ᵥ Q z *ᵥ x ∂standardNormal o.populationSize n = κ * (x ⬝ᵥ x)) ∧
      1 - a ≤ κ ∧ κ ≤ 1 - a * (1 - cc) ^ 2 := by
  obtain ⟨m, s, hs0, hrep, hgen⟩ := rep_first hx h
  set r : RealState n := ⟨m, s, 1, 0, 0, 1, fun _ => 1⟩ with hr
  have hgood : r.Good := ⟨by simp [hr], fun _ => one_pos, by simp [hr], hs0⟩
  have hdec : r.decomposed = r.C := by simp [hr, RealState.decomposed]
  obtain ⟨hp, hq⟩ := params_rep h
  obtain ⟨_, _, _, p⟩ := params_real h
  have hl2 : 2 ≤ o.populationSize := p.size
  set v : Fin o.populationSize → XR := fun j =>
    obj.f (List.replicate (c.sampler.obj.log.length + callPos kind (env.sched c.world.steps)
      o.populationSize j) (c.mean, c.sigma)) c.mean with hvdef
  have hv : ∀ (j : Fin o.populationSize) log x, log.length = c.sampler.obj.log.length +
      callPos kind (env.sched c.world.steps) o.populationSize j → obj.f log x = v j := fun j log x hj => hig _ _ _ _ (by rw [hj, List.length_replicate])
  have hmu : 0 < (optParams o).muEff := by
    have : (optParams o).muEff = realMuEff o.populationSize o.weights := rfl
    rw [this]
    linarith [one_le_realMuEff hl2 o.weights]
  obtain ⟨κ, k1, k2, k3⟩ := expected_first hp.dim_ne hgood (ranking_perm o.mode v) hq.length hmu
    (drawn_sum_sq hl2 hq.mu_lambda) hp.cc_pos hp.cc_lt hp.cs_pos hp.cs_lt hq.c1.le rfl rfl hdec
  have hquad : ∀ x : Fin n → ℝ, quad r.C x = x ⬝ᵥ x := fun x => by simp [hr, quad]
  refine ⟨(optParams o).c1, (optParams o).cc, κ, fun z => (optParams o).cov r 0
      ((ranking o.mode v).map fun j => r.transform *ᵥ z j), hp.c1, hp.cc, hq.c1, hp.cc_pos,
    hp.cc_lt, hrep.cov, ?_, fun x => ⟨?_, ?_⟩, k1, k2⟩
  · have hae := exact_ae (o.populationSize * ([] : List (NextCall n XR)).length * n) hx o.populationSize
    filter_upwards [hae] with z hz d res hn
    obtain ⟨r', ok, hu⟩ := neutral_updated h hcon hrep hgood hnan hv hz (by simpa using hn)
    show d.state.cov.cov = _
    rw [hu.cov', hu.cov, hgen]
  · exact (expected_cov hp.dim_ne hgood (ranking_perm o.mode v) hq.length hmu
      (drawn_sum_sq hl2 hq.mu_lambda) hp.cc_pos hp.cc_lt hq.c1.le 0 x
      (by rw [hquad]; exact Finset.sum_nonneg fun i _ => mul_self_nonneg _)).1
  · rw [← hquad]
    exact k3 x

open WitnessReal in
/-- Non-vacuity: after 600 generations with negative weights on a constant objective the
hypotheses of `c98_bounds` and `c98_fresh` are met, and a further `next` call returns. -/
example : ∃ t c a b, History.Of ((renv 2).withRng (streamRng fun k => k + 1)) flat
      { opts with mode := .maximize, weights := .negative, populationSize := 6 } t c ∧
    ExactRun ((renv 2).withRng (streamRng fun k => k + 1))
      { opts with mode := .maximize, weights := .negative, populationSize := 6 } ∧
    c.generation = 600 ∧ c.parameters.c1 = .fin a ∧ c.parameters.cmu = .fin b ∧ a + b < 1 ∧
    c.generation % c.generationsPerEigenUpdate = 0 ∧ flat.IgnoresPoint ∧ (∀ log x, Flt.isNaN (flat.f log x) = false) ∧
    ∃ d res, c.next ((renv 2).withRng (streamRng fun k => k + 1)) .par = .ok (d, res) := by
  have hv : ∀ log x, Flt.isNaN (flat.f log x) = false := fun _ _ => isNaN_fin _
  obtain ⟨t, c, d, res, _, h, hg, _, hn, _⟩ := stream_runs hv .maximize .negative (lambda := 6)
    (by norm_num) (by norm_num) .par 600 (by norm_num)
  obtain ⟨hp, _⟩ := params_rep h
  refine ⟨t, c, _, _, h, stream_exact' _ _ _, hg, hp.c1, hp.cmu,
    rateSum_lt_one (by norm_num) (by show 2 ≤ 6; norm_num) (by show 6 ≤ _; norm_num), ?_,
    fun _ _ _ _ _ => rfl, hv, d, res, hn⟩
  have h0 := generationsPerEigenUpdate_pos h
  have h5 : c.generationsPerEigenUpdate ≤ 5 := (c41_at_most h).trans (by norm_num)
  rw [hg]
  interval_cases c.generationsPerEigenUpdate <;> rfl

open WitnessReal in
/-- Non-vacuity of `c98_first`. -/
example : ∃ c, History.Of ((renv 2).withRng (streamRng fun k => k + 1)) flat
      { opts with mode := .maximize, weights := .negative, populationSize := 6 } [] c ∧
    ExactRun ((renv 2).withRng (streamRng fun k => k + 1))
      { opts with mode := .maximize, weights := .negative, populationSize := 6 } ∧
    flat.IgnoresPoint ∧ (∀ log x, Flt.isNaN (flat.f log x) = false) ∧
    ∃ d res, c.next ((renv 2).withRng (streamRng fun k => k + 1)) .par = .ok (d, res) := by
  have hv : ∀ log x, Flt.isNaN (flat.f log x) = false := fun _ _ => isNaN_fin _
  obtain ⟨t, c, d, res, _, h, hg, ht, hn, _⟩ := stream_runs hv .maximize .negative (lambda := 6)
    (by norm_num) (by norm_num) .par 0 (by norm_num)
  obtain rfl := List.length_eq_zero_iff.mp ht
  exact ⟨c, h, stream_exact' _ _ _, fun _ _ _ _ _ => rfl, hv, d, res, hn⟩

end Cmaes
