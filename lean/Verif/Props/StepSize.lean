import Verif.Props.Downhill

/-!
# C95: without selection the step size corrects itself
-/

set_option linter.unusedSectionVars false

namespace Cmaes
open MeasureTheory ProbabilityTheory Matrix WithLp XR
variable {n : Nat}

/-! ### The expected length of a normally distributed vector -/

theorem len_eq_norm (x : Fin n → ℝ) : len x = ‖(toLp 2 x : EuclideanSpace ℝ (Fin n))‖ := by
  rw [EuclideanSpace.norm_eq, len]
  congr 1
  exact Finset.sum_congr rfl fun i _ => by simp [sq]

theorem posSemidef_scalar {s : ℝ} (hs : 0 ≤ s) : (s • (1 : Matrix (Fin n) (Fin n) ℝ)).PosSemidef :=
  Matrix.PosSemidef.one.smul hs

/-- The expected squared length. -/
theorem integral_norm_sq (m : EuclideanSpace ℝ (Fin n)) {s : ℝ} (hs : 0 ≤ s) :
    ∫ x, ‖x‖ ^ 2 ∂multivariateGaussian m (s • (1 : Matrix (Fin n) (Fin n) ℝ)) = ‖m‖ ^ 2 + s * n := by
  have hp := posSemidef_scalar (n := n) hs
  have hmp := fun i => measurePreserving_eval_multivariateGaussian (μ := m) hp (i := i)
  have hL : ∀ i, MemLp (fun x : EuclideanSpace ℝ (Fin n) => x i) 2
      (multivariateGaussian m (s • (1 : Matrix (Fin n) (Fin n) ℝ))) := fun i =>
    (memLp_id_gaussianReal 2).comp_measurePreserving (hmp i)
  have h1 : ∀ i, ∫ x : EuclideanSpace ℝ (Fin n), x i ^ 2
      ∂multivariateGaussian m (s • (1 : Matrix (Fin n) (Fin n) ℝ)) = m i ^ 2 + s := by
    intro i
    have hv := variance_eval_multivariateGaussian (μ := m) hp i
    rw [variance_eq_sub (hL i)] at hv
    have hm : ∫ x : EuclideanSpace ℝ (Fin n), x i
        ∂multivariateGaussian m (s • (1 : Matrix (Fin n) (Fin n) ℝ)) = m i := by
      have := integral_map (μ := multivariateGaussian m (s • (1 : Matrix (Fin n) (Fin n) ℝ)))
        (f := fun x : ℝ => x) (hmp i).measurable.aemeasurable (by fun_prop)
      rw [(hmp i).map_eq, integral_id_gaussianReal] at this
      exact this.symm
    rw [hm] at hv
    simp only [Matrix.smul_apply, Matrix.one_apply_eq, smul_eq_mul, mul_one] at hv
    have : ∫ x : EuclideanSpace ℝ (Fin n), x i ^ 2
      ∂multivariateGaussian m (s • (1 : Matrix (Fin n) (Fin n) ℝ)) - m i ^ 2 = s := hv
    linarith
  simp_rw [EuclideanSpace.norm_sq_eq, Real.norm_eq_abs, sq_abs]
  rw [integral_finset_sum _ fun i _ => (hL i).integrable_sq]
  simp_rw [h1]
  rw [Finset.sum_add_distrib, Finset.sum_const, Finset.card_univ, Fintype.card_fin, nsmul_eq_mul,
    mul_comm]

/-- The expected length is at least the length of the expected vector, and at most the root of the
expected squared length. -/
theorem integral_norm_bounds (m : EuclideanSpace ℝ (Fin n)) {s : ℝ} (hs : 0 ≤ s) :
    Integrable (fun x => ‖x‖) (multivariateGaussian m (s • (1 : Matrix (Fin n) (Fin n) ℝ))) ∧
    ‖m‖ ≤ ∫ x, ‖x‖ ∂multivariateGaussian m (s • (1 : Matrix (Fin n) (Fin n) ℝ)) ∧
    ∫ x, ‖x‖ ∂multivariateGaussian m (s • (1 : Matrix (Fin n) (Fin n) ℝ)) ≤
      Real.sqrt (‖m‖ ^ 2 + s * n) := by
  have hid : MemLp id 2 (multivariateGaussian m (s • (1 : Matrix (Fin n) (Fin n) ℝ))) :=
    IsGaussian.memLp_two_id
  have hL : MemLp (fun x => ‖x‖) 2 (multivariateGaussian m (s • (1 : Matrix (Fin n) (Fin n) ℝ))) :=
    hid.norm
  refine ⟨hL.integrable (by norm_num), ?_, ?_⟩
  · have := norm_integral_le_integral_norm (μ := multivariateGaussian m (s • (1 : Matrix (Fin n) (Fin n) ℝ)))
      (fun x => x)
    rwa [integral_id_multivariateGaussian] at this
  · apply Real.le_sqrt_of_sq_le
    have h0 := variance_nonneg (fun x => ‖x‖)
      (multivariateGaussian m (s • (1 : Matrix (Fin n) (Fin n) ℝ)))
    rw [variance_eq_sub hL] at h0
    have h1 := integral_norm_sq m hs
    have h0 : 0 ≤ ∫ x, ‖x‖ ^ 2 ∂multivariateGaussian m (s • (1 : Matrix (Fin n) (Fin n) ℝ)) -
      (∫ x, ‖x‖ ∂multivariateGaussian m (s • (1 : Matrix (Fin n) (Fin n) ℝ))) ^ 2 := h0
    linarith

/-! ### The conjugate path -/

theorem invSqrt_mul_transform {r : RealState n} (h : r.Good) : r.invSqrt * r.transform = r.B := by
  unfold RealState.invSqrt RealState.transform
  rw [Matrix.mul_assoc, ← Matrix.mul_assoc r.Bᵀ, h.orthonormal, Matrix.one_mul, Matrix.mul_assoc,
    diagonal_mul_diagonal]
  have : (fun i => 1 / Real.sqrt (r.d i) * Real.sqrt (r.d i)) = fun _ => 1 := by
    funext i
    have := (Real.sqrt_pos.mpr (h.pos i)).ne'
    field_simp
  rw [this, diagonal_one, Matrix.mul_one]

variable {env : Env n XR Nat} {obj : Obj n XR} {o : Options n XR} {t : List (NextCall n XR)}
  {c c0 : CMAES n XR Nat} {kind : EvalKind}

/-- The law of the step size after a generation without selection: the conjugate path is normally
distributed with mean `(1 - cs) p`, where `p` is the path before, and covariance `cs (2 - cs) 1`. -/
theorem path_law {ω : Nat → ℝ} (hx : ExactRun (env.withRng (streamRng ω)) o)
    (h : History.Of (env.withRng (streamRng ω)) obj o t c) (hcon : o.constraints = none) {a b : ℝ}
    (h1 : c.parameters.c1 = .fin a) (h2 : c.parameters.cmu = .fin b) (hs : a + b < 1)
    (hig : obj.IgnoresPoint) (hnan : ∀ log x, Flt.isNaN (obj.f log x) = false) (kind' : EvalKind) :
    let N := o.populationSize * t.length * n
    ∃ (s cs damp : ℝ) (p : Fin n → ℝ)
      (P : (Fin o.populationSize → Fin n → ℝ) → EuclideanSpace ℝ (Fin n)),
      c.sigma = .fin s ∧ 0 < s ∧ c.parameters.cs = .fin cs ∧ 0 < cs ∧ cs < 1 ∧
      c.parameters.dampS = .fin damp ∧ 0 < damp ∧ c.state.pathSigma = Vec.fin p ∧ n ≠ 0 ∧
      (∀ z : Fin o.populationSize → Fin n → ℝ,
        History.Of (env.withRng (streamRng (replaceFrom ω N z))) obj o t c) ∧
      (∀ᵐ z ∂standardNormal o.populationSize n, ∀ d res,
        c.next (env.withRng (streamRng (replaceFrom ω N z))) kind' = .ok (d, res) →
        d.sigma = .fin (s * Real.exp (cs / damp * (‖P z‖ / realChi n - 1)))) ∧
      Measurable P ∧
      (standardNormal o.populationSize n).map P =
        multivariateGaussian (toLp 2 ((1 - cs) • p)) ((cs * (2 - cs)) • (1 : Matrix (Fin n) (Fin n) ℝ)) := by
  intro N
  obtain ⟨r, x, i⟩ := exact_inv hx (by rw [rateSum_eq h h1 h2]; exact hs) h
  obtain ⟨hp, hq⟩ := params_rep h
  obtain ⟨_, _, _, p⟩ := params_real h
  have hl2 : 2 ≤ o.populationSize := p.size
  set v : Fin o.populationSize → XR := fun j =>
    obj.f (List.replicate (c.sampler.obj.log.length + callPos kind' (env.sched c.world.steps)
      o.populationSize j) (c.mean, c.sigma)) c.mean with hvdef
  have hv : ∀ (j : Fin o.populationSize) log x, log.length = c.sampler.obj.log.length +
      callPos kind' (env.sched c.world.steps) o.populationSize j → obj.f log x = v j := fun j log x hj => hig _ _ _ _ (by rw [hj, List.length_replicate])
  have hnd : (ranking o.mode v).Nodup :=
    (ranking_perm o.mode v).nodup_iff.mpr (List.nodup_finRange _)
  set q := optParams o with hqdef
  set K := Real.sqrt (q.cs * (2 - q.cs) * q.muEff) with hK
  have hcs : 0 ≤ q.cs * (2 - q.cs) := mul_nonneg hp.cs_pos.le (by linarith [hp.cs_lt])
  have hmu : 0 < q.muEff := by
    have : q.muEff = realMuEff o.populationSize o.weights := rfl
    rw [this]
    linarith [one_le_realMuEff hl2 o.weights]
  set A : Fin o.populationSize → ℝ := fun j =>
    K * (q.weights.take q.mu).getD ((ranking o.mode v).idxOf j) 0 with hA
  have hsum : ∑ j, A j ^ 2 = q.cs * (2 - q.cs) := by
    have hlen : (q.weights.take q.mu).length ≤ (ranking o.mode v).length := by
      rw [(ranking_perm o.mode v).length_eq, List.length_finRange, List.length_take]
      exact (min_le_left _ _).trans hq.mu_lambda
    rw [← sum_univ_eq (ranking_perm o.mode v)]
    simp_rw [hA, mul_pow]
    rw [List.sum_map_mul_left, sum_sq_idx _ _ hnd hlen, sum_sq_weights o hl2, hK,
      Real.sq_sqrt (mul_nonneg hcs hmu.le), ← hqdef, mul_one_div, mul_div_assoc, div_self hmu.ne', mul_one]
  have hpath : ∀ z : Fin o.populationSize → Fin n → ℝ,
      q.pathSigma r ((ranking o.mode v).map fun j => r.transform *ᵥ z j) =
        (1 - q.cs) • r.pathSigma + ∑ j, A j • (r.B *ᵥ z j) := by
    intro z
    unfold RealParams.pathSigma RealParams.step
    rw [zipWith_sum _ _ _ hnd, sum_univ_eq (ranking_perm o.mode v), ← Matrix.mulVecLin_apply, map_sum,
      Finset.smul_sum]
    congr 1
    refine Finset.sum_congr rfl fun j _ => ?_
    rw [map_smul, Matrix.mulVecLin_apply, mulVec_mulVec, invSqrt_mul_transform i.good, smul_smul]
  refine ⟨r.sigma, q.cs, q.dampS, r.pathSigma,
    fun z => toLp 2 ((1 - q.cs) • r.pathSigma + ∑ j, A j • (r.B *ᵥ z j)), i.rep.sigma, i.good.sigma,
    hp.cs, hp.cs_pos, hp.cs_lt, hp.dampS, hp.dampS_pos, i.rep.pathSigma, hp.dim_ne,
    (stream_history h hcon).2, ?_, ?_, ?_⟩
  · filter_upwards [exact_ae N hx o.populationSize] with z hz d res hn
    obtain ⟨r', ok, hu⟩ := neutral_updated h hcon i.rep i.good hnan hv hz hn
    show d.state.sigma = _
    rw [hu.sigma', hu.sigma]
    unfold RealParams.sigma
    rw [hpath, len_eq_norm]
  · have : Continuous fun z : Fin o.populationSize → Fin n → ℝ =>
        (1 - q.cs) • r.pathSigma + ∑ j, A j • (r.B *ᵥ z j) :=
      continuous_const.add (continuous_finset_sum _ fun j _ => by
        have hc : Continuous fun z : Fin o.populationSize → Fin n → ℝ => r.B *ᵥ z j :=
          Continuous.matrix_mulVec continuous_const (continuous_apply j)
        exact hc.const_smul (A j))
    exact (by fun_prop : Measurable (toLp 2 : (Fin n → ℝ) → _)).comp this.measurable
  · rw [map_combination, hsum, i.good.orthonormal']

/-- What the law of the path says about the logarithm of the step size. -/
theorem log_growth {k : Nat} {s cs damp q : ℝ} {m : EuclideanSpace ℝ (Fin n)}
    {P : (Fin k → Fin n → ℝ) → EuclideanSpace ℝ (Fin n)} (hs : 0 < s) (hcs : 0 < cs) (hcs1 : cs < 1)
    (hd : 0 < damp) (hn : n ≠ 0) (hP : Measurable P) (hm : ‖m‖ = (1 - cs) * q)
    (hlaw : (standardNormal k n).map P =
      multivariateGaussian m ((cs * (2 - cs)) • (1 : Matrix (Fin n) (Fin n) ℝ))) :
    let S := fun z => s * Real.exp (cs / damp * (‖P z‖ / realChi n - 1))
    Integrable (fun z => Real.log (S z / s)) (standardNormal k n) ∧
    cs / damp * ((1 - cs) * q / realChi n - 1) ≤ ∫ z, Real.log (S z / s) ∂standardNormal k n ∧
    ∫ z, Real.log (S z / s) ∂standardNormal k n ≤
      cs / damp * (Real.sqrt (((1 - cs) * q) ^ 2 + cs * (2 - cs) * n) / realChi n - 1) := by
  intro S
  have : IsProbabilityMeasure (standardNormal k n) := by unfold standardNormal; infer_instance
  have hchi := realChi_pos hn
  have e : (fun z => Real.log (S z / s)) = fun z => cs / damp * (‖P z‖ / realChi n - 1) := by
    funext z
    show Real.log (s * Real.exp (cs / damp * (‖P z‖ / realChi n - 1)) / s) = _
    rw [mul_div_cancel_left₀ _ hs.ne', Real.log_exp]
  obtain ⟨b1, b2, b3⟩ := integral_norm_bounds m (s := cs * (2 - cs))
    (mul_nonneg hcs.le (by linarith))
  rw [← hlaw] at b1 b2 b3
  rw [integral_map hP.aemeasurable (by fun_prop)] at b2 b3
  rw [integrable_map_measure (by fun_prop) hP.aemeasurable] at b1
  have b1 : Integrable (fun z => ‖P z‖) (standardNormal k n) := b1
  have hint : Integrable (fun z => ‖P z‖ / realChi n - 1) (standardNormal k n) :=
    (b1.div_const _).sub (integrable_const _)
  have e2 : ∫ z, Real.log (S z / s) ∂standardNormal k n =
      cs / damp * ((∫ z, ‖P z‖ ∂standardNormal k n) / realChi n - 1) := by
    rw [e, integral_const_mul, integral_sub (b1.div_const _) (integrable_const _), integral_div]
    simp
  have hpos : 0 ≤ cs / damp := (div_pos hcs hd).le
  rw [hm] at b2 b3
  refine ⟨by rw [e]; exact hint.const_mul _, ?_, ?_⟩
  · rw [e2]
    gcongr
  · rw [e2]
    gcongr

/-- **C95.** Without selection the step size corrects itself. In the setting of C88, let the
objective ignore the points it is called on, let the last `next` call have completed a generation,
in which the step size went from `s0` to `s`, and let the next generation be evaluated sequentially
or in parallel.
The step size after it is a random number `S z`. Let `κ = (cs/damp) (√n/chi - 1)`, which is less than
`(cs/damp) / (3n)` by `c95_kappa`. On average the logarithm of the step size grows by no more than
it grew in the last generation or by no more than `κ`; if it grew by more than `κ` in the last
generation, it grows by strictly less in the next. And on average it does not shrink by more than
`1 - cs` times what it shrank by in the last generation, plus `cs²/damp`. -/
theorem c95_growth {ω : Nat → ℝ} {res0 : Option (TerminationData n XR)}
    (hx : ExactRun (env.withRng (streamRng ω)) o)
    (h0 : History.Of (env.withRng (streamRng ω)) obj o t c0)
    (hn0 : c0.next (env.withRng (streamRng ω)) kind = .ok (c, res0))
    (hf0 : ¬ ∃ x, res0 = some x ∧ .invalidFunctionValue ∈ x.reasons)
    (hcon : o.constraints = none) {a b : ℝ}
    (h1 : c.parameters.c1 = .fin a) (h2 : c.parameters.cmu = .fin b) (hs : a + b < 1)
    (hig : obj.IgnoresPoint) (hnan : ∀ log x, Flt.isNaN (obj.f log x) = false) (kind' : EvalKind) :
    let N := o.populationSize * (t.length + 1) * n
    ∃ (s0 s cs damp : ℝ) (S : (Fin o.populationSize → Fin n → ℝ) → ℝ),
      c0.sigma = .fin s0 ∧ 0 < s0 ∧ c.sigma = .fin s ∧ 0 < s ∧ c.parameters.cs = .fin cs ∧
      c.parameters.dampS = .fin damp ∧
      (∃ t' : List (NextCall n XR), t'.length = t.length + 1 ∧
        ∀ z : Fin o.populationSize → Fin n → ℝ,
          History.Of (env.withRng (streamRng (replaceFrom ω N z))) obj o t' c) ∧
      (∀ᵐ z ∂standardNormal o.populationSize n, ∀ d res,
        c.next (env.withRng (streamRng (replaceFrom ω N z))) kind' = .ok (d, res) →
        d.sigma = .fin (S z)) ∧
      (∀ z, 0 < S z) ∧
      Integrable (fun z => Real.log (S z / s)) (standardNormal o.populationSize n) ∧
      (1 - cs) * Real.log (s / s0) - cs ^ 2 / damp ≤
        ∫ z, Real.log (S z / s) ∂standardNormal o.populationSize n ∧
      ∫ z, Real.log (S z / s) ∂standardNormal o.populationSize n ≤
        max (Real.log (s / s0)) (cs / damp * (Real.sqrt n / realChi n - 1)) ∧
      (cs / damp * (Real.sqrt n / realChi n - 1) < Real.log (s / s0) →
        ∫ z, Real.log (S z / s) ∂standardNormal o.populationSize n < Real.log (s / s0)) := by
  intro N
  obtain ⟨calls, hl⟩ := next_log hn0
  have h := h0.next hn0 hl
  obtain ⟨s, cs, damp, p, P, g1, g2, g3, g4, g5, g6, g7, g8, g9, g10, g11, g12, g13⟩ :=
    path_law hx h hcon h1 h2 hs hig hnan kind'
  obtain ⟨s0, s', cs', damp', p', k1, k2, k3, k4, k5, k6, -⟩ := c39_grows hx h0 hn0 hf0
  obtain ⟨s0', l1, l2⟩ := c39_positive hx h0
  have i1 : s0' = s0 := by have := l1.symm.trans k1; injection this
  have i2 : s' = s := by have := k2.symm.trans g1; injection this
  have hpar : c.parameters = c0.parameters := by
    obtain ⟨_, j1, _⟩ := fresh_inv h
    obtain ⟨_, j2, _⟩ := fresh_inv h0
    rw [j1.parameters, j2.parameters]
  have i3 : cs' = cs := by rw [hpar] at g3; have := k3.symm.trans g3; injection this
  have i4 : damp' = damp := by rw [hpar] at g6; have := k4.symm.trans g6; injection this
  have i5 : p' = p := by
    funext l
    have := congrFun (k5.symm.trans g8) l
    injection this
  subst i1 i2 i3 i4 i5
  have hlen : (t ++ [(⟨kind, calls, res0⟩ : NextCall n XR)]).length = t.length + 1 := by simp
  simp only [hlen] at g10 g11
  have hpn : ‖(toLp 2 ((1 - cs') • p') : EuclideanSpace ℝ (Fin n))‖ = (1 - cs') * len p' := by
    rw [toLp_smul, norm_smul, Real.norm_eq_abs, abs_of_pos (by linarith), len_eq_norm]
  obtain ⟨q1, q2, q3⟩ := log_growth g2 g4 g5 g7 g9 g12 hpn g13
  have hchi := realChi_pos g9
  have hkap : 0 < cs' / damp' := div_pos g4 g7
  have hlog : Real.log (s' / s0') = cs' / damp' * (len p' / realChi n - 1) := by
    rw [k6, mul_div_cancel_left₀ _ l2.ne', Real.log_exp]
  have hlp : 0 ≤ len p' := Real.sqrt_nonneg _
  have hsn : 0 ≤ Real.sqrt n := Real.sqrt_nonneg _
  have hsq : Real.sqrt (n : ℝ) ^ 2 = n := Real.sq_sqrt (by positivity)
  have hcc : 0 < cs' * (2 - cs') := mul_pos g4 (by linarith)
  refine ⟨s0', s', cs', damp', _, k1, l2, k2, g2, g3, g6, ⟨_, hlen, g10⟩, g11,
    fun z => mul_pos g2 (Real.exp_pos _), q1, ?_, ?_, ?_⟩
  · refine le_trans (le_of_eq ?_) q2
    rw [hlog]
    field_simp
    ring
  · refine q3.trans ?_
    rw [hlog]
    have : Real.sqrt (((1 - cs') * len p') ^ 2 + cs' * (2 - cs') * n) ≤ max (len p') (Real.sqrt n) := by
      apply Real.sqrt_le_iff.mpr ⟨le_max_of_le_left hlp, ?_⟩
      have m1 : len p' ^ 2 ≤ max (len p') (Real.sqrt n) ^ 2 := by gcongr; exact le_max_left _ _
      have m2 : (n : ℝ) ≤ max (len p') (Real.sqrt n) ^ 2 := by
        calc (n : ℝ) = Real.sqrt n ^ 2 := hsq.symm
          _ ≤ _ := by gcongr; exact le_max_right _ _
      have m3 := mul_le_mul_of_nonneg_left m2 hcc.le
      have m4 := mul_le_mul_of_nonneg_left m1 (sq_nonneg (1 - cs'))
      nlinarith
    rcases le_total (len p') (Real.sqrt n) with hle | hle
    · rw [max_eq_right hle] at this
      exact le_max_of_le_right (by gcongr)
    · rw [max_eq_left hle] at this
      exact le_max_of_le_left (by gcongr)
  · intro hlt
    refine q3.trans_lt ?_
    rw [hlog] at hlt ⊢
    have hlt : Real.sqrt n < len p' := by
      have := lt_of_mul_lt_mul_left hlt hkap.le
      have := (sub_lt_sub_iff_right _).mp this
      exact (div_lt_div_iff_of_pos_right hchi).mp this
    have : Real.sqrt (((1 - cs') * len p') ^ 2 + cs' * (2 - cs') * n) < len p' := by
      apply (Real.sqrt_lt' (hsn.trans_lt hlt)).mpr
      have m1 : (n : ℝ) < len p' ^ 2 := by rw [← hsq]; gcongr
      have := mul_lt_mul_of_pos_left m1 hcc
      nlinarith
    gcongr

/-- The constant `κ` of `c95_growth` is positive and small: `√n/chi - 1` lies between `0` and
`1/(3n)`. -/
theorem c95_kappa (hn : n ≠ 0) :
    0 < Real.sqrt n / realChi n - 1 ∧ Real.sqrt n / realChi n - 1 < 1 / (3 * n) := by
  have h1 : (1 : ℝ) ≤ n := by exact_mod_cast Nat.one_le_iff_ne_zero.mpr hn
  have h0 : (0 : ℝ) < n := by linarith
  have hs : 0 < Real.sqrt n := Real.sqrt_pos.mpr h0
  have hchi := realChi_pos hn
  have hx : 0 < 1 / (n : ℝ) := by positivity
  have hx1 : 1 / (n : ℝ) ≤ 1 := by rw [div_le_one h0]; exact h1
  set x := 1 / (n : ℝ) with hxd
  have e : realChi n = Real.sqrt n * (1 - x / 4 + x ^ 2 / 21) := by
    unfold realChi
    rw [hxd]
    congr 1
    field_simp
  have e3 : 1 / (3 * (n : ℝ)) = x / 3 := by rw [hxd]; field_simp
  have hf : 0 < 1 - x / 4 + x ^ 2 / 21 := by nlinarith [sq_nonneg x]
  have e2 : Real.sqrt n / realChi n = 1 / (1 - x / 4 + x ^ 2 / 21) := by
    rw [e]; field_simp
  rw [e2, e3]
  constructor
  · rw [sub_pos, lt_div_iff₀ hf]
    nlinarith
  · rw [sub_lt_iff_lt_add, div_lt_iff₀ hf]
    nlinarith [mul_pos hx hx, mul_pos (mul_pos hx hx) hx]

/-- The conjugate path is zero until the first `next` call. -/
theorem path_zero {env : Env n XR Nat} (hx : ExactRun env o) (h : History.Of env obj o [] c) :
    c.state.pathSigma = Vec.fin 0 := by
  obtain ⟨w, c0, h0, he⟩ := h
  obtain ⟨m, hm⟩ := hx.mean
  obtain ⟨s, hs2, hrep, -⟩ := fresh_rep h0 hm
  have key : ∀ {t' : List (NextCall n XR)} {c' : CMAES n XR Nat}, Exec env c0 t' c' → t' = [] →
      c'.state.pathSigma = Vec.fin 0 := by
    intro t' c' he
    induction he with
    | refl => intro _; exact hrep.pathSigma
    | quiet he' hq ha ih =>
      intro ht
      rw [(quiet_sameSearch hq ha).1.state]
      exact ih ht
    | next _ _ _ _ => intro ht; simp at ht
  exact key he rfl

/-- **C95, first generation.** The path is zero at first, so the bounds on the expected growth of the
logarithm of the step size in the first generation do not depend on anything before it. -/
theorem c95_first {ω : Nat → ℝ} (hx : ExactRun (env.withRng (streamRng ω)) o)
    (h : History.Of (env.withRng (streamRng ω)) obj o [] c)
    (hcon : o.constraints = none) {a b : ℝ}
    (h1 : c.parameters.c1 = .fin a) (h2 : c.parameters.cmu = .fin b) (hs : a + b < 1)
    (hig : obj.IgnoresPoint) (hnan : ∀ log x, Flt.isNaN (obj.f log x) = false) (kind' : EvalKind) :
    ∃ (s cs damp : ℝ) (S : (Fin o.populationSize → Fin n → ℝ) → ℝ),
      c.sigma = .fin s ∧ 0 < s ∧ c.parameters.cs = .fin cs ∧
      c.parameters.dampS = .fin damp ∧
      (∀ᵐ z ∂standardNormal o.populationSize n, ∀ d res,
        c.next (env.withRng (streamRng (replaceFrom ω 0 z))) kind' = .ok (d, res) →
        d.sigma = .fin (S z)) ∧
      (∀ z, s * Real.exp (-(cs / damp)) ≤ S z) ∧
      Integrable (fun z => Real.log (S z / s)) (standardNormal o.populationSize n) ∧
      ∫ z, Real.log (S z / s) ∂standardNormal o.populationSize n ≤
        cs / damp * (Real.sqrt (cs * (2 - cs)) * (Real.sqrt n / realChi n) - 1) := by
  obtain ⟨s, cs, damp, p, P, g1, g2, g3, g4, g5, g6, g7, g8, g9, g10, g11, g12, g13⟩ :=
    path_law hx h hcon h1 h2 hs hig hnan kind'
  have hp : p = 0 := by
    funext l
    have := congrFun (g8.symm.trans (path_zero hx h)) l
    injection this
  subst hp
  obtain ⟨q1, q2, q3⟩ := log_growth (q := 0) g2 g4 g5 g7 g9 g12 (by simp) g13
  have hchi := realChi_pos g9
  refine ⟨s, cs, damp, _, g1, g2, g3, g6, ?_, ?_, q1, ?_⟩
  · simpa using g11
  · intro z
    have : -(cs / damp) ≤ cs / damp * (‖P z‖ / realChi n - 1) := by
      have := mul_nonneg (div_pos g4 g7).le (div_nonneg (norm_nonneg (P z)) hchi.le)
      linarith
    gcongr
  · refine q3.trans (le_of_eq ?_)
    rw [mul_zero, zero_pow two_ne_zero, zero_add,
      Real.sqrt_mul (mul_nonneg g4.le (by linarith : 0 ≤ 2 - cs)), mul_div_assoc]

open WitnessReal in
/-- Non-vacuity: after 1000 generations with negative weights on a constant objective the hypotheses
of `c95_growth` are met, and a further `next` call returns. -/
example : ∃ t c0 c res0 a b, History.Of ((renv 2).withRng (streamRng fun k => k + 1)) flat
      { opts with mode := .maximize, weights := .negative, populationSize := 6 } t c0 ∧
    ExactRun ((renv 2).withRng (streamRng fun k => k + 1))
      { opts with mode := .maximize, weights := .negative, populationSize := 6 } ∧
    t.length = 1000 ∧
    c0.next ((renv 2).withRng (streamRng fun k => k + 1)) .par = .ok (c, res0) ∧
    (¬ ∃ x, res0 = some x ∧ .invalidFunctionValue ∈ x.reasons) ∧
    c.parameters.c1 = .fin a ∧ c.parameters.cmu = .fin b ∧ a + b < 1 ∧
    flat.IgnoresPoint ∧ (∀ log x, Flt.isNaN (flat.f log x) = false) ∧
    ∀ kind', ∃ d res, c.next ((renv 2).withRng (streamRng fun k => k + 1)) kind' = .ok (d, res) := by
  have hv : ∀ log x, Flt.isNaN (flat.f log x) = false := fun _ _ => isNaN_fin _
  obtain ⟨t, c0, _, _, _, h0, hg0, ht, _⟩ := stream_runs hv .maximize .negative (lambda := 6)
    (by norm_num) (by norm_num) .seq 1000 (by norm_num)
  have hr : rateSum { opts with mode := .maximize, weights := .negative, populationSize := 6 } < 1 :=
    rateSum_lt_one (by norm_num) (by show 2 ≤ 6; norm_num) (by show 6 ≤ _; norm_num)
  have step : ∀ {t c}, History.Of ((renv 2).withRng (streamRng fun k => k + 1)) flat
      { opts with mode := .maximize, weights := .negative, populationSize := 6 } t c →
      c.generation < 2 ^ 30 - 1 → ∀ kind, _ :=
    fun {t c} hc hg kind => exact_step (stream_exact' .maximize .negative 6) hr hc
      (⟨fun k hk => by simp [opts, Options.new] at hk, hg,
        fun k hk => by simp [opts, Options.new] at hk,
        fun k hk => by simp [opts, Options.new] at hk, .inl fun l => ⟨_, rfl⟩⟩ : CanStep _ flat _ c)
      (.inl ⟨rfl, by decide⟩) hv kind
  obtain ⟨c, res0, calls, hn, hl, hf, hg, h⟩ := step h0 (by omega) .par
  obtain ⟨hp, _⟩ := params_rep h
  refine ⟨t, c0, c, res0, _, _, h0, stream_exact' _ _ _, ht, hn, hf, hp.c1, hp.cmu, hr,
    fun _ _ _ _ _ => rfl, hv, fun kind' => ?_⟩
  obtain ⟨d, res, _, hn', _⟩ := step h (by omega) kind'
  exact ⟨d, res, hn'⟩

open WitnessReal in
/-- Non-vacuity of `c95_first`. -/
example : ∃ c a b, History.Of ((renv 2).withRng (streamRng fun k => k + 1)) flat
      { opts with mode := .maximize, weights := .negative, populationSize := 6 } [] c ∧
    ExactRun ((renv 2).withRng (streamRng fun k => k + 1))
      { opts with mode := .maximize, weights := .negative, populationSize := 6 } ∧
    c.parameters.c1 = .fin a ∧ c.parameters.cmu = .fin b ∧ a + b < 1 ∧
    flat.IgnoresPoint ∧ (∀ log x, Flt.isNaN (flat.f log x) = false) ∧
    ∃ d res, c.next ((renv 2).withRng (streamRng fun k => k + 1)) .seq = .ok (d, res) := by
  have hv : ∀ log x, Flt.isNaN (flat.f log x) = false := fun _ _ => isNaN_fin _
  obtain ⟨t, c, d, res, _, h, hg, ht, hn, _⟩ := stream_runs hv .maximize .negative (lambda := 6)
    (by norm_num) (by norm_num) .seq 0 (by norm_num)
  obtain rfl := List.length_eq_zero_iff.mp ht
  obtain ⟨hp, _⟩ := params_rep h
  exact ⟨c, _, _, h, stream_exact' _ _ _, hp.c1, hp.cmu,
    rateSum_lt_one (by norm_num) (by show 2 ≤ 6; norm_num) (by show 6 ≤ _; norm_num),
    fun _ _ _ _ _ => rfl, hv, d, res, hn⟩

end Cmaes
