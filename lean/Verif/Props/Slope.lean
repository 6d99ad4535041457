import Verif.Props.Shape
import Verif.Lemmas.Slope

/-!
# On a slope the step size grows faster than without selection (C104)
-/

set_option linter.unusedSectionVars false

namespace Cmaes
open Flt XR MeasureTheory ProbabilityTheory Matrix WithLp
variable {n : Nat}

/-! ### The ranked steps -/

variable {env : Env n XR Nat} {obj : Obj n XR} {o : Options n XR} {t : List (NextCall n XR)}
  {c : CMAES n XR Nat}

theorem ranked_values (mode : Mode) {a b : ℝ} :
    mode.key (.fin a : XR) ≤ mode.key (.fin b : XR) →
      match mode with | .minimize => a ≤ b | .maximize => b ≤ a := by
  intro h
  have hb : mode.isBetter (.fin b : XR) (.fin a) ≠ true := fun hb =>
    absurd (Mode.isBetter_iff.mp hb).2.2 (not_lt.mpr h)
  cases mode with
  | minimize =>
    have hb : ¬ Flt.lt (.fin b : XR) (.fin a) = true := hb
    rw [lt_fin] at hb
    simpa using hb
  | maximize =>
    have hb : ¬ Flt.lt (.fin a : XR) (.fin b) = true := hb
    rw [lt_fin] at hb
    simpa using hb

/-- The update of a generation whose points are ranked by their components in a direction. -/
theorem slope_updated {ω : Nat → ℝ} (h : History.Of (env.withRng (streamRng ω)) obj o t c)
    (hcon : o.constraints = none) {r : RealState n} (hr : Rep c.state r) (hgood : r.Good)
    {φ : (Fin n → ℝ) → ℝ} (hobj : ∀ log x, obj.f log (Vec.fin x) = .fin (φ x)) {g : Fin n → ℝ}
    (hg : ∀ a b, (match o.mode with | .minimize => φ a ≤ φ b | .maximize => φ b ≤ φ a) →
      g ⬝ᵥ a ≤ g ⬝ᵥ b)
    {β : ℝ} {e : Fin n → ℝ} (hβ : 0 < β) (hge : g ᵥ* r.transform = β • e)
    {z : Fin o.populationSize → Fin n → ℝ} (hd : ∀ i j, i ≠ j → e ⬝ᵥ z i ≠ e ⬝ᵥ z j)
    (hx : ExactRun (env.withRng (streamRng (replaceFrom ω (o.populationSize * t.length * n) z))) o)
    {kind : EvalKind} {d : CMAES n XR Nat} {res : Option (TerminationData n XR)}
    (hn : c.next (env.withRng (streamRng (replaceFrom ω (o.populationSize * t.length * n) z))) kind =
      .ok (d, res)) :
    ∃ r' ok, Updated c.parameters (optParams o) c.state d.state r r'
      (List.ofFn fun i => r.transform *ᵥ z (Tuple.sort (fun j => e ⬝ᵥ z j) i))
      d.sampler.functionEvals ok := by
  have hz := (stream_history h hcon).2 z
  rcases next_exact_sample hx hz hr hgood hn with ⟨hf, _⟩ |
    ⟨ys, r', ok, calls, ps0, inds, hu, -, hl, hsd, hys, -, -, -, hsam⟩
  · exact absurd ⟨_, hf, by simp [CMAES.terminationData]⟩ (real_not_failed h hcon hr hobj hn)
  obtain ⟨ys', ps, hrs, hlen, hsort, hps', -⟩ := sample_order hsam hl
  have hdr := stream_steps h hcon hr z hrs
  have hinj : Function.Injective (Vec.fin : (Fin n → ℝ) → Vec n XR) := fun a b hab => by
    funext l
    have := congrFun hab l
    injection this
  have hperm : ys.Perm (List.ofFn fun j => r.transform *ᵥ z j) := by
    refine (List.map_perm_map_iff hinj).mp ?_
    rw [← hys, List.map_ofFn, hsort]
    have h1 := (sortPoints_perm o.mode ps).map fun p => p.unscaledStep
    rw [hps', hdr] at h1
    exact h1
  have hfa : Faithful obj.f c.sampler.obj.log calls := by
    obtain ⟨gs, i, _⟩ := fresh_inv (hz.next hn hl)
    obtain ⟨gs', i', _⟩ := fresh_inv hz
    have := i.faithful
    rw [allCalls, List.flatMap_append] at this
    have := this.split.2
    rw [i'.log]
    simpa [allCalls] using this
  -- the value of a ranked point
  have hval : ∀ p ∈ inds, ∀ y : Fin n → ℝ, p.unscaledStep = Vec.fin y →
      p.value = .fin (φ (r.mean + r.sigma • y)) := by
    intro p hp y hy
    have hpt : p.point = Vec.fin (r.mean + r.sigma • y) := by
      rw [hsd.point p (hsd.mem_inds.mp hp), hy, hr.mean, hr.sigma]
      funext l
      show (.fin (r.mean l) + .fin r.sigma * .fin (y l) : XR) = .fin _
      rw [mul_fin, add_fin]
      rfl
    obtain ⟨j, hj, hje⟩ := List.getElem_of_mem
      (hsd.callsPerm.mem_iff.mpr (List.mem_map_of_mem (f := EvaluatedPoint.call) hp))
    have := faithful_value hfa hj
    rw [hje] at this
    have h2 : p.value = obj.f (c.sampler.obj.log ++ calls.take j) p.point := this
    rw [h2, hpt, hobj]
  have hsorted : ys.Pairwise fun a b => g ⬝ᵥ a ≤ g ⬝ᵥ b := by
    have hls : inds.length = ys.length := by
      have := congrArg List.length hys
      simpa using this
    rw [List.pairwise_iff_getElem]
    intro i j hi hj hij
    have hs := List.pairwise_iff_getElem.mp hsd.sorted i j (by omega) (by omega) hij
    rw [hval _ (List.getElem_mem _) _ (steps_getElem hys (by omega) hi),
      hval _ (List.getElem_mem _) _ (steps_getElem hys (by omega) hj)] at hs
    have := hg _ _ (ranked_values o.mode hs)
    rw [dotProduct_add, dotProduct_add, dotProduct_smul, dotProduct_smul, smul_eq_mul,
      smul_eq_mul] at this
    exact le_of_mul_le_mul_left (by linarith) hgood.sigma
  have hcomp : ∀ x : Fin n → ℝ, g ⬝ᵥ (r.transform *ᵥ x) = β * (e ⬝ᵥ x) := fun x => by
    rw [dotProduct_mulVec, hge, smul_dotProduct, smul_eq_mul]
  have heq : ys = List.ofFn fun i => r.transform *ᵥ z (Tuple.sort (fun j => e ⬝ᵥ z j) i) := by
    have hp2 : (List.ofFn fun i => r.transform *ᵥ z (Tuple.sort (fun j => e ⬝ᵥ z j) i)).Perm
        (List.ofFn fun j => r.transform *ᵥ z j) :=
      Equiv.Perm.ofFn_comp_perm (Tuple.sort fun j => e ⬝ᵥ z j) fun j => r.transform *ᵥ z j
    have hs2 : (List.ofFn fun i => r.transform *ᵥ z (Tuple.sort (fun j => e ⬝ᵥ z j) i)).Pairwise
        fun a b => g ⬝ᵥ a ≤ g ⬝ᵥ b := by
      refine List.pairwise_ofFn.mpr fun i j hij => ?_
      rw [hcomp, hcomp]
      exact mul_le_mul_of_nonneg_left (Tuple.monotone_sort (fun j => e ⬝ᵥ z j) hij.le) hβ.le
    refine (hperm.trans hp2.symm).eq_of_pairwise (le := fun a b => g ⬝ᵥ a ≤ g ⬝ᵥ b)
      (fun a b ha hb hab hba => ?_) hsorted hs2
    obtain ⟨i, rfl⟩ := List.mem_ofFn.mp (hperm.mem_iff.mp ha)
    obtain ⟨j, rfl⟩ := List.mem_ofFn.mp (hp2.mem_iff.mp hb)
    by_cases hij : i = j
    · rw [hij]
    · refine absurd ?_ (hd i j hij)
      have := le_antisymm hab hba
      rw [hcomp, hcomp] at this
      exact mul_left_cancel₀ hβ.ne' this
  exact ⟨r', ok, heq ▸ hu⟩

/-! ### The conjugate path -/

theorem len_orthogonal {B : Matrix (Fin n) (Fin n) ℝ} (hB : Bᵀ * B = 1) (x : Fin n → ℝ) :
    len (B *ᵥ x) = len x := by
  unfold len
  rw [dotProduct_mulVec, vecMul_mulVec, hB, vecMul_one]

theorem step_ranked {q : RealParams} {r : RealState n} {k : Nat} (z : Fin k → Fin n → ℝ)
    (τ : Equiv.Perm (Fin k)) :
    q.step (List.ofFn fun i => r.transform *ᵥ z (τ i)) =
      r.transform *ᵥ ∑ i : Fin k, (q.weights.take q.mu).getD i 0 • z (τ i) := by
  unfold RealParams.step
  rw [zipWith_sum_fin]
  have h2 : ∀ (m : Nat) (hm : m = k) (F : Nat → Fin n → ℝ),
      ∑ i : Fin m, F i = ∑ i : Fin k, F i := by
    rintro m rfl F; rfl
  set F : Nat → Fin n → ℝ := fun j => if hj : j < k then (q.weights.take q.mu).getD j 0 •
    (r.transform *ᵥ z (τ ⟨j, hj⟩)) else 0 with hF
  have h3 : ∀ i : Fin (List.ofFn fun i => r.transform *ᵥ z (τ i)).length,
      (q.weights.take q.mu).getD i 0 • (List.ofFn fun i => r.transform *ᵥ z (τ i))[i] =
        F i := fun i => by
    have hi : (i : Nat) < k := lt_of_lt_of_eq i.isLt (List.length_ofFn ..)
    simp [hF, hi]
  refine ((Finset.sum_congr rfl fun i _ => h3 i).trans (h2 _ (List.length_ofFn ..) F)).trans ?_
  rw [← Matrix.mulVecLin_apply, map_sum]
  refine Finset.sum_congr rfl fun i _ => ?_
  rw [map_smul, Matrix.mulVecLin_apply]
  simp [hF, i.isLt]

/-- The length of the path, in the coordinates of the drawn vectors. -/
theorem path_len {q : RealParams} {r : RealState n} (hg : r.Good) {k : Nat} (z : Fin k → Fin n → ℝ)
    (τ : Equiv.Perm (Fin k)) :
    len (q.pathSigma r (List.ofFn fun i => r.transform *ᵥ z (τ i))) =
      len ((1 - q.cs) • (r.Bᵀ *ᵥ r.pathSigma) + Real.sqrt (q.cs * (2 - q.cs) * q.muEff) •
        ∑ i : Fin k, (q.weights.take q.mu).getD i 0 • z (τ i)) := by
  symm
  rw [← len_orthogonal hg.orthonormal]
  congr 1
  unfold RealParams.pathSigma
  rw [step_ranked, mulVec_mulVec, invSqrt_mul_transform hg, mulVec_add, mulVec_smul, mulVec_smul,
    mulVec_mulVec, hg.orthonormal', one_mulVec]

/-- The expected length of the path without selection. -/
theorem plain_law {r : RealState n} (hg : r.Good) {k : Nat} {W : Fin k → ℝ} {a K s : ℝ}
    (hK : ∑ i, (K * W i) ^ 2 = s) :
    ∫ z, plainLen W (a • (r.Bᵀ *ᵥ r.pathSigma)) K z ∂standardNormal k n =
      ∫ x, ‖x‖ ∂multivariateGaussian (toLp 2 (a • r.pathSigma)) (s • (1 : Matrix (Fin n) (Fin n) ℝ)) := by
  have hlaw := map_combination (k := k) (a • r.pathSigma) r.B fun i => K * W i
  rw [hK, hg.orthonormal'] at hlaw
  rw [← hlaw]
  have hc : Continuous fun z : Fin k → Fin n → ℝ =>
      a • r.pathSigma + ∑ j, (K * W j) • (r.B *ᵥ z j) :=
    continuous_const.add (continuous_finsetSum _ fun j _ => by
      have hc : Continuous fun z : Fin k → Fin n → ℝ => r.B *ᵥ z j :=
        Continuous.matrix_mulVec continuous_const (continuous_apply j)
      exact hc.const_smul (K * W j))
  have hm : Measurable fun z : Fin k → Fin n → ℝ =>
      (toLp 2 (a • r.pathSigma + ∑ j, (K * W j) • (r.B *ᵥ z j)) : EuclideanSpace ℝ (Fin n)) :=
    (by fun_prop : Measurable (toLp 2 : (Fin n → ℝ) → _)).comp hc.measurable
  rw [integral_map hm.aemeasurable (by fun_prop)]
  refine integral_congr_ae (Filter.Eventually.of_forall fun z => ?_)
  show plainLen _ _ _ z = ‖_‖
  rw [← len_eq_norm]
  unfold plainLen
  rw [← len_orthogonal hg.orthonormal]
  congr 1
  rw [mulVec_add, mulVec_smul, mulVec_mulVec, hg.orthonormal', one_mulVec, mulVec_smul]
  congr 1
  rw [← Matrix.mulVecLin_apply, map_sum, Finset.smul_sum]
  refine Finset.sum_congr rfl fun i _ => ?_
  rw [map_smul, Matrix.mulVecLin_apply, smul_smul]

/-- The expected logarithm of the growth of the step size. -/
theorem log_mean {k : Nat} {s cs damp χ : ℝ} {P : (Fin k → Fin n → ℝ) → ℝ} (hs : 0 < s)
    (hP : Integrable P (standardNormal k n)) :
    Integrable (fun z => Real.log (s * Real.exp (cs / damp * (P z / χ - 1)) / s))
      (standardNormal k n) ∧
    ∫ z, Real.log (s * Real.exp (cs / damp * (P z / χ - 1)) / s) ∂standardNormal k n =
      cs / damp * ((∫ z, P z ∂standardNormal k n) / χ - 1) := by
  have e : (fun z => Real.log (s * Real.exp (cs / damp * (P z / χ - 1)) / s)) =
      fun z => cs / damp * (P z / χ - 1) := by
    funext z
    rw [mul_div_cancel_left₀ _ hs.ne', Real.log_exp]
  rw [e]
  refine ⟨((hP.div_const _).sub (integrable_const _)).const_mul _, ?_⟩
  rw [integral_const_mul, integral_sub (hP.div_const _) (integrable_const _), integral_div]
  simp

/-- The expected length of a normal vector with mean `m` and covariance `s 1`. -/
noncomputable def expectedLen (m : Fin n → ℝ) (s : ℝ) : ℝ :=
  ∫ x, ‖x‖ ∂multivariateGaussian (toLp 2 m) (s • (1 : Matrix (Fin n) (Fin n) ℝ))

/-- **C104, without selection.** In the setting of C88, if the objective ignores the points it is
called on, the expected logarithm of the factor by which the step size grows in the next generation
is `(cs/damp) (L/chi - 1)`, where `L` is the expected length of a normal vector with mean
`(1 - cs) p` and covariance `cs (2 - cs) 1`, and `p` is the conjugate path. -/
theorem c104_neutral {ω : Nat → ℝ} (hx : ExactRun (env.withRng (streamRng ω)) o)
    (h : History.Of (env.withRng (streamRng ω)) obj o t c) (hcon : o.constraints = none) {a b : ℝ}
    (h1 : c.parameters.c1 = .fin a) (h2 : c.parameters.cmu = .fin b) (hs : a + b < 1)
    (hig : obj.IgnoresPoint) (hnan : ∀ log x, Flt.isNaN (obj.f log x) = false) (kind : EvalKind) :
    let N := o.populationSize * t.length * n
    ∃ (s cs damp : ℝ) (p : Fin n → ℝ) (S : (Fin o.populationSize → Fin n → ℝ) → ℝ),
      c.sigma = .fin s ∧ 0 < s ∧ c.parameters.cs = .fin cs ∧ c.parameters.dampS = .fin damp ∧
      c.state.pathSigma = Vec.fin p ∧
      (∀ z : Fin o.populationSize → Fin n → ℝ,
        History.Of (env.withRng (streamRng (replaceFrom ω N z))) obj o t c) ∧
      (∀ᵐ z ∂standardNormal o.populationSize n, ∀ d res,
        c.next (env.withRng (streamRng (replaceFrom ω N z))) kind = .ok (d, res) →
        d.sigma = .fin (S z)) ∧
      (∀ z, 0 < S z) ∧
      Integrable (fun z => Real.log (S z / s)) (standardNormal o.populationSize n) ∧
      ∫ z, Real.log (S z / s) ∂standardNormal o.populationSize n =
        cs / damp * (expectedLen ((1 - cs) • p) (cs * (2 - cs)) / realChi n - 1) := by
  intro N
  obtain ⟨s, cs, damp, p, P, g1, g2, g3, g4, g5, g6, g7, g8, g9, g10, g11, g12, g13⟩ :=
    path_law hx h hcon h1 h2 hs hig hnan kind
  obtain ⟨b1, -, -⟩ := integral_norm_bounds (toLp 2 ((1 - cs) • p) : EuclideanSpace ℝ (Fin n))
    (s := cs * (2 - cs)) (mul_nonneg g4.le (by linarith))
  rw [← g13, integrable_map_measure (by fun_prop) g12.aemeasurable] at b1
  have b1 : Integrable (fun z => ‖P z‖) (standardNormal o.populationSize n) := b1
  obtain ⟨q1, q2⟩ := log_mean (cs := cs) (damp := damp) (χ := realChi n) g2 b1
  refine ⟨s, cs, damp, p, _, g1, g2, g3, g6, g8, g10, g11, fun z => mul_pos g2 (Real.exp_pos _), q1, ?_⟩
  rw [q2, expectedLen, ← g13, integral_map g12.aemeasurable (by fun_prop)]

/-- **C104.** On a slope the step size grows faster than without selection. In the setting of C88,
let the objective be a strictly increasing function `ψ` of the linear function `x ↦ g ⬝ x`, `g ≠ 0`,
and let the conjugate path not point uphill: `√C p` is not a direction in which the objective gets
worse. Then the expected logarithm of the factor by which the step size grows in the next generation
is at least that of `c104_neutral`, and it is larger if a generation has three points or more. -/
theorem c104_slope {ω : Nat → ℝ} (hx : ExactRun (env.withRng (streamRng ω)) o)
    (h : History.Of (env.withRng (streamRng ω)) obj o t c) (hcon : o.constraints = none) {a b : ℝ}
    (h1 : c.parameters.c1 = .fin a) (h2 : c.parameters.cmu = .fin b) (hs : a + b < 1)
    {g : Fin n → ℝ} (hg : g ≠ 0) {ψ : ℝ → ℝ} (hψ : StrictMono ψ)
    (hobj : ∀ log x, obj.f log (Vec.fin x) = .fin (ψ (g ⬝ᵥ x)))
    (hpath : ∀ r : RealState n, Rep c.state r →
      match o.mode with
      | .minimize => g ⬝ᵥ (r.transform *ᵥ (r.Bᵀ *ᵥ r.pathSigma)) ≤ 0
      | .maximize => 0 ≤ g ⬝ᵥ (r.transform *ᵥ (r.Bᵀ *ᵥ r.pathSigma))) :
    let N := o.populationSize * t.length * n
    ∃ (s cs damp : ℝ) (p : Fin n → ℝ) (S : (Fin o.populationSize → Fin n → ℝ) → ℝ),
      c.sigma = .fin s ∧ 0 < s ∧ c.parameters.cs = .fin cs ∧ c.parameters.dampS = .fin damp ∧
      c.state.pathSigma = Vec.fin p ∧
      (∀ z : Fin o.populationSize → Fin n → ℝ,
        History.Of (env.withRng (streamRng (replaceFrom ω N z))) obj o t c) ∧
      (∀ᵐ z ∂standardNormal o.populationSize n, ∀ kind d res,
        c.next (env.withRng (streamRng (replaceFrom ω N z))) kind = .ok (d, res) →
        d.sigma = .fin (S z)) ∧
      (∀ z, 0 < S z) ∧
      Integrable (fun z => Real.log (S z / s)) (standardNormal o.populationSize n) ∧
      cs / damp * (expectedLen ((1 - cs) • p) (cs * (2 - cs)) / realChi n - 1) ≤
        ∫ z, Real.log (S z / s) ∂standardNormal o.populationSize n ∧
      (3 ≤ o.populationSize →
        cs / damp * (expectedLen ((1 - cs) • p) (cs * (2 - cs)) / realChi n - 1) <
          ∫ z, Real.log (S z / s) ∂standardNormal o.populationSize n) := by
  intro N
  obtain ⟨r, x, i⟩ := exact_inv hx (by rw [rateSum_eq h h1 h2]; exact hs) h
  obtain ⟨hp, hq⟩ := params_rep h
  obtain ⟨_, _, _, pr⟩ := params_real h
  have hl2 : 2 ≤ o.populationSize := pr.size
  -- the direction in which the objective gets worse
  obtain ⟨g', hg', hord, hup⟩ : ∃ g' : Fin n → ℝ, g' ≠ 0 ∧
      (∀ a b, (match o.mode with
        | .minimize => ψ (g ⬝ᵥ a) ≤ ψ (g ⬝ᵥ b)
        | .maximize => ψ (g ⬝ᵥ b) ≤ ψ (g ⬝ᵥ a)) → g' ⬝ᵥ a ≤ g' ⬝ᵥ b) ∧
      g' ⬝ᵥ (r.transform *ᵥ (r.Bᵀ *ᵥ r.pathSigma)) ≤ 0 := by
    have hpath := hpath r i.rep
    cases hm : o.mode with
    | minimize =>
      rw [hm] at hpath
      exact ⟨g, hg, fun a b hab => hψ.le_iff_le.mp hab, hpath⟩
    | maximize =>
      rw [hm] at hpath
      refine ⟨-g, neg_ne_zero.mpr hg, fun a b hab => ?_, ?_⟩
      · rw [neg_dotProduct, neg_dotProduct]
        exact neg_le_neg (hψ.le_iff_le.mp hab)
      · rw [neg_dotProduct]
        exact neg_nonpos.mpr hpath
  have hdir : g' ᵥ* r.transform ≠ 0 := by
    intro h0
    have hpd := (decomposed_posDef i.good).dotProduct_mulVec_pos hg'
    rw [← transform_mul_transpose i.good, dotProduct_mulVec, ← vecMul_vecMul] at hpd
    simp [h0] at hpd
  set β : ℝ := len (g' ᵥ* r.transform) with hβdef
  have hβ : 0 < β := lt_of_le_of_ne (len_nonneg _) fun h0 => hdir (len_eq_zero.mp h0.symm)
  set e : Fin n → ℝ := β⁻¹ • (g' ᵥ* r.transform) with hedef
  have hge : g' ᵥ* r.transform = β • e := by rw [hedef, smul_smul, mul_inv_cancel₀ hβ.ne', one_smul]
  have he : e ⬝ᵥ e = 1 := by
    rw [hedef, smul_dotProduct, dotProduct_smul, ← len_sq, ← hβdef, smul_eq_mul, smul_eq_mul]
    field_simp
  set q := optParams o with hqdef
  set K := Real.sqrt (q.cs * (2 - q.cs) * q.muEff) with hKdef
  set v : Fin n → ℝ := (1 - q.cs) • (r.Bᵀ *ᵥ r.pathSigma) with hvdef
  set W : Fin o.populationSize → ℝ := fun i => (q.weights.take q.mu).getD i 0 with hWdef
  have hcs : 0 < q.cs * (2 - q.cs) := mul_pos hp.cs_pos (by linarith [hp.cs_lt])
  have hmu : 0 < q.muEff := by
    have : q.muEff = realMuEff o.populationSize o.weights := rfl
    rw [this]
    linarith [one_le_realMuEff hl2 o.weights]
  have hK : 0 < K := Real.sqrt_pos.mpr (mul_pos hcs hmu)
  have hv : v ⬝ᵥ e ≤ 0 := by
    have h3 : v ⬝ᵥ e = β⁻¹ * ((1 - q.cs) * (g' ⬝ᵥ (r.transform *ᵥ (r.Bᵀ *ᵥ r.pathSigma)))) := by
      rw [hvdef, hedef, smul_dotProduct, dotProduct_smul,
        dotProduct_comm (r.Bᵀ *ᵥ r.pathSigma), ← dotProduct_mulVec, smul_eq_mul, smul_eq_mul]
      ring
    rw [h3]
    have h4 : 0 ≤ 1 - q.cs := by linarith [hp.cs_lt]
    exact mul_nonpos_of_nonneg_of_nonpos (inv_nonneg.mpr hβ.le)
      (mul_nonpos_of_nonneg_of_nonpos h4 hup)
  -- the weights
  obtain ⟨w, rest, w1, w2, w3, w4, w5, w6, w7, -⟩ := c33_weights h
  have hw : q.weights.take q.mu = w := by
    have hinj : Function.Injective (List.map (.fin : ℝ → XR)) :=
      List.map_injective_iff.mpr fun a b hab => by injection hab
    have h3 : q.weights = w ++ rest := hinj (hp.weights.symm.trans w1)
    rw [h3, ← hp.mu, ← w2]
    exact List.take_left' rfl
  have hWsum : ∑ i, W i = 1 := by
    rw [hWdef]
    simp only [hw]
    rw [sum_getD_fin _ _ (by omega), w6]
  have hanti : Antitone W := by
    rw [hWdef]
    simp only [hw]
    exact getD_antitone w5 w7 _
  have hKW : ∑ i, (K * W i) ^ 2 = q.cs * (2 - q.cs) := by
    have h3 := sum_sq_idx (List.finRange o.populationSize) (q.weights.take q.mu)
      (List.nodup_finRange _) (by
        rw [List.length_finRange, List.length_take]
        exact (min_le_left _ _).trans hq.mu_lambda)
    have h4 : ∑ i, W i ^ 2 = 1 / q.muEff := by
      rw [← sum_sq_weights o hl2, ← hqdef, ← h3, sum_univ_eq (List.Perm.refl _)]
      refine Finset.sum_congr rfl fun i _ => ?_
      rw [hWdef]
      simp
    simp_rw [mul_pow]
    rw [← Finset.mul_sum, h4, hKdef, Real.sq_sqrt (mul_pos hcs hmu).le, mul_one_div, mul_div_assoc,
      div_self hmu.ne', mul_one]
  have hplain : ∫ z, plainLen W v K z ∂standardNormal o.populationSize n =
      expectedLen ((1 - q.cs) • r.pathSigma) (q.cs * (2 - q.cs)) := plain_law i.good hKW
  obtain ⟨hle, hlt⟩ := ranked_longer (k := o.populationSize) he hv hK hWsum hanti
  obtain ⟨q1, q2⟩ := log_mean (cs := q.cs) (damp := q.dampS) (χ := realChi n) i.good.sigma
    (ranked_integrable (k := o.populationSize) (W := W) (v := v) (K := K) (e := e))
  have hchi := realChi_pos hp.dim_ne
  have hkap : 0 < q.cs / q.dampS := div_pos hp.cs_pos hp.dampS_pos
  refine ⟨r.sigma, q.cs, q.dampS, r.pathSigma, _, i.rep.sigma, i.good.sigma, hp.cs, hp.dampS,
    i.rep.pathSigma, (stream_history h hcon).2, ?_,
    fun z => mul_pos i.good.sigma (Real.exp_pos _), q1, ?_, fun h3 => ?_⟩
  · filter_upwards [exact_ae N hx o.populationSize, components_distinct he] with z hz hd kind d res hn
    obtain ⟨r', ok, hu⟩ := slope_updated h hcon i.rep i.good (φ := fun x => ψ (g ⬝ᵥ x)) hobj hord hβ
      hge hd hz hn
    show d.state.sigma = _
    rw [hu.sigma', hu.sigma]
    unfold RealParams.sigma
    rw [path_len i.good]
    rfl
  · rw [q2, ← hplain]
    gcongr
  · rw [q2, ← hplain]
    have h4 := hlt ⟨o.populationSize - 1, by omega⟩ ⟨0, by omega⟩ ⟨o.populationSize - 2, by omega⟩
      (by simp only [ne_eq, Fin.mk.injEq]; omega) (by simp only [ne_eq, Fin.mk.injEq]; omega)
      (by
        rw [hWdef]
        simp only [hw]
        rw [getD_ge (by omega), getD_lt (by omega)]
        exact w5 _ (List.getElem_mem _))
      (by
        rw [hWdef]
        simp only [hw]
        rw [getD_ge (by omega), getD_ge (by omega)])
    gcongr

/-- The step size is the initial one until the first `next` call. -/
theorem sigma_start {env : Env n XR Nat} (h : History.Of env obj o [] c) :
    c.sigma = o.initialStepSize := by
  obtain ⟨w, c0, h0, he⟩ := h
  have hc0 : c0.state.sigma = o.initialStepSize := by
    obtain ⟨_, rfl⟩ := new_eq_ok h0
    rw [(create_search env w obj o).2.2.1]
    rfl
  have key : ∀ {t' : List (NextCall n XR)} {c' : CMAES n XR Nat}, Exec env c0 t' c' → t' = [] →
      c'.state.sigma = o.initialStepSize := by
    intro t' c' he
    induction he with
    | refl => intro _; exact hc0
    | quiet he' hq ha ih =>
      intro ht
      rw [(quiet_sameSearch hq ha).1.state]
      exact ih ht
    | next _ _ _ _ => intro ht; simp at ht
  exact key he rfl

/-- **C104, first generation.** Two searches are created with the same options. The objective of one
is a strictly increasing function of a linear function that is not constant, that of the other
ignores the points. In the first generation the logarithm of the step size grows by more on average
in the search on the slope, whether it minimizes or maximizes. -/
theorem c104_first {obj' : Obj n XR} {c' : CMAES n XR Nat} {ω : Nat → ℝ}
    (hx : ExactRun (env.withRng (streamRng ω)) o)
    (h : History.Of (env.withRng (streamRng ω)) obj o [] c)
    (h' : History.Of (env.withRng (streamRng ω)) obj' o [] c') (hcon : o.constraints = none) {a b : ℝ}
    (h1 : c.parameters.c1 = .fin a) (h2 : c.parameters.cmu = .fin b) (hs : a + b < 1)
    (h3 : 3 ≤ o.populationSize) {g : Fin n → ℝ} (hg : g ≠ 0) {ψ : ℝ → ℝ} (hψ : StrictMono ψ)
    (hobj : ∀ log x, obj.f log (Vec.fin x) = .fin (ψ (g ⬝ᵥ x)))
    (hig : obj'.IgnoresPoint) (hnan : ∀ log x, Flt.isNaN (obj'.f log x) = false)
    (kind kind' : EvalKind) :
    ∃ (s : ℝ) (S S' : (Fin o.populationSize → Fin n → ℝ) → ℝ),
      o.initialStepSize = .fin s ∧ 0 < s ∧
      (∀ᵐ z ∂standardNormal o.populationSize n, ∀ d res,
        c.next (env.withRng (streamRng (replaceFrom ω 0 z))) kind = .ok (d, res) →
        d.sigma = .fin (S z)) ∧
      (∀ᵐ z ∂standardNormal o.populationSize n, ∀ d res,
        c'.next (env.withRng (streamRng (replaceFrom ω 0 z))) kind' = .ok (d, res) →
        d.sigma = .fin (S' z)) ∧
      (∀ z, 0 < S z) ∧ (∀ z, 0 < S' z) ∧
      Integrable (fun z => Real.log (S z / s)) (standardNormal o.populationSize n) ∧
      Integrable (fun z => Real.log (S' z / s)) (standardNormal o.populationSize n) ∧
      ∫ z, Real.log (S' z / s) ∂standardNormal o.populationSize n <
        ∫ z, Real.log (S z / s) ∂standardNormal o.populationSize n := by
  have hpar : c'.parameters = c.parameters := by
    obtain ⟨_, j1, _⟩ := fresh_inv h
    obtain ⟨_, j2, _⟩ := fresh_inv h'
    rw [j1.parameters, j2.parameters]
  have hp0 : ∀ r : RealState n, Rep c.state r → r.pathSigma = 0 := by
    intro r hr
    funext l
    have := congrFun (hr.pathSigma.symm.trans (path_zero hx h)) l
    injection this
  obtain ⟨s, cs, damp, p, S, e1, e2, e3, e4, e5, -, e7, e8, e9, -, e10⟩ :=
    c104_slope hx h hcon h1 h2 hs hg hψ hobj (fun r hr => by
      rw [hp0 r hr]
      cases o.mode <;> simp)
  obtain ⟨s', cs', damp', p', S', f1, f2, f3, f4, f5, -, f7, f8, f9, f10⟩ :=
    c104_neutral hx h' hcon (hpar ▸ h1) (hpar ▸ h2) hs hig hnan kind'
  have i1 : s' = s := by
    have := (f1.symm.trans (sigma_start h')).trans ((sigma_start h).symm.trans e1)
    injection this
  have i3 : cs' = cs := by rw [hpar] at f3; have := f3.symm.trans e3; injection this
  have i4 : damp' = damp := by rw [hpar] at f4; have := f4.symm.trans e4; injection this
  have i5 : p' = p := by
    funext l
    have := congrFun ((f5.symm.trans (path_zero hx h')).trans ((path_zero hx h).symm.trans e5)) l
    injection this
  subst i1 i3 i4 i5
  refine ⟨s', S, S', (sigma_start h).symm.trans e1, e2, ?_, ?_, e8, f8, e9, f9, ?_⟩
  · filter_upwards [e7] with z hz d res hn
    exact hz kind d res (by simpa using hn)
  · filter_upwards [f7] with z hz d res hn
    exact hz d res (by simpa using hn)
  · rw [f10]
    exact e10 h3

open WitnessReal in
/-- Non-vacuity of `c104_first`: two searches with negative weights, one on the linear function and
one on a constant, in both modes, whose first `next` calls return. -/
example (mode : Mode) : ∃ c c' a b,
    History.Of ((renv 2).withRng (streamRng fun k => k + 1)) slope
      { opts with mode := mode, weights := .negative, populationSize := 6 } [] c ∧
    History.Of ((renv 2).withRng (streamRng fun k => k + 1)) flat
      { opts with mode := mode, weights := .negative, populationSize := 6 } [] c' ∧
    ExactRun ((renv 2).withRng (streamRng fun k => k + 1))
      { opts with mode := mode, weights := .negative, populationSize := 6 } ∧
    c.parameters.c1 = .fin a ∧ c.parameters.cmu = .fin b ∧ a + b < 1 ∧
    (![1, -2] : Fin 2 → ℝ) ≠ 0 ∧ StrictMono (id : ℝ → ℝ) ∧
    (∀ log x, slope.f log (Vec.fin x) = .fin (id (![1, -2] ⬝ᵥ x))) ∧
    flat.IgnoresPoint ∧ (∀ log x, Flt.isNaN (flat.f log x) = false) ∧
    (∃ d res, c.next ((renv 2).withRng (streamRng fun k => k + 1)) .par = .ok (d, res)) ∧
    ∃ d res, c'.next ((renv 2).withRng (streamRng fun k => k + 1)) .seq = .ok (d, res) := by
  obtain ⟨t, c, d, res, _, h, hg, ht, hn, _⟩ := stream_runs (obj := slope) (fun _ _ => isNaN_fin _)
    mode .negative (lambda := 6) (by norm_num) (by norm_num) .par 0 (by norm_num)
  obtain ⟨t', c', d', res', _, h', hg', ht', hn', _⟩ := stream_runs (obj := flat)
    (fun _ _ => isNaN_fin _) mode .negative (lambda := 6) (by norm_num) (by norm_num) .seq 0
    (by norm_num)
  have : t = [] := List.length_eq_zero_iff.mp ht
  have : t' = [] := List.length_eq_zero_iff.mp ht'
  subst t t'
  obtain ⟨hp, _⟩ := params_rep h
  exact ⟨c, c', _, _, h, h', stream_exact' _ _ _, hp.c1, hp.cmu,
    rateSum_lt_one (by norm_num) (by show 2 ≤ 6; norm_num) (by show 6 ≤ _; norm_num),
    fun e => by simpa using congrFun e 0, strictMono_id, slope_linear, fun _ _ _ _ _ => rfl,
    fun _ _ => isNaN_fin _, ⟨d, res, hn⟩, d', res', hn'⟩

end Cmaes
