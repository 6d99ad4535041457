import Verif.Props.FirstFeasible
import Verif.Props.Gaussian
import Verif.Props.Feasible
import Verif.Lemmas.Rejection

/-!
# C94: with constraints the points follow the conditional distribution
-/

set_option linter.unusedSectionVars false

namespace Cmaes
open MeasureTheory ProbabilityTheory Matrix WithLp XR Filter
variable {n : Nat}

/-- Conditioning commutes with maps. -/
theorem map_cond {α β : Type} [MeasurableSpace α] [MeasurableSpace β] (μ : Measure α) {f : α → β}
    (hf : Measurable f) {A : Set β} (hA : MeasurableSet A) :
    (μ[|f ⁻¹' A]).map f = (μ.map f)[|A] := by
  ext s hs
  rw [Measure.map_apply hf hs, cond_apply (hf hA), cond_apply hA, Measure.map_apply hf hA,
    Measure.map_apply hf (hA.inter hs), Set.preimage_inter]

variable {env : Env n XR Nat} {obj : Obj n XR} {o : Options n XR} {t : List (NextCall n XR)}
  {c : CMAES n XR Nat}

/-- The state of a run does not depend on the numbers to come. -/
theorem stream_history_any {ω : Nat → ℝ} (h : History.Of (env.withRng (streamRng ω)) obj o t c)
    {K : Nat} (z : Fin K → Fin n → ℝ) :
    History.Of (env.withRng (streamRng (replaceFrom ω c.sampler.rng z))) obj o t c := by
  obtain ⟨N, e1, -, e3⟩ := c89_causal h
  have hrng : c.sampler.rng = N := by
    rw [e1]
    show (streamRng ω).after 0 N = N
    rw [stream_after, Nat.zero_add]
  have := e3 (streamRng (replaceFrom ω N z)) fun k hk => by
    show (streamRng (replaceFrom ω N z)).draw 0 k = (streamRng ω).draw 0 k
    rw [stream_draw, stream_draw, Nat.zero_add, replaceFrom_lt hk]
  have e : c.withGenerator ((streamRng (replaceFrom ω N z)).after
      ((streamRng (replaceFrom ω N z)).seed c.parameters.seed) N) = c := by
    show c.withGenerator ((streamRng (replaceFrom ω N z)).after 0 N) = c
    rw [stream_after, Nat.zero_add, ← hrng]
    rfl
  rw [e] at this
  rw [hrng]
  exact this

/-- The candidates of the next call. -/
theorem stream_candidate {ω : Nat → ℝ} {r : RealState n} (hr : Rep c.state r) {K : Nat}
    (z : Fin K → Fin n → ℝ) (j : Fin K) :
    pointAt c.mean c.sigma (stepOf c.state.cov.transform
      ((streamRng (replaceFrom ω c.sampler.rng z)).vector c.sampler.rng j)) =
    Vec.fin (r.mean + (r.sigma • r.transform) *ᵥ z j) := by
  have hv : (streamRng (replaceFrom ω c.sampler.rng z)).vector c.sampler.rng j = Vec.fin (z j) := by
    funext l
    show (streamRng _).draw c.sampler.rng _ = _
    rw [stream_draw]
    exact congrArg _ (replaceFrom_row ω _ z j l)
  rw [hv, ← mulVec_eq, hr.transform, Mat.mulVec_fin]
  funext l
  show c.state.mean l + c.state.sigma * _ = _
  rw [hr.mean, hr.sigma]
  show (.fin (r.mean l) + .fin r.sigma * .fin _ : XR) = .fin _
  rw [mul_fin, add_fin]
  congr 1
  show _ = r.mean l + ((r.sigma • r.transform) *ᵥ z j) l
  rw [smul_mulVec]
  rfl

/-- If at least `m` of the first `K` numbers pass a test, and exactly `m` of the first `K'` do, the
last of which passes, then these are the first `m`. -/
theorem filter_range_first {p : Nat → Bool} {K K' m : Nat} (h1 : m ≤ ((List.range K).filter p).length)
    (h2 : ((List.range K').filter p).length = m) (h3 : 0 < K') (h4 : p (K' - 1) = true) :
    (List.range K').filter p = ((List.range K).filter p).take m := by
  have hle : K' ≤ K := by
    by_contra hlt
    have e : List.range K' = List.range (K' - 1) ++ [K' - 1] := by
      rw [← List.range_succ]
      congr 1
      omega
    rw [e, List.filter_append, List.length_append, List.filter_cons_of_pos h4] at h2
    have hs : ((List.range K).filter p).Sublist ((List.range (K' - 1)).filter p) :=
      (List.range_sublist.mpr (by omega)).filter p
    have := hs.length_le
    simp at h2
    omega
  obtain ⟨d, rfl⟩ := Nat.exists_eq_add_of_le hle
  rw [List.range_add, List.filter_append, List.take_left' h2]

open scoped MatrixOrder Matrix.Norms.L2Operator in
/-- A normal distribution with a positive definite covariance matrix meets every open set. -/
theorem gaussian_open (m : EuclideanSpace ℝ (Fin n)) {S : Matrix (Fin n) (Fin n) ℝ} (hS : S.PosDef)
    {A : Set (EuclideanSpace ℝ (Fin n))} (hA : (interior A).Nonempty) :
    multivariateGaussian m S A ≠ 0 := by
  have i1 : (gaussianReal 0 1).IsOpenPosMeasure :=
    (gaussianReal_absolutelyContinuous' 0 one_ne_zero).isOpenPosMeasure
  have i2 : (Measure.pi fun _ : Fin n => gaussianReal 0 1).IsOpenPosMeasure :=
    Measure.pi.isOpenPosMeasure _
  have i3 : (stdGaussian (EuclideanSpace ℝ (Fin n))).IsOpenPosMeasure := by
    rw [← map_pi_eq_stdGaussian]
    exact Continuous.isOpenPosMeasure_map (by fun_prop) (WithLp.toLp_surjective 2)
  have hsq : CFC.sqrt S * CFC.sqrt S = S := CFC.sqrt_mul_sqrt_self _ hS.posSemidef.nonneg
  have hdet : IsUnit (CFC.sqrt S).det := by
    have := congrArg Matrix.det hsq
    rw [det_mul] at this
    refine isUnit_iff_ne_zero.mpr fun h0 => hS.det_pos.ne' ?_
    rw [← this, h0, zero_mul]
  have hsurj : Function.Surjective fun x => m + toEuclideanCLM (𝕜 := ℝ) (CFC.sqrt S) x := by
    intro y
    refine ⟨toEuclideanCLM (𝕜 := ℝ) (CFC.sqrt S)⁻¹ (y - m), ?_⟩
    show m + toEuclideanCLM (𝕜 := ℝ) (CFC.sqrt S) (toEuclideanCLM (𝕜 := ℝ) (CFC.sqrt S)⁻¹ (y - m)) = y
    rw [← ContinuousLinearMap.comp_apply, ← ContinuousLinearMap.mul_def, ← map_mul,
      Matrix.mul_nonsing_inv _ hdet, map_one]
    simp
  have i4 : (multivariateGaussian m S).IsOpenPosMeasure :=
    Continuous.isOpenPosMeasure_map (by fun_prop) hsurj
  exact (isOpen_interior.measure_pos _ hA).ne' ∘ fun h => measure_mono_null interior_subset h

/-- **C94.** With constraints the points of a generation are independent and follow the normal
distribution of C88 given that the constraints are met. In exact arithmetic, without `max_resamples`
and with `c1 + cmu < 1`: let a run have used some of the normal numbers `ω`, and let `A` be the set of
acceptable points. Every `n` numbers give a candidate; if they are independent and standard normal,
the candidate has the law `P = N(mean, sigma² C)`, with `C` as in C88. Whatever the next `K n` numbers
`z` are, the run so far is the same. Let `E` be the event that at least `populationSize` of their
`K` candidates are acceptable. Then the next call evaluates the points `X z`, and if the numbers are
independent and standard normal and the acceptable points have positive probability then,
given `E`, the points `X z` are independent with the law `P` given `A`. The probability of `E` goes to
one as `K` grows. -/
theorem c94_conditional {ω : Nat → ℝ} (hx : ExactRun (env.withRng (streamRng ω)) o)
    (h : History.Of (env.withRng (streamRng ω)) obj o t c) {κ : Constraint XR}
    (hk : o.constraints = some κ) (hm : o.maxResamples = none)
    (hA : MeasurableSet {x : EuclideanSpace ℝ (Fin n) | κ (List.ofFn (Vec.fin x)) = .ok true})
    {a b : ℝ} (h1 : c.parameters.c1 = .fin a) (h2 : c.parameters.cmu = .fin b) (hs : a + b < 1) :
    let last := c.generation - c.generation % c.generationsPerEigenUpdate
    let A : Set (EuclideanSpace ℝ (Fin n)) := {x | κ (List.ofFn (Vec.fin x)) = .ok true}
    ∃ (N : Nat) (t1 : List (NextCall n XR)) (c1 : CMAES n XR Nat) (C : Matrix (Fin n) (Fin n) ℝ)
      (m : Fin n → ℝ) (σ : ℝ) (Y : (Fin n → ℝ) → EuclideanSpace ℝ (Fin n)),
      t1 <+: t ∧ History.Of (env.withRng (streamRng ω)) obj o t1 c1 ∧ c1.generation = last ∧
      c1.covarianceMatrix = Mat.fin C ∧ C.PosDef ∧
      (c.generation % c.generationsPerEigenUpdate = 0 → c.covarianceMatrix = Mat.fin C) ∧
      c.mean = Vec.fin m ∧ c.sigma = .fin σ ∧ 0 < σ ∧
      let P := multivariateGaussian (toLp 2 m) (σ ^ 2 • C)
      let E := fun K : Nat => {z : Fin K → Fin n → ℝ | o.populationSize ≤
        (List.ofFn fun j => Y (z j)).countP fun x : EuclideanSpace ℝ (Fin n) => κ (List.ofFn (Vec.fin x)) = .ok true}
      (Measure.pi fun _ : Fin n => gaussianReal 0 1).map Y = P ∧
      (∀ (K : Nat) (z : Fin K → Fin n → ℝ),
        History.Of (env.withRng (streamRng (replaceFrom ω N z))) obj o t c) ∧
      (∀ K, ∃ X : (Fin K → Fin n → ℝ) → Fin o.populationSize → EuclideanSpace ℝ (Fin n),
        (∀ z ∈ E K, ∀ kind d res calls,
          c.next (env.withRng (streamRng (replaceFrom ω N z))) kind = .ok (d, res) →
          d.sampler.obj.log = c.sampler.obj.log ++ calls →
          NextCall.On { kind, calls, result := res } (List.ofFn fun i => Vec.fin (X z i))) ∧
        (P A ≠ 0 → o.populationSize ≤ K →
          ((standardNormal K n)[|E K]).map X = Measure.pi fun _ => P[|A])) ∧
      (P A ≠ 0 → Tendsto (fun K => standardNormal K n (E K)) atTop (nhds 1)) := by
  intro last A
  obtain ⟨r, x, i⟩ := exact_inv hx (by rw [rateSum_eq h h1 h2]; exact hs) h
  obtain ⟨t1, c1, s1, s2, s3, s4⟩ := i.snap
  set Y : (Fin n → ℝ) → EuclideanSpace ℝ (Fin n) :=
    fun z => toLp 2 (r.mean + (r.sigma • r.transform) *ᵥ z) with hY
  have hYm : Measurable Y := measurable_affine _ _
  have hP : (Measure.pi fun _ : Fin n => gaussianReal 0 1).map Y =
      multivariateGaussian (toLp 2 r.mean) (r.sigma ^ 2 • r.decomposed) := by
    rw [hY, map_affine]
    congr 1
    rw [transpose_smul, Matrix.smul_mul, Matrix.mul_smul, transform_mul_transpose i.good, smul_smul,
      pow_two]
  have hE : ∀ K : Nat, {z : Fin K → Fin n → ℝ | o.populationSize ≤
      (List.ofFn fun j => Y (z j)).countP fun x : EuclideanSpace ℝ (Fin n) => κ (List.ofFn (Vec.fin x)) = .ok true} =
      Rejection.enough (Y ⁻¹' A) K o.populationSize := by
    intro K
    ext z
    rw [Rejection.mem_enough, Set.mem_setOf_eq, Rejection.hits, List.countP_eq_length_filter,
      show (fun j => Y (z j)) = Y ∘ z from rfl, ← List.map_ofFn, List.filter_map, List.length_map]
    have : ∀ l : List (Fin n → ℝ), (l.filter ((fun x : EuclideanSpace ℝ (Fin n) =>
        decide (κ (List.ofFn (Vec.fin x)) = .ok true)) ∘ Y)) =
        l.filter fun x => @decide (x ∈ Y ⁻¹' A) (Classical.propDecidable _) := by
      intro l
      refine List.filter_congr fun z _ => ?_
      exact decide_eq_decide.mpr Iff.rfl
    rw [this]
  have hA0 : multivariateGaussian (toLp 2 r.mean) (r.sigma ^ 2 • r.decomposed) A ≠ 0 →
      (Measure.pi fun _ : Fin n => gaussianReal 0 1) (Y ⁻¹' A) ≠ 0 := by
    rw [← hP, Measure.map_apply hYm hA]
    exact id
  refine ⟨c.sampler.rng, t1, c1, r.decomposed, r.mean, r.sigma, Y, s1, s2, s3, s4,
    decomposed_posDef i.good, fun hk => by rw [i.fresh hk]; exact i.rep.cov, i.rep.mean, i.rep.sigma,
    i.good.sigma, hP, fun K z => stream_history_any h z, fun K => ?_, fun h0 => ?_⟩
  · refine ⟨fun z j => Y (Rejection.first (Y ⁻¹' A) o.populationSize z j), ?_, fun h0 hle => ?_⟩
    · intro z hz kind d res calls hn hl
      obtain ⟨K', k1, _, _, k4, k5, k6⟩ := c93_first (stream_history_any h z) hk hm hn hl
      set xs : Nat → Vec n XR := fun j => pointAt c.mean c.sigma (stepOf c.state.cov.transform
        ((streamRng (replaceFrom ω c.sampler.rng z)).vector c.sampler.rng j)) with hxs
      have hcand : ∀ j : Fin K, xs j = Vec.fin (Y (z j)) := fun j => stream_candidate i.rep z j
      set H := Rejection.hits (Y ⁻¹' A) z with hH
      have e1 : ((List.range K).filter fun j => κ (List.ofFn (xs j)) = .ok true).map xs =
          H.map fun z => Vec.fin (Y z) := by
        rw [hH, Rejection.hits, ← List.map_coe_finRange_eq_range, List.filter_map, List.map_map,
          List.ofFn_eq_map, List.filter_map, List.map_map]
        have e2 : (List.finRange K).filter ((fun j => decide (κ (List.ofFn (xs j)) = .ok true)) ∘
            fun j : Fin K => (j : Nat)) = (List.finRange K).filter
            ((fun x => @decide (x ∈ Y ⁻¹' A) (Classical.propDecidable _)) ∘ z) := by
          refine List.filter_congr fun j _ => decide_eq_decide.mpr ?_
          rw [hcand j]
          exact Iff.rfl
        rw [e2]
        exact List.map_congr_left fun j _ => hcand j
      have hlen : ((List.range K).filter fun j => κ (List.ofFn (xs j)) = .ok true).length = H.length := by
        have := congrArg List.length e1
        simpa using this
      have hz' : o.populationSize ≤ H.length := by
        have : z ∈ Rejection.enough (Y ⁻¹' A) K o.populationSize := by rw [← hE]; exact hz
        exact Rejection.mem_enough.mp this
      have e3 := filter_range_first (p := fun j => κ (List.ofFn (xs j)) = .ok true) (K := K)
        (by rw [hlen]; exact hz') k5 k1 (decide_eq_true k4)
      have e4 : ((List.range K').filter fun j => κ (List.ofFn (xs j)) = .ok true).map xs =
          List.ofFn fun j => Vec.fin (Y (Rejection.first (Y ⁻¹' A) o.populationSize z j)) := by
        rw [e3, List.map_take, e1]
        refine List.ext_getElem (by simp [hz']) fun j hj _ => ?_
        have hj' : j < H.length := by simp at hj; omega
        simp only [List.getElem_take, List.getElem_map, List.getElem_ofFn, Rejection.first]
        rw [List.getD, ← hH, List.getElem?_eq_getElem hj']
        rfl
      rw [← e4]
      exact k6
    · have e1 := Rejection.map_first (Measure.pi fun _ : Fin n => gaussianReal 0 1) (hYm hA) (hA0 h0) hle
      have : IsProbabilityMeasure (Measure.pi fun _ : Fin n => gaussianReal 0 1)[|Y ⁻¹' A] :=
        cond_isProbabilityMeasure (hA0 h0)
      beta_reduce
      rw [hE, ← hP, ← map_cond _ hYm hA, ← Measure.pi_map_pi (fun _ => hYm.aemeasurable), ← e1,
        Measure.map_map (by fun_prop) (Rejection.measurable_first (hYm hA) _ _)]
      rfl
  · have e1 := Rejection.tendsto_enough (Measure.pi fun _ : Fin n => gaussianReal 0 1) (hYm hA)
      (hA0 h0) o.populationSize
    simp only [hE]
    exact e1

namespace WitnessReal

theorem box_iff {x : Fin 2 → ℝ} :
    box.meets (List.ofFn (Vec.fin x)) = .ok true ↔ ∀ i, 0 ≤ x i ∧ x i ≤ 100 := by
  refine ⟨fun h i => ?_, box_meets⟩
  obtain ⟨lo, hi, v, e1, e2, e3, e4, e5⟩ := (c09_accepts_iff _ _).mp h i (by simpa using Nat.le_of_lt_succ i.isLt)
  have f1 : some (.fin 0 : XR) = some lo := by rw [← e1]; fin_cases i <;> rfl
  have f2 : some (.fin 100 : XR) = some hi := by rw [← e2]; fin_cases i <;> rfl
  have f3 : some (.fin (x i) : XR) = some v := by rw [← e3]; fin_cases i <;> rfl
  obtain rfl := Option.some.inj f1
  obtain rfl := Option.some.inj f2
  obtain rfl := Option.some.inj f3
  rw [le_fin, decide_eq_true_eq] at e4 e5
  exact ⟨e4, e5⟩

end WitnessReal

open WitnessReal in
/-- Non-vacuity: after a generation within bounds the hypotheses are met, and the acceptable points
have an interior, hence (`gaussian_open`) positive probability. -/
example : ∃ s c a b, ¬ NextCall.Failed s ∧
    History.Of ((renv 2).withRng (streamRng fun k => k + 1)) sphere boxOpts [s] c ∧
    ExactRun ((renv 2).withRng (streamRng fun k => k + 1)) boxOpts ∧
    boxOpts.constraints = some box.meets ∧ boxOpts.maxResamples = none ∧
    MeasurableSet {x : EuclideanSpace ℝ (Fin 2) | box.meets (List.ofFn (Vec.fin x)) = .ok true} ∧
    (interior {x : EuclideanSpace ℝ (Fin 2) |
      box.meets (List.ofFn (Vec.fin x)) = .ok true}).Nonempty ∧
    c.parameters.c1 = .fin a ∧ c.parameters.cmu = .fin b ∧ a + b < 1 := by
  obtain ⟨s, c, h, hf⟩ := boxOpts_next
  obtain ⟨N, -, -, h3⟩ := c89_causal h
  have hseed : c.parameters.seed = 0 := by
    obtain ⟨gs, i, _⟩ := fresh_inv h
    rw [i.parameters]
    rfl
  have hh := h3 _ (stream_agrees _ N hseed)
  obtain ⟨hp, _⟩ := params_rep hh
  have hx : ExactRun ((renv 2).withRng (streamRng fun k => k + 1)) boxOpts := by
    have := stream_exact .negative 6
    exact ⟨this.eigen, this.draws, fun _ => this.nonzero rfl, _, rfl⟩
  refine ⟨s, _, _, _, hf, hh, hx, rfl, rfl, ?_, ?_, hp.c1, hp.cmu,
    rateSum_lt_one (by norm_num) (by show 2 ≤ 6; norm_num) (by show 6 ≤ _; norm_num)⟩
  · simp only [box_iff, Set.setOf_forall]
    refine MeasurableSet.iInter fun i => ?_
    have hi : Measurable fun x : EuclideanSpace ℝ (Fin 2) => x i := by fun_prop
    exact (measurableSet_le measurable_const hi).inter (measurableSet_le hi measurable_const)
  · refine ⟨toLp 2 fun _ => 50, mem_interior.mpr ⟨{x | ∀ i, 0 < x i ∧ x i < 100}, ?_, ?_, ?_⟩⟩
    · intro x hx
      exact box_iff.mpr fun i => ⟨(hx i).1.le, (hx i).2.le⟩
    · simp only [Set.setOf_forall]
      refine isOpen_iInter_of_finite fun i => ?_
      have hi : Continuous fun x : EuclideanSpace ℝ (Fin 2) => x i := by fun_prop
      exact (isOpen_lt continuous_const hi).inter (isOpen_lt hi continuous_const)
    · intro i
      norm_num

end Cmaes
