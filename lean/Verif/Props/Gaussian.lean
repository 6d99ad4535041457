import Verif.Spec.Gaussian
import Verif.Props.Causal
import Verif.Props.Exact

/-!
# C88: the points of a generation are normally distributed
-/

set_option linter.unusedSectionVars false

namespace Cmaes
open MeasureTheory ProbabilityTheory Matrix WithLp XR
open scoped RealInnerProductSpace
variable {n : Nat}

/-- An affine image of independent standard normal numbers. -/
theorem map_affine (m : Fin n → ℝ) (M : Matrix (Fin n) (Fin n) ℝ) :
    (Measure.pi fun _ : Fin n => gaussianReal 0 1).map (fun z => toLp 2 (m + M *ᵥ z)) =
      multivariateGaussian (toLp 2 m) (M * Mᵀ) := by
  have hS : (M * Mᵀ).PosSemidef := by
    have := Matrix.posSemidef_self_mul_conjTranspose M
    rwa [conjTranspose_eq_transpose_of_trivial] at this
  set A := toEuclideanCLM (𝕜 := ℝ) M with hA
  have e : (fun z : Fin n → ℝ => toLp 2 (m + M *ᵥ z)) =
      (fun x => toLp 2 m + x) ∘ A ∘ (toLp 2) := by
    funext z
    rw [toLp_add]
    rfl
  have e1 : (Measure.pi fun _ : Fin n => gaussianReal 0 1).map (fun z => toLp 2 (m + M *ᵥ z)) =
      ((stdGaussian (EuclideanSpace ℝ (Fin n))).map A).map (fun x => toLp 2 m + x) := by
    rw [e, ← map_pi_eq_stdGaussian, Measure.map_map (by fun_prop) (by fun_prop),
      Measure.map_map (by fun_prop) (by fun_prop)]
    rfl
  rw [e1]
  apply IsGaussian.ext
  · simp only [id_eq, integral_id_multivariateGaussian]
    rw [integral_map (by fun_prop) (by fun_prop), integral_map (by fun_prop) (by fun_prop),
      integral_add (integrable_const _), integral_const]
    · simp [ContinuousLinearMap.integral_comp_comm _ IsGaussian.integrable_fun_id]
    · exact IsGaussian.integrable_id.comp_measurable (by fun_prop)
  · ext x y
    rw [covarianceBilin_map_const_add, covarianceBilin_map, covarianceBilin_stdGaussian,
      covarianceBilin_multivariateGaussian hS, innerSL_apply_apply,
      ContinuousLinearMap.adjoint_inner_left]
    · have h1 : A.adjoint = toEuclideanCLM (𝕜 := ℝ) Mᵀ := by
        rw [← conjTranspose_eq_transpose_of_trivial]
        exact (map_star (toEuclideanCLM (𝕜 := ℝ)) M).symm
      rw [h1, hA, ← ContinuousLinearMap.comp_apply, ← ContinuousLinearMap.mul_def, ← map_mul,
        inner_toEuclideanCLM]
    · exact IsGaussian.memLp_two_id

theorem measurable_affine (m : Fin n → ℝ) (M : Matrix (Fin n) (Fin n) ℝ) :
    Measurable fun z : Fin n → ℝ => toLp 2 (m + M *ᵥ z) := by
  have : Continuous fun z : Fin n → ℝ => m + M *ᵥ z :=
    continuous_const.add (Continuous.matrix_mulVec continuous_const continuous_id)
  exact (by fun_prop : Measurable (toLp 2 : (Fin n → ℝ) → _)).comp this.measurable

/-- The same map applied to independent vectors. -/
theorem map_affine_pi (k : Nat) (m : Fin n → ℝ) (M : Matrix (Fin n) (Fin n) ℝ) :
    (standardNormal k n).map (fun z i => toLp 2 (m + M *ᵥ z i)) =
      Measure.pi fun _ => multivariateGaussian (toLp 2 m) (M * Mᵀ) := by
  unfold standardNormal
  rw [← map_affine]
  exact Measure.pi_map_pi fun _ => (measurable_affine m M).aemeasurable

theorem stream_after (ω : Nat → ℝ) (k N : Nat) : (streamRng ω).after k N = k + N := by
  induction N with
  | zero => rfl
  | succ N ih =>
    show (streamRng ω).after k N + 1 = _
    rw [ih]
    rfl

theorem stream_draw (ω : Nat → ℝ) (k j : Nat) : (streamRng ω).draw k j = .fin (ω (k + j)) := by
  unfold RngOps.draw
  rw [stream_after]
  rfl

theorem replaceFrom_lt {m : Nat} {ω : Nat → ℝ} {N k : Nat} {z : Fin m → Fin n → ℝ} (hk : k < N) :
    replaceFrom ω N z k = ω k := by
  unfold replaceFrom
  rw [dif_neg (by omega)]

theorem replaceFrom_row {m : Nat} (ω : Nat → ℝ) (N : Nat) (z : Fin m → Fin n → ℝ) (i : Fin m)
    (j : Fin n) : replaceFrom ω N z (N + (i * n + j)) = z i j := by
  have hlt : (i : Nat) * n + j < m * n := by
    calc (i : Nat) * n + j < i * n + n := by omega
      _ = (i + 1) * n := by rw [Nat.succ_mul]
      _ ≤ m * n := Nat.mul_le_mul_right n i.isLt
  have hn : 0 < n := by have := j.isLt; omega
  unfold replaceFrom
  rw [dif_pos ⟨by omega, by omega⟩]
  congr 1
  · congr 1
    show (N + (i * n + j) - N) / n = i
    rw [Nat.add_sub_cancel_left, Nat.add_comm, Nat.add_mul_div_right _ _ hn,
      Nat.div_eq_of_lt j.isLt, Nat.zero_add]
  · apply Fin.ext
    show (N + (i * n + j) - N) % n = j
    rw [Nat.add_sub_cancel_left, Nat.add_comm, Nat.add_mul_mod_self_right, Nat.mod_eq_of_lt j.isLt]

theorem increasing_eq_range {k m : Nat} {ks : List Nat} (h : ks.Pairwise (· < ·))
    (hmem : ∀ j ∈ ks, k ≤ j ∧ j < k + m) (hl : ks.length = m) : ks = List.range' k m := by
  have hsub : ks.Subperm (List.range' k m) :=
    List.subperm_of_subset (h.imp fun hab => Nat.ne_of_lt hab)
      fun j hj => List.mem_range'_1.mpr (hmem j hj)
  have hp := hsub.perm_of_length_le (by rw [List.length_range', hl])
  exact hp.eq_of_pairwise' (r := (· ≤ ·)) (h.imp fun hab => Nat.le_of_lt hab)
    ((List.pairwise_lt_range' (s := k) (n := m)).imp fun hab => Nat.le_of_lt hab)

variable {env : Env n XR Nat} {obj : Obj n XR} {o : Options n XR} {t : List (NextCall n XR)}
  {c : CMAES n XR Nat}

/-- The state of a run does not depend on the numbers to come. -/
theorem stream_history {ω : Nat → ℝ} (h : History.Of (env.withRng (streamRng ω)) obj o t c)
    (hcon : o.constraints = none) :
    c.sampler.rng = o.populationSize * t.length * n ∧
    ∀ z : Fin o.populationSize → Fin n → ℝ, History.Of
      (env.withRng (streamRng (replaceFrom ω (o.populationSize * t.length * n) z))) obj o t c := by
  obtain ⟨N, e1, e2, e3⟩ := c89_causal h
  have e2 := e2 hcon
  subst e2
  generalize o.populationSize * t.length * n = N at *
  have hrng : c.sampler.rng = N := by
    rw [e1]
    show (streamRng ω).after 0 N = N
    rw [stream_after, Nat.zero_add]
  refine ⟨hrng, fun z => ?_⟩
  have := e3 (streamRng (replaceFrom ω N z)) fun k hk => by
    show (streamRng (replaceFrom ω N z)).draw 0 k = (streamRng ω).draw 0 k
    rw [stream_draw, stream_draw, Nat.zero_add, replaceFrom_lt hk]
  have e : c.withGenerator ((streamRng (replaceFrom ω N z)).after
      ((streamRng (replaceFrom ω N z)).seed c.parameters.seed) N) = c := by
    show c.withGenerator ((streamRng (replaceFrom ω N z)).after 0 N) = c
    rw [stream_after, Nat.zero_add, ← hrng]
    rfl
  rw [e] at this
  exact this

/-- The points of the next call. -/
theorem stream_points {ω : Nat → ℝ} (h : History.Of (env.withRng (streamRng ω)) obj o t c)
    (hcon : o.constraints = none) {r : RealState n} (hr : Rep c.state r)
    (z : Fin o.populationSize → Fin n → ℝ) {kind : EvalKind} {d : CMAES n XR Nat}
    {res : Option (TerminationData n XR)} {calls : List (Vec n XR × XR)}
    (hn : c.next (env.withRng (streamRng (replaceFrom ω (o.populationSize * t.length * n) z))) kind =
      .ok (d, res))
    (hl : d.sampler.obj.log = c.sampler.obj.log ++ calls) :
    NextCall.On { kind, calls, result := res }
      (List.ofFn fun j => Vec.fin (r.mean + (r.sigma • r.transform) *ᵥ z j)) := by
  obtain ⟨hrng, hz⟩ := stream_history h hcon
  have hk : c.sampler.rng =
      (streamRng (replaceFrom ω (o.populationSize * t.length * n) z)).after
        ((streamRng (replaceFrom ω (o.populationSize * t.length * n) z)).seed 0)
        (o.populationSize * t.length * n) := by
    rw [hrng]
    show _ = (streamRng _).after 0 _
    rw [stream_after, Nat.zero_add]
  obtain ⟨k', ks, a1, a2, a3, a4, a5, a6, a7⟩ := next_stream (hz z) hn hl hk
  have hks := increasing_eq_range a3 (by rw [← a6 hcon]; exact a4) a5
  have hpts : (ks.map fun k => pointAt c.mean c.sigma (stepOf c.state.cov.transform
      ((streamRng (replaceFrom ω (o.populationSize * t.length * n) z)).vector
        ((streamRng (replaceFrom ω (o.populationSize * t.length * n) z)).seed 0) k))) =
      List.ofFn fun j => Vec.fin (r.mean + (r.sigma • r.transform) *ᵥ z j) := by
    rw [hks]
    refine List.ext_getElem (by simp) fun j hj _ => ?_
    have hj' : j < o.populationSize := by simpa using hj
    rw [List.getElem_map, List.getElem_range', List.getElem_ofFn, Nat.one_mul]
    have hv : (streamRng (replaceFrom ω (o.populationSize * t.length * n) z)).vector
        ((streamRng (replaceFrom ω (o.populationSize * t.length * n) z)).seed 0)
        (o.populationSize * t.length + j) = Vec.fin (z ⟨j, hj'⟩) := by
      funext l
      show (streamRng _).draw 0 _ = _
      rw [stream_draw, Nat.zero_add, Nat.add_mul, Nat.add_assoc]
      exact congrArg _ (replaceFrom_row ω _ z ⟨j, hj'⟩ l)
    rw [hv, ← mulVec_eq, hr.transform, Mat.mulVec_fin]
    funext l
    show c.state.mean l + c.state.sigma * _ = _
    rw [hr.mean, hr.sigma]
    show (.fin (r.mean l) + .fin r.sigma * .fin _ : XR) = .fin _
    rw [mul_fin, add_fin]
    congr 1
    show _ = r.mean l + ((r.sigma • r.transform) *ᵥ z ⟨j, hj'⟩) l
    rw [smul_mulVec]
    rfl
  refine ⟨by rw [← hpts]; exact a7.points, fun hk => by rw [← hpts]; exact a7.order hk,
    fun hf => ?_⟩
  rw [← hpts]
  refine a7.points.perm_of_length_le ?_
  rw [List.length_map, List.length_map, a7.complete hf]

theorem transform_mul_transpose {r : RealState n} (hg : r.Good) :
    r.transform * r.transformᵀ = r.decomposed := by
  unfold RealState.transform RealState.decomposed
  rw [transpose_mul, diagonal_transpose, Matrix.mul_assoc, ← Matrix.mul_assoc (diagonal _),
    diagonal_mul_diagonal, ← Matrix.mul_assoc]
  congr 2
  congr 1
  funext i'
  exact Real.mul_self_sqrt (hg.pos i').le

/-- **C88.** The points of a generation are independent and normally distributed with mean `mean()`
and covariance `sigma()² C`, where `C` is the covariance matrix as it was after generation
`last = g - g % k`, with `g = generation()` and `k = generations_per_eigen_update()`; that is
`covariance_matrix()` itself in the generations that are multiples of `k`. In exact
arithmetic, without constraints and with `c1 + cmu < 1`: let a run have used the first `N` of the
normal numbers `ω`. Whatever the next `populationSize * n` numbers `z` are, the run so far is the
same, and the next call evaluates the points `X z`. If the numbers `z` are independent and standard
normal, then the points `X z` are independent with the law `N(mean, sigma² C)`. -/
theorem c88_gaussian {ω : Nat → ℝ} (hx : ExactRun (env.withRng (streamRng ω)) o)
    (h : History.Of (env.withRng (streamRng ω)) obj o t c) (hcon : o.constraints = none) {a b : ℝ}
    (h1 : c.parameters.c1 = .fin a) (h2 : c.parameters.cmu = .fin b) (hs : a + b < 1) :
    let N := o.populationSize * t.length * n
    let last := c.generation - c.generation % c.generationsPerEigenUpdate
    ∃ (t1 : List (NextCall n XR)) (c1 : CMAES n XR Nat) (C : Matrix (Fin n) (Fin n) ℝ)
      (m : Fin n → ℝ) (σ : ℝ)
      (X : (Fin o.populationSize → Fin n → ℝ) → Fin o.populationSize → EuclideanSpace ℝ (Fin n)),
      t1 <+: t ∧ History.Of (env.withRng (streamRng ω)) obj o t1 c1 ∧ c1.generation = last ∧
      c1.covarianceMatrix = Mat.fin C ∧ C.PosDef ∧
      (c.generation % c.generationsPerEigenUpdate = 0 → c.covarianceMatrix = Mat.fin C) ∧
      c.mean = Vec.fin m ∧ c.sigma = .fin σ ∧ 0 < σ ∧
      (∀ z : Fin o.populationSize → Fin n → ℝ,
        History.Of (env.withRng (streamRng (replaceFrom ω N z))) obj o t c) ∧
      (∀ (z : Fin o.populationSize → Fin n → ℝ) kind d res calls,
        c.next (env.withRng (streamRng (replaceFrom ω N z))) kind = .ok (d, res) →
        d.sampler.obj.log = c.sampler.obj.log ++ calls →
        NextCall.On { kind, calls, result := res } (List.ofFn fun i => Vec.fin (X z i))) ∧
      (standardNormal o.populationSize n).map X =
        Measure.pi fun _ => multivariateGaussian (toLp 2 m) (σ ^ 2 • C) := by
  intro N last
  obtain ⟨r, x, i⟩ := exact_inv hx (by rw [rateSum_eq h h1 h2]; exact hs) h
  obtain ⟨t1, c1, s1, s2, s3, s4⟩ := i.snap
  refine ⟨t1, c1, r.decomposed, r.mean, r.sigma,
    fun z j => toLp 2 (r.mean + (r.sigma • r.transform) *ᵥ z j), s1, s2, s3, s4,
    decomposed_posDef i.good, fun hk => by rw [i.fresh hk]; exact i.rep.cov, i.rep.mean, i.rep.sigma,
    i.good.sigma, (stream_history h hcon).2,
    fun z kind d res calls hn hl => stream_points h hcon i.rep z hn hl, ?_⟩
  rw [map_affine_pi]
  congr 1
  funext _
  congr 1
  rw [transpose_smul, Matrix.smul_mul, Matrix.mul_smul, transform_mul_transpose i.good, smul_smul,
    pow_two]

namespace WitnessReal

theorem stream_agrees (seed N : Nat) (hs : seed = 0) :
    rng.AgreeUpTo (streamRng fun k => k + 1) seed N := by
  subst hs
  intro k _
  show (streamRng _).draw 0 k = rng.draw 0 k
  rw [stream_draw, Nat.zero_add]
  refine ((drawNormals_stream rng (k + 1) 0).2 k (by omega)).symm.trans ?_ |>.symm
  rw [drawNormals_getD _ _ _ (by omega)]
  push_cast
  congr 1
  ring

/-- The concrete run of `witness_run` with the numbers `1, 2, 3, …`. -/
theorem stream_run (w : Weights) {lambda : ℕ} (h2 : 2 ≤ lambda) (hl : lambda ≤ 32) {k : ℕ}
    (hk : k < 2 ^ 30) :
    ∃ t c, History.Of ((renv 2).withRng (streamRng fun k => k + 1)) sphere
      { opts with weights := w, populationSize := lambda } t c ∧ c.generation = k ∧ t.length = k := by
  obtain ⟨t, c, h, hg, ht⟩ := witness_run w h2 hl k hk
  obtain ⟨N, -, -, h3⟩ := c89_causal h
  have hseed : c.parameters.seed = 0 := by
    obtain ⟨w0, c0, h0, he⟩ := h
    have hp : c.parameters = c0.parameters := by
      clear h3 hg ht
      induction he with
      | refl => rfl
      | next _ hn _ ih =>
        obtain ⟨_, hc, -⟩ := next_cases hn
        rw [hc.parameters, ih]
      | quiet _ hq ha ih => rw [(quiet_sameSearch hq ha).1.parameters, ih]
    obtain ⟨-, rfl⟩ := new_eq_ok h0
    rw [hp, (create_search (renv 2) w0 sphere _).2.1]
    rfl
  exact ⟨t, _, h3 _ (stream_agrees _ N hseed), hg, ht⟩

theorem stream_exact (w : Weights) (lambda : ℕ) :
    ExactRun ((renv 2).withRng (streamRng fun k => k + 1))
      { opts with weights := w, populationSize := lambda } := by
  have key : NonzeroDraws ((renv 2).withRng (streamRng fun k => k + 1)) := by
    intro r
    refine ⟨fun i => r + i + 1, ?_, ?_⟩
    · intro h
      have := congrFun h 0
      simp only [Pi.zero_apply] at this
      have h1 : (0 : ℝ) < r + ((0 : Fin 2) : ℕ) + 1 := by positivity
      exact h1.ne' this
    · funext i
      show (streamRng _).draw r (0 * 2 + i) = _
      rw [stream_draw, Nat.zero_mul, Nat.zero_add]
      push_cast
      rfl
  exact ⟨renv_exact, key.real, fun _ => key, _, rfl⟩

end WitnessReal

open WitnessReal in
/-- Non-vacuity: after 1000 generations with negative weights the hypotheses are met. -/
example : ∃ t c a b, History.Of ((renv 2).withRng (streamRng fun k => k + 1)) sphere
      { opts with weights := .negative, populationSize := 6 } t c ∧
    ExactRun ((renv 2).withRng (streamRng fun k => k + 1))
      { opts with weights := .negative, populationSize := 6 } ∧
    c.generation = 1000 ∧ c.parameters.c1 = .fin a ∧ c.parameters.cmu = .fin b ∧ a + b < 1 := by
  obtain ⟨t, c, h, hg, _⟩ := stream_run .negative (lambda := 6) (by norm_num) (by norm_num)
    (k := 1000) (by norm_num)
  obtain ⟨hp, _⟩ := params_rep h
  exact ⟨t, c, _, _, h, stream_exact _ _, hg, hp.c1, hp.cmu,
    rateSum_lt_one (by norm_num) (by show 2 ≤ 6; norm_num) (by show 6 ≤ _; norm_num)⟩

end Cmaes
