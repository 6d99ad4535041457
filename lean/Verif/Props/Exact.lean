import Verif.Lemmas.RealStep
import Mathlib.Analysis.Convex.Combination

/-!
# C36 to C39, C41, C65: generations in exact arithmetic

The theorems are about `XR`, real numbers without rounding; `Vec.fin`, `Mat.fin` and `.fin` embed
real vectors, matrices and numbers. `ExactRun` (`Verif.Spec.Exact`) says what the outside world must
do: an exact eigensolver and real random numbers.
-/

namespace Cmaes
set_option linter.unusedSectionVars false
variable {n : Nat} {R : Type} {env : Env n XR R} {obj : Obj n XR} {o : Options n XR}
  {t : List (NextCall n XR)} {c d : CMAES n XR R} {kind : EvalKind}
  {res : Option (TerminationData n XR)} {calls : List (Vec n XR × XR)}
open Matrix XR

/-! ### C36 -/

theorem rateSum_eq (h : History.Of env obj o t c) {c1 cmu : ℝ} (h1 : c.parameters.c1 = .fin c1)
    (h2 : c.parameters.cmu = .fin cmu) : rateSum o = c1 + cmu := by
  obtain ⟨hp, _⟩ := params_rep h
  have e1 := hp.c1.symm.trans h1
  have e2 := hp.cmu.symm.trans h2
  injection e1 with e1
  injection e2 with e2
  rw [rateSum, e1, e2]

/-- **C36.** In exact arithmetic, if `c1 + cmu < 1`, the covariance matrix is positive definite
after every sequence of calls and `PosDefCov` is never reported. -/
theorem c36_posDef (hx : ExactRun env o) (h : History.Of env obj o t c) {c1 cmu : ℝ}
    (h1 : c.parameters.c1 = .fin c1) (h2 : c.parameters.cmu = .fin cmu) (hs : c1 + cmu < 1) :
    (∃ C, c.covarianceMatrix = Mat.fin C ∧ C.PosDef) ∧ ∀ s ∈ t, ¬ s.ReportsPosDef := by
  obtain ⟨r, x, i⟩ := exact_inv hx (by rw [rateSum_eq h h1 h2]; exact hs) h
  exact ⟨⟨r.C, i.rep.cov, i.posDef⟩, i.noReport⟩

/-- **C36, population sizes.** `c1 + cmu < 1` holds for every population of at most `2 (n + 2)²`
individuals, so in exact arithmetic the covariance matrix is positive definite after every sequence
of calls and `PosDefCov` is never reported. -/
theorem c36_population (hx : ExactRun env o) (h : History.Of env obj o t c)
    (hl : o.populationSize ≤ 2 * (n + 2) ^ 2) :
    (∃ C, c.covarianceMatrix = Mat.fin C ∧ C.PosDef) ∧ ∀ s ∈ t, ¬ s.ReportsPosDef := by
  obtain ⟨m, c1, cmu, p⟩ := params_real h
  refine c36_posDef hx h p.c1 p.cmu ?_
  rw [p.c1_eq, p.cmu_eq]
  refine rates_lt_one p.dim p.one_le ?_
  rw [p.m_eq]
  refine (realMuEff_le p.size _).trans ?_
  have : o.populationSize / 2 ≤ (n + 2) ^ 2 := by omega
  exact_mod_cast this

/-- The default population is small enough for `c36_population`. -/
theorem defaultPopulationSize_le (hn : n ≠ 0) : defaultPopulationSize XR n ≤ 2 * (n + 2) ^ 2 := by
  have hn0 : (0 : ℝ) < n := by exact_mod_cast Nat.pos_of_ne_zero hn
  have h1 : Real.log n ≤ n := (Real.log_le_sub_one_of_pos hn0).trans (by linarith)
  unfold defaultPopulationSize
  rw [ofNat_eq, ln_fin hn0, lit_eq, mul_fin]
  have e : Flt.toUsize (Flt.floor (.fin ((OfNat.ofNat 3 : ℝ) * Real.log n) : XR)) ≤ 3 * n := by
    show min _ ⌊((⌊(OfNat.ofNat 3 : ℝ) * Real.log n⌋ : ℤ) : ℝ)⌋.toNat ≤ _
    refine (min_le_right _ _).trans ?_
    rw [Int.floor_intCast, Int.toNat_le]
    have : (⌊(OfNat.ofNat 3 : ℝ) * Real.log n⌋ : ℤ) ≤ ⌊((3 * n : ℕ) : ℝ)⌋ := by
      apply Int.floor_le_floor
      push_cast
      show (3 : ℝ) * _ ≤ _
      linarith
    rwa [Int.floor_natCast] at this
  nlinarith

open WitnessReal in
/-- Non-vacuity: a run of 1000 generations with negative weights meets the hypotheses. -/
example : ∃ t c, History.Of (renv 2) sphere { opts with weights := .negative, populationSize := 6 } t c ∧
    ExactRun (renv 2) { opts with weights := .negative, populationSize := 6 } ∧
    c.generation = 1000 ∧ ∃ C, c.covarianceMatrix = Mat.fin C ∧ C.PosDef := by
  obtain ⟨t, c, h, hg, _⟩ := witness_run .negative (lambda := 6) (by norm_num) (by norm_num) 1000
    (by norm_num)
  exact ⟨t, c, h, witness_exact _ _, hg,
    (c36_population (witness_exact _ _) h (by show 6 ≤ _; norm_num)).1⟩

/-- **C36, default population.** With the default population size `PosDefCov` is never reported in
exact arithmetic. -/
theorem c36_default (hx : ExactRun env o) (h : History.Of env obj o t c)
    (hl : o.populationSize = (Options.new o.initialMean o.initialStepSize).populationSize) :
    (∃ C, c.covarianceMatrix = Mat.fin C ∧ C.PosDef) ∧ ∀ s ∈ t, ¬ s.ReportsPosDef := by
  obtain ⟨hp, _⟩ := params_rep h
  refine c36_population hx h ?_
  rw [hl]
  exact defaultPopulationSize_le hp.dim_ne

/-- **C36, progress.** In exact arithmetic, with at most `2 (n + 2)²` individuals and an objective
that never returns NaN, every `next` call that can be made (`CanStep`, see `c26_next`) completes a
generation. -/
theorem c36_progress (hx : ExactRun env o) (h : History.Of env obj o t c)
    (hl : o.populationSize ≤ 2 * (n + 2) ^ 2) (hc : CanStep env obj o c) (he : SamplingEnds env o)
    (hv : ∀ log x, Flt.isNaN (obj.f log x) = false) (kind : EvalKind) :
    ∃ d res, c.next env kind = .ok (d, res) ∧ d.generation = c.generation + 1 := by
  obtain ⟨_, _, _, p⟩ := params_real h
  obtain ⟨d, res, _, h1, _, _, h2, _⟩ := exact_step hx (rateSum_lt_one p.dim p.size hl) h hc he hv kind
  exact ⟨d, res, h1, h2⟩

/-! ### C37 -/

/-- **C37.** With `Weights::Positive` or `Weights::Uniform` the drawn vectors may be anything real,
even zero. -/
theorem c37_positive (he : ExactEigen env) (hr : RealDraws env) (hm : ∃ m, o.initialMean = Vec.fin m)
    (hw : o.weights = .positive ∨ o.weights = .uniform) (h : History.Of env obj o t c) {c1 cmu : ℝ}
    (h1 : c.parameters.c1 = .fin c1) (h2 : c.parameters.cmu = .fin cmu) (hs : c1 + cmu < 1) :
    (∃ C, c.covarianceMatrix = Mat.fin C ∧ C.PosDef) ∧ ∀ s ∈ t, ¬ s.ReportsPosDef := by
  refine c36_posDef ⟨he, hr, fun hneg => ?_, hm⟩ h h1 h2 hs
  rcases hw with hw | hw <;> rw [hw] at hneg <;> cases hneg

/-- **C37, semi-definiteness.** For every population size the covariance matrix is symmetric and
positive semi-definite after every sequence of calls. -/
theorem c37_semidefinite (hx : ExactRun env o) (h : History.Of env obj o t c) :
    ∃ C : Matrix (Fin n) (Fin n) ℝ, c.covarianceMatrix = Mat.fin C ∧ Cᵀ = C ∧
      ∀ v, 0 ≤ v ⬝ᵥ (C *ᵥ v) := by
  obtain ⟨r, hr, hg, hn⟩ := rep_inv hx h
  exact ⟨r.C, hr.cov, hg.symm, hn⟩

open WitnessReal in
/-- **C37, large populations.** The documentation says that `Weights::Positive` should prevent
`PosDefCov` entirely. That fails for large populations, for which `c1 + cmu = 1`: here all drawn
vectors are equal, and the first generation of 1024 points in two dimensions ends with a singular
covariance matrix and `PosDefCov`. -/
theorem c37_singular : ∃ (env : Env 2 XR Nat) (obj : Obj 2 XR) (o : Options 2 XR)
    (c d : CMAES 2 XR Nat) (x : TerminationData 2 XR) (C : Matrix (Fin 2) (Fin 2) ℝ),
    ExactRun env o ∧ NonzeroDraws env ∧ o.weights = .positive ∧ o.populationSize = 1024 ∧
    History.Of env obj o [] c ∧ c.next env .seq = .ok (d, some x) ∧ x.reasons = [.posDefCov] ∧
    d.covarianceMatrix = Mat.fin C ∧ ∃ v, v ≠ 0 ∧ v ⬝ᵥ (C *ᵥ v) = 0 := by
  obtain ⟨c, h0⟩ := witness_new (cenv 2) .positive (lambda := 1024) (by norm_num)
  set o : Options 2 XR := { opts with weights := .positive, populationSize := 1024 } with ho
  have hx : ExactRun (cenv 2) o := ⟨cenv_exact, (cenv_draws (by norm_num)).real,
    fun _ => cenv_draws (by norm_num), _, rfl⟩
  have h : History.Of (cenv 2) sphere o [] c := ⟨_, c, h0, .refl c⟩
  obtain ⟨s, hs, hr, hg, hle, hfe⟩ := fresh_rep h0 (m := fun i => if i = 0 then 1 else 2) rfl
  have hgood : (⟨fun i => if i = 0 then 1 else 2, s, 1, 0, 0, 1, fun _ => 1⟩ : RealState 2).Good :=
    ⟨by simp, fun _ => one_pos, by simp, hs⟩
  obtain ⟨hp, hq⟩ := params_rep h
  have hm20 : 20 ≤ (optParams o).muEff := muEff_large
  have hrate : (optParams o).c1 + (optParams o).cmu = 1 := rateSum_large hm20
  obtain ⟨d, res, hn⟩ := c26_returns h
    (witness_canStep (cenv 2) (fun l => ⟨_, rfl⟩) .positive 1024 (by
      show c.state.generation < _; rw [hg]; norm_num)) (.inl ⟨rfl, by decide⟩) .seq
  rcases next_exact hx h hr hgood hn with ⟨h1, _⟩ |
    ⟨ys, r', ok, calls, ps, inds, hu, hev, hlog, hsm, hys, hbad, _, hdraw⟩
  · exact absurd ⟨_, h1, by simp [CMAES.terminationData]⟩
      (not_failed h (fun log x => isNaN_fin _) hn)
  have hlen : ys.length = 1024 := by
    have e := congrArg List.length hys
    rw [List.length_map, List.length_map, hsm.length] at e
    exact e.symm
  have hy : ∀ y ∈ ys, y = fun _ => 1 / 1000 := by
    intro y hy
    obtain ⟨s', e⟩ := hdraw y hy
    rw [drawVec_const, Mat.mulVec_fin] at e
    have e2 := Vec.fin_injective e
    rw [e2]
    simp [RealState.transform]
  have hmu : (optParams o).mu = 512 := by
    show 1024 / 2 = 512
    norm_num
  have hsing := singular_update hq hrate (by decide) hp.cs_pos hp.cs_lt hp.muEff_pos
    (by
      have := realMuEff_le (by norm_num : 2 ≤ 1024) .positive
      have e : (optParams o).muEff = realMuEff 1024 .positive := rfl
      rw [e]
      refine this.trans ?_
      norm_num) hp.cc_pos hy (by rw [hmu, hlen]; norm_num) hp.mu_le
    (m := fun i => if i = 0 then 1 else 2) (s := s)
  have hC : quad r'.C ![1, -1] = 0 := by rw [hu.cov, hg]; exact hsing
  have hv : (![1, -1] : Fin 2 → ℝ) ≠ 0 := fun h => by
    have := congrFun h 0; simp at this
  have hdue : c.state.lastEigenUpdateEvals + evalsPerEigenUpdate c.parameters ≤
      d.sampler.functionEvals := by
    obtain ⟨_, _, _, p⟩ := params_real h
    rw [hle, hev, hfe, evalsPerEigenUpdate_fin hp (by rw [hrate]; norm_num), hrate, p.lambda]
    refine (Nat.add_le_add_left (min_le_right _ _) _).trans ?_
    rw [zero_add, zero_add, Nat.ceil_le]
    have e : o.populationSize = 1024 := rfl
    rw [e]
    norm_num
  obtain ⟨hdec, hiff, _⟩ := hu.due hdue
  have hok : ok = false := by
    cases ok with
    | false => rfl
    | true =>
      exfalso
      obtain ⟨hrep, _⟩ := hu.done rfl
      have hg' : r'.Good := ⟨hdec.orthonormal, hiff.mp rfl, hu.symm, hu.pos⟩
      have := PosDef.quad_pos (decomposed_posDef hg') hv
      have e : r'.decomposed = r'.C := hdec.eq.symm
      rw [e, hC] at this
      exact lt_irrefl _ this
  subst hok
  exact ⟨cenv 2, sphere, o, c, d, _, r'.C, hx, cenv_draws (by norm_num), rfl, rfl, h,
    by rw [hn, hbad rfl], rfl, hu.cov', _, hv, hC⟩

/-! ### C65 -/

theorem ParamsRep.has {p : Parameters XR} {q : RealParams} (h : ParamsRep n p q) : HasParams p q :=
  ⟨h.mu, h.weights, h.muEff, h.cm, h.cc, h.c1, h.cs, h.cmu, h.dampS⟩

theorem Updated.generation' {p : Parameters XR} {q : RealParams} {s s' : State n XR}
    {r r' : RealState n} {ys : List (Fin n → ℝ)} {evals : Nat} {ok : Bool} (hg : r.Good)
    (h : Updated p q s s' r r' ys evals ok) :
    ∃ r'', Rep s' r'' ∧ r''.Good ∧ Generation q s.generation ys r r'' := by
  cases ok with
  | true =>
    obtain ⟨hrep, _⟩ := h.done rfl
    by_cases hd : s.lastEigenUpdateEvals + evalsPerEigenUpdate p ≤ evals
    · obtain ⟨hdec, hiff, _⟩ := h.due hd
      exact ⟨r', hrep, ⟨hdec.orthonormal, hiff.mp rfl, h.symm, h.pos⟩,
        ⟨h.mean, h.sigma, h.pathSigma, h.pathC, h.cov, .inr hdec⟩⟩
    · obtain ⟨hB, hd', _⟩ := h.notDue hd
      exact ⟨r', hrep, ⟨by rw [hB]; exact hg.orthonormal, by rw [hd']; exact hg.pos, h.symm, h.pos⟩,
        ⟨h.mean, h.sigma, h.pathSigma, h.pathC, h.cov, .inl ⟨hB, hd'⟩⟩⟩
  | false =>
    obtain ⟨_, _, hrep⟩ := h.failed rfl
    exact ⟨_, hrep, ⟨hg.orthonormal, hg.pos, h.symm, h.pos⟩,
      ⟨h.mean, h.sigma, h.pathSigma, h.pathC, h.cov, .inl ⟨rfl, rfl⟩⟩⟩

theorem eigenvalues_fin {r : RealState n} (hr : Rep c.state r) (hg : r.Good) :
    c.eigenvalues = Vec.fin r.d := by
  funext i
  show Flt.powi (c.state.cov.sqrtEigenvalues i i) 2 = _
  rw [hr.sqrtEigenvalues]
  show Flt.powi (.fin (diagonal (fun i => Real.sqrt (r.d i)) i i) : XR) 2 = _
  rw [powi_fin, diagonal_apply_eq, Real.sq_sqrt (hg.pos i).le]
  rfl

/-- **C65.** In exact arithmetic every `next` call that does not report `InvalidFunctionValue`
performs one generation of CMA-ES as it is published: the steps of the evaluated points, ordered
from best to worst, go into the equations of `Verif.Spec.Generation`. -/
theorem c65_generation (hx : ExactRun env o) (h : History.Of env obj o t c)
    (hn : c.next env kind = .ok (d, res))
    (hf : ¬ ∃ x, res = some x ∧ .invalidFunctionValue ∈ x.reasons)
    (hl : d.sampler.obj.log = c.sampler.obj.log ++ calls) :
    ∃ (q : RealParams) (r r' : RealState n) (ys : List (Fin n → ℝ))
      (sorted : List (Vec n XR × XR)),
      HasParams c.parameters q ∧ Rep c.state r ∧ r.Good ∧ Rep d.state r' ∧ r'.Good ∧
      sorted.Perm calls ∧ sorted.length = o.populationSize ∧
      sorted.Pairwise (fun a b => ¬ Better o.mode b.2 a.2) ∧
      sorted.map (fun e => e.1) = ys.map (fun y => Vec.fin (r.mean + r.sigma • y)) ∧
      Generation q c.generation ys r r' ∧ Shows c r ∧ Shows d r' := by
  obtain ⟨r, hr, hg, _⟩ := rep_inv hx h
  obtain ⟨hp, hq⟩ := params_rep h
  rcases next_exact hx h hr hg hn with ⟨h1, _⟩ | ⟨ys, r', ok, calls', ps, inds, hu, _, hlog, hs, hys, _⟩
  · exact absurd ⟨_, h1, by simp [CMAES.terminationData]⟩ hf
  have : calls' = calls := List.append_cancel_left (hlog.symm.trans hl)
  subst this
  obtain ⟨r'', hr'', hg'', hgen⟩ := hu.generation' hg
  refine ⟨_, r, r'', ys, inds.map EvaluatedPoint.call, hp.has, hr, hg, hr'', hg'', hs.callsPerm.symm,
    by rw [List.length_map, hs.length], ?_, ?_, hgen,
    ⟨hr.mean, hr.sigma, hr.cov, eigenvalues_fin hr hg⟩,
    ⟨hr''.mean, hr''.sigma, hr''.cov, eigenvalues_fin hr'' hg''⟩⟩
  · refine List.Pairwise.map _ (R := fun a b => o.mode.key a.value ≤ o.mode.key b.value) ?_ hs.sorted
    intro a b hab hbet
    exact absurd (better_iff.mp hbet).2.2 (not_lt.mpr hab)
  · have e : (inds.map EvaluatedPoint.call).map (fun e => e.1) =
        (inds.map fun p => p.unscaledStep).map (fun y => toPoint y c.state.mean c.state.sigma) := by
      rw [List.map_map, List.map_map]
      exact List.map_congr_left fun p hp' => hs.point p (hs.mem_inds.mp hp')
    rw [e, hys, List.map_map]
    refine List.map_congr_left fun y _ => ?_
    show toPoint (Vec.fin y) c.state.mean c.state.sigma = _
    unfold toPoint
    rw [hr.mean, hr.sigma, Vec.smul_fin, Vec.add_fin]

open WitnessReal in
/-- Non-vacuity for the theorems about one generation: generation 8 of a run with negative
weights. -/
example : ∃ t c d res calls,
    ExactRun (renv 2) { opts with weights := .negative, populationSize := 6 } ∧
    History.Of (renv 2) sphere { opts with weights := .negative, populationSize := 6 } t c ∧
    c.generation = 7 ∧ c.next (renv 2) .par = .ok (d, res) ∧
    d.sampler.obj.log = c.sampler.obj.log ++ calls ∧
    ¬ ∃ x, res = some x ∧ .invalidFunctionValue ∈ x.reasons := by
  obtain ⟨t, c, d, res, calls, h1, h2, h3, h4, h5, _⟩ := witness_next .negative (lambda := 6)
    (by norm_num) (by norm_num) (k := 7) (by norm_num) .par
  exact ⟨t, c, d, res, calls, witness_exact _ _, h1, h2, h3, h4, h5⟩

/-! ### C38 -/

theorem weighted_sum_shift (m : Fin n → ℝ) (a : ℝ) :
    ∀ (w : List ℝ) (ys : List (Fin n → ℝ)), w.length ≤ ys.length →
      (List.zipWith (· • ·) w (ys.map fun y => m + a • y)).sum =
        w.sum • m + a • (List.zipWith (· • ·) w ys).sum
  | [], _, _ => by simp
  | x :: w, [], h => by simp at h
  | x :: w, y :: ys, h => by
    rw [List.map_cons, List.zipWith_cons_cons, List.zipWith_cons_cons, List.sum_cons, List.sum_cons,
      List.sum_cons, weighted_sum_shift m a w ys (by simpa using h), smul_add, smul_add, add_smul,
      smul_comm x a y]
    abel

/-- **C38.** In exact arithmetic a `next` call that does not report `InvalidFunctionValue` moves the
mean `m` to `(1 - cm) m + cm Σ w_i x_i`, where `x_1, x_2, ...` are the points at which the objective
was evaluated, from best to worst, and `w_1, ..., w_mu` the recombination weights, which are positive
and sum to one. -/
theorem c38_mean (hx : ExactRun env o) (h : History.Of env obj o t c)
    (hn : c.next env kind = .ok (d, res))
    (hf : ¬ ∃ x, res = some x ∧ .invalidFunctionValue ∈ x.reasons)
    (hl : d.sampler.obj.log = c.sampler.obj.log ++ calls) :
    ∃ (m m' : Fin n → ℝ) (cm : ℝ) (w : List ℝ) (xs : List (Fin n → ℝ))
      (sorted : List (Vec n XR × XR)),
      c.mean = Vec.fin m ∧ d.mean = Vec.fin m' ∧ o.cm = .fin cm ∧ 0 < cm ∧ cm ≤ 1 ∧
      w.length = o.populationSize / 2 ∧ c.parameters.weights.take w.length = w.map .fin ∧
      (∀ x ∈ w, 0 < x) ∧ w.sum = 1 ∧
      sorted.Perm calls ∧ sorted.Pairwise (fun a b => ¬ Better o.mode b.2 a.2) ∧
      sorted.map (fun e => e.1) = xs.map Vec.fin ∧ xs.length = o.populationSize ∧
      m' = (1 - cm) • m + cm • (List.zipWith (· • ·) w xs).sum := by
  obtain ⟨q', r, r', ys, sorted, hq', hr, _, hr', _, h1, h2, h3, h4, hgen, _⟩ :=
    c65_generation hx h hn hf hl
  obtain ⟨hp, hq⟩ := params_rep h
  obtain ⟨_, _, _, p⟩ := params_real h
  have ecm : q'.cm = (optParams o).cm := by
    have := hq'.cm.symm.trans hp.cm; injection this
  have emu : q'.mu = (optParams o).mu := hq'.mu.symm.trans hp.mu
  have ew : q'.weights = (optParams o).weights :=
    (List.map_injective_iff.mpr fun a b hab => by injection hab) (hq'.weights.symm.trans hp.weights)
  have hmu : (optParams o).mu = o.populationSize / 2 := rfl
  have hylen : ys.length = o.populationSize := by
    rw [← h2, ← List.length_map (f := fun e : Vec n XR × XR => e.1), h4, List.length_map]
  have hwlen : ((optParams o).weights.take (optParams o).mu).length = o.populationSize / 2 := by
    rw [List.length_take, min_eq_left hp.mu_le, hmu]
  refine ⟨r.mean, r'.mean, (optParams o).cm, (optParams o).weights.take (optParams o).mu,
    ys.map fun y => r.mean + r.sigma • y, sorted, hr.mean, hr'.mean, ?_, hq.cm, hq.cm_le, hwlen, ?_,
    hq.pos, hq.pos_sum, h1, h3, ?_, by rw [List.length_map, hylen], ?_⟩
  · rw [← hp.cm, p.cm]
  · rw [hwlen, hp.weights, ← List.map_take, hmu]
  · rw [h4, List.map_map]; rfl
  · rw [hgen.mean, weighted_sum_shift _ _ _ _ (by rw [hwlen, hylen]; omega), hq.pos_sum]
    unfold RealParams.mean RealParams.step
    rw [ecm, emu, ew]
    module

theorem zipWith_mem_convex {K : Set (Fin n → ℝ)} (hK : Convex ℝ K) :
    ∀ {w : List ℝ} {xs : List (Fin n → ℝ)}, w.length ≤ xs.length → (∀ x ∈ w, 0 < x) →
      (∀ x ∈ xs.take w.length, x ∈ K) → w ≠ [] →
      (w.sum)⁻¹ • (List.zipWith (· • ·) w xs).sum ∈ K
  | [], _, _, _, _, h => absurd rfl h
  | [a], [], h, _, _, _ => by simp at h
  | [a], x :: xs, _, hw, hx, _ => by
    have ha : a ≠ 0 := (hw a (by simp)).ne'
    simp only [List.sum_cons, List.sum_nil, add_zero, List.zipWith_cons_cons, List.zipWith_nil_left,
      smul_smul, inv_mul_cancel₀ ha, one_smul]
    exact hx x (by simp)
  | a :: b :: w, [], h, _, _, _ => by simp at h
  | a :: b :: w, x :: xs, h, hw, hx, _ => by
    have ih := zipWith_mem_convex hK (w := b :: w) (xs := xs) (by simpa using h)
      (fun y hy => hw y (by simp at hy ⊢; tauto))
      (fun y hy => hx y (by rw [List.length_cons, List.take_succ_cons]; exact List.mem_cons_of_mem _ hy))
      (by simp)
    have ha : 0 < a := hw a (by simp)
    have hb : 0 < (b :: w).sum := by
      refine List.sum_pos _ (fun y hy => hw y (List.mem_cons_of_mem _ hy)) (by simp)
    have hs : 0 < a + (b :: w).sum := by linarith
    have := hK (hx x (by simp)) ih (a := a / (a + (b :: w).sum))
      (b := (b :: w).sum / (a + (b :: w).sum)) (by positivity) (by positivity)
      (by rw [← add_div, div_self hs.ne'])
    rw [smul_smul, div_mul_eq_mul_div, mul_inv_cancel₀ hb.ne'] at this
    have e : (a :: b :: w).sum = a + (b :: w).sum := List.sum_cons
    rw [e, List.zipWith_cons_cons, List.sum_cons (a := a • x), smul_add, smul_smul, inv_mul_eq_div,
      inv_eq_one_div]
    exact this

/-- **C38, convex sets.** If the mean and every evaluated point lie in a convex set, the new mean
does, too. -/
theorem c38_convex (hx : ExactRun env o) (h : History.Of env obj o t c)
    (hn : c.next env kind = .ok (d, res))
    (hf : ¬ ∃ x, res = some x ∧ .invalidFunctionValue ∈ x.reasons)
    (hl : d.sampler.obj.log = c.sampler.obj.log ++ calls) {K : Set (Fin n → ℝ)} (hK : Convex ℝ K)
    (hm : ∃ m ∈ K, c.mean = Vec.fin m) (hp : ∀ e ∈ calls, ∃ x ∈ K, e.1 = Vec.fin x) :
    ∃ m ∈ K, d.mean = Vec.fin m := by
  obtain ⟨m, m', cm, w, xs, sorted, e1, e2, _, c0, c1, l1, _, w0, w1, p1, _, p3, l2, e3⟩ :=
    c38_mean hx h hn hf hl
  obtain ⟨m0, hm0, e0⟩ := hm
  rw [e1] at e0
  have := Vec.fin_injective e0
  subst this
  refine ⟨m', ?_, e2⟩
  have hxs : ∀ x ∈ xs, x ∈ K := by
    intro x hx'
    have : Vec.fin x ∈ sorted.map fun e => e.1 := by rw [p3]; exact List.mem_map.mpr ⟨x, hx', rfl⟩
    obtain ⟨e, he, hee⟩ := List.mem_map.mp this
    obtain ⟨y, hy, hye⟩ := hp e (p1.mem_iff.mp he)
    rw [Vec.fin_injective (hee.symm.trans hye)]
    exact hy
  have hw : w ≠ [] := by rintro rfl; simp at w1
  have hz := zipWith_mem_convex hK (w := w) (xs := xs) (by rw [l1, l2]; omega) w0
    (fun x hx' => hxs x (List.mem_of_mem_take hx')) hw
  rw [w1, inv_one, one_smul] at hz
  rw [e3]
  exact hK hm0 hz (by linarith) c0.le (by ring)

/-- **C38, `cm = 1`.** The new mean is in the convex hull of the `mu` best points. -/
theorem c38_hull (hx : ExactRun env o) (h : History.Of env obj o t c)
    (hn : c.next env kind = .ok (d, res))
    (hf : ¬ ∃ x, res = some x ∧ .invalidFunctionValue ∈ x.reasons)
    (hl : d.sampler.obj.log = c.sampler.obj.log ++ calls) (hcm : o.cm = 1) :
    ∃ (m' : Fin n → ℝ) (xs : List (Fin n → ℝ)) (sorted : List (Vec n XR × XR)),
      d.mean = Vec.fin m' ∧
      sorted.Perm calls ∧ sorted.Pairwise (fun a b => ¬ Better o.mode b.2 a.2) ∧
      sorted.map (fun e => e.1) = xs.map Vec.fin ∧
      m' ∈ convexHull ℝ {x | x ∈ xs.take (o.populationSize / 2)} := by
  obtain ⟨m, m', cm, w, xs, sorted, e1, e2, e4, c0, c1, l1, _, w0, w1, p1, p2, p3, l2, e3⟩ :=
    c38_mean hx h hn hf hl
  refine ⟨m', xs, sorted, e2, p1, p2, p3, ?_⟩
  have hw : w ≠ [] := by rintro rfl; simp at w1
  have hz := zipWith_mem_convex (convex_convexHull ℝ {x | x ∈ xs.take (o.populationSize / 2)})
    (w := w) (xs := xs) (by rw [l1, l2]; omega) w0
    (fun x hx' => subset_convexHull ℝ _ (by rw [l1] at hx'; exact hx')) hw
  rw [w1, inv_one, one_smul] at hz
  have : cm = 1 := by
    rw [hcm, one_eq] at e4
    injection e4 with e4
    simpa using e4.symm
  rw [e3, this]
  simpa using hz

/-! ### C39 -/

/-- **C39.** In exact arithmetic the step size is a positive real number after every sequence of
calls. -/
theorem c39_positive (hx : ExactRun env o) (h : History.Of env obj o t c) :
    ∃ s : ℝ, c.sigma = .fin s ∧ 0 < s := by
  obtain ⟨r, hr, hg, _⟩ := rep_inv hx h
  exact ⟨r.sigma, hr.sigma, hg.sigma⟩

/-- **C39, adaptation.** A `next` call that does not report `InvalidFunctionValue` multiplies the
step size by `exp (cs/damp (|p|/chi - 1))` with the new conjugate evolution path `p`; it grows if
and only if the path is longer than `chi`. -/
theorem c39_grows (hx : ExactRun env o) (h : History.Of env obj o t c)
    (hn : c.next env kind = .ok (d, res))
    (hf : ¬ ∃ x, res = some x ∧ .invalidFunctionValue ∈ x.reasons) :
    ∃ (s s' cs damp : ℝ) (p : Fin n → ℝ), c.sigma = .fin s ∧ d.sigma = .fin s' ∧
      c.parameters.cs = .fin cs ∧ c.parameters.dampS = .fin damp ∧
      d.state.pathSigma = Vec.fin p ∧
      s' = s * Real.exp (cs / damp * (len p / realChi n - 1)) ∧
      (s < s' ↔ realChi n < len p) ∧ (s' < s ↔ len p < realChi n) := by
  obtain ⟨calls, hl⟩ : ∃ calls, d.sampler.obj.log = c.sampler.obj.log ++ calls := by
    obtain ⟨sres, hsam, _⟩ := next_core hn
    obtain ⟨_, calls, _, hlog, _⟩ := sample_cases hsam
    exact ⟨calls, hlog⟩
  obtain ⟨q', r, r', ys, sorted, hq', hr, hg, hr', _, h1, h2, h3, h4, hgen, _⟩ :=
    c65_generation hx h hn hf hl
  obtain ⟨hp, hq⟩ := params_rep h
  have ecs : q'.cs = (optParams o).cs := by
    have := hq'.cs.symm.trans hp.cs; injection this
  have eda : q'.dampS = (optParams o).dampS := by
    have := hq'.dampS.symm.trans hp.dampS; injection this
  have hchi := realChi_pos hp.dim_ne
  have e : r'.sigma = r.sigma * Real.exp (q'.cs / q'.dampS * (len r'.pathSigma / realChi n - 1)) := by
    rw [hgen.sigma, hgen.pathSigma]; rfl
  have hpos : 0 < q'.cs / q'.dampS := by rw [ecs, eda]; exact div_pos hp.cs_pos hp.dampS_pos
  refine ⟨r.sigma, r'.sigma, q'.cs, q'.dampS, r'.pathSigma, hr.sigma, hr'.sigma, hq'.cs, hq'.dampS,
    hr'.pathSigma, e, ?_, ?_⟩
  · rw [e, lt_mul_iff_one_lt_right hg.sigma, Real.one_lt_exp_iff, mul_pos_iff_of_pos_left hpos,
      sub_pos, one_lt_div hchi]
  · rw [e, mul_lt_iff_lt_one_right hg.sigma, Real.exp_lt_one_iff, mul_neg_iff]
    rw [sub_neg, div_lt_one hchi]
    constructor
    · rintro (h | h)
      · exact h.2
      · linarith [h.1]
    · exact fun h => .inl ⟨hpos, h⟩

/-! ### C41 -/

theorem foldl_best {P : ℝ → ℝ → Prop} {f : XR → XR → XR} (htr : ∀ a b c, P a b → P b c → P a c)
    (hrefl : ∀ a, P a a)
    (hf : ∀ a b : ℝ, (f (.fin a) (.fin b) = .fin a ∧ P a b) ∨ (f (.fin a) (.fin b) = .fin b ∧ P b a)) :
    ∀ (l : List ℝ) (a : ℝ), ∃ m ∈ a :: l, (l.map (.fin : ℝ → XR)).foldl f (.fin a) = .fin m ∧
      ∀ y ∈ a :: l, P m y
  | [], a => ⟨a, by simp, rfl, by simpa using hrefl a⟩
  | b :: l, a => by
    rcases hf a b with ⟨h1, h2⟩ | ⟨h1, h2⟩
    · obtain ⟨m, hm, e, hall⟩ := foldl_best htr hrefl hf l a
      refine ⟨m, by simp at hm ⊢; tauto, by rw [List.map_cons, List.foldl_cons, h1, e], ?_⟩
      intro y hy
      rcases List.mem_cons.mp hy with rfl | hy
      · exact hall _ (by simp)
      · rcases List.mem_cons.mp hy with rfl | hy
        · exact htr _ _ _ (hall a (by simp)) h2
        · exact hall y (by simp [hy])
    · obtain ⟨m, hm, e, hall⟩ := foldl_best htr hrefl hf l b
      refine ⟨m, by simp at hm ⊢; tauto, by rw [List.map_cons, List.foldl_cons, h1, e], ?_⟩
      intro y hy
      rcases List.mem_cons.mp hy with rfl | hy
      · exact htr _ _ _ (hall b (by simp)) h2
      · exact hall y hy

theorem Vec.max_fin (hn : n ≠ 0) (x : Fin n → ℝ) :
    ∃ i, (Vec.fin x).max = .fin (x i) ∧ ∀ j, x j ≤ x i := by
  obtain ⟨k, rfl⟩ := Nat.exists_eq_succ_of_ne_zero hn
  have e : List.ofFn (Vec.fin x) = .fin (x 0) :: (List.ofFn fun i : Fin k => x i.succ).map .fin := by
    rw [List.ofFn_succ, List.map_ofFn]; rfl
  obtain ⟨m, hm, e2, hall⟩ := foldl_best (P := fun a b => b ≤ a)
    (f := fun a b => if Flt.le b a then a else b) (fun _ _ _ h1 h2 => h2.trans h1) (fun a => le_refl a)
    (fun a b => by
      rw [le_fin]
      rcases le_or_gt b a with h | h
      · exact .inl ⟨by simp [h], h⟩
      · exact .inr ⟨by simp [not_le.mpr h], h.le⟩) (List.ofFn fun i : Fin k => x i.succ) (x 0)
  have e3 : x 0 :: (List.ofFn fun i : Fin k => x i.succ) = List.ofFn x := by rw [List.ofFn_succ]
  rw [e3] at hm hall
  obtain ⟨i, hi⟩ := (List.mem_ofFn' _ _).mp hm
  refine ⟨i, ?_, fun j => ?_⟩
  · unfold Vec.max
    rw [e, hi]
    exact e2
  · rw [hi]; exact hall _ ((List.mem_ofFn' _ _).mpr ⟨j, rfl⟩)

theorem Vec.min_fin (hn : n ≠ 0) (x : Fin n → ℝ) :
    ∃ i, (Vec.fin x).min = .fin (x i) ∧ ∀ j, x i ≤ x j := by
  obtain ⟨k, rfl⟩ := Nat.exists_eq_succ_of_ne_zero hn
  have e : List.ofFn (Vec.fin x) = .fin (x 0) :: (List.ofFn fun i : Fin k => x i.succ).map .fin := by
    rw [List.ofFn_succ, List.map_ofFn]; rfl
  obtain ⟨m, hm, e2, hall⟩ := foldl_best (P := fun a b => a ≤ b)
    (f := fun a b => if Flt.le a b then a else b) (fun _ _ _ h1 h2 => h1.trans h2) (fun a => le_refl a)
    (fun a b => by
      rw [le_fin]
      rcases le_or_gt a b with h | h
      · exact .inl ⟨by simp [h], h⟩
      · exact .inr ⟨by simp [not_le.mpr h], h.le⟩) (List.ofFn fun i : Fin k => x i.succ) (x 0)
  have e3 : x 0 :: (List.ofFn fun i : Fin k => x i.succ) = List.ofFn x := by rw [List.ofFn_succ]
  rw [e3] at hm hall
  obtain ⟨i, hi⟩ := (List.mem_ofFn' _ _).mp hm
  refine ⟨i, ?_, fun j => ?_⟩
  · unfold Vec.min
    rw [e, hi]
    exact e2
  · rw [hi]; exact hall _ ((List.mem_ofFn' _ _).mpr ⟨j, rfl⟩)

theorem axisRatio_fin (hn : n ≠ 0) {r : RealState n} (hr : Rep c.state r) (hg : r.Good) :
    ∃ i j, (∀ l, r.d l ≤ r.d i) ∧ (∀ l, r.d j ≤ r.d l) ∧
      c.axisRatio = .fin (Real.sqrt (r.d i) / Real.sqrt (r.d j)) := by
  have e : c.state.cov.sqrtEigenvalues.diag = Vec.fin fun i => Real.sqrt (r.d i) := by
    rw [hr.sqrtEigenvalues]
    funext i
    show (.fin (diagonal (fun i => Real.sqrt (r.d i)) i i) : XR) = _
    rw [diagonal_apply_eq]; rfl
  obtain ⟨i, h1, h2⟩ := Vec.max_fin hn fun i => Real.sqrt (r.d i)
  obtain ⟨j, h3, h4⟩ := Vec.min_fin hn fun i => Real.sqrt (r.d i)
  refine ⟨i, j, fun l => (Real.sqrt_le_sqrt_iff (hg.pos i).le).mp (h2 l),
    fun l => (Real.sqrt_le_sqrt_iff (hg.pos l).le).mp (h4 l), ?_⟩
  show c.state.axisRatio = _
  unfold State.axisRatio
  rw [e, h1, h3, div_fin (Real.sqrt_pos.mpr (hg.pos j)).ne']

/-- **C41.** In exact arithmetic, with `c1 + cmu < 1`: let `k = generations_per_eigen_update()`. In
generation `g` the decomposition in use is that of the covariance matrix `C` as it was after
generation `g - g % k`: `C = B diag(e) Bᵀ` with orthonormal `B`, the eigenvalues `e` are those
returned by `eigenvalues()`, `axis_ratio()` is the square root of the ratio of the largest and the
smallest, the sampling transformation `T` satisfies `T Tᵀ = C`, and `S C S = 1` for the stored
inverse square root `S`. -/
theorem c41_schedule (hx : ExactRun env o) (h : History.Of env obj o t c) {a b : ℝ}
    (h1 : c.parameters.c1 = .fin a) (h2 : c.parameters.cmu = .fin b) (hs : a + b < 1) :
    let k := c.generationsPerEigenUpdate
    let last := c.generation - c.generation % k
    0 < k ∧ c.state.lastEigenUpdateEvals = o.populationSize * last ∧
    ∃ (t1 : List (NextCall n XR)) (c1 : CMAES n XR R) (C B T S : Matrix (Fin n) (Fin n) ℝ)
      (e : Fin n → ℝ),
      t1 <+: t ∧ History.Of env obj o t1 c1 ∧ c1.generation = last ∧
      c1.covarianceMatrix = Mat.fin C ∧ Decomposes C B e ∧ (∀ i, 0 < e i) ∧
      c.state.cov.eigenvectors = Mat.fin B ∧ c.eigenvalues = Vec.fin e ∧
      (∃ i j, (∀ l, e l ≤ e i) ∧ (∀ l, e j ≤ e l) ∧
        c.axisRatio = .fin (Real.sqrt (e i) / Real.sqrt (e j))) ∧
      c.state.cov.transform = Mat.fin T ∧ T * Tᵀ = C ∧
      c.state.cov.sqrtInv = Mat.fin S ∧ Sᵀ = S ∧ S * C * S = 1 := by
  intro k last
  obtain ⟨r, x, i⟩ := exact_inv hx (by rw [rateSum_eq h h1 h2]; exact hs) h
  obtain ⟨hp, _⟩ := params_rep h
  obtain ⟨t1, c1, s1, s2, s3, s4⟩ := i.snap
  refine ⟨generationsPerEigenUpdate_pos h, i.last, t1, c1, r.decomposed, r.B, r.transform, r.invSqrt,
    r.d, s1, s2, s3, s4, ⟨i.good.orthonormal, rfl⟩, i.good.pos, i.rep.eigenvectors,
    eigenvalues_fin i.rep i.good, axisRatio_fin hp.dim_ne i.rep i.good, i.rep.transform, ?_,
    i.rep.sqrtInv, invSqrt_symm r, ?_⟩
  · unfold RealState.transform RealState.decomposed
    rw [transpose_mul, diagonal_transpose, Matrix.mul_assoc, ← Matrix.mul_assoc (diagonal _),
      diagonal_mul_diagonal, ← Matrix.mul_assoc]
    congr 2
    congr 1
    funext i'
    exact Real.mul_self_sqrt (i.good.pos i').le
  · rw [← root_mul_root i.good, ← Matrix.mul_assoc, invSqrt_mul_root i.good, Matrix.one_mul,
      root_mul_invSqrt i.good]

/-- **C41, just after an update.** In the generations that are multiples of
`generations_per_eigen_update()` the decomposition is that of the current covariance matrix. -/
theorem c41_fresh (hx : ExactRun env o) (h : History.Of env obj o t c) {a b : ℝ}
    (h1 : c.parameters.c1 = .fin a) (h2 : c.parameters.cmu = .fin b) (hs : a + b < 1)
    (hk : c.generation % c.generationsPerEigenUpdate = 0) :
    ∃ (C B : Matrix (Fin n) (Fin n) ℝ) (e : Fin n → ℝ), c.covarianceMatrix = Mat.fin C ∧
      Decomposes C B e ∧ c.state.cov.eigenvectors = Mat.fin B ∧ c.eigenvalues = Vec.fin e := by
  obtain ⟨r, x, i⟩ := exact_inv hx (by rw [rateSum_eq h h1 h2]; exact hs) h
  exact ⟨r.C, r.B, r.d, i.rep.cov, ⟨i.good.orthonormal, (i.fresh hk).symm⟩, i.rep.eigenvectors,
    eigenvalues_fin i.rep i.good⟩

end Cmaes
