import Verif.Props.Exact
import Verif.Props.Sampling
import Verif.Props.Build
import Verif.Props.NoPanic

/-!
# C86: the mean stays where the points are

In exact arithmetic. Also a bound on how fast the step size can shrink (C39).
-/

set_option linter.unusedSectionVars false

namespace Cmaes
open Matrix
variable {n : Nat} {R : Type} {env : Env n XR R} {obj : Obj n XR} {o : Options n XR}
  {t : List (NextCall n XR)} {c d : CMAES n XR R} {kind : EvalKind}
  {res : Option (TerminationData n XR)} {calls : List (Vec n XR × XR)}

/-- The calls of the objective in a completed generation are at points with real coordinates. -/
theorem calls_real (hx : ExactRun env o) (h : History.Of env obj o t c)
    (hn : c.next env kind = .ok (d, res))
    (hf : ¬ ∃ x, res = some x ∧ .invalidFunctionValue ∈ x.reasons)
    (hl : d.sampler.obj.log = c.sampler.obj.log ++ calls) :
    ∀ e ∈ calls, ∃ x, e.1 = Vec.fin x := by
  obtain ⟨m, m', cm, w, xs, sorted, _, _, _, _, _, _, _, _, _, p1, _, p3, _⟩ :=
    c38_mean hx h hn hf hl
  intro e he
  have : e.1 ∈ sorted.map fun e => e.1 := List.mem_map.mpr ⟨e, p1.mem_iff.mpr he, rfl⟩
  rw [p3] at this
  obtain ⟨x, _, hx⟩ := List.mem_map.mp this
  exact ⟨x, hx.symm⟩

/-- **C86, the hull.** Every convex set that contains the initial mean and the points evaluated in
completed generations contains the current mean. -/
theorem c86_hull (hx : ExactRun env o) (h : History.Of env obj o t c) {K : Set (Fin n → ℝ)}
    (hK : Convex ℝ K) (h0 : ∃ m ∈ K, o.initialMean = Vec.fin m)
    (hp : ∀ e ∈ completedCalls t, ∀ x, e.1 = Vec.fin x → x ∈ K) :
    ∃ m ∈ K, c.mean = Vec.fin m := by
  obtain ⟨w, c0, hnew, he⟩ := h
  induction he with
  | refl =>
    obtain ⟨m, hm, e⟩ := h0
    refine ⟨m, hm, ?_⟩
    rw [← e]
    exact (c31_fresh hnew).2.2.1
  | quiet _ hq ha ih =>
    obtain ⟨e, _⟩ := quiet_sameSearch hq ha
    unfold CMAES.mean
    rw [e.state]
    exact ih hp
  | @next c1 c2 t kind calls res he hn hl ih =>
    have hprev : History.Of env obj o t c1 := ⟨w, c0, hnew, he⟩
    have hm := ih fun e he => hp e (by
      unfold completedCalls at he ⊢
      rw [List.filter_append, List.flatMap_append]
      exact List.mem_append_left _ he)
    by_cases hf : ∃ x, res = some x ∧ .invalidFunctionValue ∈ x.reasons
    · have := ((c11_nan hn hl).2 ((c11_nan hn hl).1.mp hf)).2.1
      rw [this]
      exact hm
    · refine c38_convex hx hprev hn hf hl hK hm fun e he => ?_
      obtain ⟨x, hx⟩ := calls_real hx hprev hn hf hl e he
      refine ⟨x, hp e ?_ x hx, hx⟩
      unfold completedCalls
      rw [List.filter_append, List.flatMap_append]
      refine List.mem_append_right _ (List.mem_flatMap.mpr ⟨{ kind, calls, result := res }, ?_, he⟩)
      simp only [List.mem_filter, List.mem_singleton, decide_eq_true_eq, true_and]
      exact hf

/-- Completed calls are calls. -/
theorem completedCalls_subset {e : Vec n XR × XR} (h : e ∈ completedCalls t) : e ∈ allCalls t := by
  obtain ⟨s, hs, he⟩ := List.mem_flatMap.mp h
  exact List.mem_flatMap.mpr ⟨s, (List.mem_filter.mp hs).1, he⟩

/-- **C86.** If the constraints describe a convex set, `max_resamples` is not set and the initial
mean meets the constraints, the mean meets them after every sequence of calls. -/
theorem c86_feasible (hx : ExactRun env o) (h : History.Of env obj o t c) {k : Constraint XR}
    (hk : o.constraints = some k) (hm : o.maxResamples = none)
    (hK : Convex ℝ {x : Fin n → ℝ | k (List.ofFn (Vec.fin x)) = .ok true})
    (h0 : k (List.ofFn o.initialMean) = .ok true) : k (List.ofFn c.mean) = .ok true := by
  obtain ⟨m0, e0⟩ := hx.mean
  obtain ⟨m, hm, e⟩ := c86_hull hx h hK ⟨m0, by rw [e0] at h0; exact h0, e0⟩ fun e he x hex => by
    have := c07_unlimited h hk hm e (completedCalls_subset he)
    rw [hex] at this
    exact this
  rw [e]
  exact hm

/-- A box is convex. -/
theorem box_convex (b : Bounds XR) :
    Convex ℝ {x : Fin n → ℝ | b.meets (List.ofFn (Vec.fin x)) = .ok true} := by
  intro x hx y hy p q hp hq hpq
  have hx := (c09_accepts_iff _ _).mp hx
  have hy := (c09_accepts_iff _ _).mp hy
  refine (c09_accepts_iff _ _).mpr fun i hi => ?_
  simp only [List.length_ofFn] at hi hx hy
  obtain ⟨lo, hi', v, e1, e2, e3, e4, e5⟩ := hx i hi
  obtain ⟨lo2, hi2, v2, f1, f2, f3, f4, f5⟩ := hy i hi
  rw [e1] at f1
  rw [e2] at f2
  obtain rfl := Option.some.inj f1
  obtain rfl := Option.some.inj f2
  simp only [List.getElem?_ofFn, hi, dif_pos, Option.some.injEq] at e3 f3
  subst e3 f3
  refine ⟨lo, hi', .fin (p * x ⟨i, hi⟩ + q * y ⟨i, hi⟩), e1, e2, ?_, ?_, ?_⟩
  · simp only [List.getElem?_ofFn, hi, dif_pos, Option.some.injEq]
    rfl
  · cases lo with
    | nan => cases e4
    | pinf => cases e4
    | ninf => rfl
    | fin l =>
      change Flt.le (.fin l : XR) (.fin (x ⟨i, hi⟩)) = true at e4
      change Flt.le (.fin l : XR) (.fin (y ⟨i, hi⟩)) = true at f4
      rw [XR.le_fin, decide_eq_true_eq] at e4 f4 ⊢
      calc l = p * l + q * l := by rw [← add_mul, hpq, one_mul]
        _ ≤ _ := add_le_add (mul_le_mul_of_nonneg_left e4 hp) (mul_le_mul_of_nonneg_left f4 hq)
  · cases hi' with
    | nan => cases e5
    | ninf => cases e5
    | pinf => rfl
    | fin l =>
      change Flt.le (.fin (x ⟨i, hi⟩) : XR) (.fin l) = true at e5
      change Flt.le (.fin (y ⟨i, hi⟩) : XR) (.fin l) = true at f5
      rw [XR.le_fin, decide_eq_true_eq] at e5 f5 ⊢
      calc _ ≤ p * l + q * l :=
            add_le_add (mul_le_mul_of_nonneg_left e5 hp) (mul_le_mul_of_nonneg_left f5 hq)
        _ = l := by rw [← add_mul, hpq, one_mul]

/-- **C86, bounds.** With `Bounds` as constraints, without `max_resamples`, and an initial mean
within the bounds the mean is within the bounds after every sequence of calls. -/
theorem c86_bounds (hx : ExactRun env o) (h : History.Of env obj o t c) {b : Bounds XR}
    (hk : o.constraints = some b.meets) (hm : o.maxResamples = none)
    (h0 : ∀ i < n, b.Inside (List.ofFn o.initialMean) i) :
    ∀ i < n, b.Inside (List.ofFn c.mean) i := by
  have h0' : b.meets (List.ofFn o.initialMean) = .ok true :=
    (c09_accepts_iff _ _).mpr fun i hi => h0 i (by simpa using hi)
  have := (c09_accepts_iff _ _).mp (c86_feasible hx h hk hm (box_convex b) h0')
  intro i hi
  exact this i (by simpa using hi)

/-- **C39, lower bound.** A generation shrinks the step size at most by the factor
`exp (-cs/damp_s)`: after `g` calls of `next` that did not report `InvalidFunctionValue` it is at
least `exp (-cs/damp_s)^g` times the initial one. -/
theorem c39_lower (hx : ExactRun env o) (h : History.Of env obj o t c) :
    ∃ s0 s cs damp : ℝ, o.initialStepSize = .fin s0 ∧ 0 < s0 ∧ c.sigma = .fin s ∧
      c.parameters.cs = .fin cs ∧ c.parameters.dampS = .fin damp ∧
      s0 * Real.exp (-(cs / damp)) ^ (t.filter fun s => ¬ s.Failed).length ≤ s := by
  obtain ⟨hp, _⟩ := params_rep h
  have key : ∀ {t : List (NextCall n XR)} {c : CMAES n XR R}, History.Of env obj o t c →
      ∃ s0 s : ℝ, o.initialStepSize = .fin s0 ∧ 0 < s0 ∧ c.sigma = .fin s ∧
        s0 * Real.exp (-((optParams o).cs / (optParams o).dampS)) ^
          (t.filter fun s => ¬ s.Failed).length ≤ s := by
    rintro t c ⟨w, c0, hnew, he⟩
    induction he with
    | refl =>
      obtain ⟨s, e, hs⟩ := c39_positive hx ⟨w, c0, hnew, .refl c0⟩
      exact ⟨s, s, by rw [← (c31_fresh hnew).2.2.2.1, e], hs, e, by simp⟩
    | quiet _ hq ha ih =>
      obtain ⟨e, _⟩ := quiet_sameSearch hq ha
      unfold CMAES.sigma
      rw [e.state]
      exact ih
    | @next c1 c2 t kind calls res he hn hl ih =>
      have hprev : History.Of env obj o t c1 := ⟨w, c0, hnew, he⟩
      obtain ⟨s0, s, e0, h0, es, hs⟩ := ih
      by_cases hf : ∃ x, res = some x ∧ .invalidFunctionValue ∈ x.reasons
      · have e2 := ((c11_nan hn hl).2 ((c11_nan hn hl).1.mp hf)).2.2.1
        refine ⟨s0, s, e0, h0, by rw [e2, es], ?_⟩
        have hF : (NextCall.Failed { kind, calls, result := res }) := hf
        simpa [List.filter_append, hF] using hs
      · obtain ⟨s1, s2, cs, damp, p, e1, e2, e3, e4, _, e5, _⟩ := c39_grows hx hprev hn hf
        obtain ⟨hp1, _⟩ := params_rep hprev
        have : cs = (optParams o).cs := by have := e3.symm.trans hp1.cs; injection this
        subst this
        have : damp = (optParams o).dampS := by have := e4.symm.trans hp1.dampS; injection this
        subst this
        have : s1 = s := by have := e1.symm.trans es; injection this
        subst this
        refine ⟨s0, s2, e0, h0, e2, ?_⟩
        have hF : ¬ (NextCall.Failed { kind, calls, result := res }) := hf
        have hlen : ((t ++ [({ kind, calls, result := res } : NextCall n XR)]).filter
            fun s => ¬ s.Failed).length =
            (t.filter fun s => ¬ s.Failed).length + 1 := by
          simp [List.filter_append, hF]
        rw [hlen, pow_succ, ← mul_assoc, e5]
        have hs1 : 0 ≤ s1 := le_trans (by positivity) hs
        refine mul_le_mul hs (Real.exp_le_exp.mpr ?_) (Real.exp_pos _).le hs1
        have hk : 0 < (optParams o).cs / (optParams o).dampS := div_pos hp.cs_pos hp.dampS_pos
        have hc : 0 ≤ len p / realChi n :=
          div_nonneg (Real.sqrt_nonneg _) (realChi_pos hp.dim_ne).le
        nlinarith
  obtain ⟨s0, s, e0, h0, es, hs⟩ := key h
  exact ⟨s0, s, _, _, e0, h0, es, hp.cs, hp.dampS, hs⟩

/-! ### The hypotheses are met -/

section
variable {F : Type} [Flt F]

theorem filterOk_all {ok : Vec n F → Outcome Bool} {ys : List (Vec n F)}
    (h : ∀ y ∈ ys, ok y = .ok true) : filterOk ok ys = .ok ys := by
  induction ys with
  | nil => rfl
  | cons y ys ih =>
    simp only [filterOk, h y (by simp), ih fun z hz => h z (by simp [hz]), Outcome.ok_bind]
    rfl

/-- If all points of the first round are accepted, sampling ends with them. -/
theorem resample_first {rng : RngOps R F} {T : Mat n F} {mean : Vec n F} {sigma : F}
    {k : Constraint F} {m fuel : Nat} {r : R}
    (h : ∀ j < m, k (List.ofFn (toPoint (T.mulVec (rng.vector r j)) mean sigma)) = .ok true) :
    ∃ x, resample rng T mean sigma (some k) none m (fuel + 2) 0 [] r = .ok x := by
  unfold resample
  by_cases hm : m = 0
  · subst hm; exact ⟨_, rfl⟩
  simp only [List.length_nil, Nat.not_lt_zero, if_false, Nat.sub_zero, hm]
  have hd := drawVecs_stream (n := n) rng r m 0
  rw [Nat.zero_mul] at hd
  change drawVecs rng m r = _ at hd
  simp only [sampleRound, hd]
  rw [filterOk_all]
  · simp only [Outcome.ok_bind, List.nil_append]
    unfold resample
    simp
  · intro y hy
    obtain ⟨z, hz, rfl⟩ := List.mem_map.mp hy
    obtain ⟨j, hj, rfl⟩ := List.mem_map.mp hz
    refine h j ?_
    have := List.mem_range'_1.mp hj
    omega

end

namespace WitnessReal
open XR

theorem draw_eq (r k : Nat) : rng.draw r k = .fin (r + k + 1) :=
  ((drawNormals_stream rng (k + 1) r).2 k (by omega)).symm.trans
    (drawNormals_getD (k + 1) r k (by omega))

/-- The square from (0, 0) to (100, 100). -/
noncomputable def box : Bounds XR := ⟨[.fin 0, .fin 0], [.fin 100, .fin 100]⟩

/-- Options with these bounds. -/
noncomputable def boxOpts : Options 2 XR := 
  { opts with constraints := some box.meets, maxResamples := none }

theorem box_meets {x : Fin 2 → ℝ} (h : ∀ i, 0 ≤ x i ∧ x i ≤ 100) :
    box.meets (List.ofFn (Vec.fin x)) = .ok true := by
  refine (c09_accepts_iff _ _).mpr fun i hi => ?_
  simp only [List.length_ofFn] at hi
  refine ⟨.fin 0, .fin 100, .fin (x ⟨i, hi⟩), ?_, ?_, ?_, ?_, ?_⟩
  · interval_cases i <;> rfl
  · interval_cases i <;> rfl
  · simp only [List.getElem?_ofFn, hi, dif_pos]; rfl
  · rw [le_fin]; simpa using (h ⟨i, hi⟩).1
  · rw [le_fin]; simpa using (h ⟨i, hi⟩).2

theorem boxOpts_exact : ExactRun (renv 2) boxOpts :=
  ⟨renv_exact, (renv_draws (by norm_num)).real, fun _ => renv_draws (by norm_num), _, rfl⟩

theorem boxOpts_builds : ∃ c, CMAES.new (renv 2) World.init sphere boxOpts = .ok c := by
  refine (c30_valid_iff (renv 2) World.init sphere boxOpts).mpr ?_
  refine ⟨by norm_num, by decide, ⟨?_, ?_⟩, ?_, ?_, ?_⟩
  · show Flt.isNormal (.fin 1 : XR) = true
    rw [isNormal_fin]; simp
  · show Flt.lt 0 (.fin 1 : XR) = true
    rw [zero_eq, lt_fin]; simp
  · show Flt.isNormal (1 : XR) = true
    rw [one_eq, isNormal_fin]; simp
  · show Flt.lt 0 (1 : XR) = true
    rw [zero_eq, one_eq, lt_fin]; simp
  · show Flt.le 1 (1 : XR) = true
    rw [one_eq, le_fin]; simp

/-- A generation within these bounds. -/
theorem boxOpts_next : ∃ s c, History.Of (renv 2) sphere boxOpts [s] c ∧ ¬ s.Failed := by
  obtain ⟨c, hnew⟩ := boxOpts_builds
  have h : History.Of (renv 2) sphere boxOpts [] c := ⟨_, c, hnew, .refl c⟩
  have hcan : CanStep (renv 2) sphere boxOpts c := by
    refine ⟨?_, ?_, fun k hk => by simp [boxOpts, opts, Options.new] at hk,
      fun k hk => by simp [boxOpts, opts, Options.new] at hk, .inl fun l => ⟨_, rfl⟩⟩
    · intro k hk x
      obtain rfl : box.meets = k := Option.some.inj hk
      rw [List.ofFn_succ, List.ofFn_succ, List.ofFn_zero]
      show ∃ b, (if Flt.le (.fin 0) (x 0) = true then
        (if Flt.le (x 0) (.fin 100) = true then
          (if Flt.le (.fin 0) (x 1) = true then
            (if Flt.le (x 1) (.fin 100) = true then Outcome.ok true else .ok false) else .ok false)
          else .ok false) else .ok false) = .ok b
      split_ifs <;> exact ⟨_, rfl⟩
    · rw [(c31_fresh hnew).1]; norm_num
  rcases c26_next h hcan .seq with ⟨d, res, hn⟩ | ⟨_, hd⟩
  · obtain ⟨calls, hl⟩ := next_log hn
    have h1 : History.Of (renv 2) sphere boxOpts [{ kind := .seq, calls, result := res }] d :=
      ⟨_, c, hnew, .next (.refl c) hn hl⟩
    refine ⟨_, d, h1, fun hf => ?_⟩
    obtain ⟨e, he, hnan⟩ := (c11_nan hn hl).1.mp hf
    obtain ⟨gs, i, _⟩ := fresh_inv h1
    have := i.faithful.values (P := fun v => Flt.isNaN v = false) (fun _ _ => rfl) e
      (by simpa [allCalls] using he)
    rw [hnan] at this
    cases this
  · exfalso
    obtain ⟨_, rfl⟩ := new_eq_ok hnew
    obtain ⟨a1, a2, a3, _⟩ := create_search (renv 2) World.init sphere boxOpts
    obtain ⟨x, hx⟩ := resample_first (rng := rng) (T := (Mat.one : Mat 2 XR))
      (mean := boxOpts.initialMean) (sigma := .fin 1) (k := box.meets) (m := 6) (fuel := 18) (r := 0)
      (by
        intro j hj
        have e : (rng.vector 0 j : Vec 2 XR) = Vec.fin fun i => (j * 2 + i + 1 : ℝ) := by
          funext i
          unfold RngOps.vector
          rw [draw_eq]
          show (_ : XR) = .fin _
          congr 1
          push_cast
          ring
        rw [e, Mat.one_fin, Mat.mulVec_fin]
        have em : boxOpts.initialMean = Vec.fin fun i => if i = 0 then 1 else 2 := rfl
        unfold toPoint
        rw [em, Vec.smul_fin, Vec.add_fin]
        refine box_meets fun i => ?_
        have hj' : (j : ℝ) ≤ 5 := by exact_mod_cast (by omega : j ≤ 5)
        have hj0 : (0 : ℝ) ≤ j := by positivity
        have hi : ((i : ℕ) : ℝ) ≤ 1 := by exact_mod_cast (by omega : (i : ℕ) ≤ 1)
        have hi0 : (0 : ℝ) ≤ ((i : ℕ) : ℝ) := by positivity
        simp only [Matrix.one_mulVec, Pi.add_apply, Pi.smul_apply, smul_eq_mul]
        split_ifs <;> constructor <;> nlinarith)
    unfold drawnSteps at hd
    rw [a1, a3] at hd
    have e2 : boxOpts.initialStepSize = .fin 1 := rfl
    have e3 : (CovMat.new (n := 2) (F := XR)).transform = Mat.one := rfl
    have e4 : boxOpts.constraints = some box.meets := rfl
    have e5 : boxOpts.maxResamples = none := rfl
    have e6 : boxOpts.populationSize = 6 := rfl
    have e7 : (renv 2).rng.seed (boxOpts.seed.getD (renv 2).randomSeed) = 0 := rfl
    have e8 : (renv 2).rng = rng := rfl
    have e9 : (renv 2).resampleFuel = 18 + 2 := rfl
    simp only [Sampler.new, State.new, e2, e3, e4, e5, e6, e7, e9] at hd
    rw [e8, hx] at hd
    cases hd

/-- The hypotheses of `c86_bounds`, `c86_feasible`, `c86_hull` and `c39_lower`. -/
example : ∃ s c, ¬ NextCall.Failed s ∧ History.Of (renv 2) sphere boxOpts [s] c ∧
    ExactRun (renv 2) boxOpts ∧ ∀ i < 2, box.Inside (List.ofFn c.mean) i := by
  obtain ⟨s, c, h, hf⟩ := boxOpts_next
  refine ⟨s, c, hf, h, boxOpts_exact, c86_bounds boxOpts_exact h rfl rfl fun i hi => ?_⟩
  have : box.meets (List.ofFn boxOpts.initialMean) = .ok true := by
    have em : boxOpts.initialMean = Vec.fin fun i => if i = 0 then 1 else 2 := rfl
    rw [em]
    exact box_meets fun i => by split_ifs <;> norm_num
  exact (c09_accepts_iff _ _).mp this i (by simpa using hi)

end WitnessReal

end Cmaes
