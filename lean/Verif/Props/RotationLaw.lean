import Verif.Props.Rotation
import Verif.Props.Neutral

/-!
# C78: the law of the next generation does not depend on the coordinates
-/

set_option linter.unusedSectionVars false

namespace Cmaes
open MeasureTheory ProbabilityTheory Matrix WithLp XR
variable {n : Nat} {Q : Matrix (Fin n) (Fin n) ℝ}

/-! ### Standard normal vectors may be turned -/

/-- Turning a number of vectors. -/
noncomputable def turnRows (k : Nat) (U : Matrix (Fin n) (Fin n) ℝ) (hU : Uᵀ * U = 1) :
    (Fin k → Fin n → ℝ) ≃ᵐ (Fin k → Fin n → ℝ) where
  toFun z j := U *ᵥ z j
  invFun z j := Uᵀ *ᵥ z j
  left_inv z := by
    funext j
    show Uᵀ *ᵥ (U *ᵥ z j) = _
    rw [mulVec_mulVec, hU, one_mulVec]
  right_inv z := by
    funext j
    show U *ᵥ (Uᵀ *ᵥ z j) = _
    rw [mulVec_mulVec, orth_comm hU, one_mulVec]
  measurable_toFun := by
    refine Continuous.measurable ?_
    refine continuous_pi fun j => ?_
    show Continuous fun z : Fin k → Fin n → ℝ => U *ᵥ z j
    exact Continuous.matrix_mulVec continuous_const (continuous_apply j)
  measurable_invFun := by
    refine Continuous.measurable ?_
    refine continuous_pi fun j => ?_
    show Continuous fun z : Fin k → Fin n → ℝ => Uᵀ *ᵥ z j
    exact Continuous.matrix_mulVec continuous_const (continuous_apply j)

theorem map_turn {U : Matrix (Fin n) (Fin n) ℝ} (hU : Uᵀ * U = 1) :
    (Measure.pi fun _ : Fin n => gaussianReal 0 1).map (fun z => U *ᵥ z) =
      Measure.pi fun _ : Fin n => gaussianReal 0 1 := by
  have h1 := map_affine (0 : Fin n → ℝ) U
  have h2 := map_affine (0 : Fin n → ℝ) (1 : Matrix (Fin n) (Fin n) ℝ)
  rw [orth_comm hU] at h1
  rw [transpose_one, Matrix.one_mul, ← h1] at h2
  have hm : Measurable fun z : Fin n → ℝ => U *ᵥ z :=
    (Continuous.matrix_mulVec continuous_const continuous_id).measurable
  have ht : Measurable (toLp 2 : (Fin n → ℝ) → EuclideanSpace ℝ (Fin n)) := by fun_prop
  have h3 := congrArg (fun μ => Measure.map (ofLp : EuclideanSpace ℝ (Fin n) → Fin n → ℝ) μ) h2
  have ho : Measurable (ofLp : EuclideanSpace ℝ (Fin n) → Fin n → ℝ) := by fun_prop
  simp only [zero_add, one_mulVec] at h3
  have htm : Measurable fun z : Fin n → ℝ => (toLp 2 (U *ᵥ z) : EuclideanSpace ℝ (Fin n)) :=
    ht.comp hm
  rw [Measure.map_map ho ht, Measure.map_map ho htm] at h3
  have e1 : (ofLp ∘ toLp 2 : (Fin n → ℝ) → Fin n → ℝ) = id := rfl
  have e2 : (ofLp ∘ fun z : Fin n → ℝ => (toLp 2 (U *ᵥ z) : EuclideanSpace ℝ (Fin n))) =
      fun z => U *ᵥ z := rfl
  rw [e1, Measure.map_id, e2] at h3
  exact h3.symm

/-- Standard normal vectors, turned, are standard normal: for all sets, measurable or not. -/
theorem standardNormal_turn {k : Nat} {U : Matrix (Fin n) (Fin n) ℝ} (hU : Uᵀ * U = 1)
    (E : Set (Fin k → Fin n → ℝ)) :
    standardNormal k n {z | (fun j => U *ᵥ z j) ∈ E} = standardNormal k n E := by
  have hm : Measurable fun z : Fin n → ℝ => U *ᵥ z :=
    (Continuous.matrix_mulVec continuous_const continuous_id).measurable
  have h : (standardNormal k n).map (turnRows k U hU) = standardNormal k n := by
    have : (standardNormal k n).map (fun z j => U *ᵥ z j) =
        Measure.pi fun _ => (Measure.pi fun _ : Fin n => gaussianReal 0 1).map (fun z => U *ᵥ z) := by
      unfold standardNormal
      haveI : ∀ _ : Fin k, SigmaFinite ((Measure.pi fun _ : Fin n => gaussianReal 0 1).map
          (fun z : Fin n → ℝ => U *ᵥ z)) := fun _ => by rw [map_turn hU]; infer_instance
      exact Measure.pi_map_pi fun _ => hm.aemeasurable
    rw [map_turn hU] at this
    exact this
  conv_rhs => rw [← h, MeasurableEquiv.map_apply]
  rfl

/-! ### The turned search -/

theorem stream_vector (ω : Nat → ℝ) (s k : Nat) :
    (streamRng ω).vector (n := n) ((streamRng ω).seed s) k = Vec.fin fun i => ω (k * n + i) := by
  funext i
  show (streamRng ω).draw 0 (k * n + i) = _
  rw [stream_draw, Nat.zero_add]
  rfl

theorem replaceFrom_vector {k : Nat} (ω : Nat → ℝ) (z : Fin k → Fin n → ℝ) (s : Nat) {p : Nat}
    (j : Fin k) :
    (streamRng (replaceFrom ω (p * n) z)).vector (n := n)
      ((streamRng (replaceFrom ω (p * n) z)).seed s) (p + j) = Vec.fin (z j) := by
  rw [stream_vector]
  funext l
  show Ext.fin (replaceFrom ω (p * n) z ((p + j) * n + l)) = Ext.fin _
  rw [Nat.add_mul, Nat.add_assoc]
  exact congrArg _ (replaceFrom_row ω _ z j l)

variable {env : Env n XR Nat} {obj obj' : Obj n XR} {o o' : Options n XR}
  {t : List (NextCall n XR)} {c : CMAES n XR Nat}
  {eigen : Mat n XR → Option (Mat n XR × Vec n XR)}

theorem seen_turned {c d : CMAES n XR Nat} {res res' : Option (TerminationData n XR)}
    (h : TurnedRun Q c d) (hl : d.sampler.obj.log = moveCalls (turn Q) c.sampler.obj.log)
    (hr : coordinateFree ((res'.map fun x => x.reasons).getD []) =
      coordinateFree ((res.map fun x => x.reasons).getD [])) :
    seen d res' = (seen c res).turned Q := by
  obtain ⟨C, hC, hC'⟩ := h.cov
  unfold seen Seen.turned
  simp only
  rw [hl, h.mean, h.sigma, hr, hC', hC]
  congr 1

open Classical in
/-- **C78, laws.** The law of the next generation does not depend on the choice of orthonormal
coordinates. In the setting of C88, take a run and a problem turned by `Q` as in `c78_rotation`.
There is a run on the turned problem that corresponds to the given one, such that what is seen of
the next generation (the points and values, the mean, the step size, the covariance matrix and the
coordinate-free reasons for termination after it) has the same law in both, up to turning: for every
set `E` of things that may be seen, the probability to see an element of `E` is the same. -/
theorem c78_law {ω : Nat → ℝ} (hQ : Qᵀ * Q = 1) (hx : ExactRun (env.withRng (streamRng ω)) o)
    (he : ExactSolver eigen) (ho : TurnedOptions Q o o') (hf : TurnedObjective Q obj.f obj'.f)
    (hreal : ∀ e ∈ obj.log, RealPoint e.1) (hlog : obj'.log = moveCalls (turn Q) obj.log)
    (hcon : o.constraints = none) (h : History.Of (env.withRng (streamRng ω)) obj o t c) :
    let N := o.populationSize * t.length * n
    let env' := { env with eigen := eigen }
    ∃ (ω' : Nat → ℝ) (t' : List (NextCall n XR)) (c' : CMAES n XR Nat),
      List.Forall₂ (TurnedCall Q) t t' ∧ TurnedRun Q c c' ∧
      (∀ z : Fin o.populationSize → Fin n → ℝ,
        History.Of (env.withRng (streamRng (replaceFrom ω N z))) obj o t c) ∧
      (∀ z : Fin o.populationSize → Fin n → ℝ,
        History.Of (env'.withRng (streamRng (replaceFrom ω' N z))) obj' o' t' c') ∧
      ∀ kind, (∀ᵐ z ∂standardNormal o.populationSize n,
          ∃ r, c.next (env.withRng (streamRng (replaceFrom ω N z))) kind = .ok r) →
        ∀ E : Set (Seen n),
          standardNormal o.populationSize n {z | ∃ d res,
            c.next (env.withRng (streamRng (replaceFrom ω N z))) kind = .ok (d, res) ∧
            (seen d res).turned Q ∈ E} =
          standardNormal o.populationSize n {z | ∃ d res,
            c'.next (env'.withRng (streamRng (replaceFrom ω' N z))) kind = .ok (d, res) ∧
            seen d res ∈ E} := by
  intro N env'
  have hN : N = o.populationSize * t.length * n := rfl
  obtain ⟨hrng, hz⟩ := stream_history h hcon
  have hn0 : n ≠ 0 := (params_rep h).1.dim_ne
  obtain ⟨w, c0, h0, hex⟩ := h
  have h : History.Of (env.withRng (streamRng ω)) obj o t c := ⟨w, c0, h0, hex⟩
  obtain ⟨cs, M, b1, b2, -, b4, b5⟩ := rotation_run hQ hx he ho ⟨hf, hreal, hlog⟩ h0 hex
  have hM : M t.length = o.populationSize * t.length := by
    rw [hrng] at b4
    have : o.populationSize * t.length * n = M t.length * n := by
      rw [b4]
      show (streamRng ω).after 0 _ = _
      rw [stream_after, Nat.zero_add]
    exact (Nat.eq_of_mul_eq_mul_right (Nat.pos_of_ne_zero hn0) this).symm
  -- the turned numbers
  let O := drawTurnOf Q eigen
  let call : Nat → Nat := fun k => if h : ∃ j, M j ≤ k ∧ k < M (j + 1) then h.choose else 0
  have hcall : ∀ j k, M j ≤ k → k < M (j + 1) → call k = j := by
    intro j k h1 h2
    have h : ∃ j, M j ≤ k ∧ k < M (j + 1) := ⟨j, h1, h2⟩
    show (if h : ∃ j, M j ≤ k ∧ k < M (j + 1) then h.choose else 0) = j
    rw [dif_pos h]
    obtain ⟨e1, e2⟩ := h.choose_spec
    rcases lt_trichotomy h.choose j with hlt | heq | hgt
    · have := b2 (Nat.succ_le_of_lt hlt)
      simp only [Nat.succ_eq_add_one] at this
      omega
    · exact heq
    · have := b2 (Nat.succ_le_of_lt hgt)
      simp only [Nat.succ_eq_add_one] at this
      omega
  let ω' : Nat → ℝ := fun m => (O (cs (call (m / n))).state *ᵥ fun i => ω (m / n * n + i))
    ⟨m % n, Nat.mod_lt _ (Nat.pos_of_ne_zero hn0)⟩
  have hω' : ∀ k (i : Fin n), ω' (k * n + i) =
      (O (cs (call k)).state *ᵥ fun i => ω (k * n + i)) i := by
    intro k i
    have h1 : (k * n + (i : Nat)) % n = i := by
      rw [Nat.mul_comm, Nat.mul_add_mod, Nat.mod_eq_of_lt i.isLt]
    have h2 : (k * n + (i : Nat)) / n = k := by
      rw [Nat.mul_comm, Nat.mul_add_div (Nat.pos_of_ne_zero hn0), Nat.div_eq_of_lt i.isLt,
        Nat.add_zero]
    show (O (cs (call ((k * n + (i : Nat)) / n))).state *ᵥ
      fun l => ω ((k * n + (i : Nat)) / n * n + l)) _ = _
    simp only [h2, h1]
  obtain ⟨t', c0', c', e1, e2, e3, e4, e5⟩ := b5 (env'.withRng (streamRng ω')) rfl
    ⟨rfl, rfl, rfl, rfl, rfl⟩ fun j _ k h1 h2 z hzk => by
      have hzk : (streamRng ω).vector ((streamRng ω).seed c.parameters.seed) k = Vec.fin z := hzk
      rw [stream_vector] at hzk
      have := Vec.fin_injective hzk
      show (streamRng ω').vector ((streamRng ω').seed c.parameters.seed) k = _
      rw [stream_vector, ← this]
      congr 1
      funext i
      rw [hω', hcall j k h1 h2]
  have h' : History.Of (env'.withRng (streamRng ω')) obj' o' t' c' := ⟨w, c0', e1, e2⟩
  have hcon' : o'.constraints = none := by
    have := ho.constraints
    rw [hcon] at this
    cases h1 : o'.constraints with
    | none => rfl
    | some k => rw [h1] at this; cases this
  have hpop : o'.populationSize = o.populationSize := by rw [ho.rest]
  have hz' : ∀ z : Fin o.populationSize → Fin n → ℝ,
      History.Of (env'.withRng (streamRng (replaceFrom ω' N z))) obj' o' t' c' := by
    have key : ∀ m, o'.populationSize = m → ∀ z : Fin m → Fin n → ℝ,
        History.Of (env'.withRng (streamRng (replaceFrom ω' (m * t'.length * n) z))) obj' o' t' c' := by
      rintro _ rfl
      exact (stream_history h' hcon').2
    have := key _ hpop
    rwa [← e3.length_eq] at this
  refine ⟨ω', t', c', e3, e4.turnedRun hQ hn0, hz, hz', fun kind hret E => ?_⟩
  have hU := drawTurnOf_orth Q eigen c.state
  rw [← standardNormal_turn hU {z | ∃ d res,
    c'.next (env'.withRng (streamRng (replaceFrom ω' N z))) kind = .ok (d, res) ∧ seen d res ∈ E}]
  apply measure_congr
  filter_upwards [exact_ae N hx o.populationSize, hret] with z hxz hr
  obtain ⟨⟨d, res⟩, hn⟩ := hr
  -- the next call of the turned search
  have hk : c.sampler.rng = (streamRng (replaceFrom ω N z)).after
      ((streamRng (replaceFrom ω N z)).seed 0) (o.populationSize * t.length * n) := by
    rw [hrng]
    show _ = (streamRng _).after 0 _
    rw [stream_after, Nat.zero_add]
  obtain ⟨k', -, g2, g3⟩ := next_turn (Q := Q) hQ hxz (hz z) hk hn
  have hk' : k' = o.populationSize * t.length + o.populationSize := by
    obtain ⟨calls, hl⟩ := next_log hn
    have := (stream_history ((hz z).next hn hl) hcon).1
    rw [g2] at this
    have g2 : k' * n = o.populationSize * (t.length + 1) * n := by
      rw [List.length_append, List.length_singleton] at this
      rw [← this]
      show _ = (streamRng _).after 0 _
      rw [stream_after, Nat.zero_add]
    have := Nat.eq_of_mul_eq_mul_right (Nat.pos_of_ne_zero hn0) g2
    rw [this, Nat.mul_add, Nat.mul_one]
  have hrng' : c'.sampler.rng = (streamRng (replaceFrom ω' N fun j => O c.state *ᵥ z j)).after
      ((streamRng (replaceFrom ω' N fun j => O c.state *ᵥ z j)).seed 0)
        (o.populationSize * t.length * n) := by
    rw [e5, hM]
    show (streamRng _).after 0 _ = (streamRng _).after 0 _
    rw [stream_after, stream_after]
  obtain ⟨d', res', f1, f2, -, f4⟩ := g3
    (env'.withRng (streamRng (replaceFrom ω' N fun j => O c.state *ᵥ z j)))
    ((streamRng (replaceFrom ω' N fun j => O c.state *ᵥ z j)).seed 0) c' he
    ⟨rfl, rfl, rfl, rfl, rfl⟩ e4 hrng' fun j h1 h2 u hu => by
      have hj : j - o.populationSize * t.length < o.populationSize := by omega
      obtain ⟨i, rfl⟩ : ∃ i : Fin o.populationSize, j = o.populationSize * t.length + i :=
        ⟨⟨j - o.populationSize * t.length, hj⟩, by show _ = _ + (j - _); omega⟩
      have hu : (streamRng (replaceFrom ω N z)).vector ((streamRng (replaceFrom ω N z)).seed 0) _ =
        Vec.fin u := hu
      rw [replaceFrom_vector] at hu
      show (streamRng _).vector _ _ = _
      rw [replaceFrom_vector, ← Vec.fin_injective hu]
      rfl
  have hs := seen_turned (f2.turnedRun hQ hn0) f2.sampler.obj.log f4
  show (∃ d res, _) = (∃ d res, _)
  refine propext ⟨?_, ?_⟩
  · rintro ⟨d1, res1, h1, h2⟩
    rw [hn] at h1
    injection h1 with h1
    injection h1 with h1 h3
    subst h1 h3
    exact ⟨d', res', f1, hs ▸ h2⟩
  · rintro ⟨d1, res1, h1, h2⟩
    rw [f1] at h1
    injection h1 with h1
    injection h1 with h1 h3
    subst h1 h3
    exact ⟨d, res, hn, hs ▸ h2⟩

open WitnessReal in
/-- Non-vacuity: a thousand generations on an ellipsoid, which a rotation by an angle that is not a
multiple of 90 degrees turns into another function. The next generation can be completed whatever the
random numbers are. -/
example : ∃ (t : List (NextCall 2 XR)) (c : CMAES 2 XR Nat) (o' : Options 2 XR),
    History.Of ((renv 2).withRng (streamRng fun k => k + 1)) ellipsoid
      { opts with mode := .maximize, weights := .negative, populationSize := 6 } t c ∧
    ExactRun ((renv 2).withRng (streamRng fun k => k + 1))
      { opts with mode := .maximize, weights := .negative, populationSize := 6 } ∧
    t.length = 1000 ∧ rotationᵀ * rotation = 1 ∧ ExactSolver (renv 2).eigen ∧
    TurnedOptions rotation { opts with mode := .maximize, weights := .negative, populationSize := 6 } o' ∧
    TurnedObjective rotation ellipsoid.f turnedEllipsoid.f ∧
    turnedEllipsoid.log = moveCalls (turn rotation) ellipsoid.log ∧
    ∀ (z : Fin 6 → Fin 2 → ℝ) kind, ∃ r, c.next ((renv 2).withRng
      (streamRng (replaceFrom (fun k => k + 1) (6 * t.length * 2) z))) kind = .ok r := by
  have hv : ∀ log x, Flt.isNaN (ellipsoid.f log x) = false := fun _ _ => isNaN_fin _
  obtain ⟨t, c, d, res, _, h, hg, ht, hn, _⟩ := stream_runs hv .maximize .negative (lambda := 6)
    (by norm_num) (by norm_num) .seq 1000 (by norm_num)
  refine ⟨t, c, { opts with
      mode := .maximize
      weights := .negative
      populationSize := 6
      initialMean := turn rotation opts.initialMean }, h, stream_exact' _ _ _, ht, rotation_orth,
    fun C hC => renv_exact C hC, ⟨rfl, by show Option.Rel _ none none; exact .none⟩,
    turnedObjective rotation_orth _, rfl, fun z kind => ?_⟩
  obtain ⟨d, res, hr⟩ := c26_returns ((stream_history h rfl).2 z)
    ⟨fun k hk => by simp [opts, Options.new] at hk, by rw [hg]; norm_num,
      fun k hk => by simp [opts, Options.new] at hk, fun k hk => by simp [opts, Options.new] at hk,
      .inl fun l => ⟨_, rfl⟩⟩ (.inl ⟨rfl, show 2 ≤ (renv 2).resampleFuel by decide⟩) kind
  exact ⟨_, hr⟩

end Cmaes
