import Verif.Props.Slope
import Verif.Props.Conditional

/-!
# C106: no part of the space is out of reach
-/

set_option linter.unusedSectionVars false

namespace Cmaes
open MeasureTheory ProbabilityTheory Matrix WithLp XR
variable {n : Nat} {env : Env n XR Nat} {obj : Obj n XR} {o : Options n XR}
  {t : List (NextCall n XR)} {c : CMAES n XR Nat}

/-- The matrix that turns normal numbers into steps is invertible. -/
theorem transform_det {r : RealState n} (hg : r.Good) : IsUnit (r.sigma • r.transform).det := by
  have h1 : 0 < r.decomposed.det := (decomposed_posDef hg).det_pos
  rw [← transform_mul_transpose hg, det_mul, det_transpose] at h1
  rw [det_smul]
  refine (isUnit_iff_ne_zero.mpr ?_)
  have h2 : r.transform.det ≠ 0 := fun h0 => by rw [h0] at h1; simp at h1
  exact mul_ne_zero (pow_ne_zero _ hg.sigma.ne') h2

theorem point_continuous (r : RealState n) (k : Nat) (j : Fin k) :
    Continuous fun z : Fin k → Fin n → ℝ => r.mean + (r.sigma • r.transform) *ᵥ z j := by
  have : Continuous fun z : Fin k → Fin n → ℝ => z j := continuous_apply j
  exact continuous_const.add (Continuous.matrix_mulVec continuous_const this)

theorem point_inj {r : RealState n} (hg : r.Good) {x y : Fin n → ℝ}
    (h : r.mean + (r.sigma • r.transform) *ᵥ x = r.mean + (r.sigma • r.transform) *ᵥ y) : x = y := by
  have := add_left_cancel h
  exact Matrix.mulVec_injective_of_isUnit ((Matrix.isUnit_iff_isUnit_det _).mpr (transform_det hg)) this

/-- A single vector of normal numbers. -/
theorem point_ne {k : Nat} (hn : n ≠ 0) (j : Fin k) (y : Fin n → ℝ) :
    ∀ᵐ z ∂standardNormal k n, z j ≠ y := by
  have h1 : ∀ᵐ x ∂gaussianReal 0 1, x ≠ y ⟨0, Nat.pos_of_ne_zero hn⟩ :=
    (gaussianReal_absolutelyContinuous 0 one_ne_zero).ae_le (Measure.ae_ne _ _)
  have h2 : ∀ᵐ x ∂(Measure.pi fun _ : Fin n => gaussianReal 0 1), x ≠ y := by
    filter_upwards [(Measure.quasiMeasurePreserving_eval (fun _ : Fin n => gaussianReal 0 1)
      ⟨0, Nat.pos_of_ne_zero hn⟩).ae h1] with x hx he
    exact hx (by rw [he])
  exact (Measure.quasiMeasurePreserving_eval
    (fun _ : Fin k => Measure.pi fun _ : Fin n => gaussianReal 0 1) j).ae h2

/-- The set of the numbers for which all points are in `U`. -/
theorem reach_set {r : RealState n} (hg : r.Good) (k : Nat) {U : Set (Fin n → ℝ)} (hU : IsOpen U)
    (hne : U.Nonempty) :
    let E := {z : Fin k → Fin n → ℝ | ∀ j, r.mean + (r.sigma • r.transform) *ᵥ z j ∈ U}
    IsOpen E ∧ 0 < standardNormal k n E := by
  intro E
  have hE : IsOpen E := by
    have : E = ⋂ j, (fun z : Fin k → Fin n → ℝ => r.mean + (r.sigma • r.transform) *ᵥ z j) ⁻¹' U := by
      ext z; simp [E]
    rw [this]
    exact isOpen_iInter_of_finite fun j => hU.preimage (point_continuous r k j)
  refine ⟨hE, hE.measure_pos _ ?_⟩
  obtain ⟨u, hu⟩ := hne
  refine ⟨fun _ => (r.sigma • r.transform)⁻¹ *ᵥ (u - r.mean), fun j => ?_⟩
  rw [mulVec_mulVec, Matrix.mul_nonsing_inv _ (transform_det hg), one_mulVec, add_sub_cancel]
  exact hu

/-- If all candidates of the first round are acceptable, there is only one round. -/
theorem resample_one_round {F R : Type} [Flt F] {rng : RngOps R F} {T : Mat n F} {mean : Vec n F}
    {sigma : F} {cs : Option (Constraint F)} {mx : Option Nat} {pop fuel : Nat} {r : R} (hf : 2 ≤ fuel)
    (h : ∀ κ, cs = some κ → ∀ j < pop,
      κ (List.ofFn (toPoint (T.mulVec (rng.vector r j)) mean sigma)) = .ok true) :
    resample rng T mean sigma cs mx pop fuel 0 [] r =
      .ok ((List.range pop).map fun j => T.mulVec (rng.vector r j), rng.after r (pop * n)) := by
  obtain ⟨fuel, rfl⟩ : ∃ f, fuel = f + 2 := ⟨fuel - 2, by omega⟩
  have hok : ∀ (ok : Vec n F → Outcome Bool) (ys : List (Vec n F)), (∀ y ∈ ys, ok y = .ok true) →
      filterOk ok ys = .ok ys := by
    intro ok ys hy
    induction ys with
    | nil => rfl
    | cons y ys ih =>
      simp only [filterOk, hy y (by simp), ih fun y h => hy y (by simp [h])]
      rfl
  have hd : drawVecs (n := n) rng pop r = ((List.range pop).map (rng.vector r), rng.after r (pop * n)) := by
    have := drawVecs_stream (n := n) rng r pop 0
    rw [Nat.zero_mul, Nat.zero_add, ← List.range_eq_range'] at this
    exact this
  have hround : ∀ cs', (cs' = none ∨ cs' = cs) → sampleRound rng T mean sigma cs' pop r =
      .ok ((List.range pop).map fun j => T.mulVec (rng.vector r j), rng.after r (pop * n)) := by
    intro cs' hcs
    unfold sampleRound
    simp only [hd, List.map_map]
    rw [hok]
    · rfl
    · intro y hy
      obtain ⟨j, hj, rfl⟩ := List.mem_map.mp hy
      rw [List.mem_range] at hj
      cases hc : cs' with
      | none => rfl
      | some κ =>
        rcases hcs with e | e
        · rw [e] at hc; cases hc
        · exact h κ (e.symm.trans hc) j hj
  by_cases hp : pop = 0
  · subst hp; simp [resample]; rfl
  · simp only [resample, List.length_nil, Nat.not_lt_zero, if_false, Nat.sub_zero, if_neg hp]
    rw [hround _ (by cases mx <;> [exact .inr rfl; (simp only; split <;> [exact .inl rfl; exact .inr rfl])])]
    simp

/-- The loop keeps some of the candidates of an initial part of the stream, in their order. -/
theorem resample_kept {F R : Type} [Flt F] {rng : RngOps R F} {T : Mat n F} {mean : Vec n F}
    {sigma : F} {cs : Option (Constraint F)} {mx : Option Nat} {pop fuel i : Nat}
    {y ys : List (Vec n F)} {r r' : R} {k : Nat}
    (h : resample rng T mean sigma cs mx pop fuel i y (rng.after r (k * n)) = .ok (ys, r')) :
    ∃ m l, r' = rng.after r ((k + m) * n) ∧ ys = y ++ l ∧
      l.Sublist ((List.range' k m).map fun j => T.mulVec (rng.vector r j)) := by
  induction fuel generalizing i y k with
  | zero => simp [resample] at h
  | succ fuel ih =>
    simp only [resample] at h
    split at h
    · simp at h
    · split at h
      · injection h with h
        injection h with h1 h2
        exact ⟨0, [], h2.symm, by simp [h1], by simp⟩
      · simp only [Outcome.bind_eq_ok] at h
        obtain ⟨⟨new, r2⟩, hs, h⟩ := h
        obtain ⟨h1, -, h3⟩ := sampleRound_eq_ok hs
        rw [drawVecs_stream] at h1 h3
        simp only at h1 h3
        subst h1
        obtain ⟨m, l, e1, e2, e3⟩ := ih h
        refine ⟨pop - y.length + m, new ++ l, by rw [e1, Nat.add_assoc], by rw [e2, List.append_assoc], ?_⟩
        rw [← List.range'_append_1, List.map_append]
        refine List.Sublist.append ?_ e3
        rw [h3, List.map_map]
        exact List.filter_sublist

/-- What the constraints say about a point. -/
def Accepted (o : Options n XR) (x : Fin n → ℝ) : Prop :=
  ∀ κ, o.constraints = some κ → κ (List.ofFn (Vec.fin x)) = .ok true

/-- If the candidates of the first round are acceptable, they are the steps of the generation. -/
theorem reach_drawn {ω : Nat → ℝ} (h : History.Of (env.withRng (streamRng ω)) obj o t c)
    {r : RealState n} (hr : Rep c.state r) (hf : 2 ≤ env.resampleFuel)
    {z : Fin o.populationSize → Fin n → ℝ}
    (hz : ∀ j, Accepted o (r.mean + (r.sigma • r.transform) *ᵥ z j)) :
    ∃ ys rng', drawnSteps (env.withRng (streamRng (replaceFrom ω c.sampler.rng z))) c = .ok (ys, rng') ∧
      ys.map (fun y => toPoint y c.state.mean c.state.sigma) =
        List.ofFn fun j => Vec.fin (r.mean + (r.sigma • r.transform) *ᵥ z j) := by
  obtain ⟨gs, i, _⟩ := fresh_inv h
  have hcand : ∀ j : Fin o.populationSize, toPoint (c.state.cov.transform.mulVec
      ((streamRng (replaceFrom ω c.sampler.rng z)).vector c.sampler.rng j)) c.state.mean c.state.sigma =
      Vec.fin (r.mean + (r.sigma • r.transform) *ᵥ z j) := fun j => stream_candidate hr z j
  have hd : drawnSteps (env.withRng (streamRng (replaceFrom ω c.sampler.rng z))) c =
      .ok ((List.range o.populationSize).map fun j => c.state.cov.transform.mulVec
        ((streamRng (replaceFrom ω c.sampler.rng z)).vector c.sampler.rng j),
        (streamRng (replaceFrom ω c.sampler.rng z)).after c.sampler.rng (o.populationSize * n)) := by
    unfold drawnSteps
    rw [i.constraints, i.maxResamples, i.populationSize]
    refine resample_one_round (by exact hf) fun κ hκ j hj => ?_
    have := hcand ⟨j, hj⟩
    simp only at this
    show κ (List.ofFn (toPoint (c.state.cov.transform.mulVec
      ((streamRng (replaceFrom ω c.sampler.rng z)).vector c.sampler.rng j)) c.state.mean c.state.sigma)) = _
    rw [this]
    exact hz ⟨j, hj⟩ κ hκ
  refine ⟨_, _, hd, ?_⟩
  rw [List.map_map, ← List.map_coe_finRange_eq_range, List.map_map, List.ofFn_eq_map]
  exact List.map_congr_left fun j _ => hcand j

/-- The loop of the model that ends had fuel for two passes. -/
theorem fuel_two (h : History.Of env obj o t c) {x : List (Vec n XR) × Nat}
    (hd : drawnSteps env c = .ok x) : 2 ≤ env.resampleFuel := by
  obtain ⟨gs, j, _⟩ := fresh_inv h
  have h2p : 2 ≤ o.populationSize := two_le_population j.valid
  by_contra hlt
  unfold drawnSteps at hd
  rw [j.populationSize] at hd
  have : env.resampleFuel = 0 ∨ env.resampleFuel = 1 := by omega
  rcases this with h0 | h0
  · simp [h0, resample] at hd
  · simp only [h0, resample, List.length_nil, Nat.not_lt_zero, if_false, Nat.sub_zero,
      if_neg (show ¬ o.populationSize = 0 by omega), Outcome.bind_eq_ok] at hd
    obtain ⟨_, _, hd⟩ := hd
    simp at hd

/-- **C106, reach.** No part of the space that the constraints allow is out of reach. In exact
arithmetic and with `c1 + cmu < 1`, let a run have used some of the normal numbers `ω`, and let `U` be
a nonempty open set of acceptable points (of any points, if there are no constraints). Whatever the
next numbers are, the run so far is the same; and if they are independent and standard normal, then
with positive probability the next generation consists of points of `U`. -/
theorem c106_reach {ω : Nat → ℝ} (hx : ExactRun (env.withRng (streamRng ω)) o)
    (h : History.Of (env.withRng (streamRng ω)) obj o t c) {a b : ℝ}
    (h1 : c.parameters.c1 = .fin a) (h2 : c.parameters.cmu = .fin b) (hs : a + b < 1)
    {U : Set (Fin n → ℝ)} (hU : IsOpen U) (hne : U.Nonempty)
    (hacc : ∀ κ, o.constraints = some κ → ∀ x ∈ U, κ (List.ofFn (Vec.fin x)) = .ok true) :
    ∃ N, (∀ z : Fin o.populationSize → Fin n → ℝ,
      History.Of (env.withRng (streamRng (replaceFrom ω N z))) obj o t c) ∧
    ∃ E : Set (Fin o.populationSize → Fin n → ℝ),
      0 < standardNormal o.populationSize n E ∧
      ∀ z ∈ E, ∀ kind d res calls,
        c.next (env.withRng (streamRng (replaceFrom ω N z))) kind = .ok (d, res) →
        d.sampler.obj.log = c.sampler.obj.log ++ calls →
        ∀ e ∈ calls, ∃ x ∈ U, e.1 = Vec.fin x := by
  obtain ⟨r, x, i⟩ := exact_inv hx (by rw [rateSum_eq h h1 h2]; exact hs) h
  refine ⟨_, fun z => stream_history_any h z, _, (reach_set i.good o.populationSize hU hne).2, ?_⟩
  intro z hz kind d res calls hn hl e he
  obtain ⟨ys, hd, hsub, -⟩ := next_points hn hl
  have hf : 2 ≤ env.resampleFuel := by
    have := fuel_two (stream_history_any h z) hd
    exact this
  obtain ⟨ys', rng', e1, e2⟩ := reach_drawn h i.rep hf fun j κ hκ => hacc κ hκ _ (hz j)
  rw [e1] at hd
  injection hd with hd
  injection hd with hd _
  subst hd
  rw [e2] at hsub
  have := hsub.subset (List.mem_map_of_mem (f := Prod.fst) he)
  rw [List.mem_ofFn] at this
  obtain ⟨j, hj⟩ := this
  exact ⟨_, hz j, hj.symm⟩

/-- The points with a better value than `v`. -/
theorem better_open {mode : Mode} {f : (Fin n → ℝ) → ℝ} (hf : Continuous f) (v : XR) :
    IsOpen {y | Better mode (.fin (f y) : XR) v} := by
  have key : {y | Better mode (.fin (f y) : XR) v} = ∅ ∨ {y | Better mode (.fin (f y) : XR) v} = Set.univ ∨
      ∃ w : ℝ, {y | Better mode (.fin (f y) : XR) v} = {y | f y < w} ∨
        {y | Better mode (.fin (f y) : XR) v} = {y | w < f y} := by
    cases v with
    | nan => cases mode <;> exact .inl (by ext y; simp [Better, Flt.lt, Ext.lt])
    | ninf =>
      cases mode
      · exact .inl (by ext y; simp [Better, Flt.lt, Ext.lt])
      · exact .inr (.inl (by ext y; simp [Better, Flt.lt, Ext.lt]))
    | pinf =>
      cases mode
      · exact .inr (.inl (by ext y; simp [Better, Flt.lt, Ext.lt]))
      · exact .inl (by ext y; simp [Better, Flt.lt, Ext.lt])
    | fin w =>
      cases mode
      · exact .inr (.inr ⟨w, .inl (by ext y; simp [Better, lt_fin])⟩)
      · exact .inr (.inr ⟨w, .inr (by ext y; simp [Better, lt_fin])⟩)
  rcases key with e | e | ⟨w, e | e⟩ <;> rw [e]
  · exact isOpen_empty
  · exact isOpen_univ
  · exact isOpen_lt hf continuous_const
  · exact isOpen_lt continuous_const hf

/-- The value of a call is the objective's at the point of the call. -/
theorem faithful_point {f : List (Vec n XR × XR) → Vec n XR → XR} {log calls : List (Vec n XR × XR)}
    (h : Faithful f log calls) {e : Vec n XR × XR} (he : e ∈ calls) : ∃ l, e.2 = f l e.1 := by
  induction calls generalizing log with
  | nil => simp at he
  | cons a calls ih =>
    obtain ⟨x, v⟩ := a
    obtain ⟨h1, h2⟩ := h
    rcases List.mem_cons.mp he with rfl | he
    · exact ⟨log, h1⟩
    · exact ih h2 he

/-- **C106, improvement.** As long as there is a better point than the best one found so far, the next
generation finds one with positive probability. In the setting of `c106_reach`, if the objective is a
continuous function and some point `y` of an open set `U` of acceptable points has a better value than
the overall best individual, then with positive probability the next call returns with an overall
best individual that is better. -/
theorem c106_improve {ω : Nat → ℝ} (hx : ExactRun (env.withRng (streamRng ω)) o)
    (h : History.Of (env.withRng (streamRng ω)) obj o t c) {a b : ℝ}
    (h1 : c.parameters.c1 = .fin a) (h2 : c.parameters.cmu = .fin b) (hs : a + b < 1)
    (hc : CanStep (env.withRng (streamRng ω)) obj o c) (hfuel : 2 ≤ env.resampleFuel)
    {f : (Fin n → ℝ) → ℝ} (hf : Continuous f) (hobj : ∀ log x, obj.f log (Vec.fin x) = .fin (f x))
    {U : Set (Fin n → ℝ)} (hU : IsOpen U)
    (hacc : ∀ κ, o.constraints = some κ → ∀ x ∈ U, κ (List.ofFn (Vec.fin x)) = .ok true)
    {best : Individual n XR} (hb : c.overallBestIndividual = some best) {y : Fin n → ℝ} (hyU : y ∈ U)
    (hy : Better o.mode (.fin (f y)) best.value) :
    ∃ N, (∀ z : Fin o.populationSize → Fin n → ℝ,
      History.Of (env.withRng (streamRng (replaceFrom ω N z))) obj o t c) ∧
    ∃ E : Set (Fin o.populationSize → Fin n → ℝ),
      0 < standardNormal o.populationSize n E ∧
      ∀ z ∈ E, ∀ kind, ∃ d res best',
        c.next (env.withRng (streamRng (replaceFrom ω N z))) kind = .ok (d, res) ∧
        d.overallBestIndividual = some best' ∧ Better o.mode best'.value best.value := by
  obtain ⟨r, x, i⟩ := exact_inv hx (by rw [rateSum_eq h h1 h2]; exact hs) h
  have hz : ∀ z : Fin o.populationSize → Fin n → ℝ, History.Of
      (env.withRng (streamRng (replaceFrom ω c.sampler.rng z))) obj o t c :=
    fun z => stream_history_any h z
  refine ⟨_, hz, _, (reach_set i.good o.populationSize
    (hU.inter (better_open (mode := o.mode) hf best.value)) ⟨y, hyU, hy⟩).2, fun z hzE kind => ?_⟩
  have hcan : CanStep (env.withRng (streamRng (replaceFrom ω c.sampler.rng z))) obj o c :=
    ⟨hc.constraints, hc.generation, hc.plotGap, hc.printGap, hc.median⟩
  obtain ⟨ys, rng', g1, g2⟩ := reach_drawn h i.rep hfuel fun j κ hκ => hacc κ hκ _ (hzE j).1
  obtain ⟨d, res, hn⟩ : ∃ d res, c.next
      (env.withRng (streamRng (replaceFrom ω c.sampler.rng z))) kind = .ok (d, res) := by
    rcases c26_next (hz z) hcan kind with h' | ⟨-, h'⟩
    · exact h'
    · rw [g1] at h'; cases h'
  obtain ⟨calls, hl⟩ := next_log hn
  have hd := (hz z).next hn hl
  have hval : ∀ e ∈ calls, ∃ y, e.2 = .fin (f y) ∧ Better o.mode e.2 best.value := by
    intro e hec
    obtain ⟨y, hyU, hey⟩ : ∃ y, Better o.mode (.fin (f y) : XR) best.value ∧ e.1 = Vec.fin y := by
      obtain ⟨ys', hd', hsub, -⟩ := next_points hn hl
      rw [g1] at hd'
      injection hd' with hd'
      injection hd' with hd' _
      subst hd'
      rw [g2] at hsub
      have := hsub.subset (List.mem_map_of_mem (f := Prod.fst) hec)
      rw [List.mem_ofFn] at this
      obtain ⟨j, hj⟩ := this
      exact ⟨_, (hzE j).2, hj.symm⟩
    obtain ⟨-, hfa⟩ := c01_calls_are_real hd
    obtain ⟨log, hlog⟩ := faithful_point hfa (e := e) (by simp [allCalls, hec])
    have : e.2 = .fin (f y) := by rw [hlog, hey, hobj]
    exact ⟨y, this, by rw [this]; exact hyU⟩
  have hnf : ¬ NextCall.Failed { kind, calls, result := res } := by
    intro hf'
    obtain ⟨e, hec, hnan⟩ := (c11_nan hn hl).1.mp hf'
    obtain ⟨y, hy', -⟩ := hval e hec
    rw [hy'] at hnan
    cases hnan
  obtain ⟨cur, k1, k2, -⟩ := c02_current_best hd hnf
  obtain ⟨-, -, hbt⟩ := hval _ k2
  obtain ⟨best', k3, k4⟩ := c04_monotone (hz z) (.next (.refl c) hn hl) hb
  refine ⟨d, res, best', hn, k3, k4.resolve_left ?_⟩
  rintro rfl
  exact c04_current hd k3 k1 hbt

/-- **C106, new points.** No point is evaluated twice. In the setting of `c106_reach`, with any
constraints, almost surely the points of the next generation are distinct, and none of them was
evaluated before. Here the next `K n` numbers are random, for any `K`, and the call draws no more
than these; without constraints it draws `populationSize * n`. -/
theorem c106_new {ω : Nat → ℝ} (hx : ExactRun (env.withRng (streamRng ω)) o)
    (h : History.Of (env.withRng (streamRng ω)) obj o t c) {a b : ℝ}
    (h1 : c.parameters.c1 = .fin a) (h2 : c.parameters.cmu = .fin b) (hs : a + b < 1) :
    ∃ N, ∀ K, (∀ z : Fin K → Fin n → ℝ,
      History.Of (env.withRng (streamRng (replaceFrom ω N z))) obj o t c) ∧
    ∀ᵐ z ∂standardNormal K n, ∀ kind d res calls,
      c.next (env.withRng (streamRng (replaceFrom ω N z))) kind = .ok (d, res) →
      d.sampler.obj.log = c.sampler.obj.log ++ calls →
      (o.constraints = none → d.sampler.rng = N + o.populationSize * n) ∧
      (d.sampler.rng ≤ N + K * n →
        (calls.map Prod.fst).Nodup ∧ ∀ e ∈ calls, ∀ e' ∈ c.sampler.obj.log, e.1 ≠ e'.1) := by
  obtain ⟨r, x, i⟩ := exact_inv hx (by rw [rateSum_eq h h1 h2]; exact hs) h
  have hn0 : n ≠ 0 := (params_rep h).1.dim_ne
  refine ⟨c.sampler.rng, fun K => ⟨fun z => stream_history_any h z, ?_⟩⟩
  have hdist : ∀ᵐ z ∂standardNormal K n, ∀ j l, j ≠ l → z j ≠ z l := by
    have he : (Pi.single (⟨0, Nat.pos_of_ne_zero hn0⟩ : Fin n) 1 : Fin n → ℝ) ⬝ᵥ
        Pi.single (⟨0, Nat.pos_of_ne_zero hn0⟩ : Fin n) 1 = 1 := by simp
    filter_upwards [components_distinct he] with z hz j l hjl e
    exact hz j l hjl (by rw [e])
  have hnew : ∀ᵐ z ∂standardNormal K n, ∀ j, ∀ e' ∈ c.sampler.obj.log,
      Vec.fin (r.mean + (r.sigma • r.transform) *ᵥ z j) ≠ e'.1 := by
    rw [ae_all_iff]
    intro j
    have : ∀ l : List (Vec n XR × XR), ∀ᵐ z ∂standardNormal K n, ∀ e' ∈ l,
        Vec.fin (r.mean + (r.sigma • r.transform) *ᵥ z j) ≠ e'.1 := by
      intro l
      induction l with
      | nil => simp
      | cons q l ih =>
        by_cases hq : ∃ y, Vec.fin (r.mean + (r.sigma • r.transform) *ᵥ y) = q.1
        · obtain ⟨y, hy⟩ := hq
          filter_upwards [ih, point_ne hn0 j y] with z hz hzy e' he'
          rcases List.mem_cons.mp he' with rfl | h'
          · intro heq
            refine hzy (point_inj i.good ?_)
            funext a
            have := congrFun (heq.trans hy.symm) a
            injection this
          · exact hz e' h'
        · filter_upwards [ih] with z hz e' he'
          rcases List.mem_cons.mp he' with rfl | h'
          · exact fun heq => hq ⟨_, heq⟩
          · exact hz e' h'
    exact this _
  filter_upwards [hdist, hnew] with z hz1 hz2 kind d res calls hn hl
  obtain ⟨gs, j0, _⟩ := fresh_inv h
  obtain ⟨ys, hd, hsub, -⟩ := next_points hn hl
  have hfuel := fuel_two (stream_history_any h z) hd
  unfold drawnSteps at hd
  rw [j0.constraints, j0.maxResamples, j0.populationSize] at hd
  constructor
  · intro hcon
    rw [hcon, (c08_unconstrained hfuel).1] at hd
    injection hd with hd
    injection hd with _ hd
    rw [← hd]
    exact stream_after _ _ _
  intro hK
  obtain ⟨m, l, k1, k2, k3⟩ := resample_kept (r := c.sampler.rng) (k := 0)
    (by rw [Nat.zero_mul]; exact hd)
  rw [List.nil_append] at k2
  subst k2
  have hm : m ≤ K := by
    rw [k1, Nat.zero_add] at hK
    have : (streamRng (replaceFrom ω c.sampler.rng z)).after c.sampler.rng (m * n) ≤ c.sampler.rng + K * n := hK
    rw [stream_after] at this
    exact Nat.le_of_mul_le_mul_right (by omega) (Nat.pos_of_ne_zero hn0)
  have hcand : (ys.map fun y => toPoint y c.state.mean c.state.sigma).Sublist
      (List.ofFn fun j : Fin K => Vec.fin (r.mean + (r.sigma • r.transform) *ᵥ z j)) := by
    refine (k3.map _).trans ?_
    rw [← List.range_eq_range', List.map_map, List.ofFn_eq_map]
    refine ((List.range_sublist.mpr hm).map _).trans ?_
    rw [← List.map_coe_finRange_eq_range, List.map_map]
    have key : ∀ A B : List (Vec n XR), A = B → A.Sublist B := by rintro _ _ rfl; exact .refl _
    exact key _ _ (List.map_congr_left fun j _ => stream_candidate (ω := ω) i.rep z j)
  obtain ⟨l', hp, hsub'⟩ := hsub
  constructor
  · refine hp.nodup_iff.mp ((hsub'.trans hcand).nodup (List.nodup_ofFn.mpr fun j l hjl => ?_))
    by_contra hne
    refine hz1 j l hne (point_inj i.good ?_)
    funext a
    have := congrFun hjl a
    injection this
  · intro e hec e' he' heq
    have := (hsub'.trans hcand).subset (hp.mem_iff.mpr (List.mem_map_of_mem (f := Prod.fst) hec))
    rw [List.mem_ofFn] at this
    obtain ⟨j, hj⟩ := this
    exact hz2 j e' he' (hj.trans heq)

open WitnessReal in
/-- Non-vacuity, in both modes: after 1000 generations with negative weights on a linear function the
hypotheses of the three theorems are met, with a point that is better than the overall best
individual, and a further `next` call returns. -/
example (mode : Mode) : ∃ t c a b best y,
    History.Of ((renv 2).withRng (streamRng fun k => k + 1)) slope
      { opts with mode := mode, weights := .negative, populationSize := 6 } t c ∧
    ExactRun ((renv 2).withRng (streamRng fun k => k + 1))
      { opts with mode := mode, weights := .negative, populationSize := 6 } ∧
    c.generation = 1000 ∧ c.parameters.c1 = .fin a ∧ c.parameters.cmu = .fin b ∧ a + b < 1 ∧
    CanStep ((renv 2).withRng (streamRng fun k => k + 1)) slope
      { opts with mode := mode, weights := .negative, populationSize := 6 } c ∧
    2 ≤ ((renv 2).withRng (streamRng fun k => k + 1)).resampleFuel ∧
    Continuous (fun x : Fin 2 → ℝ => ![1, -2] ⬝ᵥ x) ∧
    (∀ log x, slope.f log (Vec.fin x) = .fin (![1, -2] ⬝ᵥ x)) ∧
    c.overallBestIndividual = some best ∧ Better mode (.fin (![1, -2] ⬝ᵥ y)) best.value ∧
    ∃ d res, c.next ((renv 2).withRng (streamRng fun k => k + 1)) .par = .ok (d, res) := by
  obtain ⟨t, c, d, res, _, h, hg, ht, hn, _⟩ := stream_runs (obj := slope) (fun _ _ => isNaN_fin _)
    mode .negative (lambda := 6) (by norm_num) (by norm_num) .par 1000 (by norm_num)
  obtain ⟨hp, _⟩ := params_rep h
  have hsome : c.overallBestIndividual.isSome := by
    obtain ⟨gs, i, hi⟩ := fresh_inv h
    rcases i.best with ⟨h0, -⟩ | ⟨-, _, _, _, _, _, ho, -⟩
    · have : gs = [] := by simpa using h0
      subst this
      have hg' : c.state.generation = 1000 := hg
      simp [hg'] at hi
    · show c.history.overallBest.isSome
      rw [ho]; rfl
  obtain ⟨best, hb⟩ := Option.isSome_iff_exists.mp hsome
  obtain ⟨v, hv⟩ : ∃ v, best.value = .fin v := by
    obtain ⟨-, -, t1, s, t2, rfl, -, hm, -⟩ := c01_overall_best h hb
    obtain ⟨-, hfa⟩ := c01_calls_are_real h
    obtain ⟨l, hl⟩ := faithful_point hfa (e := (best.point, best.value)) (by
      simp only [allCalls, List.flatMap_append, List.flatMap_cons, List.mem_append]
      exact .inr (.inl hm))
    exact ⟨_, hl⟩
  refine ⟨t, c, _, _, best, ![v + (if mode = .minimize then -1 else 1), 0], h, stream_exact' _ _ _, hg,
    hp.c1, hp.cmu,
    rateSum_lt_one (by norm_num) (by show 2 ≤ 6; norm_num) (by show 6 ≤ _; norm_num),
    ⟨fun k hk => by simp [opts, Options.new] at hk, by rw [hg]; norm_num,
      fun k hk => by simp [opts, Options.new] at hk, fun k hk => by simp [opts, Options.new] at hk,
      .inl fun l => ⟨_, rfl⟩⟩, by decide, by fun_prop, slope_linear, hb, ?_, d, res, hn⟩
  rw [hv]
  cases mode <;> simp [Better, lt_fin]

namespace WitnessReal

theorem box_canStep {env : Env 2 XR Nat} (hm : ∀ l, ∃ v, env.medianNaN l = .ok v)
    {c : CMAES 2 XR Nat} (hg : c.generation < 2 ^ 30 - 1) : CanStep env sphere boxOpts c := by
  refine ⟨?_, hg, fun k hk => by simp [boxOpts, opts, Options.new] at hk,
    fun k hk => by simp [boxOpts, opts, Options.new] at hk, .inl hm⟩
  intro k hk x
  obtain rfl : box.meets = k := Option.some.inj hk
  rw [List.ofFn_succ, List.ofFn_succ, List.ofFn_zero]
  show ∃ b, (if Flt.le (.fin 0) (x 0) = true then
    (if Flt.le (x 0) (.fin 100) = true then
      (if Flt.le (.fin 0) (x 1) = true then
        (if Flt.le (x 1) (.fin 100) = true then Outcome.ok true else .ok false) else .ok false)
      else .ok false) else .ok false) = .ok b
  split_ifs <;> exact ⟨_, rfl⟩

/-- A generation within the bounds, which does not meet the minimum. -/
theorem boxOpts_positive : ∃ s c, History.Of (renv 2) sphere boxOpts [s] c ∧ ¬ s.Failed ∧
    c.generation = 1 ∧ ∀ e ∈ s.calls, ∃ v : ℝ, 0 < v ∧ e.2 = .fin v := by
  obtain ⟨c, hnew⟩ := boxOpts_builds
  have h : History.Of (renv 2) sphere boxOpts [] c := ⟨_, c, hnew, .refl c⟩
  have hg0 : c.generation = 0 := (c31_fresh hnew).1
  have hcan : CanStep (renv 2) sphere boxOpts c :=
    box_canStep (fun l => ⟨_, rfl⟩) (by rw [hg0]; norm_num)
  have hpt : ∀ j, toPoint (n := 2) ((Mat.one : Mat 2 XR).mulVec (rng.vector 0 j))
      boxOpts.initialMean (.fin 1) =
      Vec.fin fun i => (if i = 0 then 1 else 2) + (j * 2 + i + 1 : ℝ) := by
    intro j
    have e : (rng.vector 0 j : Vec 2 XR) = Vec.fin fun i => (j * 2 + i + 1 : ℝ) := by
      funext i
      unfold RngOps.vector
      rw [draw_eq]
      show (_ : XR) = .fin _
      congr 1
      push_cast
      ring
    rw [e, Mat.one_fin, Mat.mulVec_fin]
    have em : boxOpts.initialMean = Vec.fin fun i => if i = 0 then 1 else 2 := rfl
    unfold toPoint
    rw [em, Vec.smul_fin, Vec.add_fin]
    congr 1
    funext i
    simp
  have hd : drawnSteps (renv 2) c = .ok ((List.range 6).map fun j =>
      (Mat.one : Mat 2 XR).mulVec (rng.vector 0 j), rng.after 0 (6 * 2)) ∧
      c.state.mean = boxOpts.initialMean ∧ c.state.sigma = .fin 1 := by
    obtain ⟨_, rfl⟩ := new_eq_ok hnew
    obtain ⟨a1, a2, a3, _⟩ := create_search (renv 2) World.init sphere boxOpts
    refine ⟨?_, by rw [a3]; rfl, by rw [a3]; rfl⟩
    unfold drawnSteps
    rw [a1, a3]
    refine resample_one_round (T := (Mat.one : Mat 2 XR)) (mean := boxOpts.initialMean)
      (sigma := .fin 1) (fuel := 20) (pop := 6) (r := 0) (mx := none) (cs := some box.meets)
      (rng := rng) (by norm_num) ?_
    intro κ hκ j hj
    obtain rfl : box.meets = κ := Option.some.inj hκ
    rw [hpt]
    refine box_meets fun i => ?_
    have hj' : (j : ℝ) ≤ 5 := by exact_mod_cast (by omega : j ≤ 5)
    have hj0 : (0 : ℝ) ≤ j := by positivity
    have hi : ((i : ℕ) : ℝ) ≤ 1 := by exact_mod_cast (by omega : (i : ℕ) ≤ 1)
    have hi0 : (0 : ℝ) ≤ ((i : ℕ) : ℝ) := by positivity
    split_ifs <;> constructor <;> nlinarith
  obtain ⟨d, res, hn⟩ : ∃ d res, c.next (renv 2) .seq = .ok (d, res) := by
    rcases c26_next h hcan .seq with h' | ⟨_, h'⟩
    · exact h'
    · rw [hd.1] at h'; cases h'
  obtain ⟨calls, hl⟩ := next_log hn
  have h1 : History.Of (renv 2) sphere boxOpts [{ kind := .seq, calls, result := res }] d :=
    ⟨_, c, hnew, .next (.refl c) hn hl⟩
  have hval : ∀ e ∈ calls, ∃ v : ℝ, 0 < v ∧ e.2 = .fin v := by
    intro e he
    obtain ⟨ys, hy, hsub, -⟩ := next_points hn hl
    rw [hd.1] at hy
    injection hy with hy
    injection hy with hy _
    subst hy
    have := hsub.subset (List.mem_map_of_mem (f := Prod.fst) he)
    rw [List.map_map, List.mem_map] at this
    obtain ⟨j, -, hj⟩ := this
    rw [hd.2.1, hd.2.2] at hj
    have hj := (hpt j).symm.trans hj
    obtain ⟨-, hfa⟩ := c01_calls_are_real h1
    obtain ⟨l, hlog⟩ := faithful_point hfa (e := e) (by simp [allCalls, he])
    refine ⟨_, ?_, hlog⟩
    rw [← hj]
    show (0 : ℝ) < (_ + _) * (_ + _) + (_ + _) * (_ + _)
    have hj0 : (0 : ℝ) ≤ j := by positivity
    norm_num
    positivity
  have hnf : ¬ NextCall.Failed { kind := .seq, calls, result := res } := by
    intro hf
    obtain ⟨e, he, hnan⟩ := (c11_nan hn hl).1.mp hf
    obtain ⟨v, -, hv⟩ := hval e he
    rw [hv] at hnan
    cases hnan
  refine ⟨_, d, h1, hnf, ?_, hval⟩
  obtain ⟨_, _, i⟩ := exact_inv boxOpts_exact
    (rateSum_lt_one (by norm_num) (by show 2 ≤ 6; norm_num) (by show 6 ≤ _; norm_num)) h1
  obtain ⟨gs, j, hj⟩ := fresh_inv h1
  have hcalls := j.calls
  rw [List.filter_cons_of_pos (by simpa using hnf), List.filter_nil] at hcalls
  have hlen : gs.length = 1 := by simpa using congrArg List.length hcalls
  have hrep : gs.filter (fun g => g.call.ReportsPosDef) = [] := by
    refine List.filter_eq_nil_iff.mpr fun g hg => ?_
    have : g.call ∈ gs.map Gen.call := List.mem_map_of_mem hg
    rw [hcalls] at this
    simpa using i.noReport _ this
  rw [hrep, hlen] at hj
  exact hj

end WitnessReal

open WitnessReal in
/-- Non-vacuity with constraints and without a limit on resampling: after a generation within bounds
the hypotheses are met, with an open set of acceptable points and a point in it that is better than
the overall best individual. -/
example : ∃ s c a b best y,
    History.Of ((renv 2).withRng (streamRng fun k => k + 1)) sphere boxOpts [s] c ∧
    ExactRun ((renv 2).withRng (streamRng fun k => k + 1)) boxOpts ∧
    c.generation = 1 ∧ c.parameters.c1 = .fin a ∧ c.parameters.cmu = .fin b ∧ a + b < 1 ∧
    CanStep ((renv 2).withRng (streamRng fun k => k + 1)) sphere boxOpts c ∧
    2 ≤ ((renv 2).withRng (streamRng fun k => k + 1)).resampleFuel ∧
    Continuous (fun x : Fin 2 → ℝ => x 0 * x 0 + x 1 * x 1) ∧
    (∀ log x, sphere.f log (Vec.fin x) = .fin (x 0 * x 0 + x 1 * x 1)) ∧
    boxOpts.constraints = some box.meets ∧ boxOpts.maxResamples = none ∧
    IsOpen {x : Fin 2 → ℝ | ∀ i, 0 < x i ∧ x i < 100} ∧
    (∀ κ, boxOpts.constraints = some κ → ∀ x ∈ {x : Fin 2 → ℝ | ∀ i, 0 < x i ∧ x i < 100},
      κ (List.ofFn (Vec.fin x)) = .ok true) ∧
    c.overallBestIndividual = some best ∧ y ∈ {x : Fin 2 → ℝ | ∀ i, 0 < x i ∧ x i < 100} ∧
    Better boxOpts.mode (.fin (y 0 * y 0 + y 1 * y 1)) best.value := by
  obtain ⟨s, c, h, hf, hg, hv⟩ := boxOpts_positive
  obtain ⟨N, -, -, h3⟩ := c89_causal h
  have hseed : c.parameters.seed = 0 := by
    obtain ⟨gs, i, _⟩ := fresh_inv h
    rw [i.parameters]
    rfl
  have hh := h3 _ (stream_agrees _ N hseed)
  obtain ⟨hp, _⟩ := params_rep hh
  have hx : ExactRun ((renv 2).withRng (streamRng fun k => k + 1)) boxOpts := by
    have := stream_exact .negative 6
    exact ⟨this.eigen, this.draws, fun _ => this.nonzero rfl, _, rfl⟩
  obtain ⟨best, hb⟩ := Option.isSome_iff_exists.mp ((c03_presence hh).2.mpr ⟨s, by simp, hf⟩)
  obtain ⟨v, hv0, hbv⟩ : ∃ v : ℝ, 0 < v ∧ best.value = .fin v := by
    obtain ⟨-, -, t1, s', t2, ht, -, hm, -⟩ := c01_overall_best hh hb
    have : s' ∈ [s] := by rw [ht]; simp
    obtain rfl := List.mem_singleton.mp this
    exact hv _ hm
  obtain ⟨ε, e0, e1, e2⟩ : ∃ ε : ℝ, 0 < ε ∧ ε < 100 ∧ ε * ε + ε * ε < v := by
    refine ⟨min 1 (v / 4), by positivity, by have := min_le_left 1 (v / 4); linarith, ?_⟩
    have h1 := min_le_left 1 (v / 4)
    have h2 := min_le_right 1 (v / 4)
    have h0 : 0 < min 1 (v / 4) := by positivity
    nlinarith
  refine ⟨s, _, _, _, best, fun _ => ε, hh, hx, hg, hp.c1, hp.cmu,
    rateSum_lt_one (by norm_num) (by show 2 ≤ 6; norm_num) (by show 6 ≤ _; norm_num),
    box_canStep (fun l => ⟨_, rfl⟩) ?_, by decide, by fun_prop, fun _ _ => rfl, rfl, rfl, ?_, ?_, hb,
    fun _ => ⟨e0, e1⟩, ?_⟩
  · show c.generation < _
    rw [hg]; norm_num
  · simp only [Set.setOf_forall]
    refine isOpen_iInter_of_finite fun i => ?_
    have hi : Continuous fun x : Fin 2 → ℝ => x i := by fun_prop
    exact (isOpen_lt continuous_const hi).inter (isOpen_lt hi continuous_const)
  · intro κ hκ x hx
    obtain rfl : box.meets = κ := Option.some.inj hκ
    exact box_meets fun i => ⟨(hx i).1.le, (hx i).2.le⟩
  · rw [hbv]
    show Flt.lt _ _ = true
    rw [lt_fin]
    simpa using e2

end Cmaes
