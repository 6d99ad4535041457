import Verif.Props.Gaussian
import Verif.Lemmas.CallOrder
import Mathlib.Probability.Independence.CharacteristicFunction

/-!
# C90: without selection the mean does not drift
-/

set_option linter.unusedSectionVars false

namespace Cmaes
open MeasureTheory ProbabilityTheory Matrix WithLp XR
open scoped RealInnerProductSpace
variable {n : Nat}

/-! ### The law of a weighted sum of normally distributed vectors -/

theorem posSemidef_mul_transpose (M : Matrix (Fin n) (Fin n) ℝ) : (M * Mᵀ).PosSemidef := by
  have := Matrix.posSemidef_self_mul_conjTranspose M
  rwa [conjTranspose_eq_transpose_of_trivial] at this

/-- An affine combination of independent standard normal vectors. -/
theorem map_combination {k : Nat} (m : Fin n → ℝ) (M : Matrix (Fin n) (Fin n) ℝ) (a : Fin k → ℝ) :
    (standardNormal k n).map (fun z => toLp 2 (m + ∑ j, a j • (M *ᵥ z j))) =
      multivariateGaussian (toLp 2 m) ((∑ j, a j ^ 2) • (M * Mᵀ)) := by
  have hp := posSemidef_mul_transpose M
  have e : (fun z : Fin k → Fin n → ℝ => toLp 2 (m + ∑ j, a j • (M *ᵥ z j))) =
      (fun x => toLp 2 m + x) ∘ (fun p : Fin k → EuclideanSpace ℝ (Fin n) => ∑ i, p i) ∘
        (fun z i => toLp 2 (0 + (a i • M) *ᵥ z i)) := by
    funext z
    simp only [Function.comp, toLp_add, zero_add, smul_mulVec]
    rw [← toLp_sum]
  have hm : Measurable fun (z : Fin k → Fin n → ℝ) i => toLp 2 (0 + (a i • M) *ᵥ z i) :=
    measurable_pi_lambda _ fun i => (measurable_affine 0 (a i • M)).comp (measurable_pi_apply i)
  have e1 : (standardNormal k n).map (fun z i => toLp 2 (0 + (a i • M) *ᵥ z i)) =
      Measure.pi fun i => multivariateGaussian (toLp 2 0) ((a i • M) * (a i • M)ᵀ) := by
    unfold standardNormal
    simp_rw [← map_affine]
    exact Measure.pi_map_pi fun i => (measurable_affine 0 (a i • M)).aemeasurable
  rw [e, ← Measure.map_map (by fun_prop) (by fun_prop), ← Measure.map_map (by fun_prop) hm, e1]
  apply Measure.ext_of_charFun
  ext x
  have hS : ((∑ j, a j ^ 2) • (M * Mᵀ)).PosSemidef :=
    hp.smul (Finset.sum_nonneg fun j _ => sq_nonneg _)
  rw [charFun_map_const_add, charFun_map_sum_pi_eq_prod, charFun_multivariateGaussian hS,
    Finset.prod_apply]
  simp_rw [charFun_multivariateGaussian (posSemidef_mul_transpose _)]
  rw [← Complex.exp_sum, ← Complex.exp_add]
  congr 1
  have e2 : ∀ i : Fin k, ((a i • M) * (a i • M)ᵀ) = (a i ^ 2) • (M * Mᵀ) := fun i => by
    rw [transpose_smul, Matrix.smul_mul, Matrix.mul_smul, smul_smul, pow_two]
  have e3 : ∀ s : ℝ, (x : Fin n → ℝ) ⬝ᵥ (s • (M * Mᵀ)) *ᵥ (x : Fin n → ℝ) =
      s * ((x : Fin n → ℝ) ⬝ᵥ (M * Mᵀ) *ᵥ (x : Fin n → ℝ)) := fun s => by
    rw [smul_mulVec, dotProduct_smul, smul_eq_mul]
  have e4 : (toLp 2 (0 : Fin n → ℝ) : EuclideanSpace ℝ (Fin n)) = 0 := rfl
  simp_rw [e2, e3, e4, inner_zero_right]
  simp only [Complex.ofReal_zero, zero_mul, zero_sub, Complex.ofReal_mul, Complex.ofReal_sum]
  rw [Finset.sum_neg_distrib, ← Finset.sum_div, ← Finset.sum_mul, real_inner_comm]
  ring

/-! ### The weights of the points in the order in which they were drawn -/

theorem zipWith_sum {α V : Type} [DecidableEq α] [AddCommGroup V] [Module ℝ V] (h : α → V) :
    ∀ (l : List α) (w : List ℝ), l.Nodup →
      (List.zipWith (· • ·) w (l.map h)).sum = (l.map fun j => w.getD (l.idxOf j) 0 • h j).sum := by
  intro l
  induction l with
  | nil => intro w _; simp
  | cons x l ih =>
    intro w hn
    obtain ⟨hx, hn⟩ := List.nodup_cons.mp hn
    have hidx : ∀ j ∈ l, (x :: l).idxOf j = l.idxOf j + 1 := fun j hj =>
      List.idxOf_cons_ne _ fun e => hx (e ▸ hj)
    cases w with
    | nil => simp
    | cons b w =>
      rw [List.map_cons, List.zipWith_cons_cons, List.sum_cons, List.map_cons, List.sum_cons,
        ih w hn, List.idxOf_cons_self]
      congr 2
      exact List.map_congr_left fun j hj => by rw [hidx j hj]; rfl

theorem sum_sq_idx {α : Type} [DecidableEq α] :
    ∀ (l : List α) (w : List ℝ), l.Nodup → w.length ≤ l.length →
      (l.map fun j => w.getD (l.idxOf j) 0 ^ 2).sum = (w.map fun x => x ^ 2).sum := by
  intro l
  induction l with
  | nil => intro w _ hl; simp at hl; simp [hl]
  | cons x l ih =>
    intro w hn hl
    obtain ⟨hx, hn⟩ := List.nodup_cons.mp hn
    have hidx : ∀ j ∈ l, (x :: l).idxOf j = l.idxOf j + 1 := fun j hj =>
      List.idxOf_cons_ne _ fun e => hx (e ▸ hj)
    cases w with
    | nil => simp
    | cons b w =>
      rw [List.map_cons, List.map_cons, List.sum_cons, List.sum_cons, List.idxOf_cons_self,
        ← ih w hn (by simpa using hl)]
      congr 2
      exact List.map_congr_left fun j hj => by rw [hidx j hj]; rfl

theorem sum_univ_eq {V : Type} [AddCommMonoid V] {k : Nat} {π : List (Fin k)}
    (hp : π.Perm (List.finRange k)) (F : Fin k → V) : (π.map F).sum = ∑ j, F j := by
  rw [(hp.map F).sum_eq, ← List.ofFn_eq_map, List.sum_ofFn]

/-- The squares of the positive weights. -/
theorem sum_sq_weights (o : Options n XR) (hl : 2 ≤ o.populationSize) :
    (((optParams o).weights.take (optParams o).mu).map fun x => x ^ 2).sum = 1 / (optParams o).muEff := by
  have htake : (optParams o).weights.take (optParams o).mu = realPos o.populationSize o.weights :=
    List.take_left' (length_realPos _ _)
  have hne := rawPos_ne_nil hl o.weights
  have hs : 0 < (rawPos o.populationSize o.weights).sum := sum_pos_of_mem hne fun _ => rawPos_pos
  rw [htake]
  show _ = 1 / effMass (rawPos o.populationSize o.weights)
  have e : effMass (realPos o.populationSize o.weights) = effMass (rawPos o.populationSize o.weights) := by
    unfold realPos
    simp_rw [div_eq_mul_inv]
    exact effMass_scale (inv_ne_zero hs.ne')
  have hsum : (realPos o.populationSize o.weights).sum = 1 := by
    unfold realPos
    simp_rw [div_eq_mul_inv]
    rw [List.sum_map_mul_right, List.map_id', mul_inv_cancel₀ hs.ne']
  rw [← e]
  unfold effMass
  rw [hsum, one_pow, one_div_one_div]

theorem faithful_value {f : List (Vec n XR × XR) → Vec n XR → XR} {log calls : List (Vec n XR × XR)}
    (h : Faithful f log calls) {j : Nat} (hj : j < calls.length) :
    calls[j].2 = f (log ++ calls.take j) calls[j].1 := by
  induction calls generalizing log j with
  | nil => simp at hj
  | cons e calls ih =>
    obtain ⟨x, v⟩ := e
    cases j with
    | zero => simpa using h.1
    | succ j =>
      have := ih h.2 (j := j) (by simpa using hj)
      simpa using this

/-- The order in which the drawn points are ranked if the values are `v`. -/
noncomputable def ranking (mode : Mode) {k : Nat} (v : Fin k → XR) : List (Fin k) :=
  (List.finRange k).insertionSort fun a b => (mode.sortCmp (v a) (v b) != .gt) = true

theorem ranking_perm (mode : Mode) {k : Nat} (v : Fin k → XR) :
    (ranking mode v).Perm (List.finRange k) := List.perm_insertionSort _ _

variable {env : Env n XR Nat} {obj : Obj n XR} {o : Options n XR} {t : List (NextCall n XR)}
  {c : CMAES n XR Nat}

/-- The steps drawn by the next call. -/
theorem stream_steps {ω : Nat → ℝ} (h : History.Of (env.withRng (streamRng ω)) obj o t c)
    (hcon : o.constraints = none) {r : RealState n} (hr : Rep c.state r)
    (z : Fin o.populationSize → Fin n → ℝ) {fuel : Nat} {ys : List (Vec n XR)} {r1 : Nat}
    (hd : resample (streamRng (replaceFrom ω (o.populationSize * t.length * n) z))
      c.state.cov.transform c.state.mean c.state.sigma c.sampler.constraints c.sampler.maxResamples
      c.sampler.populationSize fuel 0 [] c.sampler.rng = .ok (ys, r1)) :
    ys = List.ofFn fun j => Vec.fin (r.transform *ᵥ z j) := by
  obtain ⟨hrng, hz⟩ := stream_history h hcon
  obtain ⟨gs, i, _⟩ := fresh_inv h
  have hk : c.sampler.rng =
      (streamRng (replaceFrom ω (o.populationSize * t.length * n) z)).after
        ((streamRng (replaceFrom ω (o.populationSize * t.length * n) z)).seed 0)
        (o.populationSize * t.length * n) := by
    rw [hrng]
    show _ = (streamRng _).after 0 _
    rw [stream_after, Nat.zero_add]
  have hlen := (resample_eq_ok hd).1
  rw [hk] at hd
  obtain ⟨k', ks, -, -, a3, a4, a5, a6⟩ := resample_stream hd
  rw [List.nil_append] at a5
  have hks : ks = List.range' (o.populationSize * t.length) o.populationSize := by
    refine increasing_eq_range a3 ?_ ?_
    · rw [a6 (by rw [i.constraints, hcon]), List.length_nil, Nat.sub_zero, i.populationSize] at a4
      exact a4
    · rw [← i.populationSize, ← hlen, a5, List.length_map]
  rw [a5, hks]
  refine List.ext_getElem (by simp) fun j hj _ => ?_
  have hj' : j < o.populationSize := by simpa using hj
  rw [List.getElem_map, List.getElem_range', List.getElem_ofFn, Nat.one_mul]
  have hv : (streamRng (replaceFrom ω (o.populationSize * t.length * n) z)).vector
      ((streamRng (replaceFrom ω (o.populationSize * t.length * n) z)).seed 0)
      (o.populationSize * t.length + j) = Vec.fin (z ⟨j, hj'⟩) := by
    funext l
    show (streamRng _).draw 0 _ = _
    rw [stream_draw, Nat.zero_add, Nat.add_mul, Nat.add_assoc]
    exact congrArg _ (replaceFrom_row ω _ z ⟨j, hj'⟩ l)
  rw [hv, hr.transform, Mat.mulVec_fin]

/-- The update of a generation whose values do not depend on the points. -/
theorem neutral_updated {ω : Nat → ℝ} (h : History.Of (env.withRng (streamRng ω)) obj o t c)
    (hcon : o.constraints = none) {r : RealState n} (hr : Rep c.state r) (hg : r.Good)
    (hnan : ∀ log x, Flt.isNaN (obj.f log x) = false)
    {kind : EvalKind} {v : Fin o.populationSize → XR}
    (hv : ∀ (j : Fin o.populationSize) log x, log.length = c.sampler.obj.log.length +
      callPos kind (env.sched c.world.steps) o.populationSize j → obj.f log x = v j)
    {z : Fin o.populationSize → Fin n → ℝ}
    (hx : ExactRun (env.withRng (streamRng (replaceFrom ω (o.populationSize * t.length * n) z))) o)
    {d : CMAES n XR Nat} {res : Option (TerminationData n XR)}
    (hn : c.next (env.withRng (streamRng (replaceFrom ω (o.populationSize * t.length * n) z))) kind =
      .ok (d, res)) :
    ∃ r' ok, Updated c.parameters (optParams o) c.state d.state r r'
      ((ranking o.mode v).map fun j => r.transform *ᵥ z j) d.sampler.functionEvals ok := by
  have hz := (stream_history h hcon).2 z
  rcases next_exact_sample hx hz hr hg hn with ⟨hf, _⟩ |
    ⟨ys, r', ok, calls, _, inds, hu, -, hl, -, hys, -, -, -, hsam⟩
  · exact absurd ⟨_, hf, by simp [CMAES.terminationData]⟩ (not_failed hz hnan hn)
  obtain ⟨gs', i', _⟩ := fresh_inv hz
  have hpop : c.sampler.populationSize = o.populationSize := i'.populationSize
  obtain ⟨ys', ps, hrs, hlen, hsort, hps', hord⟩ := sample_order hsam hl
  rw [hpop] at hlen
  have hdr := stream_steps h hcon hr z hrs
  have hfa : Faithful obj.f c.sampler.obj.log calls := by
    obtain ⟨gs, i, _⟩ := fresh_inv (hz.next hn hl)
    have := i.faithful
    rw [allCalls, List.flatMap_append] at this
    have := this.split.2
    rw [i'.log]
    simpa [allCalls] using this
  -- the values and steps, in the order in which the points were drawn
  have hval : ∀ j : Fin o.populationSize, (ps[j]'(by rw [hlen]; exact j.isLt)).value = v j := by
    intro j
    have hj := hord j (by rw [hlen]; exact j.isLt)
    rw [hpop] at hj
    obtain ⟨hk, hk'⟩ := List.getElem?_eq_some_iff.mp hj
    have := faithful_value hfa hk
    rw [hv j _ _ (by rw [List.length_append, List.length_take, min_eq_left hk.le]; rfl), hk'] at this
    exact this
  have hstep : ∀ j : Fin o.populationSize, (ps[j]'(by rw [hlen]; exact j.isLt)).unscaledStep =
      Vec.fin (r.transform *ᵥ z j) := by
    intro j
    have hj : (j : Nat) < ps.length := by rw [hlen]; exact j.isLt
    have e : (ps.map fun p => p.unscaledStep)[(j : Nat)]? = some ps[(j : Nat)].unscaledStep := by
      rw [List.getElem?_map, List.getElem?_eq_getElem hj]; rfl
    rw [hps', hdr, List.getElem?_ofFn, dif_pos j.isLt] at e
    injection e with e
    exact e.symm
  -- the ranking
  set g : Fin o.populationSize → EvaluatedPoint n XR := fun j => ps[j]'(by rw [hlen]; exact j.isLt)
    with hgdef
  have hps : ps = (List.finRange o.populationSize).map g := by
    refine List.ext_getElem (by simp [hlen]) fun j h1 h2 => ?_
    simp [hgdef]
  have hinds : inds = (ranking o.mode v).map g := by
    rw [hsort]
    conv_lhs => rw [hps]
    unfold sortPoints stableSort ranking
    symm
    apply List.map_insertionSort
    intro a _ b _
    simp only [hgdef, hval]
  have hys' : ys = (ranking o.mode v).map fun j => r.transform *ᵥ z j := by
    have hinj : Function.Injective (Vec.fin : (Fin n → ℝ) → Vec n XR) := fun a b hab => by
      funext l
      have := congrFun hab l
      injection this
    apply List.map_injective_iff.mpr hinj
    rw [← hys, hinds, List.map_map, List.map_map]
    exact List.map_congr_left fun j _ => hstep j
  exact ⟨r', ok, hys' ▸ hu⟩

/-- The mean after a generation whose values do not depend on the points. -/
theorem neutral_mean {ω : Nat → ℝ} (h : History.Of (env.withRng (streamRng ω)) obj o t c)
    (hcon : o.constraints = none) {r : RealState n} (hr : Rep c.state r) (hg : r.Good)
    (hnan : ∀ log x, Flt.isNaN (obj.f log x) = false)
    {kind : EvalKind} {v : Fin o.populationSize → XR}
    (hv : ∀ (j : Fin o.populationSize) log x, log.length = c.sampler.obj.log.length +
      callPos kind (env.sched c.world.steps) o.populationSize j → obj.f log x = v j)
    {z : Fin o.populationSize → Fin n → ℝ}
    (hx : ExactRun (env.withRng (streamRng (replaceFrom ω (o.populationSize * t.length * n) z))) o)
    {d : CMAES n XR Nat} {res : Option (TerminationData n XR)}
    (hn : c.next (env.withRng (streamRng (replaceFrom ω (o.populationSize * t.length * n) z))) kind =
      .ok (d, res)) :
    d.mean = Vec.fin (r.mean + ∑ j, ((optParams o).cm * r.sigma *
      ((optParams o).weights.take (optParams o).mu).getD ((ranking o.mode v).idxOf j) 0) •
        (r.transform *ᵥ z j)) := by
  obtain ⟨r', ok, hu⟩ := neutral_updated h hcon hr hg hnan hv hx hn
  show d.state.mean = _
  rw [hu.mean', hu.mean]
  congr 1
  unfold RealParams.mean RealParams.step
  have hnd : (ranking o.mode v).Nodup := (ranking_perm o.mode v).nodup_iff.mpr (List.nodup_finRange _)
  rw [zipWith_sum _ _ _ hnd, sum_univ_eq (ranking_perm o.mode v), Finset.smul_sum]
  congr 1
  exact Finset.sum_congr rfl fun j _ => smul_smul _ _ _

/-- Almost every vector of numbers keeps the run exact. -/
theorem exact_ae {ω : Nat → ℝ} (N : Nat) (hx : ExactRun (env.withRng (streamRng ω)) o) (k : Nat) :
    ∀ᵐ z ∂standardNormal k n, ExactRun (env.withRng (streamRng (replaceFrom ω N z))) o := by
  have hne : ∀ᵐ z ∂standardNormal k n, ∀ i j, z i j ≠ 0 := by
    rw [ae_all_iff]
    intro i
    rw [ae_all_iff]
    intro j
    have h1 : ∀ᵐ x ∂gaussianReal 0 1, x ≠ 0 := by
      refine (gaussianReal_absolutelyContinuous 0 one_ne_zero).ae_le ?_
      exact Measure.ae_ne _ 0
    have h2 : ∀ᵐ y ∂(Measure.pi fun _ : Fin n => gaussianReal 0 1), y j ≠ 0 :=
      (Measure.quasiMeasurePreserving_eval (fun _ : Fin n => gaussianReal 0 1) j).ae h1
    exact (Measure.quasiMeasurePreserving_eval
      (fun _ : Fin k => Measure.pi fun _ : Fin n => gaussianReal 0 1) i).ae h2
  filter_upwards [hne] with z hz
  have hvec : ∀ (ω' : Nat → ℝ) p, (streamRng ω').vector p 0 =
      (Vec.fin (fun i => ω' (p + i)) : Vec n XR) := by
    intro ω' p
    funext i
    show (streamRng ω').draw p (0 * n + i) = _
    rw [stream_draw, Nat.zero_mul, Nat.zero_add]
    rfl
  refine ⟨hx.eigen, fun p => ⟨_, hvec _ p⟩, fun hw p => ⟨_, ?_, hvec _ p⟩, hx.mean⟩
  obtain ⟨y, hy, he⟩ := hx.nonzero hw p
  intro h0
  apply hy
  funext i
  have hi := congrFun h0 i
  have hy' : y i = ω (p + i) := by
    have := congrFun (((hvec ω p).symm.trans he)) i
    injection this with this
    exact this.symm
  rw [hy']
  have hi : replaceFrom ω N z (p + i) = 0 := hi
  unfold replaceFrom at hi
  split at hi
  · exact absurd hi (hz _ _)
  · exact hi

/-- **C90.** Without selection the mean does not drift. In the setting of C88, if the objective
ignores the points it is called on (for example because it is constant), the mean after the next
generation, evaluated sequentially or in parallel, is a random vector `M z` with the law
`N(mean, (cm² sigma² / mu_eff) C)`, where `C` is the covariance matrix the points are drawn with; so
on average the mean stays where it is, whatever the weights are. -/
theorem c90_neutral {ω : Nat → ℝ} (hx : ExactRun (env.withRng (streamRng ω)) o)
    (h : History.Of (env.withRng (streamRng ω)) obj o t c) (hcon : o.constraints = none) {a b : ℝ}
    (h1 : c.parameters.c1 = .fin a) (h2 : c.parameters.cmu = .fin b) (hs : a + b < 1)
    (hig : obj.IgnoresPoint) (hnan : ∀ log x, Flt.isNaN (obj.f log x) = false) (kind : EvalKind) :
    let N := o.populationSize * t.length * n
    let last := c.generation - c.generation % c.generationsPerEigenUpdate
    ∃ (t1 : List (NextCall n XR)) (c1 : CMAES n XR Nat) (C : Matrix (Fin n) (Fin n) ℝ)
      (m : Fin n → ℝ) (σ cm μ : ℝ)
      (M : (Fin o.populationSize → Fin n → ℝ) → EuclideanSpace ℝ (Fin n)),
      t1 <+: t ∧ History.Of (env.withRng (streamRng ω)) obj o t1 c1 ∧ c1.generation = last ∧
      c1.covarianceMatrix = Mat.fin C ∧
      (c.generation % c.generationsPerEigenUpdate = 0 → c.covarianceMatrix = Mat.fin C) ∧
      c.mean = Vec.fin m ∧ c.sigma = .fin σ ∧ o.cm = .fin cm ∧ c.parameters.muEff = .fin μ ∧
      (∀ z : Fin o.populationSize → Fin n → ℝ,
        History.Of (env.withRng (streamRng (replaceFrom ω N z))) obj o t c) ∧
      (∀ᵐ z ∂standardNormal o.populationSize n, ∀ d res,
        c.next (env.withRng (streamRng (replaceFrom ω N z))) kind = .ok (d, res) →
        d.mean = Vec.fin (M z)) ∧
      (standardNormal o.populationSize n).map M =
        multivariateGaussian (toLp 2 m) (((cm * σ) ^ 2 / μ) • C) ∧
      ∫ z, M z ∂standardNormal o.populationSize n = toLp 2 m := by
  intro N last
  obtain ⟨r, x, i⟩ := exact_inv hx (by rw [rateSum_eq h h1 h2]; exact hs) h
  obtain ⟨t1, c1, s1, s2, s3, s4⟩ := i.snap
  obtain ⟨hp, hq⟩ := params_rep h
  obtain ⟨_, _, _, p⟩ := params_real h
  have hl2 : 2 ≤ o.populationSize := p.size
  set v : Fin o.populationSize → XR := fun j =>
    obj.f (List.replicate (c.sampler.obj.log.length + callPos kind (env.sched c.world.steps)
      o.populationSize j) (c.mean, c.sigma)) c.mean with hvdef
  have hv : ∀ (j : Fin o.populationSize) log x, log.length = c.sampler.obj.log.length +
      callPos kind (env.sched c.world.steps) o.populationSize j → obj.f log x = v j := fun j log x hj => hig _ _ _ _ (by rw [hj, List.length_replicate])
  set A : Fin o.populationSize → ℝ := fun j => (optParams o).cm * r.sigma *
      ((optParams o).weights.take (optParams o).mu).getD ((ranking o.mode v).idxOf j) 0 with hA
  have hsum : ∑ j, A j ^ 2 = ((optParams o).cm * r.sigma) ^ 2 / (optParams o).muEff := by
    have hnd : (ranking o.mode v).Nodup :=
      (ranking_perm o.mode v).nodup_iff.mpr (List.nodup_finRange _)
    have hlen : ((optParams o).weights.take (optParams o).mu).length ≤
        (ranking o.mode v).length := by
      rw [(ranking_perm o.mode v).length_eq, List.length_finRange, List.length_take]
      exact (min_le_left _ _).trans hq.mu_lambda
    rw [← sum_univ_eq (ranking_perm o.mode v)]
    simp_rw [hA, mul_pow]
    rw [List.sum_map_mul_left, sum_sq_idx _ _ hnd hlen, sum_sq_weights o hl2, mul_one_div]
  have hlaw : (standardNormal o.populationSize n).map
      (fun z => toLp 2 (r.mean + ∑ j, A j • (r.transform *ᵥ z j))) =
      multivariateGaussian (toLp 2 r.mean)
        ((((optParams o).cm * r.sigma) ^ 2 / (optParams o).muEff) • r.decomposed) := by
    rw [map_combination, hsum, transform_mul_transpose i.good]
  refine ⟨t1, c1, r.decomposed, r.mean, r.sigma, (optParams o).cm, (optParams o).muEff,
    fun z => toLp 2 (r.mean + ∑ j, A j • (r.transform *ᵥ z j)), s1, s2, s3, s4,
    fun hk => by rw [i.fresh hk]; exact i.rep.cov, i.rep.mean, i.rep.sigma, by rw [← hp.cm, p.cm],
    hp.muEff, (stream_history h hcon).2, ?_, hlaw, ?_⟩
  · filter_upwards [exact_ae N hx o.populationSize] with z hz d res hn
    exact neutral_mean h hcon i.rep i.good hnan hv hz hn
  · have hmeas : Measurable fun z : Fin o.populationSize → Fin n → ℝ =>
        toLp 2 (r.mean + ∑ j, A j • (r.transform *ᵥ z j)) := by
      have : Continuous fun z : Fin o.populationSize → Fin n → ℝ =>
          r.mean + ∑ j, A j • (r.transform *ᵥ z j) :=
        continuous_const.add (continuous_finset_sum _ fun j _ => by
          have hc : Continuous fun z : Fin o.populationSize → Fin n → ℝ => r.transform *ᵥ z j :=
            Continuous.matrix_mulVec continuous_const (continuous_apply j)
          exact hc.const_smul (A j))
      exact (by fun_prop : Measurable (toLp 2 : (Fin n → ℝ) → _)).comp this.measurable
    have := integral_id_multivariateGaussian (μ := toLp 2 r.mean)
      (S := (((optParams o).cm * r.sigma) ^ 2 / (optParams o).muEff) • r.decomposed)
    rw [← hlaw, integral_map hmeas.aemeasurable (by fun_prop)] at this
    exact this

namespace WitnessReal

/-- The objective that is constant. -/
noncomputable def flat : Obj 2 XR := { f := fun _ _ => .fin 7, log := [] }

theorem stream_exact' (mode : Mode) (w : Weights) (lambda : ℕ) :
    ExactRun ((renv 2).withRng (streamRng fun k => k + 1))
      { opts with mode := mode, weights := w, populationSize := lambda } := by
  have h := stream_exact w lambda
  exact ⟨h.eigen, h.draws, h.nonzero, h.mean⟩

/-- With the numbers `1, 2, 3, …`, every objective that never returns NaN, both modes, all weights
and between 2 and 32 points, any number of generations below `2^30 - 1` can be completed. -/
theorem stream_runs {obj : Obj 2 XR} (hv : ∀ log x, Flt.isNaN (obj.f log x) = false) (mode : Mode)
    (w : Weights) {lambda : ℕ} (h2 : 2 ≤ lambda) (hl : lambda ≤ 32) (kind : EvalKind) :
    ∀ k < 2 ^ 30 - 1, ∃ t c d res calls,
      History.Of ((renv 2).withRng (streamRng fun k => k + 1)) obj
        { opts with mode := mode, weights := w, populationSize := lambda } t c ∧
      c.generation = k ∧ t.length = k ∧
      c.next ((renv 2).withRng (streamRng fun k => k + 1)) kind = .ok (d, res) ∧
      d.sampler.obj.log = c.sampler.obj.log ++ calls ∧
      (¬ ∃ x, res = some x ∧ .invalidFunctionValue ∈ x.reasons) := by
  have step : ∀ {t c}, History.Of ((renv 2).withRng (streamRng fun k => k + 1)) obj
      { opts with mode := mode, weights := w, populationSize := lambda } t c →
      c.generation < 2 ^ 30 - 1 → _ :=
    fun {t c} hc hg => exact_step (stream_exact' mode w lambda) (rateSum_lt_one (by norm_num) h2 hl) hc
      (⟨fun k hk => by simp [opts, Options.new] at hk, hg,
        fun k hk => by simp [opts, Options.new] at hk,
        fun k hk => by simp [opts, Options.new] at hk, .inl fun l => ⟨_, rfl⟩⟩ : CanStep _ obj _ c)
      (.inl ⟨rfl, by decide⟩) hv kind
  intro k
  induction k with
  | zero =>
    intro _
    obtain ⟨c0, hc0⟩ := witness_new ((renv 2).withRng (streamRng fun k => k + 1)) w h2
    have hvalid := (c30_valid_iff _ _ _ _).mp ⟨c0, hc0⟩
    obtain ⟨c, hc⟩ := (c30_valid_iff ((renv 2).withRng (streamRng fun k => k + 1)) World.init obj
      { opts with mode := mode, weights := w, populationSize := lambda }).mpr hvalid
    have hh : History.Of ((renv 2).withRng (streamRng fun k => k + 1)) obj
      { opts with mode := mode, weights := w, populationSize := lambda } [] c := ⟨_, c, hc, .refl c⟩
    have hg : c.generation = 0 := by
      obtain ⟨gs, i, hi⟩ := fresh_inv hh
      have : gs = [] := by simpa using i.calls
      rw [this] at hi
      show c.state.generation = 0
      simpa using hi
    obtain ⟨d, res, calls, hn, hl, hf, _⟩ := step hh (by omega)
    exact ⟨[], c, d, res, calls, hh, hg, rfl, hn, hl, hf⟩
  | succ k ih =>
    intro hk
    obtain ⟨t, c, _, _, _, hc, hg, ht, -⟩ := ih (by omega)
    obtain ⟨d, res, calls, _, _, _, hg', hd⟩ := step hc (by omega)
    obtain ⟨d', res', calls', hn, hl, hf, _⟩ := step hd (by omega)
    exact ⟨_, d, d', res', calls', hd, by rw [hg', hg], by simp [ht], hn, hl, hf⟩

end WitnessReal

open WitnessReal in
/-- Non-vacuity: after 1000 generations with negative weights on a constant objective the
hypotheses are met, and a further `next` call returns. -/
example : ∃ t c a b, History.Of ((renv 2).withRng (streamRng fun k => k + 1)) flat
      { opts with mode := .maximize, weights := .negative, populationSize := 6 } t c ∧
    ExactRun ((renv 2).withRng (streamRng fun k => k + 1))
      { opts with mode := .maximize, weights := .negative, populationSize := 6 } ∧
    c.generation = 1000 ∧ c.parameters.c1 = .fin a ∧ c.parameters.cmu = .fin b ∧ a + b < 1 ∧
    flat.IgnoresPoint ∧ (∀ log x, Flt.isNaN (flat.f log x) = false) ∧
    ∃ d res, c.next ((renv 2).withRng (streamRng fun k => k + 1)) .seq = .ok (d, res) := by
  have hv : ∀ log x, Flt.isNaN (flat.f log x) = false := fun _ _ => isNaN_fin _
  obtain ⟨t, c, d, res, _, h, hg, _, hn, _⟩ := stream_runs hv .maximize .negative (lambda := 6)
    (by norm_num) (by norm_num) .seq 1000 (by norm_num)
  obtain ⟨hp, _⟩ := params_rep h
  exact ⟨t, c, _, _, h, stream_exact' _ _ _, hg, hp.c1, hp.cmu,
    rateSum_lt_one (by norm_num) (by show 2 ≤ 6; norm_num) (by show 6 ≤ _; norm_num),
    fun _ _ _ _ _ => rfl, hv, d, res, hn⟩

end Cmaes
