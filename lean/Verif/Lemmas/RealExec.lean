import Verif.Lemmas.RealPosDef
import Verif.Lemmas.SearchSim
import Verif.Props.Termination
import Verif.Props.Params
import Verif.Lemmas.Draws

/-!
# Executions in exact arithmetic
-/

namespace Cmaes
set_option linter.unusedSectionVars false
variable {n : Nat} {R : Type} {env : Env n XR R} {obj : Obj n XR} {o : Options n XR}
  {t : List (NextCall n XR)} {c : CMAES n XR R}
open Matrix XR

/-! ### Parameters -/

/-- The real value of a finite number. -/
def toReal : XR → ℝ
  | .fin x => x
  | _ => 0

/-- The parameters chosen for the given options. -/
noncomputable def optParams (o : Options n XR) : RealParams :=
  let m := realMuEff o.populationSize o.weights
  { mu := o.populationSize / 2
    weights := realPos o.populationSize o.weights ++ realRest n o.populationSize o.weights
    muEff := m
    cm := toReal o.cm
    cc := realCc n m
    c1 := realC1 n m
    cs := realCs n m
    cmu := realCmu n m
    dampS := realDampS n m }

/-- What the proofs use about the parameters. -/
structure RealParams.Ok (n lambda : ℕ) (w : Weights) (q : RealParams) : Prop where
  length : q.weights.length ≤ lambda
  mu_lambda : q.mu ≤ lambda
  c1 : 0 < q.c1
  cmu : 0 ≤ q.cmu
  le_one : q.c1 + q.cmu ≤ 1
  sum : q.weights.sum = 1 + negSum q.weights
  b1 : q.cmu * -negSum q.weights ≤ q.c1 + q.cmu
  b2 : n * (q.cmu * -negSum q.weights) ≤ 1 - q.c1 - q.cmu
  nonneg : w ≠ .negative → ∀ x ∈ q.weights, 0 ≤ x
  pos : ∀ x ∈ q.weights.take q.mu, 0 < x
  pos_sum : (q.weights.take q.mu).sum = 1
  cm : 0 < q.cm
  cm_le : q.cm ≤ 1

theorem negSum_append (a b : List ℝ) : negSum (a ++ b) = negSum a + negSum b := by
  simp [negSum]

theorem negSum_of_nonneg {l : List ℝ} (h : ∀ x ∈ l, 0 ≤ x) : negSum l = 0 := by
  unfold negSum
  induction l with
  | nil => rfl
  | cons a l ih =>
    rw [List.map_cons, List.sum_cons, min_eq_right (h a (by simp)), ih fun x hx => h x (by simp [hx]),
      add_zero]

theorem negSum_of_nonpos {l : List ℝ} (h : ∀ x ∈ l, x ≤ 0) : negSum l = l.sum := by
  unfold negSum
  congr 1
  conv_rhs => rw [← List.map_id l]
  exact List.map_congr_left fun x hx => min_eq_left (h x hx)

theorem realRest_nonpos {lambda : ℕ} (hn : n ≠ 0) (hl : 2 ≤ lambda) {s : Weights} {x : ℝ}
    (h : x ∈ realRest n lambda s) : x ≤ 0 := by
  have ha := realNegSum_nonneg hn hl
  simp only [realRest, List.mem_map] at h
  obtain ⟨y, hy, rfl⟩ := h
  exact div_nonpos_of_nonpos_of_nonneg
    (mul_nonpos_of_nonpos_of_nonneg (rawRest_nonpos hy) ha) (abs_nonneg _)

theorem realRest_eq_nil {lambda : ℕ} {s : Weights} (h : s ≠ .negative) :
    realRest n lambda s = [] := by
  have e : rawRest lambda s = [] := by cases s <;> simp_all [rawRest]
  rw [realRest, e, List.map_nil]

theorem length_realPos (lambda : ℕ) (s : Weights) : (realPos lambda s).length = lambda / 2 := by
  rw [realPos, List.length_map, length_rawPos]

theorem length_realRest (lambda : ℕ) (s : Weights) :
    (realRest n lambda s).length ≤ lambda - lambda / 2 := by
  by_cases h : s = .negative
  · subst h
    rw [realRest, List.length_map, length_rawRest]
  · rw [realRest_eq_nil h]; simp

theorem realNegSum_bounds {lambda : ℕ} (hn : n ≠ 0) (hl : 2 ≤ lambda) :
    let m := realMuEff lambda .negative
    realCmu n m * realNegSum n lambda ≤ realC1 n m + realCmu n m ∧
      n * (realCmu n m * realNegSum n lambda) ≤ 1 - realC1 n m - realCmu n m := by
  intro m
  have hm := one_le_realMuEff hl .negative
  obtain ⟨b1, b2⟩ := realC1_pos hn hm
  obtain ⟨d1, d2, d3⟩ := realCmu_bounds hn hm
  have hn' : (0 : ℝ) < n := by positivity
  by_cases h0 : realCmu n m = 0
  · rw [h0, zero_mul, mul_zero]
    exact ⟨by linarith, by linarith⟩
  · have hpos : 0 < realCmu n m := lt_of_le_of_ne d1 (Ne.symm h0)
    have e : realNegSum n lambda = min (1 + realC1 n m / realCmu n m)
        (min (1 + 2 * effMass (rawRest lambda .negative) / (m + 2))
          ((1 - realC1 n m - realCmu n m) / (n * realCmu n m))) := by
      unfold realNegSum
      simp only
      rw [if_neg h0]
    constructor
    · have : realNegSum n lambda ≤ 1 + realC1 n m / realCmu n m := by rw [e]; exact min_le_left _ _
      calc realCmu n m * realNegSum n lambda ≤ realCmu n m * (1 + realC1 n m / realCmu n m) :=
            mul_le_mul_of_nonneg_left this hpos.le
        _ = realC1 n m + realCmu n m := by field_simp; ring
    · have : realNegSum n lambda ≤ (1 - realC1 n m - realCmu n m) / (n * realCmu n m) := by
        rw [e]; exact (min_le_right _ _).trans (min_le_right _ _)
      rw [le_div_iff₀ (by positivity)] at this
      calc n * (realCmu n m * realNegSum n lambda) = realNegSum n lambda * (n * realCmu n m) := by ring
        _ ≤ _ := this

theorem params_rep (h : History.Of env obj o t c) :
    ParamsRep n c.parameters (optParams o) ∧ (optParams o).Ok n o.populationSize o.weights := by
  obtain ⟨m, c1, cmu, p⟩ := params_real h
  have hm := p.one_le
  have e1 := p.m_eq
  subst e1
  obtain ⟨a1, a2⟩ := realCc_pos p.dim hm
  obtain ⟨b1, b2⟩ := realC1_pos p.dim hm
  obtain ⟨d1, d2, d3⟩ := realCmu_bounds p.dim hm
  obtain ⟨e1, e2⟩ := realCs_pos (n := n) hm
  obtain ⟨cm, f1, f2, f3⟩ := p.cm_pos
  have f1' : (optParams o).cm = cm := by
    show toReal o.cm = cm
    rw [← p.cm, f1]; rfl
  have hl := p.size
  have hnp : negSum (realPos o.populationSize o.weights) = 0 :=
    negSum_of_nonneg fun x hx => (realPos_pos hx).le
  have hns : negSum (optParams o).weights = (realRest n o.populationSize o.weights).sum := by
    show negSum (_ ++ _) = _
    rw [negSum_append, hnp, zero_add, negSum_of_nonpos fun x hx => realRest_nonpos p.dim hl hx]
  have htake : (optParams o).weights.take (optParams o).mu = realPos o.populationSize o.weights :=
    List.take_left' (length_realPos _ _)
  constructor
  · refine ⟨p.dim, p.pdim, p.mu, ?_, ?_, p.weights, p.muEff, by linarith [hm, show (optParams o).muEff = realMuEff o.populationSize o.weights from rfl],
      by rw [f1', f1], p.cc, a1, a2, by rw [p.c1, p.c1_eq]; rfl, p.cs, e1, e2,
      by rw [p.cmu, p.cmu_eq]; rfl, p.dampS, ?_⟩
    · show 0 < o.populationSize / 2
      omega
    · show o.populationSize / 2 ≤ (_ ++ _ : List ℝ).length
      rw [List.length_append, length_realPos]; omega
    · have := realDampS_ge (n := n) (m := realMuEff o.populationSize o.weights)
      show 0 < realDampS n _
      linarith
  · refine ⟨?_, Nat.div_le_self _ 2, b1, d1, by show realC1 n _ + realCmu n _ ≤ 1; linarith, ?_, ?_, ?_, ?_, ?_, ?_,
      by rw [f1']; exact f2, by rw [f1']; exact f3⟩
    · show (_ ++ _ : List ℝ).length ≤ _
      rw [List.length_append, length_realPos]
      have := length_realRest (n := n) o.populationSize o.weights
      omega
    · rw [hns]
      show (_ ++ _ : List ℝ).sum = _
      rw [List.sum_append, realPos_sum hl]
    · rw [hns]
      by_cases hw : o.weights = .negative
      · show realCmu n _ * _ ≤ realC1 n _ + realCmu n _
        rw [hw, realRest_sum hl, neg_neg]
        exact (realNegSum_bounds p.dim hl).1
      · rw [realRest_eq_nil hw]
        show realCmu n _ * -0 ≤ realC1 n _ + realCmu n _
        rw [neg_zero, mul_zero]
        linarith
    · rw [hns]
      by_cases hw : o.weights = .negative
      · show n * (realCmu n _ * _) ≤ 1 - realC1 n _ - realCmu n _
        rw [hw, realRest_sum hl, neg_neg]
        exact (realNegSum_bounds p.dim hl).2
      · rw [realRest_eq_nil hw]
        show n * (realCmu n _ * -0) ≤ 1 - realC1 n _ - realCmu n _
        rw [neg_zero, mul_zero, mul_zero]
        linarith
    · intro hw x hx
      have : x ∈ realPos o.populationSize o.weights ++ realRest n o.populationSize o.weights := hx
      rw [realRest_eq_nil hw, List.append_nil] at this
      exact (realPos_pos this).le
    · rw [htake]; exact fun x hx => realPos_pos hx
    · rw [htake]; exact realPos_sum hl _

/-! ### Steps -/

theorem drawVecs_mem {rng : RngOps R XR} {m : Nat} {r : R} {z : Vec n XR}
    (h : z ∈ (drawVecs rng m r).1) : ∃ r', z = (drawVec rng r').1 := by
  induction m generalizing r with
  | zero => simp [drawVecs] at h
  | succ m ih =>
    simp only [drawVecs, List.mem_cons] at h
    rcases h with h | h
    · exact ⟨r, h⟩
    · exact ih h

theorem resample_mem {rng : RngOps R XR} {T : Mat n XR} {mean : Vec n XR} {sigma : XR}
    {cs : Option (Constraint XR)} {mx : Option Nat} {pop fuel i : Nat} {y ys : List (Vec n XR)}
    {r r' : R} (h : resample rng T mean sigma cs mx pop fuel i y r = .ok (ys, r'))
    (hy : ∀ z ∈ y, ∃ r, z = T.mulVec (drawVec rng r).1) :
    ∀ z ∈ ys, ∃ r, z = T.mulVec (drawVec rng r).1 := by
  induction fuel generalizing i y r with
  | zero => simp [resample] at h
  | succ fuel ih =>
    simp only [resample] at h
    split at h
    · simp at h
    · split at h
      · injection h with h
        injection h with h3 _
        subst h3
        exact hy
      · simp only [Outcome.bind_eq_ok] at h
        obtain ⟨⟨new, r1⟩, h1, h2⟩ := h
        refine ih h2 fun z hz => ?_
        rcases List.mem_append.mp hz with hz | hz
        · exact hy z hz
        · rw [(sampleRound_eq_ok h1).2.2] at hz
          obtain ⟨w, hw, rfl⟩ := List.mem_map.mp (List.mem_filter.mp hz).1
          obtain ⟨r2, rfl⟩ := drawVecs_mem hw
          exact ⟨r2, rfl⟩

/-- The steps of a generation are real, and not zero if negative weights are used. -/
theorem real_steps (hx : ExactRun env o) {r : RealState n} (hg : r.Good)
    {inds : List (EvaluatedPoint n XR)} {ys : List (Vec n XR)}
    (hys : ∀ z ∈ ys, ∃ s, z = (Mat.fin r.transform).mulVec (drawVec env.rng s).1)
    (hperm : (inds.map fun p => p.unscaledStep).Perm ys) :
    ∃ zs : List (Fin n → ℝ), inds.map (fun p => p.unscaledStep) = zs.map Vec.fin ∧
      zs.length = ys.length ∧ (o.weights = .negative → ∀ z ∈ zs, z ≠ 0) := by
  have h1 : ∀ p ∈ inds.map (fun p => p.unscaledStep), ∃ z : Fin n → ℝ, p = Vec.fin z ∧
      (o.weights = .negative → z ≠ 0) := by
    intro p hp
    obtain ⟨s, rfl⟩ := hys p (hperm.mem_iff.mp hp)
    by_cases hw : o.weights = .negative
    · obtain ⟨z, hz, he⟩ := hx.nonzero hw s
      rw [drawVec_eq, he, Mat.mulVec_fin]
      exact ⟨_, rfl, fun _ => transform_ne hg hz⟩
    · obtain ⟨z, he⟩ := hx.draws s
      rw [drawVec_eq, he, Mat.mulVec_fin]
      exact ⟨_, rfl, fun h => absurd h hw⟩
  have h2 : ∀ l : List (Vec n XR), (∀ p ∈ l, ∃ z : Fin n → ℝ, p = Vec.fin z ∧
      (o.weights = .negative → z ≠ 0)) → ∃ zs : List (Fin n → ℝ), l = zs.map Vec.fin ∧
      (o.weights = .negative → ∀ z ∈ zs, z ≠ 0) := by
    intro l
    induction l with
    | nil => exact fun _ => ⟨[], rfl, by simp⟩
    | cons a l ih =>
      intro h
      obtain ⟨z, hz, hn⟩ := h a (by simp)
      obtain ⟨zs, hzs, hns⟩ := ih fun p hp => h p (by simp [hp])
      refine ⟨z :: zs, by rw [hz, hzs, List.map_cons], fun hw x hx => ?_⟩
      rcases List.mem_cons.mp hx with h | h
      · rw [h]; exact hn hw
      · exact hns hw x h
  obtain ⟨zs, e, hz⟩ := h2 _ h1
  refine ⟨zs, e, ?_, hz⟩
  have := congrArg List.length e
  rw [List.length_map, List.length_map] at this
  rw [← this, ← hperm.length_eq, List.length_map]

/-! ### When the decomposition is recomputed -/

theorem toUsize_fin (x : ℝ) : Flt.toUsize (.fin x : XR) = min (2 ^ 64 - 1) ⌊x⌋.toNat := rfl
theorem ceil_fin (x : ℝ) : Flt.ceil (.fin x : XR) = .fin (⌈x⌉ : ℝ) := rfl

theorem evalsPerEigenUpdate_fin {p : Parameters XR} {q : RealParams} (hp : ParamsRep n p q)
    (hs : 0 < q.c1 + q.cmu) :
    evalsPerEigenUpdate p =
      min (2 ^ 64 - 1) ⌈(p.lambda : ℝ) / (2 * n * (q.c1 + q.cmu))⌉₊ := by
  have hn : (n : ℝ) ≠ 0 := by exact_mod_cast hp.dim_ne
  unfold evalsPerEigenUpdate
  rw [hp.dim, hp.c1, hp.cmu, ofRat_eq, ofNat_eq, ofNat_eq, ofNat_eq, mul_fin, mul_fin, XR.add_fin,
    mul_fin, div_fin (by push_cast; positivity), ceil_fin, toUsize_fin, Int.floor_intCast]
  congr 1
  have e : ((1 / 2 : ℚ) : ℝ) * n * p.lambda / ((q.c1 + q.cmu) * ((n ^ 2 : ℕ) : ℝ)) =
      (p.lambda : ℝ) / (2 * n * (q.c1 + q.cmu)) := by
    push_cast
    field_simp
  rw [e]
  rfl

theorem evalsPerEigenUpdate_pos {p : Parameters XR} {q : RealParams} (hp : ParamsRep n p q)
    (hs : 0 < q.c1 + q.cmu) (hl : 0 < p.lambda) : 0 < evalsPerEigenUpdate p := by
  have hn : (0 : ℝ) < n := by exact_mod_cast Nat.pos_of_ne_zero hp.dim_ne
  rw [evalsPerEigenUpdate_fin hp hs]
  have : 0 < ⌈(p.lambda : ℝ) / (2 * n * (q.c1 + q.cmu))⌉₊ := by
    rw [Nat.ceil_pos]
    positivity
  omega

/-- While no update is due, less than `1 / (2 n (c1 + cmu))` generations have passed. -/
theorem not_due {p : Parameters XR} {q : RealParams} (hp : ParamsRep n p q)
    (hs : 0 < q.c1 + q.cmu) (hl : 0 < p.lambda) {j : ℕ} (h : j * p.lambda < evalsPerEigenUpdate p) :
    (j : ℝ) * ((q.c1 + q.cmu) * n) < 1 / 2 := by
  have hn : (0 : ℝ) < n := by exact_mod_cast Nat.pos_of_ne_zero hp.dim_ne
  have hl' : (0 : ℝ) < p.lambda := by exact_mod_cast hl
  rw [evalsPerEigenUpdate_fin hp hs] at h
  have h1 : j * p.lambda < ⌈(p.lambda : ℝ) / (2 * n * (q.c1 + q.cmu))⌉₊ :=
    lt_of_lt_of_le h (min_le_right _ _)
  rw [Nat.lt_ceil] at h1
  rw [lt_div_iff₀ (by positivity)] at h1
  push_cast at h1
  have h2 : (j : ℝ) * ((q.c1 + q.cmu) * n) * (2 * p.lambda) < 1 / 2 * (2 * p.lambda) := by
    calc _ = (j : ℝ) * p.lambda * (2 * n * (q.c1 + q.cmu)) := by ring
      _ < p.lambda := h1
      _ = _ := by ring
  exact lt_of_mul_lt_mul_right h2 (by positivity)

/-- `generations_per_eigen_update()` generations make an update due. -/
theorem generationsPerEigenUpdate_le {q : RealParams} (hp : ParamsRep n c.parameters q)
    (hs : 0 < q.c1 + q.cmu) (hl : 0 < c.parameters.lambda) (j : ℕ) :
    c.generationsPerEigenUpdate ≤ j ↔
      evalsPerEigenUpdate c.parameters ≤ j * c.parameters.lambda := by
  have hl' : (0 : ℝ) < c.parameters.lambda := by exact_mod_cast hl
  have hle : evalsPerEigenUpdate c.parameters ≤ 2 ^ 64 - 1 := by
    rw [evalsPerEigenUpdate_fin hp hs]; exact min_le_left _ _
  have e : c.generationsPerEigenUpdate =
      ⌈(evalsPerEigenUpdate c.parameters : ℝ) / c.parameters.lambda⌉₊ := by
    unfold CMAES.generationsPerEigenUpdate
    rw [ofNat_eq, ofNat_eq, div_fin hl'.ne', ceil_fin, toUsize_fin, Int.floor_intCast]
    refine min_eq_right (le_trans (b := evalsPerEigenUpdate c.parameters) ?_ hle)
    show ⌈(evalsPerEigenUpdate c.parameters : ℝ) / c.parameters.lambda⌉₊ ≤ _
    rw [Nat.ceil_le]
    have : (1 : ℝ) ≤ c.parameters.lambda := by exact_mod_cast hl
    exact div_le_self (Nat.cast_nonneg _) this
  rw [e, Nat.ceil_le, div_le_iff₀ hl']
  exact_mod_cast Iff.rfl

/-! ### One `next` call -/

/-- A `next` call in exact arithmetic. -/
theorem next_exact_sample (hx : ExactRun env o) (h : History.Of env obj o t c) {r : RealState n}
    (hr : Rep c.state r) (hg : r.Good) {kind : EvalKind} {d : CMAES n XR R}
    {res : Option (TerminationData n XR)} (hn : c.next env kind = .ok (d, res)) :
    (res = some (d.terminationData [.invalidFunctionValue]) ∧ d.state = c.state ∧
      d.sampler.functionEvals = c.sampler.functionEvals) ∨
    ∃ ys r' ok calls ps inds, Updated c.parameters (optParams o) c.state d.state r r' ys
        d.sampler.functionEvals ok ∧
      d.sampler.functionEvals = c.sampler.functionEvals + o.populationSize ∧
      d.sampler.obj.log = c.sampler.obj.log ++ calls ∧
      Sampled kind c.state.mean c.state.sigma o.mode o.populationSize calls ps inds ∧
      inds.map (fun p => p.unscaledStep) = ys.map Vec.fin ∧
      (ok = false → res = some (d.terminationData [.posDefCov])) ∧
      (ok = true → ∀ x, res = some x → .posDefCov ∉ x.reasons ∧ .invalidFunctionValue ∉ x.reasons) ∧
      (∀ y ∈ ys, ∃ s, Vec.fin y = (Mat.fin r.transform).mulVec (drawVec env.rng s).1) ∧
      c.sampler.sample env kind (env.sched c.world.steps) c.state.cov.transform c.state.mean
        c.state.sigma o.mode = .ok (some inds, d.sampler) := by
  obtain ⟨gs, i, _⟩ := fresh_inv h
  obtain ⟨hp, hok⟩ := params_rep h
  have hmode : c.parameters.mode = o.mode := by rw [i.parameters]; rfl
  obtain ⟨sres, hsam, _, _, _, _, hcase⟩ := next_core hn
  obtain ⟨ys, calls, hrs, hlog, _, hs⟩ := sample_cases hsam
  rcases hcase with ⟨h1, h2, _, _, h3⟩ | ⟨inds, ok, h1, _, hu, hf, ht⟩
  · rcases hs with ⟨_, _, _, h4, _⟩ | ⟨_, _, h4, _⟩
    · exact .inl ⟨h3, h2, h4⟩
    · rw [h1] at h4; cases h4
  · rcases hs with ⟨h4, _⟩ | ⟨ps, inds', h4, hsm, hps, hfe⟩
    · rw [h1] at h4; cases h4
    · rw [h1] at h4
      injection h4 with h4
      subst h4
      have hmem : ∀ z ∈ ys, ∃ s, z = (Mat.fin r.transform).mulVec (drawVec env.rng s).1 := by
        rw [← hr.transform]
        exact resample_mem hrs (by simp)
      have hperm : (inds.map fun p => p.unscaledStep).Perm ys := by
        rw [← hps]; exact hsm.indsPerm.map _
      obtain ⟨zs, hz, hlen, hnz⟩ := real_steps hx hg hmem hperm
      have hzl : zs.length = o.populationSize := by
        rw [hlen, ← hperm.length_eq, List.length_map, hsm.length, i.populationSize]
      obtain ⟨r', hupd⟩ := update_fin hp hr hg hx.eigen hz (by rw [hzl]; exact hok.length)
        (fun k h1 h2 hneg => by
          by_cases hw : o.weights = .negative
          · exact invSqrt_ne hg (hnz hw _ (List.getElem_mem h2))
          · exact absurd (hok.nonneg hw _ (List.getElem_mem h1)) (not_le.mpr hneg)) hu
      refine .inr ⟨zs, r', ok, calls, ps, inds, hupd, by rw [hfe, i.populationSize], hlog, ?_, hz, ?_,
        ?_, ?_, by rw [← hmode, ← h1]; exact hsam⟩
      · rw [hmode, i.populationSize] at hsm; exact hsm
      · exact fun h => (hf h).1
      · intro h x hx'
        obtain ⟨_, reasons, hch, hres⟩ := ht h
        rw [hx'] at hres
        split at hres
        · cases hres
        · injection hres with hres
          have hsub := check_sublist hch
          rw [hres]
          exact ⟨fun hm => absurd (hsub.mem hm) (by simp [checkOrder]),
            fun hm => absurd (hsub.mem hm) (by simp [checkOrder])⟩
      · intro y hy
        have : Vec.fin y ∈ inds.map fun p => p.unscaledStep := by
          rw [hz]; exact List.mem_map.mpr ⟨y, hy, rfl⟩
        exact hmem _ (hperm.mem_iff.mp this)

/-- One call, without the sampling. -/
theorem next_exact (hx : ExactRun env o) (h : History.Of env obj o t c) {r : RealState n}
    (hr : Rep c.state r) (hg : r.Good) {kind : EvalKind} {d : CMAES n XR R}
    {res : Option (TerminationData n XR)} (hn : c.next env kind = .ok (d, res)) :
    (res = some (d.terminationData [.invalidFunctionValue]) ∧ d.state = c.state ∧
      d.sampler.functionEvals = c.sampler.functionEvals) ∨
    ∃ ys r' ok calls ps inds, Updated c.parameters (optParams o) c.state d.state r r' ys
        d.sampler.functionEvals ok ∧
      d.sampler.functionEvals = c.sampler.functionEvals + o.populationSize ∧
      d.sampler.obj.log = c.sampler.obj.log ++ calls ∧
      Sampled kind c.state.mean c.state.sigma o.mode o.populationSize calls ps inds ∧
      inds.map (fun p => p.unscaledStep) = ys.map Vec.fin ∧
      (ok = false → res = some (d.terminationData [.posDefCov])) ∧
      (ok = true → ∀ x, res = some x → .posDefCov ∉ x.reasons ∧ .invalidFunctionValue ∉ x.reasons) ∧
      ∀ y ∈ ys, ∃ s, Vec.fin y = (Mat.fin r.transform).mulVec (drawVec env.rng s).1 := by
  rcases next_exact_sample hx h hr hg hn with hf | ⟨ys, r', ok, calls, ps, inds, h1, h2, h3, h4, h5, h6, h7, h8, _⟩
  · exact .inl hf
  · exact .inr ⟨ys, r', ok, calls, ps, inds, h1, h2, h3, h4, h5, h6, h7, h8⟩

end Cmaes
