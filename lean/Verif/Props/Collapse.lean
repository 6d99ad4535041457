import Verif.Props.Feasible
import Verif.Props.TolX

/-!
# C87: the search cannot collapse early

In exact arithmetic and without negative weights a generation shrinks the variance in every
direction by the factor `1 - c1 - cmu` at most, and the step size by `exp (-cs/damp_s)` at most
(`c39_lower`).
-/

set_option linter.unusedSectionVars false

namespace Cmaes
open Matrix
variable {n : Nat} {R : Type} {env : Env n XR R} {obj : Obj n XR} {o : Options n XR}
  {t : List (NextCall n XR)} {s : NextCall n XR} {c d : CMAES n XR R}

/-- **C87, the covariance matrix.** Without negative weights, after `g` calls of `next` that did not
report `InvalidFunctionValue`, the variance in the direction of `v` is at least
`(1 - c1 - cmu)^g` times the initial one, `|v|²`. -/
theorem c87_variance (hx : ExactRun env o) (hw : o.weights ≠ .negative)
    (h : History.Of env obj o t c) :
    ∃ (C : Matrix (Fin n) (Fin n) ℝ) (c1 cmu : ℝ), c.covarianceMatrix = Mat.fin C ∧
      c.parameters.c1 = .fin c1 ∧ c.parameters.cmu = .fin cmu ∧ 0 ≤ 1 - c1 - cmu ∧
      ∀ v, (1 - c1 - cmu) ^ (t.filter fun s => ¬ s.Failed).length * (v ⬝ᵥ v) ≤ v ⬝ᵥ (C *ᵥ v) := by
  obtain ⟨hp, hq⟩ := params_rep h
  have hle := hq.le_one
  have key : ∀ {t : List (NextCall n XR)} {c : CMAES n XR R}, History.Of env obj o t c →
      ∃ C, c.covarianceMatrix = Mat.fin C ∧ ∀ v,
        (1 - (optParams o).c1 - (optParams o).cmu) ^ (t.filter fun s => ¬ s.Failed).length *
          (v ⬝ᵥ v) ≤ quad C v := by
    rintro t c ⟨w, c0, hnew, he⟩
    induction he with
    | refl =>
      obtain ⟨m, hm⟩ := hx.mean
      obtain ⟨s, hs2, hrep, _⟩ := fresh_rep hnew hm
      exact ⟨_, hrep.cov, fun v => by simp [quad]⟩
    | quiet _ hq ha ih =>
      obtain ⟨e, _⟩ := quiet_sameSearch hq ha
      unfold CMAES.covarianceMatrix
      rw [e.state]
      exact ih
    | @next c1 c2 t kind calls res he hn hl ih =>
      have hprev : History.Of env obj o t c1 := ⟨w, c0, hnew, he⟩
      obtain ⟨C, hC, hb⟩ := ih
      by_cases hf : ∃ x, res = some x ∧ .invalidFunctionValue ∈ x.reasons
      · have e2 := ((c11_nan hn hl).2 ((c11_nan hn hl).1.mp hf)).2.2.2.1
        have hF : (NextCall.Failed { kind, calls, result := res }) := hf
        exact ⟨C, e2.trans hC, by simpa [List.filter_append, hF] using hb⟩
      · obtain ⟨r, hr, hg, hpos⟩ := rep_inv hx hprev
        rcases next_exact hx hprev hr hg hn with ⟨h1, _⟩ | ⟨ys, r', ok, _, _, _, hu, _⟩
        · exact absurd ⟨_, h1, by simp [CMAES.terminationData]⟩ hf
        have hCr : C = r.C := Mat.fin_injective (hC.symm.trans hr.cov)
        subst hCr
        refine ⟨r'.C, hu.cov', fun v => ?_⟩
        have hF : ¬ (NextCall.Failed { kind, calls, result := res }) := hf
        have hlen : ((t ++ [({ kind, calls, result := res } : NextCall n XR)]).filter
            fun s => ¬ s.Failed).length =
            (t.filter fun s => ¬ s.Failed).length + 1 := by
          simp [List.filter_append, hF]
        have h0 := negSum_of_nonneg (hq.nonneg hw)
        have hge := cov_ge hg hpos hq.c1.le hq.cmu hp.cc_pos hp.cc_lt c1.state.generation ys v
        rw [hq.sum, h0, ← hu.cov] at hge
        rw [hlen, pow_succ']
        have := mul_le_mul_of_nonneg_left (hb v)
          (show 0 ≤ 1 - (optParams o).c1 - (optParams o).cmu by linarith)
        nlinarith
  obtain ⟨C, hC, hb⟩ := key h
  exact ⟨C, _, _, hC, hp.c1, hp.cmu, by linarith, hb⟩

/-- If `sigma` times a lower bound of the variances is at least `tol_x`, `TolX` is not reported. -/
theorem no_tolX (h : History.Of env obj o (t ++ [s]) c) (hs : s.Checked) {tol sg x : ℝ}
    {C : Matrix (Fin n) (Fin n) ℝ} (ht : tolXBound o = .fin tol) (es : c.sigma = .fin sg)
    (eC : c.covarianceMatrix = Mat.fin C) (hle : tol ≤ sg * x)
    (hC : ∀ v, x * (v ⬝ᵥ v) ≤ v ⬝ᵥ (C *ᵥ v)) (hsg : 0 ≤ sg) : .tolX ∉ s.reasons := by
  intro hr
  obtain ⟨hp, _⟩ := params_rep h
  let i : Fin n := ⟨0, Nat.pos_of_ne_zero hp.dim_ne⟩
  have hi := ((c24_implemented h hs).mp hr).1 i
  rw [es, eC, ht] at hi
  have hi' : |sg * C i i| < tol := by
    have e : Flt.abs ((.fin sg : XR) * Mat.fin C i i) = .fin |sg * C i i| := XR.abs_fin _
    rw [e, XR.lt_fin] at hi
    simpa using hi
  have hCi := hC (Pi.single i 1)
  have e2 : (Pi.single i 1 : Fin n → ℝ) ⬝ᵥ Pi.single i 1 = 1 := by simp
  have e3 : (Pi.single i 1 : Fin n → ℝ) ⬝ᵥ (C *ᵥ Pi.single i 1) = C i i := by simp
  rw [e2, e3, mul_one] at hCi
  exact absurd (lt_of_le_of_lt (le_abs_self _) hi')
    (not_lt.mpr (hle.trans (mul_le_mul_of_nonneg_left hCi hsg)))

/-! ### Negative weights -/

theorem Rep.decomposed_eq {st : State n XR} {r r' : RealState n} (h : Rep st r) (h' : Rep st r')
    (hg : r.Good) (hg' : r'.Good) : r'.decomposed = r.decomposed := by
  have hB : r'.B = r.B := Mat.fin_injective (h'.eigenvectors.symm.trans h.eigenvectors)
  have hd : r'.d = r.d := by
    have e := Mat.fin_injective (h'.sqrtEigenvalues.symm.trans h.sqrtEigenvalues)
    funext i
    have := congrFun (congrFun e i) i
    simp only [diagonal_apply_eq] at this
    rwa [Real.sqrt_inj (hg'.pos i).le (hg.pos i).le] at this
  unfold RealState.decomposed
  rw [hB, hd]

/-- The factor by which the matrix may shrink between two eigendecompositions that are `k`
generations apart. `W` is the sum of the magnitudes of the negative weights. -/
noncomputable def periodFactor (n k : ℕ) (c1 cmu W : ℝ) : ℝ :=
  if k = 1 then 1 - c1 - cmu - (n - 1) * (cmu * W) else 1 / 2 - (c1 + cmu) * n

/-- Generations within a period that are not its last one. -/
theorem within_period (h : History.Of env obj o t c) {j : ℕ} (hj : j < c.generationsPerEigenUpdate) :
    (j : ℝ) * (rateSum o * n) < 1 / 2 := by
  obtain ⟨hp, _⟩ := params_rep h
  obtain ⟨_, _, _, pr⟩ := params_real h
  have hlpos : 0 < c.parameters.lambda := by rw [pr.lambda]; have := pr.size; omega
  refine not_due hp (rate_pos h) hlpos ?_
  by_contra hh
  have := (generationsPerEigenUpdate_le hp (rate_pos h) hlpos j).mpr (by omega)
  omega

theorem periodFactor_pos (h : History.Of env obj o t c) (hs : rateSum o < 1) :
    0 < periodFactor n c.generationsPerEigenUpdate (optParams o).c1 (optParams o).cmu
      (-negSum (optParams o).weights) := by
  obtain ⟨hp, hq⟩ := params_rep h
  unfold periodFactor
  split
  · have := (bound_step hp.dim_ne hq hs one_pos le_rfl).2.2 rfl
    nlinarith
  · rename_i hk
    have := within_period h (j := 1) (by have := generationsPerEigenUpdate_pos h; omega)
    unfold rateSum at this
    push_cast at this
    linarith

/-- What one generation of a period leaves of the bound. -/
theorem period_step (h : History.Of env obj o t c) (hs : rateSum o < 1) {r : RealState n} {x : ℝ}
    (i : ExactInv env obj o t c r x) :
    periodFactor n c.generationsPerEigenUpdate (optParams o).c1 (optParams o).cmu
      (-negSum (optParams o).weights) ≤
    (1 - ((optParams o).c1 + (optParams o).cmu) + (optParams o).cmu * -negSum (optParams o).weights) *
      x - (optParams o).cmu * -negSum (optParams o).weights * n := by
  obtain ⟨hp, hq⟩ := params_rep h
  obtain ⟨_, hb, _⟩ := bound_step hp.dim_ne hq hs i.x_pos i.x_le
  have hkpos := generationsPerEigenUpdate_pos h
  have hxge := i.x_ge
  have hw := within_period h (Nat.mod_lt c.state.generation hkpos)
  unfold periodFactor
  split
  · rename_i hk
    have : x = 1 := by
      rw [hk, Nat.mod_one] at hxge
      simp only [Nat.cast_zero, zero_mul, sub_zero] at hxge
      exact le_antisymm i.x_le hxge
    rw [this]
    nlinarith
  · unfold rateSum at hw hxge
    linarith

theorem decomposed_bound (hx : ExactRun env o) (hs : rateSum o < 1) (h : History.Of env obj o t c) :
    ∀ r x, ExactInv env obj o t c r x → ∀ v,
      periodFactor n c.generationsPerEigenUpdate (optParams o).c1 (optParams o).cmu
        (-negSum (optParams o).weights) ^ (c.state.generation / c.generationsPerEigenUpdate) *
        (v ⬝ᵥ v) ≤ quad r.decomposed v := by
  have hfull := h
  obtain ⟨w, c0, h0, he⟩ := h
  induction he with
  | refl =>
    intro r x i v
    obtain ⟨m, hm⟩ := hx.mean
    obtain ⟨s, hs2, hrep, hg, _⟩ := fresh_rep h0 hm
    have := Rep.decomposed_eq hrep i.rep ⟨by simp, fun _ => one_pos, by simp, hs2⟩ i.good
    rw [this, hg]
    simp [RealState.decomposed, quad]
  | quiet he' hq ha ih =>
    rename_i c1 c2 t' op res
    have hprev : History.Of env obj o t' c1 := ⟨w, c0, h0, he'⟩
    obtain ⟨e, _⟩ := quiet_sameSearch hq ha
    have hk : c2.generationsPerEigenUpdate = c1.generationsPerEigenUpdate := by
      unfold CMAES.generationsPerEigenUpdate; rw [e.parameters]
    intro r x i v
    obtain ⟨r1, x1, i1⟩ := exact_inv hx hs hprev
    have hrep : Rep c2.state r1 := by rw [e.state]; exact i1.rep
    rw [Rep.decomposed_eq hrep i.rep i1.good i.good, hk, e.state]
    exact ih hprev r1 x1 i1 v
  | next he' hn hl ih =>
    rename_i c1 c2 t' kind calls res
    have hprev : History.Of env obj o t' c1 := ⟨w, c0, h0, he'⟩
    obtain ⟨r, x, i⟩ := exact_inv hx hs hprev
    have ih := ih hprev r x i
    obtain ⟨hp, hq⟩ := params_rep hprev
    have hpar : c2.parameters = c1.parameters := by
      obtain ⟨gs, j, _⟩ := fresh_inv hfull
      obtain ⟨gs', j', _⟩ := fresh_inv hprev
      rw [j.parameters, j'.parameters]
    have hk : c2.generationsPerEigenUpdate = c1.generationsPerEigenUpdate := by
      unfold CMAES.generationsPerEigenUpdate; rw [hpar]
    have hkpos := generationsPerEigenUpdate_pos hprev
    intro r2 x2 i2 v
    rcases next_exact hx hprev i.rep i.good hn with ⟨h1, h2, h3⟩ |
      ⟨ys, r', ok, _, _, _, hu, hfe, _, _, _, hbad, hgood, _⟩
    · have hrep : Rep c2.state r := by rw [h2]; exact i.rep
      rw [Rep.decomposed_eq hrep i2.rep i.good i2.good, hk, h2]
      exact ih v
    · have hok : ok = true := by
        cases ok with
        | true => rfl
        | false =>
          exact absurd ⟨_, hbad rfl, by simp [CMAES.terminationData]⟩
            (i2.noReport { kind, calls, result := res } (by simp))
      obtain ⟨hrep, hgen⟩ := hu.done hok
      rw [hk, hgen]
      by_cases hz : c2.state.generation % c2.generationsPerEigenUpdate = 0
      · have hd : r2.decomposed = r'.C := by
          rw [i2.fresh hz]
          exact Mat.fin_injective (i2.rep.cov.symm.trans hu.cov')
        have hcov := cov_bound hq hs hp.cc_pos hp.cc_lt i.good i.x_pos i.cov c1.state.generation ys v
        have hstep := period_step hprev hs i
        have hdiv : (c1.state.generation + 1) / c1.generationsPerEigenUpdate =
            c1.state.generation / c1.generationsPerEigenUpdate + 1 := by
          rw [hk, hgen] at hz
          exact Nat.succ_div_of_mod_eq_zero hz
        rw [hd, hu.cov, hdiv, pow_succ']
        refine le_trans ?_ hcov
        have h1 := ih v
        have h2 := periodFactor_pos hprev hs
        have h3 : 0 ≤ quad r.decomposed v := PosDef.quad_nonneg (decomposed_posDef i.good) v
        rw [mul_assoc]
        exact (mul_le_mul_of_nonneg_left h1 h2.le).trans (mul_le_mul_of_nonneg_right hstep h3)
      · have hnd : ¬ c1.state.lastEigenUpdateEvals + evalsPerEigenUpdate c1.parameters ≤
            c2.sampler.functionEvals := by
          intro hd
          obtain ⟨_, _, hlast⟩ := hu.due hd
          have e := hlast hok
          rw [i2.last, i2.evals] at e
          have hlam : 0 < o.populationSize := by
            obtain ⟨_, _, _, pr⟩ := params_real hprev
            have := pr.size
            omega
          have := Nat.eq_of_mul_eq_mul_left hlam e
          have h2 := Nat.mod_le c2.state.generation c2.generationsPerEigenUpdate
          omega
        obtain ⟨hB, hd', _⟩ := hu.notDue hnd
        have hg' : r'.Good := ⟨by rw [hB]; exact i.good.orthonormal, by rw [hd']; exact i.good.pos,
          hu.symm, hu.pos⟩
        have hdd : r'.decomposed = r.decomposed := by
          unfold RealState.decomposed; rw [hB, hd']
        have hdiv : (c1.state.generation + 1) / c1.generationsPerEigenUpdate =
            c1.state.generation / c1.generationsPerEigenUpdate := by
          rw [hk, hgen] at hz
          exact Nat.succ_div_of_mod_ne_zero hz
        rw [Rep.decomposed_eq hrep i2.rep hg' i2.good, hdd, hdiv]
        exact ih v

theorem negSum_eq (ws : List ℝ) : -negSum ws = (ws.map fun w => max (-w) 0).sum := by
  unfold negSum
  induction ws with
  | nil => simp
  | cons w ws ih =>
    rw [List.map_cons, List.sum_cons, List.map_cons, List.sum_cons, neg_add, ih, ← max_neg_neg, neg_zero]

/-- **C87, the covariance matrix with any weights.** If `c1 + cmu < 1`, every period of
`generations_per_eigen_update()` generations shrinks the variance in every direction by the factor
`periodFactor` at most, which is positive and depends on the strategy parameters only. -/
theorem c87_variance_any (hx : ExactRun env o) (h : History.Of env obj o t c) {c1 cmu : ℝ}
    {ws : List ℝ} (h1 : c.parameters.c1 = .fin c1) (h2 : c.parameters.cmu = .fin cmu)
    (h3 : c.parameters.weights = ws.map .fin) (hs : c1 + cmu < 1) {k : ℕ} {ρ : ℝ}
    (hk : k = c.generationsPerEigenUpdate)
    (hρ : ρ = periodFactor n k c1 cmu (ws.map fun w => max (-w) 0).sum) :
    0 < ρ ∧ ∃ C : Matrix (Fin n) (Fin n) ℝ, c.covarianceMatrix = Mat.fin C ∧
      ∀ v, ρ ^ ((c.generation + k - 1) / k) * (v ⬝ᵥ v) ≤ v ⬝ᵥ (C *ᵥ v) := by
  have hs' : rateSum o < 1 := by rw [rateSum_eq h h1 h2]; exact hs
  obtain ⟨r, x, i⟩ := exact_inv hx hs' h
  obtain ⟨hp, hq⟩ := params_rep h
  obtain rfl : (optParams o).c1 = c1 := by have := hp.c1.symm.trans h1; injection this
  obtain rfl : (optParams o).cmu = cmu := by have := hp.cmu.symm.trans h2; injection this
  obtain rfl : (optParams o).weights = ws :=
    (List.map_injective_iff.mpr fun a b hab => by injection hab) (hp.weights.symm.trans h3)
  rw [← negSum_eq, hk] at hρ
  have hpos : 0 < ρ := by rw [hρ]; exact periodFactor_pos h hs'
  refine ⟨hpos, r.C, i.rep.cov, fun v => ?_⟩
  have hb := decomposed_bound hx hs' h r x i v
  rw [← hρ, ← hk] at hb
  have hkpos : 0 < k := by rw [hk]; exact generationsPerEigenUpdate_pos h
  by_cases hz : c.state.generation % c.generationsPerEigenUpdate = 0
  · rw [i.fresh hz] at hb
    have e : (c.generation + k - 1) / k = c.state.generation / k := by
      rw [← hk] at hz
      obtain ⟨m, hm⟩ := Nat.dvd_of_mod_eq_zero hz
      show (c.state.generation + k - 1) / k = _
      rw [hm, Nat.mul_div_cancel_left _ hkpos, show k * m + k - 1 = (k - 1) + k * m by omega,
        Nat.add_mul_div_left _ _ hkpos, Nat.div_eq_of_lt (by omega), zero_add]
    rw [e]
    exact hb
  · have e : (c.generation + k - 1) / k = c.state.generation / k + 1 := by
      rw [← hk] at hz
      show (c.state.generation + k - 1) / k = _
      have := Nat.div_add_mod c.state.generation k
      have h2 := Nat.mod_lt c.state.generation hkpos
      conv_lhs => rw [← this]
      rw [show k * (c.state.generation / k) + c.state.generation % k + k - 1 =
        (c.state.generation % k - 1) + k * (c.state.generation / k + 1) by rw [mul_add]; omega,
        Nat.add_mul_div_left _ _ hkpos, Nat.div_eq_of_lt (by omega), zero_add]
    have hw := within_period h (Nat.mod_lt c.state.generation (generationsPerEigenUpdate_pos h))
    have hxge := i.x_ge
    have hr := rate_pos h
    have hk1 : c.generationsPerEigenUpdate ≠ 1 := fun h1 => hz (by rw [h1, Nat.mod_one])
    have hρx : ρ ≤ x := by
      rw [hρ]
      unfold periodFactor
      rw [if_neg hk1]
      have : 0 ≤ rateSum o * n := mul_nonneg hr.le (Nat.cast_nonneg n)
      unfold rateSum at this hw hxge
      linarith
    rw [e, pow_succ', mul_assoc]
    refine le_trans ?_ (i.cov v)
    exact (mul_le_mul_of_nonneg_left hb hpos.le).trans (mul_le_mul_of_nonneg_right hρx
      (PosDef.quad_nonneg (decomposed_posDef i.good) v))

/-- **C87, `TolX` with any weights.** If `c1 + cmu < 1`, `TolX` is not reported in generation `g` if
`tol_x` is at most `sigma_0 exp (-cs/damp_s)^g ρ^m`, where `m` is the number of periods begun. -/
theorem c87_tolX_any (hx : ExactRun env o) (h : History.Of env obj o (t ++ [s]) c) (hs : s.Checked)
    {tol s0 cs damp c1 cmu : ℝ} {ws : List ℝ} (ht : tolXBound o = .fin tol)
    (e0 : o.initialStepSize = .fin s0) (ecs : c.parameters.cs = .fin cs)
    (ed : c.parameters.dampS = .fin damp) (e1 : c.parameters.c1 = .fin c1)
    (emu : c.parameters.cmu = .fin cmu) (ew : c.parameters.weights = ws.map .fin)
    (hr : c1 + cmu < 1) {k : ℕ} {ρ : ℝ} (hk : k = c.generationsPerEigenUpdate)
    (hρ : ρ = periodFactor n k c1 cmu (ws.map fun w => max (-w) 0).sum)
    (hle : tol ≤ s0 * Real.exp (-(cs / damp)) ^ c.generation *
      ρ ^ ((c.generation + k - 1) / k)) : .tolX ∉ s.reasons := by
  obtain ⟨hpos, C, eC, hC⟩ := c87_variance_any hx h e1 emu ew hr hk hρ
  obtain ⟨s0', sg, cs', damp', e0', h0, es, ecs', ed', hsg⟩ := c39_lower hx h
  obtain rfl : s0' = s0 := by have := e0'.symm.trans e0; injection this
  obtain rfl : cs' = cs := by have := ecs'.symm.trans ecs; injection this
  obtain rfl : damp' = damp := by have := ed'.symm.trans ed; injection this
  have hgen : (((t ++ [s]).filter fun s => ¬ s.Failed).length) = c.generation := by
    have h1 := (c06_generations h).2.1
    have h2 := (c36_posDef hx h e1 emu hr).2
    have : ((t ++ [s]).filter fun s => s.ReportsPosDef) = [] := by
      rw [List.filter_eq_nil_iff]
      intro s hs
      simpa using h2 s hs
    rw [this] at h1
    simpa using h1.symm
  rw [hgen] at hsg
  exact no_tolX h hs ht es eC (hle.trans (mul_le_mul_of_nonneg_right hsg (by positivity))) (by
    intro v
    exact hC v) (le_trans (by positivity) hsg)

/-- **C87, `TolX`.** Without negative weights, `TolX` is not reported by a call of `next` that ends
with `g` calls that did not report `InvalidFunctionValue`, if `tol_x` is at most
`sigma_0 (exp (-cs/damp_s) (1 - c1 - cmu))^g`. -/
theorem c87_tolX (hx : ExactRun env o) (hw : o.weights ≠ .negative)
    (h : History.Of env obj o (t ++ [s]) c) (hs : s.Checked) {tol s0 cs damp c1 cmu : ℝ}
    (ht : tolXBound o = .fin tol) (e0 : o.initialStepSize = .fin s0)
    (ecs : c.parameters.cs = .fin cs) (ed : c.parameters.dampS = .fin damp)
    (e1 : c.parameters.c1 = .fin c1) (emu : c.parameters.cmu = .fin cmu)
    (hle : tol ≤ s0 * (Real.exp (-(cs / damp)) * (1 - c1 - cmu)) ^
      ((t ++ [s]).filter fun s => ¬ s.Failed).length) : .tolX ∉ s.reasons := by
  obtain ⟨s0', sg, cs', damp', e0', h0, es, ecs', ed', hsg⟩ := c39_lower hx h
  obtain ⟨C, c1', cmu', eC, e1', emu', h1, hC⟩ := c87_variance hx hw h
  obtain rfl : s0' = s0 := by have := e0'.symm.trans e0; injection this
  obtain rfl : cs' = cs := by have := ecs'.symm.trans ecs; injection this
  obtain rfl : damp' = damp := by have := ed'.symm.trans ed; injection this
  obtain rfl : c1' = c1 := by have := e1'.symm.trans e1; injection this
  obtain rfl : cmu' = cmu := by have := emu'.symm.trans emu; injection this
  rw [mul_pow, ← mul_assoc] at hle
  exact no_tolX h hs ht es eC (hle.trans (mul_le_mul_of_nonneg_right hsg (by positivity))) hC
    (le_trans (by positivity) hsg)

/-- **C87, default tolerance.** With the default `tol_x` the search cannot end with `TolX` after `g`
such calls as long as `(exp (-cs/damp_s) (1 - c1 - cmu))^g` is at least `10⁻¹²`. -/
theorem c87_default (hx : ExactRun env o) (hw : o.weights ≠ .negative) (ho : o.tolX = none)
    (h : History.Of env obj o (t ++ [s]) c) (hs : s.Checked) {cs damp c1 cmu : ℝ}
    (ecs : c.parameters.cs = .fin cs) (ed : c.parameters.dampS = .fin damp)
    (e1 : c.parameters.c1 = .fin c1) (emu : c.parameters.cmu = .fin cmu)
    (hle : (10 : ℝ)⁻¹ ^ 12 ≤ (Real.exp (-(cs / damp)) * (1 - c1 - cmu)) ^
      ((t ++ [s]).filter fun s => ¬ s.Failed).length) : .tolX ∉ s.reasons := by
  obtain ⟨s0, _, _, _, e0, h0, _⟩ := c39_lower hx h
  refine c87_tolX hx hw h hs (tol := (10 : ℝ)⁻¹ ^ 12 * s0) ?_ e0 ecs ed e1 emu ?_
  · unfold tolXBound
    rw [ho, e0]
    show (Flt.ofRat (1 / 10 ^ 12) : XR) * .fin s0 = _
    rw [XR.ofRat_eq, XR.mul_fin]
    congr 2
    norm_num
  · rw [mul_comm]
    exact mul_le_mul_of_nonneg_left hle h0.le

/-- **C25 in exact arithmetic.** If `c1 + cmu < 1`, `NoEffectAxis` and `NoEffectCoord` are never
reported: they tell that rounding has absorbed the steps. -/
theorem c25_exact (hx : ExactRun env o) (h : History.Of env obj o (t ++ [s]) c) (hs : s.Checked)
    {c1 cmu : ℝ} (h1 : c.parameters.c1 = .fin c1) (h2 : c.parameters.cmu = .fin cmu)
    (hr : c1 + cmu < 1) : .noEffectAxis ∉ s.reasons ∧ .noEffectCoord ∉ s.reasons := by
  obtain ⟨r, x, i⟩ := exact_inv hx (by rw [rateSum_eq h h1 h2]; exact hr) h
  have hm : c.mean = Vec.fin r.mean := i.rep.mean
  have hsg : c.sigma = .fin r.sigma := i.rep.sigma
  have hC : c.covarianceMatrix = Mat.fin r.C := i.rep.cov
  have hpos := i.good.sigma
  constructor
  · intro hmem
    obtain ⟨k, _, hk⟩ := (c25_noEffectAxis h hs).mp hmem
    have hB : ∀ j, r.B j k = 0 := by
      intro j
      have := hk j
      rw [hm, hsg, i.rep.sqrtEigenvalues, i.rep.eigenvectors, XR.ofRat_eq] at this
      have e : Vec.fin r.mean j + (.fin (((1 / 10 : ℚ)) : ℝ) : XR) * .fin r.sigma *
          Mat.fin (diagonal fun i => Real.sqrt (r.d i)) k k * Mat.fin r.B j k =
          .fin (r.mean j + ((1 / 10 : ℚ) : ℝ) * r.sigma * Real.sqrt (r.d k) * r.B j k) := by
        show (.fin (r.mean j + ((1 / 10 : ℚ) : ℝ) * r.sigma *
          diagonal (fun i => Real.sqrt (r.d i)) k k * r.B j k) : XR) = _
        rw [diagonal_apply_eq]
      rw [e] at this
      have e2 : r.mean j = r.mean j + ((1 / 10 : ℚ) : ℝ) * r.sigma * Real.sqrt (r.d k) * r.B j k :=
        of_decide_eq_true this
      have hd : 0 < Real.sqrt (r.d k) := Real.sqrt_pos.mpr (i.good.pos k)
      have hz : ((1 / 10 : ℚ) : ℝ) * r.sigma * Real.sqrt (r.d k) * r.B j k = 0 := by linarith
      have hne : ((1 / 10 : ℚ) : ℝ) * r.sigma * Real.sqrt (r.d k) ≠ 0 := by
        push_cast
        positivity
      exact (mul_eq_zero.mp hz).resolve_left hne
    have := congrFun (congrFun i.good.orthonormal k) k
    rw [mul_apply, one_apply_eq] at this
    simp [hB] at this
  · intro hmem
    obtain ⟨k, hk⟩ := (c25_noEffectCoord h hs).mp hmem
    rw [hm, hsg, hC, XR.ofRat_eq] at hk
    have e2 : r.mean k = r.mean k + ((2 / 10 : ℚ) : ℝ) * r.sigma * r.C k k := of_decide_eq_true hk
    have hd : 0 < r.C k k := i.posDef.diag_pos
    have : 0 < ((2 / 10 : ℚ) : ℝ) * r.sigma * r.C k k := by
      push_cast
      positivity
    linarith

open WitnessReal in
/-- Non-vacuity: the first 17 generations of a run with default `tol_x`. -/
example : ∃ t s c, History.Of (renv 2) sphere
      { opts with weights := .positive, populationSize := 6 } (t ++ [s]) c ∧
    ExactRun (renv 2) { opts with weights := .positive, populationSize := 6 } ∧
    c.generation = 17 ∧ s.Checked ∧ .tolX ∉ s.reasons ∧ .noEffectCoord ∉ s.reasons := by
  have hx := witness_exact .positive 6
  obtain ⟨t, c, hc, hg, ht⟩ := witness_run .positive (lambda := 6) (by norm_num) (by norm_num) 16
    (by norm_num)
  obtain ⟨d, res, calls, h1, h3, h4, hg', hd⟩ := exact_step hx
    (rateSum_lt_one (by norm_num) (by show 2 ≤ 6; norm_num) (by show 6 ≤ _; norm_num)) hc
    (witness_canStep (renv 2) (fun l => ⟨_, rfl⟩) .positive 6 (by omega))
    (.inl ⟨rfl, by decide⟩) (fun log x => XR.isNaN_fin _) .seq
  have hs : NextCall.Checked { kind := .seq, calls, result := res } :=
    ⟨h4, (c36_population hx hd (by show 6 ≤ _; norm_num)).2 _ (by simp)⟩
  obtain ⟨hp, _⟩ := params_rep hd
  refine ⟨t, _, d, hd, hx, by rw [hg', hg], hs, ?_, (c25_exact hx hd hs hp.c1 hp.cmu
    (rateSum_lt_one (by norm_num) (by show 2 ≤ 6; norm_num) (by show 6 ≤ _; norm_num))).2⟩
  refine c87_default hx (by simp) rfl hd hs hp.cs hp.dampS hp.c1 hp.cmu ?_
  have hm1 := one_le_realMuEff (lambda := 6) (by norm_num) .positive
  have hm3 := realMuEff_le (lambda := 6) (by norm_num) .positive
  norm_num at hm3
  show _ ≤ (Real.exp (-(realCs 2 (realMuEff 6 .positive) / realDampS 2 (realMuEff 6 .positive))) *
    (1 - realC1 2 (realMuEff 6 .positive) - realCmu 2 (realMuEff 6 .positive))) ^ _
  generalize realMuEff 6 .positive = m at *
  have hcs : 0 < realCs 2 m := by unfold realCs; positivity
  have hd1 : 1 + realCs 2 m ≤ realDampS 2 m := by
    unfold realDampS
    have := le_max_right (Real.sqrt ((m - 1) / (((2 : ℕ) : ℝ) + 1)) - 1) 0
    linarith
  have he : (1 / 3 : ℝ) ≤ Real.exp (-(realCs 2 m / realDampS 2 m)) := by
    have : realCs 2 m / realDampS 2 m ≤ 1 / 2 := by
      have : realCs 2 m ≤ 1 := by
        unfold realCs
        rw [div_le_one (by positivity)]
        push_cast
        linarith
      rw [div_le_iff₀ (by linarith)]
      linarith
    have := Real.add_one_le_exp (-(realCs 2 m / realDampS 2 m))
    linarith
  have he1 : Real.exp (-(realCs 2 m / realDampS 2 m)) ≤ 1 := by
    rw [Real.exp_le_one_iff, neg_nonpos]
    exact div_nonneg hcs.le (by linarith)
  have h1' : realC1 2 m ≤ 1 / 5 := by
    unfold realC1
    rw [div_le_iff₀ (by positivity)]
    push_cast
    linarith
  have h10 : 0 ≤ realC1 2 m := by unfold realC1; positivity
  have hinv : 1 / m ≤ 1 := by rw [div_le_one (by linarith)]; exact hm1
  have h2' : realCmu 2 m ≤ 1 / 5 := by
    unfold realCmu
    refine (min_le_right _ _).trans ?_
    rw [div_le_iff₀ (by positivity)]
    push_cast
    have : m + 1 / m ≤ 10 / 3 := by
      rw [← sub_nonneg, show 10 / 3 - (m + 1 / m) = (3 - m) * (m - 1 / 3) / m by field_simp; ring]
      exact div_nonneg (mul_nonneg (by linarith) (by linarith)) (by linarith)
    linarith
  have h20 := (realCmu_bounds (n := 2) (by norm_num) hm1).1
  have hb : (1 / 5 : ℝ) ≤ Real.exp (-(realCs 2 m / realDampS 2 m)) * (1 - realC1 2 m - realCmu 2 m) :=
    le_trans (by norm_num) (mul_le_mul he (by linarith : (3 / 5 : ℝ) ≤ 1 - realC1 2 m - realCmu 2 m)
      (by norm_num) (Real.exp_pos _).le)
  have hb1 : Real.exp (-(realCs 2 m / realDampS 2 m)) * (1 - realC1 2 m - realCmu 2 m) ≤ 1 :=
    mul_le_one₀ he1 (by linarith) (by linarith)
  refine le_trans ?_ (pow_le_pow_of_le_one (by linarith) hb1
    (le_trans (List.length_filter_le _ _) (by simp [ht] : _ ≤ 17)))
  exact le_trans (by norm_num) (pow_le_pow_left₀ (by norm_num) hb 17)

namespace WitnessReal

/-- Options with negative weights and a chosen `tol_x`. -/
noncomputable def tolXOpts (y : ℝ) : Options 2 XR :=
  { opts with weights := .negative, populationSize := 6, tolX := some (.fin y) }

theorem tolXOpts_exact (y : ℝ) : ExactRun (renv 2) (tolXOpts y) :=
  ⟨renv_exact, (renv_draws (by norm_num)).real, fun _ => renv_draws (by norm_num), _, rfl⟩

theorem tolXOpts_run (y : ℝ) : ∀ k < 2 ^ 30, ∃ t c, History.Of (renv 2) sphere (tolXOpts y) t c ∧
    c.generation = k ∧ (0 < k → ∃ t' s, t = t' ++ [s] ∧ s.Checked) := by
  intro k
  have hs := rateSum_lt_one (o := tolXOpts y) (by norm_num) (by show 2 ≤ 6; norm_num)
    (by show 6 ≤ _; norm_num)
  induction k with
  | zero =>
    intro _
    obtain ⟨c, hc⟩ : ∃ c, CMAES.new (renv 2) World.init sphere (tolXOpts y) = .ok c := by
      refine (c30_valid_iff _ _ _ _).mpr ?_
      obtain ⟨c, hc⟩ := witness_new (renv 2) .negative (lambda := 6) (by norm_num)
      exact (c30_valid_iff (renv 2) World.init sphere
        { opts with weights := .negative, populationSize := 6 }).mp ⟨c, hc⟩
    exact ⟨[], c, ⟨_, c, hc, .refl c⟩, (c31_fresh hc).1, fun h => absurd h (lt_irrefl _)⟩
  | succ k ih =>
    intro hk
    obtain ⟨t, c, hc, hg, _⟩ := ih (by omega)
    obtain ⟨d, res, calls, _, _, h4, hg', hd⟩ := exact_step (tolXOpts_exact y) hs hc
      ⟨fun k hk => by simp [tolXOpts, opts, Options.new] at hk, by omega,
        fun k hk => by simp [tolXOpts, opts, Options.new] at hk,
        fun k hk => by simp [tolXOpts, opts, Options.new] at hk, .inl fun l => ⟨_, rfl⟩⟩
      (.inl ⟨rfl, by decide⟩) (fun log x => XR.isNaN_fin _) .seq
    exact ⟨_, d, hd, by rw [hg', hg], fun _ => ⟨t, _, rfl, h4,
      (c36_population (tolXOpts_exact y) hd (by show 6 ≤ _; norm_num)).2 _ (by simp)⟩⟩

/-- Non-vacuity for `c87_tolX_any`: for every generation there is a positive `tol_x` with which
`TolX` is not reported in this generation of a run with negative weights. -/
example (g : ℕ) (h0 : 0 < g) (hg : g < 2 ^ 30) : ∃ tol > 0, ∃ t s c,
    History.Of (renv 2) sphere (tolXOpts tol) (t ++ [s]) c ∧ ExactRun (renv 2) (tolXOpts tol) ∧
    tolXBound (tolXOpts tol) = .fin tol ∧ s.Checked ∧ c.generation = g ∧ .tolX ∉ s.reasons := by
  obtain ⟨t0, c0, hc0, _⟩ := tolXOpts_run 0 1 (by norm_num)
  set q := optParams (tolXOpts 0) with hqd
  set k := c0.generationsPerEigenUpdate with hkd
  set ρ := periodFactor 2 k q.c1 q.cmu (q.weights.map fun w => max (-w) 0).sum with hρd
  have hs : ∀ y, rateSum (tolXOpts y) < 1 := fun y =>
    rateSum_lt_one (by norm_num) (by show 2 ≤ 6; norm_num) (by show 6 ≤ _; norm_num)
  have hρ : 0 < ρ := by
    rw [hρd, ← negSum_eq]
    exact periodFactor_pos hc0 (hs 0)
  refine ⟨1 * Real.exp (-(q.cs / q.dampS)) ^ g * ρ ^ ((g + k - 1) / k), by positivity, ?_⟩
  set y := 1 * Real.exp (-(q.cs / q.dampS)) ^ g * ρ ^ ((g + k - 1) / k)
  obtain ⟨t, c, hc, hgen, hch⟩ := tolXOpts_run y g hg
  obtain ⟨t', s, rfl, hcs⟩ := hch h0
  refine ⟨t', s, c, hc, tolXOpts_exact y, rfl, hcs, hgen, ?_⟩
  obtain ⟨hp, _⟩ := params_rep hc
  obtain ⟨hp0, _⟩ := params_rep hc0
  have hk : k = c.generationsPerEigenUpdate := by
    obtain ⟨gs, i, _⟩ := fresh_inv hc
    obtain ⟨gs0, i0, _⟩ := fresh_inv hc0
    rw [hkd]
    unfold CMAES.generationsPerEigenUpdate
    rw [i.parameters, i0.parameters]
    rfl
  refine c87_tolX_any (tolXOpts_exact y) hc hcs rfl (s0 := 1) rfl hp.cs hp.dampS hp.c1 hp.cmu
    hp.weights (hs y) hk rfl ?_
  rw [hgen]
  exact le_refl _

end WitnessReal

end Cmaes
