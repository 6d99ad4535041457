import Verif.Lemmas.ParamsReal
import Verif.Props.Best
import Verif.Props.Build
import Verif.WitnessReal

/-!
# C33, C34: weights and learning rates

The theorems are about `XR`, real numbers without rounding. `.fin x` is the real number `x`.
-/

namespace Cmaes
set_option linter.unusedSectionVars false
variable {n : Nat} {R : Type} {env : Env n XR R} {obj : Obj n XR} {o : Options n XR}
  {t : List (NextCall n XR)} {c : CMAES n XR R}
open XR

/-- Every parameter of a reachable `CMAES`, in exact arithmetic. -/
structure ParamsAre (o : Options n XR) (p : Parameters XR) (m c1 cmu : ℝ) : Prop where
  dim : n ≠ 0
  size : 2 ≤ o.populationSize
  m_eq : m = realMuEff o.populationSize o.weights
  c1_eq : c1 = realC1 n m
  cmu_eq : cmu = realCmu n m
  pdim : p.dim = n
  lambda : p.lambda = o.populationSize
  mu : p.mu = o.populationSize / 2
  muEff : p.muEff = .fin m
  weights : p.weights =
    (realPos o.populationSize o.weights ++ realRest n o.populationSize o.weights).map .fin
  cc : p.cc = .fin (realCc n m)
  c1 : p.c1 = .fin c1
  cs : p.cs = .fin (realCs n m)
  cmu : p.cmu = .fin cmu
  cm : p.cm = o.cm
  dampS : p.dampS = .fin (realDampS n m)
  cm_pos : ∃ cm : ℝ, p.cm = .fin cm ∧ 0 < cm ∧ cm ≤ 1
  sigma : ∃ s : ℝ, o.initialStepSize = .fin s ∧ 0 < s
  one_le : 1 ≤ m

theorem params_real (h : History.Of env obj o t c) : ∃ m c1 cmu, ParamsAre o c.parameters m c1 cmu := by
  obtain ⟨gs, i, _⟩ := fresh_inv h
  obtain ⟨w, c0, h0, _⟩ := h
  obtain ⟨hn, hl, hst, hcm⟩ := (c30_valid_iff env w obj o).mp ⟨c0, h0⟩
  have hn' : n ≠ 0 := by omega
  have hm := one_le_realMuEff hl o.weights
  have e := muEff_fin hl o.weights
  rw [i.parameters]
  refine ⟨_, _, _, ⟨hn', hl, rfl, rfl, rfl, rfl, rfl, ?_, e, ?_, ?_, ?_, ?_, ?_, rfl, ?_, ?_, ?_, hm⟩⟩
  · show (InitialWeights.new o.populationSize o.weights : InitialWeights XR).mu = _
    rw [initialWeights_fin]
  · show (InitialWeights.new o.populationSize o.weights : InitialWeights XR).finalize n
      (paramC1 n (InitialWeights.new _ _).muEff)
      (paramCmu n (InitialWeights.new _ _).muEff (paramC1 n (InitialWeights.new _ _).muEff)) = _
    rw [e, paramC1_fin hm, paramCmu_fin hm, finalize_fin hn' hl]
  · show paramCc n (InitialWeights.new _ _).muEff = _
    rw [e, paramCc_fin hn' hm]
  · show paramC1 n (InitialWeights.new _ _).muEff = _
    rw [e, paramC1_fin hm]
  · show paramCs n (InitialWeights.new _ _).muEff = _
    rw [e, paramCs_fin hm]
  · show paramCmu n (InitialWeights.new _ _).muEff (paramC1 n (InitialWeights.new _ _).muEff) = _
    rw [e, paramC1_fin hm, paramCmu_fin hm]
  · show paramDampS n (InitialWeights.new _ _).muEff (paramCs n (InitialWeights.new _ _).muEff) = _
    rw [e, paramCs_fin hm, paramDampS_fin hm]
  · show ∃ cm : ℝ, o.cm = .fin cm ∧ 0 < cm ∧ cm ≤ 1
    obtain ⟨h1, h2, h3⟩ := hcm
    cases hc : o.cm with
    | fin x =>
      rw [hc, zero_eq, lt_fin] at h2
      rw [hc, one_eq, le_fin] at h3
      exact ⟨x, rfl, by simpa using h2, by simpa using h3⟩
    | _ => rw [hc] at h1; simp [Flt.isNormal, Ext.isNormal] at h1
  · obtain ⟨h1, h2⟩ := hst
    cases hc : o.initialStepSize with
    | fin x =>
      rw [hc, zero_eq, lt_fin] at h2
      exact ⟨x, rfl, by simpa using h2⟩
    | _ => rw [hc] at h1; simp [Flt.isNormal, Ext.isNormal] at h1

open WitnessReal in
/-- The concrete exact run `WitnessReal` exists, so the hypotheses of the theorems below can be met
(with the setting `Negative`, and with any other setting and population size at least two). -/
theorem witness_new (env : Env 2 XR Nat) (s : Weights) {lambda : ℕ} (h : 2 ≤ lambda) :
    ∃ c, CMAES.new env World.init sphere { opts with weights := s, populationSize := lambda } =
      .ok c := by
  obtain ⟨c, hc⟩ := (c30_valid_iff env World.init sphere
      { opts with weights := s, populationSize := lambda }).mpr (by
    refine ⟨by norm_num, h, ⟨?_, ?_⟩, ?_, ?_, ?_⟩
    · show Flt.isNormal (.fin 1 : XR) = true
      rw [isNormal_fin]; simp
    · show Flt.lt 0 (.fin 1 : XR) = true
      rw [zero_eq, lt_fin]; simp
    · show Flt.isNormal (1 : XR) = true
      rw [one_eq, isNormal_fin]; simp
    · show Flt.lt 0 (1 : XR) = true
      rw [zero_eq, one_eq, lt_fin]; simp
    · show Flt.le 1 (1 : XR) = true
      rw [one_eq, le_fin]; simp)
  exact ⟨c, hc⟩

open WitnessReal in
theorem witness_builds (s : Weights) {lambda : ℕ} (h : 2 ≤ lambda) :
    ∃ c, History.Of (renv 2) sphere { opts with weights := s, populationSize := lambda } [] c :=
  let ⟨c, hc⟩ := witness_new (renv 2) s h
  ⟨c, _, c, hc, .refl c⟩

/-! ### C34 -/

/-- **C34.** In exact arithmetic the effective selection mass and the learning rates of every
reachable `CMAES` are real numbers with `1 ≤ mu_eff ≤ mu`, `0 < cc < 1`, `0 < c1 < 1`,
`0 ≤ cmu ≤ 1 - c1`, `cmu = 0` exactly for fewer than four individuals, `0 < cs < 1` and
`damp_s ≥ 1 + cs`. -/
theorem c34_rates (h : History.Of env obj o t c) :
    ∃ muEff cc c1 cmu cs dampS : ℝ,
      c.parameters.muEff = .fin muEff ∧ c.parameters.cc = .fin cc ∧ c.parameters.c1 = .fin c1 ∧
      c.parameters.cmu = .fin cmu ∧ c.parameters.cs = .fin cs ∧
      c.parameters.dampS = .fin dampS ∧
      1 ≤ muEff ∧ muEff ≤ c.parameters.mu ∧
      (muEff = 1 ↔ o.populationSize < 4) ∧
      0 < cc ∧ cc < 1 ∧ 0 < c1 ∧ c1 < 1 ∧
      0 ≤ cmu ∧ cmu ≤ 1 - c1 ∧ (cmu = 0 ↔ o.populationSize < 4) ∧
      0 < cs ∧ cs < 1 ∧ 1 + cs ≤ dampS := by
  obtain ⟨m, c1, cmu, p⟩ := params_real h
  have hm := p.one_le
  obtain ⟨a1, a2⟩ := realCc_pos p.dim hm
  obtain ⟨b1, b2⟩ := realC1_pos p.dim hm
  obtain ⟨d1, d2, d3⟩ := realCmu_bounds p.dim hm
  obtain ⟨e1, e2⟩ := realCs_pos (n := n) hm
  have hone : m = 1 ↔ o.populationSize < 4 := by
    rw [p.m_eq]; exact realMuEff_eq_one_iff p.size _
  refine ⟨m, _, c1, cmu, _, _, p.muEff, p.cc, p.c1, p.cmu, p.cs, p.dampS, hm, ?_, hone, a1, a2, ?_,
    ?_, ?_, ?_, ?_, e1, e2, realDampS_ge⟩
  · rw [p.mu, p.m_eq]; exact realMuEff_le p.size _
  · rw [p.c1_eq]; exact b1
  · rw [p.c1_eq]; linarith
  · rw [p.cmu_eq]; exact d1
  · rw [p.cmu_eq, p.c1_eq]; exact d2
  · rw [p.cmu_eq, d3]; exact hone

open WitnessReal in
/-- Six points per generation: `mu_eff > 1` and `cmu > 0`. -/
example : ∃ c : CMAES 2 XR Nat, ∃ m cmu : ℝ, c.parameters.muEff = .fin m ∧
    c.parameters.cmu = .fin cmu ∧ 1 < m ∧ 0 < cmu := by
  obtain ⟨c, hc⟩ := witness_builds .negative (lambda := 6) (by norm_num)
  obtain ⟨m, _, _, cmu, _, _, h1, _, _, h4, _, _, h7, _, h9, _, _, _, _, h14, _, h16, _⟩ :=
    c34_rates hc
  refine ⟨c, m, cmu, h1, h4, lt_of_le_of_ne h7 fun h => ?_, lt_of_le_of_ne h14 fun h => ?_⟩
  · have := h9.mp h.symm
    exact absurd this (by decide)
  · have := h16.mp h.symm
    exact absurd this (by decide)

/-! ### C33 -/

theorem realPos_sum {lambda : ℕ} (h : 2 ≤ lambda) (s : Weights) : (realPos lambda s).sum = 1 := by
  have hs := sum_pos_of_mem (rawPos_ne_nil h s) fun _ => rawPos_pos
  unfold realPos
  simp only [div_eq_mul_inv]
  rw [List.sum_map_mul_right, List.map_id', mul_inv_cancel₀ hs.ne']

theorem rawPos_anti (lambda : ℕ) (s : Weights) : (rawPos lambda s).Pairwise (· ≥ ·) := by
  cases s with
  | uniform => exact List.pairwise_replicate.mpr (.inr le_rfl)
  | positive | negative =>
    refine List.Pairwise.map _ (R := (· < ·)) ?_ List.pairwise_lt_range
    intro a b hab
    exact (logWeight_strictAnti (by omega) (by omega)).le

theorem rawPos_strict (lambda : ℕ) {s : Weights} (hs : s ≠ .uniform) :
    (rawPos lambda s).Pairwise (· > ·) := by
  cases s with
  | uniform => exact absurd rfl hs
  | positive | negative =>
    refine List.Pairwise.map _ (R := (· < ·)) ?_ List.pairwise_lt_range
    intro a b hab
    exact logWeight_strictAnti (by omega) (by omega)

theorem rawRest_anti (lambda : ℕ) (s : Weights) : (rawRest lambda s).Pairwise (· ≥ ·) := by
  cases s with
  | uniform | positive => simp [rawRest]
  | negative =>
    refine List.Pairwise.map _ (R := (· < ·)) ?_ List.pairwise_lt_range
    intro a b hab
    exact (logWeight_strictAnti (by omega) (by omega)).le

theorem rawRest_sum_neg {lambda : ℕ} (h : 2 ≤ lambda) : (rawRest lambda .negative).sum < 0 := by
  obtain ⟨x, hx, h0⟩ := rawRest_exists h
  have h1 : -x ≤ ((rawRest lambda .negative).map fun x => -x).sum := by
    refine List.single_le_sum ?_ _ (List.mem_map.mpr ⟨x, hx, rfl⟩)
    simp only [List.mem_map]
    rintro y ⟨z, hz, rfl⟩
    have := rawRest_nonpos hz
    linarith
  have h2 : ((rawRest lambda .negative).map fun x => -x).sum = -(rawRest lambda .negative).sum := by
    rw [← List.sum_neg]
  linarith

theorem effMass_rest_pos {lambda : ℕ} (h : 2 ≤ lambda) : 0 < effMass (rawRest lambda .negative) := by
  obtain ⟨x, hx, h0⟩ := rawRest_exists h
  have h1 := rawRest_sum_neg h
  have h2 := h1.ne
  exact div_pos (by positivity) (sum_sq_pos ⟨x, hx, h0.ne⟩)

theorem realNegSum_nonneg {lambda : ℕ} (hn : n ≠ 0) (h : 2 ≤ lambda) :
    0 ≤ realNegSum n lambda := by
  have hm := one_le_realMuEff h .negative
  obtain ⟨b1, b2⟩ := realC1_pos hn hm
  obtain ⟨d1, d2, d3⟩ := realCmu_bounds hn hm
  have he := effMass_rest_pos h
  unfold realNegSum
  simp only
  split
  · positivity
  · refine le_min (by positivity) (le_min (by positivity) ?_)
    exact div_nonneg (by linarith) (by positivity)

theorem realRest_sum {lambda : ℕ} (h : 2 ≤ lambda) :
    (realRest n lambda .negative).sum = -realNegSum n lambda := by
  have hs := rawRest_sum_neg h
  unfold realRest
  have e : ∀ x : ℝ, x * realNegSum n lambda / |(rawRest lambda .negative).sum| =
      x * (realNegSum n lambda / |(rawRest lambda .negative).sum|) := fun x => by ring
  simp only [e]
  rw [List.sum_map_mul_right, List.map_id', abs_of_neg hs]
  have : (rawRest lambda .negative).sum ≠ 0 := hs.ne
  field_simp

/-- **C33.** In exact arithmetic the weights of every reachable `CMAES` are a list `pos` of
`mu = floor(lambda / 2) ≥ 1` positive weights that sum to one and never increase (for `Uniform` they
are equal, otherwise they strictly decrease), followed by a list `rest`, which is empty unless the
setting is `Negative`. With `Negative` there are `lambda` weights. -/
theorem c33_weights (h : History.Of env obj o t c) :
    ∃ pos rest : List ℝ, c.parameters.weights = (pos ++ rest).map .fin ∧
      pos.length = c.parameters.mu ∧ c.parameters.mu = o.populationSize / 2 ∧
      1 ≤ c.parameters.mu ∧ (∀ x ∈ pos, 0 < x) ∧ pos.sum = 1 ∧ pos.Pairwise (· ≥ ·) ∧
      (o.weights = .uniform → ∀ x ∈ pos, x = 1 / c.parameters.mu) ∧
      (o.weights ≠ .uniform → pos.Pairwise (· > ·)) ∧
      (o.weights ≠ .negative → rest = []) ∧
      (o.weights = .negative → (pos ++ rest).length = o.populationSize ∧ (∀ x ∈ rest, x ≤ 0) ∧
        rest.Pairwise (· ≥ ·)) := by
  obtain ⟨m, c1, cmu, p⟩ := params_real h
  have hs := sum_pos_of_mem (rawPos_ne_nil p.size o.weights) fun _ => rawPos_pos
  have hmu : 1 ≤ o.populationSize / 2 := by have := p.size; omega
  refine ⟨_, _, p.weights, ?_, p.mu, ?_, fun x => realPos_pos, realPos_sum p.size _, ?_, ?_, ?_, ?_,
    ?_⟩
  · rw [p.mu, realPos, List.length_map, length_rawPos]
  · rw [p.mu]; exact hmu
  · exact (rawPos_anti _ _).map _ fun a b hab => div_le_div_of_nonneg_right hab hs.le
  · intro hu x hx
    rw [hu] at hx
    simp only [realPos, List.mem_map] at hx
    obtain ⟨y, hy, rfl⟩ := hx
    have : rawPos o.populationSize .uniform = List.replicate (o.populationSize / 2) 1 := rfl
    rw [this] at hy ⊢
    rw [List.eq_of_mem_replicate hy, p.mu]
    simp
  · intro hu
    exact (rawPos_strict _ hu).map _ fun a b hab => div_lt_div_of_pos_right hab hs
  · intro hne
    have e : rawRest o.populationSize o.weights = [] := by
      generalize o.weights = s at hne
      cases s <;> simp_all [rawRest]
    rw [realRest, e, List.map_nil]
  · intro hneg
    rw [hneg]
    have ha := realNegSum_nonneg p.dim p.size
    refine ⟨?_, ?_, ?_⟩
    · rw [List.length_append, realPos, realRest, List.length_map, List.length_map, length_rawPos,
        length_rawRest]
      omega
    · intro x hx
      simp only [realRest, List.mem_map] at hx
      obtain ⟨y, hy, rfl⟩ := hx
      exact div_nonpos_of_nonpos_of_nonneg
        (mul_nonpos_of_nonpos_of_nonneg (rawRest_nonpos hy) ha) (abs_nonneg _)
    · exact (rawRest_anti _ _).map _ fun a b hab =>
        div_le_div_of_nonneg_right (mul_le_mul_of_nonneg_right hab ha) (abs_nonneg _)

/-- **C33, negative weights.** With the setting `Negative` the weights after the first `mu` sum to
minus the smallest of `1 + c1 / cmu`, `1 + 2 mu_eff⁻ / (mu_eff + 2)` and
`(1 - c1 - cmu) / (n cmu)`, where `mu_eff⁻ = (Σ w)² / Σ w²` over the logarithmic weights
`ln((lambda + 1) / 2) - ln i` of the ranks `i = mu + 1, ..., lambda`; for `cmu = 0` only the second
bound counts. -/
theorem c33_negative (h : History.Of env obj o t c) (hneg : o.weights = .negative) :
    ∃ (muEff c1 cmu : ℝ) (rest : List ℝ),
      c.parameters.muEff = .fin muEff ∧ c.parameters.c1 = .fin c1 ∧ c.parameters.cmu = .fin cmu ∧
      c.parameters.weights.drop c.parameters.mu = rest.map .fin ∧
      let w := (List.range (o.populationSize - c.parameters.mu)).map fun i =>
        Real.log (((o.populationSize : ℝ) + 1) / 2) - Real.log ((c.parameters.mu + i + 1 : ℕ) : ℝ)
      let muEffMinus := w.sum ^ 2 / (w.map fun x => x ^ 2).sum
      let bound := 1 + 2 * muEffMinus / (muEff + 2)
      rest.sum = -(if cmu = 0 then bound
        else min (1 + c1 / cmu) (min bound ((1 - c1 - cmu) / (n * cmu)))) := by
  obtain ⟨m, c1, cmu, p⟩ := params_real h
  refine ⟨m, c1, cmu, realRest n o.populationSize .negative, p.muEff, p.c1, p.cmu, ?_, ?_⟩
  · rw [p.weights, p.mu, hneg, ← List.map_drop, List.drop_left']
    rw [realPos, List.length_map, length_rawPos]
  · simp only
    rw [realRest_sum p.size, p.mu, p.cmu_eq, p.c1_eq, p.m_eq, hneg]
    rfl

/-- **C33.** The effective selection mass is that of the final weights: `mu_eff = 1 / Σ w_i²` over
the first `mu` weights. -/
theorem c33_muEff (h : History.Of env obj o t c) :
    ∃ pos : List ℝ, c.parameters.weights.take c.parameters.mu = pos.map .fin ∧
      c.parameters.muEff = .fin (1 / (pos.map fun x => x ^ 2).sum) := by
  obtain ⟨m, c1, cmu, p⟩ := params_real h
  have hs := sum_pos_of_mem (rawPos_ne_nil p.size o.weights) fun _ => rawPos_pos
  refine ⟨realPos o.populationSize o.weights, ?_, ?_⟩
  · rw [p.weights, p.mu, ← List.map_take, List.take_left']
    rw [realPos, List.length_map, length_rawPos]
  · rw [p.muEff, p.m_eq]
    congr 1
    have e := effMass_scale (l := rawPos o.populationSize o.weights) (inv_ne_zero hs.ne')
    unfold realMuEff
    rw [← e]
    have e2 : ((rawPos o.populationSize o.weights).map fun x =>
        x * (rawPos o.populationSize o.weights).sum⁻¹) = realPos o.populationSize o.weights := by
      simp only [realPos, div_eq_mul_inv]
    rw [e2, effMass, realPos_sum p.size, one_pow]

open WitnessReal in
/-- Five points per generation with negative weights: two positive weights and three others. -/
example : ∃ c : CMAES 2 XR Nat, c.parameters.mu = 2 ∧ c.parameters.weights.length = 5 := by
  obtain ⟨c, hc⟩ := witness_builds .negative (lambda := 5) (by norm_num)
  obtain ⟨pos, rest, h1, _, h3, _, _, _, _, _, _, _, h11⟩ := c33_weights hc
  refine ⟨c, h3, ?_⟩
  rw [h1, List.length_map]
  exact (h11 rfl).1

/-! ### C66 -/

/-- **C66.** In exact arithmetic the learning rates have their published values: with the effective
selection mass `m`,
`cc = (4 + m/n) / (n + 4 + 2m/n)`, `c1 = 2 / ((n + 1.3)² + m)`,
`cmu = min (1 - c1, 2 (m - 2 + 1/m) / ((n + 2)² + m))`, `cs = (m + 2) / (n + m + 5)`,
`damp_s = 1 + cs + 2 max (0, √((m - 1)/(n + 1)) - 1)`, and `cm` is the given one. -/
theorem c66_rates (h : History.Of env obj o t c) :
    ∃ m : ℝ, c.parameters.muEff = .fin m ∧
      c.parameters.cc = .fin ((4 + m / n) / (n + 4 + 2 * m / n)) ∧
      c.parameters.c1 = .fin (2 / ((n + 1.3) ^ 2 + m)) ∧
      c.parameters.cmu = .fin (min (1 - 2 / ((n + 1.3) ^ 2 + m))
        (2 * (m - 2 + 1 / m) / ((n + 2) ^ 2 + m))) ∧
      c.parameters.cs = .fin ((m + 2) / (n + m + 5)) ∧
      c.parameters.dampS = .fin (1 + (m + 2) / (n + m + 5) +
        2 * max 0 (Real.sqrt ((m - 1) / (n + 1)) - 1)) ∧
      c.parameters.cm = o.cm := by
  obtain ⟨m, c1, cmu, p⟩ := params_real h
  have e : (1.3 : ℝ) = 13 / 10 := by norm_num
  refine ⟨m, p.muEff, p.cc, ?_, ?_, p.cs, ?_, p.cm⟩
  · rw [p.c1, p.c1_eq, e]; rfl
  · rw [p.cmu, p.cmu_eq, e]
    unfold realCmu realC1
    rw [mul_div_right_comm 2 m 2, div_self two_ne_zero, one_mul]
  · rw [p.dampS, max_comm]; rfl

/-- **C66, weights.** In exact arithmetic the recombination weights are
`w_i = l_i / (l_1 + ... + l_mu)` with `l_i = ln ((λ + 1)/2) - ln i`, or `l_i = 1` for
`Weights::Uniform`, and the effective selection mass is `(Σ l_i)² / Σ l_i²`. -/
theorem c66_weights (h : History.Of env obj o t c) :
    let l := (List.range (o.populationSize / 2)).map fun i =>
      if o.weights = .uniform then 1
      else Real.log (((o.populationSize : ℝ) + 1) / 2) - Real.log ((i + 1 : ℕ) : ℝ)
    c.parameters.weights.take c.parameters.mu = l.map (fun x => .fin (x / l.sum)) ∧
      c.parameters.muEff = .fin (l.sum ^ 2 / (l.map fun x => x ^ 2).sum) := by
  obtain ⟨m, c1, cmu, p⟩ := params_real h
  intro l
  have hl : l = rawPos o.populationSize o.weights := by
    cases hw : o.weights with
    | uniform =>
      show (List.range _).map _ = List.replicate _ _
      rw [hw]
      simp
    | positive | negative =>
      show (List.range _).map _ = (List.range _).map _
      rw [hw]
      rfl
  refine ⟨?_, ?_⟩
  · rw [p.weights, p.mu, ← List.map_take, List.take_left' (by
      rw [realPos, List.length_map, length_rawPos]), hl, realPos, List.map_map]
    rfl
  · rw [p.muEff, p.m_eq, hl]; rfl

/-- **C66, negative weights.** With the setting `Negative` the other weights are
`w_i = a l_i / |l_(mu+1) + ... + l_λ|` with the same `l_i`, where `a` is the smallest of
`1 + c1 / cmu`, `1 + 2 mu_eff⁻ / (mu_eff + 2)` and `(1 - c1 - cmu) / (n cmu)`, of which only the
second counts for `cmu = 0`, and `mu_eff⁻ = (Σ l_i)² / Σ l_i²` over `i = mu + 1, ..., λ`. -/
theorem c66_negative (h : History.Of env obj o t c) (hneg : o.weights = .negative) :
    ∃ m c1 cmu : ℝ, c.parameters.muEff = .fin m ∧ c.parameters.c1 = .fin c1 ∧
      c.parameters.cmu = .fin cmu ∧
      let l := ((List.range o.populationSize).drop (o.populationSize / 2)).map fun i =>
        Real.log (((o.populationSize : ℝ) + 1) / 2) - Real.log ((i + 1 : ℕ) : ℝ)
      let b := 1 + 2 * (l.sum ^ 2 / (l.map fun x => x ^ 2).sum) / (m + 2)
      let a := if cmu = 0 then b else min (1 + c1 / cmu) (min b ((1 - c1 - cmu) / (n * cmu)))
      c.parameters.weights.drop c.parameters.mu = l.map fun x => .fin (a * x / |l.sum|) := by
  obtain ⟨m, c1, cmu, p⟩ := params_real h
  refine ⟨m, c1, cmu, p.muEff, p.c1, p.cmu, ?_⟩
  intro l
  have hl : l = rawRest o.populationSize .negative := by
    show ((List.range _).drop _).map _ = (List.range _).map _
    rw [List.range_eq_range', List.drop_range', List.range'_eq_map_range, List.map_map]
    refine List.map_congr_left fun i _ => ?_
    simp [logWeight, add_comm, add_left_comm, add_assoc]
  rw [hl]
  intro b a
  rw [p.weights, p.mu, hneg, ← List.map_drop, List.drop_left' (by
    rw [realPos, List.length_map, length_rawPos]), realRest, List.map_map]
  refine List.map_congr_left fun x _ => ?_
  have : a = realNegSum n o.populationSize := by
    show (if cmu = 0 then 1 + 2 * effMass _ / (m + 2) else min (1 + c1 / cmu)
      (min (1 + 2 * effMass _ / (m + 2)) ((1 - c1 - cmu) / (n * cmu)))) = _
    rw [p.cmu_eq, p.c1_eq, p.m_eq, hneg]
    rfl
  simp only [Function.comp, this, mul_comm]

open WitnessReal in
/-- Non-vacuity: the learning rates of a run with two points, where `m = 1` and `cmu = 0`. -/
example : ∃ c : CMAES 2 XR Nat, c.parameters.c1 = .fin (200 / 1189) ∧ c.parameters.cs = .fin (3 / 8) := by
  obtain ⟨c, hc⟩ := witness_builds .positive (lambda := 2) (by norm_num)
  obtain ⟨m, h1, _, h3, _, h5, _⟩ := c66_rates hc
  obtain ⟨m', _, _, _, _, _, h1', _, _, _, _, _, _, _, h9, _⟩ := c34_rates hc
  have : m = 1 := by
    rw [h1] at h1'
    injection h1' with e
    rw [e]
    exact h9.mpr (by decide)
  subst this
  refine ⟨c, ?_, ?_⟩
  · rw [h3]; norm_num
  · rw [h5]; norm_num

open WitnessReal in
/-- Non-vacuity: with three points the second weight is zero and the third one is `-5/3`. -/
example : ∃ c : CMAES 2 XR Nat,
    c.parameters.weights.drop c.parameters.mu = [.fin 0, .fin (-(5 / 3))] := by
  obtain ⟨c, hc⟩ := witness_builds .negative (lambda := 3) (by norm_num)
  obtain ⟨m, c1, cmu, h1, _, h3, h4⟩ := c66_negative hc rfl
  obtain ⟨m', _, _, cmu', _, _, h1', _, _, h3', _, _, _, _, h9, _, _, _, _, _, _, h10, _⟩ := c34_rates hc
  rw [h1] at h1'
  rw [h3] at h3'
  injection h1' with e1
  injection h3' with e3
  have hm : m = 1 := e1 ▸ h9.mpr (by decide)
  have hcmu : cmu = 0 := e3 ▸ h10.mpr (by decide)
  refine ⟨c, h4.trans ?_⟩
  have hl : ((List.range 3).drop (3 / 2)).map (fun i =>
      Real.log ((((3 : ℕ) : ℝ) + 1) / 2) - Real.log ((i + 1 : ℕ) : ℝ)) =
      [0, Real.log 2 - Real.log 3] := by
    show [_, _] = [_, _]
    norm_num
  have hlt : Real.log 2 - Real.log 3 < 0 := by
    have := Real.log_lt_log (by norm_num : (0 : ℝ) < 2) (by norm_num : (2 : ℝ) < 3)
    linarith
  change (fun l : List ℝ => l.map fun x => (.fin ((if cmu = 0 then
    1 + 2 * (l.sum ^ 2 / (l.map fun x => x ^ 2).sum) / (m + 2) else _) * x / |l.sum|) : XR))
      (((List.range 3).drop (3 / 2)).map (fun i =>
        Real.log ((((3 : ℕ) : ℝ) + 1) / 2) - Real.log ((i + 1 : ℕ) : ℝ))) = _
  rw [hl, hm]
  simp only [if_pos hcmu]
  clear h4 hl
  generalize Real.log 2 - Real.log 3 = y at *
  have hy : y ≠ 0 := hlt.ne
  simp only [List.map_cons, List.map_nil, List.sum_cons, List.sum_nil, mul_zero, zero_div, zero_add,
    add_zero, abs_of_neg hlt]
  have e : (1 + 2 * (y ^ 2 / (0 ^ 2 + y ^ 2)) / (1 + 2)) * y / -y = -(5 / 3) := by
    rw [zero_pow two_ne_zero, zero_add, div_self (pow_ne_zero 2 hy), mul_div_assoc, div_neg,
      div_self hy]
    norm_num
  rw [e]

end Cmaes
