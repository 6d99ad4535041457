import Verif.Props.Exact

/-!
# C41: how often the eigendecomposition is refreshed

`c41_schedule` (`Verif.Props.Exact`) describes the decomposition in use in terms of
`generations_per_eigen_update()`. Here is that number itself: the code computes it by rounding up
twice, first to function evaluations and then to generations, and the population size cancels.
-/

namespace Cmaes
variable {n : Nat} {R : Type} {env : Env n XR R} {obj : Obj n XR} {o : Options n XR}
  {t : List (NextCall n XR)} {c : CMAES n XR R}
open XR

/-- **C41, the period.** In exact arithmetic `generations_per_eigen_update()` is
`1 / (2 n (c1 + cmu))` rounded up, unless that many function evaluations do not fit in a `usize`. -/
theorem c41_period (h : History.Of env obj o t c) {a b : ℝ} (h1 : c.parameters.c1 = .fin a)
    (h2 : c.parameters.cmu = .fin b)
    (hfit : (o.populationSize : ℝ) / (2 * n * (a + b)) ≤ ((2 ^ 64 - 1 : ℕ) : ℝ)) :
    c.generationsPerEigenUpdate = ⌈1 / (2 * n * (a + b))⌉₊ := by
  obtain ⟨hp, hq⟩ := params_rep h
  obtain ⟨_, _, _, p⟩ := params_real h
  have e : (optParams o).c1 + (optParams o).cmu = a + b := rateSum_eq h h1 h2
  have hs : 0 < (optParams o).c1 + (optParams o).cmu := rate_pos h
  have hs' : 0 < a + b := e ▸ hs
  have hl : 0 < c.parameters.lambda := by rw [p.lambda]; have := p.size; omega
  have hl' : (0 : ℝ) < c.parameters.lambda := by exact_mod_cast hl
  have hn : (0 : ℝ) < n := by exact_mod_cast Nat.pos_of_ne_zero hp.dim_ne
  have key : ∀ j : ℕ, c.generationsPerEigenUpdate ≤ j ↔ ⌈1 / (2 * n * (a + b))⌉₊ ≤ j := by
    intro j
    rw [generationsPerEigenUpdate_le hp hs hl, evalsPerEigenUpdate_fin hp hs, e,
      min_eq_right (Nat.ceil_le.mpr (by rw [p.lambda]; exact hfit)), Nat.ceil_le, Nat.ceil_le]
    push_cast
    rw [div_le_iff₀ (by positivity), div_le_iff₀ (by positivity)]
    constructor
    · intro hh
      refine le_of_mul_le_mul_right (a := (c.parameters.lambda : ℝ)) ?_ hl'
      linarith
    · intro hh
      have := mul_le_mul_of_nonneg_right hh hl'.le
      linarith
  exact le_antisymm ((key _).mpr le_rfl) ((key _).mp le_rfl)

/-- The learning rates do not get arbitrarily small with the population size. -/
theorem rates_ge (hn : n ≠ 0) {m : ℝ} (hm : 1 ≤ m) :
    1 / ((n + 2) ^ 2 + 2 : ℝ) ≤ realC1 n m + realCmu n m := by
  have hn' : (0 : ℝ) < n := by exact_mod_cast Nat.pos_of_ne_zero hn
  obtain ⟨b1, b2⟩ := realC1_pos hn hm
  obtain ⟨d1, d2, d3⟩ := realCmu_bounds hn hm
  rcases le_total m 2 with h | h
  · have : 1 / ((n + 2) ^ 2 + 2 : ℝ) ≤ realC1 n m := by
      unfold realC1
      rw [div_le_div_iff₀ (by positivity) (by positivity)]
      nlinarith
    linarith
  · unfold realCmu
    rcases min_choice (1 - realC1 n m) (2 * (m - 2 + 1 / m) / ((n + 2) ^ 2 + 2 * m / 2)) with e | e
    · rw [e, add_sub_cancel, div_le_one (by positivity)]
      nlinarith
    · rw [e]
      have h1 : m / 2 ≤ 2 * (m - 2 + 1 / m) := by
        have h3 : m - 2 + 1 / m = (m - 1) ^ 2 / m := by
          field_simp
          ring
        rw [h3, mul_div_assoc', div_le_div_iff₀ (by norm_num) (by linarith)]
        nlinarith
      have h2 : 1 / ((n + 2) ^ 2 + 2 : ℝ) ≤ (m / 2) / ((n + 2) ^ 2 + 2 * m / 2) := by
        rw [div_le_div_iff₀ (by positivity) (by positivity)]
        nlinarith [sq_nonneg ((n : ℝ) + 2)]
      have h4 := h2.trans (div_le_div_of_nonneg_right h1 (by positivity))
      linarith

/-- **C41, how long a decomposition is kept.** In exact arithmetic, whatever the population size, the
decomposition is refreshed after at most `((n + 2)² + 2) / (2 n)` generations, rounded up. -/
theorem c41_at_most (h : History.Of env obj o t c) :
    c.generationsPerEigenUpdate ≤ ⌈((n + 2) ^ 2 + 2 : ℝ) / (2 * n)⌉₊ := by
  obtain ⟨hp, hq⟩ := params_rep h
  obtain ⟨_, _, _, p⟩ := params_real h
  have hs : 0 < (optParams o).c1 + (optParams o).cmu := rate_pos h
  have hl : 0 < c.parameters.lambda := by rw [p.lambda]; have := p.size; omega
  have hl' : (0 : ℝ) < c.parameters.lambda := by exact_mod_cast hl
  have hn : (0 : ℝ) < n := by exact_mod_cast Nat.pos_of_ne_zero hp.dim_ne
  rw [generationsPerEigenUpdate_le hp hs hl, evalsPerEigenUpdate_fin hp hs]
  refine (min_le_right _ _).trans (Nat.ceil_le.mpr ?_)
  have hr : 1 / ((n + 2) ^ 2 + 2 : ℝ) ≤ (optParams o).c1 + (optParams o).cmu :=
    rates_ge p.dim (one_le_realMuEff p.size o.weights)
  have h1 : 1 / (2 * n * ((optParams o).c1 + (optParams o).cmu)) ≤ ((n + 2) ^ 2 + 2 : ℝ) / (2 * n) := by
    rw [div_le_div_iff₀ (by positivity) (by positivity)]
    rw [div_le_iff₀ (by positivity)] at hr
    nlinarith
  have h2 := h1.trans (Nat.le_ceil _)
  push_cast
  calc (c.parameters.lambda : ℝ) / (2 * n * ((optParams o).c1 + (optParams o).cmu))
      = 1 / (2 * n * ((optParams o).c1 + (optParams o).cmu)) * c.parameters.lambda := by ring
    _ ≤ _ := mul_le_mul_of_nonneg_right h2 hl'.le

open WitnessReal in
/-- Non-vacuity: after 600 generations with negative weights the hypotheses of all C41 theorems
are met. -/
example : ∃ t c a b, History.Of (renv 2) sphere { opts with weights := .negative, populationSize := 6 } t c ∧
    ExactRun (renv 2) { opts with weights := .negative, populationSize := 6 } ∧
    c.generation = 600 ∧ c.parameters.c1 = .fin a ∧ c.parameters.cmu = .fin b ∧ a + b < 1 ∧
    ((6 : ℕ) : ℝ) / (2 * (2 : ℕ) * (a + b)) ≤ ((2 ^ 64 - 1 : ℕ) : ℝ) ∧
    c.generation % c.generationsPerEigenUpdate = 0 := by
  obtain ⟨t, c, h, hg, _⟩ := witness_run .negative (lambda := 6) (by norm_num) (by norm_num) 600
    (by norm_num)
  obtain ⟨hp, _⟩ := params_rep h
  have hr := rates_ge (n := 2) (by norm_num) (one_le_realMuEff (lambda := 6) (by norm_num) .negative)
  refine ⟨t, c, _, _, h, witness_exact _ _, hg, hp.c1, hp.cmu,
    rateSum_lt_one (by norm_num) (by show 2 ≤ 6; norm_num) (by show 6 ≤ _; norm_num), ?_, ?_⟩
  · show ((6 : ℕ) : ℝ) / (2 * (2 : ℕ) * (realC1 2 (realMuEff 6 .negative) +
      realCmu 2 (realMuEff 6 .negative))) ≤ _
    have hpos : 0 < realC1 2 (realMuEff 6 .negative) + realCmu 2 (realMuEff 6 .negative) :=
      lt_of_lt_of_le (by norm_num) hr
    rw [div_le_iff₀ (by positivity)]
    norm_num at hr ⊢
    linarith
  · have h0 := generationsPerEigenUpdate_pos h
    have h5 : c.generationsPerEigenUpdate ≤ 5 := (c41_at_most h).trans (by norm_num)
    rw [hg]
    interval_cases c.generationsPerEigenUpdate <;> rfl

end Cmaes
