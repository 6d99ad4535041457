import Verif.Lemmas.AccuracyNegative
import Verif.Props.Accuracy

/-!
# C83: the negative weights in binary64
-/

namespace Cmaes

section
variable [Libm F64]
variable {n : Nat} {R : Type} {env : Env n F64 R} {obj : Obj n F64} {o : Options n F64}
  {t : List (NextCall n F64)} {c : CMAES n F64 R}

/-- For populations that are not large compared to the dimension, `cmu` is at most `2/5`. -/
theorem realCmu_le {lambda : ℕ} (h1 : 1 ≤ n) (h2 : 2 ≤ lambda) (hsmall : 2 * lambda ≤ (n + 2) ^ 2)
    (s : Weights) : realCmu n (realMuEff lambda s) ≤ 2 / 5 := by
  have hm1 := one_le_realMuEff h2 s
  have hm2 := realMuEff_le h2 s
  have hl : ((lambda / 2 : ℕ) : ℝ) * 4 ≤ ((n : ℝ) + 2) ^ 2 := by
    have : lambda / 2 * 4 ≤ (n + 2) ^ 2 := by omega
    exact_mod_cast this
  generalize realMuEff lambda s = m at *
  unfold realCmu
  refine (min_le_right _ _).trans ?_
  rw [div_le_div_iff₀ (by positivity) (by norm_num)]
  have : 1 / m ≤ 1 := by rw [div_le_one (by linarith)]; exact hm1
  linarith

/-- **C83, negative weights.** With the setting `Negative` and at most `(n + 2)² / 2` individuals, which
the default population size satisfies, the weights after the first `mu` have a relative error of at most
`lambda / 2^35` against the published ones, `a l_i / |l_(mu+1) + ... + l_lambda|` (C66). In particular
they are finite and not positive. -/
theorem c83_negative (hl : AccurateLibm) (h : History.Of env obj o t c) (hneg : o.weights = .negative)
    (hs : o.populationSize ≤ 2 ^ 20) (hn : n ≤ 2 ^ 53)
    (hsmall : 2 * o.populationSize ≤ (n + 2) ^ 2) :
    let ε : ℝ := o.populationSize / 2 ^ 35
    let w := publishedWeights o.populationSize .negative
    let m := w.sum ^ 2 / (w.map fun x => x ^ 2).sum
    let c1 : ℝ := 2 / ((n + 1.3) ^ 2 + m)
    let cmu : ℝ := min (1 - c1) (2 * (m - 2 + 1 / m) / ((n + 2) ^ 2 + m))
    let l := ((List.range o.populationSize).drop (o.populationSize / 2)).map fun i =>
      Real.log (((o.populationSize : ℝ) + 1) / 2) - Real.log ((i + 1 : ℕ) : ℝ)
    let b := 1 + 2 * (l.sum ^ 2 / (l.map fun x => x ^ 2).sum) / (m + 2)
    let a := if cmu = 0 then b else min (1 + c1 / cmu) (min b ((1 - c1 - cmu) / (n * cmu)))
    List.Forall₂ (Within ε) (l.map fun x => a * x / |l.sum|)
      (c.parameters.weights.drop c.parameters.mu) := by
  obtain ⟨h1, h2, seed, e⟩ := opts_size h
  obtain ⟨k, hk, b1, b2, b3, b4, b5, b6, b7⟩ := near_params hl h hs hn
  intro ε w m c1 cmu l b a
  have hm : m = realMuEff o.populationSize .negative := by
    show effMass (publishedWeights _ _) = effMass _
    rw [publishedWeights_eq]
  have e13 : (1.3 : ℝ) = 13 / 10 := by norm_num
  have hc1 : c1 = realC1 n m := by
    show 2 / (((n : ℝ) + 1.3) ^ 2 + m) = _
    rw [e13]; rfl
  have hcmu : cmu = realCmu n m := by
    show min (1 - c1) _ = _
    rw [hc1]
    unfold realCmu
    rw [mul_div_right_comm 2 _ 2, div_self two_ne_zero, one_mul]
  have hlr : l = (lowRanks o.populationSize).map (logWeight o.populationSize) := by
    rw [← rawRest_eq]
    show ((List.range _).drop _).map _ = (List.range _).map _
    rw [List.range_eq_range', List.drop_range', List.range'_eq_map_range, List.map_map]
    refine List.map_congr_left fun i _ => ?_
    simp [logWeight, add_comm, add_left_comm, add_assoc]
  have hb : b = 1 + 2 * effMass (rawRest o.populationSize .negative) / (m + 2) := by
    show 1 + 2 * effMass l / (m + 2) = _
    rw [hlr, rawRest_eq]
  rw [hneg, ← hm] at b1 b3 b4
  have hr1 : realC1 n m ≤ 1 / 3 := realC1_le_third h1 (hm ▸ one_le_realMuEff h2 _)
  have hrmu : realCmu n m ≤ 2 / 5 := hm ▸ realCmu_le h1 h2 hsmall _
  obtain ⟨y, hy, hfin⟩ := finalize_drop hl h2 hs n c.parameters.c1 c.parameters.cmu
  have hmu0 : c.parameters.muEff = (InitialWeights.new o.populationSize .negative : InitialWeights F64).muEff := by
    rw [e, ← hneg]; rfl
  rw [← hmu0] at hfin
  have hk2 : 534 * o.populationSize + 3 ≤ 8600 * o.populationSize := by omega
  have ha : ∃ a', a' = Flt.fmin (1 + c.parameters.c1 / c.parameters.cmu)
      (Flt.fmin (1 + (2 * y) / (c.parameters.muEff + 2))
        ((1 - c.parameters.c1 - c.parameters.cmu) / (Flt.ofNat n * c.parameters.cmu))) ∧
      Near (8 * (8600 * o.populationSize) + 10) 806 a' a := by
    refine ⟨_, rfl, ?_⟩
    show Near _ _ _ (if cmu = 0 then b else min (1 + c1 / cmu) (min b ((1 - c1 - cmu) / (n * cmu))))
    by_cases h4 : 4 ≤ o.populationSize
    · have hp := b4 h4
      rw [if_neg (by rw [hcmu]; exact hp.pos.ne'), hb, hc1, hcmu]
      exact alpha_near (b1.mono hk le_rfl) hy (b3.mono hk le_rfl) (hp.mono hk le_rfl) hr1 hrmu h1 hn
        (by omega) hk2
    · have hz : cmu = 0 := by
        have hm1 : m = 1 := hm.trans ((realMuEff_eq_one_iff h2 _).mpr (by omega))
        rw [hcmu, hm1]
        unfold realCmu
        have := realC1_le_third h1 (le_refl 1)
        rw [min_eq_right]
        · norm_num
        · norm_num
          linarith
      rw [if_pos hz, hb]
      exact alpha_near_zero (b1.mono hk le_rfl) hy (b3.mono hk le_rfl) (b5 (by omega)) hr1 hn
        (by omega) hk2
  obtain ⟨a', ha', hna⟩ := ha
  have hw := hfin a' ha'
  have hmu : c.parameters.mu = o.populationSize / 2 := by rw [e]; rfl
  have hwt : c.parameters.weights = (InitialWeights.new o.populationSize .negative :
      InitialWeights F64).finalize n c.parameters.c1 c.parameters.cmu := by
    rw [e, ← hneg]; rfl
  rw [← hwt, ← hmu] at hw
  rw [hw, hlr, List.map_map, List.forall₂_map_left_iff, List.forall₂_map_right_iff, List.forall₂_same]
  intro i hi
  have hε : 65 / 64 * ((8 * (8600 * o.populationSize) + 10 + 265 * o.populationSize + 2 : ℕ) / 2 ^ 52 : ℝ) ≤ ε := by
    have h0 : (2 : ℝ) ≤ o.populationSize := by exact_mod_cast h2
    show _ ≤ (o.populationSize : ℝ) / 2 ^ 35
    push_cast
    generalize (o.populationSize : ℝ) = l at *
    linarith
  have hε0 : 0 ≤ ε := by positivity
  by_cases hz : o.populationSize + 1 = 2 * i
  · obtain ⟨z1, z2⟩ := raw_zero hl h2 hs hi hz
    have : Flt.lt (rawWeight o.populationSize i : F64) 0 = false := by
      rw [Bool.eq_false_iff]
      intro hlt
      exact lt_irrefl _ ((z1.lt_iff isReal_zero).mp hlt)
    rw [if_neg (by rw [this]; simp)]
    simp only [Function.comp, z2, mul_zero, zero_div]
    exact z1.within hε0
  · obtain ⟨g1, g2⟩ := mem_lowRanks.mp hi
    have hi' := mem_negRanks.mpr ⟨g1, g2, hz⟩
    obtain ⟨x, hx, hnx⟩ := weight_near hl h2 hs hi' hna (by omega)
    rw [hx]
    have hsum := (negSum_near hl h2 hs).pos
    have e1 : a * logWeight o.populationSize i /
        |((lowRanks o.populationSize).map (logWeight o.populationSize)).sum| =
        -(-logWeight o.populationSize i * a /
          -((lowRanks o.populationSize).map (logWeight o.populationSize)).sum) := by
      rw [abs_of_neg (by linarith)]
      ring
    simp only [Function.comp, e1]
    obtain ⟨v, ⟨u, hu, rfl⟩, ev⟩ := hnx.rel (by omega)
    refine ⟨Fmt.neg u, by rw [hu]; rfl, ?_⟩
    have hnxp := hnx.pos
    rw [abs_neg, abs_of_pos hnxp]
    have : (((Fmt.neg u : Bin64).1 : ℚ) : ℝ) = -((u.1 : ℚ) : ℝ) := by
      show (((-u.1 : ℚ)) : ℝ) = _
      push_cast; rfl
    rw [this, neg_sub_neg, abs_sub_comm]
    exact ev.trans (mul_le_mul_of_nonneg_right hε hnxp.le)

end

attribute [local instance] accurateLibm

/-- Non-vacuity: six individuals in two dimensions, three of which have weights that are not
positive. -/
example : ∃ c, History.Of (Witness.wenv 2) Witness.sphere
    { Options.new (fun _ => 1) 1 with populationSize := 6, weights := .negative } [] c ∧
    (c.parameters.weights.drop c.parameters.mu).length = 3 := by
  obtain ⟨hl, c, hc⟩ := c83_case .negative
  refine ⟨c, hc, ?_⟩
  rw [← (c83_negative hl hc rfl (by norm_num) (by norm_num) (by norm_num)).length_eq]
  simp

end Cmaes
