import Verif.Lemmas.AccuracyWeights
import Verif.Props.Best
import Verif.Props.Build
import Verif.Props.Params
import Verif.Witness

/-!
# C83: the strategy parameters in binary64

C33, C34 and C66 are about exact arithmetic. Here the numbers are binary64 numbers and every operation
rounds. The logarithm and the square root are assumed to be accurate (`AccurateLibm`).
-/

namespace Cmaes

section
variable [Libm F64]
variable {n : Nat} {R : Type} {env : Env n F64 R} {obj : Obj n F64} {o : Options n F64}
  {t : List (NextCall n F64)} {c : CMAES n F64 R}

theorem Near.within {k B : ℕ} {x : F64} {r ε : ℝ} (h : Near k B x r) (hk : k ≤ 2 ^ 45)
    (he : 65 / 64 * (k / 2 ^ 52 : ℝ) ≤ ε) : Within ε r x := by
  have hr := h.pos
  obtain ⟨a, ⟨u, hu, rfl⟩, e⟩ := h.rel hk
  refine ⟨u, hu, ?_⟩
  rw [abs_of_pos hr]
  refine e.trans ?_
  exact mul_le_mul_of_nonneg_right he hr.le

theorem IsReal.within {x : F64} {r ε : ℝ} (h : IsReal x r) (he : 0 ≤ ε) : Within ε r x := by
  obtain ⟨u, hu, rfl⟩ := h
  refine ⟨u, hu, ?_⟩
  rw [sub_self, abs_zero]
  positivity

theorem publishedWeights_eq (lambda : ℕ) (s : Weights) : publishedWeights lambda s = rawPos lambda s := by
  cases s with
  | uniform =>
    show (List.range _).map _ = List.replicate _ _
    simp
  | positive | negative =>
    show (List.range _).map _ = (List.range _).map _
    simp [logWeight]

theorem opts_size (h : History.Of env obj o t c) : 1 ≤ n ∧ 2 ≤ o.populationSize ∧
    ∃ seed, c.parameters = Parameters.fromOptions o seed := by
  obtain ⟨gs, i, _⟩ := fresh_inv h
  obtain ⟨w, c0, h0, _⟩ := h
  obtain ⟨hn, hl, _⟩ := (c30_valid_iff env w obj o).mp ⟨c0, h0⟩
  exact ⟨hn, hl, _, i.parameters⟩

theorem near_params (hl : AccurateLibm) (h : History.Of env obj o t c)
    (hs : o.populationSize ≤ 2 ^ 20) (hn : n ≤ 2 ^ 53) :
    ∃ k ≤ 8600 * o.populationSize, 
      Near k 402 c.parameters.muEff (realMuEff o.populationSize o.weights) ∧
      Near k 402 c.parameters.cc (realCc n (realMuEff o.populationSize o.weights)) ∧
      Near k 402 c.parameters.c1 (realC1 n (realMuEff o.populationSize o.weights)) ∧
      (4 ≤ o.populationSize → Near k 402 c.parameters.cmu (realCmu n (realMuEff o.populationSize o.weights))) ∧
      (o.populationSize < 4 → IsReal c.parameters.cmu 0) ∧
      Near k 402 c.parameters.cs (realCs n (realMuEff o.populationSize o.weights)) ∧
      Near k 402 c.parameters.dampS (realDampS n (realMuEff o.populationSize o.weights)) := by
  obtain ⟨h1, h2, seed, e⟩ := opts_size h
  have hx := muEff_near hl h2 hs o.weights
  rw [e]
  refine ⟨8600 * o.populationSize, le_rfl, hx.mono (by omega) (by omega),
    (cc_near hx (by omega) h1 hn).mono (by omega) (by omega),
    (c1_near hx (by omega) h1 hn).mono (by omega) (by omega), fun h4 =>
    (cmu_near hx (by omega) h1 hn (six_fifths_le h4 _)).mono (by omega) (by omega), fun h4 => ?_,
    (cs_near hx (by omega) h1 hn).mono (by omega) (by omega), ?_⟩
  · show IsReal (paramCmu n (InitialWeights.new _ _).muEff (paramC1 n (InitialWeights.new _ _).muEff)) 0
    rw [muEff_one hl h2 h4]
    exact cmu_zero h1 hn
  · by_cases h4 : 4 ≤ o.populationSize
    · exact (dampS_near hl hx (by omega) (by omega) h1 hn (six_fifths_le h4 _)).mono (by omega) (by omega)
    · show Near _ _ (paramDampS n (InitialWeights.new _ _).muEff
        (paramCs n (InitialWeights.new _ _).muEff)) _
      rw [muEff_one hl h2 (by omega), (realMuEff_eq_one_iff h2 _).mpr (by omega)]
      exact (dampS_one hl h1 hn).mono (by omega) (by omega)

/-- **C83, learning rates.** For at most `2^20` individuals in at most `2^53` dimensions, the effective
selection mass and the learning rates of every reachable `CMAES` are finite binary64 numbers whose
relative error against the published formulas, evaluated without rounding, is at most `lambda / 2^38`.
Without a fourth individual `cmu` is exactly zero. -/
theorem c83_rates (hl : AccurateLibm) (h : History.Of env obj o t c)
    (hs : o.populationSize ≤ 2 ^ 20) (hn : n ≤ 2 ^ 53) :
    let ε : ℝ := o.populationSize / 2 ^ 38
    let w := publishedWeights o.populationSize o.weights
    let m := w.sum ^ 2 / (w.map fun x => x ^ 2).sum
    Within ε m c.parameters.muEff ∧
    Within ε ((4 + m / n) / (n + 4 + 2 * m / n)) c.parameters.cc ∧
    Within ε (2 / ((n + 1.3) ^ 2 + m)) c.parameters.c1 ∧
    Within ε (min (1 - 2 / ((n + 1.3) ^ 2 + m)) (2 * (m - 2 + 1 / m) / ((n + 2) ^ 2 + m)))
      c.parameters.cmu ∧
    Within ε ((m + 2) / (n + m + 5)) c.parameters.cs ∧
    Within ε (1 + (m + 2) / (n + m + 5) + 2 * max 0 (Real.sqrt ((m - 1) / (n + 1)) - 1))
      c.parameters.dampS := by
  obtain ⟨h1, h2, seed, e⟩ := opts_size h
  obtain ⟨k, hk, b1, b2, b3, b4, b5, b6, b7⟩ := near_params hl h hs hn
  intro ε w m
  have hm : m = realMuEff o.populationSize o.weights := by
    show effMass (publishedWeights _ _) = effMass _
    rw [publishedWeights_eq]
  have hk45 : k ≤ 2 ^ 45 := by omega
  have hε : 65 / 64 * (k / 2 ^ 52 : ℝ) ≤ ε := by
    have : (k : ℝ) ≤ 8600 * o.populationSize := by exact_mod_cast hk
    have h0 : (0 : ℝ) ≤ o.populationSize := by positivity
    show _ ≤ (o.populationSize : ℝ) / 2 ^ 38
    generalize (o.populationSize : ℝ) = l at *
    linarith
  have hε0 : 0 ≤ ε := le_trans (by positivity) hε
  have e13 : (1.3 : ℝ) = 13 / 10 := by norm_num
  rw [hm]
  refine ⟨b1.within hk45 hε, b2.within hk45 hε, ?_, ?_, b6.within hk45 hε, ?_⟩
  · rw [e13]
    exact b3.within hk45 hε
  · have er : min (1 - 2 / (((n : ℝ) + 1.3) ^ 2 + realMuEff o.populationSize o.weights))
        (2 * (realMuEff o.populationSize o.weights - 2 + 1 / realMuEff o.populationSize o.weights) /
          (((n : ℝ) + 2) ^ 2 + realMuEff o.populationSize o.weights)) =
        realCmu n (realMuEff o.populationSize o.weights) := by
      unfold realCmu realC1
      rw [mul_div_right_comm 2 _ 2, div_self two_ne_zero, one_mul, e13]
    rw [er]
    by_cases h4 : 4 ≤ o.populationSize
    · exact (b4 h4).within hk45 hε
    · have h0 := b5 (by omega)
      have hz : realCmu n (realMuEff o.populationSize o.weights) = 0 := by
        rw [(realMuEff_eq_one_iff h2 _).mpr (by omega)]
        unfold realCmu
        have := realC1_le_third h1 (le_refl 1)
        rw [min_eq_right]
        · norm_num
        · norm_num
          linarith
      rw [hz]
      exact h0.within hε0
  · rw [max_comm]
    exact b7.within hk45 hε

/-- **C83, weights.** The weights of the parents have a relative error of at most `lambda / 2^38`
against the published ones, and their exact sum differs from one by at most that much. -/
theorem c83_weights (hl : AccurateLibm) (h : History.Of env obj o t c)
    (hs : o.populationSize ≤ 2 ^ 20) :
    let ε : ℝ := o.populationSize / 2 ^ 38
    let w := publishedWeights o.populationSize o.weights
    c.parameters.mu = o.populationSize / 2 ∧
    List.Forall₂ (Within ε) (w.map fun x => x / w.sum) (c.parameters.weights.take c.parameters.mu) ∧
    ∃ values : List Bin64, c.parameters.weights.take c.parameters.mu = values.map .fin ∧
      |(values.map fun a => ((a.1 : ℚ) : ℝ)).sum - 1| ≤ ε := by
  obtain ⟨h1, h2, seed, e⟩ := opts_size h
  intro ε w
  have hw : w.map (fun x => x / w.sum) = realPos o.populationSize o.weights := by
    show List.map (fun x => x / (publishedWeights _ _).sum) (publishedWeights _ _) = _
    rw [publishedWeights_eq]
    rfl
  have hmu : c.parameters.mu = o.populationSize / 2 := by rw [e]; rfl
  have hf : List.Forall₂ (Near (265 * o.populationSize + 1) 62)
      (c.parameters.weights.take c.parameters.mu) (realPos o.populationSize o.weights) := by
    rw [hmu, e]
    exact finalize_take hl h2 hs o.weights n _ _
  have hk45 : 265 * o.populationSize + 1 ≤ 2 ^ 45 := by omega
  have hε : 65 / 64 * ((265 * o.populationSize + 1 : ℕ) / 2 ^ 52 : ℝ) ≤ ε := by
    have h0 : (2 : ℝ) ≤ o.populationSize := by exact_mod_cast h2
    show _ ≤ (o.populationSize : ℝ) / 2 ^ 38
    push_cast
    generalize (o.populationSize : ℝ) = l at *
    linarith
  refine ⟨hmu, ?_, ?_⟩
  · rw [hw]
    exact List.Forall₂.flip (hf.imp fun x r hx => hx.within hk45 hε)
  · obtain ⟨as, ha, s1, s2⟩ := sum_near hf
    rw [realPos_sum h2] at s1 s2
    generalize c.parameters.weights.take c.parameters.mu = xs at *
    have : ∃ values : List Bin64, xs = values.map .fin ∧
        (values.map fun a => ((a.1 : ℚ) : ℝ)) = as := by
      clear hf s1 s2
      induction ha with
      | nil => exact ⟨[], rfl, rfl⟩
      | cons hx _ ih =>
        obtain ⟨u, rfl, rfl⟩ := hx
        obtain ⟨vs, rfl, rfl⟩ := ih
        exact ⟨u :: vs, rfl, rfl⟩
    obtain ⟨values, rfl, rfl⟩ := this
    refine ⟨values, rfl, le_trans ?_ hε⟩
    have hr := rho_pow_le hk45
    have hr1 := one_le_rho_pow (265 * o.populationSize + 1)
    generalize ((265 * o.populationSize + 1 : ℕ) : ℝ) / 2 ^ 52 = z at *
    generalize rho ^ (265 * o.populationSize + 1) = R at *
    generalize (values.map fun a => ((a.1 : ℚ) : ℝ)).sum = S at *
    rw [abs_le]
    constructor
    · nlinarith
    · linarith

/-- The value of a finite rounded number. -/
theorem IsReal.rnd_val {q : ℚ} {d : ℝ} (h : IsReal (Fmt.rnd q : F64) d) : d = (rnd0 q : ℚ) := by
  obtain ⟨v, hv, rfl⟩ := h
  have : v.1 = rnd0 q := by
    rw [Bin64.rnd_def, Bin64.rnd] at hv
    split at hv
    · injection hv with hv
      rw [← hv]
    · split at hv <;> cases hv
  rw [this]

/-- A finite sum with a number that is not negative is not smaller. -/
theorem IsReal.le_add {x y : F64} {a b d : ℝ} (hx : IsReal x a) (hy : IsReal y b) (hb : 0 ≤ b)
    (hd : IsReal (x + y) d) : a ≤ d := by
  obtain ⟨q, hq, e⟩ := hx.add_rnd hy
  change IsReal (Ext.add x y) d at hd
  rw [e] at hd
  rw [hd.rnd_val]
  obtain ⟨u, rfl, rfl⟩ := hx
  have h1 : u.1 ≤ rnd0 q := by
    rw [← u.2.1]
    refine rnd0_mono ?_
    have : ((u.1 : ℚ) : ℝ) ≤ (q : ℝ) := by rw [hq]; linarith
    exact_mod_cast this
  exact_mod_cast h1

/-- A finite difference with a number that is not negative is not larger. -/
theorem IsReal.sub_le {x y : F64} {a b d : ℝ} (hx : IsReal x a) (hy : IsReal y b) (hb : 0 ≤ b)
    (hd : IsReal (x - y) d) : d ≤ a := by
  obtain ⟨q, hq, e⟩ := hx.add_rnd hy.neg'
  change IsReal (Ext.add x (Ext.neg y)) d at hd
  rw [e] at hd
  rw [hd.rnd_val]
  obtain ⟨u, rfl, rfl⟩ := hx
  have h1 : rnd0 q ≤ u.1 := by
    rw [← u.2.1]
    refine rnd0_mono ?_
    have : (q : ℝ) ≤ ((u.1 : ℚ) : ℝ) := by rw [hq]; linarith
    exact_mod_cast this
  exact_mod_cast h1

/-- `y + 2 * max(z, 0)` is not smaller than `y`, if it is finite. -/
theorem IsReal.le_damp {y z : F64} {a d : ℝ} (hy : IsReal y a)
    (hd : IsReal (y + 2 * Flt.fmax z 0) d) : a ≤ d := by
  have hf : ∃ w, IsReal (Flt.fmax z 0) w ∧ 0 ≤ w := by
    unfold Flt.fmax at hd ⊢
    split
    · exact ⟨0, isReal_zero, le_rfl⟩
    rename_i hz
    rw [if_neg hz] at hd
    rw [if_neg (by rw [isReal_zero.not_nan]; simp)] at hd ⊢
    split
    · exact ⟨0, isReal_zero, le_rfl⟩
    rename_i hlt
    rw [if_neg hlt] at hd
    cases z with
    | nan => exact absurd rfl hz
    | ninf =>
      refine absurd ?_ hlt
      obtain ⟨u, hu, _⟩ := isReal_zero
      rw [hu]
      rfl
    | pinf =>
      obtain ⟨u, rfl, _⟩ := hy
      obtain ⟨v, hv, _⟩ := hd
      change Ext.add (.fin u) (Ext.mul (Fmt.rnd ((2 : ℕ) : ℚ)) .pinf) = _ at hv
      obtain ⟨w, hw, hw2⟩ := isReal_two
      change Fmt.rnd ((2 : ℕ) : ℚ) = _ at hw
      rw [hw] at hv
      change Ext.add (.fin u) (Ext.infMul true _) = _ at hv
      unfold Ext.infMul Ext.sinf at hv
      split at hv
      · cases hv
      · split at hv <;> cases hv
    | fin w =>
      refine ⟨_, ⟨w, rfl, rfl⟩, ?_⟩
      by_contra hneg
      exact hlt ((IsReal.lt_iff ⟨w, rfl, rfl⟩ isReal_zero).mpr (not_le.mp hneg))
  obtain ⟨w, hw, hw0⟩ := hf
  obtain ⟨q, hq, e⟩ := isReal_two.mul_rnd hw
  have hq0 : 0 ≤ q := by
    have : (0 : ℝ) ≤ q := by rw [hq]; linarith
    exact_mod_cast this
  have h2 : (2 * Flt.fmax z 0 : F64) = Fmt.rnd q := e
  rw [h2] at hd
  have h0 := rnd0_nonneg hq0
  have hb : ∃ b, IsReal (Fmt.rnd q : F64) b ∧ 0 ≤ b := by
    by_cases hb : |rnd0 q| < 2 ^ 1024
    · refine ⟨_, ⟨⟨rnd0 q, rnd0_idem q, hb⟩, ?_, rfl⟩, by exact_mod_cast h0⟩
      rw [Bin64.rnd_def, Bin64.rnd, dif_pos hb]
    · exfalso
      obtain ⟨u, rfl, _⟩ := hy
      obtain ⟨v, hv, _⟩ := hd
      rw [Bin64.rnd_def, Bin64.rnd, dif_neg hb] at hv
      split at hv <;> cases hv
  obtain ⟨b, hb, hb0⟩ := hb
  exact hy.le_add hb hb0 hd

theorem IsReal.fmin_le {x y : F64} {a e : ℝ} (hx : IsReal x a) (h : IsReal (Flt.fmin x y) e) : e ≤ a := by
  unfold Flt.fmin at h
  rw [if_neg (by rw [hx.not_nan]; simp)] at h
  split at h
  · exact (h.inj hx).le
  · split at h
    · rename_i hlt
      exact ((h.lt_iff hx).mp hlt).le
    · exact (h.inj hx).le

/-- **C83, ranges.** Despite rounding, the effective selection mass is at least one, `cc`, `c1` and `cs`
are strictly between zero and one, `cmu` is not negative, at most one, and zero exactly with fewer than
four individuals, and `damp_s` is at least one. -/
theorem c83_ranges (hl : AccurateLibm) (h : History.Of env obj o t c)
    (hs : o.populationSize ≤ 2 ^ 20) (hn : n ≤ 2 ^ 53) :
    ∃ muEff cc c1 cmu cs dampS : Bin64,
      c.parameters.muEff = .fin muEff ∧ c.parameters.cc = .fin cc ∧ c.parameters.c1 = .fin c1 ∧
      c.parameters.cmu = .fin cmu ∧ c.parameters.cs = .fin cs ∧ c.parameters.dampS = .fin dampS ∧
      1 ≤ muEff.1 ∧ 0 < cc.1 ∧ cc.1 < 1 ∧ 0 < c1.1 ∧ c1.1 < 1 ∧
      0 ≤ cmu.1 ∧ cmu.1 ≤ 1 ∧ (cmu.1 = 0 ↔ o.populationSize < 4) ∧
      0 < cs.1 ∧ cs.1 < 1 ∧ 1 ≤ dampS.1 := by
  obtain ⟨h1, h2, seed, e⟩ := opts_size h
  obtain ⟨k, hk, b1, b2, b3, b4, b5, b6, b7⟩ := near_params hl h hs hn
  have hk45 : k ≤ 2 ^ 45 := by omega
  have hR := rho_pow_le_two hk45
  have hRk := rho_pow_le hk45
  have hR1 := one_le_rho_pow k
  have hm1 := one_le_realMuEff h2 o.weights
  have hmle := realMuEff_le h2 o.weights
  have hn1 : (1 : ℝ) ≤ n := by exact_mod_cast h1
  set m := realMuEff o.populationSize o.weights with hm
  -- `mu_eff`
  obtain ⟨um, em, gm⟩ : ∃ u : Bin64, c.parameters.muEff = .fin u ∧ 1 ≤ u.1 := by
    by_cases h4 : 4 ≤ o.populationSize
    · obtain ⟨a, ⟨u, hu, rfl⟩, _, _, _, g⟩ := b1
      refine ⟨u, hu, ?_⟩
      have := six_fifths_le h4 o.weights
      have h0 : (0 : ℝ) ≤ ((u.1 : ℚ) : ℝ) := by
        by_contra hneg
        rw [not_le] at hneg
        have := mul_neg_of_pos_of_neg (rho_pow_pos k) hneg
        linarith
      have : (1 : ℝ) ≤ ((u.1 : ℚ) : ℝ) := by nlinarith
      exact_mod_cast this
    · have h3 : c.parameters.muEff = Fmt.rnd (1 : ℚ) := by
        rw [e]
        exact muEff_one hl h2 (by omega) o.weights
      obtain ⟨u, hu, hv⟩ := isReal_one
      refine ⟨u, h3.trans hu, ?_⟩
      have : u.1 = 1 := by exact_mod_cast hv
      exact this.ge
  -- `cc`
  obtain ⟨ucc, ecc, gcc, gcc'⟩ : ∃ u : Bin64, c.parameters.cc = .fin u ∧ 0 < u.1 ∧ u.1 < 1 := by
    have b2' := b2
    obtain ⟨a, ⟨u, hu, rfl⟩, _, _, g, _⟩ := b2
    refine ⟨u, hu, by exact_mod_cast Near.real_pos ⟨u, hu, rfl⟩ b2', ?_⟩
    have : realCc n m ≤ 4 / 5 := by
      unfold realCc
      have hq : (0 : ℝ) < m / n := by positivity
      rw [mul_div_assoc]
      rw [div_le_div_iff₀ (by positivity) (by norm_num)]
      linarith
    have : ((u.1 : ℚ) : ℝ) < 1 := by nlinarith
    exact_mod_cast this
  -- `c1`
  obtain ⟨uc1, ec1, gc1, gc1'⟩ : ∃ u : Bin64, c.parameters.c1 = .fin u ∧ 0 < u.1 ∧ u.1 < 1 := by
    have b3' := b3
    obtain ⟨a, ⟨u, hu, rfl⟩, _, _, g, _⟩ := b3
    refine ⟨u, hu, by exact_mod_cast Near.real_pos ⟨u, hu, rfl⟩ b3', ?_⟩
    have := realC1_le_third h1 hm1
    have : ((u.1 : ℚ) : ℝ) < 1 := by nlinarith
    exact_mod_cast this
  -- `cs`
  obtain ⟨ucs, ecs, gcs, gcs'⟩ : ∃ u : Bin64, c.parameters.cs = .fin u ∧ 0 < u.1 ∧ u.1 < 1 := by
    have b6' := b6
    obtain ⟨a, ⟨u, hu, rfl⟩, _, _, g, _⟩ := b6
    refine ⟨u, hu, by exact_mod_cast Near.real_pos ⟨u, hu, rfl⟩ b6', ?_⟩
    have hkR : (k : ℝ) ≤ 8600 * o.populationSize := by exact_mod_cast hk
    have hlR : (o.populationSize : ℝ) ≤ 2 ^ 20 := by exact_mod_cast hs
    have hm2 : m ≤ o.populationSize / 2 := by
      refine hmle.trans ?_
      rw [le_div_iff₀ (by norm_num)]
      have : o.populationSize / 2 * 2 ≤ o.populationSize := by omega
      exact_mod_cast this
    have hlt : rho ^ k * realCs n m < 1 := by
      unfold realCs
      rw [← mul_div_assoc, div_lt_one (by positivity)]
      have h5 : rho ^ k ≤ 1 + o.populationSize / 2 ^ 38 := by
        have h0 : (0 : ℝ) ≤ o.populationSize := by positivity
        generalize rho ^ k = R at *
        generalize (o.populationSize : ℝ) = l at *
        linarith
      have h6 : rho ^ k * (m + 2) ≤ (1 + o.populationSize / 2 ^ 38) * (m + 2) :=
        mul_le_mul_of_nonneg_right h5 (by linarith)
      have h7 : (o.populationSize : ℝ) / 2 ^ 38 * (m + 2) ≤ 2 ^ 20 / 2 ^ 38 * (2 ^ 20 / 2 + 2) := by
        refine mul_le_mul ?_ (by linarith) (by linarith) (by positivity)
        exact div_le_div_of_nonneg_right hlR (by positivity)
      have h8 : (2 : ℝ) ^ 20 / 2 ^ 38 * (2 ^ 20 / 2 + 2) < 4 := by norm_num
      linarith
    have : ((u.1 : ℚ) : ℝ) < 1 := by linarith
    exact_mod_cast this
  -- `cmu`
  obtain ⟨ucm, ecm, gcm, gcm', gcm''⟩ : ∃ u : Bin64, c.parameters.cmu = .fin u ∧ 0 ≤ u.1 ∧ u.1 ≤ 1 ∧
      (u.1 = 0 ↔ o.populationSize < 4) := by
    by_cases h4 : 4 ≤ o.populationSize
    · have b4' := b4 h4
      obtain ⟨a, ⟨u, hu, rfl⟩, _⟩ := b4 h4
      have hp := Near.real_pos ⟨u, hu, rfl⟩ b4'
      have hp' : 0 < u.1 := by exact_mod_cast hp
      refine ⟨u, hu, hp'.le, ?_, ?_⟩
      · have r1 : IsReal c.parameters.c1 ((uc1.1 : ℚ) : ℝ) := ⟨uc1, ec1, rfl⟩
        have hc1 : (0 : ℝ) < ((uc1.1 : ℚ) : ℝ) := by exact_mod_cast gc1
        have hc1' : ((uc1.1 : ℚ) : ℝ) < 1 := by exact_mod_cast gc1'
        obtain ⟨q, hq, eq⟩ := isReal_one.add_rnd r1.neg'
        obtain ⟨d, hd, _⟩ := rnd_finite hq (by
          rw [abs_of_pos (by linarith)]
          exact le_trans (by linarith) (one_le_pow₀ (n := 1000) (by norm_num : (1 : ℝ) ≤ 2)))
        rw [← eq] at hd
        have hd1 := isReal_one.sub_le r1 hc1.le hd
        have hf : IsReal c.parameters.cmu ((u.1 : ℚ) : ℝ) := ⟨u, hu, rfl⟩
        rw [e] at hf hd
        have := (IsReal.fmin_le hd hf).trans hd1
        exact_mod_cast this
      · exact ⟨fun h0 => absurd h0 hp'.ne', fun h5 => by omega⟩
    · obtain ⟨u, hu, hv⟩ := b5 (by omega)
      have : u.1 = 0 := by exact_mod_cast hv
      exact ⟨u, hu, this.ge, by rw [this]; norm_num, fun _ => by omega, fun _ => this⟩
  -- `damp_s`
  obtain ⟨ud, ed, gd⟩ : ∃ u : Bin64, c.parameters.dampS = .fin u ∧ 1 ≤ u.1 := by
    obtain ⟨a, ⟨u, hu, rfl⟩, _⟩ := b7
    refine ⟨u, hu, ?_⟩
    have r1 : IsReal c.parameters.cs ((ucs.1 : ℚ) : ℝ) := ⟨ucs, ecs, rfl⟩
    have hcs : (0 : ℝ) < ((ucs.1 : ℚ) : ℝ) := by exact_mod_cast gcs
    have hcs' : ((ucs.1 : ℚ) : ℝ) < 1 := by exact_mod_cast gcs'
    obtain ⟨q, hq, eq⟩ := isReal_one.add_rnd r1
    obtain ⟨d, hd, _⟩ := rnd_finite hq (by
      rw [abs_of_pos (by linarith)]
      exact le_trans (by linarith) (le_self_pow₀ (by norm_num : (1 : ℝ) ≤ 2) (by norm_num : 1000 ≠ 0)))
    rw [← eq] at hd
    have hd1 := isReal_one.le_add r1 hcs.le hd
    have hf : IsReal c.parameters.dampS ((u.1 : ℚ) : ℝ) := ⟨u, hu, rfl⟩
    rw [e] at hf hd
    have := hd1.trans (IsReal.le_damp hd hf)
    exact_mod_cast this
  exact ⟨um, ucc, uc1, ucm, ucs, ud, em, ecc, ec1, ecm, ecs, ed, gm, gcc, gcc', gc1, gc1', gcm, gcm', gcm'',
    gcs, gcs', gd⟩

end

/-! ### An accurate library exists -/

theorem exists_near {r : ℝ} (h1 : r = 0 ∨ 1 / 2 ^ 900 ≤ r) (h2 : r ≤ 2 ^ 900) :
    ∃ a : Bin64, |((a.1 : ℚ) : ℝ) - r| ≤ 1 / 2 ^ 52 * |r| := by
  rcases h1 with rfl | h1
  · exact ⟨⟨0, rnd0_zero, by norm_num⟩, by simp⟩
  have hr : 0 < r := lt_of_lt_of_le (by positivity) h1
  obtain ⟨q, hq1, hq2⟩ := exists_rat_btwn (show r < r * (1 + 1 / 2 ^ 60) by nlinarith)
  have hb : |(q : ℝ)| ≤ 2 ^ 1000 := by
    rw [abs_of_pos (hr.trans hq1)]
    have e : (2 : ℝ) ^ 1000 = 2 ^ 900 * 2 ^ 100 := by rw [← pow_add]
    rw [e]
    have h3 : (1 : ℝ) + 1 / 2 ^ 60 ≤ 2 ^ 100 := by norm_num
    calc (q : ℝ) ≤ r * (1 + 1 / 2 ^ 60) := hq2.le
      _ ≤ 2 ^ 900 * 2 ^ 100 := mul_le_mul h2 h3 (by positivity) (by positivity)
  obtain ⟨a, ⟨u, _, rfl⟩, he⟩ := rnd_finite (q := q) rfl hb
  refine ⟨u, ?_⟩
  have h3 : (1 : ℝ) / 2 ^ 1075 ≤ r / 2 ^ 60 := by
    rw [le_div_iff₀ (by positivity)]
    refine le_trans ?_ h1
    rw [one_div_mul_eq_div, div_le_div_iff₀ (by positivity) (by positivity), ← pow_add, one_mul]
    exact pow_le_pow_right₀ (by norm_num) (by norm_num)
  rw [abs_of_pos (hr.trans hq1)] at he
  rw [abs_of_pos hr]
  clear h1 h2 hb
  generalize (1 : ℝ) / 2 ^ 1075 = w at *
  obtain ⟨e1, e2⟩ := abs_le.mp he
  exact abs_le.mpr ⟨by linarith, by linarith⟩

open Classical in
/-- A finite number next to `r`. -/
noncomputable def nearF (r : ℝ) : F64 :=
  if h : ∃ a : Bin64, |((a.1 : ℚ) : ℝ) - r| ≤ 1 / 2 ^ 52 * |r| then .fin h.choose else .nan

/-- A library whose logarithm and square root are accurate. -/
@[reducible] noncomputable def accurateLibm : Libm F64 where
  sqrt
    | .fin q => nearF (Real.sqrt (q.1 : ℚ))
    | x => x
  exp x := x
  ln
    | .fin q => nearF (Real.log (q.1 : ℚ))
    | x => x
  powf x _ := x

theorem nearF_within {r : ℝ} (h1 : r = 0 ∨ 1 / 2 ^ 900 ≤ r) (h2 : r ≤ 2 ^ 900) :
    Within (1 / 2 ^ 52) r (nearF r) := by
  have h := exists_near h1 h2
  refine ⟨h.choose, ?_, h.choose_spec⟩
  unfold nearF
  rw [dif_pos h]

/-- A binary64 number whose exponent is at least `-e` is a multiple of `2^-e`. -/
theorem Bin64.int (u : Bin64) {e : ℕ} (h : -(e : ℤ) ≤ expo u.1) : ∃ z : ℤ, u.1 * 2 ^ e = z := by
  have h1 : u.1 = roundEven (u.1 / 2 ^ expo u.1) * 2 ^ expo u.1 := u.2.1.symm
  obtain ⟨j, hj⟩ := Int.eq_ofNat_of_zero_le (show 0 ≤ expo u.1 + e by omega)
  refine ⟨roundEven (u.1 / 2 ^ expo u.1) * 2 ^ j, ?_⟩
  conv_lhs => rw [h1]
  rw [mul_assoc, ← zpow_natCast (2 : ℚ) e, ← zpow_add₀ (by norm_num), hj, zpow_natCast]
  push_cast
  ring

theorem Bin64.gap {u : Bin64} (h : 1 < u.1) : 1 + 1 / 2 ^ 52 ≤ u.1 := by
  have hlog : 0 ≤ Int.log 2 |u.1| := by
    rw [abs_of_pos (by linarith), Int.log_of_one_le_right 2 h.le]
    positivity
  obtain ⟨z, hz⟩ := u.int (e := 52) (by unfold expo; omega)
  have h1 : ((2 ^ 52 : ℤ) : ℚ) < (z : ℚ) := by
    rw [← hz]
    push_cast
    linarith
  have h2 : (2 ^ 52 : ℤ) + 1 ≤ z := by exact_mod_cast h1
  have h3 : (((2 ^ 52 : ℤ) + 1 : ℤ) : ℚ) ≤ z := by exact_mod_cast h2
  rw [← hz] at h3
  push_cast at h3
  linarith

theorem Bin64.tiny {u : Bin64} (h : 0 < u.1) : 1 / 2 ^ 1074 ≤ u.1 := by
  obtain ⟨z, hz⟩ := u.int (e := 1074) (by unfold expo; omega)
  have hp : (0 : ℚ) < 2 ^ 1074 := by positivity
  rw [div_le_iff₀ hp, hz]
  have h1 : (0 : ℚ) < z := by
    rw [← hz]
    exact mul_pos h hp
  have h2 : 0 < z := by exact_mod_cast h1
  have h3 : (1 : ℤ) ≤ z := h2
  exact_mod_cast h3

theorem Bin64.lt_real (u : Bin64) : ((u.1 : ℚ) : ℝ) ≤ 2 ^ 1024 := by
  have := (abs_lt.mp u.2.2).2.le
  exact_mod_cast this

theorem accurateLibm_accurate : @AccurateLibm accurateLibm := by
  refine @AccurateLibm.mk accurateLibm ?_ ?_
  · intro a ha
    have hle : Within (1 / 2 ^ 52) (Real.log (a.1 : ℚ)) (nearF (Real.log (a.1 : ℚ))) := by
      have hpos : (1 : ℝ) ≤ ((a.1 : ℚ) : ℝ) := by exact_mod_cast ha
      refine nearF_within ?_ ?_
      · rcases ha.eq_or_lt with h1 | h1
        · left
          rw [← h1]
          simp
        · right
          have h2 : (1 : ℝ) + 1 / 2 ^ 52 ≤ ((a.1 : ℚ) : ℝ) := by
            have := (Rat.cast_le (K := ℝ)).mpr (Bin64.gap h1)
            push_cast at this
            exact this
          have h3 := Real.log_le_log (by positivity) h2
          have h4 := Real.one_sub_inv_le_log_of_pos (show (0 : ℝ) < 1 + 1 / 2 ^ 52 by positivity)
          have h5 : (1 : ℝ) / 2 ^ 53 ≤ 1 - (1 + 1 / 2 ^ 52)⁻¹ := by norm_num
          have h6 : (1 : ℝ) / 2 ^ 900 ≤ 1 / 2 ^ 53 :=
            one_div_le_one_div_of_le (by positivity) (pow_le_pow_right₀ (by norm_num) (by norm_num))
          exact h6.trans (h5.trans (h4.trans h3))
      · have h2 := Real.log_le_log (by linarith) a.lt_real
        rw [Real.log_pow] at h2
        have h3 := Real.log_two_lt_d9
        have h4 : Real.log ((a.1 : ℚ) : ℝ) ≤ 2 ^ 10 := by
          refine h2.trans ?_
          push_cast
          linarith
        exact h4.trans (pow_le_pow_right₀ (by norm_num) (by norm_num))
    obtain ⟨v, hv, e⟩ := hle
    refine ⟨v, hv, e.trans ?_⟩
    exact mul_le_mul_of_nonneg_right (by norm_num) (abs_nonneg _)
  · intro a ha
    refine nearF_within ?_ ?_
    · rcases ha.eq_or_lt with h1 | h1
      · left
        rw [← h1]
        simp
      · right
        refine Real.le_sqrt_of_sq_le ?_
        have h2 : (1 : ℝ) / 2 ^ 1074 ≤ ((a.1 : ℚ) : ℝ) := by
          have := (Rat.cast_le (K := ℝ)).mpr (Bin64.tiny h1)
          push_cast at this
          exact this
        refine le_trans ?_ h2
        rw [div_pow, one_pow, ← pow_mul]
        exact one_div_le_one_div_of_le (by positivity) (pow_le_pow_right₀ (by norm_num) (by norm_num))
    · rw [Real.sqrt_le_left (by positivity), ← pow_mul]
      exact a.lt_real.trans (pow_le_pow_right₀ (by norm_num) (by norm_num))

attribute [local instance] accurateLibm

/-- The hypotheses of the theorems above are met, with every setting of the weights: here with six
individuals in two dimensions. -/
theorem c83_case (s : Weights) : AccurateLibm ∧ ∃ c, History.Of (Witness.wenv 2) Witness.sphere
    { Options.new (fun _ => 1) 1 with populationSize := 6, weights := s } [] c := by
  refine ⟨accurateLibm_accurate, ?_⟩
  have h1 : Flt.isNormal (1 : F64) = true := by decide +kernel
  have h2 : Flt.lt 0 (1 : F64) = true := by decide +kernel
  have h3 : Flt.le 1 (1 : F64) = true := by decide +kernel
  obtain ⟨c, hc⟩ := (c30_valid_iff (Witness.wenv 2) World.init Witness.sphere
    { Options.new (fun _ => 1) 1 with populationSize := 6, weights := s }).mpr
      ⟨by norm_num, by norm_num, ⟨h1, h2⟩, h1, h2, h3⟩
  exact ⟨c, _, c, hc, .refl c⟩

end Cmaes
