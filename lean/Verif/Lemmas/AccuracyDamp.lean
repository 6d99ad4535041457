import Verif.Lemmas.AccuracyRates

/-!
# Rounding errors of `cmu` and `damp_s`
-/

namespace Cmaes
variable [Libm F64]

/-! ### Comparisons and exact results -/

theorem IsReal.not_nan {x : F64} {a : ℝ} (h : IsReal x a) : Flt.isNaN x = false := by
  obtain ⟨u, rfl, _⟩ := h
  rfl

theorem IsReal.lt_iff {x y : F64} {a b : ℝ} (hx : IsReal x a) (hy : IsReal y b) :
    Flt.lt x y = true ↔ a < b := by
  obtain ⟨u, rfl, rfl⟩ := hx
  obtain ⟨v, rfl, rfl⟩ := hy
  show decide ((u.1 : ℚ) < v.1) = true ↔ _
  rw [decide_eq_true_eq]
  exact_mod_cast Iff.rfl

theorem IsReal.le_iff {x y : F64} {a b : ℝ} (hx : IsReal x a) (hy : IsReal y b) :
    Flt.le x y = true ↔ a ≤ b := by
  obtain ⟨u, rfl, rfl⟩ := hx
  obtain ⟨v, rfl, rfl⟩ := hy
  show decide ((u.1 : ℚ) ≤ v.1) = true ↔ _
  rw [decide_eq_true_eq]
  exact_mod_cast Iff.rfl

theorem IsReal.fmin {x y : F64} {a b : ℝ} (hx : IsReal x a) (hy : IsReal y b) :
    IsReal (Flt.fmin x y) (min a b) := by
  unfold Flt.fmin
  rw [if_neg (by rw [hx.not_nan]; simp), if_neg (by rw [hy.not_nan]; simp)]
  split
  · rename_i h
    rw [min_eq_right ((hy.lt_iff hx).mp h).le]
    exact hy
  · rename_i h
    rw [hy.lt_iff hx] at h
    rw [min_eq_left (not_lt.mp h)]
    exact hx

theorem IsReal.fmax {x y : F64} {a b : ℝ} (hx : IsReal x a) (hy : IsReal y b) :
    IsReal (Flt.fmax x y) (max a b) := by
  unfold Flt.fmax
  rw [if_neg (by rw [hx.not_nan]; simp), if_neg (by rw [hy.not_nan]; simp)]
  split
  · rename_i h
    rw [max_eq_right ((hx.lt_iff hy).mp h).le]
    exact hy
  · rename_i h
    rw [hx.lt_iff hy] at h
    rw [max_eq_left (not_lt.mp h)]
    exact hx

theorem isReal_int {q : ℚ} {z : ℤ} (hq : (q : ℝ) = z) (hz : |z| ≤ 2 ^ 53) :
    IsReal (Fmt.rnd q : F64) z := by
  have hq' : q = z := by exact_mod_cast hq
  refine isReal_rnd ?_ hq ?_
  · have := rnd0_exact (m := z) (k := 0) hz (by norm_num)
    rw [hq']
    simpa using this
  · have h1 : |(z : ℝ)| ≤ 2 ^ 53 := by exact_mod_cast hz
    exact h1.trans (pow_le_pow_right₀ (by norm_num) (by norm_num))

theorem isReal_zero : IsReal (0 : F64) 0 := by
  have := isReal_nat (m := 0) (by norm_num)
  simpa [f64_zero'] using this

theorem isReal_one : IsReal (1 : F64) 1 := by
  have := isReal_nat (m := 1) (by norm_num)
  simpa [f64_one'] using this

theorem isReal_two : IsReal (2 : F64) 2 := by
  have := isReal_nat (m := 2) (by norm_num)
  exact_mod_cast this

theorem Near.fmin {k B : ℕ} {x y : F64} {r s : ℝ} (hx : Near k B x r) (hy : Near k B y s) :
    Near k B (Flt.fmin x y) (min r s) := by
  obtain ⟨a, ha, a1, a2, a3, a4⟩ := hx
  obtain ⟨b, hb, b1, b2, b3, b4⟩ := hy
  have hp := (rho_pow_pos k).le
  refine ⟨_, ha.fmin hb, le_min a1 b1, (min_le_left _ _).trans a2, ?_, ?_⟩
  · rw [mul_min_of_nonneg _ _ hp]
    exact min_le_min a3 b3
  · rw [mul_min_of_nonneg _ _ hp]
    exact min_le_min a4 b4

section rates
variable {n k : ℕ} {x : F64} {m : ℝ}

/-! ### `cmu` -/

theorem frac_near (hx : Near k 20 x m) (hk : k ≤ 2 ^ 40) (hm : 6 / 5 ≤ m) :
    Near (15 * k + 81) 20 (x - 2 + 1 / x) (m - 2 + 1 / m) := by
  have hm20 : m ≤ 2 ^ 20 := by obtain ⟨_, _, _, h, _⟩ := hx; exact h
  have hRx : ∃ a, IsReal x a ∧ m ≤ rho ^ k * a := by
    obtain ⟨a, ha, _, _, _, h⟩ := hx
    exact ⟨a, ha, h⟩
  have hRx' : ∃ a, IsReal x a ∧ a ≤ rho ^ k * m := by
    obtain ⟨a, ha, _, _, h, _⟩ := hx
    exact ⟨a, ha, h⟩
  obtain ⟨a, ha, u1, u2, a1, a2⟩ := sub_one_near hx (by omega) hm
  obtain ⟨a', ha', u3⟩ := hRx
  rw [ha'.inj ha] at u3
  clear ha' a'
  obtain ⟨a', ha', u4⟩ := hRx'
  rw [ha'.inj ha] at u4
  clear ha' a'
  have ha0 : 0 < a := by linarith
  have hm0 : 0 < m := by linarith
  -- the three roundings
  obtain ⟨q1, hq1, e1⟩ := ha.add_rnd isReal_two.neg'
  have big : ∀ y : ℝ, |y| ≤ 2 ^ 30 → |y| ≤ 2 ^ 1000 := fun y h =>
    h.trans (pow_le_pow_right₀ (by norm_num) (by norm_num))
  obtain ⟨t1, ht1, et1⟩ := rnd_finite hq1 (big _ (by
    refine abs_le.mpr ⟨by linarith, by linarith⟩))
  obtain ⟨q2, hq2, e2⟩ := isReal_one.div_rnd ha ha0.ne'
  have hinv : 1 / a ≤ 1 := by rw [div_le_one ha0]; linarith
  have hinv0 : 0 < 1 / a := by positivity
  obtain ⟨t2, ht2, et2⟩ := rnd_finite hq2 (big _ (by
    rw [abs_of_pos hinv0]; linarith))
  rw [← e1] at ht1
  rw [← e2] at ht2
  obtain ⟨q3, hq3, e3⟩ := ht1.add_rnd ht2
  show Near _ _ (Ext.add (Ext.add x (Ext.neg 2)) (Ext.div 1 x)) _
  rw [e3]
  -- the exact values
  have efa : a - 2 + 1 / a = (a - 1) ^ 2 / a := by field_simp; ring
  have efm : m - 2 + 1 / m = (m - 1) ^ 2 / m := by field_simp; ring
  have hfa0 : 1 / 64 ≤ a - 2 + 1 / a := by
    rw [efa, le_div_iff₀ ha0]
    nlinarith
  have hcan : |a + -2| + 1 / a ≤ 128 * (a - 2 + 1 / a) := by
    by_cases h2 : 2 ≤ a
    · rw [abs_of_nonneg (by linarith)]
      linarith
    · rw [abs_of_nonpos (by linarith)]
      have : 0 ≤ 129 * (a - 2) + 127 * (1 / a) := by
        have e : 129 * (a - 2) + 127 * (1 / a) = (129 * a * (a - 2) + 127) / a := by
          field_simp
        rw [e]
        refine div_nonneg ?_ ha0.le
        nlinarith
      linarith
  have herr : |t1 + t2 - (a - 2 + 1 / a)| ≤ 65 / 2 ^ 52 * (a - 2 + 1 / a) := by
    have ht : (1 : ℝ) / 2 ^ 1075 ≤ 1 / 2 ^ 70 :=
      one_div_le_one_div_of_le (by positivity) (pow_le_pow_right₀ (by norm_num) (by norm_num))
    rw [abs_of_pos hinv0] at et2
    generalize (1 : ℝ) / 2 ^ 1075 = z at *
    have h3 : |t1 + t2 - (a - 2 + 1 / a)| ≤ |t1 - (a + -2)| + |t2 - 1 / a| := by
      have := abs_add_le (t1 - (a + -2)) (t2 - 1 / a)
      have e : t1 + t2 - (a - 2 + 1 / a) = t1 - (a + -2) + (t2 - 1 / a) := by ring
      rw [e]
      exact this
    generalize 1 / a = w at *
    linarith
  have hfam : a - 2 + 1 / a ≤ rho ^ (15 * k) * (m - 2 + 1 / m) := by
    rw [efa, efm, show 15 * k = 7 * k + 7 * k + k by ring, pow_add, pow_add, div_le_iff₀ ha0]
    have h1 : (a - 1) ^ 2 ≤ (rho ^ (7 * k) * (m - 1)) ^ 2 :=
      pow_le_pow_left₀ (by linarith) u1 2
    have h2 : 1 ≤ rho ^ k * (a / m) := by
      rw [← mul_div_assoc, le_div_iff₀ hm0]
      linarith
    calc (a - 1) ^ 2 ≤ (rho ^ (7 * k) * (m - 1)) ^ 2 := h1
      _ ≤ (rho ^ (7 * k) * (m - 1)) ^ 2 * (rho ^ k * (a / m)) :=
          le_mul_of_one_le_right (by positivity) h2
      _ = _ := by ring
  have hfma : m - 2 + 1 / m ≤ rho ^ (15 * k) * (a - 2 + 1 / a) := by
    rw [efa, efm, show 15 * k = 7 * k + 7 * k + k by ring, pow_add, pow_add, div_le_iff₀ hm0]
    have h1 : (m - 1) ^ 2 ≤ (rho ^ (7 * k) * (a - 1)) ^ 2 :=
      pow_le_pow_left₀ (by linarith) u2 2
    have h2 : 1 ≤ rho ^ k * (m / a) := by
      rw [← mul_div_assoc, le_div_iff₀ ha0]
      linarith
    calc (m - 1) ^ 2 ≤ (rho ^ (7 * k) * (a - 1)) ^ 2 := h1
      _ ≤ (rho ^ (7 * k) * (a - 1)) ^ 2 * (rho ^ k * (m / a)) :=
          le_mul_of_one_le_right (by positivity) h2
      _ = _ := by ring
  obtain ⟨er1, er2⟩ := abs_le.mp herr
  have hr80 := le_rho_pow 80
  have hr80' := rho_pow_le (k := 80) (by norm_num)
  have hP := rho_pow_pos (15 * k)
  refine Near.of_rnd (k := 15 * k + 80) hq3 ?_ ?_ ?_ ?_ (by omega) (by omega)
  · rw [efm, le_div_iff₀ hm0]
    nlinarith
  · have : 1 / m ≤ 1 := by rw [div_le_one hm0]; linarith
    linarith
  · rw [pow_add]
    generalize a - 2 + 1 / a = fa at *
    generalize m - 2 + 1 / m = fm at *
    have h5 : t1 + t2 ≤ rho ^ 80 * fa := by push_cast at hr80; nlinarith
    calc t1 + t2 ≤ rho ^ 80 * fa := h5
      _ ≤ rho ^ 80 * (rho ^ (15 * k) * fm) := mul_le_mul_of_nonneg_left hfam (rho_pow_pos 80).le
      _ = _ := by ring
  · rw [pow_add]
    generalize a - 2 + 1 / a = fa at *
    generalize m - 2 + 1 / m = fm at *
    have h5 : fa ≤ rho ^ 80 * (t1 + t2) := by
      have h6 : fa * (1 - 65 / 2 ^ 52) ≤ t1 + t2 := by linarith
      have h7 : (1 + 80 / 2 ^ 52) * (fa * (1 - 65 / 2 ^ 52)) ≤ rho ^ 80 * (t1 + t2) := by
        refine mul_le_mul (by push_cast at hr80; linarith) h6 ?_ (rho_pow_pos 80).le
        refine mul_nonneg (by linarith) (by norm_num)
      refine le_trans ?_ h7
      nlinarith
    calc fm ≤ rho ^ (15 * k) * fa := hfma
      _ ≤ rho ^ (15 * k) * (rho ^ 80 * (t1 + t2)) := mul_le_mul_of_nonneg_left h5 hP.le
      _ = _ := by ring

theorem realC1_le_third (hn : 1 ≤ n) (hm : 1 ≤ m) : realC1 n m ≤ 1 / 3 := by
  have : (1 : ℝ) ≤ n := by exact_mod_cast hn
  unfold realC1
  rw [div_le_div_iff₀ (by positivity) (by norm_num)]
  nlinarith

theorem cmu_near (hx : Near k 20 x m) (hk : k ≤ 2 ^ 38) (hn : 1 ≤ n) (hn' : n ≤ 2 ^ 53)
    (hm : 6 / 5 ≤ m) :
    Near (16 * k + 100) 400 (paramCmu n x (paramC1 n x)) (realCmu n m) := by
  have hd := near_dim hn hn'
  have h1 := one_sub_near (c1_near hx (by omega) hn hn') (by omega)
    (realC1_le_third hn (by linarith))
  have h2 := (near_lit 2).mul (frac_near hx (by omega) hm) (by omega) (by omega)
  have h3 := (near_sq (hd.add (near_lit 2)) (by norm_num) (by norm_num)).add
    (((near_lit 2).mul hx (by omega)).div (near_lit 2) (by omega)) (by omega)
  exact Near.fmin (h1.mono (by omega) (by omega)) ((h2.div h3 (by omega)).mono (by omega) (by omega))

theorem cmu_zero (hn : 1 ≤ n) (hn' : n ≤ 2 ^ 53) :
    IsReal (paramCmu n (Fmt.rnd (1 : ℚ) : F64) (paramC1 n (Fmt.rnd (1 : ℚ)))) 0 := by
  have hx : Near 0 20 (Fmt.rnd (1 : ℚ) : F64) 1 := Near.of_real isReal_one (by norm_num) (by norm_num)
  have hd := near_dim hn hn'
  have h1 := one_sub_near (c1_near hx (by omega) hn hn') (by omega)
    (realC1_le_third hn (by linarith))
  have h3 := (near_sq (hd.add (near_lit 2)) (by norm_num) (by norm_num)).add
    (((near_lit 2).mul hx (by omega)).div (near_lit 2) (by omega)) (by omega)
  have t1 : IsReal ((Fmt.rnd (1 : ℚ) : F64) - 2) (-1 : ℤ) := by
    obtain ⟨q, hq, e⟩ := isReal_one.add_rnd isReal_two.neg'
    show IsReal (Ext.add (1 : F64) (Ext.neg 2)) _
    rw [e]
    exact isReal_int (hq.trans (by norm_num)) (by norm_num)
  have t2 : IsReal (1 / (Fmt.rnd (1 : ℚ) : F64)) (1 : ℤ) := by
    obtain ⟨q, hq, e⟩ := isReal_one.div_rnd isReal_one (by norm_num)
    show IsReal (Ext.div (1 : F64) 1) _
    rw [e]
    exact isReal_int (hq.trans (by norm_num)) (by norm_num)
  have t3 : IsReal ((Fmt.rnd (1 : ℚ) : F64) - 2 + 1 / (Fmt.rnd (1 : ℚ) : F64)) (0 : ℤ) := by
    obtain ⟨q, hq, e⟩ := t1.add_rnd t2
    show IsReal (Ext.add _ _) _
    rw [e]
    exact isReal_int (hq.trans (by norm_num)) (by norm_num)
  have t4 : IsReal (2 * ((Fmt.rnd (1 : ℚ) : F64) - 2 + 1 / (Fmt.rnd (1 : ℚ) : F64))) (0 : ℤ) := by
    obtain ⟨q, hq, e⟩ := isReal_two.mul_rnd t3
    show IsReal (Ext.mul _ _) _
    rw [e]
    exact isReal_int (hq.trans (by norm_num)) (by norm_num)
  have h3' := h3
  obtain ⟨b, hb, _⟩ := h3
  have t5 := t4.div_rnd hb (Near.real_pos hb h3').ne'
  obtain ⟨q, hq, e⟩ := t5
  have t6 : IsReal (Fmt.rnd q : F64) (0 : ℤ) :=
    isReal_int (hq.trans (by simp)) (by norm_num)
  rw [← e] at t6
  have h1' := h1
  obtain ⟨c, hc, _⟩ := h1
  have hc0 := Near.real_pos hc h1'
  have := hc.fmin t6
  rw [min_eq_right (by simpa using hc0.le), Int.cast_zero] at this
  exact this

/-! ### `damp_s` -/

theorem AccurateLibm.sqrt_near (hl : AccurateLibm) {B : ℕ} {r : ℝ} (hx : Near (2 * k) B x r) :
    Near (k + 2) B (Flt.sqrt x) (Real.sqrt r) := by
  have hr := hx.pos
  have hx' := hx
  obtain ⟨a, ha, b1, b2, h1, h2⟩ := hx
  have ha0 := Near.real_pos ha hx'
  have hs0 : 0 < Real.sqrt a := Real.sqrt_pos.mpr ha0
  have hw : ∃ b, IsReal (Flt.sqrt x) b ∧ |b - Real.sqrt a| ≤ 1 / 2 ^ 52 * Real.sqrt a := by
    obtain ⟨u, rfl, rfl⟩ := ha
    obtain ⟨v, hv, hev⟩ := hl.sqrt u (by exact_mod_cast ha0.le)
    rw [abs_of_pos hs0] at hev
    exact ⟨_, ⟨v, hv, rfl⟩, hev⟩
  obtain ⟨b, hb, hev⟩ := hw
  obtain ⟨e1, e2⟩ := abs_le.mp hev
  have s1 : Real.sqrt a ≤ rho ^ k * Real.sqrt r := by
    have := Real.sqrt_le_sqrt h1
    rwa [mul_comm 2 k, pow_mul, Real.sqrt_mul (by positivity), Real.sqrt_sq (rho_pow_pos k).le] at this
  have s2 : Real.sqrt r ≤ rho ^ k * Real.sqrt a := by
    have := Real.sqrt_le_sqrt h2
    rwa [mul_comm 2 k, pow_mul, Real.sqrt_mul (by positivity), Real.sqrt_sq (rho_pow_pos k).le] at this
  have hone : (1 : ℝ) ≤ 2 ^ B := one_le_pow₀ (by norm_num)
  have hr2 := le_rho_pow 2
  have hp := rho_pow_pos k
  push_cast at hr2
  refine ⟨b, hb, ?_, ?_, ?_, ?_⟩
  · rw [Real.le_sqrt (by positivity) hr.le]
    refine le_trans ?_ b1
    have : (1 : ℝ) / 2 ^ B ≤ 1 := by rw [div_le_one (by positivity)]; exact hone
    have h0 : (0 : ℝ) ≤ 1 / 2 ^ B := by positivity
    nlinarith
  · rw [Real.sqrt_le_left (by positivity)]
    exact b2.trans (by nlinarith)
  · rw [pow_add]
    calc b ≤ rho ^ 2 * Real.sqrt a := by nlinarith
      _ ≤ rho ^ 2 * (rho ^ k * Real.sqrt r) := mul_le_mul_of_nonneg_left s1 (rho_pow_pos 2).le
      _ = _ := by ring
  · rw [pow_add]
    have h3 : Real.sqrt a ≤ rho ^ 2 * b := by
      have h4 : (1 - 1 / 2 ^ 52) * Real.sqrt a ≤ b := by linarith
      have h5 : (1 + 2 / 2 ^ 52) * ((1 - 1 / 2 ^ 52) * Real.sqrt a) ≤ rho ^ 2 * b :=
        mul_le_mul hr2 h4 (mul_nonneg (by norm_num) hs0.le) (rho_pow_pos 2).le
      refine le_trans ?_ h5
      nlinarith
    calc Real.sqrt r ≤ rho ^ k * Real.sqrt a := s2
      _ ≤ rho ^ k * (rho ^ 2 * b) := mul_le_mul_of_nonneg_left h3 hp.le
      _ = _ := by ring

theorem sub_near (hx : Near k 20 x m) (hk : k ≤ 2 ^ 40) (hm : 6 / 5 ≤ m) :
    Near (7 * k + 1) 20 (x - 1) (m - 1) := by
  have hm20 : m ≤ 2 ^ 20 := by obtain ⟨_, _, _, h, _⟩ := hx; exact h
  obtain ⟨a, ha, u1, u2, a1, a2⟩ := sub_one_near hx (by omega) hm
  obtain ⟨q1, hq1, e1⟩ := ha.add_rnd isReal_one.neg'
  show Near _ _ (Ext.add x (Ext.neg 1)) _
  rw [e1]
  have e : a + -1 = a - 1 := by ring
  rw [e] at hq1
  exact Near.of_rnd hq1 (by norm_num; linarith) (by linarith) u1 u2 (by omega) (by omega)

omit [Libm F64] in
theorem damp_upper {c D E M R P X Y : ℝ} (hE : 1 ≤ E) (hR1 : 1 ≤ R) (hR2 : R ≤ 65 / 64)
    (hP : 1 + 8 / 2 ^ 52 ≤ P) (hM : 0 ≤ M) (h3 : c ≤ R * E) (xu : X ≤ R * M + (R - 1))
    (hdu : Y ≤ (1 + 1 / 2 ^ 53) * X + 1 / 2 ^ 60)
    (eD : D - 2 * Y ≤ 2 * Y / 2 ^ 53 + 1 / 2 ^ 60) :
    c + D ≤ R ^ 4 * P * (E + 2 * M) := by
  have d1 : D ≤ (1 + 1 / 2 ^ 51) * (2 * (R * M + (R - 1))) + 1 / 2 ^ 58 := by
    have hRM : 0 ≤ R * M := mul_nonneg (by linarith) hM
    generalize R * M = V at *
    linarith
  have hEM : 0 < E + 2 * M := by linarith
  have d2 : c + D ≤ (1 + 1 / 2 ^ 50) * ((3 * R - 2) * (E + 2 * M)) := by
    have k1 : 0 ≤ (R - 1) * (E - 1) := mul_nonneg (by linarith) (by linarith)
    have k2 : 0 ≤ (R - 1) * M := mul_nonneg (by linarith) hM
    have k3 : E ≤ R * E := by nlinarith
    have k4 : M ≤ R * M := by nlinarith
    have e1 : (3 * R - 2) * (E + 2 * M) = 3 * (R * E) - 2 * E + 6 * (R * M) - 4 * M := by ring
    have e2 : (R - 1) * (E - 1) = R * E - E - R + 1 := by ring
    rw [e1]
    rw [e2] at k1
    generalize R * E = A at *
    generalize R * M = V at *
    linarith
  have d3 : 3 * R - 2 ≤ R ^ 4 := by
    have e : R ^ 4 - (3 * R - 2) = (R - 1) * (R ^ 3 + R ^ 2 + R - 2) := by ring
    have h5 : 0 ≤ R ^ 3 + R ^ 2 + R - 2 := by
      have := one_le_pow₀ hR1 (n := 3)
      have := one_le_pow₀ hR1 (n := 2)
      linarith
    have := mul_nonneg (sub_nonneg.mpr hR1) h5
    linarith
  calc c + D ≤ (1 + 1 / 2 ^ 50) * ((3 * R - 2) * (E + 2 * M)) := d2
    _ ≤ P * (R ^ 4 * (E + 2 * M)) := by
        refine mul_le_mul (by linarith) (mul_le_mul_of_nonneg_right d3 hEM.le) ?_ (by linarith)
        exact mul_nonneg (by linarith) hEM.le
    _ = R ^ 4 * P * (E + 2 * M) := by ring

omit [Libm F64] in
theorem damp_lower {c D E M R P X Y : ℝ} (hE : 1 ≤ E) (hR1 : 1 ≤ R) (hR2 : R ≤ 65 / 64)
    (hP : 1 + 8 / 2 ^ 52 ≤ P) (hM : 0 ≤ M) (hX : 0 ≤ X) (hY : 0 ≤ Y) (h4 : E ≤ R * c)
    (xl : M ≤ R * X + (R - 1)) (hdl : (1 - 1 / 2 ^ 53) * X - 1 / 2 ^ 60 ≤ Y)
    (eD : -(2 * Y / 2 ^ 53 + 1 / 2 ^ 60) ≤ D - 2 * Y) :
    E + 2 * M ≤ R ^ 4 * P * (c + D) := by
  have d1 : (1 - 1 / 2 ^ 52) * (2 * X) - 1 / 2 ^ 58 ≤ D := by linarith
  have hc1 : 1 / 2 ≤ c := by nlinarith
  have d2 : (1 - 1 / 2 ^ 52) * (c + 2 * X) ≤ c + D := by linarith
  have d3 : (3 - 2 * R) * (E + 2 * M) ≤ R * (c + 2 * X) := by
    have k1 : 0 ≤ (R - 1) * (E - 1) := mul_nonneg (by linarith) (by linarith)
    have k2 : 0 ≤ (R - 1) * M := mul_nonneg (by linarith) hM
    have e1 : (3 - 2 * R) * (E + 2 * M) = E + 2 * M - 2 * ((R - 1) * E) - 4 * ((R - 1) * M) := by
      ring
    have e2 : (R - 1) * (E - 1) = (R - 1) * E - R + 1 := by ring
    rw [e1, mul_add]
    rw [e2] at k1
    linarith
  have d4 : 1 ≤ R ^ 3 * (3 - 2 * R) := by
    have e : R ^ 3 * (3 - 2 * R) - 1 = (R - 1) * (1 + R + R ^ 2 - 2 * R ^ 3) := by ring
    have h5 : 0 ≤ 1 + R + R ^ 2 - 2 * R ^ 3 := by
      have h6 : R ^ 3 ≤ (65 / 64) ^ 3 := pow_le_pow_left₀ (by linarith) hR2 3
      have h7 := one_le_pow₀ hR1 (n := 2)
      norm_num at h6
      linarith
    have := mul_nonneg (sub_nonneg.mpr hR1) h5
    linarith
  have hEM : 0 < E + 2 * M := by linarith
  have hcX : 0 < c + 2 * X := by linarith
  have h6 : 1 ≤ P * (1 - 1 / 2 ^ 52) := by nlinarith
  calc E + 2 * M ≤ (R ^ 3 * (3 - 2 * R)) * (E + 2 * M) := le_mul_of_one_le_left hEM.le d4
    _ = R ^ 3 * ((3 - 2 * R) * (E + 2 * M)) := by ring
    _ ≤ R ^ 3 * (R * (c + 2 * X)) := mul_le_mul_of_nonneg_left d3 (by positivity)
    _ ≤ (P * (1 - 1 / 2 ^ 52)) * (R ^ 3 * (R * (c + 2 * X))) :=
        le_mul_of_one_le_left (by positivity) h6
    _ = R ^ 4 * P * ((1 - 1 / 2 ^ 52) * (c + 2 * X)) := by ring
    _ ≤ R ^ 4 * P * (c + D) := mul_le_mul_of_nonneg_left d2 (by
        have : 0 ≤ P := by linarith
        positivity)

/-- `e + 2 * max(s - 1, 0)`, the shape of `damp_s`. -/
theorem damp_near {p : ℕ} (hp : p ≤ 2 ^ 42) {x y : F64} {s E : ℝ} (hx : Near p 74 x s)
    (hy : Near p 401 y E) (hE : 1 ≤ E) :
    Near (4 * p + 9) 402 (y + 2 * Flt.fmax (x - 1) 0) (E + 2 * max (s - 1) 0) := by
  have hx' := hx
  have hy' := hy
  obtain ⟨b, hb, _, s2, h1, h2⟩ := hx
  obtain ⟨c, hc, _, E2, h3, h4⟩ := hy
  have hb0 := Near.real_pos hb hx'
  have hc0 := Near.real_pos hc hy'
  have hs0 := hx'.pos
  have hR1 := one_le_rho_pow p
  have hR2 := rho_pow_le_two (k := p) (by omega)
  have hb75 : b ≤ 2 ^ 75 := by nlinarith
  have huge : (2 : ℝ) ^ 80 ≤ 2 ^ 1000 := pow_le_pow_right₀ (by norm_num) (by norm_num)
  have ht : (1 : ℝ) / 2 ^ 1075 ≤ 1 / 2 ^ 60 :=
    one_div_le_one_div_of_le (by positivity) (pow_le_pow_right₀ (by norm_num) (by norm_num))
  -- `x - 1`
  obtain ⟨q1, hq1, e1⟩ := hb.add_rnd isReal_one.neg'
  obtain ⟨d, hd, ed⟩ := rnd_finite hq1 (le_trans (abs_le.mpr ⟨by linarith, by linarith⟩) huge)
  rw [← e1] at hd
  have hmax := hd.fmax isReal_zero
  have hX0 : 0 ≤ max (b - 1) 0 := le_max_right _ _
  have hdu : max d 0 ≤ (1 + 1 / 2 ^ 53) * max (b - 1) 0 + 1 / 2 ^ 60 := by
    generalize (1 : ℝ) / 2 ^ 1075 = w at *
    obtain ⟨ed1, ed2⟩ := abs_le.mp ed
    refine max_le ?_ (by positivity)
    by_cases hb1 : 1 ≤ b
    · rw [abs_of_nonneg (by linarith)] at ed2
      rw [max_eq_left (by linarith)]
      linarith
    · rw [abs_of_nonpos (by linarith)] at ed2
      rw [max_eq_right (by linarith)]
      linarith
  have hdl : (1 - 1 / 2 ^ 53) * max (b - 1) 0 - 1 / 2 ^ 60 ≤ max d 0 := by
    generalize (1 : ℝ) / 2 ^ 1075 = w at *
    obtain ⟨ed1, ed2⟩ := abs_le.mp ed
    by_cases hb1 : 1 ≤ b
    · rw [abs_of_nonneg (by linarith)] at ed1
      rw [max_eq_left (by linarith : (0 : ℝ) ≤ b - 1)]
      exact le_trans (by linarith) (le_max_left _ _)
    · rw [max_eq_right (by linarith : b - 1 ≤ (0 : ℝ))]
      exact le_trans (by norm_num) (le_max_right _ _)
  have hXb : max (b - 1) 0 ≤ 2 ^ 75 := max_le (by linarith) (by positivity)
  have hM0 : 0 ≤ max (s - 1) 0 := le_max_right _ _
  -- twice it
  obtain ⟨q2, hq2, e2⟩ := isReal_two.mul_rnd hmax
  have hD0 : 0 ≤ max d 0 := le_max_right _ _
  obtain ⟨D, hD, eD⟩ := rnd_finite hq2 (le_trans (abs_le.mpr ⟨by linarith, by nlinarith⟩) huge)
  rw [← e2] at hD
  obtain ⟨q3, hq3, e3⟩ := hc.add_rnd hD
  show Near _ _ (Ext.add y (Ext.mul 2 (Flt.fmax (Ext.add x (Ext.neg 1)) 0))) _
  rw [e3]
  have xu : max (b - 1) 0 ≤ rho ^ p * max (s - 1) 0 + (rho ^ p - 1) := by
    refine max_le ?_ (by nlinarith)
    have := le_max_left (s - 1) 0
    nlinarith
  have xl : max (s - 1) 0 ≤ rho ^ p * max (b - 1) 0 + (rho ^ p - 1) := by
    refine max_le ?_ (by nlinarith)
    have := le_max_left (b - 1) 0
    nlinarith
  rw [abs_of_nonneg (show (0 : ℝ) ≤ 2 * max d 0 by linarith)] at eD
  have M74 : max (s - 1) 0 ≤ 2 ^ 74 := max_le (by linarith) (by positivity)
  have hr8 := le_rho_pow 8
  push_cast at hr8
  have hR0 := rho_pow_pos p
  have hfin : E + 2 * max (s - 1) 0 ≤ 2 ^ 402 := by
    have k1 : (2 : ℝ) ^ 75 ≤ 2 ^ 401 := pow_le_pow_right₀ (by norm_num) (by norm_num)
    have e400 : (2 : ℝ) ^ 402 = 2 * 2 ^ 401 := by
      have h := pow_add (2 : ℝ) 401 1
      rw [pow_one, mul_comm] at h
      exact h
    have e75 : (2 : ℝ) ^ 75 = 2 * 2 ^ 74 := by norm_num
    rw [e400]
    rw [e75] at k1
    clear * - k1 E2 M74
    generalize (2 : ℝ) ^ 401 = W at *
    linarith
  have hlow : (1 : ℝ) / 2 ^ 402 ≤ E + 2 * max (s - 1) 0 := by
    have : (1 : ℝ) / 2 ^ 402 ≤ 1 := by
      rw [div_le_one (by positivity)]
      exact one_le_pow₀ (by norm_num)
    linarith
  refine Near.of_rnd (k := 4 * p + 8) hq3 hlow hfin ?_ ?_ (by omega) (by omega)
  · obtain ⟨eD1, eD2⟩ := abs_le.mp eD
    rw [show 4 * p = p * 4 by ring, pow_add, pow_mul]
    exact damp_upper hE hR1 hR2 hr8 hM0 h3 xu hdu (eD2.trans (add_le_add_right ht _))
  · obtain ⟨eD1, eD2⟩ := abs_le.mp eD
    rw [show 4 * p = p * 4 by ring, pow_add, pow_mul]
    exact damp_lower hE hR1 hR2 hr8 hM0 hX0 hD0 h4 xl hdl
      ((neg_le_neg (add_le_add_right ht _)).trans eD1)

theorem dampS_near (hl : AccurateLibm) (hx : Near k 20 x m) (hk : k ≤ 2 ^ 38) (hk3 : 3 ≤ k)
    (hn : 1 ≤ n) (hn' : n ≤ 2 ^ 53) (hm : 6 / 5 ≤ m) :
    Near (16 * k + 25) 402 (paramDampS n x (paramCs n x)) (realDampS n m) := by
  have hd := near_dim hn hn'
  have h1 := sub_near hx (by omega) hm
  have h2 := (h1.div (hd.add near_one (by norm_num)) (by omega)).mono
    (l := 2 * (4 * k + 1)) (C := 74) (by omega) (by omega)
  have h3 := (hl.sqrt_near h2).mono (l := 4 * k + 4) (C := 74) (by omega) le_rfl
  have h4 := (near_one.add (cs_near hx (by omega) hn hn') (by omega)).mono
    (l := 4 * k + 4) (C := 401) (by omega) (by omega)
  have hcs : 0 < realCs n m := (cs_near hx (by omega) hn hn').pos
  exact (damp_near (by omega) h3 h4 (by linarith)).mono (by omega) le_rfl

theorem dampS_one (hl : AccurateLibm) (hn : 1 ≤ n) (hn' : n ≤ 2 ^ 53) :
    Near 6 402 (paramDampS n (Fmt.rnd (1 : ℚ) : F64) (paramCs n (Fmt.rnd (1 : ℚ)))) (realDampS n 1) := by
  have hx : Near 0 20 (Fmt.rnd (1 : ℚ) : F64) 1 := Near.of_real isReal_one (by norm_num) (by norm_num)
  have h1 := near_one.add (cs_near hx (by omega) hn hn') (by omega)
  have t1 : IsReal ((Fmt.rnd (1 : ℚ) : F64) - 1) (0 : ℤ) := by
    obtain ⟨q, hq, e⟩ := isReal_one.add_rnd isReal_one.neg'
    show IsReal (Ext.add (1 : F64) (Ext.neg 1)) _
    rw [e]
    exact isReal_int (hq.trans (by norm_num)) (by norm_num)
  have h3 := (near_dim hn hn').add near_one (by norm_num)
  have h3' := h3
  obtain ⟨b, hb, _⟩ := h3
  obtain ⟨q, hq, e⟩ := t1.div_rnd hb (Near.real_pos hb h3').ne'
  have t2 : IsReal (Fmt.rnd q : F64) (0 : ℤ) :=
    isReal_int (hq.trans (by simp)) (by norm_num)
  have t3 : IsReal (Flt.sqrt (Fmt.rnd q : F64)) (0 : ℤ) := by
    obtain ⟨u, hu, hu0⟩ := t2
    obtain ⟨v, hv, hev⟩ := hl.sqrt u (by
      have : ((u.1 : ℚ) : ℝ) = 0 := by simpa using hu0
      exact_mod_cast this.ge)
    rw [hu]
    refine ⟨v, hv, ?_⟩
    rw [hu0] at hev
    simpa using hev
  have t4 : IsReal (Flt.sqrt (Fmt.rnd q : F64) - 1) (-1 : ℤ) := by
    obtain ⟨q, hq, e⟩ := t3.add_rnd isReal_one.neg'
    show IsReal (Ext.add _ (Ext.neg 1)) _
    rw [e]
    exact isReal_int (hq.trans (by norm_num)) (by norm_num)
  have t5 := t4.fmax isReal_zero
  rw [max_eq_right (by norm_num)] at t5
  have t6 : IsReal (2 * Flt.fmax (Flt.sqrt (Fmt.rnd q : F64) - 1) 0) (0 : ℤ) := by
    obtain ⟨q, hq, e⟩ := isReal_two.mul_rnd t5
    show IsReal (Ext.mul _ _) _
    rw [e]
    exact isReal_int (hq.trans (by norm_num)) (by norm_num)
  have h1' := h1
  obtain ⟨c, hc, c1, c2, c3, c4⟩ := h1
  have e2 : realDampS n 1 = 1 + realCs n 1 := by
    unfold realDampS
    simp
  rw [e2]
  refine Near.mono (k := 6) (B := 401) ⟨c, ?_, c1, c2, c3, c4⟩ (by omega) (by omega)
  obtain ⟨q4, hq4, e4⟩ := hc.add_rnd t6
  have : IsReal (Fmt.rnd q4 : F64) c := by
    have h5 : (q4 : ℝ) = c := by rw [hq4]; simp
    rw [IsReal.rnd_exact (h5.symm ▸ hc)]
    exact hc
  rw [← e4, ← e] at this
  exact this

end rates

end Cmaes
