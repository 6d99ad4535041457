import Verif.Spec.Accuracy
import Verif.Float.Rel
import Verif.Lemmas.ParamsReal
import Mathlib.Analysis.Complex.ExponentialBounds

/-!
# Rounding errors of the strategy parameters
-/

namespace Cmaes
variable [Libm F64]

theorem f64_ofNat (m : ℕ) : (Flt.ofNat m : F64) = Fmt.rnd ((m : ℕ) : ℚ) := rfl
theorem f64_lit (m : ℕ) [m.AtLeastTwo] : (OfNat.ofNat m : F64) = Fmt.rnd ((m : ℕ) : ℚ) := rfl
theorem f64_zero' : (0 : F64) = Fmt.rnd (0 : ℚ) := rfl
theorem f64_one' : (1 : F64) = Fmt.rnd (1 : ℚ) := rfl

/-! ### The logarithmic weights -/

theorem log_le_14 {x : ℝ} (h1 : 0 < x) (h : x ≤ 2 ^ 20) : Real.log x ≤ 14 := by
  have h2 := Real.log_le_log h1 h
  rw [Real.log_pow] at h2
  have := Real.log_two_lt_d9
  push_cast at h2
  linarith

/-- The argument of the first logarithm is exact. -/
theorem isReal_half {lambda : ℕ} (h : lambda ≤ 2 ^ 20) :
    IsReal ((Flt.ofNat lambda + 1) / 2 : F64) (((lambda : ℝ) + 1) / 2) := by
  have h1 : IsReal (Flt.ofNat lambda : F64) lambda := isReal_nat (by omega)
  have h2 : IsReal (1 : F64) (1 : ℕ) := by
    have := isReal_nat (m := 1) (by norm_num)
    simpa [f64_one'] using this
  have h3 : IsReal (2 : F64) (2 : ℕ) := isReal_nat (m := 2) (by norm_num)
  have h4 : IsReal (Flt.ofNat lambda + 1 : F64) ((lambda + 1 : ℕ) : ℝ) := by
    obtain ⟨q, hq, e⟩ := h1.add_rnd h2
    have hq' : q = ((lambda + 1 : ℕ) : ℚ) := by
      have : (q : ℝ) = (((lambda + 1 : ℕ) : ℚ) : ℝ) := by rw [hq]; push_cast; ring
      exact_mod_cast this
    show IsReal (Ext.add _ _) _
    rw [e, hq']
    exact isReal_nat (by omega)
  obtain ⟨q, hq, e⟩ := h4.div_rnd h3 (by norm_num)
  show IsReal (Ext.div _ _) _
  rw [e]
  refine isReal_rnd ?_ (hq.trans (by push_cast; ring)) ?_
  · have hq' : q = ((lambda + 1 : ℕ) : ℤ) * 2 ^ (-1 : ℤ) := by
      have : (q : ℝ) = ((((lambda + 1 : ℕ) : ℤ) * 2 ^ (-1 : ℤ) : ℚ) : ℝ) := by
        rw [hq]; push_cast; rw [zpow_neg_one]; ring
      exact_mod_cast this
    rw [hq']
    refine rnd0_exact ?_ (by norm_num)
    rw [abs_of_nonneg (by positivity)]
    have : lambda + 1 ≤ 2 ^ 53 := by omega
    exact_mod_cast this
  · rw [abs_of_nonneg (by positivity)]
    have : (lambda : ℝ) ≤ 2 ^ 20 := by exact_mod_cast h
    have h5 : ((lambda : ℝ) + 1) / 2 ≤ 2 ^ 20 := by linarith
    exact h5.trans (pow_le_pow_right₀ (by norm_num) (by norm_num))

theorem AccurateLibm.ln_real (hl : AccurateLibm) {x : F64} {a : ℝ} (hx : IsReal x a) (ha : 1 ≤ a) :
    ∃ b, IsReal (Flt.ln x) b ∧ |b - Real.log a| ≤ Real.log a / 2 ^ 51 := by
  obtain ⟨u, rfl, rfl⟩ := hx
  have h1 : (1 : ℚ) ≤ u.1 := by exact_mod_cast ha
  obtain ⟨v, hv, h⟩ := hl.ln u h1
  refine ⟨_, ⟨v, hv, rfl⟩, ?_⟩
  rw [abs_of_nonneg (Real.log_nonneg ha)] at h
  linarith

/-- The absolute error of a logarithmic weight. -/
theorem raw_real (hl : AccurateLibm) {lambda i : ℕ} (h2 : 2 ≤ lambda) (h : lambda ≤ 2 ^ 20)
    (hi : 1 ≤ i) (hi' : i ≤ lambda) :
    ∃ a, IsReal (rawWeight lambda i : F64) a ∧ |a - logWeight lambda i| ≤ 1 / 2 ^ 46 ∧
      (logWeight lambda i = 0 → a = 0) := by
  have hR2 : (2 : ℝ) ≤ lambda := by exact_mod_cast h2
  have hR : (lambda : ℝ) ≤ 2 ^ 20 := by exact_mod_cast h
  have hi1 : (1 : ℝ) ≤ i := by exact_mod_cast hi
  have hi2 : (i : ℝ) ≤ lambda := by exact_mod_cast hi'
  have hA := isReal_half h
  have hB : IsReal (Flt.ofNat i : F64) i := isReal_nat (by omega)
  obtain ⟨a, ha, ea⟩ := hl.ln_real hA (by linarith)
  obtain ⟨b, hb, eb⟩ := hl.ln_real hB hi1
  have la := log_le_14 (x := ((lambda : ℝ) + 1) / 2) (by linarith) (by linarith)
  have lb := log_le_14 (x := (i : ℝ)) (by linarith) (by linarith)
  have la0 := Real.log_nonneg (x := ((lambda : ℝ) + 1) / 2) (by linarith)
  have lb0 := Real.log_nonneg hi1
  obtain ⟨q, hq, e⟩ := ha.add_rnd hb.neg'
  obtain ⟨ea1, ea2⟩ := abs_le.mp ea
  obtain ⟨eb1, eb2⟩ := abs_le.mp eb
  have hab : |a + -b| ≤ 15 := by
    refine abs_le.mpr ⟨?_, ?_⟩
    · linarith
    · linarith
  obtain ⟨w, hw, ew⟩ := rnd_finite hq (hab.trans (by
    refine le_trans (by norm_num : (15 : ℝ) ≤ 2 ^ 4) (pow_le_pow_right₀ (by norm_num) (by norm_num))))
  have hx : (rawWeight lambda i : F64) = Fmt.rnd q := e
  rw [hx]
  refine ⟨w, hw, ?_, ?_⟩
  · have ht : (1 : ℝ) / 2 ^ 1075 ≤ 1 / 2 ^ 60 :=
      one_div_le_one_div_of_le (by positivity) (pow_le_pow_right₀ (by norm_num) (by norm_num))
    generalize (1 : ℝ) / 2 ^ 1075 = z at *
    obtain ⟨ew1, ew2⟩ := abs_le.mp ew
    unfold logWeight
    refine abs_le.mpr ⟨?_, ?_⟩ <;> linarith
  · intro h0
    have he : ((lambda : ℝ) + 1) / 2 = i := by
      unfold logWeight at h0
      exact Real.log_injOn_pos (by simp only [Set.mem_Ioi]; linarith)
        (by simp only [Set.mem_Ioi]; linarith) (by linarith)
    have hsame : ((Flt.ofNat lambda + 1) / 2 : F64) = Flt.ofNat i := by
      obtain ⟨u, hu, eu⟩ := hA
      obtain ⟨v, hv, ev⟩ := hB
      have huv : u = v := by
        apply Subtype.ext
        have : ((u.1 : ℚ) : ℝ) = ((v.1 : ℚ) : ℝ) := by rw [eu, ev, he]
        exact_mod_cast this
      rw [hu, hv, huv]
    rw [hsame] at ha
    have hab' := ha.inj hb
    have hq0 : q = 0 := by
      have : (q : ℝ) = ((0 : ℚ) : ℝ) := by rw [hq, hab']; simp
      exact_mod_cast this
    rw [hq0] at hw
    have h0' : IsReal (Fmt.rnd (0 : ℚ) : F64) 0 := by
      have := isReal_nat (m := 0) (by norm_num)
      simpa using this
    exact hw.inj h0'

/-- The logarithmic weights are not too small. -/
theorem logWeight_ge {lambda i : ℕ} (h2 : 2 ≤ lambda) (hi : 1 ≤ i) (h : i ≤ lambda / 2) :
    1 / (2 * lambda : ℝ) ≤ logWeight lambda i := by
  have hR2 : (2 : ℝ) ≤ lambda := by exact_mod_cast h2
  have hi1 : (1 : ℝ) ≤ i := by exact_mod_cast hi
  have h3 : (2 : ℝ) * i ≤ lambda := by
    have : 2 * i ≤ lambda := by omega
    exact_mod_cast this
  unfold logWeight
  rw [← Real.log_div (by linarith) (by linarith)]
  have hp : 0 < ((lambda : ℝ) + 1) / 2 / i := by positivity
  have h4 := Real.one_sub_inv_le_log_of_pos hp
  refine le_trans ?_ h4
  have e : (((lambda : ℝ) + 1) / 2 / i)⁻¹ = 2 * i / (lambda + 1) := by field_simp
  rw [e]
  have h5 : 2 * (i : ℝ) / (lambda + 1) ≤ lambda / (lambda + 1) :=
    div_le_div_of_nonneg_right h3 (by linarith)
  have h6 : 1 / (2 * (lambda : ℝ)) ≤ 1 / (lambda + 1) :=
    one_div_le_one_div_of_le (by linarith) (by linarith)
  have h7 : 1 / ((lambda : ℝ) + 1) = 1 - lambda / (lambda + 1) := by field_simp; ring
  linarith

theorem logWeight_le {lambda i : ℕ} (h2 : 2 ≤ lambda) (h : lambda ≤ 2 ^ 20) (hi : lambda + 1 < 2 * i) :
    logWeight lambda i ≤ -(1 / (2 * lambda : ℝ)) := by
  have hR2 : (2 : ℝ) ≤ lambda := by exact_mod_cast h2
  have h3 : (lambda : ℝ) + 2 ≤ 2 * i := by
    have : lambda + 2 ≤ 2 * i := by omega
    exact_mod_cast this
  have hi0 : (0 : ℝ) < i := by linarith
  unfold logWeight
  rw [← Real.log_div (by linarith) (by linarith)]
  have hp : 0 < ((lambda : ℝ) + 1) / 2 / i := by positivity
  have h4 := Real.log_le_sub_one_of_pos hp
  refine h4.trans ?_
  have h5 : ((lambda : ℝ) + 1) / 2 / i ≤ (lambda + 1) / (lambda + 2) := by
    rw [div_div, div_le_div_iff₀ (by linarith) (by linarith)]
    nlinarith
  have h6 : 1 / (2 * (lambda : ℝ)) ≤ 1 / (lambda + 2) :=
    one_div_le_one_div_of_le (by linarith) (by linarith)
  have h7 : 1 / ((lambda : ℝ) + 2) = 1 - (lambda + 1) / (lambda + 2) := by field_simp; ring
  linarith

theorem abs_logWeight_le {lambda i : ℕ} (h2 : 2 ≤ lambda) (h : lambda ≤ 2 ^ 20) (hi : 1 ≤ i)
    (hi' : i ≤ lambda) : |logWeight lambda i| ≤ 2 ^ 4 := by
  have hR2 : (2 : ℝ) ≤ lambda := by exact_mod_cast h2
  have hR : (lambda : ℝ) ≤ 2 ^ 20 := by exact_mod_cast h
  have hi1 : (1 : ℝ) ≤ i := by exact_mod_cast hi
  have hi2 : (i : ℝ) ≤ lambda := by exact_mod_cast hi'
  have la := log_le_14 (x := ((lambda : ℝ) + 1) / 2) (by linarith) (by linarith)
  have lb := log_le_14 (x := (i : ℝ)) (by linarith) (by linarith)
  have la0 := Real.log_nonneg (x := ((lambda : ℝ) + 1) / 2) (by linarith)
  have lb0 := Real.log_nonneg hi1
  unfold logWeight
  refine abs_le.mpr ⟨?_, ?_⟩ <;> linarith

theorem near_of_abs {lambda : ℕ} {x : F64} {a r : ℝ} (h2 : 2 ≤ lambda) (h : lambda ≤ 2 ^ 20)
    (hx : IsReal x a) (hr : 1 / (2 * lambda : ℝ) ≤ r) (hr' : r ≤ 2 ^ 4)
    (he : |a - r| ≤ 1 / 2 ^ 46) : Near (132 * lambda) 21 x r := by
  have hR2 : (2 : ℝ) ≤ lambda := by exact_mod_cast h2
  have hR : (lambda : ℝ) ≤ 2 ^ 20 := by exact_mod_cast h
  have hr1 : 1 ≤ 2 * lambda * r := by
    rwa [div_le_iff₀ (by linarith), mul_comm] at hr
  refine Near.of_rel (ε := lambda / 2 ^ 45) hx ?_ ?_ ?_ ?_ ?_
  · refine le_trans ?_ hr
    refine one_div_le_one_div_of_le (by linarith) ?_
    calc 2 * (lambda : ℝ) ≤ 2 * 2 ^ 20 := by linarith
      _ = 2 ^ 21 := by norm_num
  · exact hr'.trans (by norm_num)
  · refine he.trans ?_
    have : (1 : ℝ) / 2 ^ 46 ≤ 1 / 2 ^ 46 * (2 * lambda * r) := by
      have : (0 : ℝ) ≤ 1 / 2 ^ 46 := by positivity
      nlinarith
    calc _ ≤ _ := this
      _ = _ := by ring
  · push_cast
    linarith
  · linarith

theorem raw_near (hl : AccurateLibm) {lambda i : ℕ} (h2 : 2 ≤ lambda) (h : lambda ≤ 2 ^ 20)
    (hi : 1 ≤ i) (hi' : i ≤ lambda / 2) :
    Near (132 * lambda) 21 (rawWeight lambda i : F64) (logWeight lambda i) := by
  obtain ⟨a, ha, e, _⟩ := raw_real hl h2 h hi (by omega)
  exact near_of_abs h2 h ha (logWeight_ge h2 hi hi')
    ((le_abs_self _).trans (abs_logWeight_le h2 h hi (by omega))) e

theorem raw_near_neg (hl : AccurateLibm) {lambda i : ℕ} (h2 : 2 ≤ lambda) (h : lambda ≤ 2 ^ 20)
    (hi : lambda / 2 < i) (hi' : i ≤ lambda) :
    (IsReal (rawWeight lambda i : F64) 0 ∧ logWeight lambda i = 0) ∨
      Near (132 * lambda) 21 (Ext.neg (rawWeight lambda i : F64)) (-logWeight lambda i) := by
  obtain ⟨a, ha, e, h0⟩ := raw_real hl h2 h (by omega) hi'
  by_cases hc : lambda + 1 = 2 * i
  · left
    have : logWeight lambda i = 0 := by
      unfold logWeight
      have : ((lambda : ℝ) + 1) = 2 * i := by exact_mod_cast hc
      rw [this, mul_div_cancel_left₀ _ (by norm_num), sub_self]
    rw [h0 this] at ha
    exact ⟨ha, this⟩
  · right
    refine near_of_abs h2 h ha.neg' ?_ ?_ ?_
    · have := logWeight_le h2 h (i := i) (by omega)
      linarith
    · exact (neg_le_abs _).trans (abs_logWeight_le h2 h (by omega) hi')
    · rw [← abs_neg]
      convert e using 2
      ring

/-! ### Sums -/

theorem foldl_near {k l B C : ℕ} {acc : F64} {s : ℝ} {xs : List F64} {rs : List ℝ}
    (ha : Near l C acc s) (hkl : k ≤ l) (hBC : B ≤ C) (h : List.Forall₂ (Near k B) xs rs)
    (hs : s + rs.sum ≤ 2 ^ C) (hl : l + xs.length ≤ 2 ^ 45) (hC : C ≤ 900) :
    Near (l + xs.length) C (xs.foldl (· + ·) acc) (s + rs.sum) := by
  induction h generalizing acc s l with
  | nil => simpa using ha
  | @cons x r xs rs hx hrest ih =>
    have hpos : 0 ≤ rs.sum := by
      have : ∀ r ∈ rs, 0 ≤ r := by
        clear ih hs
        induction hrest with
        | nil => simp
        | cons hy _ ih =>
          intro r hr
          rw [List.mem_cons] at hr
          rcases hr with rfl | hr
          · exact hy.pos.le
          · exact ih (by simp only [List.length_cons] at hl ⊢; omega) r hr
      exact List.sum_nonneg this
    rw [List.sum_cons] at hs
    simp only [List.length_cons] at hl ⊢
    have h1 := Near.add_le ha (hx.mono hkl hBC) (by linarith) (by omega) hC
    have := ih (acc := acc + x) (s := s + r) (l := l + 1) h1 (by omega) (by linarith) (by omega)
    have e1 : l + (xs.length + 1) = l + 1 + xs.length := by omega
    have e2 : s + (r :: rs).sum = s + r + rs.sum := by rw [List.sum_cons]; ring
    rw [e1, e2, List.foldl_cons]
    exact this

theorem sum_le_of_forall₂ {k B : ℕ} {xs : List F64} {rs : List ℝ}
    (h : List.Forall₂ (Near k B) xs rs) : rs.sum ≤ xs.length * 2 ^ B := by
  induction h with
  | nil => simp
  | cons hx _ ih =>
    obtain ⟨_, _, _, h2, _⟩ := hx
    rw [List.sum_cons, List.length_cons]
    push_cast
    linarith

theorem fsum_near {k B : ℕ} {xs : List F64} {rs : List ℝ} (h : List.Forall₂ (Near k B) xs rs)
    (hne : xs ≠ []) (hlen : xs.length ≤ 2 ^ 20) (hk : k ≤ 2 ^ 44) (hB : B ≤ 800) :
    Near (k + xs.length) (B + 20) (fsum xs) rs.sum := by
  have hs := sum_le_of_forall₂ h
  cases h with
  | nil => exact absurd rfl hne
  | @cons x r xs rs hx hrest =>
    have h1 : (r :: rs).sum ≤ 2 ^ (B + 20) := by
      refine hs.trans ?_
      rw [pow_add, mul_comm]
      refine mul_le_mul_of_nonneg_left ?_ (by positivity)
      exact_mod_cast hlen
    rw [List.sum_cons] at h1 ⊢
    unfold fsum
    rw [List.foldl_cons]
    have e : (0 + x : F64) = x := by
      obtain ⟨a, ha, _⟩ := hx
      exact ha.zero_add
    rw [e]
    simp only [List.length_cons] at hlen ⊢
    have := foldl_near (hx.mono le_rfl (Nat.le_add_right B 20)) le_rfl (Nat.le_add_right B 20) hrest h1
      (by omega) (by omega)
    exact this.mono (by omega) le_rfl

theorem powi_two (x : F64) : Flt.powi x 2 = Ext.mul (Fmt.rnd (1 : ℚ)) (Ext.mul x x) := rfl

theorem near_sq {k B : ℕ} {x : F64} {r : ℝ} (h : Near k B x r) (hk : k ≤ 2 ^ 44) (hB : B ≤ 400) :
    Near (2 * k + 1) (2 * B) (Flt.powi x 2) (r ^ 2) := by
  have h1 := h.mul h (by omega) (by omega)
  rw [powi_two]
  have e : Ext.mul (Fmt.rnd (1 : ℚ)) (Ext.mul x x) = Ext.mul x x := by
    obtain ⟨a, ha, _⟩ := h1
    exact ha.one_mul
  rw [e, sq]
  exact h1.mono (by omega) (by omega)

/-- `mu_eff` of weights that are near real numbers. -/
theorem effMass_near {k B : ℕ} {xs : List F64} {rs : List ℝ} (h : List.Forall₂ (Near k B) xs rs)
    (hne : xs ≠ []) (hlen : xs.length ≤ 2 ^ 20) (hk : k ≤ 2 ^ 40) (hB : B ≤ 100) :
    Near (4 * k + 3 * xs.length + 3) (4 * B + 60) (Flt.powi (fsum xs) 2 /
      fsum (xs.map fun x => Flt.powi x 2)) (effMass rs) := by
  have h1 := near_sq (fsum_near h hne hlen (by omega) (by omega)) (by omega) (by omega)
  have h2 : List.Forall₂ (Near (2 * k + 1) (2 * B)) (xs.map fun x => Flt.powi x 2)
      (rs.map fun x => x ^ 2) := by
    clear hne hlen h1
    induction h with
    | nil => exact .nil
    | cons hx _ ih => exact .cons (near_sq hx (by omega) (by omega)) ih
  have h3 := fsum_near h2 (by simpa using hne) (by simpa using hlen) (by omega) (by omega)
  rw [List.length_map] at h3
  exact (h1.div h3 (by omega) (by omega)).mono (by omega) (by omega)

end Cmaes
