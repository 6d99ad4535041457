import Verif.Lemmas.Accuracy

/-!
# Rounding errors of the learning rates
-/

namespace Cmaes
variable [Libm F64]

/-! ### The effective selection mass -/

theorem take_near (hl : AccurateLibm) {lambda : ℕ} (h2 : 2 ≤ lambda) (h : lambda ≤ 2 ^ 20)
    (s : Weights) : List.Forall₂ (Near (132 * lambda) 21)
      ((InitialWeights.new lambda s : InitialWeights F64).weights.take (lambda / 2))
      (rawPos lambda s) := by
  have key : List.Forall₂ (Near (132 * lambda) 21)
      ((List.range (lambda / 2)).map fun i => (rawWeight lambda (i + 1) : F64))
      ((List.range (lambda / 2)).map fun i => logWeight lambda (i + 1)) := by
    rw [List.forall₂_map_left_iff, List.forall₂_map_right_iff]
    rw [List.forall₂_same]
    intro i hi
    rw [List.mem_range] at hi
    exact raw_near hl h2 h (by omega) (by omega)
  cases s with
  | uniform =>
    show List.Forall₂ _ ((List.replicate (lambda / 2) (1 : F64)).take _) (List.replicate _ _)
    rw [List.take_of_length_le (by simp)]
    have : ∀ k, List.Forall₂ (Near (132 * lambda) 21) (List.replicate k (1 : F64))
        (List.replicate k (1 : ℝ)) := by
      intro k
      induction k with
      | zero => exact .nil
      | succ k ih =>
        refine .cons (Near.of_real ?_ (by norm_num) (by norm_num)) ih
        have := isReal_nat (m := 1) (by norm_num)
        simpa [f64_one'] using this
    exact this _
  | positive =>
    show List.Forall₂ _ (((List.range (lambda / 2)).map _).take _) (List.map _ _)
    rw [List.take_of_length_le (by simp)]
    exact key
  | negative =>
    show List.Forall₂ _ (((List.range lambda).map _).take _) (List.map _ _)
    rw [← List.map_take, List.take_range, Nat.min_eq_left (Nat.div_le_self _ _)]
    exact key

theorem length_take (lambda : ℕ) (s : Weights) :
    ((InitialWeights.new lambda s : InitialWeights F64).weights.take (lambda / 2)).length =
      lambda / 2 := by
  rw [List.length_take, Nat.min_eq_left]
  cases s <;> simp [InitialWeights.new]
  omega

theorem new_mu (lambda : ℕ) (s : Weights) :
    (InitialWeights.new lambda s : InitialWeights F64).mu = lambda / 2 := rfl

theorem muEff_near (hl : AccurateLibm) {lambda : ℕ} (h2 : 2 ≤ lambda) (h : lambda ≤ 2 ^ 20)
    (s : Weights) : Near (532 * lambda) 20 (InitialWeights.new lambda s : InitialWeights F64).muEff
      (realMuEff lambda s) := by
  have hn := take_near hl h2 h s
  have hlen := length_take lambda s
  have h1 := effMass_near hn (by intro e; rw [e] at hlen; simp only [List.length_nil] at hlen; omega)
    (by rw [hlen]; omega) (by omega) (by omega)
  rw [hlen] at h1
  have h3 := one_le_realMuEff h2 s
  have h4 := realMuEff_le h2 s
  refine (h1.mono (l := 532 * lambda) (by omega) le_rfl).bounds ?_ ?_
  · exact le_trans (by norm_num) h3
  · have : ((lambda / 2 : ℕ) : ℝ) ≤ 2 ^ 20 := by
      have : lambda / 2 ≤ 2 ^ 20 := by omega
      exact_mod_cast this
    exact h4.trans this

theorem muEff_one (hl : AccurateLibm) {lambda : ℕ} (h2 : 2 ≤ lambda) (h : lambda < 4)
    (s : Weights) : (InitialWeights.new lambda s : InitialWeights F64).muEff = Fmt.rnd (1 : ℚ) := by
  have hn := take_near hl h2 (by omega) s
  have hlen := length_take lambda s
  have e1 : lambda / 2 = 1 := by omega
  unfold InitialWeights.muEff
  rw [new_mu]
  generalize (InitialWeights.new lambda s : InitialWeights F64).weights.take (lambda / 2) = xs at *
  generalize rawPos lambda s = rs at *
  rw [e1] at hlen
  obtain ⟨x, rfl⟩ := List.length_eq_one_iff.mp hlen
  cases hn with
  | cons hx _ =>
    have hsq := near_sq hx (by omega) (by omega)
    have e2 : fsum [x] = x := by
      obtain ⟨a, ha, _⟩ := hx
      exact ha.zero_add
    have e3 : fsum [Flt.powi x 2] = Flt.powi x 2 := by
      obtain ⟨a, ha, _⟩ := hsq
      exact ha.zero_add
    rw [List.map_cons, List.map_nil, e2, e3]
    have hsq' := hsq
    obtain ⟨a, ha, _⟩ := hsq
    exact ha.div_self (Near.real_pos ha hsq').ne'

/-- With two or more parents the effective selection mass is not close to one. -/
theorem six_fifths_le {lambda : ℕ} (h : 4 ≤ lambda) (s : Weights) : 6 / 5 ≤ realMuEff lambda s := by
  have hmu : 2 ≤ lambda / 2 := by omega
  have key : ∀ (w1 w2 : ℝ) (l : List ℝ), 0 < w1 → 0 < w2 → w1 ≤ 5 * w2 → w2 ≤ w1 →
      (∀ x ∈ l, 0 < x ∧ x ≤ w1) → 6 / 5 ≤ effMass (w1 :: w2 :: l) := by
    intro w1 w2 l p1 p2 h5 h21 hall
    have hb : ∀ x ∈ w1 :: w2 :: l, 0 < x ∧ x ≤ w1 := by
      intro x hx
      simp only [List.mem_cons] at hx
      rcases hx with rfl | rfl | hx
      · exact ⟨p1, le_rfl⟩
      · exact ⟨p2, h21⟩
      · exact hall x hx
    have hq : ((w1 :: w2 :: l).map fun x => x ^ 2).sum ≤ w1 * (w1 :: w2 :: l).sum := by
      have e : w1 * (w1 :: w2 :: l).sum = ((w1 :: w2 :: l).map fun x => w1 * x).sum := by
        rw [List.sum_map_mul_left, List.map_id']
      rw [e]
      refine List.sum_le_sum fun x hx => ?_
      obtain ⟨q1, q2⟩ := hb x hx
      nlinarith
    have hs : w1 + w2 ≤ (w1 :: w2 :: l).sum := by
      rw [List.sum_cons, List.sum_cons]
      have : 0 ≤ l.sum := List.sum_nonneg fun x hx => (hall x hx).1.le
      linarith
    have hq0 : 0 < ((w1 :: w2 :: l).map fun x => x ^ 2).sum := sum_sq_pos ⟨w1, by simp, p1.ne'⟩
    unfold effMass
    rw [le_div_iff₀ hq0]
    generalize (w1 :: w2 :: l).sum = S at *
    generalize ((w1 :: w2 :: l).map fun x => x ^ 2).sum = Q at *
    have h6 : 6 / 5 * w1 ≤ S := by linarith
    calc 6 / 5 * Q ≤ 6 / 5 * (w1 * S) := by linarith
      _ = (6 / 5 * w1) * S := by ring
      _ ≤ S ^ 2 := by nlinarith
  obtain ⟨k, hk⟩ : ∃ k, lambda / 2 = k + 2 := ⟨lambda / 2 - 2, by omega⟩
  have hlog : 5 * Real.log 2 ≤ 4 * Real.log (((lambda : ℝ) + 1) / 2) := by
    have hR : (4 : ℝ) ≤ lambda := by exact_mod_cast h
    have e1 : Real.log ((2 : ℝ) ^ 5) = 5 * Real.log 2 := by rw [Real.log_pow]; norm_num
    have e2 : Real.log ((((lambda : ℝ) + 1) / 2) ^ 4) = 4 * Real.log (((lambda : ℝ) + 1) / 2) := by
      rw [Real.log_pow]; norm_num
    rw [← e1, ← e2]
    refine Real.log_le_log (by positivity) ?_
    have h3 : (5 / 2 : ℝ) ≤ ((lambda : ℝ) + 1) / 2 := by linarith
    calc (2 : ℝ) ^ 5 ≤ (5 / 2) ^ 4 := by norm_num
      _ ≤ _ := pow_le_pow_left₀ (by norm_num) h3 4
  unfold realMuEff
  cases s with
  | uniform =>
    show _ ≤ effMass (List.replicate (lambda / 2) 1)
    rw [hk, List.replicate_succ, List.replicate_succ]
    refine key 1 1 _ one_pos one_pos (by norm_num) le_rfl fun x hx => ?_
    rw [List.eq_of_mem_replicate hx]
    norm_num
  | positive | negative =>
    show _ ≤ effMass ((List.range (lambda / 2)).map fun i => logWeight lambda (i + 1))
    have e : ((List.range (lambda / 2)).map fun i => logWeight lambda (i + 1)) =
        logWeight lambda 1 :: logWeight lambda 2 ::
          (List.range k).map fun i => logWeight lambda (i + 3) := by
      rw [hk, List.range_succ_eq_map, List.range_succ_eq_map]
      simp only [List.map_cons, List.map_map]
      rfl
    rw [e]
    refine key _ _ _ (logWeight_pos le_rfl (by omega)) (logWeight_pos (by norm_num) (by omega)) ?_
      (logWeight_strictAnti le_rfl (by norm_num)).le ?_
    · unfold logWeight
      simp only [Nat.cast_one, Real.log_one, Nat.cast_ofNat]
      linarith
    · intro x hx
      simp only [List.mem_map, List.mem_range] at hx
      obtain ⟨i, hi, rfl⟩ := hx
      exact ⟨logWeight_pos (by omega) (by omega), (logWeight_strictAnti le_rfl (by omega)).le⟩

/-! ### The learning rates -/

section rates
variable {n k : ℕ} {x : F64} {m : ℝ}

theorem near_lit (j : ℕ) [j.AtLeastTwo] (h : j ≤ 2 ^ 53 := by norm_num) :
    Near 0 53 (OfNat.ofNat j : F64) (OfNat.ofNat j : ℝ) := by
  have := Near.nat (m := j) (by have := Nat.AtLeastTwo.prop (n := j); omega) h
  exact_mod_cast this

theorem near_one : Near 0 53 (1 : F64) 1 := by
  have := Near.nat (m := 1) le_rfl (by norm_num)
  simpa [f64_one'] using this

theorem near_dim (hn : 1 ≤ n) (hn' : n ≤ 2 ^ 53) : Near 0 53 (Flt.ofNat n : F64) n := Near.nat hn hn'

theorem cc_near (hx : Near k 20 x m) (hk : k ≤ 2 ^ 40) (hn : 1 ≤ n) (hn' : n ≤ 2 ^ 53) :
    Near (2 * k + 6) 400 (paramCc n x) (realCc n m) := by
  have hd := near_dim hn hn'
  have h1 := (near_lit 4).add (hx.div hd)
  have h2 := (hd.add (near_lit 4)).add (((near_lit 2).mul hx).div hd)
  exact (h1.div h2).mono (by omega) (by omega)

theorem c1_near (hx : Near k 20 x m) (hk : k ≤ 2 ^ 40) (hn : 1 ≤ n) (hn' : n ≤ 2 ^ 53) :
    Near (k + 8) 400 (paramC1 n x) (realC1 n m) := by
  have hd := near_dim hn hn'
  have h13 : Near 1 1 (Flt.ofRat (13 / 10) : F64) (13 / 10) :=
    Near.of_rnd (k := 0) (t := 13 / 10) (by push_cast; norm_num) (by norm_num) (by norm_num)
      (by norm_num) (by norm_num) (by norm_num) (by norm_num)
  have h1 := near_sq (hd.add h13) (by norm_num) (by norm_num)
  have h2 := (near_lit 2).div (h1.add hx)
  exact h2.mono (by omega) (by omega)

theorem cs_near (hx : Near k 20 x m) (hk : k ≤ 2 ^ 40) (hn : 1 ≤ n) (hn' : n ≤ 2 ^ 53) :
    Near (2 * k + 5) 400 (paramCs n x) (realCs n m) := by
  have hd := near_dim hn hn'
  exact ((hx.add (near_lit 2)).div ((hd.add hx).add (near_lit 5))).mono (by omega) (by omega)

/-- `1 - c` for `c ≤ 1/3`. -/
theorem one_sub_near {B : ℕ} {y : F64} {c : ℝ} (hy : Near k B y c) (hk : k ≤ 2 ^ 44) (hc : c ≤ 1 / 3) :
    Near (k + 1) 1 (1 - y) (1 - c) := by
  have hc0 := hy.pos
  obtain ⟨a, ha, _, _, a3, a4⟩ := hy
  have h1 : IsReal (1 : F64) 1 := by
    have := isReal_nat (m := 1) (by norm_num)
    simpa [f64_one'] using this
  obtain ⟨q, hq, e⟩ := h1.add_rnd ha.neg'
  show Near _ _ (Ext.add _ _) _
  rw [e]
  have hR := rho_pow_le_two (k := k) (by omega)
  have hR1 := one_le_rho_pow k
  refine Near.of_rnd hq ?_ ?_ ?_ ?_ (by omega) (by omega)
  · norm_num; linarith
  · norm_num; linarith
  · -- 1 - a ≤ R (1 - c), from c ≤ R a
    generalize rho ^ k = R at *
    have h4 : 0 ≤ (R - 1) * (R - c * (R + 1)) := mul_nonneg (by linarith) (by nlinarith)
    have h3 : R * (1 + -a) ≤ R * (R * (1 - c)) := by nlinarith
    exact le_of_mul_le_mul_left h3 (by linarith)
  · generalize rho ^ k = R at *
    have h4 : 0 ≤ (R - 1) * (1 - c * (R + 1)) := mul_nonneg (by linarith) (by nlinarith)
    nlinarith [mul_le_mul_of_nonneg_left a3 (show (0 : ℝ) ≤ R by linarith)]

/-- `m - 1` for `m` not close to one. -/
theorem sub_one_near (hx : Near k 20 x m) (hk : k ≤ 2 ^ 41) (hm : 6 / 5 ≤ m) :
    ∃ a, IsReal x a ∧ a - 1 ≤ rho ^ (7 * k) * (m - 1) ∧ m - 1 ≤ rho ^ (7 * k) * (a - 1) ∧
      23 / 20 ≤ a ∧ a ≤ 2 ^ 21 := by
  obtain ⟨a, ha, _, a2, a3, a4⟩ := hx
  have hR := rho_pow_le_two (k := k) (by omega)
  have hR1 := one_le_rho_pow k
  have hkR : (k : ℝ) ≤ 2 ^ 41 := by exact_mod_cast hk
  have hR3 := rho_pow_le (k := k) (by omega)
  have hR4 : rho ^ k ≤ 1 + 1 / 1000 := by
    refine hR3.trans ?_
    linarith
  rw [mul_comm 7 k, pow_mul]
  generalize rho ^ k = R at *
  obtain ⟨d, rfl⟩ : ∃ d, R = 1 + d := ⟨R - 1, by ring⟩
  have hd : 0 ≤ d := by linarith
  have hd1 : d ≤ 1 / 1000 := by linarith
  have hb := one_add_mul_le_pow (a := d) (by linarith) 7
  have hb6 : (1 + d) ^ 7 ≤ 1 + 7 * d + 22 * d ^ 2 := by
    have h3 : d ^ 3 ≤ d ^ 2 * (1 / 1000) := by nlinarith [sq_nonneg d]
    have e : (1 + d) ^ 7 = 1 + 7 * d + 21 * d ^ 2 + d ^ 3 * (35 + 35 * d + 21 * d ^ 2 + 7 * d ^ 3 + d ^ 4) := by
      ring
    have h4 : 35 + 35 * d + 21 * d ^ 2 + 7 * d ^ 3 + d ^ 4 ≤ 200 := by
      have : d ≤ 1 := by linarith
      have q2 : d ^ 2 ≤ 1 := pow_le_one₀ hd this
      have q3 : d ^ 3 ≤ 1 := pow_le_one₀ hd this
      have q4 : d ^ 4 ≤ 1 := pow_le_one₀ hd this
      linarith
    have h5 : 0 ≤ d ^ 3 := by positivity
    nlinarith
  push_cast at hb
  refine ⟨a, ha, ?_, ?_, ?_, ?_⟩
  · calc a - 1 ≤ (1 + d) * m - 1 := by linarith
      _ ≤ (1 + 7 * d) * (m - 1) := by nlinarith
      _ ≤ _ := mul_le_mul_of_nonneg_right hb (by linarith)
  · -- a ≥ m / (1 + d)
    have h1 : m * (1 - d) ≤ a := by nlinarith
    have h2 : 0 ≤ a - 1 := by nlinarith
    calc m - 1 ≤ (1 + 7 * d) * (m * (1 - d) - 1) := by nlinarith [mul_nonneg hd hd]
      _ ≤ (1 + 7 * d) * (a - 1) := mul_le_mul_of_nonneg_left (by linarith) (by linarith)
      _ ≤ _ := mul_le_mul_of_nonneg_right hb h2
  · nlinarith
  · nlinarith

end rates

end Cmaes
