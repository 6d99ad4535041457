import Verif.Float.XRLemmas
import Verif.Model.Parameters
import Mathlib.Algebra.BigOperators.Group.List.Lemmas
import Mathlib.Algebra.Order.BigOperators.Group.List
import Mathlib.Algebra.Order.Chebyshev
import Mathlib.Tactic.FieldSimp
import Mathlib.Tactic.Positivity

/-!
# Strategy parameters in exact arithmetic
-/

namespace Cmaes
open XR

theorem XR.fsum_fin (l : List ℝ) : fsum (l.map (.fin : ℝ → XR)) = .fin l.sum := by
  unfold fsum
  rw [zero_eq, foldl_fin, zero_add]

theorem XR.fsum_sq (l : List ℝ) :
    fsum ((l.map (.fin : ℝ → XR)).map fun x => Flt.powi x 2) =
      .fin (l.map fun x => x ^ 2).sum := by
  rw [List.map_map]
  have : ((fun x : XR => Flt.powi x 2) ∘ (.fin : ℝ → XR)) = (.fin : ℝ → XR) ∘ fun x => x ^ 2 := by
    funext x
    exact powi_fin x 2
  rw [this, ← List.map_map, fsum_fin]

/-! ### The weights before normalisation -/

/-- The logarithmic weight of rank `i`, from 1. -/
noncomputable def logWeight (lambda i : ℕ) : ℝ :=
  Real.log (((lambda : ℝ) + 1) / 2) - Real.log i

theorem rawWeight_fin (lambda : ℕ) {i : ℕ} (hi : 1 ≤ i) :
    (rawWeight lambda i : XR) = .fin (logWeight lambda i) := by
  have h1 : (0 : ℝ) < ((lambda : ℝ) + 1) / 2 := by positivity
  have h2 : (0 : ℝ) < (i : ℝ) := by exact_mod_cast hi
  unfold rawWeight logWeight
  rw [ofNat_eq, ofNat_eq, one_eq, lit_eq, add_fin, div_fin (by norm_num)]
  rw [show (OfNat.ofNat 2 : ℝ) = 2 from rfl, ln_fin h1, ln_fin h2, sub_fin]

theorem logWeight_strictAnti {lambda i j : ℕ} (hi : 1 ≤ i) (hij : i < j) :
    logWeight lambda j < logWeight lambda i := by
  unfold logWeight
  have h1 : (0 : ℝ) < (i : ℝ) := by exact_mod_cast hi
  have h2 : (i : ℝ) < j := by exact_mod_cast hij
  have := Real.log_lt_log h1 h2
  linarith

theorem logWeight_pos {lambda i : ℕ} (hi : 1 ≤ i) (h : i ≤ lambda / 2) :
    0 < logWeight lambda i := by
  unfold logWeight
  have h1 : (0 : ℝ) < (i : ℝ) := by exact_mod_cast hi
  have h2 : 2 * i < lambda + 1 := by omega
  have h3 : (2 : ℝ) * i < lambda + 1 := by exact_mod_cast h2
  have := Real.log_lt_log h1 (show (i : ℝ) < (lambda + 1) / 2 by linarith)
  linarith

theorem logWeight_nonpos {lambda i : ℕ} (h : lambda / 2 < i) : logWeight lambda i ≤ 0 := by
  unfold logWeight
  have h1 : (0 : ℝ) < ((lambda : ℝ) + 1) / 2 := by positivity
  have h2 : lambda + 1 ≤ 2 * i := by omega
  have h3 : (lambda : ℝ) + 1 ≤ 2 * i := by exact_mod_cast h2
  have := Real.log_le_log h1 (show ((lambda : ℝ) + 1) / 2 ≤ i by linarith)
  linarith

theorem logWeight_last {lambda : ℕ} (h : 2 ≤ lambda) : logWeight lambda lambda < 0 := by
  unfold logWeight
  have h1 : (0 : ℝ) < ((lambda : ℝ) + 1) / 2 := by positivity
  have h3 : (2 : ℝ) ≤ lambda := by exact_mod_cast h
  have := Real.log_lt_log h1 (show ((lambda : ℝ) + 1) / 2 < lambda by linarith)
  linarith

/-- The positive part of the weights before normalisation. -/
noncomputable def rawPos (lambda : ℕ) : Weights → List ℝ
  | .uniform => List.replicate (lambda / 2) 1
  | _ => (List.range (lambda / 2)).map fun i => logWeight lambda (i + 1)

/-- The rest of the weights before normalisation. -/
noncomputable def rawRest (lambda : ℕ) : Weights → List ℝ
  | .negative => (List.range (lambda - lambda / 2)).map fun i => logWeight lambda (lambda / 2 + i + 1)
  | _ => []

theorem length_rawPos (lambda : ℕ) (s : Weights) : (rawPos lambda s).length = lambda / 2 := by
  cases s <;> simp [rawPos]

theorem rawPos_pos {lambda : ℕ} {s : Weights} {x : ℝ} (h : x ∈ rawPos lambda s) : 0 < x := by
  cases s with
  | uniform => rw [List.eq_of_mem_replicate h]; norm_num
  | positive | negative =>
    simp only [rawPos, List.mem_map, List.mem_range] at h
    obtain ⟨i, hi, rfl⟩ := h
    exact logWeight_pos (by omega) (by omega)

theorem rawRest_nonpos {lambda : ℕ} {s : Weights} {x : ℝ} (h : x ∈ rawRest lambda s) : x ≤ 0 := by
  cases s with
  | uniform | positive => simp [rawRest] at h
  | negative =>
    simp only [rawRest, List.mem_map, List.mem_range] at h
    obtain ⟨i, _, rfl⟩ := h
    exact logWeight_nonpos (by omega)

theorem initialWeights_fin (lambda : ℕ) (s : Weights) :
    (InitialWeights.new lambda s : InitialWeights XR) =
      { weights := (rawPos lambda s ++ rawRest lambda s).map .fin, setting := s
        mu := lambda / 2 } := by
  have hraw : ∀ k : ℕ, (List.range k).map (fun i => (rawWeight lambda (i + 1) : XR)) =
      ((List.range k).map fun i => logWeight lambda (i + 1)).map .fin := by
    intro k
    rw [List.map_map]
    apply List.map_congr_left
    intro i _
    exact rawWeight_fin lambda (by omega)
  unfold InitialWeights.new
  cases s with
  | uniform => simp [rawPos, rawRest, one_eq]
  | positive => simp only [hraw, rawPos, rawRest, List.append_nil]
  | negative =>
    simp only [hraw, rawPos, rawRest]
    congr 2
    conv_lhs => rw [show lambda = lambda / 2 + (lambda - lambda / 2) by omega, List.range_add]
    rw [List.map_append, List.map_map]
    have e : lambda / 2 + (lambda - lambda / 2) = lambda := by omega
    rw [e]
    rfl

/-! ### Sums -/

theorem sum_pos_of_mem {l : List ℝ} (h0 : l ≠ []) (h : ∀ x ∈ l, 0 < x) : 0 < l.sum := by
  cases l with
  | nil => exact absurd rfl h0
  | cons a l =>
    rw [List.sum_cons]
    have h1 := h a (by simp)
    have h2 : 0 ≤ l.sum := List.sum_nonneg fun x hx => (h x (by simp [hx])).le
    linarith

theorem sum_sq_le {l : List ℝ} (h : ∀ x ∈ l, 0 ≤ x) : (l.map fun x => x ^ 2).sum ≤ l.sum ^ 2 := by
  induction l with
  | nil => simp
  | cons a l ih =>
    simp only [List.map_cons, List.sum_cons]
    have h1 := h a (by simp)
    have h2 : 0 ≤ l.sum := List.sum_nonneg fun x hx => h x (by simp [hx])
    have h3 := ih fun x hx => h x (by simp [hx])
    nlinarith

/-- Two positive elements make the inequality strict. -/
theorem sum_sq_lt {l : List ℝ} (h : ∀ x ∈ l, 0 < x) (h2 : 2 ≤ l.length) :
    (l.map fun x => x ^ 2).sum < l.sum ^ 2 := by
  match l, h2 with
  | a :: b :: l, _ =>
    have ha := h a (by simp)
    have hb := h b (by simp)
    have hs : 0 < (b :: l).sum := sum_pos_of_mem (by simp) fun x hx => h x (by simp [hx])
    have := sum_sq_le (l := b :: l) fun x hx => (h x (by simp [hx])).le
    rw [List.map_cons, List.sum_cons, List.sum_cons]
    nlinarith

theorem sq_sum_le (l : List ℝ) : l.sum ^ 2 ≤ l.length * (l.map fun x => x ^ 2).sum := by
  induction l with
  | nil => simp
  | cons a l ih =>
    simp only [List.map_cons, List.sum_cons, List.length_cons, Nat.cast_add, Nat.cast_one]
    have hq : 0 ≤ (l.map fun x => x ^ 2).sum :=
      List.sum_nonneg (by simp only [List.mem_map]; rintro x ⟨y, _, rfl⟩; positivity)
    rcases Nat.eq_zero_or_pos l.length with h0 | h0
    · rw [List.length_eq_zero_iff] at h0
      subst h0
      simp
    · have hk : (0 : ℝ) < l.length := by exact_mod_cast h0
      have hk1 : (1 : ℝ) ≤ l.length := by exact_mod_cast h0
      set S := l.sum
      set Q := (l.map fun x => x ^ 2).sum
      set k : ℝ := (l.length : ℝ)
      -- 2 a S ≤ k a² + S² / k ≤ k a² + Q
      have : S ^ 2 / k ≤ Q := by rw [div_le_iff₀ hk]; linarith
      have h2 : 2 * a * S ≤ k * a ^ 2 + S ^ 2 / k := by
        have : 0 ≤ (k * a - S) ^ 2 / k := by positivity
        have e : (k * a - S) ^ 2 / k = k * a ^ 2 - 2 * a * S + S ^ 2 / k := by
          field_simp
          ring
        linarith
      nlinarith

/-! ### Variance effective selection mass -/

/-- `(Σ x)² / Σ x²`. -/
noncomputable def effMass (l : List ℝ) : ℝ := l.sum ^ 2 / (l.map fun x => x ^ 2).sum

theorem sum_sq_pos {l : List ℝ} (h : ∃ x ∈ l, x ≠ 0) : 0 < (l.map fun x => x ^ 2).sum := by
  obtain ⟨x, hx, h0⟩ := h
  have h1 : x ^ 2 ≤ (l.map fun x => x ^ 2).sum := by
    refine List.single_le_sum ?_ _ (List.mem_map.mpr ⟨x, hx, rfl⟩)
    simp only [List.mem_map]
    rintro y ⟨z, _, rfl⟩
    positivity
  have : 0 < x ^ 2 := by positivity
  linarith

theorem effMass_fin {l : List ℝ} (h : ∃ x ∈ l, x ≠ 0) :
    (Flt.powi (fsum (l.map (.fin : ℝ → XR))) 2 /
      fsum ((l.map (.fin : ℝ → XR)).map fun x => Flt.powi x 2)) = .fin (effMass l) := by
  rw [fsum_fin, fsum_sq, powi_fin, div_fin (sum_sq_pos h).ne']
  rfl

theorem one_le_effMass {l : List ℝ} (h0 : l ≠ []) (h : ∀ x ∈ l, 0 < x) : 1 ≤ effMass l := by
  obtain ⟨x, hx⟩ := List.exists_mem_of_ne_nil l h0
  unfold effMass
  rw [le_div_iff₀ (sum_sq_pos ⟨x, hx, (h x hx).ne'⟩), one_mul]
  exact sum_sq_le fun x hx => (h x hx).le

theorem one_lt_effMass {l : List ℝ} (h0 : 2 ≤ l.length) (h : ∀ x ∈ l, 0 < x) : 1 < effMass l := by
  obtain ⟨x, hx⟩ := List.exists_mem_of_ne_nil l (by rintro rfl; simp at h0)
  unfold effMass
  rw [lt_div_iff₀ (sum_sq_pos ⟨x, hx, (h x hx).ne'⟩), one_mul]
  exact sum_sq_lt h h0

theorem effMass_le {l : List ℝ} (h0 : ∃ x ∈ l, x ≠ 0) : effMass l ≤ l.length := by
  unfold effMass
  rw [div_le_iff₀ (sum_sq_pos h0)]
  exact sq_sum_le l

theorem effMass_single {x : ℝ} (h : x ≠ 0) : effMass [x] = 1 := by
  simp [effMass, h]

/-- Scaling does not change the effective mass. -/
theorem effMass_scale {l : List ℝ} {k : ℝ} (h : k ≠ 0) :
    effMass (l.map fun x => x * k) = effMass l := by
  unfold effMass
  rw [List.map_map]
  have e1 : (l.map fun x => x * k).sum = l.sum * k := by
    rw [List.sum_map_mul_right, List.map_id']
  have e2 : (l.map ((fun x => x ^ 2) ∘ fun x => x * k)).sum = (l.map fun x => x ^ 2).sum * k ^ 2 := by
    rw [← List.sum_map_mul_right]
    congr 1
    apply List.map_congr_left
    intro x _
    simp only [Function.comp]
    ring
  rw [e1, e2, mul_pow, mul_div_mul_right _ _ (pow_ne_zero 2 h)]

/-- The effective selection mass of the options, in exact arithmetic. -/
noncomputable def realMuEff (lambda : ℕ) (s : Weights) : ℝ := effMass (rawPos lambda s)

theorem rawPos_ne_nil {lambda : ℕ} (h : 2 ≤ lambda) (s : Weights) : rawPos lambda s ≠ [] := by
  intro h0
  have := length_rawPos lambda s
  rw [h0] at this
  simp only [List.length_nil] at this
  omega

theorem rawPos_exists {lambda : ℕ} (h : 2 ≤ lambda) (s : Weights) :
    ∃ x ∈ rawPos lambda s, x ≠ 0 := by
  obtain ⟨x, hx⟩ := List.exists_mem_of_ne_nil _ (rawPos_ne_nil h s)
  exact ⟨x, hx, (rawPos_pos hx).ne'⟩

theorem muEff_fin {lambda : ℕ} (h : 2 ≤ lambda) (s : Weights) :
    (InitialWeights.new lambda s : InitialWeights XR).muEff = .fin (realMuEff lambda s) := by
  rw [initialWeights_fin]
  unfold InitialWeights.muEff
  simp only
  rw [← List.map_take, List.take_left' (length_rawPos lambda s)]
  exact effMass_fin (rawPos_exists h s)

theorem one_le_realMuEff {lambda : ℕ} (h : 2 ≤ lambda) (s : Weights) : 1 ≤ realMuEff lambda s :=
  one_le_effMass (rawPos_ne_nil h s) fun _ => rawPos_pos

theorem realMuEff_le {lambda : ℕ} (h : 2 ≤ lambda) (s : Weights) :
    realMuEff lambda s ≤ (lambda / 2 : ℕ) := by
  have := effMass_le (rawPos_exists h s)
  rwa [length_rawPos] at this

theorem realMuEff_eq_one_iff {lambda : ℕ} (h : 2 ≤ lambda) (s : Weights) :
    realMuEff lambda s = 1 ↔ lambda < 4 := by
  constructor
  · intro e
    by_contra hc
    have := one_lt_effMass (l := rawPos lambda s) (by rw [length_rawPos]; omega) fun _ => rawPos_pos
    unfold realMuEff at e
    linarith
  · intro h4
    have h1 := one_le_realMuEff h s
    have h2 := realMuEff_le h s
    rw [show lambda / 2 = 1 by omega] at h2
    norm_num at h2
    exact le_antisymm h2 h1

theorem rawRest_exists {lambda : ℕ} (h : 2 ≤ lambda) : ∃ x ∈ rawRest lambda .negative, x < 0 := by
  refine ⟨logWeight lambda lambda, ?_, logWeight_last h⟩
  simp only [rawRest, List.mem_map, List.mem_range]
  exact ⟨lambda - lambda / 2 - 1, by omega, by congr 1; omega⟩

theorem length_rawRest (lambda : ℕ) : (rawRest lambda .negative).length = lambda - lambda / 2 := by
  simp [rawRest]

theorem muEffMinus_fin {lambda : ℕ} (h : 2 ≤ lambda) :
    (InitialWeights.new lambda .negative : InitialWeights XR).muEffMinus =
      some (.fin (effMass (rawRest lambda .negative))) := by
  rw [initialWeights_fin]
  unfold InitialWeights.muEffMinus
  simp only
  rw [if_pos (by simp only [List.length_map, List.length_append, length_rawPos, length_rawRest]; omega)]
  rw [← List.map_drop, List.drop_left' (length_rawPos lambda _)]
  obtain ⟨x, hx, h0⟩ := rawRest_exists h
  rw [effMass_fin ⟨x, hx, h0.ne⟩]

theorem muEffMinus_none {lambda : ℕ} {s : Weights} (hs : s ≠ .negative) :
    (InitialWeights.new lambda s : InitialWeights XR).muEffMinus = none := by
  rw [initialWeights_fin]
  unfold InitialWeights.muEffMinus
  have e : rawRest lambda s = [] := by cases s <;> simp_all [rawRest]
  simp only [e, List.append_nil, List.length_map, length_rawPos]
  rw [if_neg (by omega)]

/-! ### Learning rates -/

/-- `cc` in exact arithmetic. -/
noncomputable def realCc (n : ℕ) (m : ℝ) : ℝ := (4 + m / n) / (n + 4 + 2 * m / n)
/-- `c1` in exact arithmetic. -/
noncomputable def realC1 (n : ℕ) (m : ℝ) : ℝ := 2 / ((n + 13 / 10) ^ 2 + m)
/-- `cmu` in exact arithmetic. -/
noncomputable def realCmu (n : ℕ) (m : ℝ) : ℝ :=
  min (1 - realC1 n m) (2 * (m - 2 + 1 / m) / ((n + 2) ^ 2 + 2 * m / 2))
/-- `cs` in exact arithmetic. -/
noncomputable def realCs (n : ℕ) (m : ℝ) : ℝ := (m + 2) / (n + m + 5)
/-- `damp_s` in exact arithmetic. -/
noncomputable def realDampS (n : ℕ) (m : ℝ) : ℝ :=
  1 + realCs n m + 2 * max (Real.sqrt ((m - 1) / (n + 1)) - 1) 0

section
variable {n : ℕ} {m : ℝ}

theorem paramCc_fin (hn : n ≠ 0) (hm : 1 ≤ m) : paramCc n (.fin m : XR) = .fin (realCc n m) := by
  have h1 : (0 : ℝ) < n := by exact_mod_cast Nat.pos_of_ne_zero hn
  unfold paramCc realCc
  simp only [ofNat_eq, lit_eq]
  rw [div_fin h1.ne', mul_fin, div_fin h1.ne', add_fin, add_fin, add_fin, div_fin]
  show (n : ℝ) + 4 + 2 * m / n ≠ 0
  positivity

theorem paramC1_fin (hm : 1 ≤ m) : paramC1 n (.fin m : XR) = .fin (realC1 n m) := by
  unfold paramC1 realC1
  simp only [ofNat_eq, lit_eq, ofRat_eq]
  rw [add_fin, powi_fin, add_fin, div_fin (by positivity)]
  norm_num

theorem paramCmu_fin (hm : 1 ≤ m) :
    paramCmu n (.fin m : XR) (.fin (realC1 n m)) = .fin (realCmu n m) := by
  unfold paramCmu realCmu
  simp only [ofNat_eq, lit_eq, one_eq]
  have h0 : m ≠ 0 := by positivity
  rw [sub_fin, sub_fin, div_fin h0, add_fin, mul_fin, add_fin, powi_fin, mul_fin,
    div_fin (by norm_num), add_fin, div_fin (by
      have : (0 : ℝ) < ((n : ℝ) + OfNat.ofNat 2) ^ 2 + OfNat.ofNat 2 * m / OfNat.ofNat 2 := by
        show (0 : ℝ) < ((n : ℝ) + 2) ^ 2 + 2 * m / 2
        positivity
      exact this.ne'), fmin_fin]

theorem paramCs_fin (hm : 1 ≤ m) : paramCs n (.fin m : XR) = .fin (realCs n m) := by
  unfold paramCs realCs
  simp only [ofNat_eq, lit_eq]
  rw [add_fin, add_fin, add_fin, div_fin (by
      have : (0 : ℝ) < (n : ℝ) + m + OfNat.ofNat 5 := by
        show (0 : ℝ) < (n : ℝ) + m + 5
        positivity
      exact this.ne')]

theorem paramDampS_fin (hm : 1 ≤ m) :
    paramDampS n (.fin m : XR) (.fin (realCs n m)) = .fin (realDampS n m) := by
  unfold paramDampS realDampS
  simp only [ofNat_eq, lit_eq, one_eq, zero_eq]
  have h1 : (0 : ℝ) < (n : ℝ) + 1 := by positivity
  have h2 : 0 ≤ (m - 1) / ((n : ℝ) + 1) := div_nonneg (by linarith) h1.le
  rw [sub_fin, add_fin, add_fin, div_fin h1.ne', sqrt_fin h2, sub_fin, fmax_fin, mul_fin, add_fin]

theorem realCc_pos (hn : n ≠ 0) (hm : 1 ≤ m) : 0 < realCc n m ∧ realCc n m < 1 := by
  have h1 : (0 : ℝ) < n := by exact_mod_cast Nat.pos_of_ne_zero hn
  have h2 : (0 : ℝ) < m / n := by positivity
  unfold realCc
  refine ⟨by positivity, ?_⟩
  rw [div_lt_one (by positivity)]
  have : 2 * m / n = 2 * (m / n) := by ring
  rw [this]
  linarith

theorem realC1_pos (hn : n ≠ 0) (hm : 1 ≤ m) : 0 < realC1 n m ∧ realC1 n m < 1 / 3 := by
  have h1 : (1 : ℝ) ≤ n := by exact_mod_cast Nat.pos_of_ne_zero hn
  unfold realC1
  refine ⟨by positivity, ?_⟩
  rw [div_lt_iff₀ (by positivity)]
  nlinarith

theorem realCmu_bounds (hn : n ≠ 0) (hm : 1 ≤ m) :
    0 ≤ realCmu n m ∧ realCmu n m ≤ 1 - realC1 n m ∧ (realCmu n m = 0 ↔ m = 1) := by
  obtain ⟨h1, h2⟩ := realC1_pos hn hm
  have h3 : m - 2 + 1 / m = (m - 1) ^ 2 / m := by
    field_simp
    ring
  have h4 : 0 < ((n : ℝ) + 2) ^ 2 + 2 * m / 2 := by positivity
  have h5 : 0 ≤ 2 * (m - 2 + 1 / m) / (((n : ℝ) + 2) ^ 2 + 2 * m / 2) := by
    rw [h3]
    positivity
  refine ⟨le_min (by linarith) h5, min_le_left _ _, ?_⟩
  constructor
  · intro h
    by_contra hc
    have h6 : 0 < 2 * (m - 2 + 1 / m) / (((n : ℝ) + 2) ^ 2 + 2 * m / 2) := by
      rw [h3]
      have : 0 < m - 1 := by
        rcases lt_or_eq_of_le hm with h | h
        · linarith
        · exact absurd h.symm hc
      positivity
    have : 0 < realCmu n m := lt_min (by linarith) h6
    linarith
  · rintro rfl
    unfold realCmu
    norm_num
    linarith

theorem realCs_pos (hm : 1 ≤ m) : 0 < realCs n m ∧ realCs n m < 1 := by
  unfold realCs
  refine ⟨by positivity, ?_⟩
  rw [div_lt_one (by positivity)]
  have : (0 : ℝ) ≤ n := Nat.cast_nonneg n
  linarith

theorem realDampS_ge : 1 + realCs n m ≤ realDampS n m := by
  unfold realDampS
  have : 0 ≤ max (Real.sqrt ((m - 1) / (n + 1)) - 1) 0 := le_max_right _ _
  linarith

end

/-! ### The final weights -/

theorem filter_fin (p : XR → Bool) (l : List ℝ) :
    (l.map (.fin : ℝ → XR)).filter p = (l.filter fun x => p (.fin x)).map .fin := by
  rw [List.filter_map]
  rfl

theorem normalizePos_fin {pos rest : List ℝ} (hp : ∀ x ∈ pos, 0 < x) (hr : ∀ x ∈ rest, x ≤ 0) :
    normalizePos ((pos ++ rest).map (.fin : ℝ → XR)) =
      ((pos.map fun x => x / pos.sum) ++ rest).map .fin := by
  have hf : (pos ++ rest).filter (fun x => Flt.lt (0 : XR) (.fin x)) = pos := by
    rw [List.filter_append, List.filter_eq_self.mpr, List.filter_eq_nil_iff.mpr, List.append_nil]
    · intro x hx
      rw [zero_eq, lt_fin]
      simpa using hr x hx
    · intro x hx
      rw [zero_eq, lt_fin]
      simpa using hp x hx
  unfold normalizePos
  simp only
  rw [filter_fin, hf, fsum_fin, List.map_map, List.map_append, List.map_append, List.map_map]
  congr 1
  · apply List.map_congr_left
    intro x hx
    have hx0 := hp x hx
    have hs : 0 < pos.sum := sum_pos_of_mem (List.ne_nil_of_mem hx) hp
    simp only [Function.comp, zero_eq, lt_fin, hx0, decide_true, ↓reduceIte]
    rw [div_fin hs.ne']
  · apply List.map_congr_left
    intro x hx
    have hx0 := hr x hx
    simp only [Function.comp, zero_eq, lt_fin, not_lt.mpr hx0, decide_false, Bool.false_eq_true,
      ↓reduceIte]

theorem sum_filter_neg {rest : List ℝ} (hr : ∀ x ∈ rest, x ≤ 0) :
    (rest.filter fun x => decide (x < 0)).sum = rest.sum := by
  induction rest with
  | nil => rfl
  | cons a l ih =>
    have h1 := ih fun x hx => hr x (by simp [hx])
    by_cases ha : a < 0
    · simp [List.filter_cons, ha, h1]
    · have : a = 0 := le_antisymm (hr a (by simp)) (not_lt.mp ha)
      simp [List.filter_cons, this, h1]

theorem normalizeNeg_fin {pos rest : List ℝ} (a : ℝ) (hp : ∀ x ∈ pos, 0 < x)
    (hr : ∀ x ∈ rest, x ≤ 0) :
    normalizeNeg (.fin a) ((pos ++ rest).map (.fin : ℝ → XR)) =
      (pos ++ rest.map fun x => x * a / |rest.sum|).map .fin := by
  have hf : (pos ++ rest).filter (fun x => Flt.lt (.fin x) (0 : XR)) =
      rest.filter fun x => decide (x < 0) := by
    rw [List.filter_append, List.filter_eq_nil_iff.mpr, List.nil_append]
    · apply List.filter_congr
      intro x _
      rw [zero_eq, lt_fin]
    · intro x hx
      rw [zero_eq, lt_fin]
      simpa using (hp x hx).le
  unfold normalizeNeg
  simp only
  rw [filter_fin, hf, fsum_fin, abs_fin, sum_filter_neg hr, List.map_map, List.map_append,
    List.map_append, List.map_map]
  congr 1
  · apply List.map_congr_left
    intro x hx
    simp only [Function.comp, zero_eq, lt_fin, not_lt.mpr (hp x hx).le, decide_false,
      Bool.false_eq_true, ↓reduceIte]
  · apply List.map_congr_left
    intro x hx
    simp only [Function.comp, zero_eq, lt_fin, decide_eq_true_eq]
    split
    · rename_i hx0
      have hs : rest.sum < 0 := by
        have h1 : -x ≤ (rest.map fun x => -x).sum := by
          refine List.single_le_sum ?_ _ (List.mem_map.mpr ⟨x, hx, rfl⟩)
          simp only [List.mem_map]
          rintro y ⟨z, hz, rfl⟩
          have := hr z hz
          linarith
        have h2 : (rest.map fun x => -x).sum = -rest.sum := by
          rw [← List.sum_neg]
        linarith
      rw [mul_fin, div_fin (abs_pos.mpr hs.ne).ne']
    · rename_i hx0
      rw [le_antisymm (hr x hx) (not_lt.mp hx0)]
      simp

/-- The size of the sum of the negative weights, in exact arithmetic. For `cmu = 0` two of the three
bounds are infinite. -/
noncomputable def realNegSum (n lambda : ℕ) : ℝ :=
  let m := realMuEff lambda .negative
  let c1 := realC1 n m
  let cmu := realCmu n m
  let b := 1 + 2 * effMass (rawRest lambda .negative) / (m + 2)
  if cmu = 0 then b else min (1 + c1 / cmu) (min b ((1 - c1 - cmu) / (n * cmu)))

/-- The first `mu` weights, in exact arithmetic. -/
noncomputable def realPos (lambda : ℕ) (s : Weights) : List ℝ :=
  (rawPos lambda s).map fun x => x / (rawPos lambda s).sum

/-- The other weights, in exact arithmetic. -/
noncomputable def realRest (n lambda : ℕ) (s : Weights) : List ℝ :=
  (rawRest lambda s).map fun x => x * realNegSum n lambda / |(rawRest lambda s).sum|

theorem realPos_pos {lambda : ℕ} {s : Weights} {x : ℝ} (h : x ∈ realPos lambda s) : 0 < x := by
  simp only [realPos, List.mem_map] at h
  obtain ⟨y, hy, rfl⟩ := h
  exact div_pos (rawPos_pos hy) (sum_pos_of_mem (List.ne_nil_of_mem hy) fun _ => rawPos_pos)

theorem pinf_min_left (b : ℝ) : Flt.fmin (.pinf : XR) (.fin b) = .fin b := by
  unfold Flt.fmin
  rfl

theorem pinf_min_right (b : ℝ) : Flt.fmin (.fin b : XR) .pinf = .fin b := by
  unfold Flt.fmin
  rfl

theorem div_zero_fin {a : ℝ} (h : 0 < a) : (.fin a / .fin 0 : XR) = .pinf := by
  show Ext.div _ _ = _
  have h1 : (Fmt.toK (0 : ℝ) : ℝ) = 0 := rfl
  have h2 : ¬ (Fmt.toK a : ℝ) = 0 := h.ne'
  have h3 : (0 : ℝ) < Fmt.toK a := h
  simp only [Ext.div, h1, ↓reduceIte, h2, h3, decide_true, Ext.sinf]

theorem finalize_fin {n lambda : ℕ} (hn : n ≠ 0) (h : 2 ≤ lambda) (s : Weights) :
    (InitialWeights.new lambda s : InitialWeights XR).finalize n
      (.fin (realC1 n (realMuEff lambda s))) (.fin (realCmu n (realMuEff lambda s))) =
      (realPos lambda s ++ realRest n lambda s).map .fin := by
  have hm := one_le_realMuEff h s
  obtain ⟨hc1, hc1'⟩ := realC1_pos hn hm
  obtain ⟨hcmu, _, _⟩ := realCmu_bounds hn hm
  have hn0 : (0 : ℝ) < n := by exact_mod_cast Nat.pos_of_ne_zero hn
  unfold InitialWeights.finalize
  simp only
  rw [muEff_fin h s]
  have hw : (InitialWeights.new lambda s : InitialWeights XR).weights =
      (rawPos lambda s ++ rawRest lambda s).map .fin := by rw [initialWeights_fin]
  rw [hw, normalizePos_fin (fun _ => rawPos_pos) fun _ => rawRest_nonpos]
  by_cases hs : s = .negative
  · subst hs
    rw [muEffMinus_fin h]
    simp only
    have key : ∀ a : XR, a = .fin (realNegSum n lambda) →
        normalizeNeg a ((List.map (fun x => x / (rawPos lambda .negative).sum)
          (rawPos lambda .negative) ++ rawRest lambda .negative).map (.fin : ℝ → XR)) =
          (realPos lambda .negative ++ realRest n lambda .negative).map .fin := by
      rintro a rfl
      exact normalizeNeg_fin (pos := realPos lambda .negative) _ (fun _ => realPos_pos)
        fun _ => rawRest_nonpos
    apply key
    have hb : (1 + 2 * .fin (effMass (rawRest lambda .negative)) /
        (.fin (realMuEff lambda .negative) + 2) : XR) =
        .fin (1 + 2 * effMass (rawRest lambda .negative) / (realMuEff lambda .negative + 2)) := by
      simp only [lit_eq, one_eq]
      rw [mul_fin, add_fin, div_fin, add_fin]
      show realMuEff lambda .negative + 2 ≠ 0
      positivity
    rw [hb]
    unfold realNegSum
    simp only
    generalize realC1 n (realMuEff lambda .negative) = c1 at *
    generalize realCmu n (realMuEff lambda .negative) = cmu at *
    by_cases h0 : cmu = 0
    · subst h0
      rw [if_pos rfl, ofNat_eq, mul_fin, mul_zero, one_eq, div_zero_fin hc1, sub_fin, sub_fin,
        div_zero_fin (by linarith), pinf_min_right]
      exact pinf_min_left _
    · rw [if_neg h0, ofNat_eq, mul_fin, one_eq, div_fin h0, sub_fin, sub_fin, add_fin,
        div_fin (mul_ne_zero hn0.ne' h0), fmin_fin, fmin_fin]
  · rw [muEffMinus_none hs]
    have e : rawRest lambda s = [] := by cases s <;> simp_all [rawRest]
    simp only [e, realPos, realRest, List.map_nil]

end Cmaes
