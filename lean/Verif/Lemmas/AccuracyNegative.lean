import Verif.Lemmas.AccuracyWeights

/-!
# Rounding errors of the negative weights
-/

namespace Cmaes
variable [Libm F64]

/-! ### Signs -/

theorem IsReal.neg_mul {x y : F64} {a b : ℝ} (hx : IsReal x a) (hy : IsReal y b) :
    Ext.mul (Ext.neg x) y = Ext.neg (Ext.mul x y) := by
  obtain ⟨u, rfl, _⟩ := hx
  obtain ⟨v, rfl, _⟩ := hy
  simp only [Ext.neg_fin, Ext.mul, LawfulFmt.toK_neg, _root_.neg_mul, LawfulFmt.rnd_neg]

theorem IsReal.neg_sq {x : F64} {a : ℝ} (hx : IsReal x a) :
    Flt.powi (Ext.neg x) 2 = Flt.powi x 2 := by
  obtain ⟨u, rfl, _⟩ := hx
  rw [powi_two, powi_two]
  congr 1
  simp only [Ext.neg_fin, Ext.mul, LawfulFmt.toK_neg, _root_.neg_mul_neg]

theorem fsum_neg (l : List F64) : fsum (l.map Ext.neg) = Ext.neg (fsum l) := by
  have key : ∀ (l : List F64) (s : F64),
      (l.map Ext.neg).foldl (· + ·) (Ext.neg s) = Ext.neg (l.foldl (· + ·) s) := by
    intro l
    induction l with
    | nil => intro s; rfl
    | cons x l ih =>
      intro s
      rw [List.map_cons, List.foldl_cons, List.foldl_cons, ← ih]
      congr 1
      exact (OneZero.neg_add (F := F64) s x).symm
  have h0 : Ext.neg (0 : F64) = 0 := by
    show Ext.neg (Fmt.rnd (0 : ℚ)) = Fmt.rnd (0 : ℚ)
    rw [← LawfulFmt.rnd_neg, neg_zero]
  have := key l 0
  rwa [h0] at this

/-! ### Zero weights -/

theorem IsReal.add_zero {z : F64} (hz : IsReal z 0) (s : F64) : s + z = s := by
  obtain ⟨v, rfl, hv⟩ := hz
  show Ext.add s _ = s
  cases s with
  | fin u =>
    have h0 : v.1 = 0 := by exact_mod_cast hv
    show (Fmt.rnd (u.1 + v.1) : F64) = _
    rw [h0, _root_.add_zero]
    exact IsReal.rnd_exact ⟨u, rfl, rfl⟩
  | _ => rfl

theorem fsum_filter {ι : Type} (p : ι → Bool) (f : ι → F64) (l : List ι)
    (h : ∀ i ∈ l, p i = false → IsReal (f i) 0) : fsum (l.map f) = fsum ((l.filter p).map f) := by
  have key : ∀ (l : List ι), (∀ i ∈ l, p i = false → IsReal (f i) 0) → ∀ s : F64,
      (l.map f).foldl (· + ·) s = ((l.filter p).map f).foldl (· + ·) s := by
    intro l
    induction l with
    | nil => intro _ s; rfl
    | cons x l ih =>
      intro h s
      have ih := ih fun i hi => h i (List.mem_cons_of_mem _ hi)
      rw [List.map_cons, List.foldl_cons]
      cases hp : p x with
      | true =>
        rw [List.filter_cons_of_pos hp, List.map_cons, List.foldl_cons]
        exact ih _
      | false =>
        rw [List.filter_cons_of_neg (by rw [hp]; simp), (h x List.mem_cons_self hp).add_zero]
        exact ih _
  exact key l h 0

theorem sum_filter {ι : Type} (p : ι → Bool) (f : ι → ℝ) (l : List ι)
    (h : ∀ i ∈ l, p i = false → f i = 0) : (l.map f).sum = ((l.filter p).map f).sum := by
  induction l with
  | nil => rfl
  | cons x l ih =>
    have ih := ih fun i hi => h i (List.mem_cons_of_mem _ hi)
    cases hp : p x with
    | true => rw [List.filter_cons_of_pos hp, List.map_cons, List.map_cons, List.sum_cons,
        List.sum_cons, ih]
    | false =>
      rw [List.filter_cons_of_neg (by rw [hp]; simp), List.map_cons, List.sum_cons,
        h x List.mem_cons_self hp, _root_.zero_add, ih]

/-! ### The weights of the ranks after `mu` -/

/-- The ranks after `mu`. -/
def lowRanks (lambda : ℕ) : List ℕ := (List.range (lambda - lambda / 2)).map fun i => lambda / 2 + i + 1

/-- All of them but the one whose weight is zero. -/
def negRanks (lambda : ℕ) : List ℕ := (lowRanks lambda).filter fun i => decide (lambda + 1 ≠ 2 * i)

theorem mem_lowRanks {lambda i : ℕ} : i ∈ lowRanks lambda ↔ lambda / 2 < i ∧ i ≤ lambda := by
  simp only [lowRanks, List.mem_map, List.mem_range]
  constructor
  · rintro ⟨j, hj, rfl⟩; omega
  · intro h
    exact ⟨i - lambda / 2 - 1, by omega, by omega⟩

theorem mem_negRanks {lambda i : ℕ} :
    i ∈ negRanks lambda ↔ lambda / 2 < i ∧ i ≤ lambda ∧ lambda + 1 ≠ 2 * i := by
  rw [negRanks, List.mem_filter, mem_lowRanks, decide_eq_true_eq, and_assoc]

theorem rawRest_eq (lambda : ℕ) : rawRest lambda .negative = (lowRanks lambda).map (logWeight lambda) := by
  show (List.range _).map _ = _
  rw [lowRanks, List.map_map]
  rfl

theorem drop_eq (lambda : ℕ) :
    (InitialWeights.new lambda .negative : InitialWeights F64).weights.drop (lambda / 2) =
      (lowRanks lambda).map (rawWeight lambda) := by
  show ((List.range lambda).map _).drop _ = _
  rw [← List.map_drop, lowRanks, List.map_map, List.range_eq_range', List.drop_range',
    List.range'_eq_map_range, List.map_map]
  refine List.map_congr_left fun i _ => ?_
  simp only [Function.comp]
  congr 1
  omega

theorem negRanks_length (lambda : ℕ) : (negRanks lambda).length ≤ lambda := by
  refine (List.length_filter_le _ _).trans ?_
  rw [lowRanks, List.length_map, List.length_range]
  omega

theorem negRanks_ne_nil {lambda : ℕ} (h2 : 2 ≤ lambda) : negRanks lambda ≠ [] :=
  List.ne_nil_of_mem (mem_negRanks.mpr ⟨by omega, le_rfl, by omega⟩ : lambda ∈ negRanks lambda)

section
variable {lambda : ℕ}

theorem raw_zero (hl : AccurateLibm) (h2 : 2 ≤ lambda) (h : lambda ≤ 2 ^ 20) {i : ℕ}
    (hi : i ∈ lowRanks lambda) (hz : lambda + 1 = 2 * i) :
    IsReal (rawWeight lambda i : F64) 0 ∧ logWeight lambda i = 0 := by
  obtain ⟨h3, h4⟩ := mem_lowRanks.mp hi
  obtain ⟨a, ha, _, h0⟩ := raw_real hl h2 h (by omega) h4
  have : logWeight lambda i = 0 := by
    unfold logWeight
    have : ((lambda : ℝ) + 1) = 2 * i := by exact_mod_cast hz
    rw [this, mul_div_cancel_left₀ _ (by norm_num), sub_self]
  rw [h0 this] at ha
  exact ⟨ha, this⟩

theorem raw_neg (hl : AccurateLibm) (h2 : 2 ≤ lambda) (h : lambda ≤ 2 ^ 20) {i : ℕ}
    (hi : i ∈ negRanks lambda) :
    Near (132 * lambda) 21 (Ext.neg (rawWeight lambda i : F64)) (-logWeight lambda i) := by
  obtain ⟨h3, h4, h5⟩ := mem_negRanks.mp hi
  rcases raw_near_neg hl h2 h h3 h4 with ⟨_, h6⟩ | h6
  · exfalso
    have := logWeight_le h2 h (i := i) (by omega)
    rw [h6] at this
    have : (0 : ℝ) < 1 / (2 * lambda) := by
      have : (2 : ℝ) ≤ lambda := by exact_mod_cast h2
      positivity
    linarith
  · exact h6

/-- The number whose negative is near a positive number. -/
theorem real_of_neg {k B : ℕ} {x : F64} {r : ℝ} (h : Near k B (Ext.neg x) r) :
    ∃ a, IsReal x (-a) ∧ IsReal (Ext.neg x) a ∧ 0 < a := by
  have h' := h
  obtain ⟨a, ha, _⟩ := h
  refine ⟨a, ?_, ha, Near.real_pos ha h'⟩
  have := ha.neg'
  rwa [Ext.neg_neg'] at this

/-- The sum of the negative weights. -/
theorem negSum_near (hl : AccurateLibm) (h2 : 2 ≤ lambda) (h : lambda ≤ 2 ^ 20) :
    Near (133 * lambda) 41 (Ext.neg (fsum ((negRanks lambda).map (rawWeight lambda) : List F64)))
      (-((lowRanks lambda).map (logWeight lambda)).sum) := by
  have h1 : List.Forall₂ (Near (132 * lambda) 21)
      (((negRanks lambda).map (rawWeight lambda) : List F64).map Ext.neg)
      ((negRanks lambda).map fun i => -logWeight lambda i) := by
    rw [List.map_map, List.forall₂_map_left_iff, List.forall₂_map_right_iff, List.forall₂_same]
    exact fun i hi => raw_neg hl h2 h hi
  have hlen := negRanks_length lambda
  have h3 := fsum_near h1 (by simpa using negRanks_ne_nil h2)
    (by rw [List.length_map, List.length_map]; omega) (by omega) (by omega)
  rw [fsum_neg] at h3
  have e : ((negRanks lambda).map fun i => -logWeight lambda i).sum =
      -((lowRanks lambda).map (logWeight lambda)).sum := by
    rw [sum_filter (fun i => decide (lambda + 1 ≠ 2 * i)) _ _ fun i hi hp => (raw_zero hl h2 h hi
      (by simpa using hp)).2]
    show _ = -((negRanks lambda).map (logWeight lambda)).sum
    rw [List.sum_neg, List.map_map]
    rfl
  rw [e] at h3
  refine h3.mono ?_ le_rfl
  rw [List.length_map, List.length_map]
  omega

/-- `mu_eff` of the negative weights. -/
theorem muEffMinus_near (hl : AccurateLibm) (h2 : 2 ≤ lambda) (h : lambda ≤ 2 ^ 20) :
    ∃ x : F64, (InitialWeights.new lambda .negative : InitialWeights F64).muEffMinus = some x ∧
      Near (534 * lambda + 3) 144 x (effMass (rawRest lambda .negative)) := by
  have h1 : List.Forall₂ (Near (132 * lambda) 21)
      (((negRanks lambda).map (rawWeight lambda) : List F64).map Ext.neg)
      ((negRanks lambda).map fun i => -logWeight lambda i) := by
    rw [List.map_map, List.forall₂_map_left_iff, List.forall₂_map_right_iff, List.forall₂_same]
    exact fun i hi => raw_neg hl h2 h hi
  have hlen := negRanks_length lambda
  have hlen' : (((negRanks lambda).map (rawWeight lambda) : List F64).map Ext.neg).length ≤ lambda := by
    rw [List.length_map, List.length_map]; exact hlen
  have h3 := effMass_near h1 (by simpa using negRanks_ne_nil h2) (by omega) (by omega) (by omega)
  have hne := negSum_near hl h2 h
  obtain ⟨b, hb, hb', _⟩ := real_of_neg hne
  rw [fsum_neg, hb.neg_sq, List.map_map, List.map_map] at h3
  have e1 : fsum ((negRanks lambda).map (rawWeight lambda) : List F64) =
      fsum ((lowRanks lambda).map (rawWeight lambda)) :=
    (fsum_filter (fun i => decide (lambda + 1 ≠ 2 * i)) _ _ fun i hi hp =>
      (raw_zero hl h2 h hi (by simpa using hp)).1).symm
  have e2 : fsum ((negRanks lambda).map ((fun x => Flt.powi x 2) ∘ Ext.neg ∘ rawWeight lambda) : List F64) =
      fsum (((lowRanks lambda).map (rawWeight lambda)).map fun x => Flt.powi x 2) := by
    rw [List.map_map, fsum_filter (fun i => decide (lambda + 1 ≠ 2 * i)) _ (lowRanks lambda)]
    · congr 1
      refine List.map_congr_left fun i hi => ?_
      obtain ⟨a, ha, _⟩ := real_of_neg (raw_neg hl h2 h hi)
      exact ha.neg_sq
    · intro i hi hp
      have hz := (raw_zero hl h2 h hi (by simpa using hp)).1
      show IsReal (Flt.powi _ 2) 0
      rw [powi_two]
      obtain ⟨q, hq, e⟩ := hz.mul_rnd hz
      have : IsReal (Ext.mul (rawWeight lambda i : F64) (rawWeight lambda i)) 0 := by
        rw [e]
        exact isReal_int (z := 0) (hq.trans (by norm_num)) (by norm_num) |> fun h => by simpa using h
      rwa [this.one_mul]
  have e3 : effMass ((negRanks lambda).map fun i => -logWeight lambda i) =
      effMass (rawRest lambda .negative) := by
    rw [rawRest_eq]
    unfold effMass
    congr 1
    · rw [sum_filter (fun i => decide (lambda + 1 ≠ 2 * i)) (logWeight lambda) (lowRanks lambda)
        fun i hi hp => (raw_zero hl h2 h hi (by simpa using hp)).2]
      show _ = ((negRanks lambda).map (logWeight lambda)).sum ^ 2
      have : ((negRanks lambda).map fun i => -logWeight lambda i).sum =
          -((negRanks lambda).map (logWeight lambda)).sum := by
        rw [List.sum_neg, List.map_map]; rfl
      rw [this, neg_sq]
    · rw [List.map_map, List.map_map, sum_filter (fun i => decide (lambda + 1 ≠ 2 * i)) _
        (lowRanks lambda) fun i hi hp => by
          simp only [Function.comp, (raw_zero hl h2 h hi (by simpa using hp)).2]; norm_num]
      congr 1
      refine List.map_congr_left fun i _ => ?_
      simp only [Function.comp, neg_sq]
  rw [e1, e2, e3] at h3
  refine ⟨_, ?_, h3.mono (by rw [List.length_map]; omega) (by omega)⟩
  unfold InitialWeights.muEffMinus
  rw [new_mu, if_pos, drop_eq]
  show lambda / 2 < ((List.range lambda).map _).length
  rw [List.length_map, List.length_range]
  omega

/-! ### Their sum -/

/-- A difference of numbers that are not close to each other. -/
theorem Near.sub {k B C : ℕ} {x y : F64} {r s : ℝ} (hx : Near k B x r) (hy : Near k C y s)
    (h : s ≤ 2 / 3 * r) (hk : k ≤ 2 ^ 41) (hB : B + 2 ≤ 900) :
    Near (7 * k + 1) (B + 2) (x - y) (r - s) := by
  have hr := hx.pos
  have hs := hy.pos
  obtain ⟨a, ha, h1, h2, h3, h4⟩ := hx
  obtain ⟨b, hb, _, _, h5, h6⟩ := hy
  obtain ⟨q, hq, e⟩ := ha.add_rnd hb.neg'
  show Near _ _ (Ext.add x (Ext.neg y)) _
  rw [e]
  have hR := rho_pow_le_two (k := k) (by omega)
  have hR1 := one_le_rho_pow k
  have e7 : rho ^ (7 * k) = (rho ^ k) ^ 7 := by rw [mul_comm, pow_mul]
  refine Near.of_rnd hq ?_ ?_ ?_ ?_ (by omega) hB
  · have : (1 : ℝ) / 2 ^ (B + 2) = 1 / 2 ^ B / 4 := by rw [pow_add]; field_simp; norm_num
    rw [this]
    linarith
  · have : (2 : ℝ) ^ (B + 2) = 4 * 2 ^ B := by rw [pow_add]; ring
    have h0 : (0 : ℝ) < 2 ^ B := by positivity
    linarith
  · rw [e7]
    clear e7 e hq h1 h2 h4 h5
    generalize rho ^ k = R at *
    have hy : 1 ≤ R ^ 2 := one_le_pow₀ hR1
    have k1 : 0 ≤ (R ^ 2) ^ 4 - 3 * R ^ 2 + 2 := by
      have : (R ^ 2) ^ 4 - 3 * R ^ 2 + 2 = (R ^ 2 - 1) * ((R ^ 2) ^ 3 + (R ^ 2) ^ 2 + R ^ 2 - 2) := by ring
      rw [this]
      have h7 : 1 ≤ (R ^ 2) ^ 3 := one_le_pow₀ hy
      have h8 : 1 ≤ (R ^ 2) ^ 2 := one_le_pow₀ hy
      exact mul_nonneg (by linarith) (by linarith)
    have k2 : 0 ≤ ((R ^ 2) ^ 4 - 1) * (2 / 3 * r - s) := by
      have : 1 ≤ (R ^ 2) ^ 4 := one_le_pow₀ hy
      exact mul_nonneg (by linarith) (by linarith)
    have k3 : 0 ≤ ((R ^ 2) ^ 4 - 3 * R ^ 2 + 2) * r := mul_nonneg k1 hr.le
    have k4 : R * (a + -b) ≤ R * (R ^ 7 * (r - s)) := by
      have : R * a ≤ R * (R * r) := mul_le_mul_of_nonneg_left h3 (by linarith)
      nlinarith
    exact le_of_mul_le_mul_left k4 (by linarith)
  · rw [e7]
    clear e7 e hq h1 h2 h3 h6
    generalize rho ^ k = R at *
    have hy : 1 ≤ R ^ 2 := one_le_pow₀ hR1
    have hy' : R ^ 2 ≤ 26 / 25 := by nlinarith
    have k1 : 0 ≤ 3 * (R ^ 2) ^ 3 - 2 * (R ^ 2) ^ 4 - 1 := by
      have : 3 * (R ^ 2) ^ 3 - 2 * (R ^ 2) ^ 4 - 1 =
          (R ^ 2 - 1) * (1 + R ^ 2 + (R ^ 2) ^ 2 - 2 * (R ^ 2) ^ 3) := by ring
      rw [this]
      have h7 : (R ^ 2) ^ 3 ≤ (26 / 25) ^ 3 := pow_le_pow_left₀ (by linarith) hy' 3
      have h8 : 1 ≤ (R ^ 2) ^ 2 := one_le_pow₀ hy
      refine mul_nonneg (by linarith) ?_
      norm_num at h7
      linarith
    have k2 : 0 ≤ ((R ^ 2) ^ 4 - 1) * (2 / 3 * r - s) := by
      have : 1 ≤ (R ^ 2) ^ 4 := one_le_pow₀ hy
      exact mul_nonneg (by linarith) (by linarith)
    have k3 : 0 ≤ (3 * (R ^ 2) ^ 3 - 2 * (R ^ 2) ^ 4 - 1) * r := mul_nonneg k1 hr.le
    have k4 : R ^ 6 * r ≤ R ^ 6 * (R * a) := mul_le_mul_of_nonneg_left h4 (by positivity)
    have k5 : R ^ 7 * b ≤ R ^ 7 * (R * s) := mul_le_mul_of_nonneg_left h5 (by positivity)
    nlinarith

/-- The bound for the sum of the negative weights if `cmu` is positive. -/
theorem alpha_near {n k k' : ℕ} {x y c1 cmu : F64} {m mm r1 rmu : ℝ} (hx : Near k 402 x m)
    (hy : Near k' 144 y mm) (h1 : Near k 402 c1 r1) (hmu : Near k 402 cmu rmu)
    (hr1 : r1 ≤ 1 / 3) (hrmu : rmu ≤ 2 / 5) (hn : 1 ≤ n) (hn' : n ≤ 2 ^ 53) (hk : k ≤ 2 ^ 40)
    (hk' : k' ≤ k) :
    Near (8 * k + 10) 806
      (Flt.fmin (1 + c1 / cmu) (Flt.fmin (1 + (2 * y) / (x + 2))
        ((1 - c1 - cmu) / (Flt.ofNat n * cmu))))
      (min (1 + r1 / rmu) (min (1 + 2 * mm / (m + 2)) ((1 - r1 - rmu) / (n * rmu)))) := by
  have a1 := (near_one.add (h1.div hmu)).mono (l := 8 * k + 10) (C := 806) (by omega) (by omega)
  have a2 := (near_one.add (((near_lit 2).mul hy).div (hx.add (near_lit 2)))).mono
    (l := 8 * k + 10) (C := 806) (by omega) (by omega)
  have b1 := one_sub_near h1 (by omega) hr1
  have b2 := Near.sub b1 (hmu.mono (l := k + 1) (by omega) le_rfl) (by linarith) (by omega) (by omega)
  have a3 := (b2.div ((near_dim hn hn').mul hmu)).mono (l := 8 * k + 10) (C := 806) (by omega) (by omega)
  exact Near.fmin a1 (Near.fmin a2 a3)

theorem pos_div_zero {x z : F64} {a : ℝ} (hx : IsReal x a) (ha : 0 < a) (hz : IsReal z 0) :
    x / z = .pinf := by
  obtain ⟨u, rfl, rfl⟩ := hx
  obtain ⟨v, rfl, hv⟩ := hz
  have h0 : (Fmt.toK v : ℚ) = 0 := by
    show v.1 = 0
    exact_mod_cast hv
  have h1 : (0 : ℚ) < Fmt.toK u := by
    show 0 < u.1
    exact_mod_cast ha
  show Ext.div _ _ = _
  simp only [Ext.div, h0, ↓reduceIte, h1.ne', h1, decide_true, Ext.sinf]

/-- The same if `cmu` is zero. -/
theorem alpha_near_zero {n k k' : ℕ} {x y c1 cmu : F64} {m mm r1 : ℝ} (hx : Near k 402 x m)
    (hy : Near k' 144 y mm) (h1 : Near k 402 c1 r1) (hmu : IsReal cmu 0)
    (hr1 : r1 ≤ 1 / 3) (hn' : n ≤ 2 ^ 53) (hk : k ≤ 2 ^ 40) (hk' : k' ≤ k) :
    Near (8 * k + 10) 806
      (Flt.fmin (1 + c1 / cmu) (Flt.fmin (1 + (2 * y) / (x + 2))
        ((1 - c1 - cmu) / (Flt.ofNat n * cmu))))
      (1 + 2 * mm / (m + 2)) := by
  have a2 : Near (8 * k + 10) 806 (1 + (2 * y) / (x + 2)) (1 + 2 * mm / (m + 2)) :=
    (near_one.add (((near_lit 2).mul hy).div (hx.add (near_lit 2)))).mono
    (l := 8 * k + 10) (C := 806) (by omega) (by omega)
  have b1 := one_sub_near h1 (by omega) hr1
  have e1 : c1 / cmu = .pinf := by
    have h1' := h1
    obtain ⟨a, ha, _⟩ := h1
    exact pos_div_zero ha (Near.real_pos ha h1') hmu
  have e2 : (1 - c1 - cmu) / (Flt.ofNat n * cmu) = (.pinf : F64) := by
    have b1' := b1
    obtain ⟨a, ha, _⟩ := b1
    have hz : IsReal (Ext.neg cmu) 0 := by simpa using hmu.neg'
    have e3 : (1 - c1 - cmu : F64) = 1 - c1 := hz.add_zero _
    rw [e3]
    refine pos_div_zero ha (Near.real_pos ha b1') ?_
    obtain ⟨q, hq, e⟩ := (isReal_nat hn').mul_rnd hmu
    show IsReal (Ext.mul _ _) 0
    rw [f64_ofNat, e]
    have := isReal_int (z := 0) (hq.trans (by norm_num)) (by norm_num)
    simpa using this
  rw [e1, e2]
  have a2' := a2
  obtain ⟨a, ⟨u, hu, _⟩, _⟩ := a2
  have e4 : (1 + .pinf : F64) = .pinf := by
    obtain ⟨v, hv, _⟩ := isReal_one
    rw [hv]
    rfl
  rw [e4, hu]
  rw [hu] at a2'
  exact a2'

/-- The weights after the first `mu`, after both normalisations. -/
theorem finalize_drop (hl : AccurateLibm) (h2 : 2 ≤ lambda) (h : lambda ≤ 2 ^ 20) (n : ℕ)
    (c1 cmu : F64) :
    ∃ y : F64, Near (534 * lambda + 3) 144 y (effMass (rawRest lambda .negative)) ∧
      ∀ a : F64,
      a = Flt.fmin (1 + c1 / cmu) (Flt.fmin
        (1 + (2 * y) / ((InitialWeights.new lambda .negative : InitialWeights F64).muEff + 2))
        ((1 - c1 - cmu) / (Flt.ofNat n * cmu))) →
      ((InitialWeights.new lambda .negative : InitialWeights F64).finalize n c1 cmu).drop (lambda / 2) =
        (lowRanks lambda).map (fun i =>
          if Flt.lt (rawWeight lambda i : F64) 0 then rawWeight lambda i * a /
            Flt.abs (fsum ((negRanks lambda).map (rawWeight lambda) : List F64))
          else rawWeight lambda i) := by
  obtain ⟨y, hy, hn⟩ := muEffMinus_near hl h2 h
  refine ⟨y, hn, ?_⟩
  intro a ha
  have hpos := take_near hl h2 h .negative
  have hlen := length_take lambda .negative
  have hdrop := drop_eq lambda
  have hd := drop_nonpos hl h2 h .negative
  unfold InitialWeights.finalize
  simp only [hy]
  rw [← ha]
  clear ha hy hn
  set W : List F64 := (InitialWeights.new lambda .negative : InitialWeights F64).weights with hW
  have hsplit : W = W.take (lambda / 2) ++ W.drop (lambda / 2) := (List.take_append_drop _ _).symm
  set P := W.take (lambda / 2)
  have hPpos : ∀ x ∈ P, Flt.lt 0 x = true ∧ Flt.lt x 0 = false := by
    intro x hx
    obtain ⟨i, hi, rfl⟩ := List.mem_iff_getElem.mp hx
    exact (List.Forall₂.get hpos hi (hpos.length_eq ▸ hi)).lt_zero
  have hDneg : ∀ x ∈ W.drop (lambda / 2), Flt.lt 0 x = false := by
    intro x hx
    obtain ⟨a, ha, h0⟩ := hd x hx
    rw [Bool.eq_false_iff]
    intro hlt
    have := (isReal_zero.lt_iff ha).mp hlt
    linarith
  have hf : W.filter (fun w => Flt.lt 0 w) = P := by
    rw [hsplit, List.filter_append, List.filter_eq_self.mpr fun x hx => (hPpos x hx).1,
      List.filter_eq_nil_iff.mpr fun x hx => by rw [hDneg x hx]; simp, List.append_nil]
  have hne : P ≠ [] := by
    intro e
    rw [e] at hlen
    simp only [List.length_nil] at hlen
    omega
  have hsum := fsum_near hpos hne (by rw [hlen]; omega) (by omega) (by omega)
  rw [hlen] at hsum
  have hnorm : normalizePos W = P.map (fun w => w / fsum P) ++ W.drop (lambda / 2) := by
    unfold normalizePos
    simp only [hf]
    conv_lhs => rw [hsplit]
    rw [List.map_append]
    congr 1
    · exact List.map_congr_left fun x hx => if_pos (hPpos x hx).1
    · conv_rhs => rw [← List.map_id (W.drop (lambda / 2))]
      exact List.map_congr_left fun x hx => if_neg (by rw [hDneg x hx]; simp)
  have hP2 : ∀ x ∈ P.map (fun w => w / fsum P), Flt.lt x 0 = false := by
    intro x hx
    rw [List.mem_map] at hx
    obtain ⟨w, hw, rfl⟩ := hx
    obtain ⟨i, hi, rfl⟩ := List.mem_iff_getElem.mp hw
    have := List.Forall₂.get hpos hi (hpos.length_eq ▸ hi)
    exact (this.div hsum (by omega) (by omega)).lt_zero.2
  have hlt : ∀ i ∈ lowRanks lambda,
      Flt.lt (rawWeight lambda i : F64) 0 = decide (lambda + 1 ≠ 2 * i) := by
    intro i hi
    by_cases hz : lambda + 1 = 2 * i
    · rw [decide_eq_false (by simpa using hz), Bool.eq_false_iff]
      intro hlt
      exact lt_irrefl _ (((raw_zero hl h2 h hi hz).1.lt_iff isReal_zero).mp hlt)
    · rw [decide_eq_true (by simpa using hz)]
      obtain ⟨hi1, hi2⟩ := mem_lowRanks.mp hi
      obtain ⟨b, hb, _, hb0⟩ := real_of_neg (raw_neg hl h2 h (mem_negRanks.mpr ⟨hi1, hi2, hz⟩))
      exact (hb.lt_iff isReal_zero).mpr (by linarith)
  have hfilter : (normalizePos W).filter (fun w => Flt.lt w 0) =
      (negRanks lambda).map (rawWeight lambda) := by
    rw [hnorm, List.filter_append, List.filter_eq_nil_iff.mpr fun x hx => by rw [hP2 x hx]; simp,
      List.nil_append, hdrop, List.filter_map, negRanks]
    congr 1
    exact List.filter_congr hlt
  unfold normalizeNeg
  simp only [hfilter]
  rw [← List.map_drop, hnorm, List.drop_left' (by rw [List.length_map, hlen]), hdrop, List.map_map]
  rfl

/-- One of them. -/
theorem weight_near (hl : AccurateLibm) (h2 : 2 ≤ lambda) (h : lambda ≤ 2 ^ 20) {i : ℕ}
    (hi : i ∈ negRanks lambda) {a : F64} {r : ℝ} {k : ℕ} (ha : Near k 806 a r) (hk : k ≤ 2 ^ 44) :
    ∃ x : F64, (if Flt.lt (rawWeight lambda i : F64) 0 then rawWeight lambda i * a /
        Flt.abs (fsum ((negRanks lambda).map (rawWeight lambda) : List F64))
        else rawWeight lambda i) = Ext.neg x ∧
      Near (k + 265 * lambda + 2) 868 x
        (-logWeight lambda i * r / -((lowRanks lambda).map (logWeight lambda)).sum) := by
  have hs := negSum_near hl h2 h
  have hw := raw_neg hl h2 h hi
  obtain ⟨b, hb, hb', hb0⟩ := real_of_neg hw
  obtain ⟨d, hd, hd', hd0⟩ := real_of_neg hs
  have e1 : Flt.abs (fsum ((negRanks lambda).map (rawWeight lambda) : List F64)) =
      Ext.neg (fsum ((negRanks lambda).map (rawWeight lambda) : List F64)) := by
    generalize fsum ((negRanks lambda).map (rawWeight lambda) : List F64) = z at *
    obtain ⟨v, rfl, hv⟩ := hd
    have : v.1 < 0 := by
      have : ((v.1 : ℚ) : ℝ) < 0 := by rw [hv]; linarith
      exact_mod_cast this
    show Ext.abs (Ext.fin v) = Ext.fin (Fmt.neg v)
    exact if_pos this
  have e2 : Flt.lt (rawWeight lambda i : F64) 0 = true := (hb.lt_iff isReal_zero).mpr (by linarith)
  refine ⟨_, ?_, ((hw.mul ha (by omega) (by omega)).div hs (by omega) (by omega)).mono (by omega) (by omega)⟩
  rw [if_pos e2, e1]
  obtain ⟨u, hu, _⟩ := ha
  show Ext.div (Ext.mul _ _) _ = _
  rw [← Ext.div_neg_left, ← hb'.neg_mul hu, Ext.neg_neg']

end

end Cmaes
