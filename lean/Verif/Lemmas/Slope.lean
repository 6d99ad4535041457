import Verif.Lemmas.Moments
import Mathlib.Probability.ProductMeasure

/-!
# Selection along a direction and the expected length of the path

Vectors are ranked by their component in a direction. The weighted sum of the ranked vectors is, on
average, longer than that of vectors that are not ranked.
-/

set_option linter.unusedSectionVars false

namespace Cmaes
open MeasureTheory ProbabilityTheory Matrix WithLp
variable {n k : Nat}

/-! ### Convex functions with a symmetry -/

theorem convex_symm_le {f : ℝ → ℝ} (hf : ConvexOn ℝ Set.univ f) {c : ℝ}
    (hs : ∀ t, f (c + t) = f (c - t)) {x y : ℝ} (h : |x - c| ≤ |y - c|) : f x ≤ f y := by
  have e : f (2 * c - y) = f y := by
    have := hs (c - y)
    rw [show c + (c - y) = 2 * c - y by ring, show c - (c - y) = y by ring] at this
    exact this
  have hm : f x ≤ max (f y) (f (2 * c - y)) := by
    apply hf.le_max_of_mem_segment (Set.mem_univ _) (Set.mem_univ _)
    rw [segment_eq_uIcc, Set.mem_uIcc]
    rcases le_total y c with hy | hy
    · rw [abs_of_nonpos (by linarith : y - c ≤ 0), abs_le] at h
      exact .inl ⟨by linarith, by linarith⟩
    · rw [abs_of_nonneg (by linarith : 0 ≤ y - c), abs_le] at h
      exact .inr ⟨by linarith, by linarith⟩
  rwa [e, max_self] at hm

/-- The sum over an orbit of the reflections of the mean and of the deviations from it. -/
noncomputable def orbit (f : ℝ → ℝ) (m d : ℝ) : ℝ :=
  f (m + d) + f (m - d) + (f (-m + d) + f (-m - d))

theorem convex_comp_affine {f : ℝ → ℝ} (hf : ConvexOn ℝ Set.univ f) (a s : ℝ) :
    ConvexOn ℝ Set.univ fun t => f (a + s * t) := by
  refine ⟨convex_univ, fun x _ y _ p q hp hq hpq => ?_⟩
  have := hf.2 (Set.mem_univ (a + s * x)) (Set.mem_univ (a + s * y)) hp hq hpq
  refine le_trans (le_of_eq ?_) this
  show f _ = f _
  congr 1
  simp only [smul_eq_mul]
  linear_combination (-a) * hpq

theorem orbit_convex {f : ℝ → ℝ} (hf : ConvexOn ℝ Set.univ f) (m : ℝ) :
    ConvexOn ℝ Set.univ (orbit f m) := by
  have h1 := convex_comp_affine hf m 1
  have h2 := convex_comp_affine hf m (-1)
  have h3 := convex_comp_affine hf (-m) 1
  have h4 := convex_comp_affine hf (-m) (-1)
  refine ((h1.add h2).add (h3.add h4)).congr fun t _ => ?_
  simp only [orbit, Pi.add_apply, one_mul, neg_mul, sub_eq_add_neg]

theorem orbit_neg (f : ℝ → ℝ) (m d : ℝ) : orbit f m (-d) = orbit f m d := by
  unfold orbit
  rw [sub_neg_eq_add, sub_neg_eq_add, ← sub_eq_add_neg, ← sub_eq_add_neg]
  ring

theorem orbit_mono {f : ℝ → ℝ} (hf : ConvexOn ℝ Set.univ f) (m : ℝ) {x y : ℝ} (h : |x| ≤ |y|) :
    orbit f m x ≤ orbit f m y :=
  convex_symm_le (orbit_convex hf m) (c := 0)
    (fun t => by rw [zero_add, zero_sub, orbit_neg]) (by simpa using h)

/-- A function that is symmetric about a point `c ≥ 0` is larger on the negative side. -/
theorem half_orbit {f : ℝ → ℝ} (hf : ConvexOn ℝ Set.univ f) {c : ℝ} (hc : 0 ≤ c)
    (hs : ∀ t, f (c + t) = f (c - t)) (m : ℝ) {t : ℝ} (ht : 0 ≤ t) :
    orbit f m t ≤ 2 * (f (m - t) + f (-m - t)) := by
  have hg : ConvexOn ℝ Set.univ fun y => f (m + y) + f (-m + y) := by
    have h1 := convex_comp_affine hf m 1
    have h3 := convex_comp_affine hf (-m) 1
    refine (h1.add h3).congr fun t _ => ?_
    simp only [Pi.add_apply, one_mul]
  have := convex_symm_le hg (c := c) (fun u => by
    have a1 := hs (m + u)
    have a2 := hs (-m + u)
    show f (m + (c + u)) + f (-m + (c + u)) = f (m + (c - u)) + f (-m + (c - u))
    rw [show m + (c + u) = c + (m + u) by ring, show -m + (c + u) = c + (-m + u) by ring, a1, a2,
      show c - (m + u) = -m + (c - u) by ring, show c - (-m + u) = m + (c - u) by ring]
    ring) (x := t) (y := -t) (by
      rw [abs_of_nonpos (by linarith : -t - c ≤ 0)]
      exact abs_le.mpr ⟨by linarith, by linarith⟩)
  simp only [← sub_eq_add_neg] at this
  unfold orbit
  linarith

/-- Deviations that lie between `-a` and `b` and average to zero. -/
theorem orbit_sum_le {ι : Type} [Fintype ι] {f : ℝ → ℝ} (hf : ConvexOn ℝ Set.univ f) {c : ℝ}
    (hc : 0 ≤ c) (hs : ∀ t, f (c + t) = f (c - t)) (m : ℝ) {a b : ℝ} {d : ι → ℝ} (ha : 0 ≤ a)
    (hb : 0 ≤ b) (hd : ∀ i, -a ≤ d i ∧ d i ≤ b) (h0 : ∑ i, d i = 0) :
    ∑ i, orbit f m (d i) ≤
      Fintype.card ι * ((f (m - a) + f (-m - a)) + (f (m - b) + f (-m - b))) := by
  have g1 := half_orbit hf hc hs m ha
  have g2 := half_orbit hf hc hs m hb
  have key : ∑ i, orbit f m (d i) ≤ Fintype.card ι * ((orbit f m a + orbit f m b) / 2) := by
    rcases (add_nonneg ha hb).eq_or_lt with hab | hab
    · have ea : a = 0 := by linarith
      have eb : b = 0 := by linarith
      subst ea eb
      have : ∀ i, d i = 0 := fun i => le_antisymm (hd i).2 (by simpa using (hd i).1)
      simp_rw [this]
      rw [Finset.sum_const, Finset.card_univ, nsmul_eq_mul]
      linarith
    · have hch : ∀ i, (a + b) * orbit f m (d i) ≤ (b - d i) * orbit f m a + (d i + a) * orbit f m b := by
        intro i
        have p1 : 0 ≤ (b - d i) / (a + b) := div_nonneg (by linarith [(hd i).2]) hab.le
        have p2 : 0 ≤ (d i + a) / (a + b) := div_nonneg (by linarith [(hd i).1]) hab.le
        have := (orbit_convex hf m).2 (Set.mem_univ (-a)) (Set.mem_univ b) p1 p2
          (by field_simp; ring)
        have e : ((b - d i) / (a + b)) • (-a) + ((d i + a) / (a + b)) • b = d i := by
          simp only [smul_eq_mul]; field_simp; ring
        rw [e, orbit_neg, smul_eq_mul, smul_eq_mul] at this
        calc (a + b) * orbit f m (d i) ≤ (a + b) * _ := mul_le_mul_of_nonneg_left this hab.le
          _ = _ := by field_simp
      have hsum := Finset.sum_le_sum fun i (_ : i ∈ Finset.univ) => hch i
      rw [← Finset.mul_sum, Finset.sum_add_distrib, ← Finset.sum_mul, ← Finset.sum_mul,
        Finset.sum_sub_distrib, Finset.sum_add_distrib, h0, Finset.sum_const, Finset.sum_const,
        Finset.card_univ, nsmul_eq_mul, nsmul_eq_mul] at hsum
      have hmix : b * orbit f m a + a * orbit f m b ≤ (a + b) * ((orbit f m a + orbit f m b) / 2) := by
        rcases le_total a b with h | h
        · have := orbit_mono hf m (x := a) (y := b) (by rwa [abs_of_nonneg ha, abs_of_nonneg hb])
          nlinarith
        · have := orbit_mono hf m (x := b) (y := a) (by rwa [abs_of_nonneg ha, abs_of_nonneg hb])
          nlinarith
      have hN : (0 : ℝ) ≤ Fintype.card ι := by positivity
      have := mul_le_mul_of_nonneg_left hmix hN
      refine le_of_mul_le_mul_left ?_ hab
      calc (a + b) * ∑ i, orbit f m (d i) ≤ _ := hsum
        _ = Fintype.card ι * (b * orbit f m a + a * orbit f m b) := by ring
        _ ≤ _ := this
        _ = _ := by ring
  refine key.trans ?_
  gcongr
  linarith

/-! ### Lengths along a line -/

theorem len_add_le (x y : Fin n → ℝ) : len (x + y) ≤ len x + len y := by
  simp_rw [len_eq_norm, toLp_add]
  exact norm_add_le _ _

theorem len_smul (a : ℝ) (x : Fin n → ℝ) : len (a • x) = |a| * len x := by
  simp_rw [len_eq_norm, toLp_smul]
  rw [norm_smul, Real.norm_eq_abs]

theorem len_line_convex (u e : Fin n → ℝ) : ConvexOn ℝ Set.univ fun t : ℝ => len (u + t • e) := by
  refine ⟨convex_univ, fun x _ y _ p q hp hq hpq => ?_⟩
  have e1 : u + (p • x + q • y) • e = p • (u + x • e) + q • (u + y • e) := by
    rw [smul_add, smul_add, add_smul]
    have : u = p • u + q • u := by rw [← add_smul, hpq, one_smul]
    nth_rewrite 1 [this]
    simp only [smul_smul, smul_eq_mul]
    abel
  show len (u + (p • x + q • y) • e) ≤ p • len (u + x • e) + q • len (u + y • e)
  rw [e1]
  refine (len_add_le _ _).trans (le_of_eq ?_)
  rw [len_smul, len_smul, abs_of_nonneg hp, abs_of_nonneg hq, smul_eq_mul, smul_eq_mul]

theorem len_line_symm {u e : Fin n → ℝ} (he : e ⬝ᵥ e ≠ 0) (t : ℝ) :
    len (u + (-(u ⬝ᵥ e) / (e ⬝ᵥ e) + t) • e) = len (u + (-(u ⬝ᵥ e) / (e ⬝ᵥ e) - t) • e) := by
  unfold len
  congr 1
  simp only [add_dotProduct, dotProduct_add, smul_dotProduct, dotProduct_smul, smul_eq_mul,
    dotProduct_comm e u]
  field_simp
  ring

/-! ### Isometries preserve the normal distribution -/

/-- The square length of several vectors. -/
noncomputable def total (z : Fin k → Fin n → ℝ) : ℝ := ∑ j, z j ⬝ᵥ z j

theorem isometry_preserving {L : (Fin k → Fin n → ℝ) →ₗ[ℝ] (Fin k → Fin n → ℝ)}
    (hL : ∀ z, total (L z) = total z) :
    MeasurePreserving L (standardNormal k n) (standardNormal k n) := by
  have hc : Continuous L := L.continuous_of_finiteDimensional
  refine ⟨hc.measurable, ?_⟩
  -- the vectors as one vector
  let J : (Fin k → Fin n → ℝ) → EuclideanSpace ℝ (Fin k × Fin n) := fun z => toLp 2 fun p => z p.1 p.2
  let J' : EuclideanSpace ℝ (Fin k × Fin n) → (Fin k → Fin n → ℝ) := fun x j l => x (j, l)
  have mJ : Measurable J := by
    refine (by fun_prop : Measurable (toLp 2 : (Fin k × Fin n → ℝ) → EuclideanSpace ℝ (Fin k × Fin n))).comp ?_
    exact measurable_pi_lambda _ fun p => (measurable_pi_apply p.2).comp (measurable_pi_apply p.1)
  have mJ' : Measurable J' := by
    refine measurable_pi_lambda _ fun j => measurable_pi_lambda _ fun l => ?_
    fun_prop
  have hJ : (standardNormal k n).map J = stdGaussian (EuclideanSpace ℝ (Fin k × Fin n)) := by
    have h1 := Measure.infinitePi_map_curry_symm (ι := Fin k) (κ := Fin n)
      (fun _ _ => gaussianReal 0 1)
    simp only [Measure.infinitePi_eq_pi] at h1
    rw [← map_pi_eq_stdGaussian, ← h1, Measure.map_map (by fun_prop) (MeasurableEquiv.measurable _)]
    rfl
  have hJJ : ∀ z, J' (J z) = z := fun z => rfl
  let f0 : EuclideanSpace ℝ (Fin k × Fin n) →ₗ[ℝ] EuclideanSpace ℝ (Fin k × Fin n) :=
    { toFun := fun x => J (L (J' x))
      map_add' := fun x y => by
        have : J' (x + y) = J' x + J' y := rfl
        rw [this, map_add]; rfl
      map_smul' := fun a x => by
        have : J' (a • x) = a • J' x := rfl
        rw [this, map_smul]; rfl }
  have hnorm : ∀ x : EuclideanSpace ℝ (Fin k × Fin n), ‖x‖ ^ 2 = total (J' x) := fun x => by
    rw [EuclideanSpace.real_norm_sq_eq, total, Fintype.sum_prod_type]
    simp only [dotProduct, J', sq]
  let f1 : EuclideanSpace ℝ (Fin k × Fin n) →ₗᵢ[ℝ] EuclideanSpace ℝ (Fin k × Fin n) := ⟨f0, fun x => by
    have h1 := hnorm (f0 x)
    have h2 := hnorm x
    have h3 : J' (f0 x) = L (J' x) := rfl
    rw [h3, hL, ← h2] at h1
    exact (sq_eq_sq₀ (norm_nonneg _) (norm_nonneg _)).mp h1⟩
  let f : EuclideanSpace ℝ (Fin k × Fin n) ≃ₗᵢ[ℝ] EuclideanSpace ℝ (Fin k × Fin n) := f1.toLinearIsometryEquiv rfl
  have hf := stdGaussian_map f
  have e : (L : (Fin k → Fin n → ℝ) → _) = J' ∘ f ∘ J := by
    funext z
    show L z = J' (J (L (J' (J z))))
    rw [hJJ, hJJ]
  have mf : Measurable f := f.continuous.measurable
  rw [e, ← Measure.map_map mJ' (mf.comp mJ), ← Measure.map_map mf mJ, hJ, hf, ← hJ,
    Measure.map_map mJ' mJ]
  exact Measure.map_id

/-! ### Exchanging components -/

/-- The average of the components in the direction `e`. -/
noncomputable def avg (e : Fin n → ℝ) (z : Fin k → Fin n → ℝ) : ℝ := (∑ j, e ⬝ᵥ z j) / k

/-- Reflects the average of the components in the direction `e` if `s = -1`, and their deviations
from it if `s' = -1`; exchanges the components according to `π`, and what is perpendicular to `e`
according to `ρ`. -/
noncomputable def mix (e : Fin n → ℝ) (s s' : ℝ) (π ρ : Equiv.Perm (Fin k))
    (z : Fin k → Fin n → ℝ) : Fin k → Fin n → ℝ := fun j =>
  (s * avg e z + s' * (e ⬝ᵥ z (π j) - avg e z)) • e + (z (ρ j) - (e ⬝ᵥ z (ρ j)) • e)

variable {e : Fin n → ℝ} {s s' : ℝ} {π ρ : Equiv.Perm (Fin k)}

theorem mix_comp (he : e ⬝ᵥ e = 1) (z : Fin k → Fin n → ℝ) (j : Fin k) :
    e ⬝ᵥ mix e s s' π ρ z j = s * avg e z + s' * (e ⬝ᵥ z (π j) - avg e z) := by
  unfold mix
  rw [dotProduct_add, dotProduct_sub, dotProduct_smul, dotProduct_smul, he]
  simp

theorem sum_dev (z : Fin k → Fin n → ℝ) : ∑ j, (e ⬝ᵥ z j - avg e z) = 0 := by
  rw [Finset.sum_sub_distrib, Finset.sum_const, Finset.card_univ, Fintype.card_fin, nsmul_eq_mul]
  unfold avg
  rcases Nat.eq_zero_or_pos k with rfl | hk
  · simp
  · have : (k : ℝ) ≠ 0 := by positivity
    field_simp
    ring

theorem sum_comp_sq (z : Fin k → Fin n → ℝ) :
    ∑ j, (e ⬝ᵥ z j) ^ 2 = k * avg e z ^ 2 + ∑ j, (e ⬝ᵥ z j - avg e z) ^ 2 := by
  have h0 := sum_dev (e := e) z
  have : ∀ j, (e ⬝ᵥ z j) ^ 2 =
      avg e z ^ 2 + 2 * avg e z * (e ⬝ᵥ z j - avg e z) + (e ⬝ᵥ z j - avg e z) ^ 2 := fun j => by ring
  simp_rw [this]
  rw [Finset.sum_add_distrib, Finset.sum_add_distrib, ← Finset.mul_sum, h0, Finset.sum_const,
    Finset.card_univ, Fintype.card_fin, nsmul_eq_mul]
  ring

theorem mix_total (he : e ⬝ᵥ e = 1) (hs : s ^ 2 = 1) (hs' : s' ^ 2 = 1) (z : Fin k → Fin n → ℝ) :
    total (mix e s s' π ρ z) = total z := by
  unfold total
  have h1 : ∀ j, mix e s s' π ρ z j ⬝ᵥ mix e s s' π ρ z j =
      (s * avg e z + s' * (e ⬝ᵥ z (π j) - avg e z)) ^ 2 +
        (z (ρ j) ⬝ᵥ z (ρ j) - (e ⬝ᵥ z (ρ j)) ^ 2) := by
    intro j
    unfold mix
    simp only [add_dotProduct, dotProduct_add, sub_dotProduct, dotProduct_sub, smul_dotProduct,
      dotProduct_smul, smul_eq_mul, he, dotProduct_comm (z (ρ j)) e]
    ring
  simp_rw [h1]
  rw [Finset.sum_add_distrib, Equiv.sum_comp ρ fun j => z j ⬝ᵥ z j - (e ⬝ᵥ z j) ^ 2,
    Equiv.sum_comp π fun j => (s * avg e z + s' * (e ⬝ᵥ z j - avg e z)) ^ 2, Finset.sum_sub_distrib,
    sum_comp_sq]
  have h2 : ∀ j, (s * avg e z + s' * (e ⬝ᵥ z j - avg e z)) ^ 2 =
      avg e z ^ 2 + 2 * s * s' * avg e z * (e ⬝ᵥ z j - avg e z) + (e ⬝ᵥ z j - avg e z) ^ 2 := by
    intro j
    linear_combination avg e z ^ 2 * hs + (e ⬝ᵥ z j - avg e z) ^ 2 * hs'
  simp_rw [h2]
  rw [Finset.sum_add_distrib, Finset.sum_add_distrib, ← Finset.mul_sum, sum_dev, Finset.sum_const,
    Finset.card_univ, Fintype.card_fin, nsmul_eq_mul]
  ring

theorem avg_add (z y : Fin k → Fin n → ℝ) : avg e (z + y) = avg e z + avg e y := by
  unfold avg
  simp only [Pi.add_apply, dotProduct_add]
  rw [Finset.sum_add_distrib, add_div]

theorem avg_smul (a : ℝ) (z : Fin k → Fin n → ℝ) : avg e (a • z) = a * avg e z := by
  unfold avg
  simp only [Pi.smul_apply, dotProduct_smul, smul_eq_mul]
  rw [← Finset.mul_sum, mul_div_assoc]

theorem mix_preserving (he : e ⬝ᵥ e = 1) (hs : s ^ 2 = 1) (hs' : s' ^ 2 = 1) :
    MeasurePreserving (mix e s s' π ρ) (standardNormal k n) (standardNormal k n) := by
  let L : (Fin k → Fin n → ℝ) →ₗ[ℝ] (Fin k → Fin n → ℝ) :=
    { toFun := mix e s s' π ρ
      map_add' := fun z y => by
        funext j l
        simp only [mix, avg_add, Pi.add_apply, Pi.smul_apply, Pi.sub_apply, dotProduct_add,
          smul_eq_mul]
        ring
      map_smul' := fun a z => by
        funext j l
        simp only [mix, avg_smul, Pi.add_apply, Pi.smul_apply, Pi.sub_apply, dotProduct_smul,
          smul_eq_mul, RingHom.id_apply]
        ring }
  exact isometry_preserving (L := L) fun z => mix_total he hs hs' z

/-! ### Ranked vectors -/

/-- The length of `v` plus `K` times the weighted sum of the vectors. -/
noncomputable def plainLen (W : Fin k → ℝ) (v : Fin n → ℝ) (K : ℝ) (z : Fin k → Fin n → ℝ) : ℝ :=
  len (v + K • ∑ i, W i • z i)

/-- The same if the vectors are ranked by their components in the direction `e`. -/
noncomputable def rankedLen (W : Fin k → ℝ) (v : Fin n → ℝ) (K : ℝ) (e : Fin n → ℝ)
    (z : Fin k → Fin n → ℝ) : ℝ :=
  len (v + K • ∑ i, W i • z (Tuple.sort (fun j => e ⬝ᵥ z j) i))

/-- The part perpendicular to `e` and `v`. -/
noncomputable def rest (W : Fin k → ℝ) (v : Fin n → ℝ) (K : ℝ) (e : Fin n → ℝ)
    (ρ : Equiv.Perm (Fin k)) (z : Fin k → Fin n → ℝ) : Fin n → ℝ :=
  v + K • ∑ i, W i • (z (ρ i) - (e ⬝ᵥ z (ρ i)) • e)

/-- The weighted sum of the deviations. -/
noncomputable def dev (W : Fin k → ℝ) (e : Fin n → ℝ) (z : Fin k → Fin n → ℝ)
    (π : Equiv.Perm (Fin k)) : ℝ := ∑ i, W i * (e ⬝ᵥ z (π i) - avg e z)

variable {W : Fin k → ℝ} {v : Fin n → ℝ} {K : ℝ}

theorem rest_dot (he : e ⬝ᵥ e = 1) (z : Fin k → Fin n → ℝ) : rest W v K e ρ z ⬝ᵥ (K • e) = K * (v ⬝ᵥ e) := by
  unfold rest
  rw [add_dotProduct, dotProduct_smul, dotProduct_smul, smul_dotProduct, sum_dotProduct,
    Finset.sum_eq_zero fun i _ => ?_]
  · simp
  · rw [smul_dotProduct, sub_dotProduct, smul_dotProduct, he, dotProduct_comm e]
    simp

theorem sum_mix (σ : Equiv.Perm (Fin k)) (z : Fin k → Fin n → ℝ) :
    v + K • ∑ i, W i • mix e s s' π ρ z (σ i) = rest W v K e (σ.trans ρ) z +
      (∑ i, W i * (s * avg e z + s' * (e ⬝ᵥ z (π (σ i)) - avg e z))) • (K • e) := by
  unfold rest mix
  simp only [smul_add]
  rw [Finset.sum_add_distrib, smul_add, Finset.sum_smul, Finset.smul_sum, Finset.smul_sum,
    Finset.smul_sum]
  simp only [Equiv.trans_apply, smul_smul]
  rw [add_assoc]
  congr 1
  rw [add_comm]
  congr 1
  refine Finset.sum_congr rfl fun i _ => ?_
  congr 1
  ring

theorem plain_mix (hW : ∑ i, W i = 1) (z : Fin k → Fin n → ℝ) :
    plainLen W v K (mix e s s' π ρ z) =
      len (rest W v K e ρ z + (s * avg e z + s' * dev W e z π) • (K • e)) := by
  unfold plainLen
  have := sum_mix (W := W) (v := v) (K := K) (e := e) (s := s) (s' := s') (π := π) (ρ := ρ)
    (Equiv.refl _) z
  simp only [Equiv.refl_apply, Equiv.refl_trans] at this
  rw [this]
  congr 3
  simp_rw [mul_add, Finset.sum_add_distrib, ← Finset.sum_mul, hW, one_mul]
  congr 1
  unfold dev
  rw [Finset.mul_sum]
  exact Finset.sum_congr rfl fun i _ => by ring

theorem ranked_mix (he : e ⬝ᵥ e = 1) (hanti : Antitone W) (z : Fin k → Fin n → ℝ) :
    ∃ τ : Equiv.Perm (Fin k), ∀ ρ, rankedLen W v K e (mix e s s' 1 ρ z) =
      len (rest W v K e (τ.trans ρ) z +
        bestOrder W (fun j => s * avg e z + s' * (e ⬝ᵥ z j - avg e z)) • (K • e)) := by
  refine ⟨Tuple.sort fun j => s * avg e z + s' * (e ⬝ᵥ z j - avg e z), fun ρ => ?_⟩
  unfold rankedLen
  have e1 : (fun j => e ⬝ᵥ mix e s s' 1 ρ z j) =
      fun j => s * avg e z + s' * (e ⬝ᵥ z j - avg e z) := funext fun j => mix_comp he z j
  rw [e1, sum_mix, bestOrder_sort hanti]
  rfl

/-! ### All exchanges together -/

theorem sum_perm_apply (x : Fin k → ℝ) (hx : ∑ j, x j = 0) (i : Fin k) :
    ∑ π : Equiv.Perm (Fin k), x (π i) = 0 := by
  -- the sum does not depend on `i`
  have hind : ∀ j, ∑ π : Equiv.Perm (Fin k), x (π j) = ∑ π : Equiv.Perm (Fin k), x (π i) := by
    intro j
    rw [← Equiv.sum_comp (Equiv.mulRight (Equiv.swap i j))
      fun π : Equiv.Perm (Fin k) => x (π i)]
    refine Finset.sum_congr rfl fun π _ => ?_
    simp
  have h1 : ∑ j, ∑ π : Equiv.Perm (Fin k), x (π j) = 0 := by
    rw [Finset.sum_comm]
    refine Finset.sum_eq_zero fun π _ => ?_
    rw [Equiv.sum_comp π x, hx]
  simp_rw [hind] at h1
  rw [Finset.sum_const, Finset.card_univ, Fintype.card_fin, nsmul_eq_mul, mul_eq_zero] at h1
  rcases h1 with h | h
  · have : k = 0 := by exact_mod_cast h
    exact absurd i.2 (by omega)
  · exact h

theorem sum_dev_perm (z : Fin k → Fin n → ℝ) : ∑ π : Equiv.Perm (Fin k), dev W e z π = 0 := by
  unfold dev
  rw [Finset.sum_comm]
  refine Finset.sum_eq_zero fun i _ => ?_
  rw [← Finset.mul_sum, sum_perm_apply (fun j => e ⬝ᵥ z j - avg e z) (sum_dev z), mul_zero]

/-- The smallest weighted sum of the deviations, with the opposite sign. -/
noncomputable def reach (W : Fin k → ℝ) (e : Fin n → ℝ) (s' : ℝ) (z : Fin k → Fin n → ℝ) : ℝ :=
  -bestOrder W fun j => s' * (e ⬝ᵥ z j - avg e z)

theorem reach_le (z : Fin k → Fin n → ℝ) (π : Equiv.Perm (Fin k)) :
    -reach W e s' z ≤ s' * dev W e z π := by
  unfold reach dev
  rw [neg_neg, Finset.mul_sum]
  refine (bestOrder_le W _ π).trans (le_of_eq (Finset.sum_congr rfl fun i _ => by ring))

theorem reach_nonneg (z : Fin k → Fin n → ℝ) : 0 ≤ reach W e s' z := by
  by_contra h
  have h1 : 0 < ∑ π : Equiv.Perm (Fin k), s' * dev W e z π :=
    Finset.sum_pos (fun π _ => lt_of_lt_of_le (by linarith) (reach_le z π)) Finset.univ_nonempty
  rw [← Finset.mul_sum, sum_dev_perm, mul_zero] at h1
  exact lt_irrefl _ h1

/-- The sum of a function of the vectors over the reflections. -/
noncomputable def mirrored (G : (Fin k → Fin n → ℝ) → ℝ) (e : Fin n → ℝ) (π ρ : Equiv.Perm (Fin k))
    (z : Fin k → Fin n → ℝ) : ℝ :=
  G (mix e 1 1 π ρ z) + G (mix e 1 (-1) π ρ z) + (G (mix e (-1) 1 π ρ z) + G (mix e (-1) (-1) π ρ z))

theorem mirrored_plain (hW : ∑ i, W i = 1) (z : Fin k → Fin n → ℝ) :
    mirrored (plainLen W v K) e π ρ z =
      orbit (fun t => len (rest W v K e ρ z + t • (K • e))) (avg e z) (dev W e z π) := by
  unfold mirrored orbit
  simp only [plain_mix hW, one_mul, neg_one_mul, ← sub_eq_add_neg]

theorem mirrored_ranked (he : e ⬝ᵥ e = 1) (hW : ∑ i, W i = 1) (hanti : Antitone W)
    (z : Fin k → Fin n → ℝ) :
    ∑ ρ, mirrored (rankedLen W v K e) e 1 ρ z = ∑ ρ,
      ((fun t => len (rest W v K e ρ z + t • (K • e))) (avg e z - reach W e 1 z) +
        (fun t => len (rest W v K e ρ z + t • (K • e))) (-avg e z - reach W e 1 z) +
      ((fun t => len (rest W v K e ρ z + t • (K • e))) (avg e z - reach W e (-1) z) +
        (fun t => len (rest W v K e ρ z + t • (K • e))) (-avg e z - reach W e (-1) z))) := by
  have key : ∀ s s' : ℝ, ∑ ρ, rankedLen W v K e (mix e s s' 1 ρ z) =
      ∑ ρ, len (rest W v K e ρ z + (s * avg e z - reach W e s' z) • (K • e)) := by
    intro s s'
    obtain ⟨τ, hτ⟩ := ranked_mix (W := W) (v := v) (K := K) (s := s) (s' := s') he hanti z
    simp_rw [hτ]
    have e1 : bestOrder W (fun j => s * avg e z + s' * (e ⬝ᵥ z j - avg e z)) =
        s * avg e z - reach W e s' z := by
      have := bestOrder_add hW (s * avg e z) 1 zero_le_one fun j => s' * (e ⬝ᵥ z j - avg e z)
      simp only [one_mul] at this
      rw [this, reach]
      ring
    rw [e1]
    exact Equiv.sum_comp (Equiv.mulRight τ) fun ρ : Equiv.Perm (Fin k) =>
      len (rest W v K e ρ z + (s * avg e z - reach W e s' z) • (K • e))
  unfold mirrored
  simp only [Finset.sum_add_distrib, key, one_mul, neg_one_mul]
  ring

theorem line_symm (he : e ⬝ᵥ e = 1) (hv : v ⬝ᵥ e ≤ 0) (hK : 0 < K) (ρ : Equiv.Perm (Fin k))
    (z : Fin k → Fin n → ℝ) : ∃ c : ℝ, 0 ≤ c ∧ ∀ t : ℝ,
      len (rest W v K e ρ z + (c + t) • (K • e)) = len (rest W v K e ρ z + (c - t) • (K • e)) := by
  have hkk : (K • e) ⬝ᵥ (K • e) = K * K := by
    rw [smul_dotProduct, dotProduct_smul, he, smul_eq_mul, smul_eq_mul, mul_one]
  refine ⟨_, ?_, fun t => len_line_symm (u := rest W v K e ρ z) (e := K • e) ?_ t⟩
  · rw [hkk, rest_dot he]
    refine div_nonneg ?_ (by positivity)
    nlinarith
  · rw [hkk]; positivity

/-- **The exchanges.** Summed over all exchanges the ranked sum is at least as long. -/
theorem exchange_le (he : e ⬝ᵥ e = 1) (hv : v ⬝ᵥ e ≤ 0) (hK : 0 < K) (hW : ∑ i, W i = 1)
    (hanti : Antitone W) (z : Fin k → Fin n → ℝ) :
    ∑ ρ, ∑ π, mirrored (plainLen W v K) e π ρ z ≤
      Fintype.card (Equiv.Perm (Fin k)) * ∑ ρ, mirrored (rankedLen W v K e) e 1 ρ z := by
  rw [mirrored_ranked he hW hanti, Finset.mul_sum]
  refine Finset.sum_le_sum fun ρ _ => ?_
  simp_rw [mirrored_plain hW]
  obtain ⟨c, hc, hs⟩ := line_symm (W := W) he hv hK ρ z
  refine orbit_sum_le (len_line_convex _ _) hc hs _ (reach_nonneg z) (reach_nonneg z)
    (fun π => ⟨?_, ?_⟩) (sum_dev_perm z)
  · simpa using reach_le (W := W) (e := e) (s' := 1) z π
  · have := reach_le (W := W) (e := e) (s' := -1) z π
    linarith

/-- Vectors for which the ranked sum is longer. -/
theorem exchange_lt (he : e ⬝ᵥ e = 1) (hv : v ⬝ᵥ e ≤ 0) (hK : 0 < K) (hW : ∑ i, W i = 1)
    (hanti : Antitone W) {p q r : Fin k} (hpr : p ≠ r) (hqr : q ≠ r) (hpq : W p < W q)
    (hr : W r = W p) : ∃ z : Fin k → Fin n → ℝ,
      ∑ ρ, ∑ π, mirrored (plainLen W v K) e π ρ z <
        Fintype.card (Equiv.Perm (Fin k)) * ∑ ρ, mirrored (rankedLen W v K e) e 1 ρ z := by
  have hne : p ≠ q := by rintro rfl; exact lt_irrefl _ hpq
  set R : ℝ := (len v / K + 1) / (W q - W p) with hRdef
  have hgap : 0 < W q - W p := by linarith
  have hlv := len_nonneg v
  have hR : 0 < R := by positivity
  have hRK : len v < R * (W q - W p) * K := by
    have : R * (W q - W p) * K = len v + K := by rw [hRdef]; field_simp
    linarith
  set x : Fin k → ℝ := fun j => (if j = p then R else 0) - (if j = q then R else 0) with hx
  set z : Fin k → Fin n → ℝ := fun j => x j • e with hz
  have hcomp : ∀ j, e ⬝ᵥ z j = x j := fun j => by
    rw [hz]; simp only; rw [dotProduct_smul, he, smul_eq_mul, mul_one]
  have havg : avg e z = 0 := by
    unfold avg
    simp only [hcomp, hx]
    rw [Finset.sum_sub_distrib]
    simp
  have hdev : ∀ π, dev W e z π = R * (W (π.symm p) - W (π.symm q)) := by
    intro π
    unfold dev
    simp only [hcomp, havg, sub_zero]
    have : ∑ i, W i * x (π i) = ∑ j, W (π.symm j) * x j := by
      rw [← Equiv.sum_comp π fun j => W (π.symm j) * x j]
      simp
    rw [this, hx]
    simp only [mul_sub, mul_ite, mul_zero]
    rw [Finset.sum_sub_distrib]
    simp
    ring
  have hswap : ∀ π : Equiv.Perm (Fin k), dev W e z (π.trans (Equiv.swap p q)) = -dev W e z π := by
    intro π
    rw [hdev, hdev]
    simp only [Equiv.symm_trans_apply, Equiv.symm_swap, Equiv.swap_apply_left,
      Equiv.swap_apply_right]
    ring
  have hle : ∀ s' : ℝ, (s' = 1 ∨ s' = -1) → ∀ π, |dev W e z π| ≤ reach W e s' z := by
    intro s' hs' π
    have h1 := reach_le (W := W) (e := e) (s' := s') z π
    have h2 := reach_le (W := W) (e := e) (s' := s') z (π.trans (Equiv.swap p q))
    rw [hswap] at h2
    rw [abs_le]
    rcases hs' with rfl | rfl
    · constructor <;> linarith
    · constructor <;> linarith
  have hbig : ∀ s' : ℝ, (s' = 1 ∨ s' = -1) → R * (W q - W p) ≤ reach W e s' z := by
    intro s' hs'
    have := hle s' hs' (Equiv.refl _)
    rw [hdev] at this
    simp only [Equiv.refl_symm, Equiv.refl_apply] at this
    have h2 := neg_abs_le (R * (W p - W q))
    linarith
  have hrest : ∀ ρ, rest W v K e ρ z = v := by
    intro ρ
    unfold rest
    simp only [hcomp]
    simp [hz]
  refine ⟨z, ?_⟩
  rw [mirrored_ranked he hW hanti, Finset.mul_sum]
  refine Finset.sum_lt_sum_of_nonempty Finset.univ_nonempty fun ρ _ => ?_
  simp_rw [mirrored_plain hW]
  obtain ⟨c, hc, hs⟩ := line_symm (W := W) he hv hK ρ z
  rw [hrest, havg] at *
  set f : ℝ → ℝ := fun t => len (v + t • (K • e)) with hf
  have hconv : ConvexOn ℝ Set.univ f := len_line_convex _ _
  have hhalf : ∀ s' : ℝ, (s' = 1 ∨ s' = -1) → ∀ π, orbit f 0 (dev W e z π) ≤
      2 * (f (0 - reach W e s' z) + f (-0 - reach W e s' z)) := fun s' hs' π =>
    (orbit_mono hconv 0 (by rw [abs_of_nonneg (reach_nonneg z)]; exact hle s' hs' π)).trans
      (half_orbit hconv hc hs 0 (reach_nonneg z))
  have hstrict : ∀ s' : ℝ, (s' = 1 ∨ s' = -1) → orbit f 0 (dev W e z (Equiv.swap q r)) <
      2 * (f (0 - reach W e s' z) + f (-0 - reach W e s' z)) := by
    intro s' hs'
    refine lt_of_lt_of_le ?_ (half_orbit hconv hc hs 0 (reach_nonneg z))
    have h0 : dev W e z (Equiv.swap q r) = 0 := by
      rw [hdev]
      simp only [Equiv.symm_swap, Equiv.swap_apply_left,
        Equiv.swap_apply_of_ne_of_ne hne hpr, hr, sub_self, mul_zero]
    rw [h0]
    have hb := hbig s' hs'
    set a := reach W e s' z
    have hlen1 : len (K • e) = K := by
      rw [len_smul, abs_of_pos hK]
      unfold len
      rw [he, Real.sqrt_one, mul_one]
    have h2 : 2 * a * K ≤ f a + f (-a) := by
      have e1 : (2 * a) • (K • e) = (v + a • (K • e)) + (-1 : ℝ) • (v + (-a) • (K • e)) := by
        funext i
        simp only [Pi.smul_apply, Pi.add_apply, smul_eq_mul]
        ring
      have h3 := len_add_le (v + a • (K • e)) ((-1 : ℝ) • (v + (-a) • (K • e)))
      rw [← e1, len_smul (-1), abs_neg, abs_one, one_mul, len_smul, hlen1] at h3
      have h4 := le_abs_self (2 * a)
      have h5 := mul_le_mul_of_nonneg_right h4 hK.le
      show 2 * a * K ≤ len (v + a • (K • e)) + len (v + (-a) • (K • e))
      linarith
    have hz0 : f 0 = len v := by rw [hf]; simp
    have h6 : R * (W q - W p) * K ≤ a * K := mul_le_mul_of_nonneg_right hb hK.le
    unfold orbit
    simp only [neg_zero, add_zero, sub_zero, zero_add, zero_sub, hz0]
    linarith
  have hsum : ∑ π, orbit f 0 (dev W e z π) < ∑ _π : Equiv.Perm (Fin k),
      (f (0 - reach W e 1 z) + f (-0 - reach W e 1 z) +
        (f (0 - reach W e (-1) z) + f (-0 - reach W e (-1) z))) := by
    refine Finset.sum_lt_sum (fun π _ => ?_) ⟨Equiv.swap q r, Finset.mem_univ _, ?_⟩
    · have h1 := hhalf 1 (.inl rfl) π
      have h2 := hhalf (-1) (.inr rfl) π
      linarith
    · have h1 := hstrict 1 (.inl rfl)
      have h2 := hstrict (-1) (.inr rfl)
      linarith
  rw [Finset.sum_const, Finset.card_univ, nsmul_eq_mul] at hsum
  exact hsum

/-! ### Integrals -/

theorem len_le_sum (x : Fin n → ℝ) : len x ≤ ∑ l, |x l| := by
  unfold len
  rw [Real.sqrt_le_left (Finset.sum_nonneg fun l _ => abs_nonneg _)]
  rw [sq, Finset.sum_mul]
  refine Finset.sum_le_sum fun l _ => ?_
  rw [← abs_mul_abs_self]
  exact mul_le_mul_of_nonneg_left (Finset.single_le_sum (f := fun l => |x l|)
    (fun l _ => abs_nonneg _) (Finset.mem_univ l)) (abs_nonneg _)

theorem len_continuous : Continuous fun x : Fin n → ℝ => len x := by
  unfold len
  exact Real.continuous_sqrt.comp (Continuous.dotProduct continuous_id continuous_id)

theorem len_row_integrable (j : Fin k) :
    Integrable (fun z : Fin k → Fin n → ℝ => len (z j)) (standardNormal k n) := by
  have h1 : Integrable (fun z : Fin k → Fin n → ℝ => ∑ l, |z j l|) (standardNormal k n) := by
    refine integrable_finsetSum _ fun l _ => ?_
    have := (row_integrable (n := n) (Pi.single l 1) j).1.abs
    simpa using this
  refine h1.mono' (len_continuous.comp (continuous_apply j)).aestronglyMeasurable
    (Filter.Eventually.of_forall fun z => ?_)
  rw [Real.norm_eq_abs, abs_of_nonneg (len_nonneg _)]
  exact len_le_sum _

/-- A bound for both lengths. -/
noncomputable def lenBound (W : Fin k → ℝ) (v : Fin n → ℝ) (K : ℝ) (z : Fin k → Fin n → ℝ) : ℝ :=
  len v + |K| * ((∑ i, |W i|) * ∑ j, len (z j))

theorem lenBound_integrable : Integrable (lenBound W v K) (standardNormal k n) :=
  (integrable_const _).add (((integrable_finsetSum _ fun j _ => len_row_integrable j).const_mul
    _).const_mul _)

theorem len_sum_le {ι : Type} (S : Finset ι) (f : ι → Fin n → ℝ) :
    len (∑ i ∈ S, f i) ≤ ∑ i ∈ S, len (f i) := by
  simp_rw [len_eq_norm, toLp_sum]
  exact norm_sum_le _ _

theorem le_lenBound (τ : Equiv.Perm (Fin k)) (z : Fin k → Fin n → ℝ) :
    len (v + K • ∑ i, W i • z (τ i)) ≤ lenBound W v K z := by
  refine (len_add_le _ _).trans (add_le_add le_rfl ?_)
  rw [len_smul]
  refine mul_le_mul_of_nonneg_left ?_ (abs_nonneg _)
  refine (len_sum_le _ _).trans ?_
  rw [Finset.sum_mul]
  refine Finset.sum_le_sum fun i _ => ?_
  rw [len_smul]
  refine mul_le_mul_of_nonneg_left ?_ (abs_nonneg _)
  exact Finset.single_le_sum (f := fun j => len (z j)) (fun j _ => len_nonneg _)
    (Finset.mem_univ (τ i))

theorem sumLen_continuous (τ : Equiv.Perm (Fin k)) :
    Continuous fun z : Fin k → Fin n → ℝ => len (v + K • ∑ i, W i • z (τ i)) := by
  refine len_continuous.comp (continuous_const.add (Continuous.const_smul ?_ K))
  exact continuous_finsetSum _ fun i _ => (continuous_apply (τ i)).const_smul (W i)

theorem plain_continuous : Continuous (plainLen (n := n) W v K) :=
  sumLen_continuous (Equiv.refl _)

theorem plain_integrable : Integrable (plainLen (n := n) W v K) (standardNormal k n) := by
  refine (lenBound_integrable (W := W) (v := v) (K := K)).mono' plain_continuous.aestronglyMeasurable
    (Filter.Eventually.of_forall fun z => ?_)
  rw [Real.norm_eq_abs, abs_of_nonneg (show 0 ≤ plainLen W v K z from len_nonneg _)]
  exact le_lenBound (Equiv.refl _) z

theorem comp_continuous (j : Fin k) : Continuous fun z : Fin k → Fin n → ℝ => e ⬝ᵥ z j :=
  Continuous.dotProduct continuous_const (continuous_apply j)

theorem ranked_measurable : Measurable (rankedLen (n := n) W v K e) := by
  classical
  have hsort : ∀ τ, MeasurableSet
      ((fun z : Fin k → Fin n → ℝ => Tuple.sort fun j => e ⬝ᵥ z j) ⁻¹' {τ}) := by
    intro τ
    have : (fun z : Fin k → Fin n → ℝ => Tuple.sort fun j => e ⬝ᵥ z j) ⁻¹' {τ} =
        {z | (∀ i j : Fin k, i ≤ j → e ⬝ᵥ z (τ i) ≤ e ⬝ᵥ z (τ j)) ∧
          ∀ i j : Fin k, i < j → e ⬝ᵥ z (τ i) = e ⬝ᵥ z (τ j) → τ i < τ j} := by
      ext z
      simp only [Set.mem_preimage, Set.mem_singleton_iff, Set.mem_setOf_eq]
      rw [eq_comm, Tuple.eq_sort_iff]
      rfl
    rw [this]
    rw [Set.setOf_and]
    simp only [Set.setOf_forall]
    refine MeasurableSet.inter ?_ ?_
    · refine MeasurableSet.iInter fun i => MeasurableSet.iInter fun j => MeasurableSet.iInter fun _ => ?_
      exact measurableSet_le (comp_continuous (τ i)).measurable (comp_continuous (τ j)).measurable
    · refine MeasurableSet.iInter fun i => MeasurableSet.iInter fun j => MeasurableSet.iInter fun _ => ?_
      by_cases h : τ i < τ j
      · simp [h]
      · simp only [h, imp_false]
        exact (measurableSet_eq_fun (comp_continuous (τ i)).measurable
          (comp_continuous (τ j)).measurable).compl
  intro S hS
  have : rankedLen (n := n) W v K e ⁻¹' S = ⋃ τ : Equiv.Perm (Fin k),
      ((fun z : Fin k → Fin n → ℝ => Tuple.sort fun j => e ⬝ᵥ z j) ⁻¹' {τ}) ∩
        ((fun z : Fin k → Fin n → ℝ => len (v + K • ∑ i, W i • z (τ i))) ⁻¹' S) := by
    ext z
    simp only [Set.mem_preimage, Set.mem_iUnion, Set.mem_inter_iff, Set.mem_singleton_iff]
    constructor
    · intro h
      exact ⟨_, rfl, h⟩
    · rintro ⟨τ, rfl, h⟩
      exact h
  rw [this]
  exact MeasurableSet.iUnion fun τ => (hsort τ).inter ((sumLen_continuous τ).measurable hS)

theorem ranked_integrable : Integrable (rankedLen (n := n) W v K e) (standardNormal k n) := by
  refine (lenBound_integrable (W := W) (v := v) (K := K)).mono' ranked_measurable.aestronglyMeasurable
    (Filter.Eventually.of_forall fun z => ?_)
  rw [Real.norm_eq_abs, abs_of_nonneg (show 0 ≤ rankedLen W v K e z from len_nonneg _)]
  exact le_lenBound _ z

theorem mirrored_integral (he : e ⬝ᵥ e = 1) {G : (Fin k → Fin n → ℝ) → ℝ}
    (hG : Integrable G (standardNormal k n)) :
    Integrable (mirrored G e π ρ) (standardNormal k n) ∧
      ∫ z, mirrored G e π ρ z ∂standardNormal k n = 4 * ∫ z, G z ∂standardNormal k n := by
  have key : ∀ s s' : ℝ, s ^ 2 = 1 → s' ^ 2 = 1 →
      Integrable (fun z => G (mix e s s' π ρ z)) (standardNormal k n) ∧
      ∫ z, G (mix e s s' π ρ z) ∂standardNormal k n = ∫ z, G z ∂standardNormal k n := by
    intro s s' hs hs'
    have hp := mix_preserving (π := π) (ρ := ρ) he hs hs'
    refine ⟨hp.integrable_comp_of_integrable hG, ?_⟩
    have hG' : AEStronglyMeasurable G ((standardNormal k n).map (mix e s s' π ρ)) := by
      rw [hp.map_eq]; exact hG.aestronglyMeasurable
    rw [← integral_map hp.measurable.aemeasurable hG', hp.map_eq]
  obtain ⟨a1, b1⟩ := key 1 1 (by norm_num) (by norm_num)
  obtain ⟨a2, b2⟩ := key 1 (-1) (by norm_num) (by norm_num)
  obtain ⟨a3, b3⟩ := key (-1) 1 (by norm_num) (by norm_num)
  obtain ⟨a4, b4⟩ := key (-1) (-1) (by norm_num) (by norm_num)
  refine ⟨(a1.add a2).add (a3.add a4), ?_⟩
  have h1 := integral_add (a1.add a2) (a3.add a4)
  simp only [Pi.add_apply] at h1
  unfold mirrored
  rw [h1, integral_add a1 a2, integral_add a3 a4, b1, b2, b3, b4]
  ring

theorem mirrored_continuous {G : (Fin k → Fin n → ℝ) → ℝ} (hG : Continuous G) :
    Continuous (mirrored G e π ρ) := by
  have havg : Continuous fun z : Fin k → Fin n → ℝ => avg e z :=
    (continuous_finsetSum _ fun j _ => comp_continuous j).div_const _
  have hm : ∀ s s' : ℝ, Continuous (mix e s s' π ρ) := fun s s' => by
    refine continuous_pi fun j => ?_
    have h1 : Continuous fun z : Fin k → Fin n → ℝ =>
        s * avg e z + s' * (e ⬝ᵥ z (π j) - avg e z) :=
      (continuous_const.mul havg).add (continuous_const.mul ((comp_continuous _).sub havg))
    have h2 : Continuous fun z : Fin k → Fin n → ℝ => z (ρ j) - (e ⬝ᵥ z (ρ j)) • e :=
      (continuous_apply _).sub ((comp_continuous _).smul continuous_const)
    exact (h1.smul continuous_const).add h2
  exact ((hG.comp (hm _ _)).add (hG.comp (hm _ _))).add ((hG.comp (hm _ _)).add (hG.comp (hm _ _)))

theorem mirrored_ranked_continuous (he : e ⬝ᵥ e = 1) (hW : ∑ i, W i = 1) (hanti : Antitone W) :
    Continuous fun z : Fin k → Fin n → ℝ => ∑ ρ, mirrored (rankedLen W v K e) e 1 ρ z := by
  have havg : Continuous fun z : Fin k → Fin n → ℝ => avg e z :=
    (continuous_finsetSum _ fun j _ => comp_continuous j).div_const _
  have hreach : ∀ s' : ℝ, Continuous fun z : Fin k → Fin n → ℝ => reach W e s' z := fun s' => by
    refine Continuous.neg (Continuous.finset_inf'_apply _ fun π _ => ?_)
    exact continuous_finsetSum _ fun i _ =>
      continuous_const.mul (continuous_const.mul ((comp_continuous _).sub havg))
  have hrest : ∀ ρ, Continuous fun z : Fin k → Fin n → ℝ => rest W v K e ρ z := fun ρ => by
    refine continuous_const.add (Continuous.const_smul ?_ K)
    exact continuous_finsetSum _ fun i _ => ((continuous_apply _).sub
      ((comp_continuous _).smul continuous_const)).const_smul (W i)
  have hl : ∀ ρ, ∀ t : (Fin k → Fin n → ℝ) → ℝ, Continuous t →
      Continuous fun z => len (rest W v K e ρ z + t z • (K • e)) := fun ρ t ht =>
    len_continuous.comp ((hrest ρ).add (ht.smul continuous_const))
  simp_rw [mirrored_ranked he hW hanti]
  refine continuous_finsetSum _ fun ρ _ => ?_
  exact ((hl ρ _ (havg.sub (hreach 1))).add (hl ρ _ (havg.neg.sub (hreach 1)))).add
    ((hl ρ _ (havg.sub (hreach (-1)))).add (hl ρ _ (havg.neg.sub (hreach (-1)))))

/-- **Ranking lengthens the sum.** If the vectors are ranked by their components in a direction, the
expected length of the weighted sum, added to a vector that does not point in that direction, is
not smaller than without ranking, and it is larger if the weights are not all equal but two of them
are. -/
theorem ranked_longer (he : e ⬝ᵥ e = 1) (hv : v ⬝ᵥ e ≤ 0) (hK : 0 < K) (hW : ∑ i, W i = 1)
    (hanti : Antitone W) :
    ∫ z, plainLen W v K z ∂standardNormal k n ≤ ∫ z, rankedLen W v K e z ∂standardNormal k n ∧
    ∀ p q r : Fin k, p ≠ r → q ≠ r → W p < W q → W r = W p →
      ∫ z, plainLen W v K z ∂standardNormal k n < ∫ z, rankedLen W v K e z ∂standardNormal k n := by
  set N : ℝ := ((Fintype.card (Equiv.Perm (Fin k)) : ℕ) : ℝ) with hN
  have hNpos : 0 < N := by rw [hN]; exact_mod_cast Fintype.card_pos
  set A : (Fin k → Fin n → ℝ) → ℝ := fun z => ∑ ρ, ∑ π, mirrored (plainLen W v K) e π ρ z with hA
  set B : (Fin k → Fin n → ℝ) → ℝ := fun z => N * ∑ ρ, mirrored (rankedLen W v K e) e 1 ρ z with hB
  have sp := fun π ρ => mirrored_integral (π := π) (ρ := ρ) he
    (plain_integrable (k := k) (n := n) (W := W) (v := v) (K := K))
  have sr := fun ρ => mirrored_integral (π := 1) (ρ := ρ) he
    (ranked_integrable (k := k) (n := n) (W := W) (v := v) (K := K) (e := e))
  have hAi : Integrable A (standardNormal k n) :=
    integrable_finsetSum _ fun ρ _ => integrable_finsetSum _ fun π _ => (sp π ρ).1
  have hBi : Integrable B (standardNormal k n) :=
    (integrable_finsetSum _ fun ρ _ => (sr ρ).1).const_mul _
  have hAv : ∫ z, A z ∂standardNormal k n = N * (N * (4 * ∫ z, plainLen W v K z ∂standardNormal k n)) := by
    rw [hA]
    simp only
    rw [integral_finsetSum _ fun ρ _ => integrable_finsetSum _ fun π _ => (sp π ρ).1]
    have : ∀ ρ : Equiv.Perm (Fin k), ∫ z, ∑ π, mirrored (plainLen W v K) e π ρ z ∂standardNormal k n =
        N * (4 * ∫ z, plainLen W v K z ∂standardNormal k n) := fun ρ => by
      rw [integral_finsetSum _ fun π _ => (sp π ρ).1]
      simp_rw [(sp _ ρ).2]
      rw [Finset.sum_const, Finset.card_univ, nsmul_eq_mul]
    simp_rw [this]
    rw [Finset.sum_const, Finset.card_univ, nsmul_eq_mul]
  have hBv : ∫ z, B z ∂standardNormal k n =
      N * (N * (4 * ∫ z, rankedLen W v K e z ∂standardNormal k n)) := by
    rw [hB]
    simp only
    rw [integral_const_mul, integral_finsetSum _ fun ρ _ => (sr ρ).1]
    simp_rw [(sr _).2]
    rw [Finset.sum_const, Finset.card_univ, nsmul_eq_mul]
  have hle : ∀ z, A z ≤ B z := exchange_le he hv hK hW hanti
  have hint : ∫ z, A z ∂standardNormal k n ≤ ∫ z, B z ∂standardNormal k n :=
    integral_mono hAi hBi hle
  refine ⟨?_, fun p q r hpr hqr hpq hrp => ?_⟩
  · rw [hAv, hBv] at hint
    have := le_of_mul_le_mul_left (le_of_mul_le_mul_left hint hNpos) hNpos
    linarith
  · have hlt : ∫ z, A z ∂standardNormal k n < ∫ z, B z ∂standardNormal k n := by
      refine lt_of_le_of_ne hint fun h0 => ?_
      have hz : ∫ z, (B z - A z) ∂standardNormal k n = 0 := by
        rw [integral_sub hBi hAi, h0, sub_self]
      have hae := (integral_eq_zero_iff_of_nonneg (fun z => sub_nonneg.mpr (hle z))
        (hBi.sub hAi)).mp hz
      have hAc : Continuous A := continuous_finsetSum _ fun ρ _ => continuous_finsetSum _ fun π _ =>
        mirrored_continuous plain_continuous
      have hBc : Continuous B := continuous_const.mul (mirrored_ranked_continuous he hW hanti)
      have heq := (Continuous.ae_eq_iff_eq _ (hBc.sub hAc) continuous_const).mp hae
      obtain ⟨z, hz⟩ := exchange_lt he hv hK hW hanti hpr hqr hpq hrp
      have h1 : B z - A z = 0 := congrFun heq z
      have h2 : A z < B z := hz
      linarith
    rw [hAv, hBv] at hlt
    have := lt_of_mul_lt_mul_left (lt_of_mul_lt_mul_left hlt hNpos.le) hNpos.le
    linarith

/-! ### Ties -/

/-- A component of a normal vector is almost surely not zero. -/
theorem dot_ne_zero {e : Fin n → ℝ} (he : e ⬝ᵥ e = 1) : ∀ᵐ x ∂normalVec n, e ⬝ᵥ x ≠ 0 := by
  have h1 : ∀ᵐ y ∂normalVec 1, y 0 ≠ 0 := by
    refine (Measure.quasiMeasurePreserving_eval (fun _ : Fin 1 => gaussianReal 0 1) 0).ae
      (p := fun x => x ≠ 0) ?_
    exact (gaussianReal_absolutelyContinuous 0 one_ne_zero).ae_le (Measure.ae_ne _ 0)
  have h2 : MeasurePreserving (fun (x : Fin n → ℝ) (l : Fin n) (_ : Fin 1) => x l) (normalVec n)
      (standardNormal n 1) := by
    refine measurePreserving_pi (fun _ => gaussianReal 0 1)
      (fun _ => Measure.pi fun _ : Fin 1 => gaussianReal 0 1) (f := fun _ x _ => x) fun i => ?_
    exact (measurePreserving_funUnique (gaussianReal 0 1) (Fin 1)).symm
  have h3 := combination_preserving (n := 1) (a := e) (by
    rw [← he]; exact Finset.sum_congr rfl fun l _ => sq _)
  have h4 := (h3.comp h2).quasiMeasurePreserving.ae h1
  filter_upwards [h4] with x hx
  simpa [dotProduct] using hx

/-- The components of the vectors are almost surely distinct. -/
theorem components_distinct {e : Fin n → ℝ} (he : e ⬝ᵥ e = 1) :
    ∀ᵐ z ∂standardNormal k n, ∀ i j, i ≠ j → e ⬝ᵥ z i ≠ e ⬝ᵥ z j := by
  rw [ae_all_iff]; intro i
  rw [ae_all_iff]; intro j
  by_cases hij : i = j
  · exact Filter.Eventually.of_forall fun z h => absurd hij h
  set a : Fin k → ℝ := fun l => (if l = i then 1 / √2 else 0) - (if l = j then 1 / √2 else 0) with ha
  have h2 : (1 / √2 : ℝ) ^ 2 = 1 / 2 := by
    rw [div_pow, Real.sq_sqrt (by norm_num), one_pow]
  have hs : ∑ l, a l ^ 2 = 1 := by
    have : ∀ l, a l ^ 2 = (if l = i then 1 / 2 else 0) + if l = j then 1 / 2 else 0 := by
      intro l
      rw [ha]
      simp only
      by_cases h1 : l = i
      · have h3 : l ≠ j := fun h => hij (h1.symm.trans h)
        simp only [h1, if_true, if_neg hij, sub_zero, add_zero, h2]
      · by_cases h3 : l = j
        · simp only [h3, if_true, zero_sub, neg_sq, zero_add, if_neg (Ne.symm hij), h2]
        · simp [h1, h3]
    simp_rw [this]
    rw [Finset.sum_add_distrib]
    simp
    norm_num
  have := (combination_preserving (n := n) hs).quasiMeasurePreserving.ae (dot_ne_zero he)
  filter_upwards [this] with z hz _ h
  apply hz
  have : ∑ l, a l • z l = (1 / √2 : ℝ) • z i - (1 / √2 : ℝ) • z j := by
    simp_rw [ha, sub_smul, ite_smul, zero_smul]
    rw [Finset.sum_sub_distrib]
    simp
  rw [this, dotProduct_sub, dotProduct_smul, dotProduct_smul, h, sub_self]

end Cmaes
