import Verif.Props.Collapse
import Verif.Props.StepSize
import Verif.Props.Tolerance
import Mathlib.Analysis.Complex.ExponentialBounds

/-!
# C107: the search cannot explode early

In exact arithmetic, if no random number exceeds `b` in magnitude: bounds on how fast the step size
and the variance can grow, and the generations in which `TolXUp` cannot be reported. These are the
upper counterparts of `c39_lower` and of C87. They hold for every objective function and every
constraint.
-/

set_option linter.unusedSectionVars false

namespace Cmaes
open Matrix WithLp

/-! ### Specification -/

/-- No random number exceeds `b` in magnitude. -/
def BoundedDraws {n : ℕ} {R : Type} (env : Env n XR R) (b : ℝ) : Prop :=
  ∀ r, ∃ z : Fin n → ℝ, env.rng.vector r 0 = Vec.fin z ∧ ∀ i, |z i| ≤ b

/-- The largest factor by which a generation may multiply the step size. -/
noncomputable def sigmaGrowth (n : ℕ) (b cs damp muEff : ℝ) : ℝ :=
  Real.exp (cs / damp * (b * Real.sqrt n * Real.sqrt ((2 - cs) * muEff / cs) / realChi n - 1))

/-- The largest factor by which a generation may multiply the variance. `W` is the sum of the
magnitudes of the negative weights. -/
noncomputable def varianceGrowth (n : ℕ) (b cc c1 cmu muEff W : ℝ) : ℝ :=
  1 - cmu + cmu * W + (c1 * ((2 - cc) * muEff / cc) + cmu) * (n * b ^ 2)

/-! ### One generation -/

section
variable {n : ℕ} {q : RealParams} {r r' : RealState n} {K : ℝ} {ys : List (Fin n → ℝ)}

theorem len_add_le (x y : Fin n → ℝ) : len (x + y) ≤ len x + len y := by
  rw [len_eq_norm, len_eq_norm, len_eq_norm, WithLp.toLp_add]
  exact norm_add_le _ _

theorem len_smul (a : ℝ) (x : Fin n → ℝ) : len (a • x) = |a| * len x := by
  rw [len_eq_norm, len_eq_norm, WithLp.toLp_smul, norm_smul, Real.norm_eq_abs]

theorem weighted_len (A : Matrix (Fin n) (Fin n) ℝ) (hK : 0 ≤ K) {ws : List ℝ}
    (hw : ∀ w ∈ ws, 0 < w) (hy : ∀ y ∈ ys, len (A *ᵥ y) ≤ K) :
    len (A *ᵥ (List.zipWith (· • ·) ws ys).sum) ≤ ws.sum * K := by
  induction ws generalizing ys with
  | nil => simp [len]
  | cons w ws ih =>
    have hs : 0 ≤ ws.sum := List.sum_nonneg fun x hx => (hw x (by simp [hx])).le
    cases ys with
    | nil =>
      have := hw w (by simp)
      have h0 : len (A *ᵥ (0 : Fin n → ℝ)) = 0 := by simp [len]
      rw [List.zipWith_nil_right, List.sum_nil, h0, List.sum_cons]
      positivity
    | cons y ys =>
      rw [List.zipWith_cons_cons, List.sum_cons, List.sum_cons, mulVec_add, mulVec_smul, add_mul]
      refine (len_add_le _ _).trans (add_le_add ?_ (ih (fun x hx => hw x (by simp [hx]))
        fun x hx => hy x (by simp [hx])))
      have hw0 := hw w (by simp)
      rw [len_smul, abs_of_pos hw0]
      exact mul_le_mul_of_nonneg_left (hy y (by simp)) hw0.le

theorem sqrt_rate {c m : ℝ} (hc : 0 < c) :
    Real.sqrt (c * (2 - c) * m) = c * Real.sqrt ((2 - c) * m / c) := by
  have : c * (2 - c) * m = c ^ 2 * ((2 - c) * m / c) := by field_simp
  rw [this, Real.sqrt_mul (by positivity), Real.sqrt_sq hc.le]

variable {lambda : ℕ} {w : Weights} {p : Parameters XR}

theorem step_len (hq : q.Ok n lambda w) (hK : 0 ≤ K)
    (hy : ∀ y ∈ ys, len (r.invSqrt *ᵥ y) ≤ K) : len (r.invSqrt *ᵥ q.step ys) ≤ K := by
  have := weighted_len r.invSqrt hK hq.pos hy
  rwa [hq.pos_sum, one_mul] at this

theorem pathSigma_len (hp : ParamsRep n p q) (hq : q.Ok n lambda w) (hK : 0 ≤ K)
    (hy : ∀ y ∈ ys, len (r.invSqrt *ᵥ y) ≤ K)
    (h : len r.pathSigma ≤ K * Real.sqrt ((2 - q.cs) * q.muEff / q.cs)) :
    len (q.pathSigma r ys) ≤ K * Real.sqrt ((2 - q.cs) * q.muEff / q.cs) := by
  have hc := hp.cs_pos
  have hc1 := hp.cs_lt
  have h0 := step_len hq hK hy
  unfold RealParams.pathSigma
  refine (len_add_le _ _).trans ?_
  rw [len_smul, len_smul, abs_of_pos (by linarith), abs_of_nonneg (Real.sqrt_nonneg _), sqrt_rate hc]
  set a := Real.sqrt ((2 - q.cs) * q.muEff / q.cs) with ha
  have ha0 : 0 ≤ a := Real.sqrt_nonneg _
  have h1 := mul_le_mul_of_nonneg_left h (by linarith : 0 ≤ 1 - q.cs)
  have h2 := mul_le_mul_of_nonneg_left h0 (by positivity : 0 ≤ q.cs * a)
  nlinarith

/-- The new evolution path in the direction of `v`. -/
theorem pathC_dot (hp : ParamsRep n p q) (hq : q.Ok n lambda w) (hg : r.Good) (hK : 0 ≤ K)
    (hy : ∀ y ∈ ys, len (r.invSqrt *ᵥ y) ≤ K) (g : ℕ) {v : Fin n → ℝ} {S : ℝ} (hS : 0 ≤ S)
    (hD : quad r.decomposed v ≤ S ^ 2)
    (h : |v ⬝ᵥ r.pathC| ≤ K * Real.sqrt ((2 - q.cc) * q.muEff / q.cc) * S) :
    |v ⬝ᵥ q.pathC r g ys| ≤ K * Real.sqrt ((2 - q.cc) * q.muEff / q.cc) * S := by
  have hc := hp.cc_pos
  have hc1 := hp.cc_lt
  have h0 := step_len hq hK hy
  have h1 : |v ⬝ᵥ q.step ys| ≤ K * S := by
    refine abs_le_of_sq_le_sq ?_ (by positivity)
    refine (dot_sq_le_decomposed hg v _).trans ?_
    rw [mul_pow]
    have := len_nonneg (r.invSqrt *ᵥ q.step ys)
    exact mul_le_mul (by gcongr) hD (PosDef.quad_nonneg (decomposed_posDef hg) v) (by positivity)
  have hh : 0 ≤ q.hs r g ys ∧ q.hs r g ys ≤ 1 := by
    unfold RealParams.hs
    split <;> norm_num
  unfold RealParams.pathC
  rw [dotProduct_add, dotProduct_smul, dotProduct_smul, smul_eq_mul, smul_eq_mul]
  refine (abs_add_le _ _).trans ?_
  rw [abs_mul, abs_mul, abs_of_pos (by linarith : 0 < 1 - q.cc),
    abs_of_nonneg (mul_nonneg hh.1 (Real.sqrt_nonneg _)), sqrt_rate hc]
  set a := Real.sqrt ((2 - q.cc) * q.muEff / q.cc) with ha
  have ha0 : 0 ≤ a := Real.sqrt_nonneg _
  have h2 := mul_le_mul_of_nonneg_left h (by linarith : 0 ≤ 1 - q.cc)
  have h3 : q.hs r g ys * (q.cc * a) * |v ⬝ᵥ q.step ys| ≤ q.cc * a * (K * S) := by
    refine mul_le_mul ?_ h1 (abs_nonneg _) (by positivity)
    have : 0 ≤ q.cc * a := by positivity
    nlinarith [hh.2]
  nlinarith

theorem rankMu_le (hg : r.Good) (hy : ∀ y ∈ ys, len (r.invSqrt *ᵥ y) ≤ K)
    (v : Fin n → ℝ) (ws : List ℝ) :
    quad (List.zipWith (fun w y => RealParams.covWeight r w y • vecMulVec y y) ws ys).sum v ≤
      (ws.sum - negSum ws) * (K ^ 2 * quad r.decomposed v) := by
  have hq := PosDef.quad_nonneg (decomposed_posDef hg) v
  have hKq : 0 ≤ K ^ 2 * quad r.decomposed v := by positivity
  have hpos : ∀ l : List ℝ, 0 ≤ l.sum - negSum l := by
    intro l
    induction l with
    | nil => simp [negSum]
    | cons w l ih =>
      have e : negSum (w :: l) = min w 0 + negSum l := rfl
      rw [e, List.sum_cons]
      have := min_le_left w 0
      linarith
  induction ws generalizing ys with
  | nil => simp [negSum, quad]
  | cons w ws ih =>
    cases ys with
    | nil =>
      rw [List.zipWith_nil_right, List.sum_nil]
      have e : quad (0 : Matrix (Fin n) (Fin n) ℝ) v = 0 := by simp [quad]
      rw [e]
      exact mul_nonneg (hpos _) hKq
    | cons y ys =>
      rw [List.zipWith_cons_cons, List.sum_cons, quad_add, quad_smul, quad_vecMulVec]
      have e : negSum (w :: ws) = min w 0 + negSum ws := rfl
      have h1 := ih (ys := ys) fun y hy' => hy y (by simp [hy'])
      have h2 : RealParams.covWeight r w y * (v ⬝ᵥ y) ^ 2 ≤
          (w - min w 0) * (K ^ 2 * quad r.decomposed v) := by
        unfold RealParams.covWeight
        by_cases hw : w < 0
        · rw [if_pos hw, min_eq_left hw.le, sub_self, zero_mul]
          exact mul_nonpos_of_nonpos_of_nonneg
            (mul_nonpos_of_nonpos_of_nonneg hw.le (by positivity)) (sq_nonneg _)
        · rw [if_neg hw, min_eq_right (not_lt.mp hw), sub_zero]
          refine mul_le_mul_of_nonneg_left ?_ (not_lt.mp hw)
          refine (dot_sq_le_decomposed hg v y).trans (mul_le_mul_of_nonneg_right ?_ hq)
          have := len_nonneg (r.invSqrt *ᵥ y)
          have := hy y (by simp)
          gcongr
      rw [e, List.sum_cons]
      have h3 : (w + ws.sum - (min w 0 + negSum ws)) * (K ^ 2 * quad r.decomposed v) =
          (w - min w 0) * (K ^ 2 * quad r.decomposed v) +
            (ws.sum - negSum ws) * (K ^ 2 * quad r.decomposed v) := by ring
      linarith

/-- The new covariance matrix from above. -/
theorem cov_le (hp : ParamsRep n p q) (hq : q.Ok n lambda w) (hg : r.Good) (hK : 0 ≤ K)
    (hy : ∀ y ∈ ys, len (r.invSqrt *ᵥ y) ≤ K) (g : ℕ) {v : Fin n → ℝ} {S : ℝ} (hS : 0 ≤ S)
    (hC : quad r.C v ≤ S ^ 2) (hD : quad r.decomposed v ≤ S ^ 2)
    (h : |v ⬝ᵥ r.pathC| ≤ K * Real.sqrt ((2 - q.cc) * q.muEff / q.cc) * S) :
    quad (q.cov r g ys) v ≤ (1 - q.cmu + q.cmu * -negSum q.weights +
      (q.c1 * ((2 - q.cc) * q.muEff / q.cc) + q.cmu) * K ^ 2) * S ^ 2 := by
  have hc := hp.cc_pos
  have hc1 := hp.cc_lt
  have hm := hp.muEff_pos
  have h1 := pathC_dot hp hq hg hK hy g hS hD h
  have h2 := rankMu_le hg hy v q.weights
  have h3 : 0 ≤ q.hs r g ys ∧ q.hs r g ys ≤ 1 := by
    unfold RealParams.hs
    split <;> norm_num
  have hneg := negSum_nonpos q.weights
  unfold RealParams.cov
  rw [quad_add, quad_add, quad_smul, quad_smul, quad_smul, quad_vecMulVec]
  have e1 : (v ⬝ᵥ q.pathC r g ys) ^ 2 ≤ K ^ 2 * ((2 - q.cc) * q.muEff / q.cc) * S ^ 2 := by
    rw [← sq_abs]
    refine (pow_le_pow_left₀ (abs_nonneg _) h1 2).trans (le_of_eq ?_)
    rw [mul_pow, mul_pow, Real.sq_sqrt (by
      have : 0 ≤ 2 - q.cc := by linarith
      positivity)]
  have e2 : quad (q.rankMu r ys) v ≤ K ^ 2 * S ^ 2 := by
    unfold RealParams.rankMu
    refine h2.trans ?_
    rw [hq.sum, add_sub_cancel_right, one_mul]
    exact mul_le_mul_of_nonneg_left hD (by positivity)
  have h4 : 0 ≤ (1 - q.hs r g ys) * q.cc * (2 - q.cc) :=
    mul_nonneg (mul_nonneg (by linarith) hc.le) (by linarith)
  have h5 : (1 - q.hs r g ys) * q.cc * (2 - q.cc) ≤ 1 := by
    have : q.cc * (2 - q.cc) ≤ 1 := by nlinarith [sq_nonneg (1 - q.cc)]
    have h0 : 0 ≤ q.cc * (2 - q.cc) := mul_nonneg hc.le (by linarith)
    rw [mul_assoc]
    nlinarith
  have h6 : 0 ≤ 1 + q.c1 * ((1 - q.hs r g ys) * q.cc * (2 - q.cc)) - q.c1 -
      q.cmu * q.weights.sum := by
    rw [hq.sum]
    have := mul_nonneg hq.c1.le h4
    have := hq.le_one
    have := mul_nonneg hq.cmu (neg_nonneg.mpr hneg)
    nlinarith
  have h7 : 1 + q.c1 * ((1 - q.hs r g ys) * q.cc * (2 - q.cc)) - q.c1 -
      q.cmu * q.weights.sum ≤ 1 - q.cmu + q.cmu * -negSum q.weights := by
    rw [hq.sum]
    have := mul_le_mul_of_nonneg_left h5 hq.c1.le
    nlinarith
  have e3 := (mul_le_mul_of_nonneg_left hC h6).trans (mul_le_mul_of_nonneg_right h7 (sq_nonneg S))
  have e4 := mul_le_mul_of_nonneg_left e1 hq.c1.le
  have e5 := mul_le_mul_of_nonneg_left e2 hq.cmu
  refine (add_le_add (add_le_add e3 e4) e5).trans (le_of_eq ?_)
  ring

theorem draw_len (hg : r.Good) {b : ℝ} (hb : 0 ≤ b) {z : Fin n → ℝ} (hz : ∀ i, |z i| ≤ b) :
    len (r.invSqrt *ᵥ (r.transform *ᵥ z)) ≤ b * Real.sqrt n := by
  rw [mulVec_mulVec, invSqrt_mul_transform hg]
  have e : (r.B *ᵥ z) ⬝ᵥ (r.B *ᵥ z) = z ⬝ᵥ z := by
    rw [dotProduct_mulVec, ← mulVec_transpose, mulVec_mulVec, hg.orthonormal, one_mulVec]
  unfold len
  rw [e]
  refine Real.sqrt_le_iff.mpr ⟨by positivity, ?_⟩
  rw [mul_pow, Real.sq_sqrt (Nat.cast_nonneg n)]
  calc z ⬝ᵥ z ≤ ∑ _i : Fin n, b ^ 2 := Finset.sum_le_sum fun i _ => by
        rw [← sq, ← sq_abs]
        exact pow_le_pow_left₀ (abs_nonneg _) (hz i) 2
    _ = b ^ 2 * n := by rw [Finset.sum_const, Finset.card_univ, Fintype.card_fin, nsmul_eq_mul, mul_comm]

end

/-! ### Histories -/

variable {n : Nat} {R : Type} {env : Env n XR R} {obj : Obj n XR} {o : Options n XR}
  {t : List (NextCall n XR)} {s : NextCall n XR} {c d : CMAES n XR R}

/-- The bounds after `g` generations. -/
structure Bounded (q : RealParams) (b s0 : ℝ) (g : ℕ) (r : RealState n) : Prop where
  sigma : r.sigma ≤ s0 * sigmaGrowth n b q.cs q.dampS q.muEff ^ g
  pathSigma : len r.pathSigma ≤ b * Real.sqrt n * Real.sqrt ((2 - q.cs) * q.muEff / q.cs)
  cov : ∀ v, quad r.C v ≤
    varianceGrowth n b q.cc q.c1 q.cmu q.muEff (-negSum q.weights) ^ g * (v ⬝ᵥ v)
  decomposed : ∀ v, quad r.decomposed v ≤
    varianceGrowth n b q.cc q.c1 q.cmu q.muEff (-negSum q.weights) ^ g * (v ⬝ᵥ v)
  pathC : ∀ v, |v ⬝ᵥ r.pathC| ≤ b * Real.sqrt n * Real.sqrt ((2 - q.cc) * q.muEff / q.cc) *
    Real.sqrt (varianceGrowth n b q.cc q.c1 q.cmu q.muEff (-negSum q.weights) ^ g * (v ⬝ᵥ v))

theorem one_le_varianceGrowth {p : Parameters XR} {q : RealParams} {lambda : ℕ} {w : Weights}
    (hp : ParamsRep n p q) (hq : q.Ok n lambda w) {b : ℝ} (hb : 1 ≤ b) :
    1 ≤ varianceGrowth n b q.cc q.c1 q.cmu q.muEff (-negSum q.weights) := by
  unfold varianceGrowth
  have h1 : (1 : ℝ) ≤ n * b ^ 2 := by
    have : (1 : ℝ) ≤ n := by exact_mod_cast Nat.one_le_iff_ne_zero.mpr hp.dim_ne
    nlinarith
  have h2 : 0 ≤ q.c1 * ((2 - q.cc) * q.muEff / q.cc) := by
    have := hp.cc_pos
    have := hp.muEff_pos
    have : 0 ≤ 2 - q.cc := by linarith [hp.cc_lt]
    exact mul_nonneg hq.c1.le (by positivity)
  have h3 := mul_nonneg hq.cmu (neg_nonneg.mpr (negSum_nonpos q.weights))
  have h4 := hq.cmu
  nlinarith

/-- One generation keeps the bounds. -/
theorem Bounded.step {q : RealParams} {b s0 : ℝ} {g : ℕ} {r r' : RealState n} {p : Parameters XR}
    {lambda : ℕ} {w : Weights} {st st' : State n XR} {ys : List (Fin n → ℝ)} {evals : ℕ} {ok : Bool}
    (i : Bounded q b s0 g r) (hp : ParamsRep n p q) (hq : q.Ok n lambda w) (hg : r.Good)
    (hb : 1 ≤ b) (hu : Updated p q st st' r r' ys evals ok)
    (hy : ∀ y ∈ ys, ∃ z : Fin n → ℝ, y = r.transform *ᵥ z ∧ ∀ i, |z i| ≤ b) :
    ∃ r2, Rep st' r2 ∧ r2.Good ∧ Bounded q b s0 (g + 1) r2 := by
  have hb0 : 0 ≤ b := by linarith
  have hP := one_le_varianceGrowth hp hq hb
  have hK : 0 ≤ b * Real.sqrt n := by positivity
  have hy' : ∀ y ∈ ys, len (r.invSqrt *ᵥ y) ≤ b * Real.sqrt n := by
    intro y hm
    obtain ⟨z, rfl, hz⟩ := hy y hm
    exact draw_len hg hb0 hz
  have hps := pathSigma_len hp hq hK hy' i.pathSigma
  set P := varianceGrowth n b q.cc q.c1 q.cmu q.muEff (-negSum q.weights) with hPdef
  have hvv : ∀ v : Fin n → ℝ, 0 ≤ v ⬝ᵥ v := fun v => Finset.sum_nonneg fun i _ => mul_self_nonneg _
  have hX : ∀ v : Fin n → ℝ, 0 ≤ P ^ g * (v ⬝ᵥ v) := fun v =>
    mul_nonneg (by positivity) (hvv v)
  have hmono : ∀ v : Fin n → ℝ, P ^ g * (v ⬝ᵥ v) ≤ P ^ (g + 1) * (v ⬝ᵥ v) := fun v =>
    mul_le_mul_of_nonneg_right (pow_le_pow_right₀ hP (by omega)) (hvv v)
  have hsq : ∀ v : Fin n → ℝ, Real.sqrt (P ^ g * (v ⬝ᵥ v)) ^ 2 = P ^ g * (v ⬝ᵥ v) := fun v =>
    Real.sq_sqrt (hX v)
  have hpc : ∀ v, |v ⬝ᵥ r'.pathC| ≤ b * Real.sqrt n * Real.sqrt ((2 - q.cc) * q.muEff / q.cc) *
      Real.sqrt (P ^ (g + 1) * (v ⬝ᵥ v)) := by
    intro v
    rw [hu.pathC]
    refine (pathC_dot hp hq hg hK hy' _ (Real.sqrt_nonneg _) (by rw [hsq]; exact i.decomposed v)
      (i.pathC v)).trans ?_
    exact mul_le_mul_of_nonneg_left (Real.sqrt_le_sqrt (hmono v)) (by positivity)
  have hcov : ∀ v, quad r'.C v ≤ P ^ (g + 1) * (v ⬝ᵥ v) := by
    intro v
    rw [hu.cov]
    refine (cov_le hp hq hg hK hy' _ (Real.sqrt_nonneg _) (by rw [hsq]; exact i.cov v)
      (by rw [hsq]; exact i.decomposed v) (i.pathC v)).trans (le_of_eq ?_)
    have e : 1 - q.cmu + q.cmu * -negSum q.weights +
        (q.c1 * ((2 - q.cc) * q.muEff / q.cc) + q.cmu) * (b * Real.sqrt n) ^ 2 = P := by
      rw [hPdef, mul_pow, Real.sq_sqrt (Nat.cast_nonneg n), mul_comm (b ^ 2)]
      rfl
    rw [hsq, e, pow_succ' P g, mul_assoc P]
  have hsig : r'.sigma ≤ s0 * sigmaGrowth n b q.cs q.dampS q.muEff ^ (g + 1) := by
    rw [hu.sigma, pow_succ, ← mul_assoc]
    unfold RealParams.sigma
    refine mul_le_mul i.sigma ?_ (Real.exp_pos _).le (hg.sigma.le.trans i.sigma)
    unfold sigmaGrowth
    refine Real.exp_le_exp.mpr (mul_le_mul_of_nonneg_left ?_ (div_pos hp.cs_pos hp.dampS_pos).le)
    exact sub_le_sub_right (div_le_div_of_nonneg_right hps (realChi_pos hp.dim_ne).le) _
  have hold : ∀ v, quad r.decomposed v ≤ P ^ (g + 1) * (v ⬝ᵥ v) := fun v =>
    (i.decomposed v).trans (hmono v)
  cases hok : ok with
  | false =>
    exact ⟨_, (hu.failed hok).2.2, ⟨hg.orthonormal, hg.pos, hu.symm, hu.pos⟩, hsig,
      by show len r'.pathSigma ≤ _; rw [hu.pathSigma]; exact hps, hcov, hold, hpc⟩
  | true =>
    refine ⟨r', (hu.done hok).1, ?_⟩
    by_cases hd : st.lastEigenUpdateEvals + evalsPerEigenUpdate p ≤ evals
    · obtain ⟨hdec, hiff, _⟩ := hu.due hd
      exact ⟨⟨hdec.orthonormal, hiff.mp hok, hu.symm, hu.pos⟩, hsig, by rw [hu.pathSigma]; exact hps,
        hcov, fun v => by
          show quad (r'.B * diagonal r'.d * r'.Bᵀ) v ≤ _
          rw [← hdec.eq]; exact hcov v, hpc⟩
    · obtain ⟨hB, hd', _, _⟩ := hu.notDue hd
      refine ⟨⟨by rw [hB]; exact hg.orthonormal, by rw [hd']; exact hg.pos, hu.symm, hu.pos⟩, hsig,
        by rw [hu.pathSigma]; exact hps, hcov, fun v => ?_, hpc⟩
      have e : r'.decomposed = r.decomposed := by unfold RealState.decomposed; rw [hB, hd']
      rw [e]; exact hold v

theorem bounded_inv (hx : ExactRun env o) {b s0 : ℝ} (hd : BoundedDraws env b) (hb : 1 ≤ b)
    (e0 : o.initialStepSize = .fin s0) (h : History.Of env obj o t c) :
    ∃ r, Rep c.state r ∧ r.Good ∧
      Bounded (optParams o) b s0 (t.filter fun s => ¬ s.Failed).length r := by
  obtain ⟨w, c0, hnew, he⟩ := h
  induction he with
  | refl =>
    obtain ⟨m, hm⟩ := hx.mean
    obtain ⟨s, hs2, hrep, _⟩ := fresh_rep hnew hm
    have es : s = s0 := by
      have e1 : c0.sigma = .fin s := hrep.sigma
      rw [(c31_fresh hnew).2.2.2.1, e0] at e1
      injection e1 with e1
      exact e1.symm
    subst es
    refine ⟨_, hrep, ⟨by simp, fun _ => one_pos, by simp, hs2⟩, by simp, ?_, fun v => by simp [quad],
      fun v => by simp [quad, RealState.decomposed], fun v => ?_⟩
    · have : len (0 : Fin n → ℝ) = 0 := by simp [len]
      show len (0 : Fin n → ℝ) ≤ _
      rw [this]; positivity
    · show |v ⬝ᵥ (0 : Fin n → ℝ)| ≤ _
      rw [dotProduct_zero, abs_zero]; positivity
  | quiet _ hq ha ih =>
    obtain ⟨e, _⟩ := quiet_sameSearch hq ha
    rw [e.state]
    exact ih
  | @next c1 c2 t kind calls res he hn hl ih =>
    have hprev : History.Of env obj o t c1 := ⟨w, c0, hnew, he⟩
    obtain ⟨r, hr, hg, i⟩ := ih
    obtain ⟨hp, hq⟩ := params_rep hprev
    by_cases hf : ∃ x, res = some x ∧ .invalidFunctionValue ∈ x.reasons
    · rcases next_exact hx hprev hr hg hn with ⟨_, h2, _⟩ |
        ⟨ys, r', ok, _, _, _, hu, _, _, _, _, hbad, hgood, _⟩
      · have hF : (NextCall.Failed { kind, calls, result := res }) := hf
        refine ⟨r, by rw [h2]; exact hr, hg, ?_⟩
        simpa [List.filter_append, hF] using i
      · exfalso
        obtain ⟨x, hx1, hx2⟩ := hf
        cases hok : ok with
        | false =>
          have := hbad hok
          rw [hx1] at this
          injection this with this
          rw [this] at hx2
          simp [CMAES.terminationData] at hx2
        | true => exact (hgood hok x hx1).2 hx2
    · rcases next_exact hx hprev hr hg hn with ⟨h1, _, _⟩ |
        ⟨ys, r', ok, _, _, _, hu, _, _, _, _, _, _, hdr⟩
      · exact absurd ⟨_, h1, by simp [CMAES.terminationData]⟩ hf
      · have hF : ¬ (NextCall.Failed { kind, calls, result := res }) := hf
        have hlen : ((t ++ [({ kind, calls, result := res } : NextCall n XR)]).filter
            fun s => ¬ s.Failed).length = (t.filter fun s => ¬ s.Failed).length + 1 := by
          simp [List.filter_append, hF]
        rw [hlen]
        refine i.step hp hq hg hb hu fun y hy => ?_
        obtain ⟨st, hst⟩ := hdr y hy
        obtain ⟨z, hz, hzb⟩ := hd st
        rw [drawVec_eq, hz, Mat.mulVec_fin] at hst
        exact ⟨z, Vec.fin_injective hst, hzb⟩

/-! ### The properties -/

/-- **C107, step size.** If no random number exceeds `b ≥ 1` in magnitude, the step size after `g`
calls of `next` that did not report `InvalidFunctionValue` is at most the initial one times the
`g`-th power of `exp (cs/damp_s (b √n √((2 - cs) mu_eff / cs) / chi - 1))`. -/
theorem c107_sigma (hx : ExactRun env o) {b : ℝ} (hd : BoundedDraws env b) (hb : 1 ≤ b)
    (h : History.Of env obj o t c) {s0 cs damp m : ℝ} (e0 : o.initialStepSize = .fin s0)
    (ecs : c.parameters.cs = .fin cs) (ed : c.parameters.dampS = .fin damp)
    (em : c.parameters.muEff = .fin m) :
    ∃ sg, c.sigma = .fin sg ∧
      sg ≤ s0 * sigmaGrowth n b cs damp m ^ (t.filter fun s => ¬ s.Failed).length := by
  obtain ⟨r, hr, _, i⟩ := bounded_inv hx hd hb e0 h
  obtain ⟨hp, _⟩ := params_rep h
  obtain rfl : (optParams o).cs = cs := by have := hp.cs.symm.trans ecs; injection this
  obtain rfl : (optParams o).dampS = damp := by have := hp.dampS.symm.trans ed; injection this
  obtain rfl : (optParams o).muEff = m := by have := hp.muEff.symm.trans em; injection this
  exact ⟨r.sigma, hr.sigma, i.sigma⟩

theorem quad_axis {r : RealState n} (hg : r.Good) (k : Fin n) :
    quad r.decomposed (r.B *ᵥ Pi.single k 1) = r.d k ∧
      (r.B *ᵥ Pi.single k 1) ⬝ᵥ (r.B *ᵥ Pi.single k (1 : ℝ)) = 1 := by
  have e : (r.B *ᵥ Pi.single k 1) ⬝ᵥ (r.B *ᵥ Pi.single k (1 : ℝ)) = 1 := by
    rw [dotProduct_mulVec, ← mulVec_transpose, mulVec_mulVec, hg.orthonormal, one_mulVec]
    simp
  refine ⟨?_, e⟩
  unfold quad RealState.decomposed
  rw [mulVec_mulVec, Matrix.mul_assoc _ r.Bᵀ, hg.orthonormal, Matrix.mul_one, ← mulVec_mulVec,
    dotProduct_mulVec, ← mulVec_transpose, mulVec_mulVec, hg.orthonormal, one_mulVec]
  simp

/-- **C107, covariance matrix.** The variance in the direction of `v` is then at most
`varianceGrowth^g` times the initial one, `|v|²`; and so is every eigenvalue in use. -/
theorem c107_variance (hx : ExactRun env o) {b : ℝ} (hd : BoundedDraws env b) (hb : 1 ≤ b)
    (h : History.Of env obj o t c) {cc c1 cmu m P : ℝ} {ws : List ℝ}
    (ec : c.parameters.cc = .fin cc) (e1 : c.parameters.c1 = .fin c1)
    (emu : c.parameters.cmu = .fin cmu) (em : c.parameters.muEff = .fin m)
    (ew : c.parameters.weights = ws.map .fin)
    (eP : P = varianceGrowth n b cc c1 cmu m (ws.map fun w => max (-w) 0).sum) :
    1 ≤ P ∧ ∃ (C : Matrix (Fin n) (Fin n) ℝ) (e : Fin n → ℝ), c.covarianceMatrix = Mat.fin C ∧
      c.eigenvalues = Vec.fin e ∧
      (∀ v, v ⬝ᵥ (C *ᵥ v) ≤ P ^ (t.filter fun s => ¬ s.Failed).length * (v ⬝ᵥ v)) ∧
      ∀ k, 0 < e k ∧ e k ≤ P ^ (t.filter fun s => ¬ s.Failed).length := by
  obtain ⟨s0, _, _, _, e0, _⟩ := c39_lower hx h
  obtain ⟨r, hr, hg, i⟩ := bounded_inv hx hd hb e0 h
  obtain ⟨hp, hq⟩ := params_rep h
  obtain rfl : (optParams o).cc = cc := by have := hp.cc.symm.trans ec; injection this
  obtain rfl : (optParams o).c1 = c1 := by have := hp.c1.symm.trans e1; injection this
  obtain rfl : (optParams o).cmu = cmu := by have := hp.cmu.symm.trans emu; injection this
  obtain rfl : (optParams o).muEff = m := by have := hp.muEff.symm.trans em; injection this
  obtain rfl : (optParams o).weights = ws :=
    List.map_injective_iff.mpr (fun a b h => by injection h) (hp.weights.symm.trans ew)
  rw [← negSum_eq] at eP
  subst eP
  refine ⟨one_le_varianceGrowth hp hq hb, r.C, r.d, hr.cov, eigenvalues_fin hr hg, i.cov, fun k => ⟨hg.pos k, ?_⟩⟩
  obtain ⟨h1, h2⟩ := quad_axis hg k
  have := i.decomposed (r.B *ᵥ Pi.single k 1)
  rwa [h1, h2, mul_one] at this

/-- **C107, `TolXUp`.** It is not reported in the `g`-th generation if `tol_x_up` is at least
`(sigmaGrowth √varianceGrowth)^g`. -/
theorem c107_tolXUp (hx : ExactRun env o) {b : ℝ} (hd : BoundedDraws env b) (hb : 1 ≤ b)
    (h : History.Of env obj o (t ++ [s]) c) (hs : s.Checked) {tol cs damp cc c1 cmu m S P : ℝ}
    {ws : List ℝ} (et : o.tolXUp = .fin tol) (ecs : c.parameters.cs = .fin cs)
    (ed : c.parameters.dampS = .fin damp) (ec : c.parameters.cc = .fin cc)
    (e1 : c.parameters.c1 = .fin c1) (emu : c.parameters.cmu = .fin cmu)
    (em : c.parameters.muEff = .fin m) (ew : c.parameters.weights = ws.map .fin)
    (eS : S = sigmaGrowth n b cs damp m)
    (eP : P = varianceGrowth n b cc c1 cmu m (ws.map fun w => max (-w) 0).sum)
    (hle : (S * Real.sqrt P) ^ ((t ++ [s]).filter fun s => ¬ s.Failed).length ≤ tol) :
    .tolXUp ∉ s.reasons := by
  obtain ⟨s0, sg', _, _, e0, h0, es', _⟩ := c39_lower hx h
  obtain ⟨sg, es, hsg⟩ := c107_sigma hx hd hb h e0 ecs ed em
  obtain ⟨hP, C, e, _, ee, _, he⟩ := c107_variance hx hd hb h ec e1 emu em ew eP
  obtain ⟨r, hr, hg, _⟩ := rep_inv hx h
  obtain rfl : e = r.d := Vec.fin_injective (ee.symm.trans (eigenvalues_fin hr hg))
  have hroot : ∀ i, c.state.cov.sqrtEigenvalues i i = .fin (Real.sqrt (r.d i)) := fun i => by
    rw [hr.sqrtEigenvalues]
    show (.fin (diagonal (fun i => Real.sqrt (r.d i)) i i) : XR) = _
    rw [diagonal_apply_eq]
  intro hmem
  obtain ⟨k, _, hlt⟩ := (c25_tolXUp h hs fun i => by rw [hroot]; exact XR.isNaN_fin _).mp hmem
  rw [hroot, es, et, e0, XR.mul_fin, XR.div_fin h0.ne', XR.lt_fin, decide_eq_true_eq] at hlt
  rw [← eS] at hsg
  have hS : 0 ≤ S := by rw [eS]; exact (Real.exp_pos _).le
  refine absurd hlt (not_lt.mpr (le_trans ?_ hle))
  generalize ((t ++ [s]).filter fun s => ¬ s.Failed).length = g at *
  rw [div_le_iff₀ h0, mul_pow]
  have hsq : Real.sqrt (r.d k) ≤ Real.sqrt P ^ g := by
    refine Real.sqrt_le_iff.mpr ⟨by positivity, ?_⟩
    rw [← pow_mul, mul_comm, pow_mul, Real.sq_sqrt (by linarith)]
    exact (he k).2
  calc sg * Real.sqrt (r.d k) ≤ s0 * S ^ g * Real.sqrt P ^ g :=
        mul_le_mul hsg hsq (Real.sqrt_nonneg _) (by positivity)
    _ = S ^ g * Real.sqrt P ^ g * s0 := by ring

/-- **C107, points.** Every point of a completed generation lies within
`sigma b √n (√varianceGrowth)^g` of the mean it was drawn around, and the new mean does, too. -/
theorem c107_points (hx : ExactRun env o) {b : ℝ} (hd : BoundedDraws env b) (hb : 1 ≤ b)
    (h : History.Of env obj o t c) {kind : EvalKind} {res : Option (TerminationData n XR)}
    {calls : List (Vec n XR × XR)} (hn : c.next env kind = .ok (d, res))
    (hf : ¬ ∃ x, res = some x ∧ .invalidFunctionValue ∈ x.reasons)
    (hl : d.sampler.obj.log = c.sampler.obj.log ++ calls) {cc c1 cmu m P : ℝ} {ws : List ℝ}
    (ec : c.parameters.cc = .fin cc) (e1 : c.parameters.c1 = .fin c1)
    (emu : c.parameters.cmu = .fin cmu) (em : c.parameters.muEff = .fin m)
    (ew : c.parameters.weights = ws.map .fin)
    (eP : P = varianceGrowth n b cc c1 cmu m (ws.map fun w => max (-w) 0).sum) :
    ∃ (a a' : Fin n → ℝ) (sg : ℝ), c.mean = Vec.fin a ∧ d.mean = Vec.fin a' ∧ c.sigma = .fin sg ∧
      (∀ e ∈ calls, ∃ x, e.1 = Vec.fin x ∧
        len (x - a) ≤ sg * (b * Real.sqrt n * Real.sqrt P ^ (t.filter fun s => ¬ s.Failed).length)) ∧
      len (a' - a) ≤ sg * (b * Real.sqrt n * Real.sqrt P ^ (t.filter fun s => ¬ s.Failed).length) := by
  obtain ⟨s0, _, _, _, e0, _⟩ := c39_lower hx h
  obtain ⟨r, hr, hg, i⟩ := bounded_inv hx hd hb e0 h
  obtain ⟨hp, hq⟩ := params_rep h
  obtain rfl : (optParams o).cc = cc := by have := hp.cc.symm.trans ec; injection this
  obtain rfl : (optParams o).c1 = c1 := by have := hp.c1.symm.trans e1; injection this
  obtain rfl : (optParams o).cmu = cmu := by have := hp.cmu.symm.trans emu; injection this
  obtain rfl : (optParams o).muEff = m := by have := hp.muEff.symm.trans em; injection this
  obtain rfl : (optParams o).weights = ws :=
    List.map_injective_iff.mpr (fun a b h => by injection h) (hp.weights.symm.trans ew)
  rw [← negSum_eq] at eP
  have hP := one_le_varianceGrowth hp hq hb
  rw [← eP] at hP
  have hb0 : 0 ≤ b := by linarith
  have hK : 0 ≤ b * Real.sqrt n := by positivity
  generalize hgen : (t.filter fun s => ¬ s.Failed).length = g at *
  -- a step that is short in the coordinates of the search distribution
  have hstep : ∀ y, len (r.invSqrt *ᵥ y) ≤ b * Real.sqrt n →
      len y ≤ b * Real.sqrt n * Real.sqrt P ^ g := by
    intro y hy
    have h1 := dot_sq_le_decomposed hg y y
    have h2 := i.decomposed y
    rw [← eP, ← len_sq] at h2
    rw [← len_sq] at h1
    have h3 : (len y ^ 2) ^ 2 ≤ (b * Real.sqrt n) ^ 2 * (P ^ g * len y ^ 2) := by
      refine h1.trans (mul_le_mul ?_ h2 (PosDef.quad_nonneg (decomposed_posDef hg) y) (by positivity))
      have := len_nonneg (r.invSqrt *ᵥ y)
      gcongr
    have hl0 := len_nonneg y
    refine abs_le_of_sq_le_sq' ?_ (by positivity) |>.2
    rcases hl0.eq_or_lt with hz | hz
    · rw [← hz, zero_pow two_ne_zero]; exact sq_nonneg _
    have h4 : len y ^ 2 ≤ (b * Real.sqrt n) ^ 2 * P ^ g := by
      have : 0 < len y ^ 2 := by positivity
      nlinarith
    rw [mul_pow (b * Real.sqrt n) (Real.sqrt P ^ g), ← pow_mul, mul_comm g 2, pow_mul,
      Real.sq_sqrt (by linarith)]
    exact h4
  rcases next_exact hx h hr hg hn with ⟨h1, _⟩ |
    ⟨ys, r', ok, calls', ps, inds, hu, hev, hlog, hsm, hys, _, _, hdr⟩
  · exact absurd ⟨_, h1, by simp [CMAES.terminationData]⟩ hf
  obtain rfl : calls' = calls := List.append_cancel_left (hlog.symm.trans hl)
  have hlen : ∀ y ∈ ys, len (r.invSqrt *ᵥ y) ≤ b * Real.sqrt n := by
    intro y hy
    obtain ⟨st, hst⟩ := hdr y hy
    obtain ⟨z, hz, hzb⟩ := hd st
    rw [drawVec_eq, hz, Mat.mulVec_fin] at hst
    rw [Vec.fin_injective hst]
    exact draw_len hg hb0 hzb
  refine ⟨r.mean, r'.mean, r.sigma, hr.mean, hu.mean', hr.sigma, fun e he => ?_, ?_⟩
  · obtain ⟨p, hpm, rfl⟩ := List.mem_map.mp (hsm.callsPerm.mem_iff.mp he)
    have : p.unscaledStep ∈ ys.map Vec.fin := by
      rw [← hys]; exact List.mem_map.mpr ⟨p, hpm, rfl⟩
    obtain ⟨y, hy, hye⟩ := List.mem_map.mp this
    refine ⟨r.mean + r.sigma • y, ?_, ?_⟩
    · show p.point = _
      rw [hsm.point p (hsm.mem_inds.mp hpm), ← hye, hr.mean, hr.sigma]
      unfold toPoint
      rw [Vec.smul_fin, Vec.add_fin]
    · rw [add_sub_cancel_left, len_smul, abs_of_pos hg.sigma]
      exact mul_le_mul_of_nonneg_left (hstep y (hlen y hy)) hg.sigma.le
  · rw [hu.mean]
    unfold RealParams.mean
    have hcs : 0 ≤ (optParams o).cm * r.sigma := mul_nonneg hq.cm.le hg.sigma.le
    rw [add_sub_cancel_left, len_smul, abs_of_nonneg hcs]
    have h1 := hstep _ (step_len hq hK hlen)
    refine mul_le_mul ?_ h1 (len_nonneg _) hg.sigma.le
    have := mul_le_mul_of_nonneg_right hq.cm_le hg.sigma.le
    linarith

/-- **C107, distance.** After `g` such calls the mean is within
`sigma_0 b √n (1 + f + ... + f^(g-1))` of the initial mean, with
`f = sigmaGrowth √varianceGrowth`. -/
theorem c107_travel (hx : ExactRun env o) {b : ℝ} (hd : BoundedDraws env b) (hb : 1 ≤ b)
    (h : History.Of env obj o t c) {s0 cs damp cc c1 cmu m S P : ℝ} {ws : List ℝ}
    (e0 : o.initialStepSize = .fin s0) (ecs : c.parameters.cs = .fin cs)
    (ed : c.parameters.dampS = .fin damp) (ec : c.parameters.cc = .fin cc)
    (e1 : c.parameters.c1 = .fin c1) (emu : c.parameters.cmu = .fin cmu)
    (em : c.parameters.muEff = .fin m) (ew : c.parameters.weights = ws.map .fin)
    (eS : S = sigmaGrowth n b cs damp m)
    (eP : P = varianceGrowth n b cc c1 cmu m (ws.map fun w => max (-w) 0).sum) :
    ∃ a0 a : Fin n → ℝ, o.initialMean = Vec.fin a0 ∧ c.mean = Vec.fin a ∧
      len (a - a0) ≤ s0 * (b * Real.sqrt n) *
        ∑ i ∈ Finset.range (t.filter fun s => ¬ s.Failed).length, (S * Real.sqrt P) ^ i := by
  obtain ⟨hp, _⟩ := params_rep h
  obtain rfl : (optParams o).cs = cs := by have := hp.cs.symm.trans ecs; injection this
  obtain rfl : (optParams o).dampS = damp := by have := hp.dampS.symm.trans ed; injection this
  obtain rfl : (optParams o).cc = cc := by have := hp.cc.symm.trans ec; injection this
  obtain rfl : (optParams o).c1 = c1 := by have := hp.c1.symm.trans e1; injection this
  obtain rfl : (optParams o).cmu = cmu := by have := hp.cmu.symm.trans emu; injection this
  obtain rfl : (optParams o).muEff = m := by have := hp.muEff.symm.trans em; injection this
  obtain rfl : (optParams o).weights = ws :=
    List.map_injective_iff.mpr (fun a b h => by injection h) (hp.weights.symm.trans ew)
  clear hp ecs ed ec e1 emu em ew
  obtain ⟨a0, ha0⟩ := hx.mean
  suffices key : ∃ a : Fin n → ℝ, c.mean = Vec.fin a ∧ len (a - a0) ≤ s0 * (b * Real.sqrt n) *
      ∑ i ∈ Finset.range (t.filter fun s => ¬ s.Failed).length, (S * Real.sqrt P) ^ i by
    obtain ⟨a, h1, h2⟩ := key
    exact ⟨a0, a, ha0, h1, h2⟩
  obtain ⟨w, c0, hnew, he⟩ := h
  induction he with
  | refl =>
    refine ⟨a0, by rw [← ha0]; exact (c31_fresh hnew).2.2.1, ?_⟩
    have : len (0 : Fin n → ℝ) = 0 := by simp [len]
    simp [this]
  | quiet _ hq ha ih =>
    obtain ⟨e, _⟩ := quiet_sameSearch hq ha
    unfold CMAES.mean
    rw [e.state]
    exact ih
  | @next c1' c2 t kind calls res he hn hl ih =>
    have hprev : History.Of env obj o t c1' := ⟨w, c0, hnew, he⟩
    obtain ⟨a, ea, ih⟩ := ih
    obtain ⟨hp, hq⟩ := params_rep hprev
    by_cases hf : ∃ x, res = some x ∧ .invalidFunctionValue ∈ x.reasons
    · have e2 := ((c11_nan hn hl).2 ((c11_nan hn hl).1.mp hf)).2.1
      refine ⟨a, by rw [e2, ea], ?_⟩
      have hF : (NextCall.Failed { kind, calls, result := res }) := hf
      simpa [List.filter_append, hF] using ih
    · obtain ⟨a1, a', sg, ea1, ea', esg, _, hstep⟩ := c107_points hx hd hb hprev hn hf hl hp.cc hp.c1
        hp.cmu hp.muEff hp.weights eP
      obtain ⟨sg', esg', hsg⟩ := c107_sigma hx hd hb hprev e0 hp.cs hp.dampS hp.muEff
      obtain rfl : sg' = sg := by have := esg'.symm.trans esg; injection this
      obtain rfl : a1 = a := Vec.fin_injective (ea1.symm.trans ea)
      rw [← eS] at hsg
      have hF : ¬ (NextCall.Failed { kind, calls, result := res }) := hf
      have hlen : ((t ++ [({ kind, calls, result := res } : NextCall n XR)]).filter
          fun s => ¬ s.Failed).length = (t.filter fun s => ¬ s.Failed).length + 1 := by
        simp [List.filter_append, hF]
      rw [hlen, Finset.sum_range_succ]
      generalize (t.filter fun s => ¬ s.Failed).length = g at *
      refine ⟨a', ea', ?_⟩
      have e : a' - a0 = (a1 - a0) + (a' - a1) := by abel
      rw [e, mul_add]
      refine (len_add_le _ _).trans (add_le_add ih (hstep.trans ?_))
      rw [mul_pow]
      have hb0 : 0 ≤ b := by linarith
      calc sg' * (b * Real.sqrt n * Real.sqrt P ^ g)
          ≤ s0 * S ^ g * (b * Real.sqrt n * Real.sqrt P ^ g) :=
            mul_le_mul_of_nonneg_right hsg (by positivity)
        _ = s0 * (b * Real.sqrt n) * (S ^ g * Real.sqrt P ^ g) := by ring

/-- **C107, condition.** If `c1 + cmu < 1`, the square of `axis_ratio()`, the condition number of
the covariance matrix, is after `g` generations at most `varianceGrowth^g` divided by
`periodFactor^m` (see C87), where `m` is the number of completed periods between
eigendecompositions. `TolConditionCov` is not reported as long as that does not exceed its
tolerance. -/
theorem c107_condition (hx : ExactRun env o) {b : ℝ} (hd : BoundedDraws env b) (hb : 1 ≤ b)
    (h : History.Of env obj o t c) {cc c1 cmu m P ρ : ℝ} {ws : List ℝ} {k : ℕ}
    (ec : c.parameters.cc = .fin cc) (e1 : c.parameters.c1 = .fin c1)
    (emu : c.parameters.cmu = .fin cmu) (em : c.parameters.muEff = .fin m)
    (ew : c.parameters.weights = ws.map .fin) (hr : c1 + cmu < 1)
    (eP : P = varianceGrowth n b cc c1 cmu m (ws.map fun w => max (-w) 0).sum)
    (hk : k = c.generationsPerEigenUpdate)
    (hρ : ρ = periodFactor n k c1 cmu (ws.map fun w => max (-w) 0).sum) :
    0 < ρ ∧ (∃ a, c.axisRatio = .fin a ∧ 1 ≤ a ∧
      a ^ 2 ≤ P ^ c.generation / ρ ^ (c.generation / k)) ∧
    ∀ t' s tol, t = t' ++ [s] → s.Checked → o.tolConditionCov = .fin tol →
      P ^ c.generation / ρ ^ (c.generation / k) ≤ tol → .tolConditionCov ∉ s.reasons := by
  obtain ⟨hP, C, e, _, ee, _, he⟩ := c107_variance hx hd hb h ec e1 emu em ew eP
  have hgen : (t.filter fun s => ¬ s.Failed).length = c.generation := by
    have h1 := (c06_generations h).2.1
    have h2 := (c36_posDef hx h e1 emu hr).2
    have : (t.filter fun s => s.ReportsPosDef) = [] := by
      rw [List.filter_eq_nil_iff]
      intro s hs
      simpa using h2 s hs
    rw [this] at h1
    simpa using h1.symm
  rw [hgen] at he
  have hs' : rateSum o < 1 := by rw [rateSum_eq h e1 emu]; exact hr
  obtain ⟨r, x, i⟩ := exact_inv hx hs' h
  obtain ⟨hp, hq⟩ := params_rep h
  obtain rfl : e = r.d := Vec.fin_injective (ee.symm.trans (eigenvalues_fin i.rep i.good))
  obtain rfl : (optParams o).c1 = c1 := by have := hp.c1.symm.trans e1; injection this
  obtain rfl : (optParams o).cmu = cmu := by have := hp.cmu.symm.trans emu; injection this
  obtain rfl : (optParams o).weights = ws :=
    (List.map_injective_iff.mpr fun a b hab => by injection hab) (hp.weights.symm.trans ew)
  rw [← negSum_eq, hk] at hρ
  have hpos : 0 < ρ := by rw [hρ]; exact periodFactor_pos h hs'
  obtain ⟨i1, j1, hi, hj, ea⟩ := axisRatio_fin (c := c) hp.dim_ne i.rep i.good
  have hlow : ρ ^ (c.generation / k) ≤ r.d j1 := by
    obtain ⟨h1, h2⟩ := quad_axis i.good j1
    have := decomposed_bound hx hs' h r x i (r.B *ᵥ Pi.single j1 1)
    rw [h1, h2, mul_one, ← hρ, ← hk] at this
    exact this
  have hsq : (Real.sqrt (r.d i1) / Real.sqrt (r.d j1)) ^ 2 ≤
      P ^ c.generation / ρ ^ (c.generation / k) := by
    rw [div_pow, Real.sq_sqrt (i.good.pos i1).le, Real.sq_sqrt (i.good.pos j1).le]
    exact div_le_div₀ (by positivity) (he i1).2 (by positivity) hlow
  have hone : 1 ≤ Real.sqrt (r.d i1) / Real.sqrt (r.d j1) := by
    rw [one_le_div (Real.sqrt_pos.mpr (i.good.pos j1))]
    exact Real.sqrt_le_sqrt (hi j1)
  refine ⟨hpos, ⟨_, ea, hone, hsq⟩, ?_⟩
  rintro t' s tol rfl hs et hle hmem
  rcases (c25_tolConditionCov h hs).mp hmem with hm | hm
  · rw [ea, XR.powi_fin, XR.isNormal_fin, decide_eq_false_iff_not, not_not] at hm
    have := pow_eq_zero_iff two_ne_zero |>.mp hm
    linarith
  · rw [ea, XR.powi_fin, et, XR.lt_fin, decide_eq_true_eq] at hm
    linarith

/-! ### The hypotheses are met -/

namespace WitnessReal

/-- A generator whose normal draws are `-1/2`, `1/2` and `3/2` in turn. -/
noncomputable def cycleRng : RngOps Nat XR :=
  { rng with normal := fun r => (.fin ((r % 3 : ℕ) - 1 / 2), r + 1) }

/-- An environment with exact arithmetic and bounded draws. -/
noncomputable def cycleEnv (n : Nat) : Env n XR Nat := { renv n with rng := cycleRng }

theorem drawNormals_cycle (k r i : Nat) (hi : i < k) :
    (drawNormals cycleRng k r).1.getD i 0 = .fin (((r + i) % 3 : ℕ) - 1 / 2) := by
  induction k generalizing r i with
  | zero => omega
  | succ k ih =>
    cases i with
    | zero => simp [drawNormals, cycleRng]
    | succ i =>
      have := ih (r + 1) i (by omega)
      simp only [drawNormals, List.getD_cons_succ]
      rw [show (cycleRng.normal r).2 = r + 1 from rfl, this, Nat.add_assoc r 1 i, Nat.add_comm 1 i]

theorem cycle_vector (n r : Nat) : (cycleEnv n).rng.vector (n := n) r 0 =
    Vec.fin fun i : Fin n => (((r + i) % 3 : ℕ) : ℝ) - 1 / 2 := by
  funext i
  show (cycleEnv n).rng.draw r (0 * n + i) = _
  rw [Nat.zero_mul, Nat.zero_add]
  exact ((drawNormals_stream cycleRng n r).2 i i.2).symm.trans (drawNormals_cycle n r i i.2)

theorem cycle_nonzero {n : Nat} (hn : n ≠ 0) : NonzeroDraws (cycleEnv n) := fun r =>
  ⟨_, fun h => by
    have := congrFun h ⟨0, Nat.pos_of_ne_zero hn⟩
    simp only [Pi.zero_apply, Nat.add_zero] at this
    have hlt : r % 3 < 3 := Nat.mod_lt _ (by norm_num)
    interval_cases r % 3 <;> norm_num at this, cycle_vector n r⟩

theorem cycle_bounded (n : Nat) : BoundedDraws (cycleEnv n) (3 / 2) := fun r =>
  ⟨_, cycle_vector n r, fun i => by
    have hlt : (r + i) % 3 < 3 := Nat.mod_lt _ (by norm_num)
    show |(((r + i) % 3 : ℕ) : ℝ) - 1 / 2| ≤ 3 / 2
    rw [abs_le]
    interval_cases (r + i) % 3 <;> norm_num⟩

theorem cycle_exact (w : Weights) (lambda : ℕ) :
    ExactRun (cycleEnv 2) { opts with weights := w, populationSize := lambda } :=
  ⟨renv_exact (n := 2), (cycle_nonzero (by norm_num)).real, fun _ => cycle_nonzero (by norm_num), _, rfl⟩

theorem cycle_run (w : Weights) {lambda : ℕ} (h2 : 2 ≤ lambda) (hl : lambda ≤ 32) :
    ∀ k < 2 ^ 30, ∃ t c, History.Of (cycleEnv 2) sphere
      { opts with weights := w, populationSize := lambda } t c ∧ c.generation = k ∧ t.length = k := by
  intro k
  induction k with
  | zero =>
    intro _
    obtain ⟨c, h0⟩ := witness_new (cycleEnv 2) w h2
    obtain ⟨_, _, _, hg, _⟩ := fresh_rep h0 (m := fun i => if i = 0 then 1 else 2) rfl
    exact ⟨[], c, ⟨_, c, h0, .refl c⟩, hg, rfl⟩
  | succ k ih =>
    intro hk
    obtain ⟨t, c, hc, hg, ht⟩ := ih (by omega)
    obtain ⟨d, res, calls, _, _, _, hg', hd⟩ := exact_step (cycle_exact w lambda)
      (rateSum_lt_one (by norm_num) h2 hl) hc
      (witness_canStep (cycleEnv 2) (fun l => ⟨_, rfl⟩) w lambda (by omega))
      (.inl ⟨rfl, by decide⟩) (fun log x => XR.isNaN_fin _) .seq
    exact ⟨_, d, hd, by rw [hg', hg], by simp [ht]⟩

end WitnessReal

theorem sigmaGrowth_small {m : ℝ} (h1 : 1 ≤ m) (h3 : m ≤ 3) :
    sigmaGrowth 2 (3 / 2) (realCs 2 m) (realDampS 2 m) m ≤ 21 := by
  have hc : 3 / 8 ≤ realCs 2 m ∧ realCs 2 m ≤ 1 / 2 := by
    unfold realCs
    push_cast
    constructor
    · rw [le_div_iff₀ (by linarith)]; linarith
    · rw [div_le_iff₀ (by linarith)]; linarith
  have hd : 1 ≤ realDampS 2 m := by
    unfold realDampS
    have := le_max_right (Real.sqrt ((m - 1) / (((2 : ℕ) : ℝ) + 1)) - 1) 0
    linarith
  have hx : realCs 2 m / realDampS 2 m ≤ 1 / 2 := by
    rw [div_le_iff₀ (by linarith)]; linarith
  have hx0 : 0 ≤ realCs 2 m / realDampS 2 m := div_nonneg (by linarith) (by linarith)
  have hs : Real.sqrt ((2 - realCs 2 m) * m / realCs 2 m) ≤ 37 / 10 := by
    refine Real.sqrt_le_iff.mpr ⟨by norm_num, ?_⟩
    rw [div_le_iff₀ (by linarith)]
    nlinarith
  have h2 : 0 < Real.sqrt (2 : ℕ) := Real.sqrt_pos.mpr (by norm_num)
  have he : 3 / 2 * Real.sqrt (2 : ℕ) * Real.sqrt ((2 - realCs 2 m) * m / realCs 2 m) / realChi 2 ≤
      7 := by
    unfold realChi
    rw [div_le_iff₀ (mul_pos h2 (by norm_num))]
    have := mul_le_mul_of_nonneg_left hs h2.le
    push_cast at this h2 ⊢
    nlinarith
  unfold sigmaGrowth
  have e3 : Real.exp 3 ≤ 21 := by
    have h := Real.exp_one_lt_d9
    have : Real.exp 3 = Real.exp 1 ^ 3 := by rw [← Real.exp_nat_mul]; norm_num
    rw [this]
    exact (pow_le_pow_left₀ (Real.exp_pos 1).le h.le 3).trans (by norm_num)
  refine (Real.exp_le_exp.mpr ?_).trans e3
  nlinarith [mul_le_mul_of_nonneg_left he hx0]

open WitnessReal in
/-- Non-vacuity: the first three generations of a run with default options, also with negative
weights. -/
example (w : Weights) : ∃ t s c, History.Of (cycleEnv 2) sphere
      { opts with weights := w, populationSize := 6 } (t ++ [s]) c ∧
    ExactRun (cycleEnv 2) { opts with weights := w, populationSize := 6 } ∧
    BoundedDraws (cycleEnv 2) (3 / 2) ∧ c.generation = 3 ∧ s.Checked ∧ .tolXUp ∉ s.reasons ∧
    ∃ a P ρ : ℝ, c.axisRatio = .fin a ∧ 1 ≤ a ∧ 0 < ρ ∧
      a ^ 2 ≤ P ^ 3 / ρ ^ (3 / c.generationsPerEigenUpdate) := by
  have hx := cycle_exact w 6
  obtain ⟨t, c, hc, hg, ht⟩ := cycle_run w (lambda := 6) (by norm_num) (by norm_num) 2 (by norm_num)
  obtain ⟨d, res, calls, h1, h3, h4, hg', hd⟩ := exact_step hx
    (rateSum_lt_one (by norm_num) (by show 2 ≤ 6; norm_num) (by show 6 ≤ _; norm_num)) hc
    (witness_canStep (cycleEnv 2) (fun l => ⟨_, rfl⟩) w 6 (by omega))
    (.inl ⟨rfl, by decide⟩) (fun log x => XR.isNaN_fin _) .seq
  have hs : NextCall.Checked { kind := .seq, calls, result := res } :=
    ⟨h4, (c36_population hx hd (by show 6 ≤ _; norm_num)).2 _ (by simp)⟩
  obtain ⟨hp, hq⟩ := params_rep hd
  have hcond := c107_condition hx (cycle_bounded 2) (by norm_num) hd hp.cc hp.c1 hp.cmu hp.muEff
    hp.weights (rateSum_lt_one (by norm_num) (by show 2 ≤ 6; norm_num) (by show 6 ≤ _; norm_num))
    rfl rfl rfl
  rw [hg', hg] at hcond
  obtain ⟨hρ, ⟨a, ea, ha1, ha⟩, _⟩ := hcond
  refine ⟨t, _, d, hd, hx, cycle_bounded 2, by rw [hg', hg], hs, ?_, a, _, _, ea, ha1, hρ, ha⟩
  have hm1 := one_le_realMuEff (lambda := 6) (by norm_num) w
  have hm3 := realMuEff_le (lambda := 6) (by norm_num) w
  norm_num at hm3
  refine c107_tolXUp hx (cycle_bounded 2) (by norm_num) hd hs (tol := 10 ^ 8)
    (by show (Flt.ofRat (10 ^ 8) : XR) = _; rw [XR.ofRat_eq]; norm_num)
    hp.cs hp.dampS hp.cc hp.c1 hp.cmu hp.muEff hp.weights rfl rfl ?_
  rw [← negSum_eq]
  have hS := sigmaGrowth_small hm1 hm3
  have hW := hq.b1
  have hle := hq.le_one
  have hcm := hq.cmu
  have hc1 := hq.c1
  have hP : varianceGrowth 2 (3 / 2) (optParams { opts with weights := w, populationSize := 6 }).cc
      (optParams { opts with weights := w, populationSize := 6 }).c1
      (optParams { opts with weights := w, populationSize := 6 }).cmu
      (optParams { opts with weights := w, populationSize := 6 }).muEff
      (-negSum (optParams { opts with weights := w, populationSize := 6 }).weights) ≤ 7 ^ 2 := by
    set q := optParams { opts with weights := w, populationSize := 6 } with hqdef
    have hcc : 1 / 2 ≤ q.cc := by
      show 1 / 2 ≤ realCc 2 (realMuEff 6 w)
      unfold realCc
      push_cast
      rw [le_div_iff₀ (by linarith)]
      linarith
    have hcl := hp.cc_lt
    have hm : 1 ≤ q.muEff ∧ q.muEff ≤ 3 := ⟨hm1, hm3⟩
    have hk : (2 - q.cc) * q.muEff / q.cc ≤ 9 := by
      rw [div_le_iff₀ hp.cc_pos]
      nlinarith
    unfold varianceGrowth
    push_cast
    nlinarith [mul_le_mul_of_nonneg_left hk hc1.le]
  have hsP := Real.sqrt_le_sqrt hP
  rw [Real.sqrt_sq (by norm_num)] at hsP
  have hS0 : 0 ≤ sigmaGrowth 2 (3 / 2) (optParams { opts with weights := w, populationSize := 6 }).cs
      (optParams { opts with weights := w, populationSize := 6 }).dampS
      (optParams { opts with weights := w, populationSize := 6 }).muEff := (Real.exp_pos _).le
  have hb : _ * _ ≤ (21 * 7 : ℝ) := mul_le_mul hS hsP (Real.sqrt_nonneg _) (by norm_num)
  refine (pow_le_pow_left₀ (mul_nonneg hS0 (Real.sqrt_nonneg _)) hb _).trans ?_
  refine (pow_le_pow_right₀ (by norm_num)
    (le_trans (List.length_filter_le _ _) (by simp [ht] : _ ≤ 3))).trans (by norm_num)

end Cmaes
