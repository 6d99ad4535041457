import Verif.Props.Explode
import Verif.Props.Gaussian
import Verif.Props.FirstLimited
import Verif.Props.Print
import Mathlib.Probability.HasLaw
import Mathlib.Probability.ProductMeasure
import Mathlib.Analysis.Complex.ExponentialBounds
import Mathlib.Probability.Moments.SubGaussian

/-!
# C109: with normal random numbers a search is unlikely to explode
-/

set_option linter.unusedSectionVars false

open MeasureTheory ProbabilityTheory

namespace Cmaes

/-! ### Specification -/

/-- The bounds of C107 for random numbers of magnitude `b`: on the step size, the eigenvalues and the
distance from the initial mean after the calls `t`, and on when `TolXUp` may be reported. -/
def Tame {n : ℕ} {R : Type} (b : ℝ) (o : Options n XR) (t : List (NextCall n XR))
    (c : CMAES n XR R) : Prop :=
  ∃ (s0 cs damp cc c1 cmu m : ℝ) (ws : List ℝ), o.initialStepSize = .fin s0 ∧
    c.parameters.cs = .fin cs ∧ c.parameters.dampS = .fin damp ∧ c.parameters.cc = .fin cc ∧
    c.parameters.c1 = .fin c1 ∧ c.parameters.cmu = .fin cmu ∧ c.parameters.muEff = .fin m ∧
    c.parameters.weights = ws.map .fin ∧
    let S := sigmaGrowth n b cs damp m
    let P := varianceGrowth n b cc c1 cmu m (ws.map fun w => max (-w) 0).sum
    let g := (t.filter fun s => ¬ s.Failed).length
    (∃ sg, c.sigma = .fin sg ∧ sg ≤ s0 * S ^ g) ∧
    (∃ e : Fin n → ℝ, c.eigenvalues = Vec.fin e ∧ ∀ k, e k ≤ P ^ g) ∧
    (∃ a0 a : Fin n → ℝ, o.initialMean = Vec.fin a0 ∧ c.mean = Vec.fin a ∧
      len (a - a0) ≤ s0 * (b * Real.sqrt n) * ∑ i ∈ Finset.range g, (S * Real.sqrt P) ^ i) ∧
    ∀ t' s tol, t = t' ++ [s] → s.Checked → o.tolXUp = .fin tol → (S * Real.sqrt P) ^ g ≤ tol →
      .tolXUp ∉ s.reasons

variable {n : ℕ}

/-! ### How many numbers are drawn -/

theorem questions_le (ok : Nat → Bool) (pop m : Nat) : questions ok pop m ≤ m * pop := by
  induction m with
  | zero => simp [questions]
  | succ m ih =>
    rw [questions, Nat.succ_mul]
    omega

section
variable {env : Env n XR Nat} {obj : Obj n XR} {o : Options n XR} {t : List (NextCall n XR)}
  {c : CMAES n XR Nat}

theorem stream_position {ω : Nat → ℝ} {m : Nat} (hm : o.maxResamples = some m)
    (h : History.Of (env.withRng (streamRng ω)) obj o t c) :
    c.sampler.rng ≤ (m + 1) * o.populationSize * t.length * n := by
  cases hk : o.constraints with
  | none =>
    rw [(stream_history h hk).1]
    refine Nat.mul_le_mul_right n (Nat.mul_le_mul_right _ ?_)
    exact Nat.le_mul_of_pos_left _ (Nat.succ_pos m)
  | some κ =>
    obtain ⟨w, c0, h0, he⟩ := h
    induction he with
    | refl =>
      obtain ⟨hv, rfl⟩ := new_eq_ok h0
      obtain ⟨a1, a2, -⟩ := create_search (env.withRng (streamRng ω)) w obj o
      rw [a1]
      exact Nat.zero_le _
    | @next c1 c2 t1 kind calls res he' hn hl ih =>
      obtain ⟨h1, h2, -⟩ := c93_limited ⟨w, c0, h0, he'⟩ hk hm hn hl
      rw [h2]
      show (streamRng ω).after _ _ ≤ _
      rw [stream_after, List.length_append, List.length_singleton, Nat.mul_add, Nat.mul_one,
        Nat.add_mul (_ * t1.length)]
      refine Nat.add_le_add ih (Nat.mul_le_mul_right n ?_)
      rw [Nat.add_mul, Nat.one_mul]
      exact Nat.add_le_add (questions_le _ _ _) (le_trans (Nat.le_add_left _ _) h1.le)
    | quiet he' hq ha ih =>
      obtain ⟨ss, -⟩ := quiet_sameSearch hq ha
      rw [ss.sampler]
      exact ih

/-- The history is the same for numbers that differ only later. -/
theorem stream_agree {ω ω' : Nat → ℝ} (h : History.Of (env.withRng (streamRng ω)) obj o t c)
    (hω : ∀ k < c.sampler.rng, ω' k = ω k) : History.Of (env.withRng (streamRng ω')) obj o t c := by
  obtain ⟨N, e1, -, e3⟩ := c89_causal h
  have hrng : c.sampler.rng = N := by
    rw [e1]
    show (streamRng ω).after 0 N = N
    rw [stream_after, Nat.zero_add]
  have := e3 (streamRng ω') fun k hk => by
    show (streamRng ω').draw 0 k = (streamRng ω).draw 0 k
    rw [stream_draw, stream_draw, Nat.zero_add, hω k (hrng ▸ hk)]
  have e : c.withGenerator ((streamRng ω').after ((streamRng ω').seed c.parameters.seed) N) = c := by
    show c.withGenerator ((streamRng ω').after 0 N) = c
    rw [stream_after, Nat.zero_add, ← hrng]
    rfl
  rw [e] at this
  exact this

theorem tame_of_bounded (he : ExactEigen env) (hm : ∃ m, o.initialMean = Vec.fin m) {b : ℝ}
    (hb : 1 ≤ b) {ω : Nat → ℝ} (h : History.Of (env.withRng (streamRng ω)) obj o t c)
    (hω : ∀ k < c.sampler.rng, |ω k| ≤ b ∧ ω k ≠ 0) : Tame b o t c := by
  let ω' : Nat → ℝ := fun k => if k < c.sampler.rng then ω k else 1
  have hω' : ∀ k, |ω' k| ≤ b ∧ ω' k ≠ 0 := by
    intro k
    show |if _ then _ else _| ≤ b ∧ (if _ then _ else _) ≠ _
    split
    · exact hω k ‹_›
    · exact ⟨by simpa using hb, one_ne_zero⟩
  have h' : History.Of (env.withRng (streamRng ω')) obj o t c :=
    stream_agree h fun k hk => if_pos hk
  have hn : n ≠ 0 := by
    obtain ⟨w, c0, h0, -⟩ := h
    exact (dim_pos (new_eq_ok h0).1).ne'
  have hvec : ∀ p, (streamRng ω').vector p 0 = (Vec.fin (fun i => ω' (p + i)) : Vec n XR) := by
    intro p
    funext i
    show (streamRng ω').draw p (0 * n + i) = _
    rw [stream_draw, Nat.zero_mul, Nat.zero_add]
    rfl
  have hx : ExactRun (env.withRng (streamRng ω')) o :=
    ⟨he, fun p => ⟨_, hvec p⟩, fun _ p => ⟨_, fun e => (hω' (p + 0)).2
      (congrFun e ⟨0, Nat.pos_of_ne_zero hn⟩), hvec p⟩, hm⟩
  have hd : BoundedDraws (env.withRng (streamRng ω')) b :=
    fun p => ⟨_, hvec p, fun i => (hω' _).1⟩
  obtain ⟨s0, _, _, _, e0, _⟩ := c39_lower hx h'
  obtain ⟨hp, -⟩ := params_rep h'
  obtain ⟨_, C, e, _, ee, _, hv⟩ := c107_variance hx hd hb h' hp.cc hp.c1 hp.cmu hp.muEff hp.weights rfl
  refine ⟨s0, _, _, _, _, _, _, _, e0, hp.cs, hp.dampS, hp.cc, hp.c1, hp.cmu, hp.muEff, hp.weights,
    c107_sigma hx hd hb h' e0 hp.cs hp.dampS hp.muEff, ⟨e, ee, fun k => (hv k).2⟩,
    c107_travel hx hd hb h' e0 hp.cs hp.dampS hp.cc hp.c1 hp.cmu hp.muEff hp.weights rfl rfl, ?_⟩
  rintro t' s tol rfl hs et hle
  exact c107_tolXUp hx hd hb h' hs et hp.cs hp.dampS hp.cc hp.c1 hp.cmu hp.muEff hp.weights rfl rfl hle

end

/-! ### How likely large numbers are -/

theorem gaussian_subgaussian : HasSubgaussianMGF id 1 (gaussianReal 0 1) where
  integrable_exp_mul t := integrable_exp_mul_gaussianReal t
  mgf_le t := by
    rw [mgf_id_gaussianReal]
    simp

/-- The tail of the normal distribution. -/
theorem gaussian_tail {b : ℝ} (hb : 0 ≤ b) :
    gaussianReal 0 1 {x | b < |x|} ≤ ENNReal.ofReal (2 * Real.exp (-b ^ 2 / 2)) := by
  have key : ∀ Y : ℝ → ℝ, HasSubgaussianMGF Y 1 (gaussianReal 0 1) →
      gaussianReal 0 1 {x | b ≤ Y x} ≤ ENNReal.ofReal (Real.exp (-b ^ 2 / 2)) := by
    intro Y hY
    have := hY.measure_ge_le hb
    rw [NNReal.coe_one, mul_one] at this
    rw [← ofReal_measureReal]
    exact ENNReal.ofReal_le_ofReal this
  have hsub : {x : ℝ | b < |x|} ⊆ {x | b ≤ id x} ∪ {x | b ≤ (-id) x} := by
    intro x hx
    rcases lt_abs.mp (show b < |x| from hx) with h | h
    · exact .inl h.le
    · exact .inr h.le
  refine (measure_mono hsub).trans ((measure_union_le _ _).trans ?_)
  rw [two_mul, ENNReal.ofReal_add (Real.exp_pos _).le (Real.exp_pos _).le]
  exact add_le_add (key _ gaussian_subgaussian) (key _ gaussian_subgaussian.neg)

variable {env : Env n XR Nat} {obj : Obj n XR} {o : Options n XR}

/-- **C109.** Let the random numbers be standard normal; they need not be independent. The probability
that a search leaves the bounds of C107 for the magnitude `b` within `g` calls of `next`, in whatever
way these and other calls are mixed, is at most `2 N exp(-b²/2)`, where `N` is the number of random
numbers that `g` calls can draw. -/
theorem c109_tame {Ω : Type*} [MeasurableSpace Ω] {μ : Measure Ω} {X : ℕ → Ω → ℝ}
    (hX : ∀ k, HasLaw (X k) (gaussianReal 0 1) μ) (he : ExactEigen env)
    (hm : ∃ m, o.initialMean = Vec.fin m) {N g : ℕ}
    (hN : o.constraints = none ∧ N = o.populationSize * g * n ∨
      ∃ m, o.maxResamples = some m ∧ N = (m + 1) * o.populationSize * g * n)
    {b : ℝ} (hb : 1 ≤ b) :
    μ {ω | ∃ t c, t.length ≤ g ∧
        History.Of (env.withRng (streamRng fun k => X k ω)) obj o t c ∧ ¬ Tame b o t c} ≤
      ENNReal.ofReal (2 * N * Real.exp (-b ^ 2 / 2)) := by
  have hsub : {ω | ∃ t c, t.length ≤ g ∧
      History.Of (env.withRng (streamRng fun k => X k ω)) obj o t c ∧ ¬ Tame b o t c} ⊆
      ⋃ k ∈ Finset.range N, {ω | b < |X k ω| ∨ X k ω = 0} := by
    rintro ω ⟨t, c, ht, h, hne⟩
    by_contra hnot
    simp only [Set.mem_iUnion, Finset.mem_range, not_exists, Set.mem_ofPred_eq, not_or, not_lt] at hnot
    have hpos : c.sampler.rng ≤ N := by
      rcases hN with ⟨hc, rfl⟩ | ⟨m, hm, rfl⟩
      · rw [(stream_history h hc).1]
        exact Nat.mul_le_mul_right n (Nat.mul_le_mul_left _ ht)
      · exact (stream_position hm h).trans (Nat.mul_le_mul_right n (Nat.mul_le_mul_left _ ht))
    exact hne (tame_of_bounded he hm hb h fun k hk => hnot k (hk.trans_le hpos))
  refine (measure_mono hsub).trans ((measure_biUnion_finset_le _ _).trans ?_)
  have hone : ∀ k, μ {ω | b < |X k ω| ∨ X k ω = 0} ≤ ENNReal.ofReal (2 * Real.exp (-b ^ 2 / 2)) := by
    intro k
    have e1 : MeasurableSet {x : ℝ | b < |x| ∨ x = 0} :=
      (measurableSet_lt measurable_const measurable_id.abs).union (measurableSet_singleton 0)
    rw [(hX k).measure_eq (p := fun x => b < |x| ∨ x = 0) e1]
    refine (measure_union_le {x | b < |x|} {x | x = 0}).trans ?_
    have : gaussianReal 0 1 {x | x = 0} = 0 :=
      gaussianReal_absolutelyContinuous 0 one_ne_zero Real.volume_singleton
    rw [this, add_zero]
    exact gaussian_tail (by linarith)
  refine (Finset.sum_le_sum fun k _ => hone k).trans (le_of_eq ?_)
  rw [Finset.sum_const, Finset.card_range, nsmul_eq_mul, mul_comm (2 : ℝ) N, mul_assoc,
    ENNReal.ofReal_mul (Nat.cast_nonneg N), ENNReal.ofReal_natCast]

/-! ### The hypotheses are met -/

open WitnessReal in
theorem stream_run {ω : ℕ → ℝ} (hω : ∀ k, ω k ≠ 0) : ∀ k < 2 ^ 30, ∃ t c,
    History.Of ((renv 2).withRng (streamRng ω)) sphere { opts with populationSize := 6 } t c ∧
      c.generation = k ∧ t.length = k := by
  have hvec : ∀ p, (streamRng ω).vector p 0 = (Vec.fin (fun i => ω (p + i)) : Vec 2 XR) := by
    intro p
    funext i
    show (streamRng ω).draw p (0 * 2 + i) = _
    rw [stream_draw, Nat.zero_mul, Nat.zero_add]
    rfl
  have hx : ExactRun ((renv 2).withRng (streamRng ω)) { opts with populationSize := 6 } :=
    ⟨renv_exact (n := 2), fun p => ⟨_, hvec p⟩, fun _ p => ⟨_, fun e => hω (p + 0)
      (congrFun e 0), hvec p⟩, _, rfl⟩
  intro k
  induction k with
  | zero =>
    intro _
    obtain ⟨c, h0⟩ := witness_new ((renv 2).withRng (streamRng ω)) opts.weights (by norm_num : 2 ≤ 6)
    obtain ⟨_, _, _, hg, _⟩ := fresh_rep h0 (m := fun i => if i = 0 then 1 else 2) rfl
    exact ⟨[], c, ⟨_, c, h0, .refl c⟩, hg, rfl⟩
  | succ k ih =>
    intro hk
    obtain ⟨t, c, hc, hg, ht⟩ := ih (by omega)
    obtain ⟨d, res, calls, _, _, _, hg', hd⟩ := exact_step hx
      (rateSum_lt_one (by norm_num) (by show 2 ≤ 6; norm_num) (by show 6 ≤ _; norm_num)) hc
      (witness_canStep ((renv 2).withRng (streamRng ω)) (fun l => ⟨_, rfl⟩) opts.weights 6 (by omega))
      (.inl ⟨rfl, by show 2 ≤ (renv 2).resampleFuel; decide⟩) (fun log x => XR.isNaN_fin _) .seq
    exact ⟨_, d, hd, by rw [hg', hg], by simp [ht]⟩

open WitnessReal in
/-- Non-vacuity: three generations of six points in the plane with independent normal numbers, which
exist unless a number is zero, stay within the bounds for `b = 4` with probability at least 97%. -/
example : let μ := Measure.infinitePi fun _ : ℕ => gaussianReal 0 1
    (∀ k, HasLaw (fun ω : ℕ → ℝ => ω k) (gaussianReal 0 1) μ) ∧
    (∀ ω : ℕ → ℝ, (∀ k, ω k ≠ 0) → ∃ t c, t.length = 3 ∧ c.generation = 3 ∧
      History.Of ((renv 2).withRng (streamRng ω)) sphere { opts with populationSize := 6 } t c) ∧
    μ {ω | ∃ t c, t.length ≤ 3 ∧ History.Of ((renv 2).withRng (streamRng fun k => ω k)) sphere
        { opts with populationSize := 6 } t c ∧
      ¬ Tame 4 { opts with populationSize := 6 } t c} ≤ ENNReal.ofReal (3 / 100) := by
  intro μ
  have hX : ∀ k, HasLaw (fun ω : ℕ → ℝ => ω k) (gaussianReal 0 1) μ := fun k =>
    (measurePreserving_eval_infinitePi (fun _ : ℕ => gaussianReal 0 1) k).hasLaw
  refine ⟨hX, fun ω hω => ?_, ?_⟩
  · obtain ⟨t, c, h, hg, ht⟩ := stream_run hω 3 (by norm_num)
    exact ⟨t, c, ht, hg, h⟩
  · refine (c109_tame (N := 36) (g := 3) hX (renv_exact (n := 2)) ⟨_, rfl⟩ (.inl ⟨rfl, rfl⟩)
      (by norm_num : (1 : ℝ) ≤ 4)).trans (ENNReal.ofReal_le_ofReal ?_)
    have h1 : (2.7 : ℝ) ^ 8 ≤ Real.exp 8 := by
      rw [show (8 : ℝ) = (8 : ℕ) * 1 by norm_num, Real.exp_nat_mul]
      exact pow_le_pow_left₀ (by norm_num) (by linarith [Real.exp_one_gt_d9]) 8
    rw [show (-4 ^ 2 / 2 : ℝ) = -8 by norm_num, Real.exp_neg]
    have : (Real.exp 8)⁻¹ ≤ (2.7 ^ 8)⁻¹ := inv_anti₀ (by norm_num) h1
    push_cast
    norm_num at this ⊢
    linarith

end Cmaes
