import Verif.Props.Descent
import Mathlib.Data.Fin.Tuple.Sort

/-!
# C92: on a slope the search moves downhill on average
-/

set_option linter.unusedSectionVars false

namespace Cmaes
open MeasureTheory ProbabilityTheory Matrix WithLp XR
variable {n : Nat}

/-! ### The expected value of the best -/

/-- The smallest value of `∑ i, W i * y (π i)` over the orders `π`. -/
noncomputable def bestOrder {k : Nat} (W y : Fin k → ℝ) : ℝ :=
  Finset.univ.inf' Finset.univ_nonempty fun π : Equiv.Perm (Fin k) => ∑ i, W i * y (π i)

theorem bestOrder_le {k : Nat} (W y : Fin k → ℝ) (π : Equiv.Perm (Fin k)) :
    bestOrder W y ≤ ∑ i, W i * y (π i) := Finset.inf'_le _ (Finset.mem_univ π)

/-- The smallest value is that of the sorted numbers. -/
theorem bestOrder_sort {k : Nat} {W : Fin k → ℝ} (hW : Antitone W) (y : Fin k → ℝ) :
    bestOrder W y = ∑ i, W i * y (Tuple.sort y i) := by
  refine le_antisymm (bestOrder_le _ _ _) (Finset.le_inf' _ _ fun π _ => ?_)
  have := (hW.antivary (Tuple.monotone_sort y)).sum_mul_le_sum_mul_comp_perm
    (σ := π.trans (Tuple.sort y).symm)
  simpa using this

theorem bestOrder_add {k : Nat} {W : Fin k → ℝ} (hW : ∑ i, W i = 1) (a s : ℝ) (hs : 0 ≤ s)
    (y : Fin k → ℝ) : bestOrder W (fun j => a + s * y j) = a + s * bestOrder W y := by
  have e : ∀ π : Equiv.Perm (Fin k), ∑ i, W i * (a + s * y (π i)) = a + s * ∑ i, W i * y (π i) := by
    intro π
    simp_rw [mul_add, Finset.sum_add_distrib, ← Finset.sum_mul, hW, one_mul, Finset.mul_sum]
    congr 1
    exact Finset.sum_congr rfl fun i _ => by ring
  refine le_antisymm ?_ (Finset.le_inf' _ _ fun π _ => ?_)
  · obtain ⟨π, _, hπ⟩ := Finset.exists_mem_eq_inf' (s := Finset.univ)
      Finset.univ_nonempty fun π : Equiv.Perm (Fin k) => ∑ i, W i * y (π i)
    have := bestOrder_le W (fun j => a + s * y j) π
    rw [e] at this
    refine this.trans (le_of_eq ?_)
    unfold bestOrder
    rw [hπ]
  · rw [e]
    have := mul_le_mul_of_nonneg_left (bestOrder_le W y π) hs
    linarith

/-- A sorted list of the numbers `y`. -/
theorem sorted_eq {k : Nat} {y : Fin k → ℝ} {l : List ℝ} (hp : l.Perm (List.ofFn y))
    (hs : l.Pairwise (· ≤ ·)) : l = List.ofFn fun i => y (Tuple.sort y i) := by
  have h1 : (List.ofFn fun i => y (Tuple.sort y i)).Pairwise (· ≤ ·) :=
    List.pairwise_ofFn.mpr fun i j hij => Tuple.monotone_sort y hij.le
  have h2 : (List.ofFn fun i => y (Tuple.sort y i)).Perm (List.ofFn y) :=
    Equiv.Perm.ofFn_comp_perm (Tuple.sort y) y
  exact (hp.trans h2.symm).eq_of_pairwise' (r := (· ≤ ·)) hs h1

theorem entry_preserving (k : Nat) (j : Fin k) (l : Fin n) :
    MeasurePreserving (fun z : Fin k → Fin n → ℝ => z j l) (standardNormal k n) (gaussianReal 0 1) :=
  (measurePreserving_eval (fun _ : Fin n => gaussianReal 0 1) l).comp
    (measurePreserving_eval (fun _ : Fin k => Measure.pi fun _ : Fin n => gaussianReal 0 1) j)

theorem row_integrable {k : Nat} (b : Fin n → ℝ) (j : Fin k) :
    Integrable (fun z : Fin k → Fin n → ℝ => b ⬝ᵥ z j) (standardNormal k n) ∧
      ∫ z, b ⬝ᵥ z j ∂standardNormal k n = 0 := by
  have h1 : ∀ l, Integrable (fun z : Fin k → Fin n → ℝ => z j l) (standardNormal k n) := fun l =>
    (entry_preserving k j l).integrable_comp_of_integrable IsGaussian.integrable_id
  have h2 : ∀ l, ∫ z : Fin k → Fin n → ℝ, z j l ∂standardNormal k n = 0 := fun l => by
    have := integral_map (μ := standardNormal k n) (f := fun x : ℝ => x)
      (entry_preserving (n := n) k j l).measurable.aemeasurable (by fun_prop)
    rw [(entry_preserving k j l).map_eq, integral_id_gaussianReal] at this
    exact this.symm
  constructor
  · exact integrable_finset_sum _ fun l _ => (h1 l).const_mul _
  · show ∫ z : Fin k → Fin n → ℝ, ∑ l, b l * z j l ∂standardNormal k n = 0
    rw [integral_finset_sum _ fun l _ => (h1 l).const_mul _]
    exact Finset.sum_eq_zero fun l _ => by rw [integral_const_mul, h2, mul_zero]

instance (k : Nat) : (standardNormal k n).IsOpenPosMeasure := by
  have : (gaussianReal 0 1).IsOpenPosMeasure :=
    (gaussianReal_absolutelyContinuous' 0 one_ne_zero).isOpenPosMeasure
  have : (Measure.pi fun _ : Fin n => gaussianReal 0 1).IsOpenPosMeasure :=
    Measure.pi.isOpenPosMeasure _
  exact Measure.pi.isOpenPosMeasure _

/-- The expected weighted mean of the sorted values of independent normal vectors in a direction. -/
theorem best_negative {k : Nat} {w : List ℝ} (hpos : ∀ x ∈ w, 0 < x) (hw : w.Pairwise (· ≥ ·))
    (hs : w.sum = 1) (h1 : 1 ≤ w.length) (hk : w.length < k) {b : Fin n → ℝ} (hb : b ≠ 0) :
    Integrable (fun z : Fin k → Fin n → ℝ => bestOrder (fun i => w.getD i 0) fun j => b ⬝ᵥ z j)
        (standardNormal k n) ∧
      ∫ z : Fin k → Fin n → ℝ, bestOrder (fun i => w.getD i 0) (fun j => b ⬝ᵥ z j)
        ∂standardNormal k n < 0 := by
  set W : Fin k → ℝ := fun i => w.getD i 0 with hWdef
  have hW : Antitone W := getD_antitone hpos hw k
  have hk0 : 0 < k := by omega
  set D : (Fin k → Fin n → ℝ) → ℝ := fun z => bestOrder W fun j => b ⬝ᵥ z j with hD
  set A : (Fin k → Fin n → ℝ) → ℝ := fun z => (∑ j, b ⬝ᵥ z j) / k with hA
  have hcont : ∀ j : Fin k, Continuous fun z : Fin k → Fin n → ℝ => b ⬝ᵥ z j := fun j =>
    Continuous.dotProduct continuous_const (continuous_apply j)
  have hDc : Continuous D := by
    refine Continuous.finset_inf'_apply _ fun π _ => ?_
    exact continuous_finset_sum _ fun i _ => continuous_const.mul (hcont _)
  have hAc : Continuous A := (continuous_finset_sum _ fun j _ => hcont j).div_const _
  have hDi : Integrable D (standardNormal k n) := by
    have := Finset.inf'_induction (s := Finset.univ) Finset.univ_nonempty
      (fun (π : Equiv.Perm (Fin k)) (z : Fin k → Fin n → ℝ) => ∑ i, W i * (b ⬝ᵥ z (π i)))
      (p := fun f => Integrable f (standardNormal k n)) (fun f hf g hg => hf.inf hg)
      (fun π _ => integrable_finset_sum _ fun i _ => (row_integrable b (π i)).1.const_mul _)
    refine this.congr (Filter.Eventually.of_forall fun z => ?_)
    exact Finset.inf'_apply Finset.univ_nonempty _ z
  have hAi : Integrable A (standardNormal k n) :=
    (integrable_finset_sum _ fun j _ => (row_integrable b j).1).div_const _
  have hA0 : ∫ z, A z ∂standardNormal k n = 0 := by
    rw [hA]
    simp only
    rw [integral_div, integral_finset_sum _ fun j _ => (row_integrable b j).1,
      Finset.sum_eq_zero fun j _ => (row_integrable b j).2, zero_div]
  have hle : ∀ z, D z ≤ A z := by
    intro z
    rw [hD]
    simp only
    rw [bestOrder_sort hW]
    refine ((weighted_le_average hpos hw hs h1 hk (Tuple.monotone_sort fun j => b ⬝ᵥ z j)).1).trans
      (le_of_eq ?_)
    rw [hA]
    simp only
    congr 1
    exact Equiv.sum_comp (Tuple.sort fun j => b ⬝ᵥ z j) fun j => b ⬝ᵥ z j
  refine ⟨hDi, ?_⟩
  have hle' : ∫ z, D z ∂standardNormal k n ≤ 0 := by
    rw [← hA0]; exact integral_mono hDi hAi hle
  refine lt_of_le_of_ne hle' fun h0 => ?_
  have hz : ∫ z, (A z - D z) ∂standardNormal k n = 0 := by
    rw [integral_sub hAi hDi, hA0, h0, sub_zero]
  have hae := (integral_eq_zero_iff_of_nonneg (fun z => sub_nonneg.mpr (hle z)) (hAi.sub hDi)).mp hz
  have heq := (Continuous.ae_eq_iff_eq _ (hAc.sub hDc) continuous_const).mp hae
  -- only the first vector is not zero, and it is ranked last
  set z : Fin k → Fin n → ℝ := fun j => if j = ⟨0, hk0⟩ then b else 0 with hzdef
  have hzz := congrFun heq z
  have hval : ∀ j, b ⬝ᵥ z j = if j = ⟨0, hk0⟩ then b ⬝ᵥ b else 0 := fun j => by
    rw [hzdef]; simp only; split <;> simp
  have hbb : 0 < b ⬝ᵥ b := by
    refine lt_of_le_of_ne (Finset.sum_nonneg fun i _ => mul_self_nonneg _) fun h => ?_
    exact hb (dotProduct_self_eq_zero.mp h.symm)
  have hAz : 0 < A z := by
    rw [hA]
    simp only [hval, Finset.sum_ite_eq', Finset.mem_univ, if_true]
    positivity
  have hDz : D z ≤ 0 := by
    refine (bestOrder_le W _ (Equiv.swap ⟨0, hk0⟩ ⟨k - 1, by omega⟩)).trans (le_of_eq ?_)
    refine Finset.sum_eq_zero fun i _ => ?_
    rw [hval]
    split
    · next hi =>
      have : i = ⟨k - 1, by omega⟩ := by
        have := congrArg (Equiv.swap (⟨0, hk0⟩ : Fin k) ⟨k - 1, by omega⟩) hi
        rwa [Equiv.swap_apply_self, Equiv.swap_apply_left] at this
      rw [this]
      have : W ⟨k - 1, by omega⟩ = 0 := getD_ge (by show w.length ≤ k - 1; omega)
      rw [this, zero_mul]
    · rw [mul_zero]
  have : A z - D z = 0 := hzz
  linarith

/-! ### The search -/

variable {env : Env n XR Nat} {obj : Obj n XR} {o : Options n XR} {t : List (NextCall n XR)}
  {c : CMAES n XR Nat}

/-- On real points the objective returns real values, so a call of `next` is not aborted. -/
theorem real_not_failed {ω : Nat → ℝ} (h : History.Of (env.withRng (streamRng ω)) obj o t c)
    (hcon : o.constraints = none) {r : RealState n} (hr : Rep c.state r) {φ : (Fin n → ℝ) → ℝ}
    (hobj : ∀ log x, obj.f log (Vec.fin x) = .fin (φ x)) {z : Fin o.populationSize → Fin n → ℝ}
    {kind : EvalKind} {d : CMAES n XR Nat} {res : Option (TerminationData n XR)}
    (hn : c.next (env.withRng (streamRng (replaceFrom ω (o.populationSize * t.length * n) z))) kind =
      .ok (d, res)) : ¬ ∃ x, res = some x ∧ .invalidFunctionValue ∈ x.reasons := by
  intro hf
  obtain ⟨calls, hl⟩ := next_log hn
  have hz := (stream_history h hcon).2 z
  obtain ⟨e, he, hne⟩ := (c11_nan hn hl).1.mp hf
  have hon := stream_points h hcon hr z hn hl
  have hmem := hon.points.subset (List.mem_map.mpr ⟨e, he, rfl⟩)
  obtain ⟨j, hj⟩ := List.mem_ofFn.mp hmem
  have hfa : Faithful obj.f c.sampler.obj.log calls := by
    obtain ⟨gs, i, _⟩ := fresh_inv (hz.next hn hl)
    obtain ⟨gs', i', _⟩ := fresh_inv hz
    have := i.faithful
    rw [allCalls, List.flatMap_append] at this
    have := this.split.2
    rw [i'.log]
    simpa [allCalls] using this
  obtain ⟨i, hi, rfl⟩ := List.getElem_of_mem he
  rw [faithful_value hfa hi, ← hj, hobj, isNaN_fin] at hne
  cases hne

/-- The value at the new mean of a linear function by which the points are ranked. -/
theorem linear_mean {ω : Nat → ℝ} (h : History.Of (env.withRng (streamRng ω)) obj o t c)
    (hcon : o.constraints = none) {r : RealState n} (hr : Rep c.state r) (hgood : r.Good)
    {φ : (Fin n → ℝ) → ℝ} (hobj : ∀ log x, obj.f log (Vec.fin x) = .fin (φ x)) {g : Fin n → ℝ}
    (hg : ∀ a b, (match o.mode with | .minimize => φ a ≤ φ b | .maximize => φ b ≤ φ a) →
      g ⬝ᵥ a ≤ g ⬝ᵥ b)
    {w : List ℝ} (hw : c.parameters.weights.take (o.populationSize / 2) = w.map .fin)
    {z : Fin o.populationSize → Fin n → ℝ}
    (hx : ExactRun (env.withRng (streamRng (replaceFrom ω (o.populationSize * t.length * n) z))) o)
    {kind : EvalKind} {d : CMAES n XR Nat} {res : Option (TerminationData n XR)}
    (hn : c.next (env.withRng (streamRng (replaceFrom ω (o.populationSize * t.length * n) z))) kind =
      .ok (d, res)) :
    ∃ m', d.mean = Vec.fin m' ∧ g ⬝ᵥ m' = g ⬝ᵥ r.mean + (optParams o).cm * r.sigma *
      bestOrder (fun i => w.getD i 0) fun j => (g ᵥ* r.transform) ⬝ᵥ z j := by
  have hz := (stream_history h hcon).2 z
  have hf := real_not_failed h hcon hr hobj hn
  obtain ⟨calls, hl⟩ := next_log hn
  obtain ⟨m, m', cm, w', xs, e1, e2, e3, e4, e5, e6, e7, e8, e9, e10, e11, e12, e13, e14, e15⟩ :=
    generation_ranked hx hz hn hf hl hobj
  have hww : w' = w := by
    rw [hw] at e6
    exact (List.map_injective_iff.mpr (fun a b hab => by injection hab) e6).symm
  subst hww
  have hm : m = r.mean := by
    have : Vec.fin m = Vec.fin r.mean := e1.symm.trans hr.mean
    funext l
    have := congrFun this l
    injection this
  have hcm : cm = (optParams o).cm := by
    show cm = toReal o.cm
    rw [e3]; rfl
  subst hm hcm
  have hon := stream_points h hcon hr z hn hl
  have hperm : (xs.map Vec.fin).Perm
      ((List.ofFn fun j => r.mean + (r.sigma • r.transform) *ᵥ z j).map Vec.fin) := by
    have h1 := e13.map Prod.fst
    rw [List.map_map] at h1
    have h2 := hon.complete hf
    rw [List.map_ofFn]
    exact h1.trans h2
  have hinj : Function.Injective (Vec.fin : (Fin n → ℝ) → Vec n XR) := fun a b hab => by
    funext l
    have := congrFun hab l
    injection this
  have hperm' : xs.Perm (List.ofFn fun j => r.mean + (r.sigma • r.transform) *ᵥ z j) :=
    (List.map_perm_map_iff hinj).mp hperm
  have hval : ∀ j, g ⬝ᵥ (r.mean + (r.sigma • r.transform) *ᵥ z j) =
      g ⬝ᵥ r.mean + r.sigma * ((g ᵥ* r.transform) ⬝ᵥ z j) := fun j => by
    rw [dotProduct_add, smul_mulVec, dotProduct_smul, dotProduct_mulVec, smul_eq_mul]
  have hsorted := sorted_eq (y := fun j => g ⬝ᵥ r.mean + r.sigma * ((g ᵥ* r.transform) ⬝ᵥ z j))
    (l := xs.map fun x => g ⬝ᵥ x) (by
      have := hperm'.map fun x => g ⬝ᵥ x
      rw [List.map_ofFn] at this
      have e : ((fun x => g ⬝ᵥ x) ∘ fun j => r.mean + (r.sigma • r.transform) *ᵥ z j) =
          fun j => g ⬝ᵥ r.mean + r.sigma * ((g ᵥ* r.transform) ⬝ᵥ z j) := funext hval
      rwa [e] at this) (by
      rw [List.pairwise_map]
      exact e14.imp fun {a b} hab => hg a b hab)
  have hW : Antitone fun i : Fin o.populationSize => w'.getD i 0 := getD_antitone e9 e11 _
  have hWsum : ∑ i : Fin o.populationSize, w'.getD i 0 = 1 := by
    rw [sum_getD_fin _ _ (by omega), e10]
  refine ⟨m', e2, ?_⟩
  have hsum : g ⬝ᵥ (∑ i : Fin xs.length, w'.getD i 0 • xs[i]) =
      bestOrder (fun i : Fin o.populationSize => w'.getD i 0)
        fun j => g ⬝ᵥ r.mean + r.sigma * ((g ᵥ* r.transform) ⬝ᵥ z j) := by
    rw [bestOrder_sort hW, dotProduct_sum]
    have h1 : ∀ i : Fin xs.length, g ⬝ᵥ (w'.getD i 0 • xs[i]) =
        w'.getD (i : Nat) 0 * (xs.map fun x => g ⬝ᵥ x).getD (i : Nat) 0 := fun i => by
      have hi : (i : Nat) < (xs.map fun x => g ⬝ᵥ x).length := by
        rw [List.length_map]; exact i.isLt
      rw [dotProduct_smul, smul_eq_mul, getD_lt hi, List.getElem_map]
      rfl
    simp_rw [h1, hsorted]
    have h2 : ∀ (k : Nat) (hk : k = o.populationSize) (F : Nat → ℝ),
        ∑ i : Fin k, F i = ∑ i : Fin o.populationSize, F i := by
      rintro k rfl F; rfl
    rw [h2 _ e12 fun i => w'.getD i 0 * (List.ofFn fun i : Fin o.populationSize =>
      g ⬝ᵥ r.mean + r.sigma * ((g ᵥ* r.transform) ⬝ᵥ z (Tuple.sort (fun j =>
        g ⬝ᵥ r.mean + r.sigma * ((g ᵥ* r.transform) ⬝ᵥ z j)) i))).getD i 0]
    refine Finset.sum_congr rfl fun i _ => ?_
    rw [getD_lt (i := (i : Nat)) (w := List.ofFn _) (by rw [List.length_ofFn]; exact i.isLt),
      List.getElem_ofFn]
  rw [e15, dotProduct_add, dotProduct_smul, dotProduct_smul, hsum,
    bestOrder_add hWsum _ _ hgood.sigma.le, smul_eq_mul, smul_eq_mul]
  ring

/-- **C92.** On a slope the search moves downhill on average. In the setting of C88, if the
objective is the linear function `x ↦ g ⬝ x` with `g ≠ 0`, the value `G z` of the objective at the
mean after the next generation has an expectation, and it is less than the value at the present
mean if the objective is minimized, and greater if it is maximized. -/
theorem c92_downhill {ω : Nat → ℝ} (hx : ExactRun (env.withRng (streamRng ω)) o)
    (h : History.Of (env.withRng (streamRng ω)) obj o t c) (hcon : o.constraints = none) {a b : ℝ}
    (h1 : c.parameters.c1 = .fin a) (h2 : c.parameters.cmu = .fin b) (hs : a + b < 1)
    {g : Fin n → ℝ} (hg : g ≠ 0) (hobj : ∀ log x, obj.f log (Vec.fin x) = .fin (g ⬝ᵥ x)) :
    let N := o.populationSize * t.length * n
    ∃ (m : Fin n → ℝ) (G : (Fin o.populationSize → Fin n → ℝ) → ℝ),
      c.mean = Vec.fin m ∧
      (∀ z : Fin o.populationSize → Fin n → ℝ,
        History.Of (env.withRng (streamRng (replaceFrom ω N z))) obj o t c) ∧
      (∀ᵐ z ∂standardNormal o.populationSize n, ∀ kind d res,
        c.next (env.withRng (streamRng (replaceFrom ω N z))) kind = .ok (d, res) →
        ∃ m', d.mean = Vec.fin m' ∧ g ⬝ᵥ m' = G z) ∧
      Integrable G (standardNormal o.populationSize n) ∧
      (o.mode = .minimize → ∫ z, G z ∂standardNormal o.populationSize n < g ⬝ᵥ m) ∧
      (o.mode = .maximize → g ⬝ᵥ m < ∫ z, G z ∂standardNormal o.populationSize n) := by
  intro N
  obtain ⟨r, x, i⟩ := exact_inv hx (by rw [rateSum_eq h h1 h2]; exact hs) h
  obtain ⟨hp, hq⟩ := params_rep h
  obtain ⟨w, rest, w1, w2, w3, w4, w5, w6, w7, -⟩ := c33_weights h
  have hw : c.parameters.weights.take (o.populationSize / 2) = w.map .fin := by
    rw [w1, ← w3, ← w2, ← List.map_take, List.take_left']
    rfl
  have hlen1 : 1 ≤ w.length := by omega
  have hlen2 : w.length < o.populationSize := by omega
  have hdir : ∀ g' : Fin n → ℝ, g' ≠ 0 → g' ᵥ* r.transform ≠ 0 := by
    intro g' hg' h0
    have hpd := (decomposed_posDef i.good).dotProduct_mulVec_pos hg'
    rw [← transform_mul_transpose i.good, dotProduct_mulVec, ← vecMul_vecMul] at hpd
    simp [h0] at hpd
  have hk : 0 < (optParams o).cm * r.sigma := mul_pos hq.cm i.good.sigma
  have hint : ∀ g' : Fin n → ℝ, g' ≠ 0 → _ := fun g' hg' =>
    best_negative (k := o.populationSize) w5 w7 w6 hlen1 hlen2 (hdir g' hg')
  have hE : ∀ g' : Fin n → ℝ, g' ≠ 0 →
      Integrable (fun z : Fin o.populationSize → Fin n → ℝ => g' ⬝ᵥ r.mean +
        (optParams o).cm * r.sigma * bestOrder (fun i => w.getD i 0) fun j =>
          (g' ᵥ* r.transform) ⬝ᵥ z j) (standardNormal o.populationSize n) ∧
      ∫ z : Fin o.populationSize → Fin n → ℝ, (g' ⬝ᵥ r.mean +
        (optParams o).cm * r.sigma * bestOrder (fun i => w.getD i 0) fun j =>
          (g' ᵥ* r.transform) ⬝ᵥ z j) ∂standardNormal o.populationSize n < g' ⬝ᵥ r.mean := by
    intro g' hg'
    obtain ⟨a1, a2⟩ := hint g' hg'
    have hprob : IsProbabilityMeasure (standardNormal o.populationSize n) := by
      unfold standardNormal; infer_instance
    refine ⟨(integrable_const _).add (a1.const_mul _), ?_⟩
    rw [integral_add (integrable_const _) (a1.const_mul _), integral_const, integral_const_mul]
    simp only [probReal_univ, one_smul]
    have := mul_neg_of_pos_of_neg hk a2
    linarith
  cases hm : o.mode with
  | minimize =>
    obtain ⟨b1, b2⟩ := hE g hg
    refine ⟨r.mean, _, i.rep.mean, (stream_history h hcon).2, ?_, b1, fun _ => b2,
      (by intro hne; cases hne)⟩
    filter_upwards [exact_ae N hx o.populationSize] with z hz kind d res hn
    exact linear_mean h hcon i.rep i.good hobj (fun a b hab => by rw [hm] at hab; exact hab) hw hz hn
  | maximize =>
    obtain ⟨b1, b2⟩ := hE (-g) (neg_ne_zero.mpr hg)
    refine ⟨r.mean, fun z => -((-g) ⬝ᵥ r.mean +
        (optParams o).cm * r.sigma * bestOrder (fun i => w.getD i 0) fun j =>
          ((-g) ᵥ* r.transform) ⬝ᵥ z j), i.rep.mean, (stream_history h hcon).2, ?_, b1.neg,
      (by intro hne; cases hne), fun _ => ?_⟩
    · filter_upwards [exact_ae N hx o.populationSize] with z hz kind d res hn
      obtain ⟨m', c1, c2⟩ := linear_mean (g := -g) h hcon i.rep i.good hobj (fun a b hab => by
        rw [hm] at hab
        rw [neg_dotProduct, neg_dotProduct]
        exact neg_le_neg hab) hw hz hn
      refine ⟨m', c1, ?_⟩
      rw [neg_dotProduct] at c2
      rw [← c2, neg_neg]
    · rw [integral_neg]
      have := b2
      rw [neg_dotProduct g r.mean] at this
      have e : (-g) ⬝ᵥ r.mean = -(g ⬝ᵥ r.mean) := neg_dotProduct _ _
      rw [e]
      linarith

namespace WitnessReal

/-- The linear function `x₀ - 2 x₁`; zero for points that are not real. -/
noncomputable def slope : Obj 2 XR :=
  { f := fun _ x => .fin (match x 0, x 1 with | .fin a, .fin b => a - 2 * b | _, _ => 0), log := [] }

theorem slope_linear (log : List (Vec 2 XR × XR)) (x : Fin 2 → ℝ) :
    slope.f log (Vec.fin x) = .fin (![1, -2] ⬝ᵥ x) := by
  show (.fin (x 0 - 2 * x 1) : XR) = _
  congr 1
  simp [dotProduct, Fin.sum_univ_two]
  ring

end WitnessReal

open WitnessReal in
/-- Non-vacuity: after 1000 generations with negative weights on the linear function the hypotheses
are met, in both modes, and a further call of `next` returns. -/
example (mode : Mode) : ∃ t c a b, History.Of ((renv 2).withRng (streamRng fun k => k + 1)) slope
      { opts with mode := mode, weights := .negative, populationSize := 6 } t c ∧
    ExactRun ((renv 2).withRng (streamRng fun k => k + 1))
      { opts with mode := mode, weights := .negative, populationSize := 6 } ∧
    c.generation = 1000 ∧ c.parameters.c1 = .fin a ∧ c.parameters.cmu = .fin b ∧ a + b < 1 ∧
    (![1, -2] : Fin 2 → ℝ) ≠ 0 ∧ (∀ log x, slope.f log (Vec.fin x) = .fin (![1, -2] ⬝ᵥ x)) ∧
    ∃ d res, c.next ((renv 2).withRng (streamRng fun k => k + 1)) .par = .ok (d, res) := by
  obtain ⟨t, c, d, res, _, h, hg, _, hn, _⟩ := stream_runs (obj := slope) (fun _ _ => isNaN_fin _)
    mode .negative (lambda := 6) (by norm_num) (by norm_num) .par 1000 (by norm_num)
  obtain ⟨hp, _⟩ := params_rep h
  exact ⟨t, c, _, _, h, stream_exact' _ _ _, hg, hp.c1, hp.cmu,
    rateSum_lt_one (by norm_num) (by show 2 ≤ 6; norm_num) (by show 6 ≤ _; norm_num),
    fun e => by simpa using congrFun e 0, slope_linear, d, res, hn⟩

end Cmaes
