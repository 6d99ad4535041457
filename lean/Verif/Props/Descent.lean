import Verif.Props.Neutral
import Mathlib.Algebra.Order.Rearrangement
import Mathlib.Analysis.Convex.Jensen

/-!
# C91: on a convex objective the mean does better than the generation it comes from

In exact arithmetic.
-/

set_option linter.unusedSectionVars false

namespace Cmaes
open Matrix XR
variable {n : Nat} {R : Type} {env : Env n XR R} {obj : Obj n XR} {o : Options n XR}
  {t : List (NextCall n XR)} {c d : CMAES n XR R} {kind : EvalKind}
  {res : Option (TerminationData n XR)} {calls : List (Vec n XR × XR)}

/-! ### Weighted sums -/

theorem zipWith_sum_fin {V : Type} [AddCommGroup V] [Module ℝ V] :
    ∀ (w : List ℝ) (xs : List V), (List.zipWith (· • ·) w xs).sum =
      ∑ i : Fin xs.length, w.getD i 0 • xs[i] := by
  intro w xs
  induction xs generalizing w with
  | nil => simp
  | cons x xs ih =>
    cases w with
    | nil => simp
    | cons b w =>
      rw [List.zipWith_cons_cons, List.sum_cons, ih w]
      exact (Fin.sum_univ_succ (n := xs.length) fun i =>
        (b :: w).getD i 0 • (x :: xs)[(i : Nat)]).symm

theorem sum_getD_fin : ∀ (k : Nat) (w : List ℝ), w.length ≤ k → ∑ i : Fin k, w.getD i 0 = w.sum := by
  intro k
  induction k with
  | zero => intro w h; simp at h; simp [h]
  | succ k ih =>
    intro w h
    cases w with
    | nil => simp
    | cons b w =>
      rw [Fin.sum_univ_succ, List.sum_cons, ← ih w (by simpa using h)]
      rfl

/-- Chebyshev's sum inequality for sequences that are not constant. -/
theorem chebyshev_lt {k : Nat} {f g : Fin k → ℝ} (hf : Antitone f) (hg : Monotone g)
    (hne : ∃ i j, f j < f i ∧ g i < g j) : k * ∑ i, f i * g i < (∑ i, f i) * ∑ i, g i := by
  have hle : ∀ i j, (f i - f j) * (g i - g j) ≤ 0 := by
    intro i j
    rcases le_total i j with hij | hij
    · exact mul_nonpos_of_nonneg_of_nonpos (sub_nonneg.mpr (hf hij)) (sub_nonpos.mpr (hg hij))
    · exact mul_nonpos_of_nonpos_of_nonneg (sub_nonpos.mpr (hf hij)) (sub_nonneg.mpr (hg hij))
  obtain ⟨i0, j0, h1, h2⟩ := hne
  have hlt : ∑ i, ∑ j, (f i - f j) * (g i - g j) < 0 := by
    refine Finset.sum_neg' (fun i _ => Finset.sum_nonpos fun j _ => hle i j)
      ⟨i0, Finset.mem_univ _, Finset.sum_neg' (fun j _ => hle i0 j) ⟨j0, Finset.mem_univ _, ?_⟩⟩
    exact mul_neg_of_pos_of_neg (sub_pos.mpr h1) (sub_neg.mpr h2)
  have e : ∑ i, ∑ j, (f i - f j) * (g i - g j) =
      2 * (k * ∑ i, f i * g i - (∑ i, f i) * ∑ i, g i) := by
    have : ∀ i j, (f i - f j) * (g i - g j) = f i * g i - f i * g j - f j * g i + f j * g j :=
      fun i j => by ring
    simp_rw [this, Finset.sum_add_distrib, Finset.sum_sub_distrib, Finset.sum_const,
      ← Finset.mul_sum, ← Finset.sum_mul, Finset.card_univ, Fintype.card_fin, nsmul_eq_mul]
    have e' : ∑ x, (∑ i, f i) * g x = (∑ i, f i) * ∑ i, g i := (Finset.mul_sum _ _ _).symm
    have e'' : ∑ x, k * f x * g x = k * ∑ i, f i * g i := by
      rw [Finset.mul_sum]; exact Finset.sum_congr rfl fun i _ => mul_assoc _ _ _
    simp only [e', e'', mul_assoc, ← Finset.mul_sum] at *
    ring
  rw [e] at hlt
  linarith

theorem chebyshev_le {k : Nat} {f g : Fin k → ℝ} (hf : Antitone f) (hg : Monotone g) :
    k * ∑ i, f i * g i ≤ (∑ i, f i) * ∑ i, g i := by
  have := (hf.antivary hg).card_mul_sum_le_sum_mul_sum
  rwa [Fintype.card_fin] at this

theorem getD_lt {w : List ℝ} {i : Nat} (h : i < w.length) : w.getD i 0 = w[i] := by
  rw [List.getD_eq_getElem?_getD, List.getElem?_eq_getElem h, Option.getD_some]

theorem getD_ge {w : List ℝ} {i : Nat} (h : w.length ≤ i) : w.getD i 0 = 0 := by
  rw [List.getD_eq_getElem?_getD, List.getElem?_eq_none h, Option.getD_none]

theorem getD_antitone {w : List ℝ} (hpos : ∀ x ∈ w, 0 < x) (hw : w.Pairwise (· ≥ ·)) (k : Nat) :
    Antitone fun i : Fin k => w.getD i 0 := by
  intro i j hij
  simp only
  by_cases hj : (j : Nat) < w.length
  · have hi : (i : Nat) < w.length := lt_of_le_of_lt hij hj
    rw [getD_lt hi, getD_lt hj]
    rcases eq_or_lt_of_le hij with e | e
    · simp [e]
    · exact List.pairwise_iff_getElem.mp hw _ _ hi hj e
  · rw [getD_ge (by omega)]
    by_cases hi : (i : Nat) < w.length
    · rw [getD_lt hi]
      exact (hpos _ (List.getElem_mem hi)).le
    · rw [getD_ge (by omega)]

/-- A weighted mean with decreasing weights, the last of them zero, of increasing numbers. -/
theorem weighted_le_average {w : List ℝ} {k : Nat} (hpos : ∀ x ∈ w, 0 < x)
    (hw : w.Pairwise (· ≥ ·)) (hs : w.sum = 1) (h1 : 1 ≤ w.length) (hk : w.length < k)
    {g : Fin k → ℝ} (hg : Monotone g) :
    ∑ i : Fin k, w.getD i 0 * g i ≤ (∑ i, g i) / k ∧
      ((∃ i j, g i ≠ g j) → ∑ i : Fin k, w.getD i 0 * g i < (∑ i, g i) / k) := by
  have hk0 : (0 : ℝ) < k := by exact_mod_cast (by omega : 0 < k)
  have hsum : ∑ i : Fin k, w.getD i 0 = 1 := by rw [sum_getD_fin k w hk.le, hs]
  constructor
  · have := chebyshev_le (getD_antitone hpos hw k) hg
    rw [hsum, one_mul] at this
    rw [le_div_iff₀ hk0, mul_comm]
    exact this
  · rintro ⟨i, j, hij⟩
    have := chebyshev_lt (getD_antitone hpos hw k) hg
      ⟨⟨0, by omega⟩, ⟨k - 1, by omega⟩, by
        rw [getD_ge (i := k - 1) (by omega), getD_lt (i := 0) (by omega)]
        exact hpos _ (List.getElem_mem _), by
        have a1 : ∀ i, g ⟨0, by omega⟩ ≤ g i := fun i => hg (Nat.zero_le _)
        have a2 : ∀ i, g i ≤ g ⟨k - 1, by omega⟩ := fun i => hg (by
          show (i : Nat) ≤ k - 1
          have := i.isLt
          omega)
        rcases lt_or_gt_of_ne hij with e | e
        · exact (a1 i).trans_lt (e.trans_le (a2 j))
        · exact (a1 j).trans_lt (e.trans_le (a2 i))⟩
    rw [hsum, one_mul] at this
    rw [lt_div_iff₀ hk0, mul_comm]
    exact this

/-! ### The generation -/

/-- The points of a completed generation from the best to the worst, the new mean, and the values. -/
theorem generation_ranked (hx : ExactRun env o) (h : History.Of env obj o t c)
    (hn : c.next env kind = .ok (d, res))
    (hf : ¬ ∃ x, res = some x ∧ .invalidFunctionValue ∈ x.reasons)
    (hl : d.sampler.obj.log = c.sampler.obj.log ++ calls)
    {φ : (Fin n → ℝ) → ℝ} (hobj : ∀ log x, obj.f log (Vec.fin x) = .fin (φ x)) :
    ∃ (m m' : Fin n → ℝ) (cm : ℝ) (w : List ℝ) (xs : List (Fin n → ℝ)),
      c.mean = Vec.fin m ∧ d.mean = Vec.fin m' ∧ o.cm = .fin cm ∧ 0 < cm ∧ cm ≤ 1 ∧
      c.parameters.weights.take (o.populationSize / 2) = w.map .fin ∧
      1 ≤ w.length ∧ w.length < xs.length ∧
      (∀ x ∈ w, 0 < x) ∧ w.sum = 1 ∧ w.Pairwise (· ≥ ·) ∧ xs.length = o.populationSize ∧
      (xs.map fun x => (Vec.fin x, (.fin (φ x) : XR))).Perm calls ∧
      xs.Pairwise (fun a b => match o.mode with | .minimize => φ a ≤ φ b | .maximize => φ b ≤ φ a) ∧
      m' = (1 - cm) • m + cm • ∑ i : Fin xs.length, w.getD i 0 • xs[i] := by
  obtain ⟨m, m', cm, w, xs, sorted, e1, e2, e3, e4, e5, e6, e7, e8, e9, e10, e11, e12, e13, e14⟩ :=
    c38_mean hx h hn hf hl
  obtain ⟨pos, rest, w1, w2, w3, w4, w5, w6, w7, -⟩ := c33_weights h
  have hwpos : w = pos := by
    have : c.parameters.weights.take w.length = pos.map .fin := by
      rw [w1, e6, ← w3, ← w2, ← List.map_take, List.take_left']
      rfl
    rw [e7] at this
    exact List.map_injective_iff.mpr (fun a b hab => by injection hab) this
  have hval : ∀ e ∈ sorted, ∀ x, e.1 = Vec.fin x → e.2 = .fin (φ x) := by
    intro e he x hex
    have he := e10.mem_iff.mp he
    obtain ⟨j, hj, rfl⟩ := List.getElem_of_mem he
    have hfa : Faithful obj.f c.sampler.obj.log calls := by
      obtain ⟨gs, i, _⟩ := fresh_inv (h.next hn hl)
      obtain ⟨gs', i', _⟩ := fresh_inv h
      have := i.faithful
      rw [allCalls, List.flatMap_append] at this
      have := this.split.2
      rw [i'.log]
      simpa [allCalls] using this
    rw [faithful_value hfa hj, hex, hobj]
  have hsorted : sorted = xs.map fun x => (Vec.fin x, (.fin (φ x) : XR)) := by
    have hlen : sorted.length = xs.length := by
      have := congrArg List.length e12
      simpa using this
    refine List.ext_getElem (by simp [hlen]) fun i h1 h2 => ?_
    have h3 : i < xs.length := by rw [← hlen]; exact h1
    have hp : sorted[i].1 = Vec.fin xs[i] := by
      have := congrArg (fun l => l[i]?) e12
      simpa [List.getElem?_map, List.getElem?_eq_getElem h1, List.getElem?_eq_getElem h3] using this
    rw [List.getElem_map]
    exact Prod.ext hp (hval _ (List.getElem_mem h1) _ hp)
  have hlam : 2 ≤ o.populationSize := by omega
  refine ⟨m, m', cm, w, xs, e1, e2, e3, e4, e5, by rw [← e6, e7], by omega, by omega, e8, e9,
    by rw [hwpos]; exact w7, e13, by rw [← hsorted]; exact e10, ?_, ?_⟩
  · rw [hsorted, List.pairwise_map] at e11
    refine e11.imp fun {a b} hab => ?_
    cases hm : o.mode with
    | minimize =>
      rw [hm] at hab
      have hab : ¬ Flt.lt (.fin (φ b) : XR) (.fin (φ a)) = true := hab
      rw [lt_fin] at hab
      simpa using hab
    | maximize =>
      rw [hm] at hab
      have hab : ¬ Flt.lt (.fin (φ a) : XR) (.fin (φ b)) = true := hab
      rw [lt_fin] at hab
      simpa using hab
  · rw [e14, zipWith_sum_fin]

theorem pairwise_monotone {xs : List (Fin n → ℝ)} {ψ : (Fin n → ℝ) → ℝ}
    (h : xs.Pairwise fun a b => ψ a ≤ ψ b) : Monotone fun i : Fin xs.length => ψ xs[i] := by
  intro i j hij
  rcases eq_or_lt_of_le hij with e | e
  · rw [e]
  · exact List.pairwise_iff_getElem.mp h _ _ i.isLt j.isLt e

/-- The value at the new mean, for points that are ranked by a convex function. -/
theorem convex_step {ψ : (Fin n → ℝ) → ℝ} (hψ : ConvexOn ℝ Set.univ ψ) {m : Fin n → ℝ} {cm : ℝ}
    (hc : 0 < cm) (hc1 : cm ≤ 1) {w : List ℝ} {xs : List (Fin n → ℝ)} (h1 : 1 ≤ w.length)
    (hk : w.length < xs.length) (hpos : ∀ x ∈ w, 0 < x) (hs : w.sum = 1) (hw : w.Pairwise (· ≥ ·))
    (hxs : xs.Pairwise fun a b => ψ a ≤ ψ b) :
    ψ ((1 - cm) • m + cm • ∑ i : Fin xs.length, w.getD i 0 • xs[i]) ≤
        (1 - cm) * ψ m + cm * ((xs.map ψ).sum / xs.length) ∧
      ((∃ a ∈ xs, ∃ b ∈ xs, ψ a ≠ ψ b) →
        ψ ((1 - cm) • m + cm • ∑ i : Fin xs.length, w.getD i 0 • xs[i]) <
          (1 - cm) * ψ m + cm * ((xs.map ψ).sum / xs.length)) := by
  have hW : ∀ i : Fin xs.length, 0 ≤ w.getD i 0 := fun i => by
    by_cases hi : (i : Nat) < w.length
    · rw [getD_lt hi]; exact (hpos _ (List.getElem_mem hi)).le
    · rw [getD_ge (by omega)]
  have hsum : ∑ i : Fin xs.length, w.getD i 0 = 1 := by rw [sum_getD_fin _ w hk.le, hs]
  have a1 := hψ.2 (Set.mem_univ m) (Set.mem_univ (∑ i : Fin xs.length, w.getD i 0 • xs[i]))
    (by linarith) hc.le (by ring : (1 - cm) + cm = 1)
  have a2 : ψ (∑ i : Fin xs.length, w.getD i 0 • xs[i]) ≤
      ∑ i : Fin xs.length, w.getD i 0 * ψ xs[i] :=
    hψ.map_sum_le (fun i _ => hW i) hsum fun _ _ => Set.mem_univ _
  have hmap : (xs.map ψ).sum = ∑ i : Fin xs.length, ψ xs[i] := by
    rw [← List.sum_ofFn]
    congr 1
    refine List.ext_getElem (by simp) fun i h1 h2 => by simp
  obtain ⟨b1, b2⟩ := weighted_le_average hpos hw hs h1 hk (pairwise_monotone hxs)
  rw [hmap]
  simp only [smul_eq_mul] at a1
  constructor
  · have := mul_le_mul_of_nonneg_left (a2.trans b1) hc.le
    linarith
  · rintro ⟨a, ha, b, hb, hab⟩
    obtain ⟨i, hi, rfl⟩ := List.getElem_of_mem ha
    obtain ⟨j, hj, rfl⟩ := List.getElem_of_mem hb
    have := mul_lt_mul_of_pos_left (a2.trans_lt (b2 ⟨⟨i, hi⟩, ⟨j, hj⟩, hab⟩)) hc
    linarith

/-- **C91.** Minimizing a convex function, the value of the function at the mean after a completed
generation is at most `(1 - cm) f(mean) + cm * average`, where the average is over the values of
the generation; it is less unless all these values are equal. (By default `cm` is 1: the new mean is
better than the generation was on average.) In exact arithmetic, with or without constraints,
whatever the random numbers are. -/
theorem c91_convex (hx : ExactRun env o) (h : History.Of env obj o t c)
    (hn : c.next env kind = .ok (d, res))
    (hf : ¬ ∃ x, res = some x ∧ .invalidFunctionValue ∈ x.reasons)
    (hl : d.sampler.obj.log = c.sampler.obj.log ++ calls) (hmode : o.mode = .minimize)
    {φ : (Fin n → ℝ) → ℝ} (hφ : ConvexOn ℝ Set.univ φ)
    (hobj : ∀ log x, obj.f log (Vec.fin x) = .fin (φ x)) :
    ∃ (m m' : Fin n → ℝ) (cm : ℝ) (vs : List ℝ),
      c.mean = Vec.fin m ∧ d.mean = Vec.fin m' ∧ o.cm = .fin cm ∧ 0 < cm ∧ cm ≤ 1 ∧
      calls.map Prod.snd = vs.map .fin ∧ vs.length = o.populationSize ∧
      φ m' ≤ (1 - cm) * φ m + cm * (vs.sum / vs.length) ∧
      ((∃ v ∈ vs, ∃ v' ∈ vs, v ≠ v') → φ m' < (1 - cm) * φ m + cm * (vs.sum / vs.length)) := by
  obtain ⟨m, m', cm, w, xs, e1, e2, e3, e4, e5, -, e7, e8, e9, e10, e11, e12, e13, e14, e15⟩ :=
    generation_ranked hx h hn hf hl hobj
  rw [hmode] at e14
  obtain ⟨b1, b2⟩ := convex_step hφ (m := m) e4 e5 e7 e8 e9 e10 e11 e14
  have hperm : (xs.map φ).Perm (calls.map fun e => toReal e.2) := by
    have := e13.map fun e => toReal e.2
    rwa [List.map_map] at this
  have hlen : (calls.map fun e => toReal e.2).length = xs.length := by
    rw [← hperm.length_eq, List.length_map]
  refine ⟨m, m', cm, calls.map fun e => toReal e.2, e1, e2, e3, e4, e5, ?_, by rw [hlen, e12], ?_, ?_⟩
  · rw [List.map_map]
    refine List.map_congr_left fun e he => ?_
    obtain ⟨x, -, rfl⟩ := List.mem_map.mp (e13.mem_iff.mpr he)
    rfl
  · rw [e15, hlen, ← hperm.sum_eq]
    exact b1
  · rintro ⟨v, hv, v', hv', hne⟩
    rw [e15, hlen, ← hperm.sum_eq]
    obtain ⟨a, ha, rfl⟩ := List.mem_map.mp (hperm.mem_iff.mpr hv)
    obtain ⟨b, hb, rfl⟩ := List.mem_map.mp (hperm.mem_iff.mpr hv')
    exact b2 ⟨a, ha, b, hb, hne⟩

/-- **C91, maximization.** The same for maximizing a concave function. -/
theorem c91_concave (hx : ExactRun env o) (h : History.Of env obj o t c)
    (hn : c.next env kind = .ok (d, res))
    (hf : ¬ ∃ x, res = some x ∧ .invalidFunctionValue ∈ x.reasons)
    (hl : d.sampler.obj.log = c.sampler.obj.log ++ calls) (hmode : o.mode = .maximize)
    {φ : (Fin n → ℝ) → ℝ} (hφ : ConcaveOn ℝ Set.univ φ)
    (hobj : ∀ log x, obj.f log (Vec.fin x) = .fin (φ x)) :
    ∃ (m m' : Fin n → ℝ) (cm : ℝ) (vs : List ℝ),
      c.mean = Vec.fin m ∧ d.mean = Vec.fin m' ∧ o.cm = .fin cm ∧ 0 < cm ∧ cm ≤ 1 ∧
      calls.map Prod.snd = vs.map .fin ∧ vs.length = o.populationSize ∧
      (1 - cm) * φ m + cm * (vs.sum / vs.length) ≤ φ m' ∧
      ((∃ v ∈ vs, ∃ v' ∈ vs, v ≠ v') → (1 - cm) * φ m + cm * (vs.sum / vs.length) < φ m') := by
  obtain ⟨m, m', cm, w, xs, e1, e2, e3, e4, e5, -, e7, e8, e9, e10, e11, e12, e13, e14, e15⟩ :=
    generation_ranked hx h hn hf hl hobj
  rw [hmode] at e14
  obtain ⟨b1, b2⟩ := convex_step hφ.neg (m := m) e4 e5 e7 e8 e9 e10 e11
    (e14.imp fun hab => neg_le_neg hab)
  have hneg : (xs.map (-φ)).sum = -(xs.map φ).sum := by
    clear * -
    induction xs with
    | nil => simp
    | cons x xs ih => rw [List.map_cons, List.map_cons, List.sum_cons, List.sum_cons, ih, neg_add]; rfl
  have hperm : (xs.map φ).Perm (calls.map fun e => toReal e.2) := by
    have := e13.map fun e => toReal e.2
    rwa [List.map_map] at this
  have hlen : (calls.map fun e => toReal e.2).length = xs.length := by
    rw [← hperm.length_eq, List.length_map]
  have hr : (1 - cm) * (-φ) m + cm * ((xs.map (-φ)).sum / xs.length) =
      -((1 - cm) * φ m + cm * ((xs.map φ).sum / xs.length)) := by
    rw [hneg, Pi.neg_apply]; ring
  rw [hr] at b1 b2
  refine ⟨m, m', cm, calls.map fun e => toReal e.2, e1, e2, e3, e4, e5, ?_, by rw [hlen, e12], ?_, ?_⟩
  · rw [List.map_map]
    refine List.map_congr_left fun e he => ?_
    obtain ⟨x, -, rfl⟩ := List.mem_map.mp (e13.mem_iff.mpr he)
    rfl
  · rw [e15, hlen, ← hperm.sum_eq]
    exact neg_le_neg_iff.mp b1
  · rintro ⟨v, hv, v', hv', hne⟩
    rw [e15, hlen, ← hperm.sum_eq]
    obtain ⟨a, ha, rfl⟩ := List.mem_map.mp (hperm.mem_iff.mpr hv)
    obtain ⟨b, hb, rfl⟩ := List.mem_map.mp (hperm.mem_iff.mpr hv')
    exact neg_lt_neg_iff.mp (b2 ⟨a, ha, b, hb, fun e => hne (neg_injective e)⟩)

namespace WitnessReal

theorem sphere_convex : ConvexOn ℝ Set.univ fun x : Fin 2 → ℝ => x 0 * x 0 + x 1 * x 1 := by
  refine ⟨convex_univ, fun x _ y _ a b ha hb hab => ?_⟩
  have key : ∀ u v : ℝ, (a * u + b * v) * (a * u + b * v) ≤ a * (u * u) + b * (v * v) := by
    intro u v
    have hb' : b = 1 - a := by linarith
    have := mul_nonneg (mul_nonneg ha hb) (mul_self_nonneg (u - v))
    rw [hb'] at this ⊢
    nlinarith
  have := key (x 0) (y 0)
  have := key (x 1) (y 1)
  simp only [Pi.add_apply, Pi.smul_apply, smul_eq_mul]
  linarith

end WitnessReal

open WitnessReal in
/-- Non-vacuity: the sphere function is convex, and 1000 generations with negative weights can be
continued. -/
example : ∃ t c d res calls,
    ExactRun (renv 2) { opts with weights := .negative, populationSize := 6 } ∧
    History.Of (renv 2) sphere { opts with weights := .negative, populationSize := 6 } t c ∧
    c.generation = 1000 ∧ c.next (renv 2) .par = .ok (d, res) ∧
    (¬ ∃ x, res = some x ∧ .invalidFunctionValue ∈ x.reasons) ∧
    d.sampler.obj.log = c.sampler.obj.log ++ calls ∧
    (∀ log x, sphere.f log (Vec.fin x) = .fin (x 0 * x 0 + x 1 * x 1)) ∧
    ConvexOn ℝ Set.univ fun x : Fin 2 → ℝ => x 0 * x 0 + x 1 * x 1 := by
  obtain ⟨t, c, d, res, calls, h1, h2, h3, h4, h5, -⟩ := witness_next .negative (lambda := 6)
    (by norm_num) (by norm_num) (k := 1000) (by norm_num) .par
  exact ⟨t, c, d, res, calls, witness_exact _ _, h1, h2, h3, h5, h4, fun _ _ => rfl, sphere_convex⟩

namespace WitnessReal

/-- Minus the sphere function. -/
noncomputable def dome : Obj 2 XR := { f := fun _ x => .fin (-sphereValue x), log := [] }

end WitnessReal

open WitnessReal in
/-- Non-vacuity: minus the sphere function is concave, and 1000 generations that maximize it can be
continued. -/
example : ∃ t c d res calls,
    ExactRun ((renv 2).withRng (streamRng fun k => k + 1))
      { opts with mode := .maximize, weights := .positive, populationSize := 7 } ∧
    History.Of ((renv 2).withRng (streamRng fun k => k + 1)) dome
      { opts with mode := .maximize, weights := .positive, populationSize := 7 } t c ∧
    c.generation = 1000 ∧ c.next ((renv 2).withRng (streamRng fun k => k + 1)) .seq = .ok (d, res) ∧
    (¬ ∃ x, res = some x ∧ .invalidFunctionValue ∈ x.reasons) ∧
    d.sampler.obj.log = c.sampler.obj.log ++ calls ∧
    (∀ log x, dome.f log (Vec.fin x) = .fin (-(x 0 * x 0 + x 1 * x 1))) ∧
    ConcaveOn ℝ Set.univ fun x : Fin 2 → ℝ => -(x 0 * x 0 + x 1 * x 1) := by
  obtain ⟨t, c, d, res, calls, h1, h2, _, h3, h4, h5⟩ := stream_runs (obj := dome)
    (fun _ _ => isNaN_fin _) .maximize .positive (lambda := 7) (by norm_num) (by norm_num) .seq 1000
    (by norm_num)
  exact ⟨t, c, d, res, calls, stream_exact' _ _ _, h1, h2, h3, h5, h4, fun _ _ => rfl,
    sphere_convex.neg⟩

end Cmaes
