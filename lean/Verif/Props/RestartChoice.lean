import Verif.Props.RestartSetup

/-!
# C61: the choices of the restart strategies in binary64
-/

set_option linter.unusedSectionVars false

namespace Cmaes
variable {n : Nat} {R : Type}

/-- A number, perhaps infinite, that is at least `k`. -/
def F64AtLeast (k : ℕ) (x : F64) : Prop := x = .pinf ∨ ∃ a : Bin64, x = .fin a ∧ (k : ℚ) ≤ a.1

theorem rnd_atLeast {k : ℕ} (hk : k ≤ 2 ^ 53) (hk' : 1 ≤ k) {q : ℚ} (h : (k : ℚ) ≤ q) :
    F64AtLeast k (Bin64.rnd q) := by
  have hr : (k : ℚ) ≤ rnd0 q := by
    have := rnd0_mono h
    rwa [rnd0_nat hk] at this
  have hq : 0 < q := lt_of_lt_of_le (by exact_mod_cast hk') h
  unfold Bin64.rnd
  rw [if_pos hq]
  split
  · exact .inr ⟨_, rfl, hr⟩
  · exact .inl rfl

theorem ofNat_atLeast [Libm F64] {k d : ℕ} (hk : k ≤ 2 ^ 53) (hk' : 1 ≤ k) (h : k ≤ d) :
    F64AtLeast k (Flt.ofNat d : F64) := by
  have := rnd_atLeast hk hk' (q := (d : ℚ)) (by exact_mod_cast h)
  have e : (Flt.ofNat d : F64) = Bin64.rnd (d : ℚ) := by
    show Bin64.rnd _ = _
    simp
  rwa [e]

theorem mul_atLeast [Libm F64] {k : ℕ} (hk : k ≤ 2 ^ 53) (hk' : 1 ≤ k) {x y : F64}
    (hx : F64AtLeast k x) (hy : F64AtLeast 1 y) : F64AtLeast k (x * y) := by
  have hk0 : (1 : ℚ) ≤ k := by exact_mod_cast hk'
  rcases hx with rfl | ⟨a, rfl, ha⟩
  · rcases hy with rfl | ⟨b, rfl, hb⟩
    · exact .inl rfl
    · left
      push_cast at hb
      show (if b.1 = 0 then _ else Ext.sinf (true == decide (0 < b.1))) = _
      rw [if_neg (by linarith), decide_eq_true (by linarith)]
      rfl
  · rcases hy with rfl | ⟨b, rfl, hb⟩
    · left
      show (if a.1 = 0 then _ else Ext.sinf (true == decide (0 < a.1))) = _
      rw [if_neg (by linarith), decide_eq_true (by linarith)]
      rfl
    · push_cast at hb
      exact rnd_atLeast hk hk' (show (k : ℚ) ≤ a.1 * b.1 by nlinarith)

theorem floor_atLeast [Libm F64] {k : ℕ} (hk : k ≤ 2 ^ 53) (hk' : 1 ≤ k) {x : F64}
    (hx : F64AtLeast k x) : F64AtLeast k (Flt.floor x) := by
  rcases hx with rfl | ⟨a, rfl, ha⟩
  · exact .inl rfl
  · refine rnd_atLeast hk hk' ?_
    have : (k : ℤ) ≤ ⌊a.1⌋ := Int.le_floor.mpr (by exact_mod_cast ha)
    exact_mod_cast this

theorem toUsize_atLeast [Libm F64] {k : ℕ} (hk : k ≤ 2 ^ 53) {x : F64} (hx : F64AtLeast k x) :
    k ≤ (Flt.toUsize x : ℕ) := by
  rcases hx with rfl | ⟨a, rfl, ha⟩
  · show k ≤ 2 ^ 64 - 1
    omega
  · show k ≤ min (2 ^ 64 - 1) (⌊a.1⌋).toNat
    have : (k : ℤ) ≤ ⌊a.1⌋ := Int.le_floor.mpr (by exact_mod_cast ha)
    omega

theorem one_atLeast [Libm F64] : F64AtLeast 1 (1 : F64) := by
  have := ofNat_atLeast (k := 1) (d := 1) (by norm_num) le_rfl le_rfl
  have e : (Flt.ofNat 1 : F64) = 1 := by
    show Bin64.rnd _ = Bin64.rnd _
    simp
  rwa [e] at this

theorem fmax_atLeast [Libm F64] (x : F64) : F64AtLeast 1 (Flt.fmax x 1) := by
  unfold Flt.fmax
  have h1 := one_atLeast
  rcases h1 with h | ⟨one, h, ho⟩
  · rw [h]
    cases x with
    | nan => exact .inl rfl
    | pinf => exact .inl rfl
    | ninf => exact .inl rfl
    | fin a => exact .inl rfl
  · rw [h]
    cases x with
    | nan => exact .inr ⟨one, rfl, ho⟩
    | pinf => exact .inl rfl
    | ninf => exact .inr ⟨one, rfl, ho⟩
    | fin a =>
      show F64AtLeast 1 (if false = true then _ else if false = true then _ else
        if decide (a.1 < one.1) = true then _ else _)
      by_cases hab : a.1 < one.1
      · simp only [hab, decide_true, Bool.false_eq_true, ↓reduceIte]
        exact .inr ⟨one, rfl, ho⟩
      · simp only [hab, decide_false, Bool.false_eq_true, ↓reduceIte]
        exact .inr ⟨a, rfl, le_trans ho (not_lt.mp hab)⟩

/-- A valid initial step size. -/
def ValidStep [Libm F64] (x : F64) : Prop := Flt.isNormal x = true ∧ Flt.lt 0 x = true

theorem validStep_fin [Libm F64] {e : Bin64} {a : ℤ} (ha : -1022 ≤ a) (h : (2 : ℚ) ^ a ≤ e.1) :
    ValidStep (.fin e) := by
  have hpos : (0 : ℚ) < e.1 := lt_of_lt_of_le (by positivity) h
  constructor
  · show decide (1 / 2 ^ 1022 ≤ |e.1|) = true
    rw [decide_eq_true_iff, abs_of_pos hpos]
    refine le_trans ?_ h
    have : (1 : ℚ) / 2 ^ 1022 = 2 ^ (-1022 : ℤ) := by
      rw [zpow_neg, one_div, ← zpow_natCast, Nat.cast_ofNat]
    rw [this]
    exact zpow_le_zpow_right₀ (by norm_num) ha
  · have hz : (0 : F64) = .fin ⟨0, by simp, by simp⟩ := by
      show Bin64.rnd _ = _
      unfold Bin64.rnd
      simp
    rw [hz]
    show decide ((0 : ℚ) < e.1) = true
    exact decide_eq_true hpos

/-- Dividing by a small integer leaves a valid step size. -/
theorem validStep_div [Libm F64] {size : Bin64} {k : ℕ} {x : F64} (hk : k ≠ 0) (hk8 : k ≤ 8)
    (hx : x = Bin64.rnd (k : ℚ)) (h1 : (2 : ℚ) ^ (-1000 : ℤ) ≤ size.1)
    (h2 : size.1 ≤ (2 : ℚ) ^ (1000 : ℤ)) : ValidStep (.fin size / x) := by
  obtain ⟨c, hc, hc1⟩ := Bin64.rnd_of_abs_le (q := (k : ℚ)) (by
    rw [rnd0_nat (by omega), abs_of_nonneg (by positivity)]
    have : (k : ℚ) ≤ 8 := by exact_mod_cast hk8
    linarith)
  rw [rnd0_nat (by omega)] at hc1
  have hk1 : (1 : ℚ) ≤ k := by exact_mod_cast Nat.one_le_iff_ne_zero.mpr hk
  have hk8' : (k : ℚ) ≤ 8 := by exact_mod_cast hk8
  have hpos : (0 : ℚ) < size.1 := lt_of_lt_of_le (by positivity) h1
  obtain ⟨e, he, e1, _⟩ := Bin64.rnd_between (q := size.1 / k) (a := -1003) (b := 1000)
    (by norm_num) (by norm_num) (by norm_num)
    (by
      have : (2 : ℚ) ^ (-1003 : ℤ) = 2 ^ (-1000 : ℤ) / 8 := by
        rw [show (-1003 : ℤ) = -1000 + -3 by norm_num, zpow_add₀ (by norm_num)]
        norm_num [div_eq_mul_inv]
      rw [this, div_le_div_iff₀ (by norm_num) (by linarith)]
      have : (0 : ℚ) < 2 ^ (-1000 : ℤ) := by positivity
      nlinarith)
    (le_trans (div_le_self hpos.le hk1) h2)
  have hd : (.fin size / x : F64) = .fin e := by
    rw [hx, hc]
    show (if c.1 = 0 then _ else Bin64.rnd (size.1 / c.1)) = _
    rw [hc1, if_neg (by linarith), he]
  rw [hd]
  exact validStep_fin (by norm_num) e1

/-- The sizes that a restart strategy computes with are in the range of the doubles: the size of the
search range is between `2^-1000` and `2^1000` (except for `Local`), and its product with the step
size factor is. For the default factors one half and one fifth, `[0, 10^300]` and
`[0, 10^-300]` are such ranges. -/
def RestartOptions.SizesUsable (o : RestartOptions n F64) [Libm F64] : Prop :=
  ∃ size : Bin64, o.rangeSize = .fin size ∧
    let inRange : ℚ → Prop := fun q => (2 : ℚ) ^ (-1000 : ℤ) ≤ q ∧ q ≤ (2 : ℚ) ^ (1000 : ℤ)
    match o.strategy with
    | .local l => ∃ f : Bin64, l.initialStepSizeFactor = .fin f ∧ inRange (size.1 * f.1)
    | .ipop _ => inRange size.1
    | .bipop b => inRange size.1 ∧
        ∃ f : Bin64, b.lrInitialStepSizeFactor = .fin f ∧ inRange (size.1 * f.1)

/-- `powf(10, -2 u)` for the numbers `u` that can be drawn: the exact value is between 0.01 and 1,
and the computed one between 1/128 and 128. -/
def Env.PowTen [Libm F64] (env : Env n F64 R) : Prop :=
  ∀ u, env.CanDraw u → ∃ p : Bin64, (Flt.powf 10 (-2 * u) : F64) = .fin p ∧ 1 / 128 ≤ p.1 ∧ p.1 ≤ 128

/-- **C61, valid choices, binary64.** If the sizes are in the range of the doubles and the default
population is at least two, every step size and population size a strategy can choose is valid.
Nothing is assumed about the power that gives the population of a local run of BIPOP. -/
theorem c61_choices [Libm F64] {env : Env n F64 R} {o : RestartOptions n F64}
    (hmade : o.strategy.Made) (hsizes : o.SizesUsable) (hpow : env.PowTen)
    (hd : 2 ≤ o.defaultOptions.populationSize) {step : F64} {population : Nat}
    (h : o.MayChoose env step population) :
    (Flt.isNormal step = true ∧ Flt.lt 0 step = true) ∧ 2 ≤ population := by
  obtain ⟨size, hsize, hs⟩ := hsizes
  unfold RestartOptions.MayChoose at h
  have two : (2 : F64) = Bin64.rnd ((2 : ℕ) : ℚ) := by
    show Bin64.rnd _ = _
    simp
  have five : (5 : F64) = Bin64.rnd ((5 : ℕ) : ℚ) := by
    show Bin64.rnd _ = _
    simp
  have hmul : ∀ factor k : ℕ, factor ≠ 0 → 2 ≤ o.defaultOptions.populationSize * factor ^ k :=
    fun factor k hf => le_trans hd (Nat.le_mul_of_pos_right _ (Nat.pow_pos (Nat.pos_of_ne_zero hf)))
  cases hst : o.strategy with
  | «local» l =>
    simp only [hst] at h hs
    obtain ⟨rfl, rfl⟩ := h
    obtain ⟨f, hf, h1, h2⟩ := hs
    rw [hsize, hf]
    exact ⟨c61_local_step size f h1 h2, hd⟩
  | ipop l =>
    simp only [hst] at h hs
    obtain ⟨rfl, k, rfl⟩ := h
    rw [hst] at hmade
    obtain ⟨factor, hm⟩ := hmade
    obtain ⟨rfl, hf⟩ := ipop_new hm
    rw [hsize]
    exact ⟨validStep_div (by norm_num) (by norm_num) two hs.1 hs.2, hmul _ _ hf⟩
  | bipop b =>
    simp only [hst] at h hs
    rw [hst] at hmade
    obtain ⟨lr, factor, hm⟩ := hmade
    obtain ⟨⟨hs1, hs2⟩, f, hf, h1, h2⟩ := hs
    rcases h with ⟨rfl, k, rfl⟩ | ⟨u1, u2, k, hu1, _, rfl, rfl⟩
    · rw [hsize]
      refine ⟨validStep_div (by norm_num) (by norm_num) five hs1 hs2, hmul _ _ ?_⟩
      obtain ⟨hb, hf0⟩ := bipop_new (R := R) (n := n) hm
      rw [hb.factor]
      exact hf0
    · refine ⟨?_, toUsize_atLeast (by norm_num) (floor_atLeast (by norm_num) (by norm_num)
        (mul_atLeast (by norm_num) (by norm_num) (ofNat_atLeast (by norm_num) (by norm_num) hd)
          (fmax_atLeast _)))⟩
      obtain ⟨p, hp, p1, p2⟩ := hpow u1 hu1
      rw [hsize, hf, hp]
      obtain ⟨q, hq, q1, q2⟩ := Bin64.rnd_between (by norm_num) (by norm_num) (by norm_num) h1 h2
      obtain ⟨e, he, e1, e2⟩ := Bin64.rnd_between (q := q.1 * p.1) (a := -1007) (b := 1007)
        (by norm_num) (by norm_num) (by norm_num)
        (by
          have : (2 : ℚ) ^ (-1007 : ℤ) = 2 ^ (-1000 : ℤ) * (1 / 128) := by
            rw [show (-1007 : ℤ) = -1000 + -7 by norm_num, zpow_add₀ (by norm_num)]; norm_num
          rw [this]
          exact mul_le_mul q1 p1 (by norm_num) (le_trans (by positivity) q1))
        (by
          have : (2 : ℚ) ^ (1007 : ℤ) = 2 ^ (1000 : ℤ) * 128 := by
            rw [show (1007 : ℤ) = 1000 + 7 by norm_num, zpow_add₀ (by norm_num)]; norm_num
          rw [this]
          exact mul_le_mul q2 p2 (le_trans (by norm_num) p1) (by positivity))
      have hx : (.fin size * .fin f * .fin p : F64) = .fin e := by
        have a1 : (.fin size * .fin f : F64) = .fin q := hq
        rw [a1]
        exact he
      rw [hx]
      exact validStep_fin (by norm_num) e1

/-- **C61, binary64.** `c61_no_panic_simple` with the sizes in the range of the doubles: a restarter
with any of the three strategies does not panic. -/
theorem c61_no_panic_f64 [Libm F64] {env : Env n F64 R} {o : RestartOptions n F64}
    {r : Restarter n F64 R} {kind : EvalKind} {g : Nat} (hmade : o.strategy.Made)
    (h0 : Restarter.new env o = .ok r) (hrange : o.RangeUsable) (hsizes : o.SizesUsable)
    (hpow : env.PowTen)
    (hcm : Flt.isNormal o.defaultOptions.cm = true ∧ Flt.lt 0 o.defaultOptions.cm = true ∧
      Flt.le o.defaultOptions.cm 1 = true)
    (hd : 2 ≤ o.defaultOptions.populationSize) (hno : o.NoOverflow)
    (hk : o.defaultOptions.constraints = none) (hf : 2 ≤ env.resampleFuel)
    (hpo : o.defaultOptions.plotOptions = none) (hpr : o.defaultOptions.printGapEvals = none)
    (hm : ∀ l, ∃ v, env.medianNaN l = .ok v)
    (hg : o.maxGenerationsPerRun = some g) (hg' : g < 2 ^ 30) (hfuel : max 1 g ≤ env.runFuel)
    (get : List (List (Vec n F64 × F64)) → Obj n F64) (p : Panic) :
    r.run env kind get ≠ .panic p :=
  c61_no_panic_simple hmade h0 hrange hcm hd hno
    (fun _ _ h => c61_choices hmade hsizes hpow hd h) hk hf hpo hpr hm hg hg' hfuel get p

open Witness in
/-- The hypotheses of `c61_no_panic_f64` are met by BIPOP with its defaults. -/
example : ∃ b, BIPOP.new (F := F64) none none = .ok b ∧
    (restartOpts (.bipop b)).strategy.Made ∧
    (∃ r, Restarter.new (wenv 2) (restartOpts (.bipop b)) = .ok r) ∧
    (restartOpts (.bipop b)).RangeUsable ∧ (restartOpts (.bipop b)).SizesUsable ∧
    (wenv 2).PowTen ∧
    (Flt.isNormal (restartOpts (.bipop b)).defaultOptions.cm = true ∧
      Flt.lt 0 (restartOpts (.bipop b)).defaultOptions.cm = true ∧
      Flt.le (restartOpts (.bipop b)).defaultOptions.cm 1 = true) ∧
    2 ≤ (restartOpts (.bipop b)).defaultOptions.populationSize ∧
    (restartOpts (.bipop b)).NoOverflow ∧
    (restartOpts (.bipop b)).defaultOptions.constraints = none ∧ 2 ≤ (wenv 2).resampleFuel ∧
    (restartOpts (.bipop b)).defaultOptions.plotOptions = none ∧
    (restartOpts (.bipop b)).defaultOptions.printGapEvals = none ∧
    (∀ l, ∃ v, (wenv 2).medianNaN l = .ok v) ∧
    (restartOpts (.bipop b)).maxGenerationsPerRun = some 2 ∧ max 1 2 ≤ (wenv 2).runFuel := by
  refine ⟨_, rfl, ⟨none, none, rfl⟩, ?_, ⟨by decide +kernel, by decide +kernel, by decide +kernel⟩,
    ⟨⟨4, by decide +kernel⟩, by decide +kernel, ⟨by decide +kernel, by decide +kernel⟩,
      ⟨rnd0 (2 / 10), by decide +kernel⟩, by decide +kernel, by decide +kernel, by decide +kernel⟩, ?_,
    ⟨by decide +kernel, by decide +kernel, by decide +kernel⟩, by decide +kernel, ?_, rfl,
    by decide, rfl, rfl, fun l => ⟨_, rfl⟩, rfl, by decide⟩
  · exact ((c58_build _ _).2.2).mpr ⟨by decide, by decide +kernel⟩
  · rintro u -
    exact ⟨⟨10, by decide +kernel⟩, by show (10 : F64) = _; decide +kernel, by norm_num, by norm_num⟩
  · show 4 * 2 ^ 10 < 2 ^ 64
    norm_num

end Cmaes
