import Verif.Float.Signed
import Verif.Props.Sane

/-!
# C79, C80 with both zeros

The theorems of `Verif.Props.Sane` for IEEE-754 binary64 with signed zeros.
-/

set_option linter.unusedSectionVars false

namespace Cmaes
variable {n : Nat} {R : Type}
open FltLaws

attribute [local instance] S64.someLibm

namespace S64
variable [Libm S64]

theorem erase_mul' (a b : S64) : (a * b).erase = (a.erase * b.erase : F64) := erase_mul a b
theorem erase_add' (a b : S64) : (a + b).erase = (a.erase + b.erase : F64) := erase_add a b

theorem erase_nat (k : ℕ) : (Flt.ofRat (k : ℚ) : S64).erase = (Flt.ofRat (k : ℚ) : F64) := erase_ofRat _

theorem val_erase (a : S64) : val a = val (a.erase : F64) := rfl
theorem isNaN_erase (a : S64) : Flt.isNaN a = Flt.isNaN (a.erase : F64) := rfl

theorem val_zero' : val (0 : S64) = 0 := by
  rw [val_erase]
  show val (Flt.ofRat ((0 : ℕ) : ℚ) : S64).erase = 0
  rw [erase_nat]
  exact f64_val_zero

theorem val_one' : val (1 : S64) = 1 := by
  rw [val_erase]
  show val (Flt.ofRat ((1 : ℕ) : ℚ) : S64).erase = 1
  rw [erase_nat]
  exact f64_val_one

theorem val_nonneg' {x : S64} (h : Flt.isNaN x = true ∨ Flt.le 0 x = true) : 0 ≤ val x := by
  rcases h with h | h
  · rw [isNaN_eq h]
    exact le_refl (0 : EReal)
  · have := (le_iff.mp h).2.2
    rwa [val_zero'] at this

theorem nonneg_of_val {x : S64} (h : 0 ≤ val x) : Flt.isNaN x = true ∨ Flt.le 0 x = true := by
  by_cases hn : Flt.isNaN x = true
  · exact .inl hn
  · rw [Bool.not_eq_true] at hn
    refine .inr (le_iff.mpr ⟨isNaN_ofRat 0, hn, ?_⟩)
    rw [val_zero']
    exact h

theorem one_mul_erase (y : S64) : (1 * y : S64).erase = y.erase := by
  rw [erase_mul']
  have h1 : (1 : S64).erase = (1 : F64) := erase_nat 1
  rw [h1]
  obtain ⟨a, ha, hr⟩ := Ext.rnd_nat (α := Bin64) (K := ℚ) (k := 1) (by norm_num)
  have h1 : (1 : F64) = Ext.fin a := by
    rw [← hr]
    show Fmt.rnd ((((1 : ℕ) : ℚ)) : ℚ) = _
    simp
  rw [h1]
  exact Ext.one_mul' (by rw [ha]; simp) y.erase

theorem square_pos' {x : S64} (h : Flt.le (Flt.ofRat (1 / 2 ^ 537)) x = true) : 0 < val (x * x) := by
  rw [val_erase, erase_mul']
  refine square_pos (x := x.erase) ?_
  have h' : Ext.le (Flt.ofRat (1 / 2 ^ 537) : S64).erase x.erase = true := h
  rw [erase_ofRat] at h'
  exact h'

theorem tiny_pos' : 0 < val (Flt.ofRat (1 / 2 ^ 537) : S64) := by
  rw [val_erase, erase_ofRat, ← f64_val_zero]
  exact (lt_iff.mp (show Flt.lt (0 : F64) (Flt.ofRat (1 / 2 ^ 537)) = true from tiny_pos)).2.2

/-- A quotient by a positive number, without the signs of zero. -/
theorem erase_div_pos {a b : S64} (hb : 0 < val b) : (a / b).erase = Ext.div a.erase b.erase := by
  cases b with
  | negZero =>
    rw [val_erase] at hb
    have : val (zero : F64) = 0 := val_zero
    rw [erase_negZero, this] at hb
    exact absurd hb (lt_irrefl _)
  | num x => exact erase_div a x

/-- A number with the sign of zero forgotten: NaN or `x`. -/
theorem nanOrEq_iff {x y : S64} : NaNOrEq y x ↔ NaNOr y.erase (x.erase : F64) := by
  constructor
  · rintro (h | h)
    · exact .inl h
    · obtain ⟨h1, h2, h3⟩ := feq_iff.mp h
      exact .inr (OneZero.val_inj (F := F64) h1 h2 h3)
  · rintro (h | h)
    · exact .inl h
    · by_cases hn : Flt.isNaN x = true
      · exact .inl hn
      · rw [Bool.not_eq_true] at hn
        have hy : Flt.isNaN y = false := by rw [isNaN_erase, ← h]; exact hn
        exact .inr (feq_iff.mpr ⟨hn, hy, congrArg (val : F64 → EReal) h⟩)

theorem nanOrEq_zero {x : S64} : NaNOrEq 0 x ↔ NaNOr 0 (x.erase : F64) := by
  rw [nanOrEq_iff]
  have : (0 : S64).erase = (0 : F64) := erase_nat 0
  rw [this]

theorem zero_mul_nanOrEq {a b : S64} (h : NaNOrEq 0 a) : NaNOrEq 0 (a * b) := by
  rw [nanOrEq_zero] at h ⊢
  rw [erase_mul']
  exact Ext.zero_mul_nanOr h

theorem mul_zero_nanOrEq {a b : S64} (h : NaNOrEq 0 b) : NaNOrEq 0 (a * b) := by
  rw [nanOrEq_zero] at h ⊢
  rw [erase_mul']
  exact Ext.mul_zero_nanOr h

theorem add_nanOrEq {a b x : S64} (h : NaNOrEq x a) (h' : NaNOrEq 0 b) : NaNOrEq x (a + b) := by
  rw [nanOrEq_zero] at h'
  rw [nanOrEq_iff] at h ⊢
  rw [erase_add']
  exact Ext.add_nanOr h h'

theorem nanOrEq_self (x : S64) : NaNOrEq x x := nanOrEq_iff.mpr (.inr rfl)

theorem absorbing_nan : Absorbing fun x : S64 => Flt.isNaN x = true where
  add_left {a} b h := by
    have : Flt.isNaN (a.erase + b.erase : F64) = true := Ext.isNaN_add_left' h
    rwa [← erase_add'] at this
  add_right a {b} h := by
    have : Flt.isNaN (a.erase + b.erase : F64) = true := Ext.isNaN_add_right' h
    rwa [← erase_add'] at this
  mul_left {a} b h := by
    have : Flt.isNaN (a.erase * b.erase : F64) = true := Ext.isNaN_mul_left h
    rwa [← erase_mul'] at this
  mul_right a {b} h := by
    have : Flt.isNaN (a.erase * b.erase : F64) = true := Ext.isNaN_mul_right h
    rwa [← erase_mul'] at this

theorem nonFinite_erase (a : S64) : NonFinite a ↔ NonFinite (a.erase : F64) := Iff.rfl

theorem absorbing_nonfinite : Absorbing (NonFinite : S64 → Prop) where
  add_left b h := by
    rw [nonFinite_erase, erase_add']
    exact Cmaes.absorbing_nonfinite.add_left _ h
  add_right a b h := by
    rw [nonFinite_erase, erase_add']
    exact Cmaes.absorbing_nonfinite.add_right _ h
  mul_left b h := by
    rw [nonFinite_erase, erase_mul']
    exact Cmaes.absorbing_nonfinite.mul_left _ h
  mul_right a b h := by
    rw [nonFinite_erase, erase_mul']
    exact Cmaes.absorbing_nonfinite.mul_right _ h

/-- The square roots of the eigenvalues: on the diagonal only NaN and positive numbers. -/
def PositiveRoots (s : State n S64) : Prop :=
  ∀ i, Flt.isNaN (s.cov.sqrtEigenvalues i i) = true ∨
    Flt.le (Flt.ofRat (1 / 2 ^ 537)) (s.cov.sqrtEigenvalues i i) = true

theorem update_signs (hl : SaneLibm S64) {eigen : Mat n S64 → Option (Mat n S64 × Vec n S64)}
    {tree : SplitTree} {evals : Nat} {p : Parameters S64} {inds : List (EvaluatedPoint n S64)}
    {s s' : State n S64} {b : Bool} (h : s.update eigen tree evals p inds = .ok (s', b))
    (h1 : 0 ≤ val s.sigma) (h2 : PositiveRoots s) : 0 ≤ val s'.sigma ∧ PositiveRoots s' := by
  obtain ⟨⟨x, hx⟩, -, -, hroots⟩ := update_shape h
  constructor
  · rw [hx, val_erase, erase_mul']
    exact Ext.mul_nonneg' h1 (val_nonneg' (hl.exp x))
  · rcases hroots with e | ⟨vals, hpos, e⟩
    · intro i
      rw [e]
      exact h2 i
    · intro i
      rw [e]
      show Flt.isNaN (if i = i then Flt.sqrt (vals i) else 0) = true ∨
        Flt.le _ (if i = i then Flt.sqrt (vals i) else 0) = true
      rw [if_pos rfl]
      by_cases hn : Flt.isNaN (vals i) = true
      · exact .inl (hl.sqrt_nan _ hn)
      · rw [Bool.not_eq_true] at hn
        refine .inr (hl.sqrt _ (lt_iff.mpr ⟨isNaN_ofRat 0, hn, ?_⟩))
        by_contra hle
        have : Flt.le (vals i) 0 = true := le_iff.mpr ⟨hn, isNaN_ofRat 0, not_lt.mp hle⟩
        rw [hpos i] at this
        cases this

end S64

section
variable [Libm S64] {env : Env n S64 R} {obj : Obj n S64} {o : Options n S64}
  {t : List (NextCall n S64)} {c d : CMAES n S64 R}
open S64 (val_erase isNaN_erase)

theorem S64.signs (hl : SaneLibm S64) (h : History.Of env obj o t c) :
    0 ≤ val c.state.sigma ∧ S64.PositiveRoots c.state := by
  obtain ⟨w, c0, h0, he⟩ := h
  induction he with
  | refl =>
    obtain ⟨hv, rfl⟩ := new_eq_ok h0
    rw [(create_search env w obj o).2.2.1]
    constructor
    · have hs := (validate_sigma hv).2
      have := (lt_iff.mp hs).2.2
      rw [S64.val_zero'] at this
      exact this.le
    · intro i
      refine .inr ?_
      show Flt.le _ (Mat.one i i) = true
      unfold Mat.one
      rw [if_pos rfl]
      refine le_iff.mpr ⟨isNaN_ofRat _, isNaN_ofRat 1, ?_⟩
      refine val_ofRat_mono ?_
      rw [Nat.cast_one, div_le_one (by positivity)]
      exact one_le_pow₀ (by norm_num)
  | quiet _ hq ha ih =>
    rw [(quiet_sameSearch hq ha).1.state]
    exact ih
  | next _ hn _ ih =>
    obtain ⟨_, _, _, _, _, _, hc⟩ := next_core hn
    rcases hc with ⟨_, hs, _⟩ | ⟨inds, ok, _, _, hu, _⟩
    · rw [hs]; exact ih
    · exact S64.update_signs hl hu ih.1 ih.2

/-- **C79 (both zeros).** In binary64 with signed zeros: the step size is never negative, the
eigenvalues are positive, and the axis ratio is at least one, except that each may be NaN. -/
theorem c79_signs_signed (hl : SaneLibm S64) (h : History.Of env obj o t c) :
    (Flt.isNaN c.sigma = true ∨ Flt.le 0 c.sigma = true) ∧
    (∀ i, Flt.isNaN (c.eigenvalues i) = true ∨ Flt.lt 0 (c.eigenvalues i) = true) ∧
    (Flt.isNaN c.axisRatio = true ∨ Flt.le 1 c.axisRatio = true) := by
  obtain ⟨h1, h2⟩ := S64.signs hl h
  have hlo : ∀ i, Flt.isNaN (c.state.cov.sqrtEigenvalues.diag i) = true ∨
      val (Flt.ofRat (1 / 2 ^ 537) : S64) ≤ val (c.state.cov.sqrtEigenvalues.diag i) := fun i =>
    (h2 i).imp id fun h => (le_iff.mp h).2.2
  have hn0 : n ≠ 0 := by
    obtain ⟨w, c0, h0, -⟩ := h
    exact (validate_sigma (new_eq_ok h0).1).1
  refine ⟨S64.nonneg_of_val h1, fun i => ?_, ?_⟩
  · have e : (c.eigenvalues i).erase =
        (c.state.cov.sqrtEigenvalues i i * c.state.cov.sqrtEigenvalues i i).erase :=
      S64.one_mul_erase (c.state.cov.sqrtEigenvalues i i * c.state.cov.sqrtEigenvalues i i)
    rcases h2 i with h | h
    · left
      have := S64.absorbing_nan.mul_left (c.state.cov.sqrtEigenvalues i i) h
      rw [isNaN_erase, ← e] at this
      exact this
    · have hp := S64.square_pos' h
      by_cases hn : Flt.isNaN (c.eigenvalues i) = true
      · exact .inl hn
      · rw [Bool.not_eq_true] at hn
        refine .inr (lt_iff.mpr ⟨isNaN_ofRat 0, hn, ?_⟩)
        rw [S64.val_zero', val_erase, e]
        exact hp
  · show Flt.isNaN (c.state.cov.sqrtEigenvalues.diag.max / c.state.cov.sqrtEigenvalues.diag.min) = true ∨
      Flt.le 1 (c.state.cov.sqrtEigenvalues.diag.max / c.state.cov.sqrtEigenvalues.diag.min) = true
    generalize hmx : c.state.cov.sqrtEigenvalues.diag.max = mx
    generalize hmn : c.state.cov.sqrtEigenvalues.diag.min = mn
    have hmm := max_min c.state.cov.sqrtEigenvalues.diag hn0 hlo
    rw [hmx, hmn] at hmm
    by_cases hn : Flt.isNaN (mx / mn) = true
    · exact .inl hn
    · rw [Bool.not_eq_true] at hn
      refine .inr (le_iff.mpr ⟨isNaN_ofRat 1, hn, ?_⟩)
      rw [S64.val_one']
      rcases hmm with ⟨hm, hm'⟩ | ⟨-, -, hmin, hle⟩
      · have : Flt.isNaN (mx / mn) = true := by
          rw [isNaN_eq hm, isNaN_eq hm']
          rfl
        rw [hn] at this
        cases this
      · have hp := S64.tiny_pos'.trans_le hmin
        rw [val_erase, S64.erase_div_pos hp]
        rw [isNaN_erase, S64.erase_div_pos hp] at hn
        exact Ext.one_le_div' hp hle hn

/-- **C80 (mean, both zeros).** -/
theorem c80_mean_signed (he : Exec env c t d) (i : Fin n) :
    (Flt.isNaN (c.mean i) = true →
      Flt.isNaN (d.mean i) = true ∧ ∀ s ∈ t, ∀ q ∈ s.calls, Flt.isNaN (q.1 i) = true) ∧
    (NonFinite (c.mean i) → NonFinite (d.mean i) ∧ ∀ s ∈ t, ∀ q ∈ s.calls, NonFinite (q.1 i)) :=
  ⟨absorbed_mean S64.absorbing_nan he i, absorbed_mean S64.absorbing_nonfinite he i⟩

/-- **C80 (step size, both zeros).** -/
theorem c80_sigma_signed (he : Exec env c t d) :
    (Flt.isNaN c.sigma = true →
      Flt.isNaN d.sigma = true ∧ (∀ s ∈ t, ∀ q ∈ s.calls, ∀ i, Flt.isNaN (q.1 i) = true) ∧
      ((∃ s ∈ t, ¬ s.Failed) → ∀ i, Flt.isNaN (d.mean i) = true)) ∧
    (NonFinite c.sigma →
      NonFinite d.sigma ∧ (∀ s ∈ t, ∀ q ∈ s.calls, ∀ i, NonFinite (q.1 i)) ∧
      ((∃ s ∈ t, ¬ s.Failed) → ∀ i, NonFinite (d.mean i))) :=
  ⟨absorbed_sigma S64.absorbing_nan he, absorbed_sigma S64.absorbing_nonfinite he⟩

/-- **C80 (covariance, both zeros).** -/
theorem c80_covariance_signed {t0 : List (NextCall n S64)} (hh : History.Of env obj o t0 c)
    (he : Exec env c t d) (i j : Fin n) :
    (Flt.isNaN (c.covarianceMatrix i j) = true → Flt.isNaN (d.covarianceMatrix i j) = true) ∧
    (NonFinite (c.covarianceMatrix i j) → NonFinite (d.covarianceMatrix i j)) :=
  ⟨absorbed_cov S64.absorbing_nan hh he i j, absorbed_cov S64.absorbing_nonfinite hh he i j⟩

/-- **C80 (zero, both zeros).** A step size that has become zero (of either sign) never grows again:
from then on it is zero or NaN, and the mean and all evaluated points have in each coordinate a
number equal to the mean at that moment, or NaN. -/
theorem c80_zero_signed (he : Exec env c t d) (h : Flt.feq c.sigma 0 = true) :
    NaNOrEq 0 d.sigma ∧ (∀ i, NaNOrEq (c.mean i) (d.mean i)) ∧
      ∀ s ∈ t, ∀ q ∈ s.calls, ∀ i, NaNOrEq (c.mean i) (q.1 i) := by
  induction he with
  | refl => exact ⟨.inr h, fun _ => S64.nanOrEq_self _, by simp⟩
  | quiet _ hq ha ih =>
    unfold CMAES.mean CMAES.sigma at ih ⊢
    rw [(quiet_sameSearch hq ha).1.state]
    exact ih
  | next _ hn hl ih =>
    obtain ⟨hpts, hst⟩ := next_parts hn hl
    refine ⟨?_, ?_, ?_⟩
    · unfold CMAES.sigma at ih ⊢
      rcases hst with ⟨hs, -⟩ | ⟨_, _, hu⟩
      · rw [hs]; exact ih.1
      · obtain ⟨⟨x, hx⟩, -⟩ := update_shape hu
        rw [hx]
        exact S64.zero_mul_nanOrEq ih.1
    · intro i
      unfold CMAES.mean CMAES.sigma at ih
      unfold CMAES.mean
      rcases hst with ⟨hs, -⟩ | ⟨_, _, hu⟩
      · rw [hs]; exact ih.2.1 i
      · obtain ⟨-, ⟨yw, hm⟩, -⟩ := update_shape hu
        rw [hm]
        exact S64.add_nanOrEq (ih.2.1 i) (S64.zero_mul_nanOrEq (S64.mul_zero_nanOrEq ih.1))
    · intro s hs q hq i
      rcases List.mem_append.mp hs with hs | hs
      · exact ih.2.2 s hs q hq i
      · rw [List.mem_singleton.mp hs] at hq
        obtain ⟨y, hy⟩ := hpts q hq
        rw [hy]
        exact S64.add_nanOrEq (ih.2.1 i) (S64.zero_mul_nanOrEq ih.1)

end

/-! ### The hypotheses are met -/

section
open Witness (reverseSched)

/-- `saneLibm`, blind to the sign of zero. -/
@[reducible] def signedLibm : Libm S64 where
  sqrt x := .num (saneLibm.sqrt x.erase)
  exp x := .num (saneLibm.exp x.erase)
  ln x := x
  powf x _ := x

theorem signedLibm_sane : letI := signedLibm; SaneLibm S64 := by
  letI := signedLibm
  letI := saneLibm
  have h : SaneLibm F64 := saneLibm_sane
  refine SaneLibm.mk ?_ ?_ ?_
  · intro x
    rcases h.exp x.erase with hx | hx
    · exact .inl hx
    · right
      show Ext.le (Flt.ofRat ((0 : ℕ) : ℚ) : S64).erase _ = true
      rw [S64.erase_ofRat]
      exact hx
  · intro x hx
    have hx : Ext.lt (Flt.ofRat ((0 : ℕ) : ℚ) : S64).erase x.erase = true := hx
    rw [S64.erase_ofRat] at hx
    show Ext.le (Flt.ofRat (1 / 2 ^ 537) : S64).erase _ = true
    rw [S64.erase_ofRat]
    exact h.sqrt x.erase hx
  · intro x hx
    exact h.sqrt_nan x.erase hx

section
variable [Libm S64]

/-- Options for two dimensions and four points per generation; one coordinate starts at `-0`. -/
def signedOpts : Options 2 S64 :=
  { Options.new (fun i => if i = 0 then .negZero else 2) 1 with populationSize := 4, seed := some 1 }

/-- A generator that walks through a short list of numbers. -/
def signedRng : RngOps Nat S64 where
  seed s := s
  normal r := (Flt.ofRat (([1, -2, 3, -1/2, 1/4, 2, -3].getD (r % 7) 0 : ℚ)), r + 1)
  unit r := (Flt.ofRat (1/2), r + 1)
  u64 r := (r, r + 1)
  uniform lo _ r := (lo, r + 1)

/-- An environment. -/
def signedEnv (n : Nat) : Env n S64 Nat where
  rng := signedRng
  restartRng := signedRng
  eigen m := some (Mat.one, m.diag)
  clock k := k
  sched _ := reverseSched
  redTree _ := .leaf
  medianNaN _ := .ok Flt.nan
  randomSeed := 5
  resampleFuel := 20
  runFuel := 20
  restartFuel := 20

/-- The sphere function. -/
def signedSphere : Obj 2 S64 := { f := fun _ x => x 0 * x 0 + x 1 * x 1, log := [] }

end

section
attribute [local instance] signedLibm

/-- The hypotheses of `c79_signs_signed` are met, with an axis ratio above one and a changed step
size. -/
example : SaneLibm S64 ∧ ∃ t c, History.Of (signedEnv 2) signedSphere signedOpts t c ∧
    decide (c.state.generation = 3 ∧ Flt.lt 1 c.axisRatio = true ∧ c.sigma ≠ 1) = true := by
  refine ⟨signedLibm_sane, ?_⟩
  exact exists_history [.seq, .par, .seq] (fun c _ => decide (c.state.generation = 3 ∧
    Flt.lt 1 c.axisRatio = true ∧ c.sigma ≠ 1)) (by decide +kernel) (by decide +kernel)

/-- The hypotheses of `c80_mean_signed` are met. -/
example : ∃ t c u d, History.Of (signedEnv 2) { signedSphere with f := fun _ x => x 1 * x 1 }
      { signedOpts with initialMean := fun i => if i = 0 then Flt.nan else 2 } t c ∧
    Exec (signedEnv 2) c u d ∧
    decide (Flt.isNaN (c.mean 0) = true ∧ d.state.generation = 2) = true :=
  exists_history_exec [.seq] [.par] (fun c d _ => decide (Flt.isNaN (c.mean 0) = true ∧
    d.state.generation = 2)) (by decide +kernel) (by decide +kernel)

/-- The hypotheses of `c80_covariance_signed` are met. -/
example : ∃ t c u d, History.Of { signedEnv 2 with eigen := fun m => some (fun _ _ => Flt.nan, m.diag) }
      { signedSphere with f := fun log _ => Flt.ofNat log.length } signedOpts t c ∧
    Exec { signedEnv 2 with eigen := fun m => some (fun _ _ => Flt.nan, m.diag) } c u d ∧
    decide (Flt.isNaN (c.covarianceMatrix 1 0) = true ∧ d.state.generation = 4) = true :=
  exists_history_exec [.seq, .seq, .seq] [.seq] (fun c d _ => decide (
    Flt.isNaN (c.covarianceMatrix 1 0) = true ∧ d.state.generation = 4))
    (by decide +kernel) (by decide +kernel)

end

section

/-- A library whose `exp` is always `2^-600`. -/
@[reducible] def signedShrinkLibm : Libm S64 :=
  { signedLibm with exp := fun _ => .num (Bin64.rnd (1 / 2 ^ 600)) }

attribute [local instance] signedShrinkLibm

/-- The hypotheses of `c80_zero_signed` are met: two such updates and the step size is zero. -/
example : ∃ t c u d, History.Of (F := S64) (signedEnv 2) signedSphere signedOpts t c ∧
    Exec (F := S64) (signedEnv 2) c u d ∧
    decide (Flt.feq c.sigma 0 = true ∧ d.state.generation = 3) = true :=
  exists_history_exec [.seq, .par] [.seq]
    (fun c d _ => decide (Flt.feq c.sigma 0 = true ∧ d.state.generation = 3))
    (by decide +kernel) (by decide +kernel)

/-- Why `c80_zero_signed` speaks of equal numbers and not of equal bits: a mean coordinate that does
not move can still change from `-0` to `+0`. -/
example : ∃ t c u d, History.Of (F := S64) { signedEnv 2 with rng := { signedRng with
        normal := fun r => (0, r + 1) } } signedSphere signedOpts t c ∧
    Exec (F := S64) { signedEnv 2 with rng := { signedRng with normal := fun r => (0, r + 1) } } c u d ∧
    decide (c.mean 0 = S64.negZero ∧ d.mean 0 ≠ S64.negZero ∧ Flt.feq (d.mean 0) (c.mean 0) = true) = true :=
  exists_history_exec [] [.seq]
    (fun c d _ => decide (c.mean 0 = S64.negZero ∧ d.mean 0 ≠ S64.negZero ∧ Flt.feq (d.mean 0) (c.mean 0) = true))
    (by decide +kernel) (by decide +kernel)

end

section

/-- A library whose `exp` is always `2^600`. -/
@[reducible] def signedGrowLibm : Libm S64 :=
  { signedLibm with exp := fun _ => .num (Bin64.rnd (2 ^ 600)) }

attribute [local instance] signedGrowLibm

/-- The hypotheses of `c80_sigma_signed` are met: two such updates and the step size is infinite. -/
example : ∃ t c u d, History.Of (F := S64) (signedEnv 2)
      { signedSphere with f := fun log _ => Flt.ofNat log.length } signedOpts t c ∧
    Exec (F := S64) (signedEnv 2) c u d ∧
    decide (Flt.isInf c.sigma = true ∧ d.state.generation = 3 ∧ u.any (fun s => ¬ s.Failed) = true) = true :=
  exists_history_exec [.seq, .par] [.seq] (fun c d u => decide (Flt.isInf c.sigma = true ∧
    d.state.generation = 3 ∧ u.any (fun s => ¬ s.Failed) = true))
    (by decide +kernel) (by decide +kernel)

end

end

end Cmaes
