import Verif.Props.Tolerance
import Verif.WitnessSqrt
import Verif.Float.XR

/-!
# C24: what `TolX` measures; concrete runs for C22 to C25
-/

set_option linter.unusedSectionVars false

namespace Cmaes
open FltLaws

section
variable {n : Nat} {F R : Type} [Flt F]

/-- The documented condition of `TolX`: the standard deviation `sigma * sqrt(C_ii)` is below `tol_x`
in every coordinate, and so is `sigma` times every component of the evolution path. -/
def DocumentedTolX (o : Options n F) (c : CMAES n F R) : Prop :=
  (∀ i, Flt.lt (Flt.abs (c.sigma * Flt.sqrt (c.covarianceMatrix i i))) (tolXBound o) = true) ∧
  (∀ i, Flt.lt (Flt.abs (c.sigma * c.state.pathC i)) (tolXBound o) = true)

instance (o : Options n F) (c : CMAES n F R) : Decidable (DocumentedTolX o c) :=
  inferInstanceAs (Decidable (_ ∧ _))

variable [FltLaws F] {env : Env n F R} {obj : Obj n F} {o : Options n F}
  {t : List (NextCall n F)} {s : NextCall n F} {c : CMAES n F R}

theorem lt_of_le_of_lt' {a b d : F} (h : Flt.le a b = true) (h' : Flt.lt b d = true) :
    Flt.lt a d = true := by
  have a1 := le_iff.mp h
  have a2 := lt_iff.mp h'
  exact lt_iff.mpr ⟨a1.1, a2.2.1, lt_of_le_of_lt a1.2.2 a2.2.2⟩

/-- **C24, part.** If no coordinate's variance, times `sigma`, exceeds its standard deviation, the
documented condition implies that `TolX` is reported. (`c24_missed` shows that the hypothesis is
needed.) -/
theorem c24_complete_partial (h : History.Of env obj o (t ++ [s]) c) (hs : s.Checked)
    (hc : ∀ i, Flt.le (Flt.abs (c.sigma * c.covarianceMatrix i i))
      (Flt.abs (c.sigma * Flt.sqrt (c.covarianceMatrix i i))) = true)
    (hd : DocumentedTolX o c) : .tolX ∈ s.reasons :=
  (c24_implemented h hs).mpr ⟨fun i => lt_of_le_of_lt' (hc i) (hd.1 i), hd.2⟩

/-- **C24, part.** If no coordinate's standard deviation exceeds its variance, times `sigma`, `TolX`
is reported only under the documented condition. (`c24_spurious` shows that the hypothesis is
needed.) -/
theorem c24_sound_partial (h : History.Of env obj o (t ++ [s]) c) (hs : s.Checked)
    (hc : ∀ i, Flt.le (Flt.abs (c.sigma * Flt.sqrt (c.covarianceMatrix i i)))
      (Flt.abs (c.sigma * c.covarianceMatrix i i)) = true)
    (hr : .tolX ∈ s.reasons) : DocumentedTolX o c := by
  obtain ⟨h1, h2⟩ := (c24_implemented h hs).mp hr
  exact ⟨fun i => lt_of_le_of_lt' (hc i) (h1 i), h2⟩

/-- **C24, part.** With unit variances `TolX` is reported exactly under the documented condition. -/
theorem c24_unit_partial (h : History.Of env obj o (t ++ [s]) c) (hs : s.Checked)
    (hc : ∀ i, Flt.sqrt (c.covarianceMatrix i i) = c.covarianceMatrix i i) :
    .tolX ∈ s.reasons ↔ DocumentedTolX o c := by
  rw [c24_implemented h hs]
  unfold DocumentedTolX
  constructor
  · rintro ⟨h1, h2⟩
    exact ⟨fun i => by rw [hc i]; exact h1 i, h2⟩
  · rintro ⟨h1, h2⟩
    exact ⟨fun i => by have := h1 i; rwa [hc i] at this, h2⟩

end

theorem XR.le_abs_mul {a b d : ℝ} (hb : 0 ≤ b) (hbd : b ≤ d) :
    Flt.le (Flt.abs ((.fin a : XR) * .fin b)) (Flt.abs ((.fin a : XR) * .fin d)) = true := by
  show Ext.le (Ext.abs (Ext.fin (a * b) : XR)) (Ext.abs (Ext.fin (a * d) : XR)) = true
  rw [show (Ext.le (Ext.abs (Ext.fin (a * b) : XR)) (Ext.abs (Ext.fin (a * d) : XR)) = true) =
    (Flt.le (Flt.abs (Ext.fin (a * b) : XR)) (Flt.abs (Ext.fin (a * d) : XR)) = true) from rfl]
  rw [le_iff, isNaN_abs, isNaN_abs, val_abs rfl, val_abs rfl]
  refine ⟨rfl, rfl, ?_⟩
  have key : |a * b| ≤ |a * d| := by
    rw [abs_mul, abs_mul, abs_of_nonneg hb, abs_of_nonneg (hb.trans hbd)]
    exact mul_le_mul_of_nonneg_left hbd (abs_nonneg a)
  show max (((a * b : ℝ)) : EReal) (-((a * b : ℝ) : EReal)) ≤
    max (((a * d : ℝ)) : EReal) (-((a * d : ℝ) : EReal))
  rw [← EReal.coe_neg, ← EReal.coe_neg, ← EReal.coe_strictMono.monotone.map_max,
    ← EReal.coe_strictMono.monotone.map_max]
  exact EReal.coe_le_coe_iff.mpr key

/-- In exact arithmetic the hypothesis of `c24_complete_partial` holds for variances of at most
one. -/
theorem XR.variance_le (σ v : ℝ) (h0 : 0 ≤ v) (h1 : v ≤ 1) :
    Flt.le (Flt.abs ((.fin σ : XR) * .fin v)) (Flt.abs ((.fin σ : XR) * Flt.sqrt (.fin v))) =
      true := by
  have e : (Flt.sqrt (.fin v) : XR) = .fin (Real.sqrt v) := if_neg (not_lt.mpr h0)
  rw [e]
  refine XR.le_abs_mul h0 ?_
  apply Real.le_sqrt_of_sq_le
  nlinarith

/-- In exact arithmetic the hypothesis of `c24_sound_partial` holds for variances of at least
one. -/
theorem XR.le_variance (σ v : ℝ) (h1 : 1 ≤ v) :
    Flt.le (Flt.abs ((.fin σ : XR) * Flt.sqrt (.fin v))) (Flt.abs ((.fin σ : XR) * .fin v)) =
      true := by
  have e : (Flt.sqrt (.fin v) : XR) = .fin (Real.sqrt v) := if_neg (by push Not; linarith)
  rw [e]
  refine XR.le_abs_mul (Real.sqrt_nonneg v) ?_
  rw [Real.sqrt_le_left (by linarith)]
  nlinarith

/-! ### Runs that contradict the documentation of `TolX` -/

section
open WitnessSqrt

/-- An environment in one dimension whose generator draws the given numbers in turn. -/
def drawing (l : List ℚ) : Env 1 F64 Nat :=
  { wenv 1 with
    rng := { rng with normal := fun r => (Flt.ofRat (l.getD (r % l.length) 0), r + 1) } }

/-- A function whose values increase with every call. -/
def increasing : Obj 1 F64 := { f := fun log _ => Flt.ofNat log.length, log := [] }

/-- Options in one dimension. -/
def opts1 : Options 1 F64 :=
  { Options.new (fun _ => 1) 1 with populationSize := 4, seed := some 0 }

/-- **C24 fails as documented (spurious report).** In this run `TolX` is reported although the
standard deviation of the only coordinate is not below `tol_x`. -/
theorem c24_spurious : ∃ (env : Env 1 F64 Nat) (obj : Obj 1 F64) (o : Options 1 F64) (t : _)
    (s : NextCall 1 F64) (c : CMAES 1 F64 Nat), History.Of env obj o (t ++ [s]) c ∧ s.Checked ∧
      .tolX ∈ s.reasons ∧
      Flt.lt (tolXBound o) (c.sigma * Flt.sqrt (c.covarianceMatrix 0 0)) = true ∧
      ¬ DocumentedTolX o c := by
  have key := exists_history (env := drawing [1/8, -1/2, 1/8, 1/8]) (obj := increasing)
    (o := { opts1 with tolX := some (Flt.ofRat (3 / 4)) }) [.seq]
    (fun c t => match t with
      | [s] => decide (s.Checked ∧ .tolX ∈ s.reasons ∧ Flt.lt (Flt.ofRat (3 / 4))
          (c.sigma * Flt.sqrt (c.covarianceMatrix 0 0)) = true ∧
          ¬ DocumentedTolX { opts1 with tolX := some (Flt.ofRat (3 / 4)) } c)
      | _ => false) (by decide +kernel) (by decide +kernel)
  obtain ⟨t, c, h, hp⟩ := key
  match t, hp with
  | [s], hp =>
    have := of_decide_eq_true hp
    exact ⟨_, _, _, [], s, c, h, this⟩

/-- **C24 fails as documented (missing report).** In this run the standard deviation of the only
coordinate and the evolution path are below `tol_x`, and `TolX` is not reported. -/
theorem c24_missed : ∃ (env : Env 1 F64 Nat) (obj : Obj 1 F64) (o : Options 1 F64) (t : _)
    (s : NextCall 1 F64) (c : CMAES 1 F64 Nat), History.Of env obj o (t ++ [s]) c ∧ s.Checked ∧
      .tolX ∉ s.reasons ∧ DocumentedTolX o c := by
  have key := exists_history (env := drawing [2, -8, 1/8, 1/8]) (obj := increasing)
    (o := { opts1 with tolX := some (Flt.ofRat (14 / 10)) }) [.seq]
    (fun c t => match t with
      | [s] => decide (s.Checked ∧ .tolX ∉ s.reasons ∧
          DocumentedTolX { opts1 with tolX := some (Flt.ofRat (14 / 10)) } c)
      | _ => false) (by decide +kernel) (by decide +kernel)
  obtain ⟨t, c, h, hp⟩ := key
  match t, hp with
  | [s], hp =>
    have := of_decide_eq_true hp
    exact ⟨_, _, _, [], s, c, h, this⟩

/-- The hypotheses of `c24_complete_partial` are met: a run with a variance below one. -/
example : ∃ (t : _) (s : NextCall 1 F64) (c : CMAES 1 F64 Nat),
    History.Of (drawing [1/8, -1/2, 1/8, 1/8]) increasing { opts1 with tolX := some 1 }
      (t ++ [s]) c ∧ s.Checked ∧
    (∀ i, Flt.le (Flt.abs (c.sigma * c.covarianceMatrix i i))
      (Flt.abs (c.sigma * Flt.sqrt (c.covarianceMatrix i i))) = true) ∧
    DocumentedTolX { opts1 with tolX := some 1 } c := by
  have key := exists_history (env := drawing [1/8, -1/2, 1/8, 1/8]) (obj := increasing)
    (o := { opts1 with tolX := some 1 }) [.seq]
    (fun c t => match t with
      | [s] => decide (s.Checked ∧ (∀ i, Flt.le (Flt.abs (c.sigma * c.covarianceMatrix i i))
          (Flt.abs (c.sigma * Flt.sqrt (c.covarianceMatrix i i))) = true) ∧
          DocumentedTolX { opts1 with tolX := some 1 } c)
      | _ => false) (by decide +kernel) (by decide +kernel)
  obtain ⟨t, c, h, hp⟩ := key
  match t, hp with
  | [s], hp => exact ⟨[], s, c, h, of_decide_eq_true hp⟩

/-- The hypotheses of `c24_sound_partial` are met: a run with a variance above one. -/
example : ∃ (t : _) (s : NextCall 1 F64) (c : CMAES 1 F64 Nat),
    History.Of (drawing [2, -8, 1/8, 1/8]) increasing { opts1 with tolX := some 2 }
      (t ++ [s]) c ∧ s.Checked ∧
    (∀ i, Flt.le (Flt.abs (c.sigma * Flt.sqrt (c.covarianceMatrix i i)))
      (Flt.abs (c.sigma * c.covarianceMatrix i i)) = true) ∧ .tolX ∈ s.reasons := by
  have key := exists_history (env := drawing [2, -8, 1/8, 1/8]) (obj := increasing)
    (o := { opts1 with tolX := some 2 }) [.seq]
    (fun c t => match t with
      | [s] => decide (s.Checked ∧ (∀ i, Flt.le (Flt.abs (c.sigma *
          Flt.sqrt (c.covarianceMatrix i i))) (Flt.abs (c.sigma * c.covarianceMatrix i i)) = true) ∧
          .tolX ∈ s.reasons)
      | _ => false) (by decide +kernel) (by decide +kernel)
  obtain ⟨t, c, h, hp⟩ := key
  match t, hp with
  | [s], hp => exact ⟨[], s, c, h, of_decide_eq_true hp⟩

/-- A run of sixteen generations that reports the three `TolFun` criteria: the values are 100 in the
first generation and 0 afterwards. -/
def dropping : Obj 1 F64 :=
  { f := fun log _ => if log.length < 6 then Flt.ofNat 100 else Flt.ofNat 0, log := [] }

example : ∃ (t : _) (c : CMAES 1 F64 Nat), History.Of (drawing [1/8, -1/2, 1/8, 1/8, 1/3]) dropping
    { opts1 with populationSize := 6, tolFunRel := 1 } t c ∧ t.length = 16 ∧
    ∃ s ∈ t, s.Checked ∧ .tolFunHist ∈ s.reasons ∧ .tolFun ∈ s.reasons ∧ .tolFunRel ∈ s.reasons := by
  have key := exists_history (env := drawing [1/8, -1/2, 1/8, 1/8, 1/3]) (obj := dropping)
    (o := { opts1 with populationSize := 6, tolFunRel := 1 }) (List.replicate 16 .seq)
    (fun _ t => decide (t.length = 16 ∧ ∃ s ∈ t, s.Checked ∧ .tolFunHist ∈ s.reasons ∧
      .tolFun ∈ s.reasons ∧ .tolFunRel ∈ s.reasons)) (by decide +kernel) (by decide +kernel)
  obtain ⟨t, c, h, hp⟩ := key
  exact ⟨t, c, h, of_decide_eq_true hp⟩

/-- A run of twenty generations that reports `TolStagnation`: the values increase. -/
example : ∃ (t : _) (c : CMAES 1 F64 Nat), History.Of (drawing [1/8, -1/2, 1/8, 1/8, 1/3]) increasing
    { opts1 with tolStagnation := some 4 } t c ∧
    (∀ m ∈ c.history.medianValues, Flt.isNaN m = false) ∧
    ∃ s ∈ t, s.Checked ∧ .tolStagnation ∈ s.reasons := by
  have key := exists_history (env := drawing [1/8, -1/2, 1/8, 1/8, 1/3]) (obj := increasing)
    (o := { opts1 with tolStagnation := some 4 }) (List.replicate 20 .seq)
    (fun c t => decide ((∀ m ∈ c.history.medianValues, Flt.isNaN m = false) ∧
      ∃ s ∈ t, s.Checked ∧ .tolStagnation ∈ s.reasons)) (by decide +kernel) (by decide +kernel)
  obtain ⟨t, c, h, hp⟩ := key
  exact ⟨t, c, h, of_decide_eq_true hp⟩

/-- A run that reports `TolX`, `TolConditionCov`, `NoEffectAxis`, `NoEffectCoord` and `TolXUp`. -/
example : ∃ (t : _) (c : CMAES 2 F64 Nat), History.Of (wenv 2) sphere
    { opts with initialStepSize := Flt.ofRat (1 / 2 ^ 100), tolX := some 1, tolConditionCov := 0,
                tolXUp := 0 } t c ∧
    (∀ i, Flt.isNaN (c.state.cov.sqrtEigenvalues i i) = false) ∧
    ∃ s ∈ t, s.Checked ∧
      s.reasons = [.tolX, .tolConditionCov, .noEffectAxis, .noEffectCoord, .tolXUp] := by
  have key := exists_history (env := wenv 2) (obj := sphere)
    (o := { opts with initialStepSize := Flt.ofRat (1 / 2 ^ 100), tolX := some 1,
                      tolConditionCov := 0, tolXUp := 0 }) [.seq]
    (fun c t => decide ((∀ i, Flt.isNaN (c.state.cov.sqrtEigenvalues i i) = false) ∧
      ∃ s ∈ t, s.Checked ∧
        s.reasons = [.tolX, .tolConditionCov, .noEffectAxis, .noEffectCoord, .tolXUp]))
    (by decide +kernel) (by decide +kernel)
  obtain ⟨t, c, h, hp⟩ := key
  exact ⟨t, c, h, of_decide_eq_true hp⟩

end
end Cmaes
