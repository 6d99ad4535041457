import Verif.Spec.Sane
import Verif.Float.ExtSign
import Verif.Lemmas.SearchSim
import Verif.Lemmas.Resample
import Verif.Props.Covariance
import Verif.Props.Tolerance
import Verif.WitnessSqrt

/-!
# C79, C80: signs in binary64, and corrupted states
-/

set_option linter.unusedSectionVars false

namespace Cmaes
variable {n : Nat} {F R : Type}
open FltLaws

/-! ### The shape of an update -/

/-- What an update does to step size, mean, covariance matrix and eigenvalues. -/
theorem update_shape [Flt F] {eigen : Mat n F → Option (Mat n F × Vec n F)} {tree : SplitTree}
    {evals : Nat} {p : Parameters F} {inds : List (EvaluatedPoint n F)} {s s' : State n F} {b : Bool}
    (h : s.update eigen tree evals p inds = .ok (s', b)) :
    (∃ x, s'.sigma = s.sigma * Flt.exp x) ∧ (∃ yw : Vec n F, s'.mean = s.mean.add (yw.smul (p.cm * s.sigma))) ∧
    (∃ (a : F) (B : Mat n F) (C : Mat n F), s'.cov.cov = (((s.cov.cov.smul a).add B).add C).fillLower) ∧
    (s'.cov.sqrtEigenvalues = s.cov.sqrtEigenvalues ∨
      ∃ vals : Vec n F, (∀ i, Flt.le (vals i) 0 = false) ∧
        s'.cov.sqrtEigenvalues = Mat.diagonal fun i => Flt.sqrt (vals i)) := by
  unfold State.update at h
  simp only [Outcome.bind_eq_ok] at h
  obtain ⟨yw, _, hs, _, rm, _, h⟩ := h
  generalize hnew : newCov p s.cov.cov hs (newPathC p s hs yw) rm = new at h
  generalize decide (s.lastEigenUpdateEvals + evalsPerEigenUpdate p ≤ evals) = de at h
  have key : (s.cov.setCov eigen new de).1.cov = new.fillLower ∧
      ((s.cov.setCov eigen new de).1.sqrtEigenvalues = s.cov.sqrtEigenvalues ∨
        ∃ vals : Vec n F, (∀ i, Flt.le (vals i) 0 = false) ∧
          (s.cov.setCov eigen new de).1.sqrtEigenvalues =
            Mat.diagonal fun i => Flt.sqrt (vals i)) := by
    unfold CovMat.setCov
    simp only
    split
    · split
      · rename_i c hc
        unfold CovMat.updateEigen at hc
        split at hc
        · simp at hc
        · rename_i vecs vals _
          simp only at hc
          split at hc
          · simp at hc
          · rename_i hany
            injection hc with hc
            rw [← hc]
            refine ⟨rfl, .inr ⟨vals, fun i => ?_, rfl⟩⟩
            by_contra hle
            rw [Bool.not_eq_false] at hle
            exact hany (List.any_eq_true.mpr ⟨vals i, List.mem_ofFn.mpr ⟨i, rfl⟩, hle⟩)
      · exact ⟨rfl, .inl rfl⟩
    · exact ⟨rfl, .inl rfl⟩
  rcases hsc : s.cov.setCov eigen new de with ⟨cov, ok⟩
  rw [hsc] at h key
  have hcov : ∃ (a : F) (B : Mat n F) (C : Mat n F),
      cov.cov = (((s.cov.cov.smul a).add B).add C).fillLower := by
    rw [key.1, ← hnew]
    unfold newCov
    exact ⟨_, _, _, rfl⟩
  cases ok with
  | false =>
    simp only [Bool.false_eq_true, if_false, Outcome.ok.injEq, Prod.mk.injEq] at h
    obtain ⟨rfl, -⟩ := h
    exact ⟨⟨_, rfl⟩, ⟨yw, rfl⟩, hcov, key.2⟩
  | true =>
    simp only [if_true, Outcome.ok.injEq, Prod.mk.injEq] at h
    obtain ⟨rfl, -⟩ := h
    exact ⟨⟨_, rfl⟩, ⟨yw, rfl⟩, hcov, key.2⟩

/-- Largest and smallest element, folded the way nalgebra does: NaN together, else in order. -/
theorem fold_ratio [Flt F] [FltLaws F] {l : List F} {lo : EReal} (hl : ∀ x ∈ l, Flt.isNaN x = true ∨ lo ≤ val x)
    {a b : F} (h : (Flt.isNaN a = true ∧ Flt.isNaN b = true) ∨
      (Flt.isNaN a = false ∧ Flt.isNaN b = false ∧ lo ≤ val b ∧ val b ≤ val a)) :
    let mx := l.foldl (fun a b => if Flt.le b a then a else b) a
    let mn := l.foldl (fun a b => if Flt.le a b then a else b) b
    (Flt.isNaN mx = true ∧ Flt.isNaN mn = true) ∨
      (Flt.isNaN mx = false ∧ Flt.isNaN mn = false ∧ lo ≤ val mn ∧ val mn ≤ val mx) := by
  induction l generalizing a b with
  | nil => exact h
  | cons x l ih =>
    refine ih (fun y hy => hl y (List.mem_cons_of_mem _ hy)) ?_
    have hx := hl x (by simp)
    by_cases hn : Flt.isNaN x = true
    · left
      have e1 : Flt.le x a = false := by
        by_contra hc
        rw [Bool.not_eq_false] at hc
        have := (le_iff.mp hc).1
        rw [hn] at this; cases this
      have e2 : Flt.le b x = false := by
        by_contra hc
        rw [Bool.not_eq_false] at hc
        have := (le_iff.mp hc).2.1
        rw [hn] at this; cases this
      simp only [e1, e2, Bool.false_eq_true, if_false]
      exact ⟨hn, hn⟩
    · rw [Bool.not_eq_true] at hn
      have hx : lo ≤ val x := hx.resolve_left (by rw [hn]; simp)
      rcases h with ⟨ha, hb⟩ | ⟨ha, hb, h1, h2⟩
      · have e1 : Flt.le x a = false := by
          by_contra hc
          rw [Bool.not_eq_false] at hc
          have := (le_iff.mp hc).2.1
          rw [ha] at this; cases this
        have e2 : Flt.le b x = false := by
          by_contra hc
          rw [Bool.not_eq_false] at hc
          have := (le_iff.mp hc).1
          rw [hb] at this; cases this
        simp only [e1, e2, Bool.false_eq_true, if_false]
        exact .inr ⟨hn, hn, hx, le_rfl⟩
      · right
        by_cases c1 : val x ≤ val a <;> by_cases c2 : val b ≤ val x
        · simp only [le_iff.mpr ⟨hn, ha, c1⟩, le_iff.mpr ⟨hb, hn, c2⟩, if_true]
          exact ⟨ha, hb, h1, h2⟩
        · have e2 : Flt.le b x = false := by
            by_contra hc
            rw [Bool.not_eq_false] at hc
            exact c2 (le_iff.mp hc).2.2
          simp only [le_iff.mpr ⟨hn, ha, c1⟩, e2, Bool.false_eq_true, if_false, if_true]
          exact ⟨ha, hn, hx, c1⟩
        · have e1 : Flt.le x a = false := by
            by_contra hc
            rw [Bool.not_eq_false] at hc
            exact c1 (le_iff.mp hc).2.2
          simp only [e1, le_iff.mpr ⟨hb, hn, c2⟩, Bool.false_eq_true, if_false, if_true]
          exact ⟨hn, hb, h1, c2⟩
        · have e1 : Flt.le x a = false := by
            by_contra hc
            rw [Bool.not_eq_false] at hc
            exact c1 (le_iff.mp hc).2.2
          have e2 : Flt.le b x = false := by
            by_contra hc
            rw [Bool.not_eq_false] at hc
            exact c2 (le_iff.mp hc).2.2
          simp only [e1, e2, Bool.false_eq_true, if_false]
          exact ⟨hn, hn, hx, le_rfl⟩

theorem max_min [Flt F] [FltLaws F] (x : Vec n F) (hn : n ≠ 0) {lo : EReal}
    (hl : ∀ i, Flt.isNaN (x i) = true ∨ lo ≤ val (x i)) :
    (Flt.isNaN x.max = true ∧ Flt.isNaN x.min = true) ∨
      (Flt.isNaN x.max = false ∧ Flt.isNaN x.min = false ∧ lo ≤ val x.min ∧ val x.min ≤ val x.max) := by
  have hm : ∀ y ∈ List.ofFn x, Flt.isNaN y = true ∨ lo ≤ val y := by
    intro y hy
    obtain ⟨i, rfl⟩ := List.mem_ofFn.mp hy
    exact hl i
  unfold Vec.max Vec.min
  cases e : List.ofFn x with
  | nil => exact absurd (by simpa using congrArg List.length e) hn
  | cons a l =>
    rw [e] at hm
    refine fold_ratio (fun y hy => hm y (List.mem_cons_of_mem _ hy)) ?_
    by_cases ha : Flt.isNaN a = true
    · exact .inl ⟨ha, ha⟩
    · rw [Bool.not_eq_true] at ha
      exact .inr ⟨ha, ha, (hm a (by simp)).resolve_left (by rw [ha]; simp), le_rfl⟩

/-! ### C79 -/

section
variable [Libm F64] {env : Env n F64 R} {obj : Obj n F64} {o : Options n F64}
  {t : List (NextCall n F64)} {c d : CMAES n F64 R}

theorem f64_val_zero : val (0 : F64) = 0 := by
  show val (Flt.ofRat ((0 : ℕ) : ℚ) : F64) = 0
  rw [val_ofNat 0 (by norm_num)]
  simp

theorem f64_val_one : val (1 : F64) = 1 := by
  show val (Flt.ofRat ((1 : ℕ) : ℚ) : F64) = 1
  rw [val_ofNat 1 (by norm_num)]
  simp

theorem f64_nonneg {x : F64} (h : 0 ≤ val x) : Flt.isNaN x = true ∨ Flt.le 0 x = true := by
  by_cases hn : Flt.isNaN x = true
  · exact .inl hn
  · rw [Bool.not_eq_true] at hn
    refine .inr (le_iff.mpr ⟨isNaN_ofRat 0, hn, ?_⟩)
    rw [f64_val_zero]
    exact h

theorem val_nonneg {x : F64} (h : Flt.isNaN x = true ∨ Flt.le 0 x = true) : 0 ≤ val x := by
  rcases h with h | h
  · rw [isNaN_eq h]
    exact le_refl (0 : EReal)
  · have := (le_iff.mp h).2.2
    rwa [f64_val_zero] at this

/-- The square roots of the eigenvalues: on the diagonal only NaN and positive numbers. -/
def PositiveRoots (s : State n F64) : Prop :=
  ∀ i, Flt.isNaN (s.cov.sqrtEigenvalues i i) = true ∨
    Flt.le (Flt.ofRat (1 / 2 ^ 537)) (s.cov.sqrtEigenvalues i i) = true

/-- `2^-537` squared is the smallest positive number. -/
theorem tiny_square : Ext.lt (Fmt.rnd (((0 : ℕ) : ℚ) : ℚ) : Ext Bin64)
    (Ext.mul (Fmt.rnd ((1 / 2 ^ 537 : ℚ))) (Fmt.rnd ((1 / 2 ^ 537 : ℚ)))) = true := by
  decide +kernel

theorem tiny_pos : Ext.lt (Fmt.rnd (((0 : ℕ) : ℚ) : ℚ) : Ext Bin64)
    (Fmt.rnd ((1 / 2 ^ 537 : ℚ))) = true := by
  decide +kernel

/-- The square of a number that is at least `2^-537` does not underflow to zero. -/
theorem square_pos {x : F64} (h : Flt.le (Flt.ofRat (1 / 2 ^ 537)) x = true) : 0 < val (x * x) := by
  obtain ⟨h1, h2, h3⟩ := le_iff.mp h
  have ht : 0 < val (Flt.ofRat (1 / 2 ^ 537) * Flt.ofRat (1 / 2 ^ 537) : F64) := by
    have : Flt.lt (0 : F64) (Flt.ofRat (1 / 2 ^ 537) * Flt.ofRat (1 / 2 ^ 537)) = true := tiny_square
    have := (lt_iff.mp this).2.2
    rwa [f64_val_zero] at this
  refine ht.trans_le (Ext.mul_self_mono' ?_ h3 h2)
  rw [← f64_val_zero]
  exact val_ofRat_mono (by positivity)

theorem update_signs (hl : SaneLibm F64) {eigen : Mat n F64 → Option (Mat n F64 × Vec n F64)}
    {tree : SplitTree} {evals : Nat} {p : Parameters F64} {inds : List (EvaluatedPoint n F64)}
    {s s' : State n F64} {b : Bool} (h : s.update eigen tree evals p inds = .ok (s', b))
    (h1 : 0 ≤ val s.sigma) (h2 : PositiveRoots s) : 0 ≤ val s'.sigma ∧ PositiveRoots s' := by
  obtain ⟨⟨x, hx⟩, -, -, hroots⟩ := update_shape h
  constructor
  · rw [hx]
    exact Ext.mul_nonneg' h1 (val_nonneg (hl.exp x))
  · rcases hroots with e | ⟨vals, hpos, e⟩
    · intro i
      rw [e]
      exact h2 i
    · intro i
      rw [e]
      show Flt.isNaN (if i = i then Flt.sqrt (vals i) else 0) = true ∨
        Flt.le _ (if i = i then Flt.sqrt (vals i) else 0) = true
      rw [if_pos rfl]
      by_cases hn : Flt.isNaN (vals i) = true
      · exact .inl (hl.sqrt_nan _ hn)
      · rw [Bool.not_eq_true] at hn
        refine .inr (hl.sqrt _ (lt_iff.mpr ⟨isNaN_ofRat 0, hn, ?_⟩))
        by_contra hle
        have : Flt.le (vals i) 0 = true := le_iff.mpr ⟨hn, isNaN_ofRat 0, not_lt.mp hle⟩
        rw [hpos i] at this
        cases this

theorem validate_sigma {n : Nat} {F : Type} [Flt F] {o : Options n F} (h : CMAES.validate o = none) :
    n ≠ 0 ∧ Flt.lt 0 o.initialStepSize = true := by
  unfold CMAES.validate isInitialStepSizeValid at h
  split at h
  · cases h
  · rename_i h1
    split at h
    · cases h
    · split at h
      · cases h
      · rename_i h3
        refine ⟨h1, ?_⟩
        cases hl : Flt.lt 0 o.initialStepSize with
        | true => rfl
        | false => rw [hl] at h3; simp at h3

theorem signs (hl : SaneLibm F64) (h : History.Of env obj o t c) :
    0 ≤ val c.state.sigma ∧ PositiveRoots c.state := by
  obtain ⟨w, c0, h0, he⟩ := h
  induction he with
  | refl =>
    obtain ⟨hv, rfl⟩ := new_eq_ok h0
    rw [(create_search env w obj o).2.2.1]
    constructor
    · have hs := (validate_sigma hv).2
      have := (lt_iff.mp hs).2.2
      rw [f64_val_zero] at this
      exact this.le
    · intro i
      refine .inr ?_
      show Flt.le _ (Mat.one i i) = true
      unfold Mat.one
      rw [if_pos rfl]
      refine le_iff.mpr ⟨isNaN_ofRat _, isNaN_ofRat 1, ?_⟩
      refine val_ofRat_mono ?_
      rw [Nat.cast_one, div_le_one (by positivity)]
      exact one_le_pow₀ (by norm_num)
  | quiet _ hq ha ih =>
    rw [(quiet_sameSearch hq ha).1.state]
    exact ih
  | next _ hn _ ih =>
    obtain ⟨_, _, _, _, _, _, hc⟩ := next_core hn
    rcases hc with ⟨_, hs, _⟩ | ⟨inds, ok, _, _, hu, _⟩
    · rw [hs]; exact ih
    · exact update_signs hl hu ih.1 ih.2

/-- **C79.** In binary64, with rounding, overflow and underflow: the step size is never negative,
the eigenvalues are positive, and the axis ratio is at least one, except that each may be NaN. -/
theorem c79_signs (hl : SaneLibm F64) (h : History.Of env obj o t c) :
    (Flt.isNaN c.sigma = true ∨ Flt.le 0 c.sigma = true) ∧
    (∀ i, Flt.isNaN (c.eigenvalues i) = true ∨ Flt.lt 0 (c.eigenvalues i) = true) ∧
    (Flt.isNaN c.axisRatio = true ∨ Flt.le 1 c.axisRatio = true) := by
  obtain ⟨h1, h2⟩ := signs hl h
  have hlo : ∀ i, Flt.isNaN (c.state.cov.sqrtEigenvalues.diag i) = true ∨
      val (Flt.ofRat (1 / 2 ^ 537) : F64) ≤ val (c.state.cov.sqrtEigenvalues.diag i) := fun i =>
    (h2 i).imp id fun h => (le_iff.mp h).2.2
  have hn0 : n ≠ 0 := by
    obtain ⟨w, c0, h0, -⟩ := h
    exact (validate_sigma (new_eq_ok h0).1).1
  refine ⟨f64_nonneg h1, fun i => ?_, ?_⟩
  · have e : c.eigenvalues i =
        1 * (c.state.cov.sqrtEigenvalues i i * c.state.cov.sqrtEigenvalues i i) := rfl
    have e1 : ∀ y : F64, (1 : F64) * y = y := by
      intro y
      obtain ⟨a, ha, hr⟩ := Ext.rnd_nat (α := Bin64) (K := ℚ) (k := 1) (by norm_num)
      have h1 : (1 : F64) = Ext.fin a := by
        rw [← hr]
        show Fmt.rnd ((((1 : ℕ) : ℚ)) : ℚ) = _
        simp
      rw [h1]
      exact Ext.one_mul' (by rw [ha]; simp) y
    rw [e, e1]
    rcases h2 i with h | h
    · exact .inl (Ext.isNaN_mul_left h)
    · have hp := square_pos h
      by_cases hn : Flt.isNaN (c.state.cov.sqrtEigenvalues i i * c.state.cov.sqrtEigenvalues i i) = true
      · exact .inl hn
      · rw [Bool.not_eq_true] at hn
        refine .inr (lt_iff.mpr ⟨isNaN_ofRat 0, hn, ?_⟩)
        rw [f64_val_zero]
        exact hp
  · show Flt.isNaN (c.state.cov.sqrtEigenvalues.diag.max / c.state.cov.sqrtEigenvalues.diag.min) = true ∨
      Flt.le 1 (c.state.cov.sqrtEigenvalues.diag.max / c.state.cov.sqrtEigenvalues.diag.min) = true
    by_cases hn : Flt.isNaN
        (c.state.cov.sqrtEigenvalues.diag.max / c.state.cov.sqrtEigenvalues.diag.min) = true
    · exact .inl hn
    · rw [Bool.not_eq_true] at hn
      refine .inr (le_iff.mpr ⟨isNaN_ofRat 1, hn, ?_⟩)
      rw [f64_val_one]
      rcases max_min c.state.cov.sqrtEigenvalues.diag hn0 hlo with ⟨hm, -⟩ | ⟨-, -, hmin, hle⟩
      · have : Flt.isNaN (c.state.cov.sqrtEigenvalues.diag.max / c.state.cov.sqrtEigenvalues.diag.min) = true :=
          Ext.isNaN_div_left hm
        rw [hn] at this
        cases this
      · refine Ext.one_le_div' (lt_of_lt_of_le ?_ hmin) hle hn
        have : Flt.lt (0 : F64) (Flt.ofRat (1 / 2 ^ 537)) = true := tiny_pos
        have := (lt_iff.mp this).2.2
        rwa [f64_val_zero] at this

end

/-! ### C80 -/

/-- A set of numbers that sums and products cannot leave. -/
structure Absorbing [Flt F] (P : F → Prop) : Prop where
  add_left : ∀ {a} (b : F), P a → P (a + b)
  add_right : ∀ (a : F) {b}, P b → P (a + b)
  mul_left : ∀ {a} (b : F), P a → P (a * b)
  mul_right : ∀ (a : F) {b}, P b → P (a * b)

section
variable [Flt F] [FltLaws F] {env : Env n F R} {obj : Obj n F} {o : Options n F}
  {t : List (NextCall n F)} {c d : CMAES n F R}

/-- Sampler and state of a completed or failed `next`, and the points it evaluated. -/
theorem next_parts {kind : EvalKind} {calls : List (Vec n F × F)}
    {r : Option (TerminationData n F)} (h : c.next env kind = .ok (d, r))
    (hl : d.sampler.obj.log = c.sampler.obj.log ++ calls) :
    (∀ q ∈ calls, ∃ y, q.1 = toPoint y c.state.mean c.state.sigma) ∧
    ((d.state = c.state ∧ NextCall.Failed { kind, calls, result := r }) ∨
      ∃ inds ok, c.state.update env.eigen (env.redTree c.world.steps) d.sampler.functionEvals
        c.parameters inds = .ok (d.state, ok)) := by
  constructor
  · obtain ⟨ys, -, hs, -⟩ := next_points h hl
    intro q hq
    obtain ⟨y, -, hy⟩ := List.mem_map.mp (hs.subset (List.mem_map.mpr ⟨q, hq, rfl⟩))
    exact ⟨y, hy.symm⟩
  · obtain ⟨_, _, _, _, _, _, hc⟩ := next_core h
    rcases hc with ⟨_, hs, _, _, hr⟩ | ⟨inds, ok, _, _, hu, _⟩
    · exact .inl ⟨hs, _, hr, by simp [CMAES.terminationData]⟩
    · exact .inr ⟨inds, ok, hu⟩

theorem absorbed_mean {P : F → Prop} (hP : Absorbing P) (he : Exec env c t d) (i : Fin n)
    (h : P (c.mean i)) : P (d.mean i) ∧ ∀ s ∈ t, ∀ q ∈ s.calls, P (q.1 i) := by
  induction he with
  | refl => exact ⟨h, by simp⟩
  | quiet _ hq ha ih =>
    refine ⟨?_, ih.2⟩
    unfold CMAES.mean
    rw [(quiet_sameSearch hq ha).1.state]
    exact ih.1
  | next _ hn hl ih =>
    obtain ⟨hpts, hst⟩ := next_parts hn hl
    refine ⟨?_, ?_⟩
    · unfold CMAES.mean
      rcases hst with ⟨hs, -⟩ | ⟨_, _, hu⟩
      · rw [hs]; exact ih.1
      · obtain ⟨-, ⟨yw, hm⟩, -⟩ := update_shape hu
        rw [hm]
        exact hP.add_left _ ih.1
    · intro s hs q hq
      rcases List.mem_append.mp hs with hs | hs
      · exact ih.2 s hs q hq
      · rw [List.mem_singleton.mp hs] at hq
        obtain ⟨y, hy⟩ := hpts q hq
        rw [hy]
        exact hP.add_left _ ih.1

theorem absorbed_sigma {P : F → Prop} (hP : Absorbing P) (he : Exec env c t d)
    (h : P c.sigma) : P d.sigma ∧ (∀ s ∈ t, ∀ q ∈ s.calls, ∀ i, P (q.1 i)) ∧
      ((∃ s ∈ t, ¬ s.Failed) → ∀ i, P (d.mean i)) := by
  induction he with
  | refl => exact ⟨h, by simp, by simp⟩
  | quiet _ hq ha ih =>
    unfold CMAES.mean CMAES.sigma
    rw [(quiet_sameSearch hq ha).1.state]
    exact ih
  | next _ hn hl ih =>
    obtain ⟨hpts, hst⟩ := next_parts hn hl
    have hmean := ih.2.2
    refine ⟨?_, ?_, ?_⟩
    · unfold CMAES.sigma
      rcases hst with ⟨hs, -⟩ | ⟨_, _, hu⟩
      · rw [hs]; exact ih.1
      · obtain ⟨⟨x, hx⟩, -⟩ := update_shape hu
        rw [hx]
        exact hP.mul_left _ ih.1
    · intro s hs q hq i
      rcases List.mem_append.mp hs with hs | hs
      · exact ih.2.1 s hs q hq i
      · rw [List.mem_singleton.mp hs] at hq
        obtain ⟨y, hy⟩ := hpts q hq
        rw [hy]
        exact hP.add_right _ (hP.mul_left _ ih.1)
    · rintro ⟨s, hs, hf⟩ i
      unfold CMAES.mean
      rcases hst with ⟨he, hfail⟩ | ⟨_, _, hu⟩
      · rw [he]
        rcases List.mem_append.mp hs with hs | hs
        · exact hmean ⟨s, hs, hf⟩ i
        · rw [List.mem_singleton.mp hs] at hf
          exact absurd hfail hf
      · obtain ⟨-, ⟨yw, hm⟩, -⟩ := update_shape hu
        rw [hm]
        exact hP.add_right _ (hP.mul_left _ (hP.mul_right _ ih.1))

theorem absorbed_cov {P : F → Prop} (hP : Absorbing P) {t0 : List (NextCall n F)}
    (hh : History.Of env obj o t0 c) (he : Exec env c t d) (i j : Fin n)
    (h : P (c.covarianceMatrix i j)) : P (d.covarianceMatrix i j) := by
  have step : ∀ {a b : CMAES n F R} {u : List (NextCall n F)}, History.Of env obj o u a →
      (∃ (x : F) (B C : Mat n F), b.state.cov.cov = (((a.state.cov.cov.smul x).add B).add C).fillLower) →
      P (a.covarianceMatrix i j) → P (b.covarianceMatrix i j) := by
    rintro a b u ha ⟨x, B, C, e⟩ hp
    have hsym := c35_symmetric ha i j
    unfold CMAES.covarianceMatrix at hp hsym ⊢
    rw [e]
    show P (if j < i then x * a.state.cov.cov j i + B j i + C j i else
      x * a.state.cov.cov i j + B i j + C i j)
    split
    · rw [← hsym]
      exact hP.add_left _ (hP.add_left _ (hP.mul_right _ hp))
    · exact hP.add_left _ (hP.add_left _ (hP.mul_right _ hp))
  obtain ⟨w, c0, h0, he0⟩ := hh
  induction he with
  | refl => exact h
  | quiet _ hq ha ih =>
    unfold CMAES.covarianceMatrix
    rw [(quiet_sameSearch hq ha).1.state]
    exact ih
  | next hpre hn hl ih =>
    obtain ⟨-, hst⟩ := next_parts hn hl
    rcases hst with ⟨hs, -⟩ | ⟨_, _, hu⟩
    · unfold CMAES.covarianceMatrix
      rw [hs]; exact ih
    · obtain ⟨-, -, hc, -⟩ := update_shape hu
      exact step ⟨w, c0, h0, he0.trans hpre⟩ hc ih

end

section
variable [Libm F64] {env : Env n F64 R} {obj : Obj n F64} {o : Options n F64}
  {t : List (NextCall n F64)} {c d : CMAES n F64 R}

theorem absorbing_nan : Absorbing fun x : F64 => Flt.isNaN x = true where
  add_left _ h := Ext.isNaN_add_left' h
  add_right _ _ h := Ext.isNaN_add_right' h
  mul_left _ h := Ext.isNaN_mul_left h
  mul_right _ _ h := Ext.isNaN_mul_right h

theorem absorbing_nonfinite : Absorbing (NonFinite : F64 → Prop) where
  add_left _ h := Ext.nonfinite_add_left h
  add_right _ _ h := Ext.nonfinite_add_right h
  mul_left _ h := h.elim (fun h => .inl (Ext.isNaN_mul_left h)) fun h => Ext.mul_inf' h
  mul_right _ _ h := h.elim (fun h => .inl (Ext.isNaN_mul_right h)) fun h => Ext.inf_mul' h

/-- **C80 (mean).** A coordinate of the mean that is NaN stays NaN, and all points evaluated from
then on have NaN in it; likewise with "NaN or infinite" for "NaN". -/
theorem c80_mean (he : Exec env c t d) (i : Fin n) :
    (Flt.isNaN (c.mean i) = true →
      Flt.isNaN (d.mean i) = true ∧ ∀ s ∈ t, ∀ q ∈ s.calls, Flt.isNaN (q.1 i) = true) ∧
    (NonFinite (c.mean i) → NonFinite (d.mean i) ∧ ∀ s ∈ t, ∀ q ∈ s.calls, NonFinite (q.1 i)) :=
  ⟨absorbed_mean absorbing_nan he i, absorbed_mean absorbing_nonfinite he i⟩

/-- **C80 (step size).** A step size that is NaN stays NaN, all points evaluated from then on are
NaN in every coordinate, and so is the mean after the next completed generation; likewise with "NaN
or infinite" for "NaN". -/
theorem c80_sigma (he : Exec env c t d) :
    (Flt.isNaN c.sigma = true →
      Flt.isNaN d.sigma = true ∧ (∀ s ∈ t, ∀ q ∈ s.calls, ∀ i, Flt.isNaN (q.1 i) = true) ∧
      ((∃ s ∈ t, ¬ s.Failed) → ∀ i, Flt.isNaN (d.mean i) = true)) ∧
    (NonFinite c.sigma →
      NonFinite d.sigma ∧ (∀ s ∈ t, ∀ q ∈ s.calls, ∀ i, NonFinite (q.1 i)) ∧
      ((∃ s ∈ t, ¬ s.Failed) → ∀ i, NonFinite (d.mean i))) :=
  ⟨absorbed_sigma absorbing_nan he, absorbed_sigma absorbing_nonfinite he⟩

/-- **C80 (covariance).** An entry of the covariance matrix that is NaN (NaN or infinite) stays so. -/
theorem c80_covariance {t0 : List (NextCall n F64)} (hh : History.Of env obj o t0 c)
    (he : Exec env c t d) (i j : Fin n) :
    (Flt.isNaN (c.covarianceMatrix i j) = true → Flt.isNaN (d.covarianceMatrix i j) = true) ∧
    (NonFinite (c.covarianceMatrix i j) → NonFinite (d.covarianceMatrix i j)) :=
  ⟨absorbed_cov absorbing_nan hh he i j, absorbed_cov absorbing_nonfinite hh he i j⟩

/-- **C80 (zero).** A step size that has become zero never grows again: from then on it is zero or
NaN, and the mean and all evaluated points have in each coordinate the value of the mean at that
moment, or NaN. -/
theorem c80_zero (he : Exec env c t d) (h : c.sigma = 0) :
    NaNOr 0 d.sigma ∧ (∀ i, NaNOr (c.mean i) (d.mean i)) ∧
      ∀ s ∈ t, ∀ q ∈ s.calls, ∀ i, NaNOr (c.mean i) (q.1 i) := by
  induction he with
  | refl => exact ⟨.inr h, fun _ => .inr rfl, by simp⟩
  | quiet _ hq ha ih =>
    unfold CMAES.mean CMAES.sigma at ih ⊢
    rw [(quiet_sameSearch hq ha).1.state]
    exact ih
  | next _ hn hl ih =>
    obtain ⟨hpts, hst⟩ := next_parts hn hl
    refine ⟨?_, ?_, ?_⟩
    · unfold CMAES.sigma at ih ⊢
      rcases hst with ⟨hs, -⟩ | ⟨_, _, hu⟩
      · rw [hs]; exact ih.1
      · obtain ⟨⟨x, hx⟩, -⟩ := update_shape hu
        rw [hx]
        exact Ext.zero_mul_nanOr ih.1
    · intro i
      unfold CMAES.mean CMAES.sigma at ih
      unfold CMAES.mean
      rcases hst with ⟨hs, -⟩ | ⟨_, _, hu⟩
      · rw [hs]; exact ih.2.1 i
      · obtain ⟨-, ⟨yw, hm⟩, -⟩ := update_shape hu
        rw [hm]
        exact Ext.add_nanOr (ih.2.1 i) (Ext.zero_mul_nanOr (Ext.mul_zero_nanOr ih.1))
    · intro s hs q hq i
      rcases List.mem_append.mp hs with hs | hs
      · exact ih.2.2 s hs q hq i
      · rw [List.mem_singleton.mp hs] at hq
        obtain ⟨y, hy⟩ := hpts q hq
        rw [hy]
        exact Ext.add_nanOr (ih.2.1 i) (Ext.zero_mul_nanOr ih.1)

theorem fifth_zero : Ext.mul (Fmt.rnd ((2 / 10 : ℚ))) (Fmt.rnd (((0 : ℕ) : ℚ) : ℚ) : Ext Bin64) =
    Fmt.rnd (((0 : ℕ) : ℚ) : ℚ) := by
  decide +kernel

/-- **C80 (zero, reported).** A generation that ends with step size zero reports `NoEffectCoord`,
unless the mean is NaN or the covariance matrix not finite. -/
theorem c80_zero_reported {s : NextCall n F64} (h : History.Of env obj o (t ++ [s]) c)
    (hs : s.Checked) (hz : c.sigma = 0) (i : Fin n) (hm : Flt.isNaN (c.mean i) = false)
    (hc : ¬ NonFinite (c.covarianceMatrix i i)) : .noEffectCoord ∈ s.reasons := by
  refine (c25_noEffectCoord h hs).mpr ⟨i, ?_⟩
  have h0 : (Flt.ofRat (2 / 10) * 0 : F64) = 0 := fifth_zero
  have h1 : (0 : F64) * c.covarianceMatrix i i = 0 :=
    (Ext.zero_mul_nanOr (.inr rfl)).resolve_left (Ext.zero_mul_finite hc)
  have e : c.mean i + Flt.ofRat (2 / 10) * c.sigma * c.covarianceMatrix i i = c.mean i := by
    rw [hz, h0, h1]
    refine (Ext.add_nanOr (x := c.mean i) (.inr rfl) (.inr rfl)).resolve_left fun hn => ?_
    rw [Ext.isNaN_add_zero, hm] at hn
    cases hn
  rw [e]
  exact feq_iff.mpr ⟨hm, hm, rfl⟩

end

/-! ### The hypotheses are met -/

section
open Witness (reverseSched)

/-- Two executions, one after the other. -/
theorem exists_history_exec [Flt F] [FltLaws F] {env : Env n F R} {obj : Obj n F} {o : Options n F}
    (k k' : List EvalKind)
    (p : CMAES n F R → CMAES n F R → List (NextCall n F) → Bool) (hv : CMAES.validate o = none)
    (h : (((CMAES.create env World.init obj o).nexts env k).bind fun x =>
      (x.1.nexts env k').bind fun y => .ok (x.1, y)).check (fun x => p x.1 x.2.1 x.2.2) = true) :
    ∃ t c u d, History.Of env obj o t c ∧ Exec env c u d ∧ p c d u = true := by
  obtain ⟨⟨c, d, u⟩, h1, h2⟩ := Outcome.of_check h
  obtain ⟨⟨c', t⟩, hc, h1⟩ := Outcome.bind_eq_ok.mp h1
  obtain ⟨⟨d', u'⟩, hd, he⟩ := Outcome.bind_eq_ok.mp h1
  simp only [Outcome.ok.injEq, Prod.mk.injEq] at he
  obtain ⟨rfl, rfl, rfl⟩ := he
  exact ⟨t, c', u', d', ⟨World.init, _, by simp only [CMAES.new, hv], nexts_exec hc⟩,
    nexts_exec hd, h2⟩

/-- The square root of `Verif.WitnessSqrt`, but never below `2^-537`. -/
@[reducible] def saneLibm : Libm F64 where
  sqrt
    | .fin q => if 0 < q.1 then Bin64.rnd (max (1 / 2 ^ 537) (WitnessSqrt.sqrtRat q.1)) else .nan
    | .pinf => .pinf
    | _ => .nan
  exp x := if Ext.lt x (Bin64.rnd 0) then Bin64.rnd (1 / 2) else Bin64.rnd 2
  ln x := x
  powf x _ := x

theorem saneLibm_sane : letI := saneLibm; SaneLibm F64 := by
  letI := saneLibm
  refine SaneLibm.mk ?_ ?_ ?_
  · intro x
    right
    show Ext.le _ (if Ext.lt x (Bin64.rnd 0) then Bin64.rnd (1 / 2) else Bin64.rnd 2) = true
    split <;> decide +kernel
  · intro x hx
    cases x with
    | nan => exact absurd hx (by decide +kernel)
    | ninf => exact absurd hx (by decide +kernel)
    | pinf => decide +kernel
    | fin q =>
      have hq : 0 < q.1 := by
        have := (lt_iff.mp hx).2.2
        rw [f64_val_zero] at this
        exact Ext.val_fin_pos.mp this
      show Flt.le _ (if 0 < q.1 then Bin64.rnd (max (1 / 2 ^ 537) (WitnessSqrt.sqrtRat q.1)) else .nan) = true
      rw [if_pos hq]
      have hm : ∀ y : ℚ, 1 / 2 ^ 537 ≤ y → Flt.le (Flt.ofRat (1 / 2 ^ 537) : F64) (Bin64.rnd y) = true := by
        intro y hy
        have e : Bin64.rnd y = (Flt.ofRat y : F64) := rfl
        rw [e]
        exact le_iff.mpr ⟨isNaN_ofRat _, isNaN_ofRat _, val_ofRat_mono hy⟩
      exact hm _ (le_max_left _ _)
  · intro x hx
    cases x with
    | nan => rfl
    | ninf => cases hx
    | pinf => cases hx
    | fin q => cases hx

section
variable [Libm F64]

/-- Options for two dimensions and four points per generation. -/
def saneOpts : Options 2 F64 :=
  { Options.new (fun i => if i = 0 then 1 else 2) 1 with populationSize := 4, seed := some 1 }

/-- A generator that walks through a short list of numbers. -/
def saneRng : RngOps Nat F64 where
  seed s := s
  normal r := (Flt.ofRat (([1, -2, 3, -1/2, 1/4, 2, -3].getD (r % 7) 0 : ℚ)), r + 1)
  unit r := (Flt.ofRat (1/2), r + 1)
  u64 r := (r, r + 1)
  uniform lo _ r := (lo, r + 1)

/-- An environment. -/
def saneEnv (n : Nat) : Env n F64 Nat where
  rng := saneRng
  restartRng := saneRng
  eigen m := some (Mat.one, m.diag)
  clock k := k
  sched _ := reverseSched
  redTree _ := .leaf
  medianNaN _ := .ok Flt.nan
  randomSeed := 5
  resampleFuel := 20
  runFuel := 20
  restartFuel := 20

/-- The sphere function. -/
def saneSphere : Obj 2 F64 := { f := fun _ x => x 0 * x 0 + x 1 * x 1, log := [] }

end

attribute [local instance] saneLibm

/-- The hypotheses of `c79_signs` are met, with an axis ratio above one and a changed step size. -/
example : SaneLibm F64 ∧ ∃ t c, History.Of (saneEnv 2) saneSphere saneOpts t c ∧
    decide (c.state.generation = 3 ∧ Flt.lt 1 c.axisRatio = true ∧ c.sigma ≠ 1) = true := by
  refine ⟨saneLibm_sane, ?_⟩
  exact exists_history [.seq, .par, .seq] (fun c _ => decide (c.state.generation = 3 ∧
    Flt.lt 1 c.axisRatio = true ∧ c.sigma ≠ 1)) (by decide +kernel) (by decide +kernel)

/-- The hypotheses of `c80_mean` are met: nothing prevents an initial mean with a NaN in it, and if
the objective does not look at that coordinate no termination criterion notices it. -/
theorem c80_unnoticed : ∃ t c u d, History.Of (saneEnv 2) { saneSphere with f := fun _ x => x 1 * x 1 }
      { saneOpts with initialMean := fun i => if i = 0 then Flt.nan else 2 } t c ∧
    Exec (saneEnv 2) c u d ∧
    decide (Flt.isNaN (c.mean 0) = true ∧ d.state.generation = 2 ∧ Flt.isNaN (d.mean 1) = false ∧
      u.all (fun s => s.result.isNone) = true) = true :=
  exists_history_exec [.seq] [.par] (fun c d u => decide (Flt.isNaN (c.mean 0) = true ∧
    d.state.generation = 2 ∧ Flt.isNaN (d.mean 1) = false ∧
      u.all (fun s => s.result.isNone) = true)) (by decide +kernel) (by decide +kernel)

/-- The hypotheses of `c80_covariance` are met: eigenvectors that are NaN make the next covariance
matrix NaN. -/
example : ∃ t c u d, History.Of { saneEnv 2 with eigen := fun m => some (fun _ _ => Flt.nan, m.diag) }
      { saneSphere with f := fun log _ => Flt.ofNat log.length } saneOpts t c ∧
    Exec { saneEnv 2 with eigen := fun m => some (fun _ _ => Flt.nan, m.diag) } c u d ∧
    decide (Flt.isNaN (c.covarianceMatrix 1 0) = true ∧ d.state.generation = 4) = true :=
  exists_history_exec [.seq, .seq, .seq] [.seq] (fun c d _ => decide (
    Flt.isNaN (c.covarianceMatrix 1 0) = true ∧ d.state.generation = 4))
    (by decide +kernel) (by decide +kernel)

end

section
open Witness (reverseSched)

/-- A library whose `exp` is always `2^-600`, as `exp(-416)` is. -/
@[reducible] def shrinkLibm : Libm F64 := { saneLibm with exp := fun _ => Bin64.rnd (1 / 2 ^ 600) }

attribute [local instance] shrinkLibm

/-- The hypotheses of `c80_zero` are met: two such updates and the step size is zero. -/
example : ∃ t c u d, History.Of (F := F64) (saneEnv 2) saneSphere saneOpts t c ∧
    Exec (F := F64) (saneEnv 2) c u d ∧ decide (c.sigma = 0 ∧ d.state.generation = 3) = true :=
  exists_history_exec [.seq, .par] [.seq] (fun c d _ => decide (c.sigma = 0 ∧ d.state.generation = 3))
    (by decide +kernel) (by decide +kernel)

/-- And the hypotheses of `c80_zero_reported`. -/
example : ∃ t c, History.Of (F := F64) (saneEnv 2) saneSphere saneOpts t c ∧
    decide (c.sigma = 0 ∧ Flt.isNaN (c.mean 0) = false ∧ Flt.isNaN (c.covarianceMatrix 0 0) = false ∧
      Flt.isInf (c.covarianceMatrix 0 0) = false ∧ t.length = 2 ∧ ∀ s ∈ t, s.Checked) = true :=
  exists_history [.seq, .par] (fun c t => decide (c.sigma = 0 ∧ Flt.isNaN (c.mean 0) = false ∧
    Flt.isNaN (c.covarianceMatrix 0 0) = false ∧ Flt.isInf (c.covarianceMatrix 0 0) = false ∧
    t.length = 2 ∧ ∀ s ∈ t, s.Checked)) (by decide +kernel) (by decide +kernel)

end

section
open Witness (reverseSched)

/-- A library whose `exp` is always `2^600`. -/
@[reducible] def growLibm : Libm F64 := { saneLibm with exp := fun _ => Bin64.rnd (2 ^ 600) }

attribute [local instance] growLibm

/-- The hypotheses of `c80_sigma` are met: two such updates and the step size is infinite. -/
example : ∃ t c u d, History.Of (F := F64) (saneEnv 2)
      { saneSphere with f := fun log _ => Flt.ofNat log.length } saneOpts t c ∧
    Exec (F := F64) (saneEnv 2) c u d ∧
    decide (Flt.isInf c.sigma = true ∧ d.state.generation = 3 ∧ u.any (fun s => ¬ s.Failed) = true) = true :=
  exists_history_exec [.seq, .par] [.seq] (fun c d u => decide (Flt.isInf c.sigma = true ∧
    d.state.generation = 3 ∧ u.any (fun s => ¬ s.Failed) = true))
    (by decide +kernel) (by decide +kernel)

end

end Cmaes
