import Verif.Lemmas.Plot
import Verif.Spec.Options
import Verif.Lemmas.Order
import Verif.Lemmas.Invariant
import Verif.Witness

/-!
# C30, C31, C32: building a `CMAES`, its initial state, and the options
-/

set_option linter.unusedSectionVars false

namespace Cmaes
open FltLaws
variable {n : Nat} {F R : Type} [Flt F] [FltLaws F]

/-! ### C30 -/

/-- The requirements on options, in the order in which they are checked, with the error reported
for each. -/
def requirements (o : Options n F) : List (Prop × InvalidOptionsError) :=
  [(0 < n, .dimensions),
   (2 ≤ o.populationSize, .populationSize),
   (Flt.isNormal o.initialStepSize = true ∧ Flt.lt 0 o.initialStepSize = true, .initialStepSize),
   (Flt.isNormal o.cm = true ∧ Flt.lt 0 o.cm = true ∧ Flt.le o.cm 1 = true, .cm)]

theorem cm_check (x : F) :
    (!Flt.isNormal x || Flt.le x 0 || Flt.lt 1 x) = false ↔
      Flt.isNormal x = true ∧ Flt.lt 0 x = true ∧ Flt.le x 1 = true := by
  have h0 : Flt.isNaN (0 : F) = false := isNaN_ofRat _
  have h1 : Flt.isNaN (1 : F) = false := isNaN_ofRat _
  simp only [Bool.or_eq_false_iff, Bool.not_eq_false', and_assoc]
  constructor
  · rintro ⟨a, b, d⟩
    have hx := (isNormal_imp a).1
    have b' : ¬ val x ≤ val (0 : F) := fun h => by
      rw [le_iff.mpr ⟨hx, h0, h⟩] at b; cases b
    have d' : ¬ val (1 : F) < val x := fun h => by
      rw [lt_iff.mpr ⟨h1, hx, h⟩] at d; cases d
    exact ⟨a, lt_iff.mpr ⟨h0, hx, not_le.mp b'⟩, le_iff.mpr ⟨hx, h1, not_lt.mp d'⟩⟩
  · rintro ⟨a, b, d⟩
    have b' := (lt_iff.mp b).2.2
    have d' := (le_iff.mp d).2.2
    refine ⟨a, ?_, ?_⟩
    · cases h : Flt.le x 0
      · rfl
      · exact absurd (le_iff.mp h).2.2 (not_le.mpr b')
    · cases h : Flt.lt 1 x
      · rfl
      · exact absurd (lt_iff.mp h).2.2 (not_lt.mpr d')

/-- **C30.** `build` succeeds exactly if all requirements hold, and otherwise reports the error of
the first one that does not. -/
theorem c30_build (env : Env n F R) (w : World n F) (obj : Obj n F) (o : Options n F) :
    (∃ c, CMAES.new env w obj o = .ok c ∧ ∀ q ∈ requirements o, q.1) ∨
    (∃ before p e after, requirements o = before ++ (p, e) :: after ∧ (∀ q ∈ before, q.1) ∧ ¬ p ∧
      CMAES.new env w obj o = .error e) := by
  unfold CMAES.new CMAES.validate
  by_cases h1 : n = 0
  · right
    exact ⟨[], _, _, _, rfl, by simp, by omega, by simp [h1]⟩
  by_cases h2 : o.populationSize < 2
  · right
    refine ⟨[_], _, _, _, rfl, ?_, ?_, by simp [h1, h2]⟩
    · simp; omega
    · simp; omega
  by_cases h3 : isInitialStepSizeValid o.initialStepSize = true
  swap
  · right
    refine ⟨[_, _], _, _, _, rfl, ?_, ?_, by simp [h1, h2, h3]⟩
    · simp; omega
    · simpa [isInitialStepSizeValid] using h3
  have h3' : Flt.isNormal o.initialStepSize = true ∧ Flt.lt 0 o.initialStepSize = true := by
    simpa [isInitialStepSizeValid] using h3
  by_cases h4 : (!Flt.isNormal o.cm || Flt.le o.cm 0 || Flt.lt 1 o.cm) = false
  · left
    refine ⟨CMAES.create env w obj o, by
      simp only [h1, h2, h3, h4, ↓reduceIte, Bool.not_true, Bool.false_eq_true], ?_⟩
    simp only [requirements, List.mem_cons, List.not_mem_nil, or_false]
    rintro q (rfl | rfl | rfl | rfl)
    · exact Nat.pos_of_ne_zero h1
    · show 2 ≤ o.populationSize; omega
    · exact h3'
    · exact (cm_check _).mp h4
  · right
    refine ⟨[_, _, _], _, _, [], rfl, ?_, fun hp => h4 ((cm_check _).mpr hp), ?_⟩
    · simp only [List.mem_cons, List.not_mem_nil, or_false]
      rintro q (rfl | rfl | rfl)
      · exact Nat.pos_of_ne_zero h1
      · show 2 ≤ o.populationSize; omega
      · exact h3'
    · rw [Bool.not_eq_false] at h4
      simp only [h1, h2, h3, h4, ↓reduceIte, Bool.not_true, Bool.false_eq_true]

/-- **C30.** `build` succeeds exactly if the dimension is positive, the population size at least
two, the step size normal and positive, and `cm` normal and in `(0, 1]`. -/
theorem c30_valid_iff (env : Env n F R) (w : World n F) (obj : Obj n F) (o : Options n F) :
    (∃ c, CMAES.new env w obj o = .ok c) ↔
      0 < n ∧ 2 ≤ o.populationSize ∧
      (Flt.isNormal o.initialStepSize = true ∧ Flt.lt 0 o.initialStepSize = true) ∧
      (Flt.isNormal o.cm = true ∧ Flt.lt 0 o.cm = true ∧ Flt.le o.cm 1 = true) := by
  rcases c30_build env w obj o with ⟨c, hc, hq⟩ | ⟨b, p, e, a, hr, _, hp, he⟩
  · exact ⟨fun _ => ⟨hq (0 < n, .dimensions) (by simp [requirements]),
      hq (2 ≤ o.populationSize, .populationSize) (by simp [requirements]),
      hq (_, .initialStepSize) (by simp [requirements]),
      hq (_, .cm) (by simp [requirements])⟩, fun _ => ⟨c, hc⟩⟩
  · constructor
    · rintro ⟨c, hc⟩
      rw [he] at hc; cases hc
    · rintro ⟨h1, h2, h3, h4⟩
      have : (p, e) ∈ requirements o := by rw [hr]; simp
      simp only [requirements, List.mem_cons, List.not_mem_nil, or_false, Prod.mk.injEq] at this
      rcases this with ⟨rfl, _⟩ | ⟨rfl, _⟩ | ⟨rfl, _⟩ | ⟨rfl, _⟩
      · exact absurd h1 hp
      · exact absurd h2 hp
      · exact absurd h3 hp
      · exact absurd h4 hp

open Witness in
/-- Both cases occur. -/
example : CMAES.validate opts = none := opts_valid
open Witness in
example : CMAES.validate { opts with populationSize := 1, cm := 2 } = some .populationSize ∧
    CMAES.validate { opts with cm := 2 } = some .cm ∧
    CMAES.validate { opts with initialStepSize := Flt.nan, cm := 0 } = some .initialStepSize ∧
    CMAES.validate { opts with initialStepSize := 0 - 1 } = some .initialStepSize ∧
    CMAES.validate { opts with initialStepSize := Flt.ofRat (1 / 2 ^ 1030) } =
      some .initialStepSize ∧
    CMAES.validate ({ opts with initialMean := Fin.elim0 } : Options 0 F64) = some .dimensions := by
  decide +kernel

/-! ### C31 -/

theorem one_mul_one : (1 : F) * 1 = 1 := by
  have := mul_ofNat (F := F) 1 1 (by norm_num) (by norm_num) (by norm_num)
  exact this.trans (by simp; rfl)

/-- **C31.** A `CMAES` that was just built reflects its options, and building does not call the
objective function. -/
theorem c31_fresh {env : Env n F R} {w : World n F} {obj : Obj n F} {o : Options n F}
    {c : CMAES n F R} (h : CMAES.new env w obj o = .ok c) :
    c.generation = 0 ∧ c.functionEvals = 0 ∧ c.mean = o.initialMean ∧
    c.sigma = o.initialStepSize ∧
    (∀ i j, c.covarianceMatrix i j = if i = j then 1 else 0) ∧
    (∀ i, c.eigenvalues i = 1) ∧ c.axisRatio = 1 ∧
    c.currentBestIndividual = none ∧ c.overallBestIndividual = none ∧
    c.intoObjectiveFunction = obj := by
  obtain ⟨hv, rfl⟩ := new_eq_ok h
  have hn : n ≠ 0 := by
    intro h0
    simp [CMAES.validate, h0] at hv
  obtain ⟨h1, h2, h3, h4, -⟩ := create_search env w obj o
  have hd : (State.new o.initialMean o.initialStepSize).cov.sqrtEigenvalues.diag =
      fun _ : Fin n => (1 : F) := by
    funext i
    simp [State.new, CovMat.new, Mat.diag, Mat.one]
  have hrep : ∀ m : Nat, (List.replicate m (1 : F)).foldl
      (fun a b => if Flt.le b a then a else b) 1 = 1 := by
    intro m
    induction m with
    | zero => rfl
    | succ m ih => rw [List.replicate_succ, List.foldl_cons]; simpa using ih
  have hrep' : ∀ m : Nat, (List.replicate m (1 : F)).foldl
      (fun a b => if Flt.le a b then a else b) 1 = 1 := by
    intro m
    induction m with
    | zero => rfl
    | succ m ih => rw [List.replicate_succ, List.foldl_cons]; simpa using ih
  obtain ⟨m, rfl⟩ := Nat.exists_eq_succ_of_ne_zero hn
  refine ⟨by rw [CMAES.generation, h3]; rfl, by rw [CMAES.functionEvals, h1]; rfl,
    by rw [CMAES.mean, h3]; rfl, by rw [CMAES.sigma, h3]; rfl, ?_, ?_, ?_,
    by rw [CMAES.currentBestIndividual, h4]; rfl, by rw [CMAES.overallBestIndividual, h4]; rfl,
    by rw [CMAES.intoObjectiveFunction, h1]; rfl⟩
  · intro i j
    rw [CMAES.covarianceMatrix, h3]; rfl
  · intro i
    unfold CMAES.eigenvalues
    rw [h3]
    have e : (State.new o.initialMean o.initialStepSize).cov.sqrtEigenvalues i i = (1 : F) :=
      congrFun hd i
    rw [e]
    simp [Flt.powi, Flt.powiLoop, one_mul_one]
  · unfold CMAES.axisRatio State.axisRatio
    rw [h3, hd]
    unfold Vec.max Vec.min
    rw [List.ofFn_const, List.replicate_succ]
    simp only [hrep, hrep']
    exact div_one _

/-- **C31.** A plot exists exactly if it was enabled, and it then has exactly one point, recorded
at zero evaluations with the initial mean and step size. -/
theorem c31_plot {env : Env n F R} {w : World n F} {obj : Obj n F} {o : Options n F}
    {c : CMAES n F R} (h : CMAES.new env w obj o = .ok c) :
    (c.plot = none ↔ o.plotOptions = none) ∧
    ∀ p, c.plot = some p → p.data.len = 1 ∧ p.data.functionEvals = [0] ∧
      p.data.sigma = [nudged o.initialStepSize] ∧
      ∀ i, p.data.meanDimensions i = [o.initialMean i] := by
  obtain ⟨hv, rfl⟩ := new_eq_ok h
  have e : (CMAES.create env w obj o).plot = o.plotOptions.map fun po =>
      (Plot.new po o.mode).addDataPoint 0 (State.new o.initialMean o.initialStepSize)
        History.new := by
    unfold CMAES.create
    simp only
    split <;>
    · simp only [CMAES.printInitialInfo, CMAES.print, CMAES.addPlotPoint, Option.map_map]
      cases o.plotOptions <;> rfl
  rw [e]
  refine ⟨by simp, ?_⟩
  intro p hp
  cases hpo : o.plotOptions with
  | none => simp [hpo] at hp
  | some po =>
    rw [hpo] at hp
    simp only [Option.map_some, Option.some.injEq] at hp
    subst hp
    exact ⟨rfl, rfl, rfl, fun i => rfl⟩

/-! ### C32 -/

/-- Options are determined by the values of all options. -/
theorem options_ext {o o' : OptionsCore F} (h : ∀ k, o.get k = o'.get k) : o = o' := by
  have h1 := h .mode
  have h2 := h .initialStepSize
  have h3 := h .populationSize
  have h4 := h .constraints
  have h5 := h .maxResamples
  have h6 := h .weights
  have h7 := h .parallelUpdate
  have h8 := h .cm
  have h9 := h .maxFunctionEvals
  have h10 := h .maxGenerations
  have h11 := h .maxTime
  have h12 := h .funTarget
  have h13 := h .tolFun
  have h14 := h .tolFunRel
  have h15 := h .tolFunHist
  have h16 := h .tolX
  have h17 := h .tolStagnation
  have h18 := h .tolXUp
  have h19 := h .tolConditionCov
  have h20 := h .seed
  have h21 := h .plotOptions
  have h22 := h .printGapEvals
  cases o
  cases o'
  simp only [OptionsCore.get, OptionValue.mode.injEq, OptionValue.float.injEq,
    OptionValue.nat.injEq, OptionValue.constraints.injEq, OptionValue.optNat.injEq,
    OptionValue.weights.injEq, OptionValue.bool.injEq, OptionValue.optFloat.injEq,
    OptionValue.plot.injEq] at *
  simp_all

/-- **C32.** A builder method sets its own option. -/
theorem c32_own (o : OptionsCore F) (s : Setter F) : (o.set s).get s.name = s.value := by
  cases s <;> rfl

/-- **C32.** A builder method changes no other option. -/
theorem c32_others (o : OptionsCore F) (s : Setter F) (k : OptionName) (h : k ≠ s.name) :
    (o.set s).get k = o.get k := by
  cases s <;> cases k <;> first | rfl | exact absurd rfl h

/-- **C32.** Of two builder methods for the same option the last one wins. -/
theorem c32_last (o : OptionsCore F) (s s' : Setter F) (h : s.name = s'.name) :
    (o.set s).set s' = o.set s' := by
  apply options_ext
  intro k
  by_cases hk : k = s'.name
  · rw [hk, c32_own, c32_own]
  · rw [c32_others _ _ _ hk, c32_others _ _ _ hk, c32_others _ _ _ (by rw [h]; exact hk)]

/-- **C32.** Builder methods for different options commute. -/
theorem c32_commute (o : OptionsCore F) (s s' : Setter F) (h : s.name ≠ s'.name) :
    (o.set s).set s' = (o.set s').set s := by
  apply options_ext
  intro k
  by_cases hk : k = s'.name
  · subst hk
    rw [c32_own, c32_others _ _ _ (Ne.symm h), c32_own]
  · by_cases hk' : k = s.name
    · subst hk'
      rw [c32_own, c32_others _ _ _ h, c32_own]
    · rw [c32_others _ _ _ hk, c32_others _ _ _ hk', c32_others _ _ _ hk', c32_others _ _ _ hk]

/-- **C32.** The builder methods other than `initial_mean` leave the initial mean alone, and
`initial_mean` changes nothing else. -/
theorem c32_mean (o : Options n F) (s : Setter F) {m : Nat} (mean : Vec m F) :
    (o.set s).initialMean = o.initialMean ∧ (o.withInitialMean mean).initialMean = mean ∧
    (o.withInitialMean mean).toOptionsCore = o.toOptionsCore ∧
    (o.set s).withInitialMean mean = (o.withInitialMean mean).set s :=
  ⟨rfl, rfl, rfl, rfl⟩

/-- **C32.** The default population size is at least four, so default options pass the population
check. -/
theorem c32_default_population (mean : Vec n F) (step : F) :
    4 ≤ (Options.new mean step).populationSize := Nat.le_add_right _ _

/-- **C32.** Default options with a valid step size build in every positive dimension, as soon as
one is a normal number. -/
theorem c32_default_builds (env : Env n F R) (w : World n F) (obj : Obj n F) (mean : Vec n F)
    (step : F) (hn : 0 < n) (h1 : Flt.isNormal step = true) (h2 : Flt.lt 0 step = true)
    (one : Flt.isNormal (1 : F) = true) :
    ∃ c, CMAES.new env w obj (Options.new mean step) = .ok c := by
  rw [c30_valid_iff]
  have n1 : Flt.isNaN (1 : F) = false := isNaN_ofRat _
  have n0 : Flt.isNaN (0 : F) = false := isNaN_ofRat _
  have v1 : val (1 : F) = ((1 : ℝ) : EReal) := by
    have := val_ofNat (F := F) 1 (by norm_num); exact this.trans (by simp)
  have v0 : val (0 : F) = ((0 : ℝ) : EReal) := by
    have := val_ofNat (F := F) 0 (by norm_num); exact this.trans (by simp)
  refine ⟨hn, ?_, ⟨h1, h2⟩, one, lt_iff.mpr ⟨n0, n1, ?_⟩, le_iff.mpr ⟨n1, n1, le_rfl⟩⟩
  · have := c32_default_population mean step; omega
  · show val (0 : F) < val (1 : F)
    rw [v0, v1]; exact_mod_cast one_pos

open Witness in
example : Flt.isNormal (1 : F64) = true := by decide +kernel

/-! ### C64 -/

theorem restartOptions_ext {o o' : RestartOptions n F} (h : ∀ k, o.get k = o'.get k)
    (hs : o.strategy = o'.strategy) (h1 : o.searchStart = o'.searchStart)
    (h2 : o.searchEnd = o'.searchEnd) : o = o' := by
  have a1 := h .mode
  have a2 := h .parallelUpdate
  have a3 := h .defaultOptions
  have a4 := h .funTarget
  have a5 := h .maxFunctionEvals
  have a6 := h .maxTime
  have a7 := h .maxFunctionEvalsPerRun
  have a8 := h .maxGenerationsPerRun
  have a9 := h .enablePrinting
  have a10 := h .seed
  cases o
  cases o'
  simp only [RestartOptions.get, RestartOptionValue.mode.injEq, RestartOptionValue.bool.injEq,
    RestartOptionValue.options.injEq, RestartOptionValue.optFloat.injEq,
    RestartOptionValue.optNat.injEq] at *
  simp_all

/-- **C64.** A builder method of `RestartOptions` sets its own option and changes nothing else:
neither another option nor the strategy nor the search range. -/
theorem c64_set (o : RestartOptions n F) (s : RestartSetter F) :
    (o.set s).get s.name = s.value ∧ (∀ k, k ≠ s.name → (o.set s).get k = o.get k) ∧
    (o.set s).strategy = o.strategy ∧ (o.set s).searchStart = o.searchStart ∧
    (o.set s).searchEnd = o.searchEnd := by
  refine ⟨by cases s <;> rfl, ?_, by cases s <;> rfl, by cases s <;> rfl, by cases s <;> rfl⟩
  intro k hk
  cases s <;> cases k <;> first | rfl | exact absurd rfl hk

/-- **C64.** Of two builder methods for the same option the last one wins. -/
theorem c64_last (o : RestartOptions n F) (s s' : RestartSetter F) (h : s.name = s'.name) :
    (o.set s).set s' = o.set s' := by
  obtain ⟨-, b1, c1, d1, e1⟩ := c64_set o s
  obtain ⟨a2, b2, c2, d2, e2⟩ := c64_set (o.set s) s'
  obtain ⟨a3, b3, c3, d3, e3⟩ := c64_set o s'
  refine restartOptions_ext ?_ (by rw [c2, c1, c3]) (by rw [d2, d1, d3]) (by rw [e2, e1, e3])
  intro k
  by_cases hk : k = s'.name
  · rw [hk, a2, a3]
  · rw [b2 k hk, b3 k hk, b1 k (by rw [h]; exact hk)]

/-- **C64.** Builder methods for different options commute. -/
theorem c64_commute (o : RestartOptions n F) (s s' : RestartSetter F) (h : s.name ≠ s'.name) :
    (o.set s).set s' = (o.set s').set s := by
  obtain ⟨a1, b1, c1, d1, e1⟩ := c64_set o s
  obtain ⟨a2, b2, c2, d2, e2⟩ := c64_set (o.set s) s'
  obtain ⟨a3, b3, c3, d3, e3⟩ := c64_set o s'
  obtain ⟨a4, b4, c4, d4, e4⟩ := c64_set (o.set s') s
  refine restartOptions_ext ?_ (by rw [c2, c1, c4, c3]) (by rw [d2, d1, d4, d3])
    (by rw [e2, e1, e4, e3])
  intro k
  by_cases hk : k = s'.name
  · subst hk
    rw [a2, b4 _ (Ne.symm h), a3]
  · by_cases hk' : k = s.name
    · subst hk'
      rw [a4, b2 _ hk, a1]
    · rw [b2 k hk, b1 k hk', b4 k hk', b3 k hk]

end Cmaes
