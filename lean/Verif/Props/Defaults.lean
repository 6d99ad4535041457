import Verif.Spec.Defaults
import Verif.Props.Build
import Verif.Props.Tolerance
import Verif.Lemmas.RealExec
import Verif.Witness

/-!
# C71: configured values and documented defaults
-/

set_option linter.unusedSectionVars false

namespace Cmaes
open FltLaws
variable {n : Nat} {F R : Type} [Flt F] [FltLaws F]

theorem foldl_get (o : Options n F) (ss : List (Setter F)) (k : OptionName) :
    (ss.foldl Options.set o).get k = settingOf ss k (o.get k) ∧
    (ss.foldl Options.set o).initialMean = o.initialMean := by
  induction ss using List.reverseRecOn with
  | nil => exact ⟨rfl, rfl⟩
  | append_singleton ss s ih =>
    rw [List.foldl_append]
    simp only [List.foldl_cons, List.foldl_nil]
    refine ⟨?_, ih.2⟩
    by_cases h : s.name = k
    · have e : settingOf (ss ++ [s]) k (o.get k) = s.value := by
        unfold settingOf
        rw [List.filter_append, List.filter_cons_of_pos (by simpa using h)]
        simp
      rw [e, ← h]
      exact c32_own _ s
    · have e : settingOf (ss ++ [s]) k (o.get k) = settingOf ss k (o.get k) := by
        unfold settingOf
        rw [List.filter_append, List.filter_cons_of_neg (by simpa using h)]
        simp
      rw [e, ← ih.1]
      exact c32_others _ s k (Ne.symm h)

/-- **C71.** After any sequence of builder methods on `CMAESOptions::new`, every option has the
value given to it last, or else its documented default. -/
theorem c71_options (mean : Vec n F) (step : F) (ss : List (Setter F)) (k : OptionName) :
    (ss.foldl Options.set (Options.new mean step)).get k =
      settingOf ss k (documentedDefault n step k) ∧
    (ss.foldl Options.set (Options.new mean step)).initialMean = mean := by
  have hd : (Options.new mean step).get k = documentedDefault n step k := by
    have e12 : (10 : ℚ) ^ 12 = 1000000000000 := by norm_num
    have e8 : (10 : ℚ) ^ 8 = 100000000 := by norm_num
    have e14 : (10 : ℚ) ^ 14 = 100000000000000 := by norm_num
    cases k <;> simp [Options.new, OptionsCore.get, documentedDefault, e12, e8, e14,
      defaultPopulationSize]
  obtain ⟨h1, h2⟩ := foldl_get (Options.new mean step) ss k
  exact ⟨by rw [h1, hd], h2⟩

variable {env : Env n F R} {obj : Obj n F} {o : Options n F} {t : List (NextCall n F)}
  {c : CMAES n F R}

/-- **C71.** At any time `parameters()` reports the options the `CMAES` was built with; an unset
`tol_x` is `1e-12` times the initial step size, an unset `tol_stagnation` is
`100 + ⌈100 n^1.5 / λ⌉`, and an unset seed the random one that was used. -/
theorem c71_parameters (h : History.Of env obj o t c) :
    c.parameters.mode = o.mode ∧ c.parameters.dim = n ∧ c.parameters.lambda = o.populationSize ∧
    c.parameters.initialSigma = o.initialStepSize ∧ c.parameters.setting = o.weights ∧
    c.parameters.cm = o.cm ∧ c.parameters.parallelUpdate = o.parallelUpdate ∧
    c.parameters.seed = (match o.seed with | some s => s | none => env.randomSeed) ∧
    c.parameters.termination.maxFunctionEvals = o.maxFunctionEvals ∧
    c.parameters.termination.maxGenerations = o.maxGenerations ∧
    c.parameters.termination.maxTime = o.maxTime ∧
    c.parameters.termination.funTarget = o.funTarget ∧
    c.parameters.termination.tolFun = o.tolFun ∧
    c.parameters.termination.tolFunRel = o.tolFunRel ∧
    c.parameters.termination.tolFunHist = o.tolFunHist ∧
    c.parameters.termination.tolXUp = o.tolXUp ∧
    c.parameters.termination.tolConditionCov = o.tolConditionCov ∧
    c.parameters.termination.tolX = (match o.tolX with
      | some x => x
      | none => Flt.ofRat (1 / 1000000000000) * o.initialStepSize) ∧
    c.parameters.termination.tolStagnation = (match o.tolStagnation with
      | some k => k
      | none => 100 + Flt.toUsize (Flt.ceil ((100 : F) *
          Flt.powf (Flt.ofNat n) (Flt.ofRat (3 / 2)) / Flt.ofNat o.populationSize))) := by
  obtain ⟨gs, i, _⟩ := fresh_inv h
  rw [i.parameters]
  refine ⟨rfl, rfl, rfl, rfl, rfl, rfl, rfl, ?_, rfl, rfl, rfl, rfl, rfl, rfl, rfl, rfl, rfl, ?_,
    ?_⟩
  · cases hs : o.seed <;> rfl
  · have e12 : (10 : ℚ) ^ 12 = 1000000000000 := by norm_num
    show o.tolX.getD _ = _
    rw [e12]
    cases o.tolX <;> rfl
  · show o.tolStagnation.getD _ = _
    cases o.tolStagnation <;> rfl

/-- **C71, exact arithmetic.** The default population size is `4 + ⌊3 ln n⌋`, and the default of
`tol_stagnation` is `100 + ⌈100 n^1.5 / λ⌉`. -/
theorem c71_exact (hn : 0 < n) (hn' : n ≤ 2 ^ 32) (mean : Vec n XR) (step : XR) {lambda : Nat}
    (hl : 0 < lambda) :
    (Options.new mean step).populationSize = 4 + ⌊3 * Real.log n⌋₊ ∧
    100 + Flt.toUsize (Flt.ceil ((100 : XR) *
      Flt.powf (Flt.ofNat n) (Flt.ofRat (3 / 2)) / Flt.ofNat lambda)) =
      100 + ⌈100 * (n : ℝ) ^ (3 / 2 : ℝ) / lambda⌉₊ := by
  have hn0 : (0 : ℝ) < n := by exact_mod_cast hn
  have hl0 : (0 : ℝ) < lambda := by exact_mod_cast hl
  have hnr : (n : ℝ) ≤ 2 ^ 32 := by exact_mod_cast hn'
  constructor
  · show 4 + Flt.toUsize (Flt.floor ((3 : XR) * Flt.ln (Flt.ofNat n))) = _
    have hlog : Real.log n ≤ 2 ^ 32 :=
      (Real.log_le_sub_one_of_pos hn0).trans (by linarith)
    rw [XR.ofNat_eq, XR.ln_fin hn0, XR.lit_eq, XR.mul_fin]
    show 4 + Flt.toUsize (.fin ((⌊((3 : ℕ) : ℝ) * Real.log n⌋ : ℤ) : ℝ) : XR) = _
    rw [toUsize_fin, Int.floor_intCast]
    congr 1
    have e : (⌊((3 : ℕ) : ℝ) * Real.log n⌋).toNat = ⌊3 * Real.log n⌋₊ := by
      push_cast; rfl
    rw [e]
    refine min_eq_right ?_
    have : (⌊3 * Real.log n⌋₊ : ℝ) ≤ 2 ^ 64 - 1 := by
      refine (Nat.floor_le ?_).trans ?_
      · have := Real.log_nonneg (show (1 : ℝ) ≤ n by exact_mod_cast hn)
        linarith
      · norm_num at hlog ⊢; linarith
    have h2 : (⌊3 * Real.log n⌋₊ : ℝ) ≤ ((2 ^ 64 - 1 : ℕ) : ℝ) := this.trans (by norm_num)
    exact_mod_cast h2
  · have hp : (Flt.powf (Flt.ofNat n) (Flt.ofRat (3 / 2)) : XR) =
        .fin ((n : ℝ) ^ (3 / 2 : ℝ)) := by
      rw [XR.ofNat_eq, XR.ofRat_eq]
      show (if 0 < (n : ℝ) then Ext.fin ((n : ℝ) ^ ((3 / 2 : ℚ) : ℝ)) else _) = _
      rw [if_pos hn0]
      push_cast
      rfl
    have hpow : (n : ℝ) ^ (3 / 2 : ℝ) ≤ 2 ^ 48 := by
      have h1 : (n : ℝ) ^ (3 / 2 : ℝ) ≤ ((2 : ℝ) ^ (32 : ℕ)) ^ (3 / 2 : ℝ) :=
        Real.rpow_le_rpow hn0.le hnr (by norm_num)
      have h2 : ((2 : ℝ) ^ (32 : ℕ)) ^ (3 / 2 : ℝ) = 2 ^ 48 := by
        rw [← Real.rpow_natCast, ← Real.rpow_mul (by norm_num), ← Real.rpow_natCast]
        norm_num
      rwa [h2] at h1
    rw [hp, XR.ofNat_eq, XR.lit_eq, XR.mul_fin, XR.div_fin hl0.ne', ceil_fin, toUsize_fin,
      Int.floor_intCast]
    congr 1
    show min (2 ^ 64 - 1) ⌈100 * (n : ℝ) ^ (3 / 2 : ℝ) / lambda⌉₊ = _
    refine min_eq_right (Nat.ceil_le.mpr ?_)
    have h1 : (1 : ℝ) ≤ lambda := by exact_mod_cast hl
    have h0 : 0 ≤ (n : ℝ) ^ (3 / 2 : ℝ) := by positivity
    have h3 : 100 * (n : ℝ) ^ (3 / 2 : ℝ) / lambda ≤ 100 * (n : ℝ) ^ (3 / 2 : ℝ) :=
      div_le_self (by positivity) h1
    norm_num at hpow ⊢
    linarith

/-! ### Switching criteria off -/

theorem spread_not_neg {l : List F} {d x : F} (h : IsSpread l d) (hx : val x ≤ 0) :
    Flt.lt d x = false := by
  obtain ⟨mx, h1, mn, h2, h3, rfl⟩ := h
  rw [Bool.eq_false_iff]
  intro hlt
  obtain ⟨a, b, k⟩ := lt_iff.mp hlt
  rw [sub_def] at a k
  obtain ⟨e1, e2, e3⟩ := le_iff.mp (h3 mx h1).1
  have hmn : Flt.isNaN (mn + -mn) = false ∨ Flt.isNaN (mn + -mn) = true := by
    cases Flt.isNaN (mn + -mn) <;> simp
  rcases hmn with hmn | hmn
  · have := add_le_add_right hmn a e3
    rw [add_neg_self hmn] at this
    exact absurd (lt_of_le_of_lt this k) (not_lt.mpr hx)
  · rcases isNaN_add.mp hmn with h | h | ⟨h, h'⟩ | ⟨h, h'⟩
    · rw [e1] at h; cases h
    · rw [isNaN_neg, e1] at h; cases h
    · have : Flt.isNaN (mx + -mn) = true :=
        isNaN_add.mpr (.inr (.inr (.inl ⟨top_le_iff.mp (h ▸ e3), h'⟩)))
      rw [a] at this; cases this
    · rw [FltLaws.add_comm] at k a
      have htop := add_top (by rw [isNaN_neg]; exact e1) h' a
      rw [htop] at k
      exact absurd (lt_of_lt_of_le k hx) (by simp)

theorem val_zero' : val (0 : F) = 0 := by
  have := val_ofNat (F := F) 0 (by norm_num); exact this.trans (by simp)

/-- **C71.** A tolerance of zero (the default of `tol_fun_rel`) switches its criterion off, for
every run. -/
theorem c71_disabled (h : History.Of env obj o t c) (hn : 30 * n < 2 ^ 53)
    (hl : o.populationSize ≤ 2 ^ 53) {s : NextCall n F} (hs : s ∈ t) :
    (o.tolFunRel = 0 → .tolFunRel ∉ s.reasons) ∧ (o.tolFun = 0 → .tolFun ∉ s.reasons) ∧
    (o.tolFunHist = 0 → .tolFunHist ∉ s.reasons) ∧ (o.tolX = some 0 → .tolX ∉ s.reasons) := by
  obtain ⟨t1, t2, c1, c2, rfl, h1, h2, h3, _⟩ := h.next_of_mem hs
  obtain ⟨w, c0, h0, he⟩ := h1
  have h' : History.Of env obj o (t1 ++ [s]) c2 := ⟨w, c0, h0, he.next h2 h3⟩
  refine ⟨fun e hr => ?_, fun e hr => ?_, fun e hr => ?_, fun e hr => ?_⟩
  · have hc := checked_of_reason h' hr (by decide) (by decide)
    obtain ⟨vs, d, d', a, b, _, hd, _, _, _, hlt, _⟩ := (c22_tolFunRel h' hc hn hl).mp hr
    rw [e] at hlt
    obtain ⟨_, hnan, _⟩ := lt_iff.mp hlt
    rw [spread_not_neg hd (zero_mul hnan).le] at hlt
    cases hlt
  · have hc := checked_of_reason h' hr (by decide) (by decide)
    obtain ⟨vs, d, d', _, hd, _, hlt, _⟩ := (c22_tolFun h' hc hn hl).mp hr
    rw [e, spread_not_neg hd val_zero'.le] at hlt
    cases hlt
  · have hc := checked_of_reason h' hr (by decide) (by decide)
    obtain ⟨vs, d, _, hd, hlt⟩ := (c22_tolFunHist h' hc hn hl).mp hr
    rw [e, spread_not_neg hd val_zero'.le] at hlt
    cases hlt
  · have hc := checked_of_reason h' hr (by decide) (by decide)
    have hb := (c24_implemented h' hc).mp hr
    have hv : 0 < n := by
      obtain ⟨hv, _⟩ := new_eq_ok h0
      by_contra hz
      simp [CMAES.validate, show n = 0 by omega] at hv
    have hlt := hb.2 ⟨0, hv⟩
    rw [show tolXBound o = 0 by unfold tolXBound; rw [e]; rfl] at hlt
    obtain ⟨k1, _, k2⟩ := lt_iff.mp hlt
    rw [isNaN_abs] at k1
    rw [val_abs k1, val_zero', max_lt_iff] at k2
    have := EReal.neg_lt_neg_iff.mpr k2.1
    rw [neg_zero] at this
    exact absurd (this.trans k2.2) (lt_irrefl _)

section
open Witness
set_option maxRecDepth 100000

/-- The last value counts, and options that are not set keep their defaults. -/
example : (fun o : Options 2 F64 => decide (o.tolFun = 2 ∧ o.populationSize = 7 ∧
      o.tolFunHist = Flt.ofRat (1 / 1000000000000) ∧ o.maxResamples = some 10))
    ([Setter.tolFun (1 : F64), .populationSize 7, .tolFun 2].foldl Options.set
      (Options.new (fun _ => 0) 1)) = true := by decide +kernel

/-- Three generations of a run with its tolerances switched off. -/
example : ∃ t c, History.Of (wenv 2) sphere { opts with tolFun := 0, tolFunHist := 0, tolX := some 0 } t c ∧
    (decide (t.length = 3) && decide (opts.tolFunRel = 0)) = true :=
  exists_history [.seq, .par, .seq] _ (by decide +kernel) (by decide +kernel)
end

end Cmaes
