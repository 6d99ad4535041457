import Verif.Lemmas.DrawAxes
import Verif.Props.Draw
import Verif.Props.Exact
import Verif.Props.History

/-!
# C69: the axes contain what is drawn
-/

set_option linter.unusedSectionVars false

namespace Cmaes

section general
open FltLaws
variable {n : Nat} {F R : Type} [Flt F] [FltLaws F] [DrawMath F] {env : Env n F R} {obj : Obj n F}
  {o : Options n F} {t : List (NextCall n F)} {c : CMAES n F R} {p : Plot n F}

theorem Curve.values {pts : List (PlotPoint n F)} {P : PlotPoint n F → Prop} {f : PlotPoint n F → F}
    {l : List (Nat × F)} (h : Curve pts P f l) (y : F) :
    (∃ q ∈ l, q.2 = y) ↔ Flt.isNaN y = false ∧ ∃ pt ∈ pts, P pt ∧ f pt = y := by
  constructor
  · rintro ⟨q, hq, rfl⟩
    obtain ⟨pt, h1, h2, h3, rfl⟩ := (h.mem q).mp hq
    exact ⟨h3, pt, h1, h2, rfl⟩
  · rintro ⟨h3, pt, h1, h2, rfl⟩
    exact ⟨_, (h.mem _).mpr ⟨pt, h1, h2, h3, rfl⟩, rfl⟩

theorem FirstBest.unique {mode : Mode} {pts : List (PlotPoint n F)} (ho : Ordered pts)
    {a b : PlotPoint n F} (ha : FirstBest mode pts a) (hb : FirstBest mode pts b) : a = b := by
  have h1 := ha.best b hb.mem
  have h2 := hb.best a ha.mem
  rw [better_iff] at h1 h2
  have e : val a.best = val b.best := by
    have : mode.key a.best = mode.key b.best :=
      le_antisymm (not_lt.mp fun h => h1 ⟨hb.number, ha.number, h⟩)
        (not_lt.mp fun h => h2 ⟨ha.number, hb.number, h⟩)
    cases mode
    · exact this
    · exact neg_inj.mp this
  have e2 : a.evals = b.evals := le_antisymm
    (ha.first b hb.mem (feq_iff.mpr ⟨hb.number, ha.number, e.symm⟩))
    (hb.first a ha.mem (feq_iff.mpr ⟨ha.number, hb.number, e⟩))
  obtain ⟨i, hi, rfl⟩ := List.getElem_of_mem ha.mem
  obtain ⟨j, hj, rfl⟩ := List.getElem_of_mem hb.mem
  rcases lt_trichotomy i j with h | rfl | h
  · exact absurd e2 (List.pairwise_iff_getElem.mp ho i j hi hj h).ne
  · rfl
  · exact absurd e2 (List.pairwise_iff_getElem.mp ho j i hj hi h).ne'

/-- The vertical axis of the first chart is computed from the drawn values. -/
theorem single_values (h : History.Of env obj o t c) (hp : c.plot = some p)
    {pts : List (PlotPoint n F)} (hs : p.data.Shows pts) {D : Drawing F} (hd : p.draw = .ok D) :
    ∃ l, getLogYAxis l = .ok D.single.yAxis ∧ ∀ y, y ∈ l ↔ ∃ q ∈ D.single.points, q.2 = y := by
  obtain ⟨h0, ho⟩ := points_ordered h hp hs
  obtain ⟨f, m, s, a, hf, hm, hsg, ha, hcase⟩ := c68_single h hp hs hd
  obtain ⟨hd, _⟩ := draw_parts hd
  simp only [drawSingleDimensioned, Outcome.bind_eq_ok, configureArea_ok] at hd
  obtain ⟨ax, hax, _, _, _, _, _, _, _, hch⟩ := hd
  refine ⟨_, by rw [hch]; exact hax, fun y => ?_⟩
  have base : ∀ l : List F, y ∈ (l.filter fun y => !Flt.isNaN y) ↔ Flt.isNaN y = false ∧ y ∈ l := by
    intro l; rw [List.mem_filter]; simp [and_comm]
  have four : Flt.isNaN y = false ∧ y ∈ p.data.bestFunctionValue.map Flt.abs ++
      p.data.medianFunctionValue.map Flt.abs ++ p.data.sigma ++ p.data.axisRatio ↔
      (∃ q ∈ f ++ (m ++ (s ++ a)), q.2 = y) := by
    simp only [List.mem_append, or_and_right, exists_or, hf.values, hm.values, hsg.values, ha.values,
      hs.bestFunctionValue, hs.medianFunctionValue, hs.sigma, hs.axisRatio, List.mem_map, true_and]
    constructor
    · rintro ⟨h1, ((⟨_, ⟨pt, h2, rfl⟩, h3⟩ | ⟨_, ⟨pt, h2, rfl⟩, h3⟩) | ⟨pt, h2, h3⟩) | ⟨pt, h2, h3⟩⟩
      · exact .inl ⟨h1, pt, h2, h3⟩
      · exact .inr (.inl ⟨h1, pt, h2, h3⟩)
      · exact .inr (.inr (.inl ⟨h1, pt, h2, h3⟩))
      · exact .inr (.inr (.inr ⟨h1, pt, h2, h3⟩))
    · rintro (⟨h1, pt, h2, h3⟩ | ⟨h1, pt, h2, h3⟩ | ⟨h1, pt, h2, h3⟩ | ⟨h1, pt, h2, h3⟩)
      · exact ⟨h1, .inl (.inl (.inl ⟨_, ⟨pt, h2, rfl⟩, h3⟩))⟩
      · exact ⟨h1, .inl (.inl (.inr ⟨_, ⟨pt, h2, rfl⟩, h3⟩))⟩
      · exact ⟨h1, .inl (.inr ⟨pt, h2, h3⟩)⟩
      · exact ⟨h1, .inr ⟨pt, h2, h3⟩⟩
  have hmode := (recorded_inv h hp).mode
  rcases bestRecorded_spec p.mode hs ho with ⟨e, hall⟩ | ⟨A, b, B, e, hb, hfb⟩
  · rw [e]
    rcases hcase with ⟨_, h1, h2⟩ | ⟨b, _, _, hb, _⟩
    · rw [Chart.points, h1, h2]
      simp only [List.flatMap_cons, List.flatMap_nil, List.append_nil, singleYValues]
      rw [base, four]
    · have := hall b hb.mem
      rw [hb.number] at this
      cases this
  · rw [hb]
    rcases hcase with ⟨h1, _⟩ | ⟨b', l, r, hb', h1, h2, hl, hr⟩
    · have := h1 b hfb.mem
      rw [hfb.number] at this
      cases this
    · rw [hmode] at hfb
      obtain rfl := hfb.unique ho hb'
      have hcount : 1 < bestCount p.data b.best ↔ Repeated pts b := by
        rw [e]; exact bestCount_spec (by rw [← e]; exact hs) (by rw [← e]; exact ho) hfb.number
      have hdl : distToBest p.data b.best = pts.map b.distance := by
        rw [distToBest, hs.bestFunctionValue, List.map_map]; rfl
      have hmark : (∃ q ∈ [(b.evals, Flt.abs b.best)], q.2 = y) → ∃ q ∈ f, q.2 = y := by
        rw [hf.values]
        rintro ⟨q, hq, rfl⟩
        obtain rfl := List.mem_singleton.mp hq
        exact ⟨by rw [isNaN_abs]; exact hfb.number, b, hfb.mem, trivial, rfl⟩
      have hdist : (Flt.isNaN y = false ∧ y ∈ (((distToBest p.data b.best).zipIdx.filter
            fun (q : F × Nat) => decide (1 < bestCount p.data b.best) || q.2 != A.length).map
              Prod.fst)) ↔ (∃ q ∈ l, q.2 = y) ∨ ∃ q ∈ r, q.2 = y := by
        have idx : ∀ {k : Nat} {pt : PlotPoint n F}, pts[k]? = some pt →
            (k ≠ A.length ↔ pt.evals ≠ b.evals) := by
          intro k pt hk
          have hbA : pts[A.length]? = some b := by rw [e]; simp
          obtain ⟨hk1, rfl⟩ := List.getElem?_eq_some_iff.mp hk
          obtain ⟨hb1, hb2⟩ := List.getElem?_eq_some_iff.mp hbA
          rw [← hb2]
          rcases lt_trichotomy k A.length with hlt | rfl | hlt
          · have := List.pairwise_iff_getElem.mp ho k A.length hk1 hb1 hlt
            exact ⟨fun _ => this.ne, fun _ => hlt.ne⟩
          · simp
          · have := List.pairwise_iff_getElem.mp ho A.length k hb1 hk1 hlt
            exact ⟨fun _ => this.ne', fun _ => hlt.ne'⟩
        rw [hl.values, hr.values, hdl]
        simp only [List.mem_map, List.mem_filter, Bool.or_eq_true, decide_eq_true_eq, bne_iff_ne,
          hcount, Prod.exists, List.mem_zipIdx_iff_getElem?, List.getElem?_map,
          Option.map_eq_some_iff]
        constructor
        · rintro ⟨h3, v, k, ⟨⟨pt, hk, hv⟩, hc⟩, rfl⟩
          have hmem := List.mem_of_getElem? hk
          rcases lt_trichotomy pt.evals b.evals with hlt | heq | hlt
          · exact .inl ⟨h3, pt, hmem, .inl hlt, hv⟩
          · rcases hc with hc | hc
            · exact .inl ⟨h3, pt, hmem, .inr ⟨heq, hc⟩, hv⟩
            · exact absurd heq ((idx hk).mp hc)
          · exact .inr ⟨h3, pt, hmem, hlt, hv⟩
        · rintro (⟨h3, pt, hmem, hc, hv⟩ | ⟨h3, pt, hmem, hc, hv⟩)
          · obtain ⟨k, hk⟩ := List.mem_iff_getElem?.mp hmem
            refine ⟨h3, y, k, ⟨⟨pt, hk, hv⟩, ?_⟩, rfl⟩
            rcases hc with hc | ⟨_, hc⟩
            · exact .inr ((idx hk).mpr hc.ne)
            · exact .inl hc
          · obtain ⟨k, hk⟩ := List.mem_iff_getElem?.mp hmem
            exact ⟨h3, y, k, ⟨⟨pt, hk, hv⟩, .inr ((idx hk).mpr hc.ne')⟩, rfl⟩
      rw [Chart.points, h1, h2]
      simp only [List.flatMap_cons, List.flatMap_nil, List.append_nil, singleYValues]
      rw [base, List.mem_append, and_or_left, four, hdist]
      simp only [List.mem_append, or_and_right, exists_or]
      constructor
      · rintro ((h | h | h | h) | h | h)
        exacts [.inl (.inr (.inr (.inl h))), .inl (.inr (.inr (.inr (.inl h)))),
          .inl (.inr (.inr (.inr (.inr (.inl h))))), .inl (.inr (.inr (.inr (.inr (.inr h))))),
          .inl (.inl h), .inl (.inr (.inl h))]
      · rintro ((h | h | h | h | h | h) | h)
        exacts [.inr (.inl h), .inr (.inr h), .inl (.inl h), .inl (.inr (.inl h)),
          .inl (.inr (.inr (.inl h))), .inl (.inr (.inr (.inr h))), .inl (.inl (hmark h))]

/-- The vertical axis of a chart by dimensions is computed from the drawn values. -/
theorem dimensions_values {pts : List (PlotPoint n F)} {ch : Chart F} {label : Nat → Option String}
    {f : Fin n → PlotPoint n F → F} (hch : ch.Dimensions pts label f) {d : Fin n → List F}
    (hd : ∀ i, d i = pts.map (f i)) (hn : ∀ i, ∀ pt ∈ pts, Flt.isNaN (f i pt) = false) (y : F) :
    y ∈ (List.finRange n).flatMap d ↔ ∃ q ∈ ch.points, q.2 = y := by
  constructor
  · intro h
    rw [List.mem_flatMap] at h
    obtain ⟨i, _, h⟩ := h
    rw [hd, List.mem_map] at h
    obtain ⟨pt, hpt, rfl⟩ := h
    obtain ⟨s, h1, _, h2⟩ := hch.series i
    refine ⟨(pt.evals, f i pt), ?_, rfl⟩
    rw [Chart.points, List.mem_append, List.mem_flatMap]
    exact .inl ⟨s, List.mem_of_getElem? h1, (h2.mem _).mpr ⟨pt, hpt, trivial, hn i pt hpt, rfl⟩⟩
  · rintro ⟨q, hq, rfl⟩
    obtain ⟨i, pt, hpt, _, rfl⟩ := hch.evals hq
    rw [List.mem_flatMap]
    exact ⟨i, List.mem_finRange i, by rw [hd]; exact List.mem_map_of_mem hpt⟩

/-- A newly built `CMAES` shows the coordinates of its initial mean. -/
theorem fresh_mean {w : World n F} (h0 : CMAES.new env w obj o = .ok c) (hp : c.plot = some p)
    {D : Drawing F} (hd : p.draw = .ok D) (y : F) :
    (∃ q ∈ D.mean.points, q.2 = y) ↔ Flt.isNaN y = false ∧ ∃ i, o.initialMean i = y := by
  have h : History.Of env obj o [] c := ⟨w, c, h0, .refl c⟩
  obtain ⟨pts, hs, hne, _⟩ := c67_points h hp
  obtain ⟨d2, _⟩ := c68_dimensions h hp hs hd
  have hm : ∀ i, pts.map (fun pt => pt.mean i) = [o.initialMean i] := by
    intro i
    obtain ⟨_, rfl⟩ := new_eq_ok h0
    rw [create_plot, Option.map_eq_some_iff] at hp
    obtain ⟨po, _, rfl⟩ := hp
    rw [← hs.meanDimensions i]
    rfl
  constructor
  · rintro ⟨q, hq, rfl⟩
    obtain ⟨i, pt, hpt, hnan, rfl⟩ := d2.evals hq
    have : pt.mean i ∈ pts.map (fun pt => pt.mean i) := List.mem_map_of_mem hpt
    rw [hm i, List.mem_singleton] at this
    exact ⟨hnan, i, this.symm⟩
  · rintro ⟨hnan, i, rfl⟩
    have : o.initialMean i ∈ pts.map (fun pt => pt.mean i) := by rw [hm i]; simp
    obtain ⟨pt, hpt, e⟩ := List.mem_map.mp this
    obtain ⟨s, h1, _, h2⟩ := d2.series i
    refine ⟨(pt.evals, pt.mean i), ?_, e⟩
    rw [Chart.points, List.mem_append, List.mem_flatMap]
    exact .inl ⟨s, List.mem_of_getElem? h1,
      (h2.mem _).mpr ⟨pt, hpt, trivial, by rw [e]; exact hnan, rfl⟩⟩

end general

/-! ### The recorded values in exact arithmetic -/

open XR Matrix
variable {n : Nat} {R : Type} {env : Env n XR R} {obj : Obj n XR} {o : Options n XR}
  {t : List (NextCall n XR)} {c : CMAES n XR R} {p : Plot n XR}

theorem nudged_nan : nudged (.nan : XR) = .nan := rfl

theorem nudged_pos {r : ℝ} (h : 0 ≤ r) : ∃ s : ℝ, 0 < s ∧ nudged (.fin r : XR) = .fin s := by
  refine ⟨r + 1 / 100000000000000000000, by positivity, ?_⟩
  unfold nudged
  rw [zero_eq, le_fin, if_pos (by simpa using h), ofRat_eq, XR.add_fin]
  norm_num

theorem nudged_real (r : ℝ) : ∃ s : ℝ, s ≠ 0 ∧ nudged (.fin r : XR) = .fin s := by
  by_cases h : 0 ≤ r
  · obtain ⟨s, h1, h2⟩ := nudged_pos h
    exact ⟨s, h1.ne', h2⟩
  · refine ⟨r - 1 / 100000000000000000000, ?_, ?_⟩
    · have : r - 1 / 100000000000000000000 < 0 := by
        have : (0 : ℝ) < 1 / 100000000000000000000 := by positivity
        linarith [not_le.mp h]
      exact this.ne
    · unfold nudged
      rw [zero_eq, le_fin, if_neg (by simpa using h), ofRat_eq, XR.sub_fin]
      norm_num

/-- Medians of real numbers are real. -/
theorem median_real {l : List XR} {m : XR} (h : IsMedian l m) (hl : ∀ x ∈ l, ∃ r : ℝ, x = .fin r) :
    ∃ r : ℝ, m = .fin r := by
  obtain ⟨s, hp, _, h1, h2⟩ := h
  have hs : ∀ {k : Nat} {x : XR}, s[k]? = some x → ∃ r : ℝ, x = .fin r := fun hk =>
    hl _ (hp.mem_iff.mp (List.mem_of_getElem? hk))
  rcases Nat.mod_two_eq_zero_or_one l.length with h0 | h0
  · obtain ⟨a, b, ha, hb, rfl⟩ := h2 h0
    obtain ⟨x, rfl⟩ := hs ha
    obtain ⟨y, rfl⟩ := hs hb
    exact ⟨_, by rw [XR.add_fin, lit_eq, div_fin (by norm_num)]⟩
  · exact hs (h1 h0)

/-- What a recorded point looks like in exact arithmetic. -/
structure PlotPoint.Real (pt : PlotPoint n XR) : Prop where
  best : pt.best = .nan ∨ ∃ r : ℝ, r ≠ 0 ∧ pt.best = .fin r
  median : pt.median = .nan ∨ ∃ r : ℝ, r ≠ 0 ∧ pt.median = .fin r
  sigma : ∃ r : ℝ, 0 < r ∧ pt.sigma = .fin r
  axisRatio : ∃ r : ℝ, 0 < r ∧ pt.axisRatio = .fin r
  mean : ∀ i, ∃ r : ℝ, pt.mean i = .fin r
  sqrtEigenvalues : ∀ i, ∃ r : ℝ, 0 < r ∧ pt.sqrtEigenvalues i = .fin r
  coordAxisScales : ∀ i, ∃ r : ℝ, 0 < r ∧ pt.coordAxisScales i = .fin r

theorem point_real (hx : ExactRun env o) (hl : o.populationSize ≤ 2 * (n + 2) ^ 2)
    (hv : ∀ log x, ∃ r : ℝ, obj.f log x = .fin r) (h : History.Of env obj o t c)
    {pt : PlotPoint n XR} (hd : pt.Describes c) : pt.Real := by
  obtain ⟨_, _, _, pr⟩ := params_real h
  obtain ⟨r, x, i⟩ := exact_inv hx (rateSum_lt_one pr.dim pr.size hl) h
  obtain ⟨gs, fi, _⟩ := fresh_inv h
  have hall : ∀ e ∈ allCalls t, ∃ r : ℝ, e.2 = .fin r :=
    fi.faithful.values (P := fun v => ∃ r : ℝ, v = .fin r) (fun l x => hv l x)
  have hnn : ∀ a : ℝ, 0 ≤ Real.sqrt a := Real.sqrt_nonneg
  refine ⟨?_, ?_, ?_, ?_, ?_, ?_, ?_⟩
  · rw [hd.best]
    rcases current_best_cases h with ⟨a1, _⟩ | ⟨x, a1, _, _, a4⟩
    · rw [a1]; exact .inl rfl
    · rw [a1]
      obtain ⟨v, e⟩ := hall _ a4
      simp only at e
      simp only [e]
      exact .inr (nudged_real v)
  · rw [hd.median]
    obtain ⟨_, h2⟩ := c27_history h
    cases hm : c.history.medianValues with
    | nil => exact .inl rfl
    | cons m l =>
      right
      rw [hm] at h2
      obtain ⟨s, l', hs, _, e⟩ := List.forall₂_cons_right_iff.mp h2
      have hst : s ∈ t := by
        have : s ∈ (completedNewest t).take historyCap := by rw [e]; simp
        have := List.mem_of_mem_take this
        rw [completedNewest, List.mem_reverse] at this
        exact List.mem_of_mem_filter this
      obtain ⟨v, rfl⟩ := median_real hs (fun y hy => by
        rw [NextCall.values, List.mem_map] at hy
        obtain ⟨e, he, rfl⟩ := hy
        exact hall e (List.mem_flatMap.mpr ⟨s, hst, he⟩))
      exact nudged_real v
  · rw [hd.sigma, CMAES.sigma, i.rep.sigma]
    exact nudged_pos i.good.sigma.le
  · obtain ⟨a, b, _, _, e⟩ := axisRatio_fin (c := c) pr.dim i.rep i.good
    rw [hd.axisRatio, e]
    exact nudged_pos (div_nonneg (hnn _) (hnn _))
  · intro k
    rw [hd.mean, CMAES.mean, i.rep.mean]
    exact ⟨_, rfl⟩
  · intro k
    obtain ⟨l, hp, _, e⟩ := hd.sqrtEigenvalues
    have hk : pt.sqrtEigenvalues k ∈ l.map nudged := by rw [← e, List.mem_ofFn]; exact ⟨k, rfl⟩
    obtain ⟨y, hy, e2⟩ := List.mem_map.mp hk
    rw [hp.mem_iff, List.mem_ofFn] at hy
    obtain ⟨j, rfl⟩ := hy
    rw [← e2, i.rep.sqrtEigenvalues]
    show ∃ s : ℝ, 0 < s ∧ nudged (.fin (diagonal (fun i => Real.sqrt (r.d i)) j j) : XR) = _
    rw [diagonal_apply_eq]
    exact nudged_pos (hnn _)
  · intro k
    have hpos : 0 < r.C k k := i.posDef.diag_pos
    rw [hd.coordAxisScales, CMAES.covarianceMatrix, i.rep.cov]
    show ∃ s : ℝ, 0 < s ∧ nudged (Flt.sqrt (.fin (r.C k k) : XR)) = _
    rw [sqrt_fin hpos.le]
    exact nudged_pos (hnn _)

/-! ### C69 -/

/-- **C69, vertical axes.** In exact arithmetic with a real-valued objective and at most
`2 (n + 2)²` individuals, the logarithmic axes of three of the charts reach from `10^-0.4` times the
smallest to `10^0.4` times the largest drawn value, so that all drawn values are on them, and the
linear axis of the mean exceeds the drawn values by 15%. -/
theorem c69_vertical (hx : ExactRun env o) (hl : o.populationSize ≤ 2 * (n + 2) ^ 2)
    (hv : ∀ log x, ∃ r : ℝ, obj.f log x = .fin r) (h : History.Of env obj o t c)
    (hp : c.plot = some p) {D : Drawing XR} (hd : p.draw = .ok D) :
    (∀ ch ∈ [D.single, D.sqrtEigenvalues, D.coordAxisScales], ch.LogFits ∧ ch.Inside) ∧
      D.mean.LinearFits := by
  obtain ⟨pts, hs, h0, ho, hpts⟩ := c67_points h hp
  have hreal : ∀ pt ∈ pts, pt.Real := by
    intro pt hpt
    obtain ⟨c1, hc1, hdc⟩ := hpts pt hpt
    obtain ⟨t1, h1⟩ := hc1.history
    exact point_real hx hl hv h1 hdc
  obtain ⟨d2, d3, d4⟩ := c68_dimensions h hp hs hd
  obtain ⟨_, g2, g3, g4⟩ := draw_parts hd
  simp only [drawMean, drawSqrtEigenvalues, drawCoordAxisScales, Outcome.bind_eq_ok,
    configureArea_ok] at g2 g3 g4
  obtain ⟨_, a2, _, _, _, _, _, _, _, e2⟩ := g2
  obtain ⟨_, a3, _, _, _, _, _, _, _, e3⟩ := g3
  obtain ⟨_, a4, _, _, _, _, _, _, _, e4⟩ := g4
  have hn : 0 < n := by
    obtain ⟨_, _, _, pr⟩ := params_real h
    exact Nat.pos_of_ne_zero pr.dim
  have ne : ∀ {y : Fin n → List XR} {f : Fin n → PlotPoint n XR → XR},
      (∀ i, y i = pts.map (f i)) → (List.finRange n).flatMap y ≠ [] := by
    intro y f hy he
    rw [List.flatMap_eq_nil_iff] at he
    have := he ⟨0, hn⟩ (by simp)
    rw [hy, List.map_eq_nil_iff] at this
    exact h0 this
  have vals : ∀ {y : Fin n → List XR} {f : Fin n → PlotPoint n XR → XR} {P : XR → Prop},
      (∀ i, y i = pts.map (f i)) → (∀ i, ∀ pt ∈ pts, P (f i pt)) →
      ∀ v ∈ (List.finRange n).flatMap y, P v := by
    intro y f P hy hP v hv
    obtain ⟨i, _, hv⟩ := List.mem_flatMap.mp hv
    rw [hy] at hv
    obtain ⟨pt, hpt, rfl⟩ := List.mem_map.mp hv
    exact hP i pt hpt
  have nan : ∀ {v : XR} {Q : ℝ → Prop}, (∃ r, Q r ∧ v = .fin r) → Flt.isNaN v = false := by
    rintro v Q ⟨r, _, rfl⟩; rfl
  have key3 : D.sqrtEigenvalues.LogFits := by
    refine logFits (ne hs.sqrtEigenvalues)
      (vals hs.sqrtEigenvalues fun i pt hpt => (hreal pt hpt).sqrtEigenvalues i)
      (dimensions_values d3 hs.sqrtEigenvalues fun i pt hpt =>
        nan ((hreal pt hpt).sqrtEigenvalues i)) ?_
    rw [e3]; exact a3
  have key4 : D.coordAxisScales.LogFits := by
    refine logFits (ne hs.coordAxisScales)
      (vals hs.coordAxisScales fun i pt hpt => (hreal pt hpt).coordAxisScales i)
      (dimensions_values d4 hs.coordAxisScales fun i pt hpt =>
        nan ((hreal pt hpt).coordAxisScales i)) ?_
    rw [e4]; exact a4
  have key1 : D.single.LogFits := by
    obtain ⟨l, hl1, hl2⟩ := single_values h hp hs hd
    obtain ⟨f, m, s, a, hf, hm, hsg, ha, hcase⟩ := c68_single h hp hs hd
    have hpos : ∀ q ∈ D.single.points, ∃ r : ℝ, 0 < r ∧ q.2 = .fin r := by
      have curve : ∀ {P : PlotPoint n XR → Prop} {g : PlotPoint n XR → XR} {l : List (Nat × XR)},
          Curve pts P g l → (∀ pt ∈ pts, Flt.isNaN (g pt) = false → ∃ r : ℝ, 0 < r ∧ g pt = .fin r) →
          ∀ q ∈ l, ∃ r : ℝ, 0 < r ∧ q.2 = .fin r := by
        intro P g l hc hg q hq
        obtain ⟨pt, h1, _, h2, rfl⟩ := (hc.mem q).mp hq
        exact hg pt h1 h2
      have abs_real : ∀ {v : XR}, (v = .nan ∨ ∃ r : ℝ, r ≠ 0 ∧ v = .fin r) →
          Flt.isNaN (Flt.abs v) = false → ∃ r : ℝ, 0 < r ∧ Flt.abs v = .fin r := by
        rintro v (rfl | ⟨r, hr, rfl⟩) hv
        · cases hv
        · exact ⟨|r|, abs_pos.mpr hr, abs_fin r⟩
      have kf := curve hf fun pt hpt => abs_real (hreal pt hpt).best
      have km := curve hm fun pt hpt => abs_real (hreal pt hpt).median
      have ks := curve hsg fun pt hpt _ => (hreal pt hpt).sigma
      have ka := curve ha fun pt hpt _ => (hreal pt hpt).axisRatio
      intro q hq
      rcases hcase with ⟨_, h1, h2⟩ | ⟨b, l, r, hb, h1, h2, hcl, hcr⟩
      · rw [Chart.points, h1, h2] at hq
        simp only [List.flatMap_cons, List.flatMap_nil, List.append_nil, List.mem_append] at hq
        rcases hq with hq | hq | hq | hq
        exacts [kf q hq, km q hq, ks q hq, ka q hq]
      · have hdist : ∀ pt ∈ pts, Flt.isNaN (b.distance pt) = false →
            ∃ r : ℝ, 0 < r ∧ b.distance pt = .fin r := by
          intro pt hpt hnn
          unfold PlotPoint.distance at hnn ⊢
          have hbb := (hreal b hb.mem).best
          rcases (hreal pt hpt).best with e | ⟨u, _, e⟩
          · rw [e] at hnn
            have : (Flt.abs ((.nan : XR) - b.best)) = .nan := rfl
            rw [this, nudged_nan] at hnn
            cases hnn
          · rcases hbb with e' | ⟨w, _, e'⟩
            · have := hb.number
              rw [e'] at this
              cases this
            · rw [e, e', XR.sub_fin, abs_fin]
              exact nudged_pos (abs_nonneg _)
        rw [Chart.points, h1, h2] at hq
        simp only [List.flatMap_cons, List.flatMap_nil, List.append_nil, List.mem_append,
          List.mem_singleton] at hq
        rcases hq with (hq | hq | hq | hq | hq | hq) | rfl
        exacts [curve hcl hdist q hq, curve hcr hdist q hq, kf q hq, km q hq, ks q hq, ka q hq,
          abs_real (hreal b hb.mem).best (by rw [FltLaws.isNaN_abs]; exact hb.number)]
    refine logFits (l := l) ?_ ?_ hl2 hl1
    · obtain ⟨pt, hpt⟩ := List.exists_mem_of_ne_nil pts h0
      obtain ⟨r, _, e⟩ := (hreal pt hpt).sigma
      obtain ⟨q, hq, e2⟩ := (hsg.values pt.sigma).mpr ⟨by rw [e]; rfl, pt, hpt, trivial, rfl⟩
      refine List.ne_nil_of_mem ((hl2 pt.sigma).mpr ⟨q, ?_, e2⟩)
      rcases hcase with ⟨_, h1, h2⟩ | ⟨b, l, r, hb, h1, h2, _⟩ <;>
      · rw [Chart.points, h1, h2]
        simp [hq]
    · intro y hy
      obtain ⟨q, hq, rfl⟩ := (hl2 y).mp hy
      exact hpos q hq
  refine ⟨?_, ?_⟩
  · intro ch hch
    simp only [List.mem_cons, List.not_mem_nil, or_false] at hch
    rcases hch with rfl | rfl | rfl
    exacts [⟨key1, key1.inside⟩, ⟨key3, key3.inside⟩, ⟨key4, key4.inside⟩]
  · refine linearFits (ne hs.meanDimensions)
      (vals hs.meanDimensions fun i pt hpt => (hreal pt hpt).mean i)
      (dimensions_values d2 hs.meanDimensions fun i pt hpt => ?_) (b := p.options.scientificNotation) ?_
    · obtain ⟨r, e⟩ := (hreal pt hpt).mean i
      rw [e]; rfl
    · rw [e2]; exact a2

/-- **C69, mean.** All drawn coordinates of the mean are on the axis if they are not all equal or one
of them is not negative. -/
theorem c69_mean_partial (hx : ExactRun env o) (hl : o.populationSize ≤ 2 * (n + 2) ^ 2)
    (hv : ∀ log x, ∃ r : ℝ, obj.f log x = .fin r) (h : History.Of env obj o t c)
    (hp : c.plot = some p) {D : Drawing XR} (hd : p.draw = .ok D)
    (hne : (∃ q ∈ D.mean.points, ∃ q' ∈ D.mean.points, q.2 ≠ q'.2) ∨
      ∃ q ∈ D.mean.points, Flt.le 0 q.2 = true) : D.mean.Inside :=
  (c69_vertical hx hl hv h hp hd).2.inside hne

/-- **C69, mean, upside down.** If all drawn coordinates of the mean are the same negative number, the
axis ends below where it starts, although it is documented to encompass all values. -/
theorem c69_flipped (hx : ExactRun env o) (hl : o.populationSize ≤ 2 * (n + 2) ^ 2)
    (hv : ∀ log x, ∃ r : ℝ, obj.f log x = .fin r) (h : History.Of env obj o t c)
    (hp : c.plot = some p) {D : Drawing XR} (hd : p.draw = .ok D) {y : ℝ} (hy : y < 0)
    (hall : ∀ q ∈ D.mean.points, q.2 = .fin y) :
    ∃ lo hi : ℝ, D.mean.yAxis.lo = .fin lo ∧ D.mean.yAxis.hi = .fin hi ∧ hi < y ∧ y < lo := by
  obtain ⟨mn, mx, m, he, h1, h2, h3, h4, h5⟩ := (c69_vertical hx hl hv h hp hd).2
  have e1 : mn = y := by
    obtain ⟨q, hq, e⟩ := he.min
    rw [hall q hq] at e
    injection e with e
    exact e.symm
  have e2 : mx = y := by
    obtain ⟨q, hq, e⟩ := he.max
    rw [hall q hq] at e
    injection e with e
    exact e.symm
  subst e1 e2
  have := h4 rfl hy.ne
  exact ⟨_, _, h1, h2, by linarith, by linarith⟩

/-! ### Concrete cases -/

namespace WitnessReal

/-- A configuration with a plot. -/
noncomputable def plotOpts : Options 2 XR := { opts with plotOptions := some ⟨1, false⟩ }

theorem plot_exact : ExactRun (renv 2) plotOpts :=
  ⟨renv_exact, (renv_draws (by norm_num)).real, fun _ => renv_draws (by norm_num), _, rfl⟩

/-- Runs with a plot complete any number of generations below `2^30 - 1`. -/
theorem plot_run : ∀ k < 2 ^ 30, ∃ t c, History.Of (renv 2) sphere plotOpts t c ∧
    c.generation = k ∧ ∃ p, c.plot = some p := by
  intro k
  induction k with
  | zero =>
    intro _
    obtain ⟨c1, h1⟩ := witness_new (renv 2) opts.weights (lambda := 6) (by norm_num)
    obtain ⟨c, h0⟩ := (c30_valid_iff (renv 2) World.init sphere plotOpts).mpr
      ((c30_valid_iff (renv 2) World.init sphere opts).mp ⟨c1, h1⟩)
    have h : History.Of (renv 2) sphere plotOpts [] c := ⟨_, c, h0, .refl c⟩
    refine ⟨[], c, h, ?_, ?_⟩
    · obtain ⟨gs, i, hi⟩ := fresh_inv h
      have : gs = [] := by simpa using i.calls
      rw [this] at hi
      show c.state.generation = 0
      simpa using hi
    · obtain ⟨_, rfl⟩ := new_eq_ok h0
      rw [create_plot]
      exact ⟨_, rfl⟩
  | succ k ih =>
    intro hk
    obtain ⟨t, c, hc, hg, hp⟩ := ih (by omega)
    have hs : rateSum plotOpts < 1 := rateSum_lt_one (by norm_num)
      (show 2 ≤ 6 by norm_num) (show 6 ≤ 2 * (2 + 2) ^ 2 by norm_num)
    obtain ⟨r, x, i⟩ := exact_inv plot_exact hs hc
    have he : c.functionEvals = 6 * k := by rw [← hg]; exact i.evals
    have hcan : CanStep (renv 2) sphere plotOpts c := by
      refine ⟨fun k hk => by simp [plotOpts, opts, Options.new] at hk, by omega, fun po hpo => ?_,
        fun k hk => by simp [plotOpts, opts, Options.new] at hk, .inl fun l => ⟨_, rfl⟩⟩
      have : po = ⟨1, false⟩ := by simpa [plotOpts] using hpo.symm
      rw [this, he]
      show 6 * k + 1 < 2 ^ 64
      omega
    obtain ⟨d, res, calls, hn, _, _, hg', hd⟩ := exact_step plot_exact hs hc hcan
      (.inl ⟨rfl, by decide⟩) (fun log x => isNaN_fin _) .seq
    refine ⟨_, d, hd, by rw [hg', hg], ?_⟩
    have := (plot_inv hd).1
    cases hdp : d.plot with
    | none => exact absurd (this.mp hdp) (by simp [plotOpts])
    | some p => exact ⟨p, rfl⟩

end WitnessReal

open WitnessReal in
/-- The hypotheses of `c69_vertical` are met, for instance after 1000 generations. -/
example : ∃ t c p D, ExactRun (renv 2) plotOpts ∧ plotOpts.populationSize ≤ 2 * (2 + 2) ^ 2 ∧
    (∀ log x, ∃ r : ℝ, sphere.f log x = .fin r) ∧ History.Of (renv 2) sphere plotOpts t c ∧
    c.generation = 1000 ∧ c.plot = some p ∧ p.draw = .ok D := by
  obtain ⟨t, c, h, hg, p, hp⟩ := plot_run 1000 (by norm_num)
  obtain ⟨D, hd⟩ := c68_returns h hp
  exact ⟨t, c, p, D, plot_exact, show 6 ≤ 2 * (2 + 2) ^ 2 by norm_num, fun _ _ => ⟨_, rfl⟩, h, hg, hp,
    hd⟩

namespace WitnessReal

/-- A newly built `CMAES` with a plot and the given initial mean. -/
theorem plot_new (m : Fin 2 → ℝ) : ∃ c p D,
    CMAES.new (renv 2) World.init sphere { plotOpts with initialMean := Vec.fin m } = .ok c ∧
    c.plot = some p ∧ p.draw = .ok D := by
  obtain ⟨c1, h1⟩ := witness_new (renv 2) opts.weights (lambda := 6) (by norm_num)
  obtain ⟨c, h0⟩ := (c30_valid_iff (renv 2) World.init sphere
    { plotOpts with initialMean := Vec.fin m }).mpr
      ((c30_valid_iff (renv 2) World.init sphere opts).mp ⟨c1, h1⟩)
  have h : History.Of (renv 2) sphere { plotOpts with initialMean := Vec.fin m } [] c :=
    ⟨_, c, h0, .refl c⟩
  have hp : ∃ p, c.plot = some p := by
    obtain ⟨_, rfl⟩ := new_eq_ok h0
    rw [create_plot]
    exact ⟨_, rfl⟩
  obtain ⟨p, hp⟩ := hp
  obtain ⟨D, hd⟩ := c68_returns h hp
  exact ⟨c, p, D, h0, hp, hd⟩

end WitnessReal

open WitnessReal in
/-- The hypotheses of `c69_mean_partial` are met by the initial mean `(-1, 2)`. -/
example : ∃ c p D, ExactRun (renv 2) { plotOpts with initialMean := Vec.fin ![-1, 2] } ∧
    History.Of (renv 2) sphere { plotOpts with initialMean := Vec.fin ![-1, 2] } [] c ∧
    c.plot = some p ∧ p.draw = .ok D ∧
    ∃ q ∈ D.mean.points, ∃ q' ∈ D.mean.points, q.2 ≠ q'.2 := by
  obtain ⟨c, p, D, h0, hp, hd⟩ := plot_new ![-1, 2]
  refine ⟨c, p, D, ⟨plot_exact.eigen, plot_exact.draws, plot_exact.nonzero, _, rfl⟩,
    ⟨_, c, h0, .refl c⟩, hp, hd, ?_⟩
  obtain ⟨q, hq, e⟩ := (fresh_mean h0 hp hd (.fin (-1))).mpr ⟨rfl, 0, rfl⟩
  obtain ⟨q', hq', e'⟩ := (fresh_mean h0 hp hd (.fin 2)).mpr ⟨rfl, 1, rfl⟩
  refine ⟨q, hq, q', hq', ?_⟩
  rw [e, e']
  intro h
  injection h with h
  norm_num at h

open WitnessReal in
/-- **C69, violated.** The plot of a newly built `CMAES` whose initial mean is `(-1, -1)` has an axis
from -0.85 to -1.15. -/
theorem c69_violated : ∃ (o : Options 2 XR) (c : CMAES 2 XR Nat) (p : Plot 2 XR) (D : Drawing XR),
    ExactRun (renv 2) o ∧ o.populationSize ≤ 2 * (2 + 2) ^ 2 ∧ History.Of (renv 2) sphere o [] c ∧
    c.plot = some p ∧ p.draw = .ok D ∧ (∀ q ∈ D.mean.points, q.2 = .fin (-1)) ∧
    ¬ D.mean.Inside := by
  obtain ⟨c, p, D, h0, hp, hd⟩ := plot_new fun _ => -1
  have h : History.Of (renv 2) sphere { plotOpts with initialMean := Vec.fin fun _ => -1 } [] c :=
    ⟨_, c, h0, .refl c⟩
  have hx : ExactRun (renv 2) { plotOpts with initialMean := Vec.fin fun _ => -1 } :=
    ⟨plot_exact.eigen, plot_exact.draws, plot_exact.nonzero, _, rfl⟩
  have hl : ({ plotOpts with initialMean := Vec.fin fun _ => -1 } : Options 2 XR).populationSize ≤
      2 * (2 + 2) ^ 2 := show 6 ≤ 2 * (2 + 2) ^ 2 by norm_num
  have hall : ∀ q ∈ D.mean.points, q.2 = .fin (-1) := by
    intro q hq
    obtain ⟨_, i, e⟩ := (fresh_mean h0 hp hd q.2).mp ⟨q, hq, rfl⟩
    exact e.symm
  refine ⟨_, c, p, D, hx, hl, h, hp, hd, hall, ?_⟩
  rintro ⟨lo, hi, h1, h2, h3⟩
  obtain ⟨lo', hi', h1', h2', h4, h5⟩ := c69_flipped hx hl (fun _ _ => ⟨_, rfl⟩) h hp hd
    (y := -1) (by norm_num) hall
  obtain ⟨q, hq, _⟩ := (fresh_mean h0 hp hd (.fin (-1))).mpr ⟨rfl, 0, rfl⟩
  obtain ⟨y, e, h6, h7⟩ := h3 q hq
  rw [hall q hq] at e
  rw [h1] at h1'
  injection e with e
  injection h1' with h1'
  linarith

end Cmaes
