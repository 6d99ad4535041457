import Verif.Lemmas.DrawPoints
import Verif.Props.Plot
import Verif.Props.Build

/-!
# C67, C68, C69: what the plot shows
-/

set_option linter.unusedSectionVars false

namespace Cmaes
open FltLaws
variable {n : Nat} {F R : Type} [Flt F] [FltLaws F] {env : Env n F R} {obj : Obj n F}
  {o : Options n F} {t : List (NextCall n F)} {c : CMAES n F R} {p : Plot n F}

/-! ### C67 -/

theorem points_ordered (h : History.Of env obj o t c) (hp : c.plot = some p)
    {pts : List (PlotPoint n F)} (hs : p.data.Shows pts) : pts ≠ [] ∧ Ordered pts := by
  have i := (plot_inv h).2 p hp
  constructor
  · rintro rfl
    have := i.nonempty
    rw [PlotData.len, hs.functionEvals] at this
    simp at this
  · have := i.increasing
    rw [hs.functionEvals, List.pairwise_map] at this
    exact this

/-- **C67.** At any time the series of the plot are those of a non-empty list of points with
increasing evaluation counts, each of which describes a state that the run has passed through. -/
theorem c67_points (h : History.Of env obj o t c) (hp : c.plot = some p) :
    ∃ pts, p.data.Shows pts ∧ pts ≠ [] ∧ (pts.Pairwise fun a b => a.evals < b.evals) ∧
      ∀ pt ∈ pts, ∃ c1, PassedThrough env obj o t c1 c ∧ pt.Describes c1 := by
  obtain ⟨_, pts, hs, hpts⟩ := recorded_inv h hp
  obtain ⟨h1, h2⟩ := points_ordered h hp hs
  exact ⟨pts, hs, h1, h2, hpts⟩

theorem PassedThrough.history {c1 : CMAES n F R} (h : PassedThrough env obj o t c1 c) :
    ∃ t1, History.Of env obj o t1 c1 := let ⟨t1, _, _, h1, _⟩ := h; ⟨t1, h1⟩

/-- Either no generation has been completed, or the current best value is a number. -/
theorem current_best_cases (h : History.Of env obj o t c) :
    (c.currentBestIndividual = none ∧ c.functionEvals = 0 ∧ c.sigma = o.initialStepSize ∧
      c.history.medianValues = []) ∨
    (∃ x, c.currentBestIndividual = some x ∧ Flt.isNaN x.value = false ∧ 0 < c.functionEvals ∧
      (x.point, x.value) ∈ allCalls t) := by
  obtain ⟨w, c0, h0, he⟩ := h
  obtain ⟨hv, rfl⟩ := new_eq_ok h0
  have hpop := two_le_population hv
  obtain ⟨a1, a2, a3, a4, -⟩ := create_search env w obj o
  have key : (c.history = History.new ∧ c.sampler.functionEvals = 0 ∧
      c.state = State.new o.initialMean o.initialStepSize) ∨
      ∃ x, c.currentBestIndividual = some x ∧ Flt.isNaN x.value = false ∧ 0 < c.functionEvals ∧
        (x.point, x.value) ∈ allCalls t := by
    induction he with
    | refl => exact .inl ⟨a4, by rw [a1]; rfl, a3⟩
    | quiet he' hq ha ih =>
      have hs := (quiet_sameSearch hq ha).1
      simp only [CMAES.currentBestIndividual, CMAES.functionEvals] at *
      rw [hs.history, hs.sampler, hs.state]
      exact ih
    | next he' hn hl ih =>
      rename_i c1 c2 t1 kind calls r
      have hO : History.Of env obj o (t1 ++ [⟨kind, calls, r⟩]) c2 :=
        ⟨w, _, h0, he'.next hn hl⟩
      by_cases hf : NextCall.Failed (⟨kind, calls, r⟩ : NextCall n F)
      · obtain ⟨calls', _, _, _, ys, _, hc⟩ := next_cases hn
        rcases hc with hf' | ⟨ps, inds, hcomp, _⟩
        · have := ih
          simp only [CMAES.currentBestIndividual, CMAES.functionEvals] at *
          rw [hf'.history, hf'.evals, hf'.state]
          rcases this with h | ⟨x, b1, b2, b3, b4⟩
          · exact .inl h
          · exact .inr ⟨x, b1, b2, b3, by simp [allCalls] at b4 ⊢; exact .inl b4⟩
        · exact absurd hf (by
            have := hcomp.not_failed
            simpa [NextCall.Failed] using this)
      · obtain ⟨x, h1, h2, h3, h4, _⟩ := c02_current_best hO hf
        refine .inr ⟨x, h1, h4, ?_, by simp [allCalls, h2]⟩
        obtain ⟨gs', i', _⟩ := fresh_inv hO
        have hlen : gs'.length ≠ 0 := by
          intro h0'
          have := i'.calls
          rw [List.length_eq_zero_iff.mp h0', List.filter_append] at this
          simp [hf] at this
        show 0 < c2.sampler.functionEvals
        rw [i'.evals]
        have : 0 < gs'.length := by omega
        positivity
  rcases key with ⟨h1, h2, h3⟩ | h
  · exact .inl ⟨by rw [CMAES.currentBestIndividual, h1]; rfl, h2,
      by rw [CMAES.sigma, h3]; rfl, by rw [h1]; rfl⟩
  · exact .inr h

theorem isNaN_nudged (x : F) : Flt.isNaN (nudged x) = Flt.isNaN x := by
  have h0 : val (Flt.ofRat ((0 : ℕ) : ℚ) : F) = 0 := by rw [val_ofNat 0 (by norm_num)]; simp
  have h1 : val (Flt.ofRat ((1 : ℕ) : ℚ) : F) = 1 := by rw [val_ofNat 1 (by norm_num)]; simp
  have hlo : (0 : EReal) ≤ val (Flt.ofRat (1 / 100000000000000000000) : F) := by
    rw [← h0]; exact val_ofRat_mono (by norm_num)
  have hhi : val (Flt.ofRat (1 / 100000000000000000000) : F) ≤ 1 := by
    rw [← h1]; exact val_ofRat_mono (by norm_num)
  have ht : val (Flt.ofRat (1 / 100000000000000000000) : F) ≠ ⊤ := fun h => by rw [h] at hhi; exact absurd hhi (by decide)
  have hb : val (Flt.ofRat (1 / 100000000000000000000) : F) ≠ ⊥ := fun h => by rw [h] at hlo; exact absurd hlo (by decide)
  have hn := isNaN_ofRat (F := F) (1 / 100000000000000000000)
  unfold nudged
  rw [Bool.eq_iff_iff]
  split
  · rw [isNaN_add, hn]
    simp [ht, hb, -one_div]
  · rw [sub_def, isNaN_add, isNaN_neg, hn, val_neg]
    simp [ht, hb, -one_div]

/-- **C67, values.** The best value of a point is a number, except for the point recorded before the
first evaluation. -/
theorem c67_best (h : History.Of env obj o t c) (hp : c.plot = some p)
    {pts : List (PlotPoint n F)} (hs : p.data.Shows pts) {pt : PlotPoint n F} (hpt : pt ∈ pts) :
    Flt.isNaN pt.best = true ↔ pt.evals = 0 := by
  obtain ⟨_, pts', hs', hpts⟩ := recorded_inv h hp
  obtain rfl := hs.unique hs'
  obtain ⟨c1, hc1, hd⟩ := hpts _ hpt
  obtain ⟨t1, h1⟩ := hc1.history
  rw [hd.evals, hd.best, isNaN_nudged]
  rcases current_best_cases h1 with ⟨a1, a2, _⟩ | ⟨x, a1, a2, a3, _⟩
  · rw [a1, a2]
    simp [isNaN_nan]
  · rw [a1]
    simp [a2, a3.ne']

/-! ### C68 -/

theorem configureArea_ok {evals : List Nat} {caption : String} {legend : Bool} {yAxis : YAxis F}
    {draw : Outcome (List (Series F) × List (Nat × F))} {c : Chart F} :
    configureArea evals caption legend yAxis draw = .ok c ↔ ∃ e0 e1 s m, evals.head? = some e0 ∧
      evals.getLast? = some e1 ∧ draw = .ok (s, m) ∧
      c = ⟨caption, e0, Flt.toUsize (Flt.ofNat e1 * Flt.ofRat (105 / 100) : F), yAxis, s, m,
        legend⟩ := by
  unfold configureArea
  cases h0 : evals.head? with
  | none => simp [Outcome.unwrap]
  | some e0 =>
    cases h1 : evals.getLast? with
    | none => simp [Outcome.unwrap]
    | some e1 =>
      cases draw with
      | ok x =>
        obtain ⟨s, m⟩ := x
        simp [Outcome.unwrap, eq_comm]
      | panic p => simp [Outcome.unwrap]
      | diverge => simp [Outcome.unwrap]

theorem configureArea_returns {pts : List (PlotPoint n F)} (h0 : pts ≠ []) (caption : String)
    (legend : Bool) (yAxis : YAxis F) (x : List (Series F) × List (Nat × F)) :
    ∃ c, configureArea (pts.map PlotPoint.evals) caption legend yAxis (.ok x) = .ok c := by
  cases pts with
  | nil => exact absurd rfl h0
  | cons a pts =>
    exact ⟨_, configureArea_ok.mpr ⟨_, _, x.1, x.2, rfl,
      List.getLast?_eq_some_getLast (by simp), rfl, rfl⟩⟩

/-- The data of one dimension are drawn as one curve. -/
theorem dimensions_curve {pts : List (PlotPoint n F)} (ho : Ordered pts) {y : Fin n → List F}
    {f : Fin n → PlotPoint n F → F} (hy : ∀ i, y i = pts.map (f i)) {label : Nat → Option String}
    {c : Chart F}
    (hc : c.series = (List.finRange n).map fun i =>
      { label := label i.val, points := getPoints (pts.map PlotPoint.evals) (y i) })
    (hm : c.markers = []) : c.Dimensions pts label f := by
  refine ⟨by simp [hc], fun i => ⟨_, by rw [hc, List.getElem?_map]; simp; rfl, rfl, ?_⟩, hm⟩
  simp only [hy]
  exact getPoints_curve ho (by simp) (f i)

variable [DrawMath F]

/-- **C68, no panic.** Drawing the plot of any reachable `CMAES` returns. -/
theorem c68_returns (h : History.Of env obj o t c) (hp : c.plot = some p) :
    ∃ D, p.draw = .ok D := by
  obtain ⟨_, pts, hs, hpts⟩ := recorded_inv h hp
  obtain ⟨h0, ho⟩ := points_ordered h hp hs
  have hvalid : 0 < n ∧ Flt.lt 0 o.initialStepSize = true := by
    obtain ⟨w, c0, h0, _⟩ := h
    have := (c30_valid_iff env w obj o).mp ⟨c0, h0⟩
    exact ⟨this.1, this.2.2.1.2⟩
  obtain ⟨hn, hst⟩ := hvalid
  obtain ⟨a, pts', rfl⟩ := List.exists_cons_of_ne_nil h0
  -- the y values are not empty
  have ne : ∀ {y : Fin n → List F} {f : Fin n → PlotPoint n F → F},
      (∀ i, y i = (a :: pts').map (f i)) → (List.finRange n).flatMap y ≠ [] := by
    intro y f hy he
    rw [List.flatMap_eq_nil_iff] at he
    have := he ⟨0, hn⟩ (by simp)
    rw [hy] at this
    simp at this
  have hsig : Flt.isNaN o.initialStepSize = false := (lt_iff.mp hst).2.1
  have nes : singleYValues p.data (bestRecorded p.mode p.data) ≠ [] := by
    obtain ⟨c1, hc1, hd⟩ := hpts a (by simp)
    obtain ⟨t1, h1⟩ := hc1.history
    have : ∃ y, Flt.isNaN y = false ∧
        y ∈ p.data.bestFunctionValue.map Flt.abs ++ p.data.medianFunctionValue.map Flt.abs ++
          p.data.sigma ++ p.data.axisRatio := by
      rcases current_best_cases h1 with ⟨_, _, a3, _⟩ | ⟨x, a1, a2, _⟩
      · refine ⟨a.sigma, by rw [hd.sigma, isNaN_nudged, a3, hsig], ?_⟩
        simp [hs.sigma]
      · refine ⟨Flt.abs a.best, by rw [isNaN_abs, hd.best, isNaN_nudged, a1]; exact a2, ?_⟩
        simp [hs.bestFunctionValue]
    obtain ⟨y, hy, hm⟩ := this
    apply List.ne_nil_of_mem (a := y)
    unfold singleYValues
    simp only
    rw [List.mem_filter]
    refine ⟨?_, by simp [hy]⟩
    split
    · exact hm
    · exact List.mem_append_left _ hm
  have hdist : ∃ x, drawDistance p.data (bestRecorded p.mode p.data) = .ok x := by
    rcases bestRecorded_spec p.mode hs ho with ⟨e, _⟩ | ⟨A, b, B, e, hb, hf⟩
    · rw [e]; exact ⟨_, rfl⟩
    · rw [hb]
      unfold drawDistance
      simp only
      rw [hf.number, hs.functionEvals, e]
      simp
  obtain ⟨x, hx⟩ := hdist
  obtain ⟨y1, e1⟩ := getLogYAxis_ok nes
  obtain ⟨y2, e2⟩ := getLinearYAxis_ok (ne hs.meanDimensions) p.options.scientificNotation
  obtain ⟨y3, e3⟩ := getLogYAxis_ok (ne hs.sqrtEigenvalues)
  obtain ⟨y4, e4⟩ := getLogYAxis_ok (ne hs.coordAxisScales)
  unfold Plot.draw drawSingleDimensioned drawMean drawSqrtEigenvalues drawCoordAxisScales
  simp only [e1, e2, e3, e4, hx, Outcome.ok_bind, hs.functionEvals]
  obtain ⟨d1, f1⟩ := configureArea_returns h0
    "abs(f - best), abs(f), abs(median) Sigma, Axis Ratio" true y1 (_, x.2)
  obtain ⟨d2, f2⟩ := configureArea_returns h0 "Mean" (decide ¬ maxLegendValues < n) y2 (_, [])
  obtain ⟨d3, f3⟩ := configureArea_returns h0 "Distribution Axis Scales" false y3 (_, [])
  obtain ⟨d4, f4⟩ := configureArea_returns h0 "Coord. Axis Standard Deviations (without sigma)"
    (decide ¬ maxLegendValues < n) y4 (_, [])
  rw [f1, Outcome.ok_bind, f2, Outcome.ok_bind, f3, Outcome.ok_bind, f4, Outcome.ok_bind]
  exact ⟨_, rfl⟩

theorem drop_length_succ {α : Type} (A : List α) (b : α) (B : List α) :
    (A ++ b :: B).drop (A.length + 1) = B := by
  rw [← List.drop_drop, List.drop_left]
  rfl

/-- What a successful drawing consists of. -/
theorem draw_parts {D : Drawing F} (hd : p.draw = .ok D) :
    drawSingleDimensioned p.mode p.data = .ok D.single ∧ drawMean p.data p.options = .ok D.mean ∧
    drawSqrtEigenvalues p.data = .ok D.sqrtEigenvalues ∧
    drawCoordAxisScales p.data = .ok D.coordAxisScales := by
  unfold Plot.draw at hd
  simp only [Outcome.bind_eq_ok, Outcome.ok.injEq] at hd
  obtain ⟨a, h1, b, h2, c, h3, d, h4, rfl⟩ := hd
  exact ⟨h1, h2, h3, h4⟩

/-- **C68, curves by dimension.** The chart of the mean has one curve per dimension through the
recorded coordinates of the mean, and so have the charts of the lengths of the principal axes and of
the coordinate axes. -/
theorem c68_dimensions (h : History.Of env obj o t c) (hp : c.plot = some p)
    {pts : List (PlotPoint n F)} (hs : p.data.Shows pts) {D : Drawing F} (hd : p.draw = .ok D) :
    D.mean.Dimensions pts (fun i => some s!"x[{i}]") (fun i pt => pt.mean i) ∧
    D.sqrtEigenvalues.Dimensions pts (fun _ => none) (fun i pt => pt.sqrtEigenvalues i) ∧
    D.coordAxisScales.Dimensions pts (fun i => some s!"{i}") (fun i pt => pt.coordAxisScales i) := by
  obtain ⟨h0, ho⟩ := points_ordered h hp hs
  obtain ⟨_, h2, h3, h4⟩ := draw_parts hd
  simp only [drawMean, drawSqrtEigenvalues, drawCoordAxisScales, Outcome.bind_eq_ok,
    configureArea_ok, Outcome.ok.injEq, Prod.mk.injEq, hs.functionEvals] at h2 h3 h4
  obtain ⟨_, _, _, _, _, _, _, _, ⟨rfl, rfl⟩, e2⟩ := h2
  obtain ⟨_, _, _, _, _, _, _, _, ⟨rfl, rfl⟩, e3⟩ := h3
  obtain ⟨_, _, _, _, _, _, _, _, ⟨rfl, rfl⟩, e4⟩ := h4
  rw [e2, e3, e4]
  exact ⟨dimensions_curve ho hs.meanDimensions rfl rfl,
    dimensions_curve ho hs.sqrtEigenvalues rfl rfl,
    dimensions_curve ho hs.coordAxisScales rfl rfl⟩

/-- **C68, single-dimensioned data.** The first chart has curves through the absolute recorded best
and median values, step sizes and axis ratios. If a best value was recorded, a marker shows the
first point with the best of them, and two curves, to the left and to the right of this point, show
the distances from it; the point itself is on the left one only if its value was reached again. -/
theorem c68_single (h : History.Of env obj o t c) (hp : c.plot = some p)
    {pts : List (PlotPoint n F)} (hs : p.data.Shows pts) {D : Drawing F} (hd : p.draw = .ok D) :
    ∃ f m s a, Curve pts (fun _ => True) (fun pt => Flt.abs pt.best) f ∧
      Curve pts (fun _ => True) (fun pt => Flt.abs pt.median) m ∧
      Curve pts (fun _ => True) PlotPoint.sigma s ∧ Curve pts (fun _ => True) PlotPoint.axisRatio a ∧
      (((∀ pt ∈ pts, Flt.isNaN pt.best = true) ∧ D.single.markers = [] ∧
          D.single.series = [⟨some "abs(f)", f⟩, ⟨some "abs(median)", m⟩, ⟨some "Sigma", s⟩,
            ⟨some "Axis Ratio", a⟩]) ∨
        ∃ b left right, FirstBest o.mode pts b ∧ D.single.markers = [(b.evals, Flt.abs b.best)] ∧
          D.single.series = [⟨some "abs(f - best)", left⟩, ⟨none, right⟩, ⟨some "abs(f)", f⟩,
            ⟨some "abs(median)", m⟩, ⟨some "Sigma", s⟩, ⟨some "Axis Ratio", a⟩] ∧
          Curve pts (fun pt => pt.evals < b.evals ∨ (pt.evals = b.evals ∧ Repeated pts b))
            b.distance left ∧
          Curve pts (fun pt => b.evals < pt.evals) b.distance right) := by
  obtain ⟨h0, ho⟩ := points_ordered h hp hs
  obtain ⟨hd, _⟩ := draw_parts hd
  have hmode := (recorded_inv h hp).mode
  simp only [drawSingleDimensioned, Outcome.bind_eq_ok, configureArea_ok, Outcome.ok.injEq,
    hs.functionEvals, hs.bestFunctionValue, hs.medianFunctionValue, hs.sigma, hs.axisRatio,
    List.map_map] at hd
  obtain ⟨y, _, e0, e1, ser, mk, _, _, ⟨⟨ser', mk'⟩, hdist, hx⟩, hc⟩ := hd
  simp only [Outcome.ok.injEq, Prod.mk.injEq] at hx
  obtain ⟨rfl, rfl⟩ := hx
  refine ⟨_, _, _, _, getPoints_curve ho (by simp) _, getPoints_curve ho (by simp) _,
    getPoints_curve ho (by simp) _, getPoints_curve ho (by simp) _, ?_⟩
  rw [hc]
  simp only
  rcases bestRecorded_spec p.mode hs ho with ⟨e, hall⟩ | ⟨A, b, B, e, hb, hf⟩
  · left
    rw [e] at hdist
    simp only [drawDistance, Outcome.ok.injEq, Prod.mk.injEq] at hdist
    obtain ⟨rfl, rfl⟩ := hdist
    exact ⟨hall, rfl, rfl⟩
  · right
    rw [hb] at hdist
    have hcount : 1 < bestCount p.data b.best ↔ Repeated pts b := by
      rw [e]; exact bestCount_spec (by rw [← e]; exact hs) (by rw [← e]; exact ho) hf.number
    have hb' : pts[A.length]? = some b := by rw [e]; simp
    have hdl : distToBest p.data b.best = pts.map b.distance := by
      rw [distToBest, hs.bestFunctionValue, List.map_map]; rfl
    simp only [drawDistance, hf.number, hs.functionEvals, List.getElem?_map, hb', Option.map_some,
      Outcome.ok.injEq, Prod.mk.injEq, if_neg (show ¬ (false = true) by simp), hdl] at hdist
    obtain ⟨rfl, rfl⟩ := hdist
    obtain ⟨hA, hB⟩ := Ordered.mem_split (by rw [← e]; exact ho)
    refine ⟨b, _, _, by rw [← hmode]; exact hf, rfl, rfl, ?_, ?_⟩
    · rw [← List.map_take, ← List.map_take]
      refine getPoints_curve (ho.sublist (List.take_sublist _ _)) ?_ _
      intro pt
      rw [e]
      split
      · rename_i hlt
        rw [show (A ++ b :: B).take (A.length + 1) = A ++ [b] from by
          rw [List.take_append, List.take_of_length_le (by omega)]; simp]
        rw [hcount, e] at hlt
        simp only [List.mem_append, List.mem_cons, List.not_mem_nil, or_false]
        constructor
        · rintro (h | rfl)
          · exact ⟨.inl h, .inl (hA pt h)⟩
          · exact ⟨.inr (.inl rfl), .inr ⟨rfl, hlt⟩⟩
        · rintro ⟨h | rfl | h, h'⟩
          · exact .inl h
          · exact .inr rfl
          · have := hB pt h
            rcases h' with h' | ⟨h', _⟩ <;> omega
      · rename_i hlt
        rw [show (A ++ b :: B).take A.length = A by simp]
        rw [hcount, e] at hlt
        simp only [List.mem_append, List.mem_cons]
        constructor
        · exact fun h => ⟨.inl h, .inl (hA pt h)⟩
        · rintro ⟨h | rfl | h, h'⟩
          · exact h
          · rcases h' with h' | ⟨_, h'⟩
            · omega
            · exact absurd h' hlt
          · have := hB pt h
            rcases h' with h' | ⟨h', _⟩ <;> omega
    · rw [← List.map_drop, ← List.map_drop]
      refine getPoints_curve (ho.sublist (List.drop_sublist _ _)) ?_ _
      intro pt
      rw [e, drop_length_succ]
      simp only [List.mem_append, List.mem_cons]
      constructor
      · exact fun h => ⟨.inr (.inr h), hB pt h⟩
      · rintro ⟨h | rfl | h, h'⟩
        · have := hA pt h; omega
        · omega
        · exact h

/-! ### C69, horizontal axes -/

/-- All drawn points are above recorded evaluation counts. -/
theorem Chart.Dimensions.evals {ch : Chart F} {pts : List (PlotPoint n F)}
    {label : Nat → Option String} {y : Fin n → PlotPoint n F → F} (h : ch.Dimensions pts label y)
    {q : Nat × F} (hq : q ∈ ch.points) : ∃ i, ∃ pt ∈ pts, Flt.isNaN (y i pt) = false ∧
      q = (pt.evals, y i pt) := by
  unfold Chart.points at hq
  rw [h.markers, List.append_nil, List.mem_flatMap] at hq
  obtain ⟨s, hs, hq⟩ := hq
  obtain ⟨i, hi, rfl⟩ := List.getElem_of_mem hs
  obtain ⟨s, h1, _, h2⟩ := h.series ⟨i, by rw [← h.length]; exact hi⟩
  rw [List.getElem?_eq_getElem hi, Option.some.injEq] at h1
  subst h1
  obtain ⟨pt, h3, _, h4, h5⟩ := (h2.mem q).mp hq
  exact ⟨_, pt, h3, h4, h5⟩

theorem single_evals (h : History.Of env obj o t c) (hp : c.plot = some p)
    {pts : List (PlotPoint n F)} (hs : p.data.Shows pts) {D : Drawing F} (hd : p.draw = .ok D)
    {q : Nat × F} (hq : q ∈ D.single.points) : ∃ pt ∈ pts, q.1 = pt.evals := by
  have curve : ∀ {P : PlotPoint n F → Prop} {y : PlotPoint n F → F} {l : List (Nat × F)},
      Curve pts P y l → q ∈ l → ∃ pt ∈ pts, q.1 = pt.evals := by
    intro P y l hc hm
    obtain ⟨pt, h1, _, _, h2⟩ := (hc.mem q).mp hm
    exact ⟨pt, h1, by rw [h2]⟩
  obtain ⟨f, m, s, a, hf, hm, hs, ha, ⟨_, h1, h2⟩ | ⟨b, l, r, hb, h1, h2, hl, hr⟩⟩ :=
    c68_single h hp hs hd
  · rw [Chart.points, h1, h2] at hq
    simp only [List.flatMap_cons, List.flatMap_nil, List.append_nil, List.mem_append] at hq
    rcases hq with hq | hq | hq | hq
    exacts [curve hf hq, curve hm hq, curve hs hq, curve ha hq]
  · rw [Chart.points, h1, h2] at hq
    simp only [List.flatMap_cons, List.flatMap_nil, List.append_nil, List.mem_append,
      List.mem_singleton] at hq
    rcases hq with (hq | hq | hq | hq | hq | hq) | rfl
    exacts [curve hl hq, curve hr hq, curve hf hq, curve hm hq, curve hs hq, curve ha hq,
      ⟨b, hb.mem, rfl⟩]

theorem configureArea_range {pts : List (PlotPoint n F)} (ho : Ordered pts) {caption : String}
    {legend : Bool} {yAxis : YAxis F} {draw : Outcome (List (Series F) × List (Nat × F))}
    {ch : Chart F} (hc : configureArea (pts.map PlotPoint.evals) caption legend yAxis draw = .ok ch)
    (hb : ∀ pt ∈ pts, pt.evals ≤ 2 ^ 53) {pt : PlotPoint n F} (hpt : pt ∈ pts) :
    ch.xStart ≤ pt.evals ∧ pt.evals ≤ ch.xEnd := by
  obtain ⟨e0, e1, s, m, h0, h1, _, rfl⟩ := configureArea_ok.mp hc
  simp only
  constructor
  · cases pts with
    | nil => simp at hpt
    | cons a pts =>
      simp only [List.map_cons, List.head?_cons, Option.some.injEq] at h0
      subst h0
      rcases List.mem_cons.mp hpt with rfl | hpt
      · exact le_rfl
      · exact ((List.pairwise_cons.mp ho).1 pt hpt).le
  · rw [List.getLast?_map, Option.map_eq_some_iff] at h1
    obtain ⟨b, hl, rfl⟩ := h1
    have hle : pt.evals ≤ b.evals := by
      obtain ⟨ys, hys⟩ := List.getLast?_eq_some_iff.mp hl
      rw [hys] at hpt ho
      rw [Ordered, List.pairwise_append] at ho
      rw [List.mem_append, List.mem_singleton] at hpt
      rcases hpt with hpt | rfl
      · exact (ho.2.2 pt hpt b (by simp)).le
      · exact le_rfl
    exact hle.trans (five_percent _ (hb b (List.mem_of_getLast? hl)))

/-- **C69, horizontal axes.** Up to 2^53 evaluations, every drawn point of every chart is within the
range of the horizontal axis. -/
theorem c69_horizontal (h : History.Of env obj o t c) (hp : c.plot = some p)
    (he : c.functionEvals ≤ 2 ^ 53) {D : Drawing F} (hd : p.draw = .ok D) :
    ∀ ch ∈ [D.single, D.mean, D.sqrtEigenvalues, D.coordAxisScales], ∀ q ∈ ch.points,
      ch.xStart ≤ q.1 ∧ q.1 ≤ ch.xEnd := by
  obtain ⟨_, pts, hs, hpts⟩ := recorded_inv h hp
  obtain ⟨h0, ho⟩ := points_ordered h hp hs
  have hb : ∀ pt ∈ pts, pt.evals ≤ 2 ^ 53 := by
    intro pt hpt
    refine le_trans ?_ he
    obtain ⟨g, e, _, h2, _, h4, _⟩ := ((plot_inv h).2 p hp).last
    rw [hs.functionEvals, List.getLast?_map, Option.map_eq_some_iff] at h2
    obtain ⟨b, hl, rfl⟩ := h2
    obtain ⟨ys, hys⟩ := List.getLast?_eq_some_iff.mp hl
    rw [hys] at hpt ho
    rw [Ordered, List.pairwise_append] at ho
    rw [List.mem_append, List.mem_singleton] at hpt
    rcases hpt with hpt | rfl
    · exact (ho.2.2 pt hpt b (by simp)).le.trans h4
    · exact h4
  obtain ⟨d2, d3, d4⟩ := c68_dimensions h hp hs hd
  obtain ⟨g1, g2, g3, g4⟩ := draw_parts hd
  simp only [drawSingleDimensioned, drawMean, drawSqrtEigenvalues, drawCoordAxisScales,
    Outcome.bind_eq_ok, hs.functionEvals] at g1 g2 g3 g4
  obtain ⟨_, _, g1⟩ := g1
  obtain ⟨_, _, g2⟩ := g2
  obtain ⟨_, _, g3⟩ := g3
  obtain ⟨_, _, g4⟩ := g4
  intro ch hch q hq
  simp only [List.mem_cons, List.not_mem_nil, or_false] at hch
  rcases hch with rfl | rfl | rfl | rfl
  · obtain ⟨pt, hpt, e⟩ := single_evals h hp hs hd hq
    rw [e]; exact configureArea_range ho g1 hb hpt
  · obtain ⟨_, pt, hpt, _, rfl⟩ := d2.evals hq
    exact configureArea_range ho g2 hb hpt
  · obtain ⟨_, pt, hpt, _, rfl⟩ := d3.evals hq
    exact configureArea_range ho g3 hb hpt
  · obtain ⟨_, pt, hpt, _, rfl⟩ := d4.evals hq
    exact configureArea_range ho g4 hb hpt

/-- **C68, frame.** The mean is drawn on a linear scale, labelled as configured, the other charts on
a logarithmic one. The first chart has a legend, the one of the principal axes has none, and the
other two have one up to 18 dimensions. -/
theorem c68_frame {D : Drawing F} (hd : p.draw = .ok D) :
    (D.mean.yAxis.kind = .linear p.options.scientificNotation ∧ D.single.yAxis.kind = .log ∧
      D.sqrtEigenvalues.yAxis.kind = .log ∧ D.coordAxisScales.yAxis.kind = .log) ∧
    D.single.legend = true ∧ D.sqrtEigenvalues.legend = false ∧ (D.mean.legend = true ↔ n ≤ 18) ∧
    (D.coordAxisScales.legend = true ↔ n ≤ 18) := by
  obtain ⟨h1, h2, h3, h4⟩ := draw_parts hd
  simp only [drawSingleDimensioned, drawMean, drawSqrtEigenvalues, drawCoordAxisScales, getLogYAxis,
    getLinearYAxis, Outcome.bind_eq_ok, configureArea_ok, Outcome.ok.injEq] at h1 h2 h3 h4
  obtain ⟨_, ⟨_, _, _, _, rfl⟩, _, _, _, _, _, _, _, h1⟩ := h1
  obtain ⟨_, ⟨_, _, _, _, rfl⟩, _, _, _, _, _, _, _, h2⟩ := h2
  obtain ⟨_, ⟨_, _, _, _, rfl⟩, _, _, _, _, _, _, _, h3⟩ := h3
  obtain ⟨_, ⟨_, _, _, _, rfl⟩, _, _, _, _, _, _, _, h4⟩ := h4
  rw [h1, h2, h3, h4]
  simp [maxLegendValues]

/-! ### Concrete cases -/

namespace Witness

/-- Some functions in the place of `log10` and `round`. -/
@[reducible] def drawMath : DrawMath F64 := ⟨id, id⟩

attribute [scoped instance] drawMath

end Witness

open Witness in
/-- The hypotheses of the theorems are met: a run of three generations records four points. It has
its best value at the last point, and the first one has no best value. -/
example : ∃ t c p D, History.Of (wenv 2) sphere { opts with plotOptions := some ⟨1, false⟩ } t c ∧
    c.plot = some p ∧ p.draw = .ok D ∧ c.functionEvals ≤ 2 ^ 53 ∧
    D.single.series.map (fun s => s.points.map Prod.fst) =
      [[4, 8], [], [4, 8, 12], [4, 8, 12], [0, 4, 8, 12], [0, 4, 8, 12]] ∧
    D.single.markers.map Prod.fst = [12] ∧
    D.mean.series.map (fun s => s.points.map Prod.fst) = [[0, 4, 8, 12], [0, 4, 8, 12]] ∧
    (D.mean.xStart, D.mean.xEnd) = (0, 12) := by
  obtain ⟨t, c, h, hp⟩ := exists_history (env := wenv 2) (obj := sphere)
    (o := { opts with plotOptions := some ⟨1, false⟩ }) [.seq, .par, .seq]
    (fun c _ => decide (c.functionEvals ≤ 2 ^ 53) && c.plot.any fun p => p.draw.check fun D => decide (
      D.single.series.map (fun s => s.points.map Prod.fst) =
        [[4, 8], [], [4, 8, 12], [4, 8, 12], [0, 4, 8, 12], [0, 4, 8, 12]] ∧
      D.single.markers.map Prod.fst = [12] ∧
      D.mean.series.map (fun s => s.points.map Prod.fst) = [[0, 4, 8, 12], [0, 4, 8, 12]] ∧
      (D.mean.xStart, D.mean.xEnd) = (0, 12))) (by decide +kernel) (by decide +kernel)
  rw [Bool.and_eq_true, Option.any_eq_true] at hp
  obtain ⟨h1, p, h2, h3⟩ := hp
  obtain ⟨D, h4, h5⟩ := Outcome.of_check h3
  exact ⟨t, c, p, D, h, h2, h4, of_decide_eq_true h1, of_decide_eq_true h5⟩

open Witness in
/-- A best value that is reached again: for a constant objective the first best point is on the left
curve. -/
example : ∃ t c p D, History.Of (wenv 2) { f := fun _ _ => 1, log := [] }
      { opts with plotOptions := some ⟨1, true⟩ } t c ∧
    c.plot = some p ∧ p.draw = .ok D ∧
    (D.single.series.take 2).map (fun s => s.points.map Prod.fst) = [[4], [8, 12]] ∧
    D.single.markers.map Prod.fst = [4] := by
  obtain ⟨t, c, h, hp⟩ := exists_history (env := wenv 2) (obj := { f := fun _ _ => 1, log := [] })
    (o := { opts with plotOptions := some ⟨1, true⟩ }) [.seq, .par, .seq]
    (fun c _ => c.plot.any fun p => p.draw.check fun D => decide (
      (D.single.series.take 2).map (fun s => s.points.map Prod.fst) = [[4], [8, 12]] ∧
      D.single.markers.map Prod.fst = [4])) (by decide +kernel) (by decide +kernel)
  rw [Option.any_eq_true] at hp
  obtain ⟨p, h2, h3⟩ := hp
  obtain ⟨D, h4, h5⟩ := Outcome.of_check h3
  exact ⟨t, c, p, D, h, h2, h4, of_decide_eq_true h5⟩

end Cmaes
