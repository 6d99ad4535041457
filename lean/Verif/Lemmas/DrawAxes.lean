import Verif.Spec.DrawAxes
import Verif.Lemmas.DrawPoints
import Verif.Float.XRLemmas

/-!
# The axes of the charts in exact arithmetic
-/

namespace Cmaes
open XR
variable {n : Nat}

theorem iterMaxBy_spec {α : Type} {K : Type} [LinearOrder K] {cmp : α → α → Ordering} {key : α → K}
    {l : List α} (hc : ∀ x ∈ l, ∀ y ∈ l, cmp x y = .gt ↔ key y < key x) (h0 : l ≠ []) :
    ∃ r ∈ l, iterMaxBy cmp l = some r ∧ ∀ z ∈ l, key z ≤ key r := by
  match l, h0 with
  | a :: l, _ =>
    simp only [iterMaxBy]
    clear h0
    induction l generalizing a with
    | nil => exact ⟨a, by simp, rfl, by simp⟩
    | cons y l ih =>
      simp only [List.foldl_cons]
      by_cases h : key y < key a
      · rw [if_pos ((hc a (by simp) y (by simp)).mpr h)]
        have hsub : ∀ x ∈ a :: l, x ∈ a :: y :: l := by
          intro x hx
          rcases List.mem_cons.mp hx with rfl | hx
          · simp
          · simp [hx]
        obtain ⟨r, hr, e, h1⟩ := ih a (by simp) fun x hx z hz => hc x (hsub x hx) z (hsub z hz)
        refine ⟨r, hsub r hr, e, fun z hz => ?_⟩
        rcases List.mem_cons.mp hz with rfl | hz
        · exact h1 z (by simp)
        · rcases List.mem_cons.mp hz with rfl | hz
          · exact h.le.trans (h1 a (by simp))
          · exact h1 z (by simp [hz])
      · rw [if_neg (fun hh => h ((hc a (by simp) y (by simp)).mp hh))]
        obtain ⟨r, hr, e, h1⟩ := ih y (by simp) fun x hx z hz =>
          hc x (List.mem_cons_of_mem _ hx) z (List.mem_cons_of_mem _ hz)
        refine ⟨r, List.mem_cons_of_mem _ hr, e, fun z hz => ?_⟩
        rcases List.mem_cons.mp hz with rfl | hz
        · exact (not_lt.mp h).trans (h1 y (by simp))
        · exact h1 z hz

/-- The real number in a value. -/
noncomputable def realPart : XR → ℝ
  | .fin x => x
  | _ => 0

theorem partialCmp_fin (a b : ℝ) : partialCmp (.fin a : XR) (.fin b) = .gt ↔ b < a := by
  unfold partialCmp Flt.partialCmp?
  rw [lt_fin, lt_fin]
  by_cases h1 : a < b
  · simp [h1, h1.le]
  · by_cases h2 : b < a
    · simp [h1, h2]
    · simp only [h1, h2, decide_false, Bool.false_eq_true, if_false]
      split <;> simp

theorem partialCmp_real {l : List XR} (hl : ∀ y ∈ l, ∃ r : ℝ, y = .fin r) :
    ∀ x ∈ l, ∀ y ∈ l, partialCmp x y = .gt ↔ realPart y < realPart x := by
  intro x hx y hy
  obtain ⟨a, rfl⟩ := hl x hx
  obtain ⟨b, rfl⟩ := hl y hy
  exact partialCmp_fin a b

/-- The extremes of a list of real numbers. -/
theorem extremes_real {l : List XR} (h0 : l ≠ []) (hl : ∀ y ∈ l, ∃ r : ℝ, y = .fin r) :
    ∃ mn mx : ℝ, iterMinBy partialCmp l = some (.fin mn) ∧ iterMaxBy partialCmp l = some (.fin mx) ∧
      .fin mn ∈ l ∧ .fin mx ∈ l ∧ ∀ y ∈ l, ∃ r, y = .fin r ∧ mn ≤ r ∧ r ≤ mx := by
  obtain ⟨l1, a, l2, e, h1, h2, h3⟩ := iterMinBy_spec (partialCmp_real hl) h0
  obtain ⟨b, hb, h4, h5⟩ := iterMaxBy_spec (partialCmp_real hl) h0
  have ha : a ∈ l := by rw [e]; simp
  obtain ⟨mn, rfl⟩ := hl a ha
  obtain ⟨mx, rfl⟩ := hl b hb
  refine ⟨mn, mx, h1, h4, ha, hb, fun y hy => ?_⟩
  obtain ⟨r, rfl⟩ := hl y hy
  refine ⟨r, rfl, ?_, h5 _ hy⟩
  rw [e, List.mem_append, List.mem_cons] at hy
  rcases hy with hy | hy | hy
  · exact (h2 _ hy).le
  · injection hy with hy; exact hy.ge
  · exact h3 _ hy

theorem extremes_chart {ch : Chart XR} {l : List XR} (hm : ∀ y, y ∈ l ↔ ∃ q ∈ ch.points, q.2 = y)
    {mn mx : ℝ} (h1 : .fin mn ∈ l) (h2 : .fin mx ∈ l)
    (h3 : ∀ y ∈ l, ∃ r, y = .fin r ∧ mn ≤ r ∧ r ≤ mx) : ch.Extremes mn mx :=
  ⟨(hm _).mp h1, (hm _).mp h2, fun q hq => h3 _ ((hm _).mpr ⟨q, hq, rfl⟩)⟩

theorem log10_fin {x : ℝ} (h : 0 < x) :
    (DrawMath.log10 (.fin x : XR)) = .fin (Real.logb 10 x) := by
  show (if x < 0 then _ else if x = 0 then _ else _) = _
  rw [if_neg h.le.not_gt, if_neg h.ne']

theorem powf_ten (x : ℝ) : Flt.powf (10 : XR) (.fin x) = .fin (10 ^ x) := by
  rw [lit_eq]
  show (if (0 : ℝ) < ((10 : ℕ) : ℝ) then _ else _) = _
  rw [if_pos (by norm_num)]

theorem logFits {ch : Chart XR} {l : List XR} (h0 : l ≠ [])
    (hl : ∀ y ∈ l, ∃ r : ℝ, 0 < r ∧ y = .fin r) (hm : ∀ y, y ∈ l ↔ ∃ q ∈ ch.points, q.2 = y)
    (ha : getLogYAxis l = .ok ch.yAxis) : ch.LogFits := by
  obtain ⟨mn, mx, h1, h2, h3, h4, h5⟩ := extremes_real h0 fun y hy => (hl y hy).imp fun _ h => h.2
  have hpos : ∀ {r : ℝ}, .fin r ∈ l → 0 < r := by
    intro r hr
    obtain ⟨r', h, e⟩ := hl _ hr
    injection e with e
    rwa [e]
  have hmn := hpos h3
  have hmx := hpos h4
  refine ⟨mn, mx, extremes_chart hm h3 h4 h5, hmn, ?_⟩
  unfold getLogYAxis at ha
  rw [h1, h2] at ha
  simp only [Outcome.unwrap_some, Outcome.ok_bind, Outcome.ok.injEq, log10_fin hmn, log10_fin hmx,
    ofRat_eq, XR.sub_fin, XR.add_fin, powf_ten] at ha
  rw [← ha]
  have e : (((4 / 10 : ℚ)) : ℝ) = 0.4 := by norm_num
  refine ⟨rfl, ?_, ?_, ?_⟩
  · rw [e, Real.rpow_sub (by norm_num), Real.rpow_logb (by norm_num) (by norm_num) hmn]
  · rw [e, Real.rpow_add (by norm_num), Real.rpow_logb (by norm_num) (by norm_num) hmx]
  · have hle : mn ≤ mx := by
      obtain ⟨r, hr, h6, h7⟩ := h5 _ h3
      injection hr with hr
      rw [hr]; exact h7
    have hd : 0 ≤ Real.logb 10 (mx / mn) := Real.logb_nonneg (by norm_num) ((one_le_div hmn).mpr hle)
    have e2 : Real.logb 10 mx + ((4 / 10 : ℚ) : ℝ) - (Real.logb 10 mn - ((4 / 10 : ℚ) : ℝ)) =
        Real.logb 10 (mx / mn) + 0.8 := by
      rw [Real.logb_div hmx.ne' hmn.ne']
      norm_num
      ring
    rw [e2]
    show min (Flt.toUsize (.fin (if 0 ≤ Real.logb 10 (mx / mn) + 0.8 then
      ((⌊Real.logb 10 (mx / mn) + 0.8 + 1 / 2⌋ : ℤ) : ℝ) else _) : XR)) 26 = _
    rw [if_pos (by positivity)]
    show min (min (2 ^ 64 - 1) (⌊((⌊Real.logb 10 (mx / mn) + 0.8 + 1 / 2⌋ : ℤ) : ℝ)⌋).toNat) 26 = _
    rw [Int.floor_intCast]
    omega

theorem linearFits {ch : Chart XR} {l : List XR} (h0 : l ≠ []) (hl : ∀ y ∈ l, ∃ r : ℝ, y = .fin r)
    (hm : ∀ y, y ∈ l ↔ ∃ q ∈ ch.points, q.2 = y) {b : Bool}
    (ha : getLinearYAxis l b = .ok ch.yAxis) : ch.LinearFits := by
  obtain ⟨mn, mx, h1, h2, h3, h4, h5⟩ := extremes_real h0 hl
  unfold getLinearYAxis at ha
  rw [h1, h2] at ha
  simp only [Outcome.unwrap_some, Outcome.ok_bind, Outcome.ok.injEq, ofRat_eq, XR.sub_fin,
    XR.mul_fin, zero_eq] at ha
  have feq_fin : ∀ a b : ℝ, Flt.feq (.fin a : XR) (.fin b) = decide (a = b) := fun _ _ => rfl
  rw [feq_fin, feq_fin] at ha
  have e : (((15 / 100 : ℚ)) : ℝ) = 0.15 := by norm_num
  rw [e] at ha
  by_cases hlt : mn = mx
  · subst hlt
    by_cases hz : mn = 0
    · subst hz
      refine ⟨0, 0, 0.15, extremes_chart hm h3 h4 h5, ?_⟩
      rw [← ha]
      simp only [sub_self, zero_mul, decide_true, if_true, XR.sub_fin, XR.add_fin, true_and]
      exact ⟨fun h => absurd h (lt_irrefl _), fun _ h => absurd rfl h, fun _ _ => trivial⟩
    · refine ⟨mn, mn, mn * 0.15, extremes_chart hm h3 h4 h5, ?_⟩
      rw [← ha]
      simp only [sub_self, zero_mul, decide_true, if_true, hz, decide_false, Bool.false_eq_true,
        if_false, XR.sub_fin, XR.add_fin, true_and]
      refine ⟨fun h => absurd h (lt_irrefl _), fun _ _ => mul_comm _ _, fun _ h => absurd h (by simp)⟩
  · refine ⟨mn, mx, (mx - mn) * 0.15, extremes_chart hm h3 h4 h5, ?_⟩
    have hz : (mx - mn) * 0.15 ≠ 0 := mul_ne_zero (sub_ne_zero.mpr (Ne.symm hlt)) (by norm_num)
    rw [← ha]
    simp only [hz, decide_false, Bool.false_eq_true, if_false, XR.sub_fin, XR.add_fin, true_and]
    exact ⟨fun _ => mul_comm _ _, fun h => absurd h hlt, fun h => absurd h hlt⟩

/-- A logarithmic axis contains the drawn values. -/
theorem Chart.LogFits.inside {ch : Chart XR} (h : ch.LogFits) : ch.Inside := by
  obtain ⟨mn, mx, he, hp, _, h1, h2, _⟩ := h
  have hgt : (1 : ℝ) < 10 ^ (0.4 : ℝ) := Real.one_lt_rpow (by norm_num) (by norm_num)
  refine ⟨_, _, h1, h2, fun q hq => ?_⟩
  obtain ⟨y, e, h3, h4⟩ := he.between q hq
  refine ⟨y, e, lt_of_lt_of_le (div_lt_self hp hgt) h3, lt_of_le_of_lt h4 ?_⟩
  exact lt_mul_of_one_lt_right (hp.trans_le (h3.trans h4)) hgt

/-- A linear axis contains the drawn values if there are two of them or one that is not
negative. -/
theorem Chart.LinearFits.inside {ch : Chart XR} (h : ch.LinearFits)
    (hd : (∃ q ∈ ch.points, ∃ q' ∈ ch.points, q.2 ≠ q'.2) ∨
      ∃ q ∈ ch.points, Flt.le 0 q.2 = true) : ch.Inside := by
  obtain ⟨mn, mx, m, he, h1, h2, h3, h4, h5⟩ := h
  have hm : 0 < m := by
    obtain ⟨q0, hq0, e0⟩ := he.min
    obtain ⟨y0, e0', a0, b0⟩ := he.between q0 hq0
    rcases (a0.trans b0).lt_or_eq with hlt | heq
    · rw [h3 hlt]; nlinarith
    · have huniq : ∀ q ∈ ch.points, q.2 = .fin mx := by
        intro q hq
        obtain ⟨y, e, a, b⟩ := he.between q hq
        rw [e, le_antisymm b (heq ▸ a)]
      by_cases hz : mx = 0
      · rw [h5 heq hz]; norm_num
      · rw [h4 heq hz]
        rcases hd with ⟨q, hq, q', hq', hne⟩ | ⟨q, hq, hle⟩
        · exact absurd ((huniq q hq).trans (huniq q' hq').symm) hne
        · rw [huniq q hq, zero_eq, le_fin] at hle
          have := lt_of_le_of_ne (of_decide_eq_true hle) (Ne.symm hz)
          positivity
  refine ⟨_, _, h1, h2, fun q hq => ?_⟩
  obtain ⟨y, e, h6, h7⟩ := he.between q hq
  exact ⟨y, e, by linarith, by linarith⟩

end Cmaes
