import Verif.Lemmas.RealExec

/-!
# Invariants of executions in exact arithmetic
-/

namespace Cmaes
set_option linter.unusedSectionVars false
variable {n : Nat} {R : Type} {env : Env n XR R} {obj : Obj n XR} {o : Options n XR}
  {t : List (NextCall n XR)} {c : CMAES n XR R}
open Matrix XR

/-- The sum of the learning rates of the covariance matrix. -/
noncomputable def rateSum (o : Options n XR) : ℝ := (optParams o).c1 + (optParams o).cmu

/-- What holds after every operation. -/
structure ExactInv (env : Env n XR R) (obj : Obj n XR) (o : Options n XR) (t : List (NextCall n XR))
    (c : CMAES n XR R) (r : RealState n) (x : ℝ) : Prop where
  rep : Rep c.state r
  good : r.Good
  evals : c.sampler.functionEvals = o.populationSize * c.state.generation
  last : c.state.lastEigenUpdateEvals = o.populationSize *
    (c.state.generation - c.state.generation % c.generationsPerEigenUpdate)
  x_pos : 0 < x
  x_le : x ≤ 1
  x_ge : 1 - (c.state.generation % c.generationsPerEigenUpdate : ℕ) * (rateSum o * n) ≤ x
  cov : ∀ v, x * quad r.decomposed v ≤ quad r.C v
  snap : ∃ t1 c1, t1 <+: t ∧ History.Of env obj o t1 c1 ∧ c1.state.generation =
      c.state.generation - c.state.generation % c.generationsPerEigenUpdate ∧
    c1.state.cov.cov = Mat.fin r.decomposed
  noReport : ∀ s ∈ t, ¬ s.ReportsPosDef
  fresh : c.state.generation % c.generationsPerEigenUpdate = 0 → r.decomposed = r.C

theorem ExactInv.posDef {r : RealState n} {x : ℝ} (h : ExactInv env obj o t c r x) : r.C.PosDef := by
  refine posDef_of_quad h.good.symm fun v hv => ?_
  exact lt_of_lt_of_le (mul_pos h.x_pos (PosDef.quad_pos (decomposed_posDef h.good) hv)) (h.cov v)

theorem History.Of.next (h : History.Of env obj o t c) {kind : EvalKind} {d : CMAES n XR R}
    {res : Option (TerminationData n XR)} {calls : List (Vec n XR × XR)}
    (hn : c.next env kind = .ok (d, res)) (hl : d.sampler.obj.log = c.sampler.obj.log ++ calls) :
    History.Of env obj o (t ++ [{ kind, calls, result := res }]) d := by
  obtain ⟨w, c0, h0, he⟩ := h
  exact ⟨w, c0, h0, .next he hn hl⟩

/-- The factor by which one generation may shrink the bound. -/
theorem bound_step {q : RealParams} {lambda : ℕ} {w : Weights} (hn : n ≠ 0) (hq : q.Ok n lambda w)
    (hs : q.c1 + q.cmu < 1) {x : ℝ} (hx0 : 0 < x) (hx1 : x ≤ 1) :
    let a := q.cmu * -negSum q.weights
    let x' := (1 - (q.c1 + q.cmu) + a) * x - a * n
    x' ≤ 1 ∧ x - (q.c1 + q.cmu) * n ≤ x' ∧ (x = 1 → 0 < x') := by
  intro a x'
  have hn' : (1 : ℝ) ≤ n := by exact_mod_cast Nat.one_le_iff_ne_zero.mpr hn
  have ha : 0 ≤ a := mul_nonneg hq.cmu (by linarith [negSum_nonpos q.weights])
  have b1 : a ≤ q.c1 + q.cmu := hq.b1
  have b2 : n * a ≤ 1 - q.c1 - q.cmu := hq.b2
  have hc1 := hq.c1
  have hcmu := hq.cmu
  have e : x' = x - (q.c1 + q.cmu) * x - a * (n - x) := by ring
  refine ⟨?_, ?_, ?_⟩
  · rw [e]
    have h1 : 0 ≤ (q.c1 + q.cmu) * x := by positivity
    have h2 : 0 ≤ a * (n - x) := mul_nonneg ha (by linarith)
    linarith
  · rw [e]
    have : a * (n - x) ≤ (q.c1 + q.cmu) * (n - x) :=
      mul_le_mul_of_nonneg_right b1 (by linarith)
    nlinarith
  · intro hx
    have e2 : x' = 1 - (q.c1 + q.cmu) + a - n * a := by
      show (1 - (q.c1 + q.cmu) + a) * x - a * n = _
      rw [hx]; ring
    rw [e2]
    rcases ha.lt_or_eq with h | h
    · linarith
    · rw [← h]; linarith

/-- The new matrix is at least the bound times the decomposed matrix. -/
theorem cov_bound {q : RealParams} {lambda : ℕ} {w : Weights} (hq : q.Ok n lambda w)
    (hs : q.c1 + q.cmu < 1) (hcc : 0 < q.cc) (hcc' : q.cc < 1) {r : RealState n} (hg : r.Good) {x : ℝ}
    (hx0 : 0 < x) (hcov : ∀ v, x * quad r.decomposed v ≤ quad r.C v) (g : ℕ)
    (ys : List (Fin n → ℝ)) (v : Fin n → ℝ) :
    ((1 - (q.c1 + q.cmu) + q.cmu * -negSum q.weights) * x - q.cmu * -negSum q.weights * n) *
      quad r.decomposed v ≤ quad (q.cov r g ys) v := by
  have hC : ∀ v, 0 ≤ quad r.C v := fun v =>
    le_trans (mul_nonneg hx0.le (PosDef.quad_nonneg (decomposed_posDef hg) v)) (hcov v)
  refine le_trans ?_ (cov_ge hg hC hq.c1.le hq.cmu hcc hcc' g ys v)
  have e : 1 - q.c1 - q.cmu * q.weights.sum = 1 - (q.c1 + q.cmu) + q.cmu * -negSum q.weights := by
    rw [hq.sum]; ring
  rw [e]
  have ha : 0 ≤ q.cmu * -negSum q.weights :=
    mul_nonneg hq.cmu (by linarith [negSum_nonpos q.weights])
  have h1 := mul_le_mul_of_nonneg_left (hcov v)
    (show 0 ≤ 1 - (q.c1 + q.cmu) + q.cmu * -negSum q.weights by linarith)
  nlinarith

theorem rate_pos (h : History.Of env obj o t c) : 0 < rateSum o := by
  obtain ⟨_, hq⟩ := params_rep h
  have h1 := hq.c1
  have h2 := hq.cmu
  unfold rateSum
  linarith

theorem generationsPerEigenUpdate_pos (h : History.Of env obj o t c) :
    0 < c.generationsPerEigenUpdate := by
  obtain ⟨hp, hq⟩ := params_rep h
  have hs : 0 < (optParams o).c1 + (optParams o).cmu := rate_pos h
  obtain ⟨_, _, _, p⟩ := params_real h
  have hl : 0 < c.parameters.lambda := by rw [p.lambda]; have := p.size; omega
  by_contra hk
  have := (generationsPerEigenUpdate_le hp hs hl 0).mp (by omega)
  have := evalsPerEigenUpdate_pos hp hs hl
  omega

/-- A freshly built `CMAES`. -/
theorem fresh_rep {w : World n XR} (h0 : CMAES.new env w obj o = .ok c) {m : Fin n → ℝ}
    (hm : o.initialMean = Vec.fin m) :
    ∃ s, 0 < s ∧ Rep c.state ⟨m, s, 1, 0, 0, 1, fun _ => 1⟩ ∧ c.state.generation = 0 ∧
      c.state.lastEigenUpdateEvals = 0 ∧ c.sampler.functionEvals = 0 := by
  have hfull : History.Of env obj o [] c := ⟨w, c, h0, .refl c⟩
  obtain ⟨hv, rfl⟩ := new_eq_ok h0
  obtain ⟨a1, a2, a3, _⟩ := create_search env w obj o
  obtain ⟨_, _, _, p⟩ := params_real hfull
  obtain ⟨s, hs1, hs2⟩ := p.sigma
  refine ⟨s, hs2, ?_, by rw [a3]; rfl, by rw [a3]; rfl, by rw [a1]; rfl⟩
  rw [a3]
  refine ⟨hm, hs1, Mat.one_fin, Vec.zero_fin, Vec.zero_fin, Mat.one_fin, ?_, ?_, ?_⟩
  · show Mat.one = _
    rw [Mat.one_fin]; simp
  · show Mat.one = _
    rw [Mat.one_fin]; simp [RealState.invSqrt]
  · show Mat.one = _
    rw [Mat.one_fin]; simp [RealState.transform]

theorem exact_inv (hx : ExactRun env o) (hs : rateSum o < 1) (h : History.Of env obj o t c) :
    ∃ r x, ExactInv env obj o t c r x := by
  have hfull := h
  obtain ⟨w, c0, h0, he⟩ := h
  induction he with
  | refl =>
    obtain ⟨m, hm⟩ := hx.mean
    obtain ⟨s, hs2, hrep, hg, hle, hfe⟩ := fresh_rep h0 hm
    refine ⟨⟨m, s, 1, 0, 0, 1, fun _ => 1⟩, 1, ?_⟩
    have hd : (⟨m, s, 1, 0, 0, 1, fun _ => 1⟩ : RealState n).decomposed = 1 := by
      simp [RealState.decomposed]
    refine ⟨hrep, ⟨by simp, fun _ => one_pos, by simp, hs2⟩, ?_, ?_, one_pos, le_refl _, ?_, ?_, ?_, ?_,
      fun _ => hd⟩
    · rw [hfe, hg]; simp
    · rw [hg, hle]; simp
    · rw [hg]; simp
    · intro v; rw [hd, one_mul]
    · refine ⟨[], _, List.nil_prefix, hfull, by rw [hg]; simp, ?_⟩
      rw [hd]; exact hrep.cov
    · simp
  | quiet he' hq ha ih =>
    rename_i c1 c2 t' op res
    have hprev : History.Of env obj o t' c1 := ⟨w, c0, h0, he'⟩
    obtain ⟨r, x, i⟩ := ih hprev
    obtain ⟨e, _⟩ := quiet_sameSearch hq ha
    have hk : c2.generationsPerEigenUpdate = c1.generationsPerEigenUpdate := by
      unfold CMAES.generationsPerEigenUpdate; rw [e.parameters]
    refine ⟨r, x, ?_⟩
    obtain ⟨i1, i2, i3, i4, i5, i6, i7, i8, i9, i10, i11⟩ := i
    rw [← e.state] at i1 i3 i4 i7 i9 i11
    rw [← e.sampler] at i3
    rw [← hk] at i4 i7 i9 i11
    exact ⟨i1, i2, i3, i4, i5, i6, i7, i8, i9, i10, i11⟩
  | next he' hn hl ih =>
    rename_i c1 c2 t' kind calls res
    have hprev : History.Of env obj o t' c1 := ⟨w, c0, h0, he'⟩
    obtain ⟨r, x, i⟩ := ih hprev
    obtain ⟨hp, hq⟩ := params_rep hprev
    have hrate := rate_pos hprev
    obtain ⟨_, _, _, pr⟩ := params_real hprev
    have hlam : c1.parameters.lambda = o.populationSize := pr.lambda
    have hlpos : 0 < c1.parameters.lambda := by rw [hlam]; have := pr.size; omega
    have hkpos := generationsPerEigenUpdate_pos hprev
    have hpar : c2.parameters = c1.parameters := by
      obtain ⟨gs, j, _⟩ := fresh_inv hfull
      obtain ⟨gs', j', _⟩ := fresh_inv hprev
      rw [j.parameters, j'.parameters]
    have hk : c2.generationsPerEigenUpdate = c1.generationsPerEigenUpdate := by
      unfold CMAES.generationsPerEigenUpdate; rw [hpar]
    rcases next_exact hx hprev i.rep i.good hn with ⟨h1, h2, h3⟩ |
      ⟨ys, r', ok, _, _, _, hu, hfe, _, _, _, hbad, hgood, _⟩
    · refine ⟨r, x, ?_⟩
      obtain ⟨i1, i2, i3, i4, i5, i6, i7, i8, ⟨t1, d1, i9, i9'⟩, i10, i11⟩ := i
      rw [← h2] at i1 i3 i4 i7 i9' i11
      rw [← h3] at i3
      rw [← hk] at i4 i7 i9' i11
      refine ⟨i1, i2, i3, i4, i5, i6, i7, i8, ⟨t1, d1, i9.trans (List.prefix_append _ _), i9'⟩, ?_, i11⟩
      intro s hs
      rcases List.mem_append.mp hs with hs | hs
      · exact i10 s hs
      · rw [List.mem_singleton] at hs
        subst hs
        rintro ⟨d, hd, hm⟩
        simp only at hd
        rw [h1] at hd
        injection hd with hd
        subst hd
        simp [CMAES.terminationData] at hm
    · set g := c1.state.generation with hgdef
      set k := c1.generationsPerEigenUpdate with hkdef
      have hj : g % k < k := Nat.mod_lt _ hkpos
      have hgj : g % k ≤ g := Nat.mod_le _ _
      have hcov := cov_bound hq hs hp.cc_pos hp.cc_lt i.good i.x_pos i.cov g ys
      obtain ⟨hb1, hb2, hb3⟩ := bound_step pr.dim hq hs i.x_pos i.x_le
      set x' := (1 - ((optParams o).c1 + (optParams o).cmu) +
        (optParams o).cmu * -negSum (optParams o).weights) * x -
        (optParams o).cmu * -negSum (optParams o).weights * n with hx'
      have hx'pos : 0 < x' := by
        rcases Nat.eq_zero_or_pos (g % k) with h | h
        · apply hb3
          have := i.x_ge
          rw [← hgdef, ← hkdef, h] at this
          simp only [Nat.cast_zero, zero_mul, sub_zero] at this
          exact le_antisymm i.x_le this
        · have hnd : g % k * c1.parameters.lambda < evalsPerEigenUpdate c1.parameters := by
            by_contra hh
            have := (generationsPerEigenUpdate_le hp hrate hlpos (g % k)).mpr (by omega)
            omega
          have h1 := not_due hp hrate hlpos hnd
          have h2 : (1 : ℝ) ≤ (g % k : ℕ) := by exact_mod_cast h
          have h3 : 0 ≤ ((optParams o).c1 + (optParams o).cmu) * (n : ℝ) :=
            mul_nonneg hrate.le (Nat.cast_nonneg n)
          have h4 := i.x_ge
          rw [← hgdef, ← hkdef] at h4
          unfold rateSum at h4
          have h5 : ((optParams o).c1 + (optParams o).cmu) * (n : ℝ) ≤
              (g % k : ℕ) * (((optParams o).c1 + (optParams o).cmu) * (n : ℝ)) := by nlinarith
          linarith
      have hPD : r'.C.PosDef := by
        refine posDef_of_quad hu.symm fun v hv => ?_
        rw [hu.cov]
        exact lt_of_lt_of_le (mul_pos hx'pos (PosDef.quad_pos (decomposed_posDef i.good) hv)) (hcov v)
      have hdue : c1.state.lastEigenUpdateEvals + evalsPerEigenUpdate c1.parameters ≤
          c2.sampler.functionEvals ↔ k ≤ g % k + 1 := by
        rw [generationsPerEigenUpdate_le hp hrate hlpos, hfe, i.evals, i.last, ← hgdef, ← hkdef, hlam]
        have e : o.populationSize * g + o.populationSize =
            o.populationSize * (g - g % k) + (g % k + 1) * o.populationSize := by
          have e1 : g = (g - g % k) + g % k := by omega
          conv_lhs => rw [e1]
          ring
        rw [e]
        omega
      have hevals : ∀ {g'}, g' = g + 1 → c2.sampler.functionEvals = o.populationSize * g' := by
        rintro _ rfl
        rw [hfe, i.evals, ← hgdef]; ring
      by_cases hd : k ≤ g % k + 1
      · obtain ⟨hdec, hiff, hlast⟩ := hu.due (hdue.mpr hd)
        have hok : ok = true := hiff.mpr (posDef_iff_eigen hdec hPD)
        obtain ⟨hrep, hgen⟩ := hu.done hok
        have hmod : (g + 1) % k = 0 := by
          have e : g % k + 1 = k := by omega
          rw [Nat.add_mod_eq_add_mod_right 1 (Nat.mod_mod g k).symm, e, Nat.mod_self]
        have hdecomp : r'.decomposed = r'.C := hdec.eq.symm
        refine ⟨r', 1, hrep, ⟨hdec.orthonormal, hiff.mp hok, hu.symm, hu.pos⟩, ?_, ?_, one_pos,
          le_refl _, ?_, ?_, ?_, ?_, fun _ => hdecomp⟩
        · rw [hgen]; exact hevals rfl
        · rw [hlast hok, hgen, hk, hmod, Nat.sub_zero]; exact hevals rfl
        · rw [hgen, hk, hmod]; simp
        · intro v; rw [hdecomp, one_mul]
        · refine ⟨_, c2, List.prefix_refl _, hfull, ?_, ?_⟩
          · rw [hgen, hk, hmod, Nat.sub_zero]
          · rw [hdecomp]; exact hrep.cov
        · intro s hs
          rcases List.mem_append.mp hs with hs | hs
          · exact i.noReport s hs
          · rw [List.mem_singleton] at hs
            subst hs
            rintro ⟨d, hd, hm⟩
            exact (hgood hok d hd).1 hm
      · obtain ⟨hB, hd', hok, hlast⟩ := hu.notDue (fun h => hd (hdue.mp h))
        obtain ⟨hrep, hgen⟩ := hu.done hok
        have hmod : (g + 1) % k = g % k + 1 := by
          rw [Nat.add_mod_eq_add_mod_right 1 (Nat.mod_mod g k).symm, Nat.mod_eq_of_lt (by omega)]
        have hdecomp : r'.decomposed = r.decomposed := by
          unfold RealState.decomposed; rw [hB, hd']
        have hsub : g + 1 - (g % k + 1) = g - g % k := by omega
        refine ⟨r', x', hrep, ⟨by rw [hB]; exact i.good.orthonormal, by rw [hd']; exact i.good.pos,
          hu.symm, hu.pos⟩, ?_, ?_, hx'pos, hb1, ?_, ?_, ?_, ?_,
          fun h0 => by rw [hgen, hk, hmod] at h0; omega⟩
        · rw [hgen]; exact hevals rfl
        · rw [hlast, hgen, hk, hmod, hsub, i.last]
        · rw [hgen, hk, hmod]
          have h4 := i.x_ge
          rw [← hgdef, ← hkdef] at h4
          push_cast
          unfold rateSum at h4 ⊢
          linarith
        · intro v; rw [hdecomp, hu.cov]; exact hcov v
        · obtain ⟨t1, d1, h1, h2, h3, h4⟩ := i.snap
          refine ⟨t1, d1, h1.trans (List.prefix_append _ _), h2, ?_, by rw [hdecomp]; exact h4⟩
          rw [h3, hgen, hk, hmod, hsub]
        · intro s hs
          rcases List.mem_append.mp hs with hs | hs
          · exact i.noReport s hs
          · rw [List.mem_singleton] at hs
            subst hs
            rintro ⟨d, hd, hm⟩
            exact (hgood hok d hd).1 hm

/-- What holds after every operation without an assumption on the learning rates. -/
theorem rep_inv (hx : ExactRun env o) (h : History.Of env obj o t c) :
    ∃ r, Rep c.state r ∧ r.Good ∧ ∀ v, 0 ≤ quad r.C v := by
  by_cases hs : rateSum o < 1
  · obtain ⟨r, x, i⟩ := exact_inv hx hs h
    exact ⟨r, i.rep, i.good, PosDef.quad_nonneg i.posDef⟩
  have hfull := h
  obtain ⟨w, c0, h0, he⟩ := h
  induction he with
  | refl =>
    obtain ⟨m, hm⟩ := hx.mean
    obtain ⟨s, hs2, hrep, _⟩ := fresh_rep h0 hm
    refine ⟨⟨m, s, 1, 0, 0, 1, fun _ => 1⟩, hrep, ⟨by simp, fun _ => one_pos, by simp, hs2⟩, ?_⟩
    · intro v
      simp only [quad, one_mulVec]
      exact Finset.sum_nonneg fun i _ => mul_self_nonneg _
  | quiet he' hq ha ih =>
    rename_i c1 c2 t' op res
    obtain ⟨r, i⟩ := ih ⟨w, c0, h0, he'⟩
    obtain ⟨e, _⟩ := quiet_sameSearch hq ha
    exact ⟨r, by rw [e.state]; exact i⟩
  | next he' hn hl ih =>
    rename_i c1 c2 t' kind calls res
    have hprev : History.Of env obj o t' c1 := ⟨w, c0, h0, he'⟩
    obtain ⟨r, hr, hg, hC⟩ := ih hprev
    obtain ⟨hp, hq⟩ := params_rep hprev
    rcases next_exact hx hprev hr hg hn with ⟨h1, h2, h3⟩ |
      ⟨ys, r', ok, _, _, _, hu, hfe, _, _, _, hbad, hgood, _⟩
    · exact ⟨r, by rw [h2]; exact ⟨hr, hg, hC⟩⟩
    · have hnn : ∀ v, 0 ≤ quad r'.C v := by
        intro v
        rw [hu.cov]
        refine le_trans ?_ (cov_ge hg hC hq.c1.le hq.cmu hp.cc_pos hp.cc_lt _ ys v)
        have hs1 : (optParams o).c1 + (optParams o).cmu = 1 := by
          have := hq.le_one
          unfold rateSum at hs
          linarith
        have ha : 0 ≤ (optParams o).cmu * -negSum (optParams o).weights :=
          mul_nonneg hq.cmu (by linarith [negSum_nonpos (optParams o).weights])
        have hn0 : (0 : ℝ) < n := by exact_mod_cast Nat.pos_of_ne_zero hp.dim_ne
        have ha0 : (optParams o).cmu * negSum (optParams o).weights = 0 := by
          have b2 := hq.b2
          nlinarith
        have e1 : 1 - (optParams o).c1 - (optParams o).cmu * (optParams o).weights.sum = 0 := by
          rw [hq.sum]; linarith
        rw [e1, show (optParams o).cmu * (n * negSum (optParams o).weights * quad r.decomposed v) =
          (optParams o).cmu * negSum (optParams o).weights * (n * quad r.decomposed v) by ring, ha0]
        simp
      cases ok with
      | true =>
        obtain ⟨hrep, _⟩ := hu.done rfl
        by_cases hd : c1.state.lastEigenUpdateEvals + evalsPerEigenUpdate c1.parameters ≤
          c2.sampler.functionEvals
        · obtain ⟨hdec, hiff, _⟩ := hu.due hd
          exact ⟨r', hrep, ⟨hdec.orthonormal, hiff.mp rfl, hu.symm, hu.pos⟩, hnn⟩
        · obtain ⟨hB, hd', _⟩ := hu.notDue hd
          exact ⟨r', hrep, ⟨by rw [hB]; exact hg.orthonormal, by rw [hd']; exact hg.pos, hu.symm,
            hu.pos⟩, hnn⟩
      | false =>
        obtain ⟨_, _, hrep⟩ := hu.failed rfl
        exact ⟨_, hrep, ⟨hg.orthonormal, hg.pos, hu.symm, hu.pos⟩, hnn⟩

end Cmaes
