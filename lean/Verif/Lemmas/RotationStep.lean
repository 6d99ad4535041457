import Verif.Lemmas.RotationSample
import Verif.Props.Exact
import Verif.Props.Tolerance
import Verif.Props.NoPanic

/-!
# One `next` call in a turned search space
-/

set_option linter.unusedSectionVars false

namespace Cmaes
variable {n : Nat} {R R' : Type} {Q : Matrix (Fin n) (Fin n) ℝ}
open Matrix

/-! ### The termination criteria -/

theorem xr_feq_fin (a b : ℝ) : Flt.feq (.fin a : XR) (.fin b) = decide (a = b) := rfl

theorem noEffectAxis_exact {t : TerminationCheck n XR} {r : RealState n} (hn : n ≠ 0)
    (hr : Rep t.state r) (hg : r.Good) : t.noEffectAxis = .ok false := by
  have hpos : 0 < n := Nat.pos_of_ne_zero hn
  unfold TerminationCheck.noEffectAxis
  rw [dif_pos hpos]
  set i : Fin n := ⟨t.state.generation % n, Nat.mod_lt _ hpos⟩
  have hd := Real.sqrt_pos.mpr (hg.pos i)
  simp only
  rw [hr.eigenvectors, hr.sqrtEigenvalues, hr.sigma, hr.mean]
  have e1 : (Mat.fin r.B).col i = Vec.fin fun j => r.B j i := rfl
  have e2 : Mat.fin (diagonal fun i => Real.sqrt (r.d i)) i i = .fin (Real.sqrt (r.d i)) := by
    show (.fin (diagonal (fun i => Real.sqrt (r.d i)) i i) : XR) = _
    rw [diagonal_apply_eq]
  rw [e1, e2, XR.ofRat_eq, XR.mul_fin, XR.mul_fin, Vec.smul_fin, Vec.add_fin]
  congr 1
  by_contra hb
  rw [Bool.not_eq_false] at hb
  have hz : ∀ j, r.B j i = 0 := by
    intro j
    unfold Vec.beq at hb
    rw [List.all_eq_true] at hb
    have := hb _ (List.mem_ofFn.mpr ⟨j, rfl⟩)
    have h1 : Flt.feq (.fin (r.mean j) : XR) (.fin ((r.mean + (((1 / 10 : ℚ) : ℝ) * r.sigma *
        Real.sqrt (r.d i)) • fun j => r.B j i) j)) = true := this
    rw [xr_feq_fin, decide_eq_true_eq, Pi.add_apply, Pi.smul_apply, smul_eq_mul] at h1
    have h2 : (((1 / 10 : ℚ) : ℝ) * r.sigma * Real.sqrt (r.d i)) * r.B j i = 0 := by linarith
    have h3 : (((1 / 10 : ℚ) : ℝ) * r.sigma * Real.sqrt (r.d i)) ≠ 0 := by
      have := hg.sigma
      push_cast
      positivity
    exact (mul_eq_zero.mp h2).resolve_left h3
  have := congrFun (congrFun hg.orthonormal i) i
  rw [mul_apply] at this
  simp [hz, transpose_apply] at this

theorem maxBy_exact {s s' : State n XR} {r r' : RealState n} (hn : n ≠ 0) (hr : Rep s r)
    (hr' : Rep s' r') (hd : Set.range r'.d = Set.range r.d) :
    maxBy (List.ofFn s'.cov.sqrtEigenvalues.diag) = maxBy (List.ofFn s.cov.sqrtEigenvalues.diag) := by
  have e : ∀ {s : State n XR} {r : RealState n}, Rep s r →
      s.cov.sqrtEigenvalues.diag = Vec.fin fun i => Real.sqrt (r.d i) := by
    intro s r hr
    rw [hr.sqrtEigenvalues]
    funext i
    show (.fin (diagonal (fun i => Real.sqrt (r.d i)) i i) : XR) = _
    rw [diagonal_apply_eq]; rfl
  have key : ∀ x : Fin n → ℝ, ∃ m, maxBy (List.ofFn (Vec.fin x)) = .ok (.fin m) ∧
      m ∈ Set.range x ∧ ∀ y ∈ Set.range x, y ≤ m := by
    intro x
    have hne : List.ofFn (Vec.fin x) ≠ [] := by
      rw [Ne, List.ofFn_eq_nil_iff]; exact hn
    obtain ⟨m, hm⟩ : ∃ m, maxBy (List.ofFn (Vec.fin x)) = .ok m := by
      cases hl : List.ofFn (Vec.fin x) with
      | nil => exact absurd hl hne
      | cons a l => exact ⟨_, rfl⟩
    obtain ⟨h1, h2⟩ := maxBy_spec (fun y hy => by
      rw [List.mem_ofFn] at hy
      obtain ⟨i, rfl⟩ := hy
      rfl) hm
    rw [List.mem_ofFn] at h1
    obtain ⟨i, rfl⟩ := h1
    refine ⟨x i, hm, ⟨i, rfl⟩, ?_⟩
    rintro _ ⟨j, rfl⟩
    have := h2 (Vec.fin x j) (List.mem_ofFn.mpr ⟨j, rfl⟩)
    have h3 : Flt.le (.fin (x j) : XR) (.fin (x i)) = true := this
    rwa [XR.le_fin, decide_eq_true_eq] at h3
  rw [e hr, e hr']
  obtain ⟨m, h1, h2, h3⟩ := key fun i => Real.sqrt (r.d i)
  obtain ⟨m', h1', h2', h3'⟩ := key fun i => Real.sqrt (r'.d i)
  have hrange : Set.range (fun i => Real.sqrt (r'.d i)) = Set.range fun i => Real.sqrt (r.d i) := by
    have := congrArg (fun s => Real.sqrt '' s) hd
    simpa [← Set.range_comp, Function.comp_def] using this
  rw [hrange] at h2' h3'
  rw [h1, h1', le_antisymm (h3 _ h2') (h3' _ h2)]

theorem axisRatio_exact {s s' : State n XR} {r r' : RealState n} (hn : n ≠ 0) (hr : Rep s r)
    (hr' : Rep s' r') (hg : r.Good) (hg' : r'.Good) (hd : Set.range r'.d = Set.range r.d) :
    s'.axisRatio = s.axisRatio := by
  have key : ∀ {s : State n XR} {r : RealState n}, Rep s r → r.Good → ∃ a ∈ Set.range r.d,
      ∃ b ∈ Set.range r.d, (∀ x ∈ Set.range r.d, x ≤ a) ∧ (∀ x ∈ Set.range r.d, b ≤ x) ∧
        s.axisRatio = .fin (Real.sqrt a / Real.sqrt b) := by
    intro s r hr hg
    have e : s.cov.sqrtEigenvalues.diag = Vec.fin fun i => Real.sqrt (r.d i) := by
      rw [hr.sqrtEigenvalues]
      funext i
      show (.fin (diagonal (fun i => Real.sqrt (r.d i)) i i) : XR) = _
      rw [diagonal_apply_eq]; rfl
    obtain ⟨i, h1, h2⟩ := Vec.max_fin hn fun i => Real.sqrt (r.d i)
    obtain ⟨j, h3, h4⟩ := Vec.min_fin hn fun i => Real.sqrt (r.d i)
    refine ⟨_, ⟨i, rfl⟩, _, ⟨j, rfl⟩, ?_, ?_, ?_⟩
    · rintro _ ⟨l, rfl⟩
      exact (Real.sqrt_le_sqrt_iff (hg.pos i).le).mp (h2 l)
    · rintro _ ⟨l, rfl⟩
      exact (Real.sqrt_le_sqrt_iff (hg.pos l).le).mp (h4 l)
    · unfold State.axisRatio
      rw [e, h1, h3, XR.div_fin (Real.sqrt_pos.mpr (hg.pos j)).ne']
  obtain ⟨a, a1, b, b1, h1, h2, h3⟩ := key hr hg
  obtain ⟨a', a1', b', b1', h1', h2', h3'⟩ := key hr' hg'
  rw [hd] at a1' b1' h1' h2'
  rw [h3, h3', le_antisymm (h1 _ a1') (h1' _ a1), le_antisymm (h2' _ b1) (h2 _ b1')]

theorem coordinateFree_append (a b : List TerminationReason) :
    coordinateFree (a ++ b) = coordinateFree a ++ coordinateFree b := by
  simp [coordinateFree]

theorem coordinateFree_tolX (b : Bool) :
    coordinateFree (TerminationCheck.reason b .tolX) = [] := by
  cases b <;> rfl

theorem coordinateFree_noEffectCoord (b : Bool) :
    coordinateFree (TerminationCheck.reason b .noEffectCoord) = [] := by
  cases b <;> rfl

/-- The termination check of the turned run. -/
theorem check_turn {med : List XR → Outcome XR} {t t' : TerminationCheck n XR} {r r' : RealState n}
    (hn : n ≠ 0) (hr : Rep t.state r) (hr' : Rep t'.state r') (hg : r.Good) (hg' : r'.Good)
    (hd : Set.range r'.d = Set.range r.d) (hs : r'.sigma = r.sigma) (h1 : t'.evals = t.evals)
    (h2 : t'.elapsed = t.elapsed)
    (h3 : t'.parameters = t.parameters) (h4 : t'.state.generation = t.state.generation)
    (h5 : t'.history = t.history.moved (turn Q))
    (h6 : t'.individuals = t.individuals.map (turnPt Q)) {rs : List TerminationReason}
    (h : t.check med = .ok rs) :
    ∃ rs', t'.check med = .ok rs' ∧ coordinateFree rs' = coordinateFree rs := by
  have e1 : t'.funTarget = t.funTarget := by
    simp only [TerminationCheck.funTarget, h3, h6]
    cases t.parameters.termination.funTarget with
    | none => rfl
    | some v => simp only [List.any_map]; rfl
  have e2 : t'.tolFun = t.tolFun := by
    simp only [TerminationCheck.tolFun, h3, h5, h6, History.moved, List.map_map]
    rfl
  have e3 : t'.tolStagnation med = t.tolStagnation med := by
    simp only [TerminationCheck.tolStagnation, h3, h4, h5, History.moved]
  have e4 : t'.tolXUp = t.tolXUp := by
    simp only [TerminationCheck.tolXUp, h3, maxBy_exact hn hr hr' hd, hr.sigma, hr'.sigma, hs]
  have e5 : t'.tolConditionCov = t.tolConditionCov := by
    simp only [TerminationCheck.tolConditionCov, h3, axisRatio_exact hn hr hr' hg hg' hd]
  have e6 : t'.maxFunctionEvals = t.maxFunctionEvals := by
    simp only [TerminationCheck.maxFunctionEvals, h3, h1]
  have e7 : t'.maxGenerations = t.maxGenerations := by
    simp only [TerminationCheck.maxGenerations, h3, h4]
  have e8 : t'.maxTime = t.maxTime := by
    simp only [TerminationCheck.maxTime, h3, h2]
  unfold TerminationCheck.check at h ⊢
  rw [noEffectAxis_exact hn hr hg] at h
  rw [noEffectAxis_exact hn hr' hg', e1, e2, e3, e4, e5, e6, e7, e8]
  simp only [Outcome.bind_eq_ok, Outcome.ok.injEq] at h
  obtain ⟨a, ha, b, hb, c, hc, d, hd, rfl⟩ := h
  rw [ha, hc, hd]
  subst hb
  refine ⟨_, rfl, ?_⟩
  simp only [coordinateFree_append, coordinateFree_tolX, coordinateFree_noEffectCoord]

/-! ### States -/

/-- A real matrix from the model's numbers. -/
noncomputable def realMat (M : Mat n XR) : Matrix (Fin n) (Fin n) ℝ := fun i j => realValue (M i j)

theorem realMat_fin (A : Matrix (Fin n) (Fin n) ℝ) : realMat (Mat.fin A) = A := rfl

theorem Mat.fin_inj {A B : Matrix (Fin n) (Fin n) ℝ} (h : Mat.fin A = Mat.fin B) : A = B := by
  rw [← realMat_fin A, h, realMat_fin]

theorem Vec.fin_inj {a b : Fin n → ℝ} (h : Vec.fin a = Vec.fin b) : a = b := by
  funext i
  have := congrFun h i
  injection this

/-- The matrix that was decomposed last. -/
noncomputable def lastDecomposed (s : State n XR) : Matrix (Fin n) (Fin n) ℝ :=
  realMat s.cov.eigenvectors * (realMat s.cov.sqrtEigenvalues * realMat s.cov.sqrtEigenvalues) *
    (realMat s.cov.eigenvectors)ᵀ

theorem lastDecomposed_eq {s : State n XR} {r : RealState n} (hr : Rep s r) (hg : r.Good) :
    lastDecomposed s = r.decomposed := by
  unfold lastDecomposed RealState.decomposed
  rw [hr.eigenvectors, hr.sqrtEigenvalues, realMat_fin, realMat_fin, diagonal_mul_diagonal]
  congr 3
  funext i
  exact Real.mul_self_sqrt (hg.pos i).le

/-- The eigenvectors in use in the turned run. -/
noncomputable def turnedBasis (Q : Matrix (Fin n) (Fin n) ℝ)
    (eigen : Mat n XR → Option (Mat n XR × Vec n XR)) (s : State n XR) :
    Matrix (Fin n) (Fin n) ℝ :=
  if s.lastEigenUpdateEvals = 0 then 1
  else match eigen (Mat.fin (Q * lastDecomposed s * Qᵀ)) with
    | some (B, _) => realMat B
    | none => 1

open Classical in
/-- How the random vectors of the turned run have to be turned. -/
noncomputable def drawTurnOf (Q : Matrix (Fin n) (Fin n) ℝ)
    (eigen : Mat n XR → Option (Mat n XR × Vec n XR)) (s : State n XR) :
    Matrix (Fin n) (Fin n) ℝ :=
  let M := (turnedBasis Q eigen s)ᵀ * Q * realMat s.cov.eigenvectors
  if Mᵀ * M = 1 then M else 1

theorem drawTurnOf_orth (Q : Matrix (Fin n) (Fin n) ℝ)
    (eigen : Mat n XR → Option (Mat n XR × Vec n XR)) (s : State n XR) :
    (drawTurnOf Q eigen s)ᵀ * drawTurnOf Q eigen s = 1 := by
  unfold drawTurnOf
  dsimp only
  split
  · assumption
  · simp

/-- Two corresponding states over the real numbers. -/
structure StateTurn (Q : Matrix (Fin n) (Fin n) ℝ)
    (eigen : Mat n XR → Option (Mat n XR × Vec n XR)) (s s' : State n XR) (r r' : RealState n) :
    Prop where
  rep : Rep s r
  good : r.Good
  rep' : Rep s' r'
  good' : r'.Good
  rot : RotState Q r r'
  basis : r'.B = turnedBasis Q eigen s
  generation : s'.generation = s.generation
  lastEigen : s'.lastEigenUpdateEvals = s.lastEigenUpdateEvals

theorem StateTurn.draw {eigen : Mat n XR → Option (Mat n XR × Vec n XR)} {s s' : State n XR}
    {r r' : RealState n} (hQ : Qᵀ * Q = 1) (h : StateTurn Q eigen s s' r r') :
    drawTurnOf Q eigen s = drawTurn Q r r' := by
  have e : (turnedBasis Q eigen s)ᵀ * Q * realMat s.cov.eigenvectors = drawTurn Q r r' := by
    rw [← h.basis, h.rep.eigenvectors, realMat_fin]
    rfl
  unfold drawTurnOf
  dsimp only
  rw [e, if_pos (drawTurn_orth hQ h.good h.good')]

/-- After an update of the decomposition the eigenvectors are those returned by the solver. -/
theorem update_basis {eigen : Mat n XR → Option (Mat n XR × Vec n XR)} {tree : SplitTree}
    {evals : Nat} {p : Parameters XR} {inds : List (EvaluatedPoint n XR)} {s s' : State n XR}
    (hdue : s.lastEigenUpdateEvals + evalsPerEigenUpdate p ≤ evals)
    (h : s.update eigen tree evals p inds = .ok (s', true)) :
    ∃ B v, eigen s'.cov.cov = some (B, v) ∧ s'.cov.eigenvectors = normalizeCols B := by
  simp only [State.update, Outcome.bind_eq_ok] at h
  obtain ⟨yw, _, hs, _, rm, _, h⟩ := h
  simp only [hdue, decide_true, if_true] at h
  unfold CovMat.setCov CovMat.updateEigen at h
  simp only [if_true] at h
  cases he : eigen (newCov p s.cov.cov hs (newPathC p s hs yw) rm).fillLower with
  | none => simp [he] at h
  | some x =>
    obtain ⟨B, v⟩ := x
    simp only [he] at h
    by_cases hv : (List.ofFn v).any (fun x => Flt.le x 0) = true
    · simp [hv] at h
    · simp only [hv, if_false, Bool.false_eq_true, if_true, Outcome.ok.injEq, Prod.mk.injEq,
        and_true] at h
      subst h
      exact ⟨B, v, he, rfl⟩

theorem update_generation_lt {eigen : Mat n XR → Option (Mat n XR × Vec n XR)} {tree : SplitTree}
    {evals : Nat} {p : Parameters XR} {inds : List (EvaluatedPoint n XR)} {s : State n XR}
    {x : State n XR × Bool} (h : s.update eigen tree evals p inds = .ok x) :
    s.generation < 2 ^ 30 - 1 := by
  simp only [State.update, Outcome.bind_eq_ok] at h
  obtain ⟨yw, _, hs, hh, _⟩ := h
  unfold heaviside at hh
  split at hh
  · cases hh
  · omega

/-- The update of the turned state. -/
theorem update_turn {eigen eigen' : Mat n XR → Option (Mat n XR × Vec n XR)}
    {tree tree' : SplitTree} {evals : Nat} {p : Parameters XR} {q : RealParams}
    {inds : List (EvaluatedPoint n XR)} {s s' : State n XR} {r r' : RealState n}
    {ys : List (Fin n → ℝ)} {s1 : State n XR} {ok : Bool} (hQ : Qᵀ * Q = 1)
    (hp : ParamsRep n p q) (hst : StateTurn Q eigen' s s' r r') (he : ExactSolver eigen)
    (he' : ExactSolver eigen')
    (hy : inds.map (fun e => e.unscaledStep) = ys.map Vec.fin)
    (hl : q.weights.length ≤ ys.length)
    (hw : ∀ i (h1 : i < q.weights.length) (h2 : i < ys.length), q.weights[i] < 0 →
      len (r.invSqrt *ᵥ ys[i]) ≠ 0) (hev : 0 < evals)
    (h : s.update eigen tree evals p inds = .ok (s1, ok)) :
    ∃ s1' r1 r1', s'.update eigen' tree' evals p (inds.map (turnPt Q)) = .ok (s1', ok) ∧
      StateTurn Q eigen' s1 s1' r1 r1' := by
  have hlen : inds.length = ys.length := by simpa using congrArg List.length hy
  have hwl : p.weights.length = q.weights.length := by rw [hp.weights, List.length_map]
  obtain ⟨⟨s1', ok'⟩, h'⟩ := update_ok (eigen := eigen') (tree := tree') (evals := evals) (p := p)
    (inds := inds.map (turnPt Q)) (s := s') (by rw [hp.mu]; exact hp.mu_pos)
    (by rw [hp.mu, hwl]; exact hp.mu_le) (by rw [hwl, List.length_map, hlen]; exact hl)
    (by rw [hst.generation]; exact update_generation_lt h)
  have hy' : (inds.map (turnPt Q)).map (fun e => e.unscaledStep) =
      (ys.map (Q *ᵥ ·)).map Vec.fin := by
    have : (inds.map (turnPt Q)).map (fun e => e.unscaledStep) =
        (inds.map (fun e => e.unscaledStep)).map (turn Q) := by
      simp [List.map_map, Function.comp_def, turnPt]
    rw [this, hy, List.map_map, List.map_map]
    rfl
  obtain ⟨r1, hu⟩ := update_fin hp hst.rep hst.good he hy hl hw h
  obtain ⟨r1', hu'⟩ := update_fin hp hst.rep' hst.good' he' hy' (by rw [List.length_map]; exact hl)
    (fun i h1 h2 hneg => by
      rw [List.getElem_map, invSqrt_mulVec_rot hQ hst.rot hst.good hst.good', orth_len hQ]
      exact hw i h1 (by simpa using h2) hneg) h'
  obtain ⟨e1, e2, e3, r2, r2', a1, a2, a3, a4, a5, a6⟩ :=
    updated_rot hQ hst.rot hst.good hst.good' ys hst.generation hst.lastEigen hu hu'
  subst e1
  refine ⟨s1', r2, r2', h', a1, a2, a3, a4, a5, ?_, e2, e3⟩
  rcases a6 with ⟨b1, rfl, rfl, rfl, b4, b5⟩ | ⟨b1, b2, b3, b4⟩
  · obtain ⟨B, v, hB, hvec⟩ := update_basis (by rw [hst.lastEigen]; exact b1) h'
    obtain ⟨B1, d1, hB1, hdec⟩ := he' r2'.C a4.symm
    rw [a3.cov, hB1] at hB
    injection hB with hB
    injection hB with hB _
    rw [← hB, normalizeCols_fin hdec.orthonormal, a3.eigenvectors] at hvec
    have hbb := Mat.fin_inj hvec
    unfold turnedBasis
    have hC : Q * lastDecomposed s1 * Qᵀ = r2'.C := by
      rw [lastDecomposed_eq a1 a2, ← a5.decomposed]
      exact b4.eq.symm
    rw [if_neg (by omega), hC, hB1]
    exact hbb
  · have hld : lastDecomposed s1 = lastDecomposed s := by
      rw [lastDecomposed_eq a1 a2, lastDecomposed_eq hst.rep hst.good]
      unfold RealState.decomposed
      rw [b1, b2]
    rw [b3, hst.basis]
    unfold turnedBasis
    rw [b4, hld]

end Cmaes
