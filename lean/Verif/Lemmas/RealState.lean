import Verif.Lemmas.RealMat
import Verif.Spec.Generation

/-!
# The state update in exact arithmetic
-/

namespace Cmaes
set_option linter.unusedSectionVars false
variable {n : Nat}
open Matrix XR

/-- The model's parameters are real numbers. -/
structure ParamsRep (n : Nat) (p : Parameters XR) (q : RealParams) : Prop where
  dim_ne : n ≠ 0
  dim : p.dim = n
  mu : p.mu = q.mu
  mu_pos : 0 < q.mu
  mu_le : q.mu ≤ q.weights.length
  weights : p.weights = q.weights.map .fin
  muEff : p.muEff = .fin q.muEff
  muEff_pos : 0 ≤ q.muEff
  cm : p.cm = .fin q.cm
  cc : p.cc = .fin q.cc
  cc_pos : 0 < q.cc
  cc_lt : q.cc < 1
  c1 : p.c1 = .fin q.c1
  cs : p.cs = .fin q.cs
  cs_pos : 0 < q.cs
  cs_lt : q.cs < 1
  cmu : p.cmu = .fin q.cmu
  dampS : p.dampS = .fin q.dampS
  dampS_pos : 0 < q.dampS

theorem realChi_pos (hn : n ≠ 0) : 0 < realChi n := by
  have h1 : (1 : ℝ) ≤ n := by exact_mod_cast Nat.one_le_iff_ne_zero.mpr hn
  have h2 : 1 / (4 * (n : ℝ)) ≤ 1 / 4 := by
    apply one_div_le_one_div_of_le <;> linarith
  have h3 : (0 : ℝ) < 1 / (21 * (n : ℝ) ^ 2) := by positivity
  unfold realChi
  exact mul_pos (Real.sqrt_pos.mpr (by linarith)) (by linarith)

theorem chiN_fin (hn : n ≠ 0) : chiN XR n = .fin (realChi n) := by
  have h1 : (n : ℝ) ≠ 0 := by exact_mod_cast hn
  unfold chiN realChi
  rw [ofNat_eq, ofNat_eq, sqrt_fin (Nat.cast_nonneg n), one_eq, lit_eq, lit_eq, mul_fin, mul_fin,
    div_fin (mul_ne_zero (by norm_num) h1),
    div_fin (mul_ne_zero (by norm_num) (by push_cast; positivity)), sub_fin, add_fin, mul_fin]
  push_cast
  rfl

/-! ### Sums over the generation -/

theorem mapM_zipIdx_eq {α β : Type} {f : α × Nat → Outcome β} (l : List α) (r : List β) (k : Nat)
    (hl : r.length = l.length)
    (h : ∀ i (h1 : i < l.length) (h2 : i < r.length), f (l[i], k + i) = .ok r[i]) :
    (l.zipIdx k).mapM f = .ok r := by
  induction l generalizing r k with
  | nil =>
    cases r with
    | nil => rfl
    | cons b r => simp at hl
  | cons a l ih =>
    cases r with
    | nil => simp at hl
    | cons b r =>
      have h0 := h 0 (by simp) (by simp)
      simp only [List.getElem_cons_zero, add_zero] at h0
      have ht := ih r (k + 1) (by simpa using hl) fun i h1 h2 => by
        have := h (i + 1) (by simpa using h1) (by simpa using h2)
        simpa [Nat.add_assoc, Nat.add_comm 1 i] using this
      rw [List.zipIdx_cons, List.mapM_cons, h0, ht]
      rfl

theorem foldl_vec_fin (l : List (Fin n → ℝ)) (a : Fin n → ℝ) :
    (l.map Vec.fin).foldl Vec.add (Vec.fin a) = Vec.fin (a + l.sum) := by
  induction l generalizing a with
  | nil => simp
  | cons b l ih =>
    rw [List.map_cons, List.foldl_cons, Vec.add_fin, ih, List.sum_cons, add_assoc]

theorem sumNonempty_vec {l : List (Fin n → ℝ)} (h : l ≠ []) :
    sumNonempty Vec.add (l.map Vec.fin) = .ok (Vec.fin l.sum) := by
  cases l with
  | nil => exact absurd rfl h
  | cons a l =>
    rw [List.map_cons, sumNonempty, foldl_vec_fin, List.sum_cons]

theorem foldl_mat_fin (l : List (Matrix (Fin n) (Fin n) ℝ)) (a : Matrix (Fin n) (Fin n) ℝ) :
    (l.map Mat.fin).foldl Mat.add (Mat.fin a) = Mat.fin (a + l.sum) := by
  induction l generalizing a with
  | nil => simp
  | cons b l ih =>
    rw [List.map_cons, List.foldl_cons, Mat.add_fin, ih, List.sum_cons, add_assoc]

theorem sumNonempty_mat {l : List (Matrix (Fin n) (Fin n) ℝ)} (h : l ≠ []) :
    sumNonempty Mat.add (l.map Mat.fin) = .ok (Mat.fin l.sum) := by
  cases l with
  | nil => exact absurd rfl h
  | cons a l =>
    rw [List.map_cons, sumNonempty, foldl_mat_fin, List.sum_cons]

theorem treeReduce_mat (t : SplitTree) (l : List (Matrix (Fin n) (Fin n) ℝ)) :
    treeReduce Mat.zero Mat.add t (l.map Mat.fin) = Mat.fin l.sum := by
  induction t generalizing l with
  | leaf => rw [treeReduce, Mat.zero_fin, foldl_mat_fin, zero_add]
  | node k a b iha ihb =>
    rw [treeReduce, ← List.map_take, ← List.map_drop, iha, ihb, Mat.add_fin, ← List.sum_append,
      List.take_append_drop]

variable {p : Parameters XR} {q : RealParams} {s : State n XR} {r : RealState n}
  {inds : List (EvaluatedPoint n XR)} {ys : List (Fin n → ℝ)}

theorem steps_getElem (hy : inds.map (fun e => e.unscaledStep) = ys.map Vec.fin) {i : Nat}
    (h1 : i < inds.length) (h2 : i < ys.length) : inds[i].unscaledStep = Vec.fin ys[i] := by
  have := congrArg (fun l => l[i]?) hy
  simpa [h1, h2] using this

theorem weightedStep_fin (hp : ParamsRep n p q)
    (hy : inds.map (fun e => e.unscaledStep) = ys.map Vec.fin) (hl : q.mu ≤ ys.length) :
    weightedStep p inds = .ok (Vec.fin (q.step ys)) := by
  have hlen : inds.length = ys.length := by simpa using congrArg List.length hy
  have h1 := hp.mu_pos
  have h2 := hp.mu_le
  unfold weightedStep
  have e : (inds.take p.mu).zipIdx.mapM (fun x : EvaluatedPoint n XR × Nat => do
      let w ← Outcome.unwrap .index p.weights[x.2]?
      Outcome.ok (x.1.unscaledStep.smul w)) =
      .ok ((List.zipWith (· • ·) (q.weights.take q.mu) ys).map Vec.fin) := by
    refine mapM_zipIdx_eq _ _ 0 ?_ ?_
    · simp only [List.length_map, List.length_zipWith, List.length_take, hlen, hp.mu]
      omega
    · intro i h1 h2
      simp only [List.length_map, List.length_zipWith, List.length_take] at h1 h2
      simp only [zero_add, List.getElem_take, hp.weights, List.getElem?_map]
      rw [List.getElem?_eq_getElem (by omega)]
      simp only [Option.map_some, Outcome.unwrap_some, Outcome.ok_bind, List.getElem_map,
        List.getElem_zipWith, List.getElem_take]
      rw [steps_getElem hy (by omega) (by omega), Vec.smul_fin]
  rw [e, Outcome.ok_bind, sumNonempty_vec]
  · rfl
  · intro h
    have := congrArg List.length h
    simp only [List.length_zipWith, List.length_take, List.length_nil] at this
    omega

theorem rankMuTerm_fin (hp : ParamsRep n p q) (hr : Rep s r)
    (hy : inds.map (fun e => e.unscaledStep) = ys.map Vec.fin) {i : Nat}
    (h1 : i < ys.length) (w : ℝ) (hw : w < 0 → len (r.invSqrt *ᵥ ys[i]) ≠ 0) :
    rankMuTerm p s.cov.sqrtInv inds i (.fin w) =
      .ok (Mat.fin (RealParams.covWeight r w ys[i] • vecMulVec ys[i] ys[i])) := by
  have hlen : inds.length = ys.length := by simpa using congrArg List.length hy
  unfold rankMuTerm
  rw [List.getElem?_eq_getElem (by omega)]
  simp only [Outcome.unwrap_some, Outcome.ok_bind]
  rw [steps_getElem hy (by omega) h1, hr.sqrtInv, Mat.mulVec_fin, Vec.magnitude_fin, powi_fin,
    zero_eq, lt_fin, hp.dim, ofNat_eq]
  have e : (if decide (w < 0) = true then
        (.fin w * (.fin (n : ℝ) / .fin (Real.sqrt (r.invSqrt *ᵥ ys[i] ⬝ᵥ r.invSqrt *ᵥ ys[i]) ^ 2)) : XR)
      else .fin w) = .fin (RealParams.covWeight r w ys[i]) := by
    unfold RealParams.covWeight
    by_cases h : w < 0
    · rw [if_pos (by simpa using h), if_pos h, show Real.sqrt (r.invSqrt *ᵥ ys[i] ⬝ᵥ r.invSqrt *ᵥ ys[i]) = len (r.invSqrt *ᵥ ys[i]) from rfl,
        div_fin (pow_ne_zero 2 (hw h)), mul_fin]
    · rw [if_neg (by simpa using h), if_neg h]
  rw [e, Vec.smul_fin, Mat.outer_fin, smul_vecMulVec]

theorem rankMuUpdate_fin (hp : ParamsRep n p q) (hr : Rep s r) (tree : SplitTree)
    (hy : inds.map (fun e => e.unscaledStep) = ys.map Vec.fin)
    (hl : q.weights.length ≤ ys.length)
    (hw : ∀ i (h1 : i < q.weights.length) (h2 : i < ys.length), q.weights[i] < 0 →
      len (r.invSqrt *ᵥ ys[i]) ≠ 0) :
    rankMuUpdate p tree s.cov.sqrtInv inds = .ok (Mat.fin (q.rankMu r ys)) := by
  have h1 := hp.mu_pos
  have h2 := hp.mu_le
  unfold rankMuUpdate
  have e : p.weights.zipIdx.mapM (fun x : XR × Nat => rankMuTerm p s.cov.sqrtInv inds x.2 x.1) =
      .ok ((List.zipWith (fun w y => RealParams.covWeight r w y • vecMulVec y y) q.weights ys).map
        Mat.fin) := by
    rw [hp.weights]
    refine mapM_zipIdx_eq _ _ 0 ?_ ?_
    · simp only [List.length_map, List.length_zipWith]
      omega
    · intro i h1 h2
      simp only [List.length_map, List.length_zipWith] at h1 h2
      simp only [List.getElem_map, zero_add, List.getElem_zipWith]
      exact rankMuTerm_fin hp hr hy (by omega) _ fun h => hw i (by omega) (by omega) h
  rw [e, Outcome.ok_bind, treeReduce_mat, sumNonempty_mat]
  · simp only [ite_self]; rfl
  · intro h
    have := congrArg List.length h
    simp only [List.length_zipWith, List.length_nil] at this
    omega

/-! ### Paths, step size and covariance -/

theorem newPathSigma_fin (hp : ParamsRep n p q) (hr : Rep s r) :
    newPathSigma p s (Vec.fin (q.step ys)) = Vec.fin (q.pathSigma r ys) := by
  have h1 := hp.cs_pos
  have h2 := hp.cs_lt
  have h3 := hp.muEff_pos
  unfold newPathSigma RealParams.pathSigma
  have h4 : 0 ≤ q.cs * (2 - q.cs) * q.muEff :=
    mul_nonneg (mul_nonneg h1.le (by linarith)) h3
  rw [hp.cs, hp.muEff, one_eq, lit_eq, sub_fin, sub_fin, mul_fin, mul_fin, sqrt_fin h4, hr.sqrtInv,
    Mat.smul_fin, Mat.mulVec_fin, hr.pathSigma, Vec.smul_fin, Vec.add_fin, smul_mulVec]

theorem heaviside_fin (hp : ParamsRep n p q) (g : Nat) {hs : XR}
    (h : heaviside p g (Vec.fin (q.pathSigma r ys)) = .ok hs) : hs = .fin (q.hs r g ys) := by
  have h1 := hp.cs_pos
  have h2 := hp.cs_lt
  unfold heaviside at h
  split at h
  · cases h
  injection h with h
  rw [← h]
  have h3 : (1 - q.cs) ^ (2 * (g + 1)) < 1 := pow_lt_one₀ (by linarith) (by linarith) (by omega)
  have h4 : 0 < 1 - (1 - q.cs) ^ (2 * (g + 1)) := by linarith
  have h5 : (n : ℝ) + 1 ≠ 0 := by positivity
  rw [hp.cs, hp.dim, one_eq, sub_fin, powi_fin, sub_fin, sqrt_fin h4.le, Vec.magnitude_fin,
    div_fin (Real.sqrt_pos.mpr h4).ne', chiN_fin hp.dim_ne, lit_eq, ofNat_eq, XR.add_fin, div_fin h5,
    ofRat_eq, XR.add_fin, mul_fin, lt_fin, zero_eq]
  unfold RealParams.hs len
  have e : (((14 / 10 : ℚ) : ℝ) + OfNat.ofNat 2 / ((n : ℝ) + 1)) * realChi n =
      (14 / 10 + 2 / ((n : ℝ) + 1)) * realChi n := by push_cast; rfl
  rw [e]
  by_cases hlt : Real.sqrt (q.pathSigma r ys ⬝ᵥ q.pathSigma r ys) /
      Real.sqrt (1 - (1 - q.cs) ^ (2 * (g + 1))) < (14 / 10 + 2 / ((n : ℝ) + 1)) * realChi n
  · rw [if_pos (by simpa using hlt), if_pos hlt]
  · rw [if_neg (by simpa using hlt), if_neg hlt]

theorem newPathC_fin (hp : ParamsRep n p q) (hr : Rep s r) (g : Nat) :
    newPathC p s (.fin (q.hs r g ys)) (Vec.fin (q.step ys)) = Vec.fin (q.pathC r g ys) := by
  have h1 := hp.cc_pos
  have h2 := hp.cc_lt
  have h3 := hp.muEff_pos
  unfold newPathC RealParams.pathC
  have h4 : 0 ≤ q.cc * (2 - q.cc) * q.muEff :=
    mul_nonneg (mul_nonneg h1.le (by linarith)) h3
  rw [hp.cc, hp.muEff, one_eq, lit_eq, sub_fin, sub_fin, mul_fin, mul_fin, sqrt_fin h4, mul_fin,
    hr.pathC, Vec.smul_fin, Vec.smul_fin, Vec.add_fin]

theorem newSigma_fin (hp : ParamsRep n p q) (hr : Rep s r) :
    newSigma p s.sigma (Vec.fin (q.pathSigma r ys)) = .fin (q.sigma r ys) := by
  unfold newSigma RealParams.sigma len
  rw [hp.cs, hp.dampS, hp.dim, chiN_fin hp.dim_ne, Vec.magnitude_fin, div_fin (realChi_pos hp.dim_ne).ne',
    div_fin hp.dampS_pos.ne', one_eq, sub_fin, mul_fin, exp_fin, hr.sigma, mul_fin]

theorem newCov_fin (hp : ParamsRep n p q) (hr : Rep s r) (g : Nat) :
    newCov p s.cov.cov (.fin (q.hs r g ys)) (Vec.fin (q.pathC r g ys)) (Mat.fin (q.rankMu r ys)) =
      Mat.fin (q.cov r g ys) := by
  unfold newCov RealParams.cov
  dsimp only
  rw [hp.cc, hp.c1, hp.cmu, hp.weights, fsum_map_fin, one_eq, lit_eq, sub_fin, sub_fin, mul_fin,
    mul_fin, mul_fin, mul_fin, XR.add_fin, sub_fin, sub_fin, hr.cov, Mat.smul_fin, Mat.smul_fin,
    Vec.smul_fin, Mat.outer_fin, Mat.add_fin, Mat.add_fin, smul_vecMulVec]

theorem vecMulVec_symm (x : Fin n → ℝ) : (vecMulVec x x)ᵀ = vecMulVec x x := by
  rw [transpose_vecMulVec]

theorem list_sum_symm {l : List (Matrix (Fin n) (Fin n) ℝ)} (h : ∀ A ∈ l, Aᵀ = A) :
    l.sumᵀ = l.sum := by
  induction l with
  | nil => simp
  | cons a l ih =>
    rw [List.sum_cons, transpose_add, h a (by simp), ih fun A hA => h A (by simp [hA])]

theorem cov_symm (hC : r.Cᵀ = r.C) (g : Nat) : (q.cov r g ys)ᵀ = q.cov r g ys := by
  unfold RealParams.cov
  rw [transpose_add, transpose_add, transpose_smul, transpose_smul, transpose_smul, hC,
    vecMulVec_symm]
  congr 2
  refine list_sum_symm fun A hA => ?_
  rw [List.mem_iff_getElem] at hA
  obtain ⟨i, hi, rfl⟩ := hA
  rw [List.getElem_zipWith, transpose_smul, vecMulVec_symm]

/-! ### The decomposition -/

theorem updateEigen_fin {eigen : Mat n XR → Option (Mat n XR × Vec n XR)} {c : CovMat n XR}
    {C B : Matrix (Fin n) (Fin n) ℝ} {d : Fin n → ℝ} (hc : c.cov = Mat.fin C)
    (he : eigen (Mat.fin C) = some (Mat.fin B, Vec.fin d)) (hd : Decomposes C B d)
    {r' : RealState n} (hB : r'.B = B) (hdd : r'.d = d) :
    c.updateEigen eigen = if ∀ i, 0 < d i then
      some { cov := Mat.fin C, eigenvectors := Mat.fin B
             sqrtEigenvalues := Mat.fin (diagonal fun i => Real.sqrt (d i))
             sqrtInv := Mat.fin r'.invSqrt
             transform := Mat.fin r'.transform } else none := by
  unfold CovMat.updateEigen
  rw [hc, he]
  simp only [normalizeCols_fin hd.orthonormal]
  by_cases h : ∀ i, 0 < d i
  · rw [if_pos h, if_neg]
    · have e : (fun i => Flt.sqrt (Vec.fin d i)) = Vec.fin fun i => Real.sqrt (d i) := by
        funext i
        exact sqrt_fin (h i).le
      rw [e, Mat.diagonal_fin]
      have e2 : (Mat.fin (diagonal fun i => Real.sqrt (d i))).map
          (fun x => if Flt.lt 0 x then 1 / x else x) =
          Mat.fin (diagonal fun i => 1 / Real.sqrt (d i)) := by
        funext i j
        by_cases hij : i = j
        · subst hij
          have h0 := Real.sqrt_pos.mpr (h i)
          simp only [Mat.map, Mat.fin, diagonal_apply_eq]
          rw [zero_eq, lt_fin, if_pos (by simpa using h i), one_eq, div_fin h0.ne']
        · simp only [Mat.map, Mat.fin, diagonal_apply_ne _ hij]
          rw [zero_eq, lt_fin]
          simp
      rw [e2, Mat.mul_fin, Mat.transpose_fin, Mat.mul_fin, Mat.mul_fin]
      unfold RealState.invSqrt RealState.transform
      rw [hB, hdd]
    · simp only [List.any_eq_true, List.mem_ofFn, not_exists, not_and]
      rintro x ⟨i, rfl⟩ hx
      rw [zero_eq] at hx
      have : Flt.le (.fin (d i) : XR) (.fin 0) = true := hx
      rw [le_fin, decide_eq_true_eq] at this
      exact absurd (h i) (not_lt.mpr this)
  · rw [if_neg h, if_pos]
    push Not at h
    obtain ⟨i, hi⟩ := h
    refine List.any_eq_true.mpr ⟨Vec.fin d i, List.mem_ofFn.mpr ⟨i, rfl⟩, ?_⟩
    rw [zero_eq]
    show Flt.le (.fin (d i) : XR) (.fin 0) = true
    rw [le_fin, decide_eq_true_eq]
    exact hi

/-- What the update does in exact arithmetic: the state `s`, representing `r`, becomes `s'`,
representing `r'`. `ys` are the steps of the sorted generation; `ok = false` is `PosDefCovError`. -/
structure Updated (p : Parameters XR) (q : RealParams) (s s' : State n XR) (r r' : RealState n)
    (ys : List (Fin n → ℝ)) (evals : Nat) (ok : Bool) : Prop where
  mean : r'.mean = q.mean r ys
  sigma : r'.sigma = q.sigma r ys
  cov : r'.C = q.cov r s.generation ys
  pathC : r'.pathC = q.pathC r s.generation ys
  pathSigma : r'.pathSigma = q.pathSigma r ys
  mean' : s'.mean = Vec.fin r'.mean
  sigma' : s'.sigma = .fin r'.sigma
  cov' : s'.cov.cov = Mat.fin r'.C
  pos : 0 < r'.sigma
  symm : r'.Cᵀ = r'.C
  done : ok = true → Rep s' r' ∧ s'.generation = s.generation + 1
  failed : ok = false → s'.generation = s.generation ∧
    s'.lastEigenUpdateEvals = s.lastEigenUpdateEvals ∧ Rep s' { r' with B := r.B, d := r.d }
  due : s.lastEigenUpdateEvals + evalsPerEigenUpdate p ≤ evals →
    Decomposes r'.C r'.B r'.d ∧ (ok = true ↔ ∀ i, 0 < r'.d i) ∧
      (ok = true → s'.lastEigenUpdateEvals = evals)
  notDue : ¬ s.lastEigenUpdateEvals + evalsPerEigenUpdate p ≤ evals →
    r'.B = r.B ∧ r'.d = r.d ∧ ok = true ∧ s'.lastEigenUpdateEvals = s.lastEigenUpdateEvals

/-- The update in exact arithmetic, when the eigensolver is exact. -/
theorem update_fin {eigen : Mat n XR → Option (Mat n XR × Vec n XR)} {tree : SplitTree}
    {evals : Nat} {s' : State n XR} {ok : Bool} (hp : ParamsRep n p q) (hr : Rep s r)
    (hg : r.Good)
    (heig : ∀ C : Matrix (Fin n) (Fin n) ℝ, Cᵀ = C →
      ∃ B d, eigen (Mat.fin C) = some (Mat.fin B, Vec.fin d) ∧ Decomposes C B d)
    (hy : inds.map (fun e => e.unscaledStep) = ys.map Vec.fin)
    (hl : q.weights.length ≤ ys.length)
    (hw : ∀ i (h1 : i < q.weights.length) (h2 : i < ys.length), q.weights[i] < 0 →
      len (r.invSqrt *ᵥ ys[i]) ≠ 0)
    (h : s.update eigen tree evals p inds = .ok (s', ok)) :
    ∃ r', Updated p q s s' r r' ys evals ok := by
  have hsig : 0 < q.sigma r ys := mul_pos hg.sigma (Real.exp_pos _)
  have hsymm := cov_symm (q := q) (ys := ys) hg.symm s.generation
  unfold State.update at h
  rw [weightedStep_fin hp hy (hp.mu_le.trans hl), Outcome.ok_bind] at h
  dsimp only at h
  rw [newPathSigma_fin hp hr] at h
  cases hh : heaviside p s.generation (Vec.fin (q.pathSigma r ys)) with
  | panic e => rw [hh] at h; cases h
  | diverge => rw [hh] at h; cases h
  | ok hs =>
  have := heaviside_fin hp s.generation hh
  subst this
  rw [hh, Outcome.ok_bind, newPathC_fin hp hr, newSigma_fin hp hr, rankMuUpdate_fin hp hr tree hy hl hw,
    Outcome.ok_bind, newCov_fin hp hr, hp.cm, hr.sigma, mul_fin, Vec.smul_fin, hr.mean,
    Vec.add_fin] at h
  unfold CovMat.setCov at h
  rw [Mat.fillLower_fin hsymm] at h
  by_cases hdue : s.lastEigenUpdateEvals + evalsPerEigenUpdate p ≤ evals
  · obtain ⟨B, d, he, hd⟩ := heig _ hsymm
    simp only [hdue, decide_true, if_true] at h
    rw [updateEigen_fin (c := { s.cov with cov := Mat.fin (q.cov r s.generation ys) })
      (r' := ⟨q.mean r ys, q.sigma r ys, q.cov r s.generation ys,
        q.pathC r s.generation ys, q.pathSigma r ys, B, d⟩) rfl he hd rfl rfl] at h
    refine ⟨⟨q.mean r ys, q.sigma r ys, q.cov r s.generation ys, q.pathC r s.generation ys,
      q.pathSigma r ys, B, d⟩, ?_⟩
    by_cases hpos : ∀ i, 0 < d i
    · simp only [if_pos hpos, if_true, Outcome.ok.injEq, Prod.mk.injEq] at h
      obtain ⟨h1, h2⟩ := h
      subst h1 h2
      exact ⟨rfl, rfl, rfl, rfl, rfl, rfl, rfl, rfl, hsig, hsymm,
        fun _ => ⟨⟨rfl, rfl, rfl, rfl, rfl, rfl, rfl, rfl, rfl⟩, rfl⟩, (fun h => by cases h),
        fun _ => ⟨hd, by simpa using hpos, fun _ => rfl⟩, fun h => absurd hdue h⟩
    · simp only [if_neg hpos, if_false, Outcome.ok.injEq, Prod.mk.injEq, Bool.false_eq_true] at h
      obtain ⟨h1, h2⟩ := h
      subst h1 h2
      exact ⟨rfl, rfl, rfl, rfl, rfl, rfl, rfl, rfl, hsig, hsymm, (fun h => by cases h),
        fun _ => ⟨rfl, rfl, ⟨rfl, rfl, rfl, rfl, rfl, hr.eigenvectors, hr.sqrtEigenvalues, hr.sqrtInv,
          hr.transform⟩⟩,
        fun _ => ⟨hd, by simpa using hpos, (fun h => by cases h)⟩, fun h => absurd hdue h⟩
  · simp only [hdue, decide_false, Bool.false_eq_true, if_false, if_true, Outcome.ok.injEq,
      Prod.mk.injEq] at h
    obtain ⟨h1, h2⟩ := h
    subst h1 h2
    exact ⟨⟨q.mean r ys, q.sigma r ys, q.cov r s.generation ys, q.pathC r s.generation ys,
      q.pathSigma r ys, r.B, r.d⟩, rfl, rfl, rfl, rfl, rfl, rfl, rfl, rfl, hsig, hsymm,
      fun _ => ⟨⟨rfl, rfl, rfl, rfl, rfl, hr.eigenvectors, hr.sqrtEigenvalues, hr.sqrtInv,
        hr.transform⟩, rfl⟩, (fun h => by cases h), fun h => absurd h hdue,
      fun _ => ⟨rfl, rfl, rfl, rfl⟩⟩

end Cmaes
