import Verif.Spec.Rotation
import Verif.Lemmas.RealState

/-!
# Rotations and one generation of CMA-ES
-/

namespace Cmaes
variable {n : Nat}
open Matrix

section algebra
variable {Q : Matrix (Fin n) (Fin n) ℝ} (hQ : Qᵀ * Q = 1)
include hQ

theorem orth_dot (u v : Fin n → ℝ) : Q *ᵥ u ⬝ᵥ Q *ᵥ v = u ⬝ᵥ v := by
  rw [dotProduct_mulVec, vecMul_mulVec, hQ, vecMul_one]

theorem orth_len (u : Fin n → ℝ) : len (Q *ᵥ u) = len u := by
  unfold len
  rw [orth_dot hQ]

theorem orth_comm : Q * Qᵀ = 1 := mul_eq_one_comm.mp hQ

theorem conj_mulVec (M : Matrix (Fin n) (Fin n) ℝ) (u : Fin n → ℝ) :
    (Q * M * Qᵀ) *ᵥ (Q *ᵥ u) = Q *ᵥ (M *ᵥ u) := by
  rw [mulVec_mulVec, mulVec_mulVec, mul_assoc, hQ, mul_one]

/-- Two decompositions of a matrix and of the turned matrix: functions of the two matrices
correspond too. -/
theorem decomp_comm {B B' : Matrix (Fin n) (Fin n) ℝ} {d d' : Fin n → ℝ} (hB : Bᵀ * B = 1)
    (hB' : B'ᵀ * B' = 1) (h : B' * diagonal d' * B'ᵀ = Q * (B * diagonal d * Bᵀ) * Qᵀ)
    (f : ℝ → ℝ) :
    (B'ᵀ * Q * B) * diagonal (fun i => f (d i)) = diagonal (fun i => f (d' i)) * (B'ᵀ * Q * B) := by
  have h1 : (B'ᵀ * Q * B) * diagonal d = diagonal d' * (B'ᵀ * Q * B) := by
    have e : B'ᵀ * (B' * diagonal d' * B'ᵀ) * (Q * B) =
        B'ᵀ * (Q * (B * diagonal d * Bᵀ) * Qᵀ) * (Q * B) := by rw [h]
    have e1 : B'ᵀ * (B' * diagonal d' * B'ᵀ) * (Q * B) = diagonal d' * (B'ᵀ * Q * B) := by
      calc _ = (B'ᵀ * B') * diagonal d' * (B'ᵀ * Q * B) := by simp only [mul_assoc]
        _ = _ := by rw [hB', one_mul]
    have e2 : B'ᵀ * (Q * (B * diagonal d * Bᵀ) * Qᵀ) * (Q * B) = (B'ᵀ * Q * B) * diagonal d := by
      calc _ = (B'ᵀ * Q * B) * diagonal d * Bᵀ * (Qᵀ * Q) * B := by simp only [mul_assoc]
        _ = (B'ᵀ * Q * B) * diagonal d * (Bᵀ * B) := by rw [hQ, mul_one]; simp only [mul_assoc]
        _ = _ := by rw [hB, mul_one]
    rw [← e1, ← e2, e]
  ext i j
  have h2 := congrFun (congrFun h1 i) j
  rw [mul_diagonal, diagonal_mul] at h2 ⊢
  by_cases h0 : (B'ᵀ * Q * B) i j = 0
  · rw [h0, zero_mul, mul_zero]
  · have : d j = d' i := by
      rw [mul_comm] at h2
      exact mul_right_cancel₀ h0 h2
    rw [this, mul_comm]

theorem decomp_fun {B B' : Matrix (Fin n) (Fin n) ℝ} {d d' : Fin n → ℝ} (hB : Bᵀ * B = 1)
    (hB' : B'ᵀ * B' = 1) (h : B' * diagonal d' * B'ᵀ = Q * (B * diagonal d * Bᵀ) * Qᵀ)
    (f : ℝ → ℝ) :
    B' * diagonal (fun i => f (d' i)) * B'ᵀ = Q * (B * diagonal (fun i => f (d i)) * Bᵀ) * Qᵀ := by
  have hc := decomp_comm hQ hB hB' h f
  have q1 := orth_comm hQ
  have b1 := orth_comm hB
  have b2 := orth_comm hB'
  have e : B' * (diagonal (fun i => f (d' i)) * (B'ᵀ * Q * B)) * (Bᵀ * Qᵀ) =
      B' * ((B'ᵀ * Q * B) * diagonal (fun i => f (d i))) * (Bᵀ * Qᵀ) := by rw [hc]
  calc _ = B' * diagonal (fun i => f (d' i)) * B'ᵀ * (Q * (B * Bᵀ) * Qᵀ) := by
        rw [b1, mul_one, q1, mul_one]
    _ = B' * (diagonal (fun i => f (d' i)) * (B'ᵀ * Q * B)) * (Bᵀ * Qᵀ) := by
        simp only [mul_assoc]
    _ = (B' * B'ᵀ) * (Q * (B * diagonal (fun i => f (d i)) * Bᵀ) * Qᵀ) := by
        rw [e]; simp only [mul_assoc]
    _ = _ := by rw [b2, one_mul]

theorem decomp_range_sub {B B' : Matrix (Fin n) (Fin n) ℝ} {d d' : Fin n → ℝ} (hB : Bᵀ * B = 1)
    (hB' : B'ᵀ * B' = 1) (h : B' * diagonal d' * B'ᵀ = Q * (B * diagonal d * Bᵀ) * Qᵀ) (i : Fin n) :
    ∃ j, d' i = d j := by
  have hc := decomp_comm hQ hB hB' h id
  by_contra hne
  push Not at hne
  have hz : ∀ j, (B'ᵀ * Q * B) i j = 0 := by
    intro j
    have h2 := congrFun (congrFun hc i) j
    rw [mul_diagonal, diagonal_mul] at h2
    simp only [id] at h2
    by_contra h0
    rw [mul_comm] at h2
    exact hne j (mul_right_cancel₀ h0 h2).symm
  have ho : (B'ᵀ * Q * B) * (Bᵀ * Qᵀ * B') = 1 := by
    calc _ = B'ᵀ * (Q * (B * Bᵀ) * Qᵀ) * B' := by simp only [mul_assoc]
      _ = 1 := by rw [orth_comm hB, mul_one, orth_comm hQ, mul_one, hB']
  have := congrFun (congrFun ho i) i
  rw [mul_apply] at this
  simp [hz] at this

theorem decomp_range {B B' : Matrix (Fin n) (Fin n) ℝ} {d d' : Fin n → ℝ} (hB : Bᵀ * B = 1)
    (hB' : B'ᵀ * B' = 1) (h : B' * diagonal d' * B'ᵀ = Q * (B * diagonal d * Bᵀ) * Qᵀ) :
    Set.range d' = Set.range d := by
  have hQt : Qᵀᵀ * Qᵀ = 1 := by rw [transpose_transpose]; exact orth_comm hQ
  have h' : B * diagonal d * Bᵀ = Qᵀ * (B' * diagonal d' * B'ᵀ) * Qᵀᵀ := by
    rw [h, transpose_transpose]
    calc _ = (Qᵀ * Q) * (B * diagonal d * Bᵀ) * (Qᵀ * Q) := by rw [hQ, one_mul, mul_one]
      _ = _ := by simp only [mul_assoc]
  refine Set.Subset.antisymm ?_ ?_
  · rintro _ ⟨i, rfl⟩
    obtain ⟨j, hj⟩ := decomp_range_sub hQ hB hB' h i
    exact ⟨j, hj.symm⟩
  · rintro _ ⟨i, rfl⟩
    obtain ⟨j, hj⟩ := decomp_range_sub hQt hB' hB h' i
    exact ⟨j, hj.symm⟩

end algebra

/-! ### States -/

/-- `r'` is `r`, turned by `Q`. -/
structure RotState (Q : Matrix (Fin n) (Fin n) ℝ) (r r' : RealState n) : Prop where
  mean : r'.mean = Q *ᵥ r.mean
  sigma : r'.sigma = r.sigma
  C : r'.C = Q * r.C * Qᵀ
  pathC : r'.pathC = Q *ᵥ r.pathC
  pathSigma : r'.pathSigma = Q *ᵥ r.pathSigma
  decomposed : r'.decomposed = Q * r.decomposed * Qᵀ

variable {Q : Matrix (Fin n) (Fin n) ℝ} {r r' : RealState n} {q : RealParams}

/-- The matrix by which the random vectors have to be turned. -/
noncomputable def drawTurn (Q : Matrix (Fin n) (Fin n) ℝ) (r r' : RealState n) :
    Matrix (Fin n) (Fin n) ℝ := r'.Bᵀ * Q * r.B

section
variable (hQ : Qᵀ * Q = 1) (h : RotState Q r r') (hg : r.Good) (hg' : r'.Good)
include hQ hg hg'

theorem drawTurn_orth : (drawTurn Q r r')ᵀ * drawTurn Q r r' = 1 := by
  unfold drawTurn
  rw [transpose_mul, transpose_mul, transpose_transpose]
  calc _ = r.Bᵀ * (Qᵀ * (r'.B * r'.Bᵀ) * Q) * r.B := by simp only [mul_assoc]
    _ = 1 := by rw [orth_comm hg'.orthonormal, mul_one, hQ, mul_one, hg.orthonormal]

include h

theorem transform_rot (z : Fin n → ℝ) :
    r'.transform *ᵥ (drawTurn Q r r' *ᵥ z) = Q *ᵥ (r.transform *ᵥ z) := by
  have hc := decomp_comm hQ hg.orthonormal hg'.orthonormal h.decomposed Real.sqrt
  rw [mulVec_mulVec, mulVec_mulVec]
  congr 1
  unfold RealState.transform drawTurn
  rw [mul_assoc, ← hc]
  calc _ = (r'.B * r'.Bᵀ) * (Q * (r.B * diagonal fun i => Real.sqrt (r.d i))) := by
        simp only [mul_assoc]
    _ = _ := by rw [orth_comm hg'.orthonormal, one_mul]

theorem invSqrt_rot : r'.invSqrt = Q * r.invSqrt * Qᵀ :=
  decomp_fun hQ hg.orthonormal hg'.orthonormal h.decomposed fun x => 1 / Real.sqrt x

theorem d_range : Set.range r'.d = Set.range r.d :=
  decomp_range hQ hg.orthonormal hg'.orthonormal h.decomposed

end

/-! ### One generation -/

theorem sum_map_mulVec (Q : Matrix (Fin n) (Fin n) ℝ) (l : List (Fin n → ℝ)) :
    (l.map (Q *ᵥ ·)).sum = Q *ᵥ l.sum := by
  induction l with
  | nil => simp
  | cons a l ih => rw [List.map_cons, List.sum_cons, List.sum_cons, ih, mulVec_add]

theorem step_rot (ys : List (Fin n → ℝ)) : q.step (ys.map (Q *ᵥ ·)) = Q *ᵥ q.step ys := by
  unfold RealParams.step
  rw [← sum_map_mulVec, List.zipWith_map_right, List.map_zipWith]
  congr 2
  funext a b
  rw [mulVec_smul]

theorem vecMulVec_rot (u : Fin n → ℝ) :
    vecMulVec (Q *ᵥ u) (Q *ᵥ u) = Q * vecMulVec u u * Qᵀ := by
  rw [mul_vecMulVec, vecMulVec_mul, vecMul_transpose]

section
variable (hQ : Qᵀ * Q = 1) (h : RotState Q r r') (hg : r.Good) (hg' : r'.Good)
  (ys : List (Fin n → ℝ)) (g : ℕ)
include hQ h hg hg'

theorem invSqrt_mulVec_rot (y : Fin n → ℝ) : r'.invSqrt *ᵥ (Q *ᵥ y) = Q *ᵥ (r.invSqrt *ᵥ y) := by
  rw [invSqrt_rot hQ h hg hg', conj_mulVec hQ]

theorem pathSigma_rot : q.pathSigma r' (ys.map (Q *ᵥ ·)) = Q *ᵥ q.pathSigma r ys := by
  unfold RealParams.pathSigma
  rw [step_rot, invSqrt_mulVec_rot hQ h hg hg', h.pathSigma, mulVec_add, mulVec_smul, mulVec_smul]

theorem hs_rot : q.hs r' g (ys.map (Q *ᵥ ·)) = q.hs r g ys := by
  unfold RealParams.hs
  rw [pathSigma_rot hQ h hg hg', orth_len hQ]

theorem pathC_rot : q.pathC r' g (ys.map (Q *ᵥ ·)) = Q *ᵥ q.pathC r g ys := by
  unfold RealParams.pathC
  rw [hs_rot hQ h hg hg', step_rot, h.pathC, mulVec_add, mulVec_smul, mulVec_smul]

theorem sigma_rot : q.sigma r' (ys.map (Q *ᵥ ·)) = q.sigma r ys := by
  unfold RealParams.sigma
  rw [pathSigma_rot hQ h hg hg', orth_len hQ, h.sigma]

theorem rankMu_rot : q.rankMu r' (ys.map (Q *ᵥ ·)) = Q * q.rankMu r ys * Qᵀ := by
  unfold RealParams.rankMu
  rw [List.zipWith_map_right]
  have key : ∀ w y, RealParams.covWeight r' w (Q *ᵥ y) • vecMulVec (Q *ᵥ y) (Q *ᵥ y) =
      Q * (RealParams.covWeight r w y • vecMulVec y y) * Qᵀ := by
    intro w y
    have : RealParams.covWeight r' w (Q *ᵥ y) = RealParams.covWeight r w y := by
      unfold RealParams.covWeight
      rw [invSqrt_mulVec_rot hQ h hg hg', orth_len hQ]
    rw [this, vecMulVec_rot, mul_smul_comm, smul_mul_assoc]
  simp only [key]
  generalize q.weights = ws
  induction ws generalizing ys with
  | nil => simp
  | cons w ws ih =>
    cases ys with
    | nil => simp
    | cons y ys =>
      rw [List.zipWith_cons_cons, List.zipWith_cons_cons, List.sum_cons, List.sum_cons, ih, mul_add,
        add_mul]

theorem cov_rot : q.cov r' g (ys.map (Q *ᵥ ·)) = Q * q.cov r g ys * Qᵀ := by
  unfold RealParams.cov
  rw [hs_rot hQ h hg hg', pathC_rot hQ h hg hg', rankMu_rot hQ h hg hg', h.C, vecMulVec_rot]
  simp only [mul_add, add_mul, mul_smul_comm, smul_mul_assoc]

omit hg hg' hQ in
theorem mean_rot : q.mean r' (ys.map (Q *ᵥ ·)) = Q *ᵥ q.mean r ys := by
  unfold RealParams.mean
  rw [step_rot, h.mean, h.sigma, mulVec_add, mulVec_smul]

/-- The states after one generation with turned steps. -/
theorem updated_rot {p : Parameters XR} {s s1 t t1 : State n XR} {r1 r1' : RealState n} {ev : ℕ}
    {ok ok' : Bool} (hgen : t.generation = s.generation)
    (hlast : t.lastEigenUpdateEvals = s.lastEigenUpdateEvals)
    (hu : Updated p q s s1 r r1 ys ev ok)
    (hu' : Updated p q t t1 r' r1' (ys.map (Q *ᵥ ·)) ev ok') :
    ok' = ok ∧ t1.generation = s1.generation ∧
      t1.lastEigenUpdateEvals = s1.lastEigenUpdateEvals ∧
      ∃ r2 r2', Rep s1 r2 ∧ r2.Good ∧ Rep t1 r2' ∧ r2'.Good ∧ RotState Q r2 r2' ∧
        (s.lastEigenUpdateEvals + evalsPerEigenUpdate p ≤ ev ∧ ok = true ∧ r2 = r1 ∧ r2' = r1' ∧
          Decomposes r2'.C r2'.B r2'.d ∧ s1.lastEigenUpdateEvals = ev ∨
          r2.B = r.B ∧ r2.d = r.d ∧ r2'.B = r'.B ∧ s1.lastEigenUpdateEvals = s.lastEigenUpdateEvals) := by
  have hC : r1'.C = Q * r1.C * Qᵀ := by
    rw [hu.cov, hu'.cov, hgen, cov_rot hQ h hg hg']
  have hm : r1'.mean = Q *ᵥ r1.mean := by rw [hu.mean, hu'.mean, mean_rot h]
  have hs : r1'.sigma = r1.sigma := by rw [hu.sigma, hu'.sigma, sigma_rot hQ h hg hg']
  have hpc : r1'.pathC = Q *ᵥ r1.pathC := by
    rw [hu.pathC, hu'.pathC, hgen, pathC_rot hQ h hg hg']
  have hps : r1'.pathSigma = Q *ᵥ r1.pathSigma := by
    rw [hu.pathSigma, hu'.pathSigma, pathSigma_rot hQ h hg hg']
  by_cases hdue : s.lastEigenUpdateEvals + evalsPerEigenUpdate p ≤ ev
  · obtain ⟨d1, d2, d3⟩ := hu.due hdue
    obtain ⟨d1', d2', d3'⟩ := hu'.due (by rw [hlast]; exact hdue)
    have hdec : r1'.B * diagonal r1'.d * r1'.Bᵀ = Q * (r1.B * diagonal r1.d * r1.Bᵀ) * Qᵀ := by
      rw [← d1.eq, ← d1'.eq, hC]
    have hrange := decomp_range hQ d1.orthonormal d1'.orthonormal hdec
    have hpos : (∀ i, 0 < r1'.d i) ↔ ∀ i, 0 < r1.d i := by
      rw [← Set.forall_mem_range (f := r1'.d) (p := fun x => 0 < x), hrange, Set.forall_mem_range]
    have hok : ok' = ok := by
      rw [Bool.eq_iff_iff, d2, d2', hpos]
    subst hok
    cases ok' with
    | true =>
      obtain ⟨e1, e2⟩ := hu.done rfl
      obtain ⟨e1', e2'⟩ := hu'.done rfl
      refine ⟨rfl, by rw [e2, e2', hgen], by rw [d3 rfl, d3' rfl], r1, r1', e1,
        ⟨d1.orthonormal, d2.mp rfl, hu.symm, hu.pos⟩, e1',
        ⟨d1'.orthonormal, d2'.mp rfl, hu'.symm, hu'.pos⟩, ⟨hm, hs, hC, hpc, hps, hdec⟩,
        .inl ⟨hdue, rfl, rfl, rfl, d1', d3 rfl⟩⟩
    | false =>
      obtain ⟨e1, e2, e3⟩ := hu.failed rfl
      obtain ⟨e1', e2', e3'⟩ := hu'.failed rfl
      refine ⟨rfl, by rw [e1, e1', hgen], by rw [e2, e2', hlast], _, _, e3,
        ⟨hg.orthonormal, hg.pos, hu.symm, hu.pos⟩, e3',
        ⟨hg'.orthonormal, hg'.pos, hu'.symm, hu'.pos⟩, ⟨hm, hs, hC, hpc, hps, h.decomposed⟩,
        .inr ⟨rfl, rfl, rfl, e2⟩⟩
  · obtain ⟨d1, d2, d3, d4⟩ := hu.notDue hdue
    obtain ⟨d1', d2', d3', d4'⟩ := hu'.notDue (by rw [hlast]; exact hdue)
    subst d3 d3'
    obtain ⟨e1, e2⟩ := hu.done rfl
    obtain ⟨e1', e2'⟩ := hu'.done rfl
    refine ⟨rfl, by rw [e2, e2', hgen], by rw [d4, d4', hlast], r1, r1', e1,
        ⟨by rw [d1]; exact hg.orthonormal, by rw [d2]; exact hg.pos, hu.symm, hu.pos⟩, e1',
        ⟨by rw [d1']; exact hg'.orthonormal, by rw [d2']; exact hg'.pos, hu'.symm, hu'.pos⟩,
        ⟨hm, hs, hC, hpc, hps, ?_⟩, .inr ⟨d1, d2, d1', d4⟩⟩
    have := h.decomposed
    unfold RealState.decomposed at this ⊢
    rw [d1, d2, d1', d2']
    exact this

end

end Cmaes
