import Verif.Lemmas.RealInv
import Verif.Props.NoPanic

/-!
# Progress in exact arithmetic, and concrete runs
-/

namespace Cmaes
set_option linter.unusedSectionVars false
variable {n : Nat} {R : Type} {env : Env n XR R} {obj : Obj n XR} {o : Options n XR}
  {t : List (NextCall n XR)} {c : CMAES n XR R}
open Matrix XR

/-- A `next` call with an objective that never returns NaN does not report
`InvalidFunctionValue`. -/
theorem not_failed (h : History.Of env obj o t c) (hv : ∀ log x, Flt.isNaN (obj.f log x) = false)
    {kind : EvalKind} {d : CMAES n XR R} {res : Option (TerminationData n XR)}
    (hn : c.next env kind = .ok (d, res)) :
    ¬ ∃ x, res = some x ∧ .invalidFunctionValue ∈ x.reasons := by
  intro hf
  obtain ⟨calls, hl⟩ : ∃ calls, d.sampler.obj.log = c.sampler.obj.log ++ calls := by
    obtain ⟨sres, hsam, _⟩ := next_core hn
    obtain ⟨_, calls, _, hlog, _⟩ := sample_cases hsam
    exact ⟨calls, hlog⟩
  obtain ⟨e, he, hne⟩ := (c11_nan hn hl).1.mp hf
  obtain ⟨gs, i, _⟩ := fresh_inv (h.next hn hl)
  have := i.faithful.values (P := fun v => Flt.isNaN v = false) (fun l x => by
    exact hv l x)
  rw [this e (by simp [allCalls, he])] at hne
  cases hne

/-- A `next` call that can be made completes a generation. -/
theorem exact_step (hx : ExactRun env o) (hs : rateSum o < 1) (h : History.Of env obj o t c)
    (hc : CanStep env obj o c) (he : SamplingEnds env o)
    (hv : ∀ log x, Flt.isNaN (obj.f log x) = false) (kind : EvalKind) :
    ∃ d res calls, c.next env kind = .ok (d, res) ∧
      d.sampler.obj.log = c.sampler.obj.log ++ calls ∧
      (¬ ∃ x, res = some x ∧ .invalidFunctionValue ∈ x.reasons) ∧
      d.generation = c.generation + 1 ∧
      History.Of env obj o (t ++ [{ kind, calls, result := res }]) d := by
  obtain ⟨d, res, hn⟩ := c26_returns h hc he kind
  obtain ⟨calls, hl⟩ : ∃ calls, d.sampler.obj.log = c.sampler.obj.log ++ calls := by
    obtain ⟨sres, hsam, _⟩ := next_core hn
    obtain ⟨_, calls, _, hlog, _⟩ := sample_cases hsam
    exact ⟨calls, hlog⟩
  have hd := h.next hn hl
  have hf := not_failed h hv hn
  refine ⟨d, res, calls, hn, hl, hf, ?_, hd⟩
  obtain ⟨r, x, i⟩ := exact_inv hx hs h
  rcases next_exact hx h i.rep i.good hn with ⟨h1, _⟩ | ⟨ys, r', ok, _, _, _, hu, _, _, _, _, hbad, _⟩
  · exact absurd ⟨_, h1, by simp [CMAES.terminationData]⟩ hf
  · cases ok with
    | true => exact (hu.done rfl).2
    | false =>
      obtain ⟨_, _, i'⟩ := exact_inv hx hs hd
      exact absurd ⟨_, hbad rfl, by simp [CMAES.terminationData]⟩
        (i'.noReport { kind, calls, result := res } (by simp))

theorem rates_lt_one (hn : n ≠ 0) {m : ℝ} (h1 : 1 ≤ m) (h2 : m ≤ (n + 2) ^ 2) :
    realC1 n m + realCmu n m < 1 := by
  have hn1 : (1 : ℝ) ≤ n := by exact_mod_cast Nat.one_le_iff_ne_zero.mpr hn
  have hlt : 2 * (m - 2 + 1 / m) / (((n : ℝ) + 2) ^ 2 + 2 * m / 2) < 1 - realC1 n m := by
    set K : ℝ := ((n : ℝ) + 2) ^ 2 with hK
    set L : ℝ := ((n : ℝ) + 13 / 10) ^ 2 with hL
    have hm : 0 < m := by linarith
    have hLpos : 0 < L + m := by positivity
    have hKm : 0 < K + 2 * m / 2 := by positivity
    have hinv : 1 / m ≤ 1 := by rw [div_le_one hm]; exact h1
    have e : 1 - realC1 n m = (L + m - 2) / (L + m) := by
      unfold realC1
      rw [← hL, eq_div_iff hLpos.ne', sub_mul, div_mul_cancel₀ _ hLpos.ne', one_mul]
    rw [e, div_lt_div_iff₀ hKm hLpos]
    have hKL : K = L + (14 / 10 * n + 231 / 100) := by rw [hK, hL]; ring
    have hL2 : n * n + 2 * n + 13 / 10 ≤ L := by rw [hL]; nlinarith
    have hK9 : 9 ≤ K := by rw [hK]; nlinarith
    by_cases hc : m ≤ K - 2
    · nlinarith
    · have hm7 : 7 ≤ m := by linarith
      have hinv' : 1 / m ≤ 1 / 7 := one_div_le_one_div_of_le (by norm_num) hm7
      nlinarith
  have := min_le_right (1 - realC1 n m)
    (2 * (m - 2 + 1 / m) / (((n : ℝ) + 2) ^ 2 + 2 * m / 2))
  unfold realCmu
  linarith

theorem rateSum_lt_one (hn : n ≠ 0) (h2 : 2 ≤ o.populationSize)
    (hl : o.populationSize ≤ 2 * (n + 2) ^ 2) : rateSum o < 1 := by
  refine rates_lt_one hn (one_le_realMuEff h2 _) ((realMuEff_le h2 _).trans ?_)
  have : o.populationSize / 2 ≤ (n + 2) ^ 2 := by omega
  exact_mod_cast this

/-! ### Concrete runs -/

open WitnessReal

theorem witness_exact (w : Weights) (lambda : ℕ) :
    ExactRun (renv 2) { opts with weights := w, populationSize := lambda } :=
  ⟨renv_exact, (renv_draws (by norm_num)).real, fun _ => renv_draws (by norm_num), _, rfl⟩

theorem witness_canStep (env : Env 2 XR Nat) (hm : ∀ l, ∃ v, env.medianNaN l = .ok v) (w : Weights)
    (lambda : ℕ) {c : CMAES 2 XR Nat} (hg : c.generation < 2 ^ 30 - 1) :
    CanStep env sphere { opts with weights := w, populationSize := lambda } c :=
  ⟨fun k hk => by simp [opts, Options.new] at hk, hg, fun k hk => by simp [opts, Options.new] at hk,
    fun k hk => by simp [opts, Options.new] at hk, .inl hm⟩

/-- With any weights and between 2 and 32 points the concrete run completes any number of
generations below `2^30 - 1`. -/
theorem witness_run (w : Weights) {lambda : ℕ} (h2 : 2 ≤ lambda) (hl : lambda ≤ 32) :
    ∀ k < 2 ^ 30, ∃ t c, History.Of (renv 2) sphere { opts with weights := w, populationSize := lambda }
      t c ∧ c.generation = k ∧ t.length = k := by
  intro k
  induction k with
  | zero =>
    intro _
    obtain ⟨c, hc⟩ := witness_builds w h2
    refine ⟨[], c, hc, ?_, rfl⟩
    obtain ⟨w, c0, h0, he⟩ := hc
    obtain ⟨gs, i, hi⟩ := fresh_inv ⟨w, c0, h0, he⟩
    have : gs = [] := by simpa using i.calls
    rw [this] at hi
    show c.state.generation = 0
    simpa using hi
  | succ k ih =>
    intro hk
    obtain ⟨t, c, hc, hg, ht⟩ := ih (by omega)
    obtain ⟨d, res, calls, _, _, _, hg', hd⟩ := exact_step (witness_exact w lambda)
      (rateSum_lt_one (by norm_num) h2 hl) hc
      (witness_canStep (renv 2) (fun l => ⟨_, rfl⟩) w lambda (by omega))
      (.inl ⟨rfl, by decide⟩) (fun log x => isNaN_fin _) .seq
    exact ⟨_, d, hd, by rw [hg', hg], by simp [ht]⟩

/-- The concrete run can always be continued: a further `next` call returns, does not report
`InvalidFunctionValue` and completes a generation. -/
theorem witness_next (w : Weights) {lambda : ℕ} (h2 : 2 ≤ lambda) (hl : lambda ≤ 32) {k : ℕ}
    (hk : k < 2 ^ 30 - 1) (kind : EvalKind) :
    ∃ t c d res calls,
      History.Of (renv 2) sphere { opts with weights := w, populationSize := lambda } t c ∧
      c.generation = k ∧ c.next (renv 2) kind = .ok (d, res) ∧
      d.sampler.obj.log = c.sampler.obj.log ++ calls ∧
      (¬ ∃ x, res = some x ∧ .invalidFunctionValue ∈ x.reasons) ∧ d.generation = k + 1 := by
  obtain ⟨t, c, hc, hg, ht⟩ := witness_run w h2 hl k (by omega)
  obtain ⟨d, res, calls, h1, h3, h4, hg', hd⟩ := exact_step (witness_exact w lambda)
    (rateSum_lt_one (by norm_num) h2 hl) hc
    (witness_canStep (renv 2) (fun l => ⟨_, rfl⟩) w lambda (by omega))
    (.inl ⟨rfl, by decide⟩) (fun log x => isNaN_fin _) kind
  exact ⟨t, c, d, res, calls, hc, hg, h1, h3, h4, by rw [hg', hg]⟩

/-! ### A singular update -/

/-- With 1024 points and positive weights the effective selection mass is at least 20. -/
theorem muEff_large : 20 ≤ realMuEff 1024 .positive := by
  have hlog : 0 < Real.log 2 := Real.log_pos (by norm_num)
  have hpos : ∀ x ∈ rawPos 1024 .positive, 0 < x := fun x hx => rawPos_pos hx
  have hsum : 256 * Real.log 2 ≤ (rawPos 1024 .positive).sum := by
    have e : rawPos 1024 .positive = (List.range 256).map (fun i => logWeight 1024 (i + 1)) ++
        ((List.range 256).map (256 + ·)).map (fun i => logWeight 1024 (i + 1)) := by
      rw [← List.map_append, ← List.range_add]; rfl
    rw [e] at hpos
    rw [e, List.sum_append]
    have h1 : 0 ≤ (((List.range 256).map (256 + ·)).map fun i => logWeight 1024 (i + 1)).sum :=
      List.sum_nonneg fun x hx => (hpos x (List.mem_append_right _ hx)).le
    have h2 := List.card_nsmul_le_sum ((List.range 256).map fun i => logWeight 1024 (i + 1))
      (Real.log 2) (by
        intro x hx
        obtain ⟨i, hi, rfl⟩ := List.mem_map.mp hx
        have hi : i < 256 := List.mem_range.mp hi
        have hi' : ((i + 1 : ℕ) : ℝ) ≤ 256 := by exact_mod_cast hi
        have hi0 : (0 : ℝ) < ((i + 1 : ℕ) : ℝ) := by positivity
        unfold logWeight
        rw [← Real.log_div (by norm_num) hi0.ne']
        apply Real.log_le_log (by norm_num)
        rw [le_div_iff₀ hi0]
        push_cast at hi' ⊢
        linarith)
    rw [List.length_map, List.length_range, nsmul_eq_mul] at h2
    push_cast at h2
    linarith
  have hle : ∀ x ∈ rawPos 1024 .positive, x ^ 2 ≤ 10 * Real.log 2 * x := by
    intro x hx
    have h0 := hpos x hx
    have : x ≤ 10 * Real.log 2 := by
      obtain ⟨i, _, rfl⟩ := List.mem_map.mp hx
      have h1 : 0 ≤ Real.log ((i + 1 : ℕ) : ℝ) := Real.log_natCast_nonneg _
      have h2 : Real.log (((1024 : ℕ) + 1 : ℝ) / 2) ≤ 10 * Real.log 2 := by
        rw [show (10 : ℝ) * Real.log 2 = Real.log (2 ^ (10 : ℕ)) by rw [Real.log_pow]; norm_num]
        exact Real.log_le_log (by norm_num) (by norm_num)
      unfold logWeight
      linarith
    nlinarith
  have hsq : ((rawPos 1024 .positive).map fun x => x ^ 2).sum ≤
      10 * Real.log 2 * (rawPos 1024 .positive).sum := by
    have e : 10 * Real.log 2 * (rawPos 1024 .positive).sum =
        ((rawPos 1024 .positive).map fun x => 10 * Real.log 2 * x).sum := by
      rw [List.sum_map_mul_left, List.map_id']
    rw [e]
    exact List.sum_le_sum hle
  have hs0 : 0 < (rawPos 1024 .positive).sum := by linarith [mul_pos (by norm_num : (0:ℝ) < 256) hlog]
  have hq0 : 0 < ((rawPos 1024 .positive).map fun x => x ^ 2).sum := by
    obtain ⟨x, hx⟩ := List.exists_mem_of_ne_nil _ (rawPos_ne_nil (by norm_num : 2 ≤ 1024) .positive)
    exact sum_sq_pos ⟨x, hx, (hpos x hx).ne'⟩
  unfold realMuEff effMass
  rw [le_div_iff₀ hq0]
  nlinarith

theorem rateSum_large {m : ℝ} (h : 20 ≤ m) : realC1 2 m + realCmu 2 m = 1 := by
  obtain ⟨h1, _⟩ := realC1_pos (n := 2) (by norm_num) (by linarith : (1 : ℝ) ≤ m)
  have : 1 - realC1 2 m ≤ 2 * (m - 2 + 1 / m) / (((2 : ℕ) + 2 : ℝ) ^ 2 + 2 * m / 2) := by
    have h2 : 0 < 1 / m := by positivity
    rw [le_div_iff₀ (by positivity)]
    push_cast
    nlinarith
  unfold realCmu
  rw [min_eq_left this]
  ring

/-- If all steps of the first generation are the same short vector and `c1 + cmu = 1`, the new
matrix vanishes on the vectors orthogonal to it. -/
theorem singular_update {q : RealParams} {w : Weights} {lambda : ℕ} (hq : q.Ok 2 lambda w)
    (hs : q.c1 + q.cmu = 1) (hneg : w ≠ .negative) (hcs : 0 < q.cs) (hcs' : q.cs < 1)
    (hm0 : 0 ≤ q.muEff) (hm : q.muEff ≤ 1024) (hcc : 0 < q.cc) {m : Fin 2 → ℝ} {s : ℝ}
    {ys : List (Fin 2 → ℝ)} (hy : ∀ y ∈ ys, y = fun _ => 1 / 1000) (hmu : q.mu ≤ ys.length)
    (hmu' : q.mu ≤ q.weights.length) :
    quad (q.cov ⟨m, s, 1, 0, 0, 1, fun _ => 1⟩ 0 ys) ![1, -1] = 0 := by
  set r : RealState 2 := ⟨m, s, 1, 0, 0, 1, fun _ => 1⟩ with hr
  set z : Fin 2 → ℝ := fun _ => 1 / 1000 with hz
  have hinv : r.invSqrt = 1 := by simp [hr, RealState.invSqrt]
  have hys : ys = List.replicate ys.length z := List.eq_replicate_of_mem hy
  have hzip : ∀ (l : List ℝ) (k : ℕ), l.length ≤ k →
      (List.zipWith (· • ·) l (List.replicate k z)).sum = l.sum • z := by
    intro l
    induction l with
    | nil => simp
    | cons a l ih =>
      intro k hk
      cases k with
      | zero => simp at hk
      | succ k =>
        rw [List.replicate_succ, List.zipWith_cons_cons, List.sum_cons, List.sum_cons,
          ih k (by simpa using hk), add_smul]
  have hstep : q.step ys = z := by
    unfold RealParams.step
    rw [hys, hzip _ _ (by rw [List.length_take, min_eq_left hmu']; exact hmu), hq.pos_sum, one_smul]
  have hzz : z ⬝ᵥ z = 2 / 10 ^ 6 := by
    rw [hz]; simp [dotProduct]; norm_num
  have hvz : (![1, -1] : Fin 2 → ℝ) ⬝ᵥ z = 0 := by
    rw [hz]; simp [dotProduct, Fin.sum_univ_two]
  have hA : 0 < q.cs * (2 - q.cs) := mul_pos hcs (by linarith)
  have hps : q.pathSigma r ys = Real.sqrt (q.cs * (2 - q.cs) * q.muEff) • z := by
    unfold RealParams.pathSigma
    rw [hstep, hinv, one_mulVec]
    simp [hr]
  have hhs : q.hs r 0 ys = 1 := by
    unfold RealParams.hs
    rw [if_pos]
    rw [hps]
    have h1 : len (Real.sqrt (q.cs * (2 - q.cs) * q.muEff) • z) =
        Real.sqrt (q.cs * (2 - q.cs)) * Real.sqrt (q.muEff * (2 / 10 ^ 6)) := by
      unfold len
      rw [smul_dotProduct, dotProduct_smul, hzz, smul_eq_mul, smul_eq_mul, ← mul_assoc,
        Real.mul_self_sqrt (by positivity), ← Real.sqrt_mul hA.le]
      congr 1
      ring
    have h2 : 1 - (1 - q.cs) ^ (2 * (0 + 1)) = q.cs * (2 - q.cs) := by ring
    rw [h1, h2, mul_div_right_comm, div_self (Real.sqrt_pos.mpr hA).ne', one_mul]
    have h3 : Real.sqrt (q.muEff * (2 / 10 ^ 6)) ≤ 1 := by
      rw [Real.sqrt_le_one]
      linarith
    have h4 : (1 : ℝ) ≤ Real.sqrt (2 : ℕ) := by rw [Real.one_le_sqrt]; norm_num
    have h5 : (1 : ℝ) < (14 / 10 + 2 / ((2 : ℕ) + 1)) * realChi 2 := by
      unfold realChi
      push_cast at h4 ⊢
      nlinarith
    linarith
  have hpc : q.pathC r 0 ys = (q.hs r 0 ys * Real.sqrt (q.cc * (2 - q.cc) * q.muEff)) • z := by
    unfold RealParams.pathC
    rw [hstep]
    simp [hr]
  have hrank : quad (q.rankMu r ys) ![1, -1] = 0 := by
    unfold RealParams.rankMu
    rw [quad_sum]
    apply List.sum_eq_zero
    intro x hx
    obtain ⟨A, hA', rfl⟩ := List.mem_map.mp hx
    obtain ⟨i, hi, rfl⟩ := List.mem_iff_getElem.mp hA'
    rw [List.getElem_zipWith, quad_smul, quad_vecMulVec, hy _ (List.getElem_mem _), hvz]
    simp
  have hnegs : negSum q.weights = 0 := negSum_of_nonneg (hq.nonneg hneg)
  unfold RealParams.cov
  rw [quad_add, quad_add, quad_smul, quad_smul, quad_smul, quad_vecMulVec, hrank, hpc, hhs,
    dotProduct_smul, hvz, hq.sum, hnegs]
  have : 1 + q.c1 * ((1 - 1) * q.cc * (2 - q.cc)) - q.c1 - q.cmu * (1 + 0) = 0 := by
    linarith
  rw [this]
  simp

end Cmaes
