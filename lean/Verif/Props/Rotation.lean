import Verif.Lemmas.RotationRun
import Verif.Lemmas.RealStep
import Verif.Props.Stream

/-!
# C78: turning the search space
-/

set_option linter.unusedSectionVars false

namespace Cmaes
variable {n : Nat} {R R' : Type} {Q : Matrix (Fin n) (Fin n) ℝ}
  {env : Env n XR R} {obj obj' : Obj n XR} {o o' : Options n XR} {t : List (NextCall n XR)}
  {c : CMAES n XR R} {eigen : Mat n XR → Option (Mat n XR × Vec n XR)}
open Matrix

theorem RunTurn.of_sameRun {c d : CMAES n XR R} {c' : CMAES n XR R'} (h : RunTurn Q eigen c c')
    (s : SameRun c d) : RunTurn Q eigen d c' :=
  ⟨by rw [s.sampler]; exact h.sampler, by rw [s.parameters]; exact h.parameters,
    by rw [s.history]; exact h.history, by rw [s.state]; exact h.state,
    by rw [s.timeCreated]; exact h.timeCreated, by rw [s.steps]; exact h.steps,
    by rw [s.clockReads]; exact h.clockReads, h.plot, h.printGapEvals⟩

/-- The two fresh optimizers. -/
theorem fresh_turn (hQ : Qᵀ * Q = 1) (hx : ExactRun env o) (ho : TurnedOptions Q o o')
    (hobj : ObjTurn Q obj obj') {w : World n XR} (h0 : CMAES.new env w obj o = .ok c)
    (env' : Env n XR R') (hse : SameSurroundings env env') :
    ∃ c', CMAES.new env' w obj' o' = .ok c' ∧ RunTurn Q env'.eigen c c' ∧
      c'.sampler.rng = env'.rng.seed c.parameters.seed := by
  obtain ⟨m, hm⟩ := hx.mean
  obtain ⟨s, hs, hr, hg, hl, _⟩ := fresh_rep h0 hm
  obtain ⟨hv, rfl⟩ := new_eq_ok h0
  have hv' : CMAES.validate o' = none := by
    rw [ho.rest]; exact hv
  have h0' : CMAES.new env' w obj' o' = .ok (CMAES.create env' w obj' o') := by
    unfold CMAES.new
    rw [hv']
  have hm' : o'.initialMean = Vec.fin (Q *ᵥ m) := by
    rw [ho.rest]
    show turn Q o.initialMean = _
    rw [hm, turn_fin]
  obtain ⟨s', hs', hr', hg', hl', _⟩ := fresh_rep h0' hm'
  obtain ⟨a1, a2, a3, a4, a5, a6, a7, a8, -⟩ := create_search env w obj o
  obtain ⟨b1, b2, b3, b4, b5, b6, b7, b8, -⟩ := create_search env' w obj' o'
  have hseed : o'.seed.getD env'.randomSeed = o.seed.getD env.randomSeed := by
    rw [ho.rest, hse.randomSeed]
  have hss : s' = s := by
    have e1 := hr.sigma
    have e2 := hr'.sigma
    rw [a3] at e1
    rw [b3, ho.rest] at e2
    have : (Ext.fin s' : XR) = Ext.fin s := e2.symm.trans e1
    injection this
  have hgood : ∀ (u : Fin n → ℝ), RealState.Good (⟨u, s, 1, 0, 0, 1, fun _ => 1⟩ : RealState n) :=
    fun u => ⟨by simp, fun _ => one_pos, by simp, hs⟩
  refine ⟨_, h0', ⟨?_, ?_, ?_, ⟨_, _, ⟨hr, hgood _, hss ▸ hr', hgood _, ?_, ?_, hg'.trans hg.symm,
    hl'.trans hl.symm⟩⟩, ?_, ?_, ?_, ?_, ?_⟩, ?_⟩
  · rw [a1, b1]
    refine ⟨ho.constraints, ?_, ?_, rfl, hobj⟩ <;> (rw [ho.rest]; rfl)
  · rw [a2, b2, hseed, ho.rest]; rfl
  · rw [a4, b4]; rfl
  · refine ⟨rfl, rfl, ?_, ?_, ?_, ?_⟩
    · simp [orth_comm hQ]
    · simp
    · simp
    · simp [RealState.decomposed, orth_comm hQ]
  · unfold turnedBasis
    rw [if_pos hl]
  · rw [a6, b6, hse.clock]
  · rw [a8, b8]
  · rw [a7, b7]
  · have e1 : o'.plotOptions = none := by rw [ho.rest]
    have e2 : o'.printGapEvals = none := by rw [ho.rest]
    simp [CMAES.create, CMAES.addPlotPoint, e1, e2]
  · rw [b5, ho.rest]
  · rw [b1, a2, hseed]; rfl

/-- A run and its turned run, with the internal state of both. -/
theorem rotation_run (hQ : Qᵀ * Q = 1) (hx : ExactRun env o) (he : ExactSolver eigen)
    (ho : TurnedOptions Q o o') (hobj : ObjTurn Q obj obj') {w : World n XR} {c0 : CMAES n XR R}
    (h0 : CMAES.new env w obj o = .ok c0) (hex : Exec env c0 t c) :
    ∃ (cs : Nat → CMAES n XR R) (N : Nat → Nat), N 0 = 0 ∧ Monotone N ∧
      (∀ (j : Nat) (s : NextCall n XR), t[j]? = some s → History.Of env obj o (t.take j) (cs j) ∧
        ∃ d, (cs j).next env s.kind = .ok (d, s.result) ∧ Exec env d (t.drop (j + 1)) c) ∧
      c.sampler.rng = env.rng.after (env.rng.seed c.parameters.seed) (N t.length * n) ∧
      ∀ {R' : Type} (env' : Env n XR R'), env'.eigen = eigen → SameSurroundings env env' →
        TurnsDraws (drawTurnOf Q eigen) env env' c.parameters.seed (fun j => (cs j).state) N
          t.length →
        ∃ t' c0' c', CMAES.new env' w obj' o' = .ok c0' ∧ Exec env' c0' t' c' ∧
          List.Forall₂ (TurnedCall Q) t t' ∧ RunTurn Q eigen c c' ∧
          c'.sampler.rng = env'.rng.after (env'.rng.seed c.parameters.seed) (N t.length * n) := by
  induction hex with
  | refl =>
    refine ⟨fun _ => c0, fun _ => 0, rfl, monotone_const, by simp, ?_, ?_⟩
    · obtain ⟨hv, rfl⟩ := new_eq_ok h0
      obtain ⟨a1, a2, -⟩ := create_search env w obj o
      rw [a1, a2, Nat.zero_mul]
      rfl
    · intro R' env' h1 h2 _
      obtain ⟨c', e1, e2, e3⟩ := fresh_turn hQ hx ho hobj h0 env' h2
      refine ⟨[], c', c', e1, .refl _, .nil, h1 ▸ e2, ?_⟩
      rw [e3, Nat.zero_mul]
      rfl
  | next he' hn hl ih =>
    rename_i c1 c2 t1 kind calls r
    obtain ⟨cs, N, b1, b2, b3, b4, b5⟩ := ih
    have hO : History.Of env obj o t1 c1 := ⟨w, c0, h0, he'⟩
    have hpar : c2.parameters = c1.parameters := (next_core hn).choose_spec.2.1
    obtain ⟨k', d1, d2, d3⟩ := next_turn (Q := Q) hQ hx hO b4 hn
    refine ⟨fun j => if j < t1.length then cs j else c1,
      fun j => if j ≤ t1.length then N j else k', by simpa using b1, ?_, ?_, ?_, ?_⟩
    · intro a b hab
      show (if a ≤ t1.length then N a else k') ≤ (if b ≤ t1.length then N b else k')
      by_cases hb : b ≤ t1.length
      · rw [if_pos hb, if_pos (hab.trans hb)]
        exact b2 hab
      · rw [if_neg hb]
        by_cases ha : a ≤ t1.length
        · rw [if_pos ha]
          exact (b2 ha).trans d1
        · rw [if_neg ha]
    · intro j s hs
      by_cases hj : j < t1.length
      · rw [List.getElem?_append_left hj] at hs
        obtain ⟨e1, d, e2, e3⟩ := b3 j s hs
        refine ⟨?_, d, ?_, ?_⟩
        · rw [List.take_append_of_le_length hj.le]
          simpa only [if_pos hj] using e1
        · simpa only [if_pos hj] using e2
        · rw [List.drop_append_of_le_length hj]
          exact e3.next hn hl
      · rw [List.getElem?_append_right (by omega)] at hs
        have hj' : j = t1.length := by
          by_contra hne
          rw [List.getElem?_eq_none (by simp; omega)] at hs
          cases hs
        subst hj'
        rw [Nat.sub_self] at hs
        injection hs with hs
        subst hs
        refine ⟨?_, c2, ?_, ?_⟩
        · rw [List.take_left' rfl]
          simpa using hO
        · simpa using hn
        · rw [List.drop_of_length_le (by simp)]
          exact .refl c2
    · rw [hpar, d2]
      simp
    · intro R' env' h1 h2 hdeal
      rw [hpar] at hdeal ⊢
      obtain ⟨t', c0', c1', e1, e2, e3, e4, e5⟩ := b5 env' h1 h2 fun j hj k hk hk' z hz => by
        have := hdeal j (by simp; omega) k (by show (if _ then _ else _) ≤ _; rw [if_pos hj.le]; exact hk)
          (by show _ < if _ then _ else _; rw [if_pos (Nat.succ_le_of_lt hj)]; exact hk') z hz
        simpa only [if_pos hj] using this
      obtain ⟨c2', res', f1, f2, f3, f4⟩ := d3 env' (env'.rng.seed c1.parameters.seed) c1'
        (h1 ▸ he) h2 (h1 ▸ e4) e5 fun j hj hj' z hz => by
          have := hdeal t1.length (by simp) j (by show (if _ then _ else _) ≤ _; rw [if_pos le_rfl]; exact hj)
            (by show _ < if _ then _ else _; rw [if_neg (by omega)]; exact hj') z hz
          rw [h1]
          simpa only [if_neg (lt_irrefl _)] using this
      have hlog' : c2'.sampler.obj.log = c1'.sampler.obj.log ++ moveCalls (turn Q) calls := by
        rw [f2.sampler.obj.log, hl, e4.sampler.obj.log, moveCalls_append]
      refine ⟨_, c0', c2', e1, e2.next f1 hlog', ?_, h1 ▸ f2, ?_⟩
      · exact List.rel_append e3 (.cons ⟨rfl, rfl, f4⟩ .nil)
      · rw [f3]; simp
  | quiet he' hq ha ih =>
    rename_i c1 c2 t1 op r
    obtain ⟨cs, N, b1, b2, b3, b4, b5⟩ := ih
    have s := (Exec.quiet (.refl _) hq ha).nil_sameRun
    refine ⟨cs, N, b1, b2, fun j q hj => ?_, by rw [s.sampler, s.parameters, b4], ?_⟩
    · obtain ⟨e1, d, e2, e3⟩ := b3 j q hj
      exact ⟨e1, d, e2, e3.quiet hq ha⟩
    · intro R' env' h1 h2 hdeal
      rw [s.parameters] at hdeal ⊢
      obtain ⟨t', c0', c1', e1, e2, e3, e4, e5⟩ := b5 env' h1 h2 hdeal
      exact ⟨t', c0', c1', e1, e2, e3, e4.of_sameRun s, e5⟩

/-- **C78.** The search does not depend on the choice of orthonormal coordinates. Let `Q` be an
orthogonal matrix, and let objective function, initial mean and constraints of a second problem be
those of the first, turned by `Q`. There is a function `O` from states to orthogonal matrices (it
depends on the eigensolver `eigen` used for the second problem) such that for every run on the first
problem, in exact arithmetic, the following holds. Turn each random vector of the run by the matrix
that `O` assigns to the state in which the vector is drawn: it is fixed before the vector is drawn,
and a standard normal vector turned by a fixed orthogonal matrix is again standard normal. With
these random numbers the second problem has a run that makes the same calls to the objective
function, on the turned points, returns the same reasons for termination up to those that look at
single coordinates (`TolX`, `NoEffectCoord`), and ends in the turned state: mean and individuals are
turned, the covariance matrix `C` is `Q C Qᵀ`, step size, axis ratio and counters are equal. Both
runs may use any eigensolver that is exact. -/
theorem c78_rotation (hQ : Qᵀ * Q = 1) (hx : ExactRun env o) (he : ExactSolver eigen)
    (ho : TurnedOptions Q o o') (hf : TurnedObjective Q obj.f obj'.f)
    (hreal : ∀ e ∈ obj.log, RealPoint e.1) (hlog : obj'.log = moveCalls (turn Q) obj.log) :
    ∃ O : State n XR → Matrix (Fin n) (Fin n) ℝ, (∀ s, (O s)ᵀ * O s = 1) ∧
      ∀ t c, History.Of env obj o t c →
        ∃ (cs : Nat → CMAES n XR R) (N : Nat → Nat), N 0 = 0 ∧ Monotone N ∧
          (∀ (j : Nat) (s : NextCall n XR), t[j]? = some s → History.Of env obj o (t.take j) (cs j) ∧
            ∃ d, (cs j).next env s.kind = .ok (d, s.result) ∧ Exec env d (t.drop (j + 1)) c) ∧
          ∀ {R' : Type} (env' : Env n XR R'), env'.eigen = eigen → SameSurroundings env env' →
            TurnsDraws O env env' c.parameters.seed (fun j => (cs j).state) N t.length →
            ∃ t' c', History.Of env' obj' o' t' c' ∧ List.Forall₂ (TurnedCall Q) t t' ∧
              TurnedRun Q c c' := by
  refine ⟨drawTurnOf Q eigen, drawTurnOf_orth Q eigen, ?_⟩
  rintro t c ⟨w, c0, h0, hex⟩
  have hn0 : n ≠ 0 := (params_rep ⟨w, c0, h0, .refl _⟩).1.dim_ne
  obtain ⟨cs, N, b1, b2, b3, -, b5⟩ := rotation_run hQ hx he ho ⟨hf, hreal, hlog⟩ h0 hex
  refine ⟨cs, N, b1, b2, b3, fun env' h1 h2 h3 => ?_⟩
  obtain ⟨t', c0', c', e1, e2, e3, e4, -⟩ := b5 env' h1 h2 h3
  exact ⟨t', c', ⟨w, c0', e1, e2⟩, e3, e4.turnedRun hQ hn0⟩

/-! ### The turned run exists -/

/-- A generator that returns the given vectors one after the other. -/
noncomputable def listRng (n : Nat) (z : Nat → Fin n → ℝ) : RngOps Nat XR where
  seed _ := 0
  normal k := (.fin (if h : k % n < n then z (k / n) ⟨k % n, h⟩ else 0), k + 1)
  unit k := (.fin 0, k + 1)
  u64 k := (0, k + 1)
  uniform lo _ k := (lo, k + 1)

theorem listRng_vector (hn : n ≠ 0) (z : Nat → Fin n → ℝ) (s k : Nat) :
    (listRng n z).vector (n := n) ((listRng n z).seed s) k = Vec.fin (z k) := by
  have ha : ∀ m, (listRng n z).after 0 m = m := by
    intro m
    induction m with
    | zero => rfl
    | succ m ih => rw [RngOps.after, ih]; rfl
  funext i
  show ((listRng n z).normal ((listRng n z).after 0 (k * n + i))).1 = _
  rw [ha]
  show Ext.fin _ = Ext.fin _
  have h1 : (k * n + (i : Nat)) % n = i := by
    rw [Nat.mul_comm, Nat.mul_add_mod, Nat.mod_eq_of_lt i.isLt]
  have h2 : (k * n + (i : Nat)) / n = k := by
    rw [Nat.mul_comm, Nat.mul_add_div (Nat.pos_of_ne_zero hn), Nat.div_eq_of_lt i.isLt, Nat.add_zero]
  rw [dif_pos (by rw [h1]; exact i.isLt)]
  congr 1
  have e : (⟨(k * n + (i : Nat)) % n, by rw [h1]; exact i.isLt⟩ : Fin n) = i := Fin.ext h1
  rw [e, h2]

open Classical in
/-- **C78, for every run.** Every run has a turned run. -/
theorem c78_exists (hQ : Qᵀ * Q = 1) (hx : ExactRun env o) (he : ExactSolver eigen)
    (ho : TurnedOptions Q o o') (hf : TurnedObjective Q obj.f obj'.f)
    (hreal : ∀ e ∈ obj.log, RealPoint e.1) (hlog : obj'.log = moveCalls (turn Q) obj.log)
    (h : History.Of env obj o t c) :
    ∃ (env' : Env n XR Nat) (t' : List (NextCall n XR)) (c' : CMAES n XR Nat),
      env'.eigen = eigen ∧ SameSurroundings env env' ∧ History.Of env' obj' o' t' c' ∧
      List.Forall₂ (TurnedCall Q) t t' ∧ TurnedRun Q c c' := by
  obtain ⟨O, -, H⟩ := c78_rotation hQ hx he ho hf hreal hlog
  obtain ⟨cs, N, -, hmono, -, hrun⟩ := H t c h
  have hn0 : n ≠ 0 := (params_rep h).1.dim_ne
  have hdraw : ∀ k, ∃ z : Fin n → ℝ,
      env.rng.vector (n := n) (env.rng.seed c.parameters.seed) k = Vec.fin z := by
    intro k
    rw [vector_draw, drawVec_eq]
    exact hx.draws _
  choose z hz using hdraw
  let call : Nat → Nat := fun k => if h : ∃ j, N j ≤ k ∧ k < N (j + 1) then h.choose else 0
  have hcall : ∀ j k, N j ≤ k → k < N (j + 1) → call k = j := by
    intro j k h1 h2
    have h : ∃ j, N j ≤ k ∧ k < N (j + 1) := ⟨j, h1, h2⟩
    show (if h : ∃ j, N j ≤ k ∧ k < N (j + 1) then h.choose else 0) = j
    rw [dif_pos h]
    obtain ⟨e1, e2⟩ := h.choose_spec
    rcases lt_trichotomy h.choose j with hlt | heq | hgt
    · have := hmono (Nat.succ_le_of_lt hlt)
      simp only [Nat.succ_eq_add_one] at this
      omega
    · exact heq
    · have := hmono (Nat.succ_le_of_lt hgt)
      simp only [Nat.succ_eq_add_one] at this
      omega
  let env' : Env n XR Nat :=
    { rng := listRng n fun k => O (cs (call k)).state *ᵥ z k
      restartRng := listRng n fun _ => 0
      eigen
      clock := env.clock
      sched := env.sched
      redTree := env.redTree
      medianNaN := env.medianNaN
      randomSeed := env.randomSeed
      resampleFuel := env.resampleFuel
      runFuel := env.runFuel
      restartFuel := env.restartFuel }
  have hse : SameSurroundings env env' := ⟨rfl, rfl, rfl, rfl, rfl⟩
  obtain ⟨t', c', e1, e2, e3⟩ := hrun env' rfl hse fun j _ k h1 h2 z0 hz0 => by
    have : z k = z0 := Vec.fin_injective ((hz k).symm.trans hz0)
    rw [← this, ← hcall j k h1 h2]
    exact listRng_vector hn0 (fun k => O (cs (call k)).state *ᵥ z k) _ _
  exact ⟨env', t', c', rfl, hse, e1, e2, e3⟩

/-! ### A concrete case -/

theorem turn_turn (hQ : Qᵀ * Q = 1) {x : Vec n XR} (hx : RealPoint x) : turn Qᵀ (turn Q x) = x := by
  obtain ⟨u, rfl⟩ := hx
  rw [turn_fin, turn_fin, mulVec_mulVec, hQ, one_mulVec]

theorem moveCalls_turn_turn (hQ : Qᵀ * Q = 1) {l : List (Vec n XR × XR)}
    (hl : ∀ e ∈ l, RealPoint e.1) : moveCalls (turn Qᵀ) (moveCalls (turn Q) l) = l := by
  induction l with
  | nil => rfl
  | cons e l ih =>
    have h1 := turn_turn hQ (hl e (by simp))
    have h2 := ih fun e he => hl e (by simp [he])
    unfold moveCalls at h2 ⊢
    simp only [List.map_cons, List.map_map] at h2 ⊢
    rw [h2]
    simp only [h1]

/-- Every objective function has a turned one. -/
theorem turnedObjective (hQ : Qᵀ * Q = 1) (f : List (Vec n XR × XR) → Vec n XR → XR) :
    TurnedObjective Q f fun log y => f (moveCalls (turn Qᵀ) log) (turn Qᵀ y) := by
  intro log x hl hx
  show f (moveCalls (turn Qᵀ) (moveCalls (turn Q) log)) (turn Qᵀ (turn Q x)) = _
  rw [moveCalls_turn_turn hQ hl, turn_turn hQ hx]

section
open WitnessReal

/-- A rotation of the plane that mixes the coordinates. -/
noncomputable def rotation : Matrix (Fin 2) (Fin 2) ℝ := !![3 / 5, -4 / 5; 4 / 5, 3 / 5]

theorem rotation_orth : rotationᵀ * rotation = 1 := by
  ext i j
  fin_cases i <;> fin_cases j <;> simp [rotation, Matrix.mul_apply, Fin.sum_univ_two] <;> norm_num

/-- The squares of the coordinates with different weights: a function that changes if the plane is
turned. -/
noncomputable def ellipsoid : Obj 2 XR :=
  { f := fun _ x => .fin (realValue (x 0) ^ 2 + 100 * realValue (x 1) ^ 2), log := [] }

/-- The ellipsoid, turned. -/
noncomputable def turnedEllipsoid : Obj 2 XR :=
  { f := fun log y => ellipsoid.f (moveCalls (turn rotationᵀ) log) (turn rotationᵀ y), log := [] }

/-- The two functions differ, also on real points. -/
theorem turnedEllipsoid_ne : turnedEllipsoid.f [] (Vec.fin ![1, 0]) ≠ ellipsoid.f [] (Vec.fin ![1, 0]) := by
  intro h
  have h' : realValue (turnedEllipsoid.f [] (Vec.fin ![1, 0])) =
      realValue (ellipsoid.f [] (Vec.fin ![1, 0])) := by rw [h]
  simp [turnedEllipsoid, ellipsoid, turn, Vec.fin, realValue, rotation, mulVec, dotProduct,
    Fin.sum_univ_two] at h'
  norm_num at h'

theorem ellipsoid_run : ∀ k < 2 ^ 30, ∃ t c, History.Of (renv 2) ellipsoid
    { opts with weights := .negative, populationSize := 6 } t c ∧ c.generation = k ∧ t.length = k := by
  intro k
  induction k with
  | zero =>
    intro _
    obtain ⟨c, hc⟩ := witness_builds .negative (lambda := 6) (by norm_num)
    obtain ⟨w, c0, h0, -⟩ := hc
    obtain ⟨hv, -⟩ := new_eq_ok h0
    have h0' : CMAES.new (renv 2) w ellipsoid { opts with weights := .negative, populationSize := 6 } =
        .ok (CMAES.create (renv 2) w ellipsoid
          { opts with weights := .negative, populationSize := 6 }) := by
      unfold CMAES.new
      rw [hv]
    obtain ⟨-, -, a3, -⟩ := create_search (renv 2) w ellipsoid
      { opts with weights := .negative, populationSize := 6 }
    refine ⟨[], _, ⟨w, _, h0', .refl _⟩, ?_, rfl⟩
    show (CMAES.create _ _ _ _).state.generation = 0
    rw [a3]
    rfl
  | succ k ih =>
    intro hk
    obtain ⟨t, c, hc, hg, ht⟩ := ih (by omega)
    obtain ⟨d, res, calls, _, _, _, hg', hd⟩ := exact_step (witness_exact .negative 6)
      (rateSum_lt_one (by norm_num) (by norm_num) (by norm_num)) hc
      ⟨fun k hk => by simp [opts, Options.new] at hk, by rw [hg]; omega,
        fun k hk => by simp [opts, Options.new] at hk, fun k hk => by simp [opts, Options.new] at hk,
        .inl fun l => ⟨_, rfl⟩⟩ (.inl ⟨rfl, by decide⟩) (fun log x => XR.isNaN_fin _) .seq
    exact ⟨_, d, hd, by rw [hg', hg], by simp [ht]⟩

/-- A thousand generations on the ellipsoid have their counterpart on the turned ellipsoid. -/
example : ∃ (t : List (NextCall 2 XR)) (c : CMAES 2 XR Nat) (env' : Env 2 XR Nat)
    (t' : List (NextCall 2 XR)) (c' : CMAES 2 XR Nat) (o' : Options 2 XR),
    t.length = 1000 ∧ c.generation = 1000 ∧
    TurnedOptions rotation { opts with weights := .negative, populationSize := 6 } o' ∧
    History.Of (renv 2) ellipsoid { opts with weights := .negative, populationSize := 6 } t c ∧
    History.Of env' turnedEllipsoid o' t' c' ∧ List.Forall₂ (TurnedCall rotation) t t' ∧
    TurnedRun rotation c c' := by
  obtain ⟨t, c, hc, hg, ht⟩ := ellipsoid_run 1000 (by norm_num)
  have ho : TurnedOptions rotation { opts with weights := .negative, populationSize := 6 }
      { opts with
        weights := .negative
        populationSize := 6
        initialMean := turn rotation opts.initialMean } :=
    ⟨rfl, by
      show Option.Rel _ none none
      exact .none⟩
  obtain ⟨env', t', c', -, -, h1, h2, h3⟩ := c78_exists rotation_orth (witness_exact .negative 6)
    (eigen := (renv 2).eigen) (fun C hC => renv_exact C hC) ho
    (turnedObjective (f := ellipsoid.f) rotation_orth) (obj' := turnedEllipsoid) (fun e he => by cases he)
    rfl hc
  exact ⟨t, c, env', t', c', _, ht, hg, ho, hc, h1, h2, h3⟩

end

end Cmaes
