import Verif.Spec.RestartDraws
import Verif.Props.RestartSetup
import Verif.Props.RestartStrategy

/-!
# C82: the random decisions of a `Restarter`
-/

namespace Cmaes
variable {n : Nat} {F R : Type} [Flt F] {env : Env n F R} {kind : EvalKind} {reuse : Bool}
  {src : ObjSource n F} {o : RestartOptions n F} {r : Restarter n F R} {res : RestartResults n F}
  {s : RestartState n F R}

theorem genRanges_drawn {rng : RngOps R F} {lo hi : F} {k : Nat} {g g' : R} {xs : List F}
    (h : genRanges rng lo hi k g = .ok (xs, g')) : xs.length = k ∧ Drawn rng lo hi g xs g' := by
  induction k generalizing g g' xs with
  | zero =>
    simp only [genRanges, Outcome.ok.injEq, Prod.mk.injEq] at h
    obtain ⟨rfl, rfl⟩ := h
    exact ⟨rfl, .nil _⟩
  | succ k ih =>
    simp only [genRanges, Outcome.bind_eq_ok, Outcome.ok.injEq, Prod.mk.injEq] at h
    obtain ⟨⟨x, g1⟩, h1, ⟨ys, g2⟩, h2, rfl, rfl⟩ := h
    obtain ⟨i1, i2⟩ := ih h2
    refine ⟨by simp [i1], ?_⟩
    unfold genRange at h1
    simp only at h1
    split at h1
    · simp only [Outcome.ok.injEq] at h1
      have e1 : x = (rng.uniform lo hi g).1 := by rw [h1]
      have e2 : g1 = (rng.uniform lo hi g).2 := by rw [h1]
      rw [e1]
      exact .cons (e2 ▸ i2)
    · simp at h1

theorem generateInitialMean_drawn {rng : RngOps R F} {lo hi : F} {g g' : R} {mean : Vec n F}
    (h : generateInitialMean rng lo hi g = .ok (mean, g')) :
    Drawn rng lo hi g (List.ofFn mean) g' := by
  unfold generateInitialMean at h
  simp only [Outcome.bind_eq_ok, Outcome.ok.injEq, Prod.mk.injEq] at h
  obtain ⟨⟨xs, g1⟩, h1, rfl, rfl⟩ := h
  obtain ⟨e, hd⟩ := genRanges_drawn h1
  have : List.ofFn (fun i : Fin n => xs.getD i 0) = xs := by
    apply List.ext_getElem
    · simp [e]
    · intro i h1 h2
      simp [List.getD_eq_getElem?_getD, h2]
  rw [this]
  exact hd

/-- The strategies that a strategy can become. -/
def SameStrategy : Strategy F → Strategy F → Prop
  | .local _, .local _ => True
  | .ipop _, .ipop _ => True
  | .bipop a, .bipop b => a.lrInitialStepSizeFactor = b.lrInitialStepSizeFactor
  | _, _ => False

theorem sameStrategy_finish {a b c : Strategy F} {k : Nat} {x : RestartControl}
    (h : SameStrategy a b) (hf : b.finish k = .ok (c, x)) : SameStrategy a c := by
  cases b with
  | «local» l =>
    simp only [Strategy.finish, Outcome.ok.injEq, Prod.mk.injEq] at hf
    obtain ⟨rfl, _⟩ := hf
    cases a <;> exact h
  | ipop l =>
    simp only [Strategy.finish, Outcome.bind_eq_ok, Outcome.ok.injEq, Prod.mk.injEq] at hf
    obtain ⟨_, _, rfl, _⟩ := hf
    cases a <;> exact h
  | bipop l =>
    simp only [Strategy.finish] at hf
    split at hf
    · simp only [Outcome.ok.injEq, Prod.mk.injEq] at hf
      obtain ⟨rfl, _⟩ := hf
      cases a <;> exact h
    · simp only [Outcome.bind_eq_ok, Outcome.ok.injEq, Prod.mk.injEq] at hf
      obtain ⟨_, _, rfl, _⟩ := hf
      cases a <;> exact h

theorem runDraws_of {st : Strategy F} {g g' : R} {x : RunRecord n F R} (hs : SameStrategy o.strategy st)
    (h : ∃ mean rng1 seed rng2,
      generateInitialMean env.restartRng o.searchStart o.searchEnd g = .ok (mean, rng1) ∧
      env.restartRng.u64 rng1 = (seed, rng2) ∧
      st.configure env.restartRng (o.runOptions mean seed) o.rangeSize rng2 = .ok (x.options, g')) :
    RunDraws env o g x g' := by
  obtain ⟨mean, g1, seed, g2, hm, hu, hc⟩ := h
  have hd := generateInitialMean_drawn hm
  have key : x.options.initialMean = mean ∧ x.options.seed = some seed ∧
      match o.strategy with
      | .local _ | .ipop _ => g' = g2
      | .bipop b => (g' = g2 ∧ x.options.initialStepSize = o.rangeSize / 5) ∨
        ∃ u1 g3 u2 multiplier, env.restartRng.unit g2 = (u1, g3) ∧
          env.restartRng.unit g3 = (u2, g') ∧
          x.options.initialStepSize =
            o.rangeSize * b.lrInitialStepSizeFactor * Flt.powf 10 (-2 * u1) ∧
          x.options.populationSize = Flt.toUsize (Flt.floor
            (Flt.ofNat o.defaultOptions.populationSize * Flt.fmax
              (Flt.powf (Flt.ofNat multiplier / 2) (Flt.powi u2 2)) 1)) := by
    generalize o.strategy = st0 at hs
    unfold Strategy.configure at hc
    split at hc
    · simp only [Outcome.ok.injEq, Prod.mk.injEq] at hc
      obtain ⟨hc, rfl⟩ := hc
      rw [← hc]
      refine ⟨rfl, rfl, ?_⟩
      cases st0 with
      | «local» | ipop => rfl
      | bipop b => exact absurd hs (by simp [SameStrategy])
    · simp only [Outcome.bind_eq_ok, Outcome.ok.injEq, Prod.mk.injEq] at hc
      obtain ⟨_, _, hc, rfl⟩ := hc
      rw [← hc]
      refine ⟨rfl, rfl, ?_⟩
      cases st0 with
      | «local» | ipop => rfl
      | bipop b => exact absurd hs (by simp [SameStrategy])
    · rename_i l
      cases st0 with
      | «local» | ipop => exact absurd hs (by simp [SameStrategy])
      | bipop b =>
        have hb : b.lrInitialStepSizeFactor = l.lrInitialStepSizeFactor := hs
        split at hc
        · simp only [Outcome.ok.injEq, Prod.mk.injEq] at hc
          obtain ⟨hc, hg⟩ := hc
          rw [← hc]
          refine ⟨rfl, rfl, .inr ⟨_, _, _, l.lastIpopMultiplier, rfl, Prod.ext rfl hg, ?_, rfl⟩⟩
          rw [hb]
          rfl
        · simp only [Outcome.bind_eq_ok, Outcome.ok.injEq, Prod.mk.injEq] at hc
          obtain ⟨_, _, hc, rfl⟩ := hc
          rw [← hc]
          exact ⟨rfl, rfl, .inl ⟨rfl, rfl⟩⟩
  obtain ⟨k1, k2, k3⟩ := key
  exact ⟨g1, seed, g2, by rw [k1]; exact hd, hu, k2, k3⟩

theorem heads_draws (ho : r.options = o) (hst : r.strategy = o.strategy)
    (h : Heads env kind reuse (r.start env src) s) :
    s.restarter.options = o ∧ SameStrategy o.strategy s.restarter.strategy ∧
      RunsDraw env o r.rng s.records s.restarter.rng := by
  refine h.ind (P := fun s => s.restarter.options = o ∧
    SameStrategy o.strategy s.restarter.strategy ∧
    RunsDraw env o r.rng s.records s.restarter.rng) ?_ ?_
  · refine ⟨ho, ?_, .nil⟩
    show SameStrategy o.strategy r.strategy
    rw [hst]
    cases o.strategy <;> simp [SameStrategy]
  · rintro s s' rec _ ⟨h1, h2, h3⟩ p
    refine ⟨p.options.trans h1, sameStrategy_finish h2 p.finish, ?_⟩
    rw [p.records]
    have hc := p.config
    rw [h1] at hc
    exact .snoc h3 (runDraws_of h2 hc)

/-- **C82.** All random decisions of a restarter are successive draws of one generator, which
`build` seeds with the given seed, or with a random one: for every run, in order, the coordinates of
the mean one after the other, the seed of the run and, for a local run of BIPOP, the numbers for the
step size and the population size. No draw is used twice and none is skipped. -/
theorem c82_stream (h0 : Restarter.new env o = .ok r)
    (h : r.runInternal env kind src reuse = .ok (res, s)) :
    ∃ g, RunsDraw env o (env.restartRng.seed (o.seed.getD env.randomSeed)) s.records g := by
  have hr : r.options = o ∧ r.strategy = o.strategy ∧
      r.rng = env.restartRng.seed (o.seed.getD env.randomSeed) := by
    unfold Restarter.new at h0
    simp only at h0
    split at h0
    · cases h0
    · split at h0
      · cases h0
      · injection h0 with h0
        rw [← h0]
        exact ⟨rfl, rfl, rfl⟩
  obtain ⟨ho, hst, hg⟩ := hr
  obtain ⟨_, _, _, s1, hh, hc⟩ := runInternal_ok h
  obtain ⟨h1, h2, h3⟩ := heads_draws ho hst hh
  rw [hg] at h3
  rcases hc with ⟨e1, _⟩ | ⟨s2, rec, control, rs, e1, _⟩
  · rw [e1]
    exact ⟨_, h3⟩
  · rw [e1, rs.records]
    have hcf := rs.config
    rw [h1] at hcf
    exact ⟨_, .snoc h3 (runDraws_of h2 hcf)⟩

open Witness in
/-- A restarter of BIPOP that performed two runs, the second of them local. -/
example : ∃ (o : RestartOptions 2 F64) (s : RestartState 2 F64 Nat) (g : Nat),
    s.records.length = 2 ∧
    RunsDraw (wenv 2) o ((wenv 2).restartRng.seed (o.seed.getD (wenv 2).randomSeed)) s.records g := by
  obtain ⟨b, _, r, res, s, h0, h, e⟩ := c55_no_limit
  obtain ⟨g, hg⟩ := c82_stream h0 h
  exact ⟨_, s, g, by simpa using congrArg List.length e, hg⟩

end Cmaes
