import Verif.Spec.Loop
import Verif.Props.Invariance
import Verif.Witness

/-!
# C81: `run` is a loop over `next`
-/

set_option linter.unusedSectionVars false

namespace Cmaes
variable {n : Nat} {F R : Type} [Flt F] {env : Env n F R} {kind : EvalKind} {c c1 d : CMAES n F R}
  {k : Nat}

theorem runInternal_eq (c : CMAES n F R) (x : TerminationData n F) :
    c.runInternal x = afterLoop c x := by
  have e : c.addPlotPoint.printGapEvals = c.printGapEvals := rfl
  unfold CMAES.runInternal afterLoop
  simp only [e]
  cases c.printGapEvals <;> rfl

theorem runLoop_iff {fuel : Nat} {x : TerminationData n F} :
    c.runLoop env kind fuel = .ok (d, x) ↔
      ∃ k c1, k < fuel ∧ Continues env kind c k c1 ∧ c1.next env kind = .ok (d, some x) := by
  induction fuel generalizing c with
  | zero => simp [CMAES.runLoop]
  | succ fuel ih =>
    simp only [CMAES.runLoop]
    constructor
    · intro h
      obtain ⟨⟨e, r⟩, h1, h2⟩ := Outcome.bind_eq_ok.mp h
      cases r with
      | none =>
        obtain ⟨k, c1, hk, hc, hn⟩ := ih.mp h2
        exact ⟨k + 1, c1, by omega, .step h1 hc, hn⟩
      | some y =>
        simp only [Outcome.ok.injEq, Prod.mk.injEq] at h2
        obtain ⟨rfl, rfl⟩ := h2
        exact ⟨0, c, by omega, .refl c, h1⟩
    · rintro ⟨k, c1, hk, hc, hn⟩
      cases hc with
      | refl => rw [hn]; rfl
      | step h1 h2 =>
        rw [h1]
        exact ih.mpr ⟨_, c1, by omega, h2, hn⟩

/-- **C81, `run` is the loop.** `run` (`run_parallel`) returns `x` exactly if a number of `next`
(`next_parallel`) calls return `None` and the one after them returns `x`. It leaves the `CMAES` as
these calls leave it, but for the last plot point and the final lines. -/
theorem c81_run {x : TerminationData n F} :
    c.run env kind = .ok (d, x) ↔
      ∃ k c1 c2, k < env.runFuel ∧ Continues env kind c k c1 ∧
        c1.next env kind = .ok (c2, some x) ∧ d = afterLoop c2 x := by
  unfold CMAES.run
  constructor
  · intro h
    obtain ⟨⟨e, y⟩, h1, h2⟩ := Outcome.bind_eq_ok.mp h
    simp only [Outcome.ok.injEq, Prod.mk.injEq] at h2
    obtain ⟨rfl, rfl⟩ := h2
    obtain ⟨k, c1, hk, hc, hn⟩ := runLoop_iff.mp h1
    exact ⟨k, c1, e, hk, hc, hn, runInternal_eq _ _⟩
  · rintro ⟨k, c1, c2, hk, hc, hn, rfl⟩
    rw [runLoop_iff.mpr ⟨k, c1, hk, hc, hn⟩, ← runInternal_eq]
    rfl

theorem runLoop_env {env' : Env n F R} (he : ∀ c : CMAES n F R, c.next env' kind = c.next env kind)
    (fuel : Nat) (c : CMAES n F R) : c.runLoop env' kind fuel = c.runLoop env kind fuel := by
  induction fuel generalizing c with
  | zero => rfl
  | succ fuel ih =>
    simp only [CMAES.runLoop, he]
    congr 1
    funext a
    obtain ⟨a, r⟩ := a
    cases r with
    | none => exact ih a
    | some _ => rfl

theorem runLoop_resume {env' : Env n F R} (he : ∀ c : CMAES n F R, c.next env' kind = c.next env kind)
    (h : Continues env kind c k c1) (fuel : Nat) :
    c.runLoop env' kind (k + fuel) = c1.runLoop env kind fuel := by
  induction h with
  | refl c =>
    rw [Nat.zero_add]
    exact runLoop_env he fuel c
  | step h1 _ ih =>
    rw [Nat.add_right_comm]
    simp only [CMAES.runLoop, he, h1, Outcome.ok_bind]
    exact ih

/-- **C81, a run can be taken over.** After any number of `next` calls that returned `None`, `run`
does exactly what it would have done instead of them: the same result, the same final state, the
same plot, the same printed lines, and if it panics or does not return, that too. (The `k` passes
that have been made are added to the bound on the passes that stands for "does not return".) -/
theorem c81_resume (h : Continues env kind c k c1) :
    c1.run env kind = c.run { env with runFuel := k + env.runFuel } kind := by
  have := runLoop_resume (env := env) (env' := { env with runFuel := k + env.runFuel })
    (fun _ => rfl) h env.runFuel
  unfold CMAES.run
  rw [← this]

/-- **C81, with other calls in between.** If there were plot and print calls between the `next`
calls, `run` still gives the same result and reaches the same search state. -/
theorem c81_interleaved [FltLaws F] {t : List (NextCall n F)} {d' : CMAES n F R} {x x' : TerminationData n F}
    (he : Exec env c t c1) (ht : ∀ s ∈ t, s.kind = kind ∧ s.result = none)
    (h : c.run env kind = .ok (d, x)) (h' : c1.run env kind = .ok (d', x')) :
    x' = x ∧ d'.sampler = d.sampler ∧ d'.state = d.state ∧ d'.history = d.history ∧
      d'.parameters = d.parameters := by
  have key : ∀ f f' {c c' d d' : CMAES n F R} {x x' : TerminationData n F}, SameRun c c' →
      c.runLoop env kind f = .ok (d, x) → c'.runLoop env kind f' = .ok (d', x') →
      SameRun d d' ∧ x' = x := by
    intro f
    induction f with
    | zero => intro f' c c' d d' x x' _ h; simp [CMAES.runLoop] at h
    | succ f ih =>
      intro f' c c' d d' x x' hs h h'
      cases f' with
      | zero => simp [CMAES.runLoop] at h'
      | succ f' =>
        simp only [CMAES.runLoop, Outcome.bind_eq_ok] at h h'
        obtain ⟨⟨e, r⟩, h1, h2⟩ := h
        obtain ⟨⟨e', r'⟩, h1', h2'⟩ := h'
        obtain ⟨hs1, rfl⟩ := next_sameRun hs h1 h1'
        cases r' with
        | none => exact ih _ hs1 h2 h2'
        | some y =>
          simp only [Outcome.ok.injEq, Prod.mk.injEq] at h2 h2'
          obtain ⟨rfl, rfl⟩ := h2
          obtain ⟨rfl, rfl⟩ := h2'
          exact ⟨hs1, rfl⟩
  have skip : ∀ {t : List (NextCall n F)} {c c1 : CMAES n F R}, Exec env c t c1 →
      (∀ s ∈ t, s.kind = kind ∧ s.result = none) → ∀ {f} {d : CMAES n F R} {x : TerminationData n F},
      c.runLoop env kind f = .ok (d, x) →
      ∃ f' c', SameRun c' c1 ∧ c'.runLoop env kind f' = .ok (d, x) := by
    intro t c c1 he
    induction he with
    | refl => intro _ f d x h; exact ⟨f, _, ⟨rfl, rfl, rfl, rfl, rfl, rfl, rfl⟩, h⟩
    | quiet _ hq ha ih =>
      intro ht f d x h
      obtain ⟨f', c', hs, hr⟩ := ih ht h
      refine ⟨f', c', hs.trans ?_, hr⟩
      have h2 := (quiet_sameSearch hq ha).1
      exact ⟨h2.sampler, h2.parameters, h2.state, h2.history, h2.timeCreated, h2.steps,
        quiet_clockReads hq ha⟩
    | next _ hn _ ih =>
      intro ht f d x h
      obtain ⟨f', c', hs, hr⟩ := ih (fun s hs => ht s (List.mem_append_left _ hs)) h
      obtain ⟨hk, hres⟩ := ht _ (List.mem_append_right _ (List.mem_singleton.mpr rfl))
      simp only at hk hres
      subst hk hres
      cases f' with
      | zero => simp [CMAES.runLoop] at hr
      | succ f' =>
        simp only [CMAES.runLoop, Outcome.bind_eq_ok] at hr
        obtain ⟨⟨e, r⟩, h1, h2⟩ := hr
        obtain ⟨hs1, hr1⟩ := next_sameRun hs h1 hn
        subst hr1
        exact ⟨f', e, hs1, h2⟩
  simp only [CMAES.run, Outcome.bind_eq_ok] at h h'
  obtain ⟨⟨e, y⟩, h1, h2⟩ := h
  obtain ⟨⟨e', y'⟩, h1', h2'⟩ := h'
  obtain ⟨f', c', hs, hr⟩ := skip he ht h1
  obtain ⟨hs1, rfl⟩ := key _ _ hs hr h1'
  simp only [Outcome.ok.injEq, Prod.mk.injEq] at h2 h2'
  obtain ⟨rfl, rfl⟩ := h2
  obtain ⟨rfl, rfl⟩ := h2'
  have e1 := (runInternal_exec (env := env) e y').nil_sameRun
  have e2 := (runInternal_exec (env := env) e' y').nil_sameRun
  have := (e1.symm.trans hs1).trans e2
  exact ⟨rfl, this.sampler, this.state, this.history, this.parameters⟩

/-! ### The hypotheses are met -/

open Witness in
/-- Two calls by hand, then `run`, which makes one more and stops at the limit of three
generations. -/
example : ∃ (c c1 c2 d : CMAES 2 F64 Nat) (x : TerminationData 2 F64),
    CMAES.new (wenv 2) World.init sphere { opts with maxGenerations := some 3 } = .ok c ∧
    c.next (wenv 2) .seq = .ok (c1, none) ∧ c1.next (wenv 2) .seq = .ok (c2, none) ∧
    c2.run (wenv 2) .seq = .ok (d, x) ∧ d.generation = 3 := by
  have h : ((CMAES.create (wenv 2) World.init sphere
        { opts with maxGenerations := some 3 }).next (wenv 2) .seq |>.bind fun c1 =>
      (c1.1.next (wenv 2) .seq).bind fun c2 =>
      (c2.1.run (wenv 2) .seq).bind fun d => .ok (c1, c2, d)).check
      (fun r => r.1.2.isNone && r.2.1.2.isNone && decide (r.2.2.1.generation = 3)) = true := by
    decide +kernel
  obtain ⟨⟨⟨c1, r1⟩, ⟨c2, r2⟩, ⟨d, x⟩⟩, h, hp⟩ := Outcome.of_check h
  obtain ⟨a1, h1, h⟩ := Outcome.bind_eq_ok.mp h
  obtain ⟨a2, h2, h⟩ := Outcome.bind_eq_ok.mp h
  obtain ⟨a3, h3, h⟩ := Outcome.bind_eq_ok.mp h
  simp only [Outcome.ok.injEq, Prod.mk.injEq] at h
  obtain ⟨rfl, rfl, rfl⟩ := h
  simp only [Bool.and_eq_true, Option.isNone_iff_eq_none, decide_eq_true_eq] at hp
  obtain ⟨⟨rfl, rfl⟩, hg⟩ := hp
  have hv : CMAES.validate { opts with maxGenerations := some 3 } = none := by decide +kernel
  exact ⟨_, c1, c2, d, x, by unfold CMAES.new; rw [hv], h1, h2, h3, hg⟩

end Cmaes
