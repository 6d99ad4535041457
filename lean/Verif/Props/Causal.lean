import Verif.Lemmas.Causal
import Verif.Props.Stream

/-!
# C89: a search depends only on the random numbers that it has drawn
-/

set_option linter.unusedSectionVars false

namespace Cmaes
variable {n : Nat} {F R : Type} [Flt F] [FltLaws F] {env : Env n F R} {obj : Obj n F}
  {o : Options n F} {t : List (NextCall n F)} {c : CMAES n F R}

theorem new_withRng {w : World n F} {c0 : CMAES n F R} (h : CMAES.new env w obj o = .ok c0)
    (rng' : RngOps R F) :
    CMAES.new (env.withRng rng') w obj o =
      .ok (c0.withGenerator (rng'.seed c0.parameters.seed)) := by
  unfold CMAES.new at h ⊢
  cases hv : CMAES.validate o with
  | some e => rw [hv] at h; simp at h
  | none =>
    rw [hv] at h
    simp only [Except.ok.injEq] at h ⊢
    subst h
    unfold CMAES.create
    cases hp : o.printGapEvals with
    | none => rfl
    | some g => rfl

/-- **C89.** A search depends only on the random numbers that it has drawn. Let `N` be the number
of normally distributed numbers drawn so far. With every other generator that gives the same first
`N` numbers for this seed the same calls of the objective are made, with the same results, and the
search is in the same state, ready to draw the number `N` of that generator. Without constraints
`N` is the number of points of the run times the dimension. -/
theorem c89_causal (h : History.Of env obj o t c) :
    ∃ N : Nat, c.sampler.rng = env.rng.after (env.rng.seed c.parameters.seed) N ∧
      (o.constraints = none → N = o.populationSize * t.length * n) ∧
      ∀ rng' : RngOps R F, env.rng.AgreeUpTo rng' c.parameters.seed N →
        History.Of (env.withRng rng') obj o t
          (c.withGenerator (rng'.after (rng'.seed c.parameters.seed) N)) := by
  obtain ⟨w, c0, h0, he⟩ := h
  suffices H : c.parameters.seed = c0.parameters.seed ∧
      ∃ K : Nat, c.sampler.rng = env.rng.after (env.rng.seed c0.parameters.seed) (K * n) ∧
      (o.constraints = none → K = o.populationSize * t.length) ∧
      ∀ rng' : RngOps R F, env.rng.AgreeUpTo rng' c0.parameters.seed (K * n) →
        Exec (env.withRng rng') (c0.withGenerator (rng'.seed c0.parameters.seed)) t
          (c.withGenerator (rng'.after (rng'.seed c0.parameters.seed) (K * n))) by
    obtain ⟨hs, K, h1, h2, h3⟩ := H
    rw [hs]
    exact ⟨K * n, h1, fun hc => by rw [h2 hc], fun rng' hr => ⟨w, _, new_withRng h0 rng', h3 rng' hr⟩⟩
  induction he with
  | refl =>
    refine ⟨rfl, 0, ?_, fun _ => by simp, fun rng' _ => ?_⟩
    · obtain ⟨hv, rfl⟩ := new_eq_ok h0
      obtain ⟨a1, a2, -⟩ := create_search env w obj o
      rw [a1, a2, Nat.zero_mul]
      rfl
    · rw [Nat.zero_mul]
      exact .refl _
  | @next c1 c2 t1 kind calls res he' hn hl ih =>
    obtain ⟨hs, K, h1, h2, h3⟩ := ih
    have hO : History.Of env obj o t1 c1 := ⟨w, c0, h0, he'⟩
    obtain ⟨_, hc, -, -, ys, hd, -⟩ := next_cases hn
    obtain ⟨gs, i, _⟩ := fresh_inv hO
    have hd' := hd
    unfold drawnSteps at hd'
    rw [h1] at hd'
    obtain ⟨K', b1, b2, b3, b4⟩ := resample_causal hd'
    refine ⟨by rw [hc.parameters, hs], K', b2, ?_, fun rng' hr => ?_⟩
    · intro hcon
      rw [b3 (by rw [i.constraints, hcon]), h2 hcon, i.populationSize, List.length_append,
        List.length_singleton, Nat.mul_succ]
      rfl
    · have hr' : env.rng.AgreeUpTo rng' c0.parameters.seed (K * n) := fun k hk =>
        hr k (hk.trans_le (Nat.mul_le_mul_right n b1))
      refine .next (h3 rng' hr') (next_withGenerator hn hd (b4 rng' _ hr)) hl
  | quiet he' hq ha ih =>
    rename_i c1 c2 t1 op r
    obtain ⟨hs, K, h1, h2, h3⟩ := ih
    obtain ⟨ss, -⟩ := quiet_sameSearch hq ha
    exact ⟨by rw [ss.parameters, hs], K, by rw [ss.sampler, h1], h2, fun rng' hr =>
      .quiet (h3 rng' hr) hq (apply_withGenerator hq ha)⟩

section
open Witness
set_option maxRecDepth 100000

/-- The generator of the examples with other numbers from position `N` on. -/
def Witness.rngUpTo (N : Nat) : RngOps Nat F64 :=
  { Witness.rng with normal := fun r => (if r < N then (Witness.rng.normal r).1 else 1, r + 1) }

theorem Witness.rngUpTo_after (N r k : Nat) : (rngUpTo N).after r k = Witness.rng.after r k := by
  induction k with
  | zero => rfl
  | succ k ih =>
    show (rngUpTo N).after r k + 1 = Witness.rng.after r k + 1
    rw [ih]

/-- Non-vacuity: three generations use 24 numbers, from position 1 on. With a generator that differs
from position 25 on they are the same, and the fourth generation evaluates other points. -/
example : ∃ t c, History.Of (wenv 2) sphere opts t c ∧
    (decide (t.length = 3) && decide (c.sampler.rng = 25) && decide (c.parameters.seed = 1) &&
      ((c.next (wenv 2) .seq).check fun x => (c.next ((wenv 2).withRng (rngUpTo 25)) .seq).check fun y =>
        decide (x.1.sampler.obj.log.getLast?.map (fun q => List.ofFn q.1) ≠
          y.1.sampler.obj.log.getLast?.map (fun q => List.ofFn q.1)))) = true ∧
    History.Of ((wenv 2).withRng (rngUpTo 25)) sphere opts t c := by
  obtain ⟨t, c, h, hc⟩ := exists_history (env := wenv 2) (obj := sphere) (o := opts) [.seq, .par, .seq]
    (fun c t => decide (t.length = 3) && decide (c.sampler.rng = 25) && decide (c.parameters.seed = 1) &&
      ((c.next (wenv 2) .seq).check fun x => (c.next ((wenv 2).withRng (rngUpTo 25)) .seq).check fun y =>
        decide (x.1.sampler.obj.log.getLast?.map (fun q => List.ofFn q.1) ≠
          y.1.sampler.obj.log.getLast?.map (fun q => List.ofFn q.1)))) opts_valid (by decide +kernel)
  refine ⟨t, c, h, hc, ?_⟩
  obtain ⟨N, h1, h2, h3⟩ := c89_causal h
  simp only [Bool.and_eq_true, decide_eq_true_eq] at hc
  obtain ⟨⟨⟨h4, h5⟩, h6⟩, -⟩ := hc
  have hN : N = 24 := by
    rw [h2 rfl, h4]
    rfl
  subst hN
  rw [h6] at h1 h3
  have := h3 (rngUpTo 25) fun k hk => by
    unfold RngOps.draw
    rw [rngUpTo_after]
    have hr : Witness.rng.after (Witness.rng.seed 1) k = 1 + k := by
      clear hk
      induction k with
      | zero => rfl
      | succ k ih => show Witness.rng.after (Witness.rng.seed 1) k + 1 = _; rw [ih]; rfl
    show (if Witness.rng.after (Witness.rng.seed 1) k < 25 then _ else _) = _
    rw [if_pos (by rw [hr]; omega)]
    rfl
  have e : c.withGenerator ((rngUpTo 25).after ((rngUpTo 25).seed 1) 24) = c := by
    rw [rngUpTo_after]
    exact (congrArg c.withGenerator h1.symm).trans rfl
  rwa [e] at this
end

end Cmaes
