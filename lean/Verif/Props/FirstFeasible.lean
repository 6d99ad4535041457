import Verif.Props.Stream
import Verif.Lemmas.Plot

/-!
# C93: a generation consists of the first acceptable candidates
-/

set_option linter.unusedSectionVars false

namespace Cmaes
variable {n : Nat} {F R : Type} [Flt F]

/-- Without a limit on resampling, the loop keeps the acceptable candidates of an initial part of
the stream that ends with an acceptable one. -/
theorem resample_hits {rng : RngOps R F} {T : Mat n F} {mean : Vec n F} {sigma : F}
    {κ : Constraint F} {pop fuel i : Nat} {y ys : List (Vec n F)} {r r' : R} {k : Nat}
    (h : resample rng T mean sigma (some κ) none pop fuel i y (rng.after r (k * n)) = .ok (ys, r')) :
    ∃ m, r' = rng.after r ((k + m) * n) ∧
      (∀ j ∈ List.range' k m, ∃ b, κ (List.ofFn (toPoint (T.mulVec (rng.vector r j)) mean sigma)) =
        .ok b) ∧
      ys = y ++ (((List.range' k m).filter fun j =>
        κ (List.ofFn (toPoint (T.mulVec (rng.vector r j)) mean sigma)) = .ok true).map
          fun j => T.mulVec (rng.vector r j)) ∧
      (0 < m → κ (List.ofFn (toPoint (T.mulVec (rng.vector r (k + m - 1))) mean sigma)) = .ok true) := by
  induction fuel generalizing i y k with
  | zero => simp [resample] at h
  | succ fuel ih =>
    have hlen := (resample_eq_ok h).1
    simp only [resample] at h
    split at h
    · simp at h
    · split at h
      · injection h with h
        injection h with h1 h2
        exact ⟨0, h2.symm, by simp, by simp [h1], by simp⟩
      · rename_i hy hrem
        simp only [Outcome.bind_eq_ok] at h
        obtain ⟨⟨new, r2⟩, hs, h⟩ := h
        obtain ⟨h1, h2, h3⟩ := sampleRound_eq_ok hs
        rw [drawVecs_stream] at h1 h2 h3
        simp only at h1
        subst h1
        obtain ⟨m, e1, e2, e3, e4⟩ := ih h
        have hnew : new = (((List.range' k (pop - y.length)).filter fun j =>
            κ (List.ofFn (toPoint (T.mulVec (rng.vector r j)) mean sigma)) = .ok true).map
              fun j => T.mulVec (rng.vector r j)) := by
          rw [h3, List.map_map, List.filter_map]
          rfl
        refine ⟨pop - y.length + m, by rw [e1, Nat.add_assoc], ?_, ?_, ?_⟩
        · intro j hj
          rw [← List.range'_append_1] at hj
          rcases List.mem_append.mp hj with hj | hj
          · exact h2 _ (List.mem_map.mpr ⟨_, List.mem_map.mpr ⟨j, hj, rfl⟩, rfl⟩)
          · exact e2 j hj
        · rw [e3, ← List.range'_append_1, List.filter_append, List.map_append, hnew, List.append_assoc]
        · intro _
          rcases Nat.eq_zero_or_pos m with rfl | hm
          · have hl : new.length = pop - y.length := by
              rw [e3] at hlen
              simp at hlen
              omega
            rw [hnew, List.length_map] at hl
            have hall := List.length_filter_eq_length_iff.mp
              (hl.trans (List.length_range' (s := k) (step := 1)).symm)
            have := hall (k + (pop - y.length + 0) - 1) (by rw [List.mem_range'_1]; omega)
            simpa using this
          · have := e4 hm
            rwa [Nat.add_assoc] at this

variable [FltLaws F] {env : Env n F R} {obj : Obj n F} {o : Options n F} {t : List (NextCall n F)}
  {c d : CMAES n F R} {kind : EvalKind} {res : Option (TerminationData n F)}
  {calls : List (Vec n F × F)}

/-- **C93.** With constraints and without `max_resamples`, let candidate number `j` of a generation be
the point made of the `j`-th random vector after those of the generations before. The generation
consists of the first `populationSize` candidates that meet the constraints, in this order: a `next`
call that returns draws `K` random vectors, the last of which made an accepted candidate, and
evaluates all acceptable ones of the `K` candidates. The constraints return on all `K`. -/
theorem c93_first (h : History.Of env obj o t c) {κ : Constraint F} (hk : o.constraints = some κ)
    (hm : o.maxResamples = none) (hn : c.next env kind = .ok (d, res))
    (hl : d.sampler.obj.log = c.sampler.obj.log ++ calls) :
    let x : Nat → Vec n F := fun j => pointAt c.mean c.sigma
      (stepOf c.state.cov.transform (env.rng.vector c.sampler.rng j))
    ∃ K, 0 < K ∧ d.sampler.rng = env.rng.after c.sampler.rng (K * n) ∧
      (∀ j < K, ∃ b, κ (List.ofFn (x j)) = .ok b) ∧ κ (List.ofFn (x (K - 1))) = .ok true ∧
      ((List.range K).filter fun j => κ (List.ofFn (x j)) = .ok true).length = o.populationSize ∧
      NextCall.On { kind, calls, result := res }
        (((List.range K).filter fun j => κ (List.ofFn (x j)) = .ok true).map x) := by
  intro x
  obtain ⟨ys, hd, hsub, hpre⟩ := next_points hn hl
  obtain ⟨gs, i, _⟩ := fresh_inv h
  unfold drawnSteps at hd
  rw [i.constraints, i.maxResamples, hk, hm, i.populationSize] at hd
  obtain ⟨hlen, _⟩ := resample_eq_ok hd
  obtain ⟨K, h1, h2, h3, h4⟩ := resample_hits (r := c.sampler.rng) (k := 0)
    (by rw [Nat.zero_mul]; exact hd)
  rw [Nat.zero_add] at h1 h4
  rw [List.nil_append, ← List.range_eq_range'] at h3
  rw [← List.range_eq_range'] at h2
  have hsize : ((List.range K).filter fun j => κ (List.ofFn (x j)) = .ok true).length =
      o.populationSize := by
    rw [← hlen, h3, List.length_map]
    rfl
  have hK : 0 < K := by
    rcases Nat.eq_zero_or_pos K with rfl | hK
    · obtain ⟨_, _, h0, _⟩ := h
      have := two_le_population (new_eq_ok h0).1
      simp at hsize
      omega
    · exact hK
  have hmap : ys.map (fun y => toPoint y c.state.mean c.state.sigma) =
      ((List.range K).filter fun j => κ (List.ofFn (x j)) = .ok true).map x := by
    rw [h3, List.map_map]
    rfl
  rw [hmap] at hsub hpre
  refine ⟨K, hK, h1, fun j hj => h2 j (List.mem_range.mpr hj), h4 hK, hsize, hsub, hpre, fun hf => ?_⟩
  refine hsub.perm_of_length_le ?_
  rw [List.length_map, List.length_map, hsize]
  obtain ⟨calls', _, hl', _, _, _, hcase⟩ := next_cases hn
  have e : calls' = calls := List.append_cancel_left (hl'.symm.trans hl)
  subst e
  rcases hcase with hfail | ⟨ps, inds, hcomp, _⟩
  · exact absurd ⟨_, hfail.result, by simp [CMAES.terminationData]⟩ hf
  · rw [hcomp.sampled.callsLength, i.populationSize]

section
open Witness
set_option maxRecDepth 100000

/-- Non-vacuity: a second generation of four points for which candidates are rejected. -/
example : ∃ t c d res, History.Of (wenv 2) sphere (boxOpts none) t c ∧
    c.next (wenv 2) .par = .ok (d, res) ∧ d.sampler.rng > c.sampler.rng + 8 := by
  obtain ⟨t, c, h, hp⟩ := exists_history (env := wenv 2) (obj := sphere) (o := boxOpts none) [.seq]
    (fun c _ => (c.next (wenv 2) .par).check fun x => decide (x.1.sampler.rng > c.sampler.rng + 8))
    (by decide +kernel) (by decide +kernel)
  obtain ⟨⟨d, res⟩, h1, h2⟩ := Outcome.of_check hp
  exact ⟨t, c, d, res, h, h1, of_decide_eq_true h2⟩

end

end Cmaes
