import Verif.Lemmas.Rotation
import Verif.Lemmas.Move
import Verif.Props.Stream

/-!
# Sampling in a turned search space
-/

set_option linter.unusedSectionVars false

namespace Cmaes
variable {n : Nat} {R R' : Type} {Q : Matrix (Fin n) (Fin n) ℝ}
open Matrix

theorem turn_fin (u : Fin n → ℝ) : turn Q (Vec.fin u) = Vec.fin (Q *ᵥ u) := rfl

/-- Turns point and step. -/
noncomputable def turnPt (Q : Matrix (Fin n) (Fin n) ℝ) (p : EvaluatedPoint n XR) :
    EvaluatedPoint n XR :=
  { p with point := turn Q p.point, unscaledStep := turn Q p.unscaledStep }

/-- `o'` is `o` with turned points. -/
structure ObjTurn (Q : Matrix (Fin n) (Fin n) ℝ) (o o' : Obj n XR) : Prop where
  f : TurnedObjective Q o.f o'.f
  real : ∀ e ∈ o.log, RealPoint e.1
  log : o'.log = moveCalls (turn Q) o.log

section
variable {mean mean' : Vec n XR} {sigma : XR}

/-- Steps and points correspond. -/
def Points (Q : Matrix (Fin n) (Fin n) ℝ) (mean mean' : Vec n XR) (sigma : XR) : Prop :=
  ∀ y, RealPoint y → RealPoint (toPoint y mean sigma) ∧
    toPoint (turn Q y) mean' sigma = turn Q (toPoint y mean sigma)

theorem points_fin (m : Fin n → ℝ) (s : ℝ) :
    Points Q (Vec.fin m) (Vec.fin (Q *ᵥ m)) (.fin s) := by
  rintro _ ⟨u, rfl⟩
  unfold toPoint
  rw [turn_fin, Vec.smul_fin, Vec.smul_fin, Vec.add_fin, Vec.add_fin, turn_fin, mulVec_add,
    mulVec_smul]
  exact ⟨⟨_, rfl⟩, rfl⟩

variable (hA : Points Q mean mean' sigma)
include hA

theorem new_turn {o o' : Obj n XR} (h : ObjTurn Q o o') {y : Vec n XR} (hy : RealPoint y) :
    (EvaluatedPoint.new (turn Q y) mean' sigma o').1 =
      (EvaluatedPoint.new y mean sigma o).1.map (turnPt Q) ∧
    ObjTurn Q (EvaluatedPoint.new y mean sigma o).2 (EvaluatedPoint.new (turn Q y) mean' sigma o').2 := by
  obtain ⟨hr, he⟩ := hA y hy
  obtain ⟨v, hv, h2, h1⟩ := new_spec y mean sigma o
  obtain ⟨v', hv', h2', h1'⟩ := new_spec (turn Q y) mean' sigma o'
  have : v' = v := by rw [hv', hv, h.log, he, h.f _ _ h.real hr]
  subst this
  refine ⟨?_, ?_, ?_, ?_⟩
  · rw [h1, h1']
    by_cases hn : Flt.isNaN v' = true
    · simp [hn]
    · simp [hn, turnPt, he]
  · rw [h2, h2']; exact h.f
  · rw [h2]
    intro e hm
    rcases List.mem_append.mp hm with hm | hm
    · exact h.real e hm
    · rw [List.mem_singleton] at hm
      subst hm
      exact hr
  · rw [h2, h2', h.log]; simp [moveCalls, he]

theorem evalSeq_turn (ys : List (Vec n XR)) (hys : ∀ y ∈ ys, RealPoint y) {o o' : Obj n XR}
    (h : ObjTurn Q o o') :
    (evalSeq mean' sigma (ys.map (turn Q)) o').1 =
      (evalSeq mean sigma ys o).1.map (List.map (turnPt Q)) ∧
    ObjTurn Q (evalSeq mean sigma ys o).2 (evalSeq mean' sigma (ys.map (turn Q)) o').2 := by
  induction ys generalizing o o' with
  | nil => exact ⟨rfl, h⟩
  | cons y ys ih =>
    obtain ⟨h1, h2⟩ := new_turn hA h (hys y (by simp))
    simp only [List.map_cons, evalSeq]
    cases hx : EvaluatedPoint.new y mean sigma o with
    | mk p o1 =>
      cases hx' : EvaluatedPoint.new (turn Q y) mean' sigma o' with
      | mk p' o1' =>
        rw [hx, hx'] at h1 h2
        simp only at h1 h2
        subst h1
        cases p with
        | none => exact ⟨rfl, h2⟩
        | some p =>
          obtain ⟨h3, h4⟩ := ih (fun y hy => hys y (by simp [hy])) h2
          simp only [Option.map_some]
          cases hy : evalSeq mean sigma ys o1 with
          | mk q o2 =>
            cases hy' : evalSeq mean' sigma (ys.map (turn Q)) o1' with
            | mk q' o2' =>
              rw [hy, hy'] at h3 h4
              simp only at h3 h4
              subst h3
              cases q with
              | none => exact ⟨rfl, h4⟩
              | some q => exact ⟨rfl, h4⟩

theorem evalOrder_turn (ys : List (Vec n XR)) (hys : ∀ y ∈ ys, RealPoint y) (extra : Nat)
    (is : List Nat) (left : Option Nat) {o o' : Obj n XR} (h : ObjTurn Q o o') :
    (evalOrder mean' sigma (ys.map (turn Q)) extra is left o').1 =
      (evalOrder mean sigma ys extra is left o).1.map (fun r => (r.1, r.2.map (turnPt Q))) ∧
    ObjTurn Q (evalOrder mean sigma ys extra is left o).2
      (evalOrder mean' sigma (ys.map (turn Q)) extra is left o').2 := by
  induction is generalizing o o' left with
  | nil => exact ⟨rfl, h⟩
  | cons i is ih =>
    by_cases hl : left = some 0
    · subst hl
      simp only [evalOrder]
      exact ⟨rfl, h⟩
    · cases hy : ys[i]? with
      | none =>
        have hy' : (ys.map (turn Q))[i]? = none := by rw [List.getElem?_map, hy]; rfl
        have key : ∀ (l : List (Vec n XR)) (m : Vec n XR) (s : XR) (o : Obj n XR), l[i]? = none →
            evalOrder m s l extra (i :: is) left o = evalOrder m s l extra is left o := by
          intro l m s o hl
          simp only [evalOrder, hl]
        rw [key _ _ _ _ hy, key _ _ _ _ hy']
        exact ih left h
      | some y =>
        have hy' : (ys.map (turn Q))[i]? = some (turn Q y) := by rw [List.getElem?_map, hy]; rfl
        obtain ⟨h1, h2⟩ := new_turn hA h (hys y (List.mem_of_getElem? hy))
        rw [evalOrder_cons hl hy, evalOrder_cons hl hy']
        simp only
        have hnone : (EvaluatedPoint.new (turn Q y) mean' sigma o').1.isNone =
            (EvaluatedPoint.new y mean sigma o).1.isNone := by rw [h1]; simp
        rw [hnone]
        obtain ⟨h3, h4⟩ := ih (leftAfter extra left (EvaluatedPoint.new y mean sigma o).1.isNone) h2
        exact ⟨by rw [h1, h3]; rfl, h4⟩

theorem evalPar_turn (s : Sched) (ys : List (Vec n XR)) (hys : ∀ y ∈ ys, RealPoint y)
    {o o' : Obj n XR} (h : ObjTurn Q o o') :
    (evalPar s mean' sigma (ys.map (turn Q)) o').1 =
      (evalPar s mean sigma ys o).1.map (List.map (turnPt Q)) ∧
    ObjTurn Q (evalPar s mean sigma ys o).2 (evalPar s mean' sigma (ys.map (turn Q)) o').2 := by
  obtain ⟨h1, h2⟩ := evalOrder_turn hA ys hys s.extra (s.order ys.length) none h
  unfold evalPar
  simp only [List.length_map]
  have hany : (evalOrder mean' sigma (ys.map (turn Q)) s.extra (s.order ys.length) none o').1.any
      (fun r => r.2.isNone) = (evalOrder mean sigma ys s.extra (s.order ys.length) none o).1.any
      (fun r => r.2.isNone) := by
    rw [h1, List.any_map]
    congr 1
    funext r
    simp
  rw [hany]
  split
  · exact ⟨rfl, h2⟩
  · refine ⟨?_, h2⟩
    simp only
    rw [← mapM_map_option]
    congr 1
    funext i
    rw [h1]
    generalize (evalOrder mean sigma ys s.extra (s.order ys.length) none o).1 = rs
    induction rs with
    | nil => rfl
    | cons r rs ih =>
      obtain ⟨j, r⟩ := r
      cases hi : i == j with
      | true =>
        simp only [List.map_cons, List.lookup_cons, hi]
        cases r <;> rfl
      | false =>
        simp only [List.map_cons, List.lookup_cons, hi]
        exact ih

omit hA in
theorem filterOk_turn {ok ok' : Vec n XR → Outcome Bool} (ys : List (Vec n XR))
    (h : ∀ y ∈ ys, ok' (turn Q y) = ok y) :
    filterOk ok' (ys.map (turn Q)) = (List.map (turn Q)) <$> filterOk ok ys := by
  induction ys with
  | nil => rfl
  | cons y ys ih =>
    simp only [List.map_cons, filterOk, Outcome.map_eq_bind] at ih ⊢
    rw [h y (by simp), ih fun z hz => h z (by simp [hz])]
    cases ok y with
    | panic p => rfl
    | diverge => rfl
    | ok b =>
      simp only [Outcome.ok_bind]
      cases filterOk ok ys with
      | panic p => rfl
      | diverge => rfl
      | ok rest => cases b <;> rfl

theorem sampleRound_turn {rng : RngOps R XR} {T : Mat n XR} {cs cs' : Option (Constraint XR)}
    {m k : Nat} {r rr : R} {new : List (Vec n XR)}
    (hreal : ∀ j, RealPoint (T.mulVec (rng.vector r j)))
    (hc : Option.Rel (TurnedConstraint Q) cs cs')
    (h : sampleRound rng T mean sigma cs m (rng.after r (k * n)) = .ok (new, rr))
    {R' : Type} {rng' : RngOps R' XR} {r' : R'} {T' : Mat n XR}
    (hdeal : ∀ j, k ≤ j → j < k + m →
      T'.mulVec (rng'.vector r' j) = turn Q (T.mulVec (rng.vector r j))) :
    sampleRound rng' T' mean' sigma cs' m (rng'.after r' (k * n)) =
      .ok (new.map (turn Q), rng'.after r' ((k + m) * n)) := by
  simp only [sampleRound, drawVecs_stream, Outcome.bind_eq_ok, Outcome.ok.injEq,
    Prod.mk.injEq] at h ⊢
  obtain ⟨ys, hf, rfl, _⟩ := h
  have hmap : List.map T'.mulVec (List.map (rng'.vector (n := n) r') (List.range' k m)) =
      (List.map T.mulVec (List.map (rng.vector r) (List.range' k m))).map (turn Q) := by
    simp only [List.map_map]
    refine List.map_congr_left fun j hj => ?_
    rw [List.mem_range'_1] at hj
    exact hdeal j hj.1 hj.2
  refine ⟨ys.map (turn Q), ?_, rfl, trivial⟩
  rw [hmap]
  cases hc with
  | none =>
    simp only at hf ⊢
    rw [filterOk_turn (ok := fun _ => .ok true) _ fun _ _ => rfl, hf]
    rfl
  | @some k k' hcc =>
    simp only at hf ⊢
    rw [filterOk_turn (ok := fun y => k (List.ofFn (toPoint y mean sigma))), hf]
    · rfl
    · intro z hz
      simp only [List.map_map, List.mem_map] at hz
      obtain ⟨j, _, rfl⟩ := hz
      obtain ⟨p1, p2⟩ := hA _ (hreal j)
      simp only [Function.comp_apply]
      rw [p2, hcc _ p1]

omit hA in
theorem sampleRound_real {rng : RngOps R XR} {T : Mat n XR} {cs : Option (Constraint XR)}
    {m k : Nat} {r rr : R} {new : List (Vec n XR)}
    (hreal : ∀ j, RealPoint (T.mulVec (rng.vector r j)))
    (h : sampleRound rng T mean sigma cs m (rng.after r (k * n)) = .ok (new, rr)) :
    (∀ z ∈ new, RealPoint z) ∧ rr = rng.after r ((k + m) * n) := by
  simp only [sampleRound, drawVecs_stream, Outcome.bind_eq_ok, Outcome.ok.injEq,
    Prod.mk.injEq] at h
  obtain ⟨ys, hf, rfl, rfl⟩ := h
  refine ⟨fun z hz => ?_, rfl⟩
  have := (filterOk_sublist hf).subset hz
  rw [List.map_map, List.mem_map] at this
  obtain ⟨j, _, rfl⟩ := this
  exact hreal j

/-- The resampling loop of a run in the turned space, whose random vectors are turned suitably. -/
theorem resample_turn {rng : RngOps R XR} {T : Mat n XR} {cs : Option (Constraint XR)}
    {mx : Option Nat} {pop fuel i : Nat} {y ys : List (Vec n XR)} {r r2 : R} {k : Nat}
    (hreal : ∀ j, RealPoint (T.mulVec (rng.vector r j))) (hy : ∀ z ∈ y, RealPoint z)
    (h : resample rng T mean sigma cs mx pop fuel i y (rng.after r (k * n)) = .ok (ys, r2)) :
    (∀ z ∈ ys, RealPoint z) ∧
    ∃ k', k ≤ k' ∧ r2 = rng.after r (k' * n) ∧
      ∀ {R' : Type} (rng' : RngOps R' XR) (r' : R') (T' : Mat n XR) (cs' : Option (Constraint XR)),
        Option.Rel (TurnedConstraint Q) cs cs' →
        (∀ j, k ≤ j → j < k' → T'.mulVec (rng'.vector r' j) = turn Q (T.mulVec (rng.vector r j))) →
        resample rng' T' mean' sigma cs' mx pop fuel i (y.map (turn Q)) (rng'.after r' (k * n)) =
          .ok (ys.map (turn Q), rng'.after r' (k' * n)) := by
  induction fuel generalizing i y k with
  | zero => simp [resample] at h
  | succ fuel ih =>
    simp only [resample] at h
    split at h
    · simp at h
    · rename_i hpop
      split at h
      · rename_i h0
        injection h with h
        injection h with h1 h2
        subst h1
        refine ⟨hy, k, le_rfl, h2.symm, fun rng' r' T' cs' _ _ => ?_⟩
        simp only [resample, List.length_map]
        rw [if_neg hpop, if_pos h0]
      · rename_i h0
        simp only [Outcome.bind_eq_ok] at h
        obtain ⟨⟨new, rr⟩, hs, h⟩ := h
        obtain ⟨hnew, rfl⟩ := sampleRound_real hreal hs
        obtain ⟨g1, k', g2, g3, g4⟩ := ih (y := y ++ new) (fun z hz => by
          rcases List.mem_append.mp hz with hz | hz
          · exact hy z hz
          · exact hnew z hz) h
        refine ⟨g1, k', by omega, g3, fun rng' r' T' cs' hc hdeal => ?_⟩
        have g5 := g4 rng' r' T' cs' hc fun j h1 h2 => hdeal j (by omega) h2
        have hcs : Option.Rel (TurnedConstraint Q)
            (match mx with | some mx => if mx ≤ i then none else cs | none => cs)
            (match mx with | some mx => if mx ≤ i then none else cs' | none => cs') := by
          cases mx with
          | none => exact hc
          | some mx =>
            by_cases h : mx ≤ i
            · simp only [if_pos h]; exact .none
            · simp only [if_neg h]; exact hc
        simp only [resample, List.length_map]
        rw [if_neg hpop, if_neg h0]
        cases mx with
        | none =>
          simp only at hcs hs ⊢
          rw [sampleRound_turn hA hreal hcs hs fun j h1 h2 => hdeal j h1 (by omega), Outcome.ok_bind]
          simp only
          rw [← List.map_append]
          exact g5
        | some mx =>
          simp only at hcs hs ⊢
          rw [sampleRound_turn hA hreal hcs hs fun j h1 h2 => hdeal j h1 (by omega), Outcome.ok_bind]
          simp only
          rw [← List.map_append]
          exact g5

end

theorem sortPoints_turn (mode : Mode) (ps : List (EvaluatedPoint n XR)) :
    sortPoints mode (ps.map (turnPt Q)) = (sortPoints mode ps).map (turnPt Q) := by
  unfold sortPoints stableSort
  symm
  apply List.map_insertionSort
  intro a _ b _
  rfl

/-- `s'` samples in the turned space. -/
structure SamplerTurn (Q : Matrix (Fin n) (Fin n) ℝ) (s : Sampler n XR R) (s' : Sampler n XR R') :
    Prop where
  constraints : Option.Rel (TurnedConstraint Q) s.constraints s'.constraints
  maxResamples : s'.maxResamples = s.maxResamples
  populationSize : s'.populationSize = s.populationSize
  functionEvals : s'.functionEvals = s.functionEvals
  obj : ObjTurn Q s.obj s'.obj

theorem sample_turn {env : Env n XR R} {kind : EvalKind} {sched : Sched} {T : Mat n XR}
    {mean mean' : Vec n XR} {sigma : XR} {mode : Mode} (hA : Points Q mean mean' sigma)
    {s s1 : Sampler n XR R} {res : Option (List (EvaluatedPoint n XR))} {r : R} {k : Nat}
    (hreal : ∀ j, RealPoint (T.mulVec (env.rng.vector r j)))
    (hk : s.rng = env.rng.after r (k * n))
    (h : s.sample env kind sched T mean sigma mode = .ok (res, s1)) :
    ∃ k', k ≤ k' ∧ s1.rng = env.rng.after r (k' * n) ∧
      ∀ {R' : Type} (env' : Env n XR R') (r' : R') (T' : Mat n XR) (s' : Sampler n XR R'),
        env'.resampleFuel = env.resampleFuel → SamplerTurn Q s s' →
        s'.rng = env'.rng.after r' (k * n) →
        (∀ j, k ≤ j → j < k' → T'.mulVec (env'.rng.vector r' j) =
          turn Q (T.mulVec (env.rng.vector r j))) →
        ∃ s1', s'.sample env' kind sched T' mean' sigma mode =
            .ok (res.map (List.map (turnPt Q)), s1') ∧ SamplerTurn Q s1 s1' ∧
          s1'.rng = env'.rng.after r' (k' * n) := by
  have h0 := h
  unfold Sampler.sample at h
  rw [Outcome.bind_eq_ok, hk] at h
  obtain ⟨⟨ys, rr⟩, h1, h⟩ := h
  obtain ⟨hys, k', g1, g2, g3⟩ := resample_turn hA hreal (by simp) h1
  have hrng : s1.rng = rr := by
    obtain ⟨_, _, hys', _⟩ := sample_cases h0
    rw [hk, h1] at hys'
    injection hys' with e
    injection e with _ e
    exact e.symm
  refine ⟨k', g1, by rw [hrng, g2], fun env' r' T' s' hfuel hs hr hdeal => ?_⟩
  have g4 := g3 env'.rng r' T' s'.constraints hs.constraints hdeal
  unfold Sampler.sample
  rw [← hs.maxResamples, ← hs.populationSize, ← hfuel, ← hr, List.map_nil] at g4
  rw [g4, Outcome.ok_bind]
  have hnone : ∀ ob ob', ObjTurn Q ob ob' →
      Outcome.ok (none, ({ s with rng := rr, obj := ob } : Sampler n XR R)) = .ok (res, s1) →
      ∃ s1', Outcome.ok (none,
          ({ s' with rng := env'.rng.after r' (k' * n), obj := ob' } : Sampler n XR _)) =
          .ok (res.map (List.map (turnPt Q)), s1') ∧ SamplerTurn Q s1 s1' ∧
        s1'.rng = env'.rng.after r' (k' * n) := by
    intro ob ob' h2 h3
    simp only [Outcome.ok.injEq, Prod.mk.injEq] at h3
    obtain ⟨rfl, rfl⟩ := h3
    exact ⟨_, rfl, ⟨hs.constraints, hs.maxResamples, hs.populationSize, hs.functionEvals, h2⟩, rfl⟩
  have hsome : ∀ ps ob ob', ObjTurn Q ob ob' →
      Outcome.ok (some (sortPoints mode ps), ({ s with
            rng := rr, obj := ob, functionEvals := s.functionEvals + ps.length } :
              Sampler n XR R)) = .ok (res, s1) →
      ∃ s1', Outcome.ok (some (sortPoints mode (ps.map (turnPt Q))), ({ s' with
            rng := env'.rng.after r' (k' * n), obj := ob'
            functionEvals := s'.functionEvals + (ps.map (turnPt Q)).length } : Sampler n XR _)) =
          .ok (res.map (List.map (turnPt Q)), s1') ∧ SamplerTurn Q s1 s1' ∧
        s1'.rng = env'.rng.after r' (k' * n) := by
    intro ps ob ob' h2 h3
    simp only [Outcome.ok.injEq, Prod.mk.injEq] at h3
    obtain ⟨rfl, rfl⟩ := h3
    rw [sortPoints_turn]
    refine ⟨_, rfl, ⟨hs.constraints, hs.maxResamples, hs.populationSize,
      by simp [hs.functionEvals], h2⟩, rfl⟩
  cases kind with
  | seq =>
    obtain ⟨h1, h2⟩ := evalSeq_turn hA ys hys hs.obj
    rcases hx : evalSeq mean sigma ys s.obj with ⟨er, ob⟩
    rcases hx' : evalSeq mean' sigma (ys.map (turn Q)) s'.obj with ⟨er', ob'⟩
    rw [hx, hx'] at h1 h2
    simp only at h1 h2
    subst h1
    simp only [hx] at h
    simp only [hx']
    cases er with
    | none => exact hnone ob ob' h2 h
    | some ps => exact hsome ps ob ob' h2 h
  | par =>
    obtain ⟨h1, h2⟩ := evalPar_turn hA sched ys hys hs.obj
    rcases hx : evalPar sched mean sigma ys s.obj with ⟨er, ob⟩
    rcases hx' : evalPar sched mean' sigma (ys.map (turn Q)) s'.obj with ⟨er', ob'⟩
    rw [hx, hx'] at h1 h2
    simp only at h1 h2
    subst h1
    simp only [hx] at h
    simp only [hx']
    cases er with
    | none => exact hnone ob ob' h2 h
    | some ps => exact hsome ps ob ob' h2 h

/-! ### History -/

theorem medianValue_turn (inds : List (EvaluatedPoint n XR)) :
    medianValue (inds.map (turnPt Q)) = medianValue inds := by
  unfold medianValue
  simp only [List.length_map, List.getElem?_map]
  split
  · split
    · rfl
    · cases inds[inds.length / 2 - 1]? with
      | none => rfl
      | some a =>
        cases inds[inds.length / 2]? with
        | none => rfl
        | some b => rfl
  · cases inds[inds.length / 2]? with
    | none => rfl
    | some a => rfl

theorem history_update_turn (h : History n XR) (mode : Mode) (inds : List (EvaluatedPoint n XR)) :
    (h.moved (turn Q)).update mode (inds.map (turnPt Q)) =
      History.moved (turn Q) <$> h.update mode inds := by
  unfold History.update
  rw [medianValue_turn, List.getElem?_map]
  cases inds[0]? with
  | none => rfl
  | some a =>
    cases medianValue inds with
    | panic p => rfl
    | diverge => rfl
    | ok m =>
      show Outcome.ok _ = Outcome.ok _
      congr 1
      obtain ⟨bv, mv, cb, ob, fm, bm⟩ := h
      simp only [History.moved, History.updateBest, History.mk.injEq, true_and]
      refine ⟨rfl, rfl, ?_, trivial⟩
      cases ob with
      | none => rfl
      | some x =>
        show (if mode.isBetter a.value x.value = true then
            some (Individual.moved (turn Q) ⟨a.point, a.value⟩) else some (Individual.moved (turn Q) x)) =
          Option.map (Individual.moved (turn Q))
            (if mode.isBetter a.value x.value = true then some ⟨a.point, a.value⟩ else some x)
        split <;> rfl

end Cmaes
