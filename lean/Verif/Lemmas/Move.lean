import Verif.Spec.Move
import Verif.Lemmas.SearchSim

/-!
# Lemmas for comparing a run with one in a moved and scaled search space
-/

set_option linter.unusedSectionVars false

namespace Cmaes
variable {n : Nat} {F R : Type} [Flt F]

/-- A change of the search space: `pt` moves the points, `sc` scales the step size. -/
structure Similarity (n : Nat) (F : Type) [Flt F] where
  pt : Vec n F → Vec n F
  sc : F → F
  toPoint : ∀ y m σ, toPoint y (pt m) (sc σ) = pt (toPoint y m σ)
  mean : ∀ (m y : Vec n F) (c σ : F), (pt m).add (y.smul (c * sc σ)) = pt (m.add (y.smul (c * σ)))
  sigma : ∀ σ x, sc σ * x = sc (σ * x)
  tolX : ∀ σ x tol, Flt.lt (Flt.abs (sc σ * x)) (sc tol) = Flt.lt (Flt.abs (σ * x)) tol
  axis : ∀ (m v : Vec n F) (k σ d : F), (pt m).beq ((pt m).add (v.smul (k * sc σ * d))) =
    m.beq (m.add (v.smul (k * σ * d)))
  coord : ∀ (m : Vec n F) (k σ d : F) (i : Fin n),
    Flt.feq (pt m i) (pt m i + k * sc σ * d) = Flt.feq (m i) (m i + k * σ * d)
  ratio : ∀ σ m σ0, sc σ * m / sc σ0 = σ * m / σ0
  small : ∀ k σ, k * sc σ = sc (k * σ)

variable {A : Vec n F → Vec n F}

/-- Moves a point. -/
def movePt (A : Vec n F → Vec n F) (p : EvaluatedPoint n F) : EvaluatedPoint n F :=
  { p with point := A p.point }

theorem moveCalls_append (a b : List (Vec n F × F)) :
    moveCalls A (a ++ b) = moveCalls A a ++ moveCalls A b := by simp [moveCalls]

/-- `o'` is `o` with moved points. -/
structure ObjMove (A : Vec n F → Vec n F) (o o' : Obj n F) : Prop where
  f : Moved A o.f o'.f
  log : o'.log = moveCalls A o.log

section
variable {mean mean' : Vec n F} {sigma sigma' : F}
  (hA : ∀ y, toPoint y mean' sigma' = A (toPoint y mean sigma))
include hA

theorem new_move {o o' : Obj n F} (h : ObjMove A o o') (y : Vec n F) :
    (EvaluatedPoint.new y mean' sigma' o').1 = (EvaluatedPoint.new y mean sigma o).1.map (movePt A) ∧
    ObjMove A (EvaluatedPoint.new y mean sigma o).2 (EvaluatedPoint.new y mean' sigma' o').2 := by
  obtain ⟨v, hv, h2, h1⟩ := new_spec y mean sigma o
  obtain ⟨v', hv', h2', h1'⟩ := new_spec y mean' sigma' o'
  have : v' = v := by rw [hv', hv, h.log, hA, h.f]
  subst this
  refine ⟨?_, ?_, ?_⟩
  · rw [h1, h1']
    by_cases hn : Flt.isNaN v' = true
    · simp [hn]
    · simp [hn, movePt, hA]
  · rw [h2, h2']; exact h.f
  · rw [h2, h2', h.log]; simp [moveCalls, hA]

theorem evalSeq_move (ys : List (Vec n F)) {o o' : Obj n F} (h : ObjMove A o o') :
    (evalSeq mean' sigma' ys o').1 = (evalSeq mean sigma ys o).1.map (List.map (movePt A)) ∧
    ObjMove A (evalSeq mean sigma ys o).2 (evalSeq mean' sigma' ys o').2 := by
  induction ys generalizing o o' with
  | nil => exact ⟨rfl, h⟩
  | cons y ys ih =>
    obtain ⟨h1, h2⟩ := new_move hA h y
    simp only [evalSeq]
    cases hx : EvaluatedPoint.new y mean sigma o with
    | mk p o1 =>
      cases hx' : EvaluatedPoint.new y mean' sigma' o' with
      | mk p' o1' =>
        rw [hx, hx'] at h1 h2
        simp only at h1 h2
        subst h1
        cases p with
        | none => exact ⟨rfl, h2⟩
        | some p =>
          obtain ⟨h3, h4⟩ := ih h2
          simp only [Option.map_some]
          cases hy : evalSeq mean sigma ys o1 with
          | mk q o2 =>
            cases hy' : evalSeq mean' sigma' ys o1' with
            | mk q' o2' =>
              rw [hy, hy'] at h3 h4
              simp only at h3 h4
              subst h3
              cases q with
              | none => exact ⟨rfl, h4⟩
              | some q => exact ⟨rfl, h4⟩

theorem evalOrder_move (ys : List (Vec n F)) (extra : Nat) (is : List Nat) (left : Option Nat)
    {o o' : Obj n F} (h : ObjMove A o o') :
    (evalOrder mean' sigma' ys extra is left o').1 =
      (evalOrder mean sigma ys extra is left o).1.map (fun r => (r.1, r.2.map (movePt A))) ∧
    ObjMove A (evalOrder mean sigma ys extra is left o).2
      (evalOrder mean' sigma' ys extra is left o').2 := by
  induction is generalizing o o' left with
  | nil => exact ⟨rfl, h⟩
  | cons i is ih =>
    by_cases hl : left = some 0
    · subst hl
      simp only [evalOrder]
      exact ⟨rfl, h⟩
    · cases hy : ys[i]? with
      | none =>
        have key : ∀ (m : Vec n F) (s : F) (o : Obj n F), evalOrder m s ys extra (i :: is) left o =
            evalOrder m s ys extra is left o := by
          intro m s o
          simp only [evalOrder, hy]
        rw [key, key]
        exact ih left h
      | some y =>
        obtain ⟨h1, h2⟩ := new_move hA h y
        rw [evalOrder_cons hl hy, evalOrder_cons hl hy]
        simp only
        have hnone : (EvaluatedPoint.new y mean' sigma' o').1.isNone =
            (EvaluatedPoint.new y mean sigma o).1.isNone := by rw [h1]; simp
        rw [hnone]
        obtain ⟨h3, h4⟩ := ih (leftAfter extra left (EvaluatedPoint.new y mean sigma o).1.isNone) h2
        exact ⟨by rw [h1, h3]; rfl, h4⟩

theorem evalPar_move (s : Sched) (ys : List (Vec n F)) {o o' : Obj n F} (h : ObjMove A o o') :
    (evalPar s mean' sigma' ys o').1 = (evalPar s mean sigma ys o).1.map (List.map (movePt A)) ∧
    ObjMove A (evalPar s mean sigma ys o).2 (evalPar s mean' sigma' ys o').2 := by
  obtain ⟨h1, h2⟩ := evalOrder_move hA ys s.extra (s.order ys.length) none h
  unfold evalPar
  simp only
  have hany : (evalOrder mean' sigma' ys s.extra (s.order ys.length) none o').1.any
      (fun r => r.2.isNone) = (evalOrder mean sigma ys s.extra (s.order ys.length) none o).1.any
      (fun r => r.2.isNone) := by
    rw [h1, List.any_map]
    congr 1
    funext r
    simp
  rw [hany]
  split
  · exact ⟨rfl, h2⟩
  · refine ⟨?_, h2⟩
    simp only
    rw [← mapM_map_option]
    congr 1
    funext i
    rw [h1]
    generalize (evalOrder mean sigma ys s.extra (s.order ys.length) none o).1 = rs
    induction rs with
    | nil => rfl
    | cons r rs ih =>
      obtain ⟨j, r⟩ := r
      cases hi : i == j with
      | true =>
        simp only [List.map_cons, List.lookup_cons, hi]
        cases r <;> rfl
      | false =>
        simp only [List.map_cons, List.lookup_cons, hi]
        exact ih

theorem sampleRound_move {rng : RngOps R F} {T : Mat n F} {cs cs' : Option (Constraint F)}
    (hc : Option.Rel (MovedConstraint A) cs cs') (m : Nat) (r : R) :
    sampleRound rng T mean' sigma' cs' m r = sampleRound rng T mean sigma cs m r := by
  unfold sampleRound
  cases hc with
  | none => rfl
  | some hc =>
    simp only [hA, hc _]

omit hA in
theorem round_move {cs cs' : Option (Constraint F)}
    (hc : Option.Rel (MovedConstraint A) cs cs') (mx : Option Nat) (i : Nat) :
    Option.Rel (MovedConstraint A)
      (match mx with | some mx => if mx ≤ i then none else cs | none => cs)
      (match mx with | some mx => if mx ≤ i then none else cs' | none => cs') := by
  cases mx with
  | none => exact hc
  | some mx =>
    by_cases h : mx ≤ i
    · simp only [if_pos h]; exact .none
    · simp only [if_neg h]; exact hc

theorem resample_move {rng : RngOps R F} {T : Mat n F} {cs cs' : Option (Constraint F)}
    (hc : Option.Rel (MovedConstraint A) cs cs') (mx : Option Nat) (pop : Nat) (fuel i : Nat)
    (y : List (Vec n F)) (r : R) :
    resample rng T mean' sigma' cs' mx pop fuel i y r =
      resample rng T mean sigma cs mx pop fuel i y r := by
  induction fuel generalizing i y r with
  | zero => rfl
  | succ fuel ih =>
    have hcs := round_move hc mx i
    simp only [resample]
    by_cases h1 : pop < y.length
    · rw [if_pos h1, if_pos h1]
    · rw [if_neg h1, if_neg h1]
      by_cases h2 : pop - y.length = 0
      · rw [if_pos h2, if_pos h2]
      · rw [if_neg h2, if_neg h2]
        have key := sampleRound_move (rng := rng) (T := T) hA hcs (pop - y.length) r
        cases mx with
        | none =>
          simp only at key ⊢
          rw [key]
          simp only [ih]
        | some mx =>
          simp only at key ⊢
          rw [key]
          simp only [ih]

end

theorem sortPoints_move (mode : Mode) (ps : List (EvaluatedPoint n F)) :
    sortPoints mode (ps.map (movePt A)) = (sortPoints mode ps).map (movePt A) := by
  unfold sortPoints stableSort
  symm
  apply List.map_insertionSort
  intro a _ b _
  rfl

/-- `s'` samples in the moved space. -/
structure SamplerMove (A : Vec n F → Vec n F) (s s' : Sampler n F R) : Prop where
  constraints : Option.Rel (MovedConstraint A) s.constraints s'.constraints
  maxResamples : s'.maxResamples = s.maxResamples
  populationSize : s'.populationSize = s.populationSize
  rng : s'.rng = s.rng
  functionEvals : s'.functionEvals = s.functionEvals
  obj : ObjMove A s.obj s'.obj

theorem sample_move {env : Env n F R} {kind : EvalKind} {sched : Sched} {T : Mat n F}
    {mean mean' : Vec n F} {sigma sigma' : F} {mode : Mode}
    (hA : ∀ y, toPoint y mean' sigma' = A (toPoint y mean sigma))
    {s s' : Sampler n F R} (h : SamplerMove A s s') :
    Outcome.Rel (fun a b => b.1 = a.1.map (List.map (movePt A)) ∧ SamplerMove A a.2 b.2)
      (s.sample env kind sched T mean sigma mode) (s'.sample env kind sched T mean' sigma' mode) := by
  unfold Sampler.sample
  refine Outcome.Rel.bind (Outcome.Rel.of_eq ?_) ?_
  · rw [h.maxResamples, h.populationSize, h.rng, resample_move hA h.constraints]
  rintro ⟨ys, r⟩ _ rfl
  have hmain : ∀ (er er' : Option (List (EvaluatedPoint n F)) × Obj n F),
      er'.1 = er.1.map (List.map (movePt A)) → ObjMove A er.2 er'.2 →
      Outcome.Rel (fun a b => b.1 = a.1.map (List.map (movePt A)) ∧ SamplerMove A a.2 b.2)
      (match er.1 with
        | none => Outcome.ok (none, ({ s with rng := r, obj := er.2 } : Sampler n F R))
        | some ps => Outcome.ok (some (sortPoints mode ps), { s with
            rng := r, obj := er.2, functionEvals := s.functionEvals + ps.length }))
      (match er'.1 with
        | none => Outcome.ok (none, ({ s' with rng := r, obj := er'.2 } : Sampler n F R))
        | some ps => Outcome.ok (some (sortPoints mode ps), { s' with
            rng := r, obj := er'.2, functionEvals := s'.functionEvals + ps.length })) := by
    rintro ⟨er, o⟩ ⟨er', o'⟩ h1 h2
    simp only at h1 h2
    subst h1
    cases er with
    | none =>
      exact .ok ⟨rfl, h.constraints, h.maxResamples, h.populationSize, rfl, h.functionEvals, h2⟩
    | some ps =>
      refine .ok ⟨?_, h.constraints, h.maxResamples, h.populationSize, rfl, ?_, h2⟩
      · simp only [Option.map_some]
        rw [sortPoints_move]
      · simp [h.functionEvals]
  cases kind with
  | seq =>
    obtain ⟨h1, h2⟩ := evalSeq_move hA ys h.obj
    exact hmain _ _ h1 h2
  | par =>
    obtain ⟨h1, h2⟩ := evalPar_move hA sched ys h.obj
    exact hmain _ _ h1 h2

/-! ### History -/

/-- The history with moved individuals. -/
def History.moved (A : Vec n F → Vec n F) (h : History n F) : History n F :=
  { h with
    currentBest := h.currentBest.map (Individual.moved A)
    overallBest := h.overallBest.map (Individual.moved A) }

theorem medianValue_move (inds : List (EvaluatedPoint n F)) :
    medianValue (inds.map (movePt A)) = medianValue inds := by
  unfold medianValue
  simp only [List.length_map, List.getElem?_map]
  split
  · split
    · rfl
    · cases inds[inds.length / 2 - 1]? with
      | none => rfl
      | some a =>
        cases inds[inds.length / 2]? with
        | none => rfl
        | some b => rfl
  · cases inds[inds.length / 2]? with
    | none => rfl
    | some a => rfl

theorem history_update_move (h : History n F) (mode : Mode) (inds : List (EvaluatedPoint n F)) :
    (h.moved A).update mode (inds.map (movePt A)) = History.moved A <$> h.update mode inds := by
  unfold History.update
  rw [medianValue_move, List.getElem?_map]
  cases inds[0]? with
  | none => rfl
  | some a =>
    cases medianValue inds with
    | panic p => rfl
    | diverge => rfl
    | ok m =>
      show Outcome.ok _ = Outcome.ok _
      congr 1
      obtain ⟨bv, mv, cb, ob, fm, bm⟩ := h
      simp only [History.moved, History.updateBest, History.mk.injEq, true_and]
      refine ⟨rfl, rfl, ?_, trivial⟩
      cases ob with
      | none => rfl
      | some x =>
        show (if mode.isBetter a.value x.value = true then
            some (Individual.moved A ⟨a.point, a.value⟩) else some (Individual.moved A x)) =
          Option.map (Individual.moved A)
            (if mode.isBetter a.value x.value = true then some ⟨a.point, a.value⟩ else some x)
        split <;> rfl

/-! ### State and termination -/

/-- The state in the moved space. -/
def State.moved (S : Similarity n F) (s : State n F) : State n F :=
  { s with mean := S.pt s.mean, sigma := S.sc s.sigma }

/-- The parameters in the moved space. -/
def Parameters.moved (S : Similarity n F) (p : Parameters F) : Parameters F :=
  { p with
    initialSigma := S.sc p.initialSigma
    termination := { p.termination with tolX := S.sc p.termination.tolX } }

theorem map_step_movePt (l : List (EvaluatedPoint n F)) :
    (l.map (movePt A)).map (fun p => p.unscaledStep) = l.map fun p => p.unscaledStep := by
  simp [List.map_map, Function.comp_def, movePt]

theorem update_move (S : Similarity n F) {eigen : Mat n F → Option (Mat n F × Vec n F)}
    {tree : SplitTree} {evals : Nat} {p : Parameters F} {inds : List (EvaluatedPoint n F)}
    {s : State n F} :
    (s.moved S).update eigen tree evals (p.moved S) (inds.map (movePt S.pt)) =
      (fun r => (r.1.moved S, r.2)) <$> s.update eigen tree evals p inds := by
  have h1 : weightedStep (p.moved S) (inds.map (movePt S.pt)) = weightedStep p inds :=
    weightedStep_congr (p := p) (map_step_movePt inds)
  have h2 : rankMuUpdate (p.moved S) tree s.cov.sqrtInv (inds.map (movePt S.pt)) =
      rankMuUpdate p tree s.cov.sqrtInv inds := by
    have : ∀ i w, rankMuTerm (p.moved S) s.cov.sqrtInv (inds.map (movePt S.pt)) i w =
        rankMuTerm p s.cov.sqrtInv inds i w := fun i w =>
      rankMuTerm_congr (p := p) (map_step_movePt inds) i w
    simp only [rankMuUpdate, this]
    rfl
  simp only [Outcome.map_eq_bind]
  unfold State.update
  rw [h1]
  cases weightedStep p inds with
  | panic p => rfl
  | diverge => rfl
  | ok yw =>
    simp only [Outcome.ok_bind]
    have e1 : newPathSigma (p.moved S) (s.moved S) yw = newPathSigma p s yw := rfl
    have e2 : ∀ g (v : Vec n F), heaviside (p.moved S) g v = heaviside p g v := fun _ _ => rfl
    rw [e1, e2, show (s.moved S).generation = s.generation from rfl]
    cases heaviside p s.generation (newPathSigma p s yw) with
    | panic p => rfl
    | diverge => rfl
    | ok hs =>
      simp only [Outcome.ok_bind]
      rw [show (s.moved S).cov = s.cov from rfl, h2]
      cases rankMuUpdate p tree s.cov.sqrtInv inds with
      | panic p => rfl
      | diverge => rfl
      | ok rm =>
        simp only [Outcome.ok_bind]
        have e3 : newPathC (p.moved S) (s.moved S) hs yw = newPathC p s hs yw := rfl
        have e4 : ∀ c v, newCov (p.moved S) c hs v rm = newCov p c hs v rm := fun _ _ => rfl
        have e5 : newSigma (p.moved S) (s.moved S).sigma (newPathSigma p s yw) =
            S.sc (newSigma p s.sigma (newPathSigma p s yw)) := S.sigma _ _
        have e6 : (s.moved S).mean.add (yw.smul ((p.moved S).cm * (s.moved S).sigma)) =
            S.pt (s.mean.add (yw.smul (p.cm * s.sigma))) := S.mean _ _ _ _
        have e7 : evalsPerEigenUpdate (p.moved S) = evalsPerEigenUpdate p := rfl
        have e8 : (s.moved S).lastEigenUpdateEvals = s.lastEigenUpdateEvals := rfl
        rw [e3, e4, e5, e6, e7, e8]
        cases s.cov.setCov eigen (newCov p s.cov.cov hs (newPathC p s hs yw) rm)
          (decide (s.lastEigenUpdateEvals + evalsPerEigenUpdate p ≤ evals)) with
        | mk cov ok =>
          cases ok <;> rfl

theorem check_move (S : Similarity n F) {m : List F → Outcome F} {t : TerminationCheck n F} :
    ({ t with
        parameters := t.parameters.moved S
        state := t.state.moved S
        history := t.history.moved S.pt
        individuals := t.individuals.map (movePt S.pt) } : TerminationCheck n F).check m =
      t.check m := by
  set t' : TerminationCheck n F := { t with
        parameters := t.parameters.moved S
        state := t.state.moved S
        history := t.history.moved S.pt
        individuals := t.individuals.map (movePt S.pt) } with ht'
  have h1 : t'.funTarget = t.funTarget := by
    simp only [TerminationCheck.funTarget, ht', Parameters.moved]
    cases t.parameters.termination.funTarget with
    | none => rfl
    | some v => simp only [List.any_map]; rfl
  have h2 : t'.tolFun = t.tolFun := by
    simp only [TerminationCheck.tolFun, ht', Parameters.moved, History.moved, List.map_map]
    rfl
  have h3 : t'.tolStagnation m = t.tolStagnation m := rfl
  have h4 : t'.tolX = t.tolX := by
    simp only [TerminationCheck.tolX, ht', Parameters.moved, State.moved, S.tolX]
  have h5 : t'.noEffectAxis = t.noEffectAxis := by
    simp only [TerminationCheck.noEffectAxis, ht', State.moved, S.axis]
  have h6 : t'.noEffectCoord = t.noEffectCoord := by
    simp only [TerminationCheck.noEffectCoord, ht', State.moved, S.coord]
  have h7 : t'.tolXUp = t.tolXUp := by
    simp only [TerminationCheck.tolXUp, ht', State.moved, Parameters.moved, S.ratio]
  unfold TerminationCheck.check
  rw [h1, h2, h3, h4, h5, h6, h7]
  rfl

end Cmaes
