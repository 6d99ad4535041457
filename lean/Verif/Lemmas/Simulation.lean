import Verif.Lemmas.Resample
import Verif.Lemmas.History
import Verif.Spec.Simulation

/-!
# Lemmas for comparing two runs
-/

set_option linter.unusedSectionVars false

namespace Cmaes

namespace Outcome.Rel
variable {α β γ δ : Type} {P : α → β → Prop} {Q : γ → δ → Prop}

theorem bind {x : Outcome α} {y : Outcome β} {f : α → Outcome γ} {g : β → Outcome δ}
    (h : Rel P x y) (hf : ∀ a b, P a b → Rel Q (f a) (g b)) : Rel Q (x >>= f) (y >>= g) := by
  cases h with
  | ok h => exact hf _ _ h
  | panic p => exact .panic p
  | diverge => exact .diverge

theorem mono {P' : α → β → Prop} {x : Outcome α} {y : Outcome β} (h : Rel P x y)
    (hp : ∀ a b, P a b → P' a b) : Rel P' x y := by
  cases h with
  | ok h => exact .ok (hp _ _ h)
  | panic p => exact .panic p
  | diverge => exact .diverge

theorem refl_eq (x : Outcome α) : Rel Eq x x := by
  cases x with
  | ok a => exact .ok rfl
  | panic p => exact .panic p
  | diverge => exact .diverge

theorem of_eq {x y : Outcome α} (h : x = y) : Rel Eq x y := h ▸ refl_eq x

theorem ok_left {a : α} {y : Outcome β} (h : Rel P (.ok a) y) : ∃ b, y = .ok b ∧ P a b := by
  cases h with
  | ok h => exact ⟨_, rfl, h⟩

theorem ok_right {x : Outcome α} {b : β} (h : Rel P x (.ok b)) : ∃ a, x = .ok a ∧ P a b := by
  cases h with
  | ok h => exact ⟨_, rfl, h⟩

theorem ok_ok {a : α} {b : β} (h : Rel P (.ok a) (.ok b)) : P a b := by
  cases h with
  | ok h => exact h

end Outcome.Rel

variable {n : Nat} {F R : Type} [Flt F]

/-- Changes the value of a point. -/
def mapPt (φ : F → F) (p : EvaluatedPoint n F) : EvaluatedPoint n F := { p with value := φ p.value }

@[simp] theorem mapPt_point (φ : F → F) (p : EvaluatedPoint n F) :
    (mapPt φ p).point = p.point := rfl
@[simp] theorem mapPt_step (φ : F → F) (p : EvaluatedPoint n F) :
    (mapPt φ p).unscaledStep = p.unscaledStep := rfl
@[simp] theorem mapPt_value (φ : F → F) (p : EvaluatedPoint n F) :
    (mapPt φ p).value = φ p.value := rfl

/-- `o'` is `o` with transformed values. -/
structure ObjSim (φ : F → F) (o o' : Obj n F) : Prop where
  f : Transformed φ o.f o'.f
  log : o'.log = mapCalls φ o.log

variable {φ : F → F}

/-- `φ` keeps NaN and non-NaN values of the objective apart. -/
def NanSim (φ : F → F) (f : List (Vec n F × F) → Vec n F → F) : Prop :=
  ∀ log x, Flt.isNaN (φ (f log x)) = Flt.isNaN (f log x)

theorem new_f (y mean : Vec n F) (sigma : F) (o : Obj n F) :
    (EvaluatedPoint.new y mean sigma o).2.f = o.f := by
  obtain ⟨v, _, h2, _⟩ := new_spec y mean sigma o
  rw [h2]

theorem new_sim {o o' : Obj n F} (hφ : NanSim φ o.f) (h : ObjSim φ o o')
    (y mean : Vec n F) (sigma : F) :
    (EvaluatedPoint.new y mean sigma o').1 = (EvaluatedPoint.new y mean sigma o).1.map (mapPt φ) ∧
    ObjSim φ (EvaluatedPoint.new y mean sigma o).2 (EvaluatedPoint.new y mean sigma o').2 := by
  obtain ⟨v, hv, h2, h1⟩ := new_spec y mean sigma o
  obtain ⟨v', hv', h2', h1'⟩ := new_spec y mean sigma o'
  have : v' = φ v := by rw [hv', hv, h.log, h.f]
  subst this
  refine ⟨?_, ?_, ?_⟩
  · have hφ' : Flt.isNaN (φ v) = Flt.isNaN v := by rw [hv]; exact hφ _ _
    rw [h1, h1', hφ']
    by_cases hn : Flt.isNaN v = true
    · simp [hn]
    · simp [hn, mapPt]
  · rw [h2, h2']; exact h.f
  · rw [h2, h2', h.log]; simp [mapCalls]

theorem evalSeq_sim (mean : Vec n F) (sigma : F) (ys : List (Vec n F)) {o o' : Obj n F}
    (hφ : NanSim φ o.f) (h : ObjSim φ o o') :
    (evalSeq mean sigma ys o').1 = (evalSeq mean sigma ys o).1.map (List.map (mapPt φ)) ∧
    ObjSim φ (evalSeq mean sigma ys o).2 (evalSeq mean sigma ys o').2 := by
  induction ys generalizing o o' with
  | nil => exact ⟨rfl, h⟩
  | cons y ys ih =>
    obtain ⟨h1, h2⟩ := new_sim hφ h y mean sigma
    have hf := new_f y mean sigma o
    simp only [evalSeq]
    cases hx : EvaluatedPoint.new y mean sigma o with
    | mk p o1 =>
      cases hx' : EvaluatedPoint.new y mean sigma o' with
      | mk p' o1' =>
        rw [hx, hx'] at h1 h2
        rw [hx] at hf
        simp only at h1 h2 hf
        subst h1
        cases p with
        | none => exact ⟨rfl, h2⟩
        | some p =>
          obtain ⟨h3, h4⟩ := ih (by rw [hf]; exact hφ) h2
          simp only [Option.map_some]
          cases hy : evalSeq mean sigma ys o1 with
          | mk q o2 =>
            cases hy' : evalSeq mean sigma ys o1' with
            | mk q' o2' =>
              rw [hy, hy'] at h3 h4
              simp only at h3 h4
              subst h3
              cases q with
              | none => exact ⟨rfl, h4⟩
              | some q => exact ⟨rfl, h4⟩

/-- How many items may still be evaluated after one more. -/
def leftAfter (extra : Nat) (left : Option Nat) (failed : Bool) : Option Nat :=
  match left with
  | some k => some (k - 1)
  | none => if failed then some extra else none

theorem evalOrder_cons {mean : Vec n F} {sigma : F} {ys : List (Vec n F)} {extra i : Nat}
    {is : List Nat} {left : Option Nat} {y : Vec n F} (hl : left ≠ some 0)
    (hy : ys[i]? = some y) (o : Obj n F) :
    evalOrder mean sigma ys extra (i :: is) left o =
      ((i, (EvaluatedPoint.new y mean sigma o).1) ::
        (evalOrder mean sigma ys extra is
          (leftAfter extra left (EvaluatedPoint.new y mean sigma o).1.isNone)
          (EvaluatedPoint.new y mean sigma o).2).1,
       (evalOrder mean sigma ys extra is
          (leftAfter extra left (EvaluatedPoint.new y mean sigma o).1.isNone)
          (EvaluatedPoint.new y mean sigma o).2).2) := by
  cases left with
  | none => simp only [evalOrder, hy, leftAfter]
  | some k =>
    cases k with
    | zero => exact absurd rfl hl
    | succ k => simp only [evalOrder, hy, leftAfter]

theorem evalOrder_sim (mean : Vec n F) (sigma : F) (ys : List (Vec n F)) (extra : Nat)
    (is : List Nat) (left : Option Nat) {o o' : Obj n F} (hφ : NanSim φ o.f)
    (h : ObjSim φ o o') :
    (evalOrder mean sigma ys extra is left o').1 =
      (evalOrder mean sigma ys extra is left o).1.map (fun r => (r.1, r.2.map (mapPt φ))) ∧
    ObjSim φ (evalOrder mean sigma ys extra is left o).2
      (evalOrder mean sigma ys extra is left o').2 := by
  induction is generalizing o o' left with
  | nil => exact ⟨rfl, h⟩
  | cons i is ih =>
    by_cases hl : left = some 0
    · subst hl
      simp only [evalOrder]
      exact ⟨rfl, h⟩
    · cases hy : ys[i]? with
      | none =>
        have key : ∀ o : Obj n F, evalOrder mean sigma ys extra (i :: is) left o =
            evalOrder mean sigma ys extra is left o := by
          intro o
          simp only [evalOrder, hy]
        rw [key, key]
        exact ih left hφ h
      | some y =>
        obtain ⟨h1, h2⟩ := new_sim hφ h y mean sigma
        rw [evalOrder_cons hl hy, evalOrder_cons hl hy]
        simp only
        have hnone : (EvaluatedPoint.new y mean sigma o').1.isNone =
            (EvaluatedPoint.new y mean sigma o).1.isNone := by rw [h1]; simp
        rw [hnone]
        obtain ⟨h3, h4⟩ := ih (leftAfter extra left (EvaluatedPoint.new y mean sigma o).1.isNone)
          (by rw [new_f]; exact hφ) h2
        exact ⟨by rw [h1, h3]; rfl, h4⟩

theorem mapM_map_option {α β γ : Type} (f : α → Option β) (g : β → γ) (l : List α) :
    l.mapM (fun a => (f a).map g) = (l.mapM f).map (List.map g) := by
  induction l with
  | nil => rfl
  | cons a l ih =>
    simp only [List.mapM_cons, ih]
    cases f a with
    | none => rfl
    | some b =>
      cases l.mapM f with
      | none => rfl
      | some bs => rfl

theorem evalPar_sim (s : Sched) (mean : Vec n F)
    (sigma : F) (ys : List (Vec n F)) {o o' : Obj n F} (hφ : NanSim φ o.f) (h : ObjSim φ o o') :
    (evalPar s mean sigma ys o').1 = (evalPar s mean sigma ys o).1.map (List.map (mapPt φ)) ∧
    ObjSim φ (evalPar s mean sigma ys o).2 (evalPar s mean sigma ys o').2 := by
  obtain ⟨h1, h2⟩ := evalOrder_sim mean sigma ys s.extra (s.order ys.length) none hφ h
  unfold evalPar
  simp only
  have hany : (evalOrder mean sigma ys s.extra (s.order ys.length) none o').1.any
      (fun r => r.2.isNone) = (evalOrder mean sigma ys s.extra (s.order ys.length) none o).1.any
      (fun r => r.2.isNone) := by
    rw [h1, List.any_map]
    congr 1
    funext r
    simp
  rw [hany]
  split
  · exact ⟨rfl, h2⟩
  · refine ⟨?_, h2⟩
    simp only
    rw [← mapM_map_option]
    congr 1
    funext i
    rw [h1]
    generalize (evalOrder mean sigma ys s.extra (s.order ys.length) none o).1 = rs
    induction rs with
    | nil => rfl
    | cons r rs ih =>
      obtain ⟨j, r⟩ := r
      cases hi : i == j with
      | true =>
        simp only [List.map_cons, List.lookup_cons, hi]
        cases r <;> rfl
      | false =>
        simp only [List.map_cons, List.lookup_cons, hi]
        exact ih

/-- `φ` turns the order of `mode` into the order of `mode'`, for the values returned by `f`. -/
structure KeySim [FltLaws F] (f : List (Vec n F × F) → Vec n F → F) (φ : F → F)
    (mode mode' : Mode) : Prop where
  nan : NanSim φ f
  key : ∀ l x l' x', Flt.isNaN (f l x) = false → Flt.isNaN (f l' x') = false →
    (mode'.key (φ (f l x)) ≤ mode'.key (φ (f l' x')) ↔ mode.key (f l x) ≤ mode.key (f l' x'))

section
variable [FltLaws F]

theorem sortPoints_sim {f : List (Vec n F × F) → Vec n F → F} {mode mode' : Mode}
    (hφ : KeySim f φ mode mode') {ps : List (EvaluatedPoint n F)}
    (hn : ∀ p ∈ ps, Flt.isNaN p.value = false ∧ ∃ l x, p.value = f l x) :
    sortPoints mode' (ps.map (mapPt φ)) = (sortPoints mode ps).map (mapPt φ) := by
  unfold sortPoints stableSort
  symm
  apply List.map_insertionSort
  intro a ha b hb
  obtain ⟨ha', la, xa, hva⟩ := hn a ha
  obtain ⟨hb', lb, xb, hvb⟩ := hn b hb
  have h1 := Mode.sortCmp_ne_gt (m := mode) ha' hb'
  rw [hva] at ha'
  rw [hvb] at hb'
  have h2 := Mode.sortCmp_ne_gt (m := mode') (a := φ a.value) (b := φ b.value)
    (by rw [hva, hφ.nan]; exact ha') (by rw [hvb, hφ.nan]; exact hb')
  have h3 := hφ.key _ _ _ _ ha' hb'
  rw [← hva, ← hvb] at h3
  simp only [mapPt]
  rw [h1, h2, decide_eq_true_iff, decide_eq_true_iff]
  exact h3.symm

theorem evalPar_faithful (s : Sched) (mean : Vec n F) (sigma : F) (ys : List (Vec n F))
    (o : Obj n F) : ∃ calls, (evalPar s mean sigma ys o).2 = { o with log := o.log ++ calls } ∧
      Faithful o.f o.log calls := by
  obtain ⟨calls, h1, h2⟩ := evalOrder_faithful mean sigma ys s.extra (s.order ys.length) none o
  refine ⟨calls, ?_, h2⟩
  rw [← h1]
  simp only [evalPar]
  split <;> rfl

/-- The values of a sequence of calls are returned by the objective. -/
theorem Faithful.mem {f : List (Vec n F × F) → Vec n F → F} {log calls : List (Vec n F × F)}
    (h : Faithful f log calls) {e : Vec n F × F} (he : e ∈ calls) : ∃ l x, e.2 = f l x := by
  induction calls generalizing log with
  | nil => simp at he
  | cons a calls ih =>
    obtain ⟨x, v⟩ := a
    obtain ⟨h1, h2⟩ := h
    rcases List.mem_cons.mp he with rfl | he
    · exact ⟨log, x, h1⟩
    · exact ih h2 he

end

/-- `s'` is `s` with transformed values. -/
structure SamplerSim (φ : F → F) (s s' : Sampler n F R) : Prop where
  constraints : s'.constraints = s.constraints
  maxResamples : s'.maxResamples = s.maxResamples
  populationSize : s'.populationSize = s.populationSize
  rng : s'.rng = s.rng
  functionEvals : s'.functionEvals = s.functionEvals
  obj : ObjSim φ s.obj s'.obj

/-- Sampling with transformed values. -/
theorem sample_sim [FltLaws F] {env env' : Env n F R} (hrng : env'.rng = env.rng)
    (hfuel : env'.resampleFuel = env.resampleFuel) {kind : EvalKind} {sched : Sched} {T : Mat n F}
    {mean : Vec n F} {sigma : F} {mode mode' : Mode}
    {s s' : Sampler n F R} (hφ : KeySim s.obj.f φ mode mode') (h : SamplerSim φ s s') :
    Outcome.Rel (fun a b => b.1 = a.1.map (List.map (mapPt φ)) ∧ SamplerSim φ a.2 b.2)
      (s.sample env kind sched T mean sigma mode) (s'.sample env' kind sched T mean sigma mode') := by
  unfold Sampler.sample
  refine Outcome.Rel.bind (Outcome.Rel.of_eq ?_) ?_
  · rw [h.constraints, h.maxResamples, h.populationSize, h.rng, hrng, hfuel]
  rintro ⟨ys, r⟩ _ rfl
  have hmain : ∀ (er er' : Option (List (EvaluatedPoint n F)) × Obj n F),
      (∀ ps, er.1 = some ps → ∀ p ∈ ps,
        Flt.isNaN p.value = false ∧ ∃ l x, p.value = s.obj.f l x) →
      er'.1 = er.1.map (List.map (mapPt φ)) → ObjSim φ er.2 er'.2 →
      Outcome.Rel (fun a b => b.1 = a.1.map (List.map (mapPt φ)) ∧ SamplerSim φ a.2 b.2)
      (match er.1 with
        | none => Outcome.ok (none, ({ s with rng := r, obj := er.2 } : Sampler n F R))
        | some ps => Outcome.ok (some (sortPoints mode ps), { s with
            rng := r, obj := er.2, functionEvals := s.functionEvals + ps.length }))
      (match er'.1 with
        | none => Outcome.ok (none, ({ s' with rng := r, obj := er'.2 } : Sampler n F R))
        | some ps => Outcome.ok (some (sortPoints mode' ps), { s' with
            rng := r, obj := er'.2, functionEvals := s'.functionEvals + ps.length })) := by
    rintro ⟨er, o⟩ ⟨er', o'⟩ hn h1 h2
    simp only at h1 h2 hn
    subst h1
    cases er with
    | none =>
      exact .ok ⟨rfl, h.constraints, h.maxResamples, h.populationSize, rfl, h.functionEvals, h2⟩
    | some ps =>
      refine .ok ⟨?_, h.constraints, h.maxResamples, h.populationSize, rfl, ?_, h2⟩
      · simp only [Option.map_some]
        rw [sortPoints_sim hφ (hn ps rfl)]
      · simp [h.functionEvals]
  cases kind with
  | seq =>
    obtain ⟨h1, h2⟩ := evalSeq_sim mean sigma ys hφ.nan h.obj
    refine hmain _ _ ?_ h1 h2
    intro ps hps p hp
    obtain ⟨calls, hc, _, hs, _⟩ := evalSeq_spec (rfl : evalSeq mean sigma ys s.obj = (_, _))
    obtain ⟨calls', hc', hf⟩ := evalSeq_faithful mean sigma ys s.obj
    obtain rfl : calls' = calls := List.append_cancel_left
      ((congrArg Obj.log hc').symm.trans hc)
    obtain ⟨e1, _, e2⟩ := hs ps hps
    exact ⟨(e2 p hp).2, hf.mem (e := p.call) (by rw [e1]; exact List.mem_map_of_mem hp)⟩
  | par =>
    obtain ⟨h1, h2⟩ := evalPar_sim sched mean sigma ys hφ.nan h.obj
    refine hmain _ _ ?_ h1 h2
    intro ps hps p hp
    obtain ⟨calls, hc, _, hs, _⟩ := evalPar_spec (rfl : evalPar sched mean sigma ys s.obj = (_, _))
    obtain ⟨calls', hc', hf⟩ := evalPar_faithful sched mean sigma ys s.obj
    obtain rfl : calls' = calls := List.append_cancel_left
      ((congrArg Obj.log hc').symm.trans hc)
    obtain ⟨e1, _, e2⟩ := hs ps hps
    exact ⟨(e2 p hp).2, hf.mem (e := p.call)
      (e1.mem_iff.mpr (List.mem_map_of_mem hp))⟩

/-! ### The state update looks at the steps only -/

theorem weightedStep_congr {p : Parameters F} {inds inds' : List (EvaluatedPoint n F)}
    (h : inds'.map (fun p => p.unscaledStep) = inds.map fun p => p.unscaledStep) :
    weightedStep p inds' = weightedStep p inds := by
  have key : ∀ l : List (EvaluatedPoint n F),
      ((l.take p.mu).zipIdx.mapM fun (ind, i) => do
        let w ← Outcome.unwrap .index p.weights[i]?
        Outcome.ok (ind.unscaledStep.smul w)) =
      (((l.map fun p => p.unscaledStep).take p.mu).zipIdx.mapM fun (y, i) => do
        let w ← Outcome.unwrap .index p.weights[i]?
        Outcome.ok (Vec.smul w y)) := by
    intro l
    rw [← List.map_take, List.zipIdx_map, List.mapM_map]
    rfl
  unfold weightedStep
  rw [key, key, h]

theorem rankMuTerm_congr {p : Parameters F} {S : Mat n F} {inds inds' : List (EvaluatedPoint n F)}
    (h : inds'.map (fun p => p.unscaledStep) = inds.map fun p => p.unscaledStep) (i : Nat) (w : F) :
    rankMuTerm p S inds' i w = rankMuTerm p S inds i w := by
  have hi : inds'[i]?.map (fun p => p.unscaledStep) = inds[i]?.map fun p => p.unscaledStep := by
    rw [← List.getElem?_map, h, List.getElem?_map]
  unfold rankMuTerm
  cases h1 : inds[i]? with
  | none =>
    rw [h1] at hi
    simp only [Option.map_none, Option.map_eq_none_iff] at hi
    rw [hi]
  | some a =>
    rw [h1] at hi
    simp only [Option.map_some, Option.map_eq_some_iff] at hi
    obtain ⟨b, hb, hab⟩ := hi
    rw [hb]
    simp only [Outcome.unwrap_some, Outcome.ok_bind, hab]

theorem update_congr {eigen : Mat n F → Option (Mat n F × Vec n F)} {tree : SplitTree}
    {evals : Nat} {p p' : Parameters F} {inds inds' : List (EvaluatedPoint n F)} {s : State n F}
    (h : inds'.map (fun p => p.unscaledStep) = inds.map fun p => p.unscaledStep)
    (hp : ∃ m tp sd, p' = { p with mode := m, termination := tp, seed := sd }) :
    s.update eigen tree evals p' inds' = s.update eigen tree evals p inds := by
  obtain ⟨m, tp, sd, rfl⟩ := hp
  have h1 : weightedStep { p with mode := m, termination := tp, seed := sd } inds' =
      weightedStep p inds := (weightedStep_congr (p := p) h)
  have h2 : rankMuUpdate { p with mode := m, termination := tp, seed := sd } tree s.cov.sqrtInv
      inds' = rankMuUpdate p tree s.cov.sqrtInv inds := by
    have : ∀ i w, rankMuTerm { p with mode := m, termination := tp, seed := sd } s.cov.sqrtInv
      inds' i w = rankMuTerm p s.cov.sqrtInv inds i w := fun i w =>
        rankMuTerm_congr (p := p) h i w
    simp only [rankMuUpdate, this]
  simp only [State.update, h1, h2]
  rfl

end Cmaes
