import Verif.Lemmas.Sampling

/-!
# Lemmas about sorting a generation
-/

set_option linter.unusedSectionVars false

namespace Cmaes
variable {n : Nat} {F R : Type} [Flt F] [FltLaws F]
open FltLaws

/-- The order by key. -/
def KeyLe (mode : Mode) (a b : EvaluatedPoint n F) : Prop :=
  mode.key a.value ≤ mode.key b.value

noncomputable instance (mode : Mode) : DecidableRel (KeyLe (n := n) (F := F) mode) :=
  fun _ _ => Classical.propDecidable _
instance (mode : Mode) : Std.Total (KeyLe (n := n) (F := F) mode) := ⟨fun _ _ => le_total _ _⟩
instance (mode : Mode) : IsTrans (EvaluatedPoint n F) (KeyLe mode) :=
  ⟨fun _ _ _ h h' => le_trans h h'⟩

theorem stableSort_perm {α : Type} (le : α → α → Bool) (l : List α) :
    (stableSort le l).Perm l := List.perm_insertionSort _ l

theorem sortPoints_perm (mode : Mode) (ps : List (EvaluatedPoint n F)) :
    (sortPoints mode ps).Perm ps := stableSort_perm _ _

theorem sortPoints_length (mode : Mode) (ps : List (EvaluatedPoint n F)) :
    (sortPoints mode ps).length = ps.length := (sortPoints_perm mode ps).length_eq

theorem sortPoints_eq {mode : Mode} {ps : List (EvaluatedPoint n F)}
    (h : ∀ p ∈ ps, Flt.isNaN p.value = false) :
    sortPoints mode ps = ps.insertionSort (KeyLe mode) := by
  have := List.map_insertionSort
    (r := fun a b : EvaluatedPoint n F => (mode.sortCmp a.value b.value != .gt) = true)
    (s := KeyLe mode) id ps
    (fun a ha b hb => by
      simp only [id]; rw [Mode.sortCmp_ne_gt (h a ha) (h b hb)]; simp [KeyLe])
  simpa [sortPoints, stableSort] using this

theorem sortPoints_pairwise {mode : Mode} {ps : List (EvaluatedPoint n F)}
    (h : ∀ p ∈ ps, Flt.isNaN p.value = false) :
    (sortPoints mode ps).Pairwise (fun a b => mode.key a.value ≤ mode.key b.value) := by
  rw [sortPoints_eq h]
  exact List.pairwise_insertionSort (KeyLe mode) ps

/-- Stability: the points of equal value keep their order. -/
theorem sortPoints_filter {mode : Mode} {ps : List (EvaluatedPoint n F)}
    (h : ∀ p ∈ ps, Flt.isNaN p.value = false) (v : F) :
    (sortPoints mode ps).filter (fun p => Flt.feq p.value v) =
      ps.filter (fun p => Flt.feq p.value v) := by
  symm
  have hperm : (sortPoints mode ps).Perm ps := sortPoints_perm mode ps
  have hlen : (ps.filter (fun p => Flt.feq p.value v)).length =
      ((sortPoints mode ps).filter (fun p => Flt.feq p.value v)).length :=
    (hperm.filter _).length_eq.symm
  have hs : (ps.filter (fun p => Flt.feq p.value v)).Sublist (sortPoints mode ps) := by
    rw [sortPoints_eq h]
    refine List.sublist_insertionSort (r := KeyLe mode) ?_ List.filter_sublist
    refine List.pairwise_of_forall_mem_list ?_
    intro a ha b hb
    have ha' := (List.mem_filter.mp ha).2
    have hb' := (List.mem_filter.mp hb).2
    rw [feq_iff] at ha' hb'
    have : mode.key a.value = mode.key b.value := by
      cases mode <;> simp [Mode.key, ha'.2.2, hb'.2.2]
    simp [KeyLe, this]
  have hs2 : (ps.filter (fun p => Flt.feq p.value v)).Sublist
      ((sortPoints mode ps).filter (fun p => Flt.feq p.value v)) := by
    have := hs.filter (fun p => Flt.feq p.value v)
    rwa [List.filter_filter, show (fun a : EvaluatedPoint n F =>
      Flt.feq a.value v && Flt.feq a.value v) = fun a => Flt.feq a.value v from by
        funext a; simp] at this
  exact hs2.eq_of_length hlen

/-- What a sampling that met no NaN delivers: `ps` are the points in sampling order, `inds` the
sorted generation, `calls` the objective calls in the order in which they were made. -/
structure Sampled (kind : EvalKind) (mean : Vec n F) (sigma : F) (mode : Mode) (lambda : Nat)
    (calls : List (Vec n F × F)) (ps inds : List (EvaluatedPoint n F)) : Prop where
  len : ps.length = lambda
  sort : inds = sortPoints mode ps
  perm : calls.Perm (ps.map EvaluatedPoint.call)
  seq : kind = .seq → calls = ps.map EvaluatedPoint.call
  point : ∀ p ∈ ps, p.point = toPoint p.unscaledStep mean sigma
  noNaN : ∀ p ∈ ps, Flt.isNaN p.value = false

namespace Sampled
variable {kind : EvalKind} {mean : Vec n F} {sigma : F} {mode : Mode} {lambda : Nat}
    {calls : List (Vec n F × F)} {ps inds : List (EvaluatedPoint n F)}

theorem indsPerm (h : Sampled kind mean sigma mode lambda calls ps inds) : inds.Perm ps :=
  h.sort ▸ sortPoints_perm mode ps
theorem mem_inds (h : Sampled kind mean sigma mode lambda calls ps inds) {p} :
    p ∈ inds ↔ p ∈ ps := h.indsPerm.mem_iff
theorem length (h : Sampled kind mean sigma mode lambda calls ps inds) :
    inds.length = lambda := by rw [h.indsPerm.length_eq, h.len]
theorem callsPerm (h : Sampled kind mean sigma mode lambda calls ps inds) :
    calls.Perm (inds.map EvaluatedPoint.call) := h.perm.trans (h.indsPerm.symm.map _)
theorem callsLength (h : Sampled kind mean sigma mode lambda calls ps inds) :
    calls.length = lambda := by rw [h.perm.length_eq, List.length_map, h.len]
theorem inds_noNaN (h : Sampled kind mean sigma mode lambda calls ps inds) :
    ∀ p ∈ inds, Flt.isNaN p.value = false := fun p hp => h.noNaN p (h.mem_inds.mp hp)
theorem calls_noNaN (h : Sampled kind mean sigma mode lambda calls ps inds) :
    ∀ e ∈ calls, Flt.isNaN e.2 = false := by
  intro e he
  obtain ⟨p, hp, rfl⟩ := List.mem_map.mp (h.perm.mem_iff.mp he)
  exact h.noNaN p hp
theorem sorted (h : Sampled kind mean sigma mode lambda calls ps inds) :
    inds.Pairwise (fun a b => mode.key a.value ≤ mode.key b.value) :=
  h.sort ▸ sortPoints_pairwise h.noNaN

end Sampled

/-- The two ways a sampling can end. -/
theorem sample_cases {env : Env n F R} {kind : EvalKind} {sched : Sched} {T : Mat n F}
    {mean : Vec n F} {sigma : F} {mode : Mode} {s s' : Sampler n F R}
    {res : Option (List (EvaluatedPoint n F))}
    (h : s.sample env kind sched T mean sigma mode = .ok (res, s')) :
    ∃ ys calls, resample env.rng T mean sigma s.constraints s.maxResamples
        s.populationSize env.resampleFuel 0 [] s.rng = .ok (ys, s'.rng) ∧
      s'.obj.log = s.obj.log ++ calls ∧
      s' = { s with rng := s'.rng, obj := { s.obj with log := s.obj.log ++ calls },
                    functionEvals := s'.functionEvals } ∧
      ((res = none ∧ (∃ e ∈ calls, Flt.isNaN e.2 = true) ∧ calls.length ≤ s.populationSize ∧
          s'.functionEvals = s.functionEvals ∧
          (kind = .seq → ∃ pre x v, calls = pre ++ [(x, v)] ∧ Flt.isNaN v = true ∧
            ∀ e ∈ pre, Flt.isNaN e.2 = false)) ∨
       (∃ ps inds, res = some inds ∧
          Sampled kind mean sigma mode s.populationSize calls ps inds ∧
          ps.map (fun p => p.unscaledStep) = ys ∧
          s'.functionEvals = s.functionEvals + s.populationSize)) := by
  unfold Sampler.sample at h
  rw [Outcome.bind_eq_ok] at h
  obtain ⟨⟨ys, r⟩, hres, h⟩ := h
  simp only at h
  have hlen : ys.length = s.populationSize := (resample_eq_ok hres).1
  cases kind with
  | seq =>
    simp only at h
    cases hev : evalSeq mean sigma ys s.obj with
    | mk er o =>
      obtain ⟨calls, hlog, hf, hs, hn⟩ := evalSeq_spec hev
      have ho : o = { s.obj with log := s.obj.log ++ calls } := by
        cases o; simp only at hlog hf; subst hlog hf; rfl
      rw [hev] at h
      cases er with
      | none =>
        simp only [Outcome.ok.injEq, Prod.mk.injEq] at h
        obtain ⟨h1, h2⟩ := h
        subst h1 h2
        obtain ⟨pre, x, v, h1, h2, h3, h4⟩ := hn rfl
        refine ⟨ys, calls, hres, hlog, by rw [ho], .inl ⟨rfl, ⟨(x, v), by simp [h1], h2⟩,
          by omega, rfl, fun _ => ⟨pre, x, v, h1, h2, h3⟩⟩⟩
      | some ps =>
        simp only [Outcome.ok.injEq, Prod.mk.injEq] at h
        obtain ⟨h1, h2⟩ := h
        subst h1 h2
        obtain ⟨h1, h2, h3⟩ := hs ps rfl
        have hpl : ps.length = s.populationSize := by
          rw [← hlen, ← h2, List.length_map]
        exact ⟨ys, calls, hres, hlog, by rw [ho], .inr ⟨ps, _, rfl,
          ⟨hpl, rfl, by rw [h1], fun _ => h1, fun p hp => (h3 p hp).1, fun p hp => (h3 p hp).2⟩,
          h2, by rw [hpl]⟩⟩
  | par =>
    simp only at h
    cases hev : evalPar sched mean sigma ys s.obj with
    | mk er o =>
      obtain ⟨calls, hlog, hf, hs, hn, hle⟩ := evalPar_spec hev
      have ho : o = { s.obj with log := s.obj.log ++ calls } := by
        cases o; simp only at hlog hf; subst hlog hf; rfl
      rw [hev] at h
      cases er with
      | none =>
        simp only [Outcome.ok.injEq, Prod.mk.injEq] at h
        obtain ⟨h1, h2⟩ := h
        subst h1 h2
        refine ⟨ys, calls, hres, hlog, by rw [ho], .inl ⟨rfl, hn rfl,
          by omega, rfl, fun hk => by simp at hk⟩⟩
      | some ps =>
        simp only [Outcome.ok.injEq, Prod.mk.injEq] at h
        obtain ⟨h1, h2⟩ := h
        subst h1 h2
        obtain ⟨h1, h2, h3⟩ := hs ps rfl
        have hpl : ps.length = s.populationSize := by
          rw [← hlen, ← h2, List.length_map]
        exact ⟨ys, calls, hres, hlog, by rw [ho], .inr ⟨ps, _, rfl,
          ⟨hpl, rfl, h1, fun hk => by simp at hk, fun p hp => (h3 p hp).1,
            fun p hp => (h3 p hp).2⟩,
          h2, by rw [hpl]⟩⟩

end Cmaes
