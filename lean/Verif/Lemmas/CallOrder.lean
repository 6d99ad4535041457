import Verif.Lemmas.Sort

/-!
# Which call evaluates which drawn point
-/

set_option linter.unusedSectionVars false

namespace Cmaes
variable {n : Nat} {F R : Type} [Flt F] [FltLaws F]

/-- The number of the call that evaluates the `j`-th drawn point of a generation without a NaN. -/
def callPos : EvalKind → Sched → Nat → Nat → Nat
  | .seq, _, _, j => j
  | .par, s, lambda, j => (s.order lambda).idxOf j

theorem evalPar_order {s : Sched} {mean : Vec n F} {sigma : F} {ys : List (Vec n F)}
    {o o' : Obj n F} {ps : List (EvaluatedPoint n F)}
    (h : evalPar s mean sigma ys o = (some ps, o')) :
    ∃ calls, o'.log = o.log ++ calls ∧ ps.length = ys.length ∧
      ∀ j (hj : j < ps.length), calls[(s.order ys.length).idxOf j]? = some ps[j].call := by
  cases hrs : evalOrder mean sigma ys s.extra (s.order ys.length) none o with
  | mk rs o1 =>
    have hperm := s.perm ys.length
    have hi : ∀ i ∈ s.order ys.length, i < ys.length := fun i hi =>
      List.mem_range.mp (hperm.mem_iff.mp hi)
    obtain ⟨calls, hlog, hf, hall, hpre, hfull⟩ := evalOrder_spec hi hrs
    simp only [evalPar, hrs] at h
    by_cases hany : rs.any (fun r => r.2.isNone) = true
    · rw [if_pos hany] at h
      simp at h
    rw [if_neg hany] at h
    have hsome : ∀ r ∈ rs, r.2.isSome := by
      intro r hr
      by_contra hns
      apply hany
      rw [List.any_eq_true]
      exact ⟨r, hr, by simpa using hns⟩
    have hfst : rs.map Prod.fst = s.order ys.length := hfull rfl hsome
    have hnd : (rs.map Prod.fst).Nodup := by
      rw [hfst]; exact hperm.nodup_iff.mpr List.nodup_range
    simp only [Prod.mk.injEq] at h
    obtain ⟨h1, h2⟩ := h
    subst h2
    have hm := mapM_option_eq_some.mp h1
    have hlen : ps.length = ys.length := by
      have := congrArg List.length hm
      simpa using this.symm
    refine ⟨calls, hlog, hlen, fun j hj => ?_⟩
    have hjo : j ∈ s.order ys.length :=
      hperm.mem_iff.mpr (List.mem_range.mpr (hlen ▸ hj))
    have hk : (s.order ys.length).idxOf j < (s.order ys.length).length := List.idxOf_lt_length_iff.mpr hjo
    have hk1 : (s.order ys.length).idxOf j < rs.length := by
      rw [← List.length_map (f := Prod.fst) (as := rs), hfst]; exact hk
    have hk2 : (s.order ys.length).idxOf j < calls.length := hall.length_eq ▸ hk1
    have hkey : (rs[(s.order ys.length).idxOf j]).1 = j := by
      have e : (rs.map Prod.fst)[(s.order ys.length).idxOf j]'(by simpa using hk1) = j := by
        simp only [hfst]
        exact List.getElem_idxOf hk
      simpa using e
    have hmem : rs[(s.order ys.length).idxOf j] ∈ rs := List.getElem_mem hk1
    have hlk := lookup_eq_some_of_mem hnd hmem
    rw [hkey] at hlk
    have hj2 : (List.map (fun i => (rs.lookup i).join) (List.range ys.length))[j]? = some (some ps[j]) := by
      rw [hm, List.getElem?_map, List.getElem?_eq_getElem hj]; rfl
    rw [List.getElem?_map, List.getElem?_range (hlen ▸ hj), Option.map_some, hlk,
      Option.join_some] at hj2
    injection hj2 with hj2
    obtain ⟨y, -, -, hr⟩ := hall.get hk1 hk2
    simp only [List.get_eq_getElem] at hr
    rw [hj2] at hr
    rw [List.getElem?_eq_getElem hk2]
    congr 1
    split at hr
    · cases hr
    · injection hr with hr
      rw [hr]
      rfl

/-- A completed sampling: the points as drawn, and the call that evaluated each of them. -/
theorem sample_order {env : Env n F R} {kind : EvalKind} {sched : Sched} {T : Mat n F}
    {mean : Vec n F} {sigma : F} {mode : Mode} {s s' : Sampler n F R}
    {inds : List (EvaluatedPoint n F)} {calls : List (Vec n F × F)}
    (h : s.sample env kind sched T mean sigma mode = .ok (some inds, s'))
    (hl : s'.obj.log = s.obj.log ++ calls) :
    ∃ ys ps, resample env.rng T mean sigma s.constraints s.maxResamples
        s.populationSize env.resampleFuel 0 [] s.rng = .ok (ys, s'.rng) ∧
      ps.length = s.populationSize ∧ inds = sortPoints mode ps ∧
      ps.map (fun p => p.unscaledStep) = ys ∧
      ∀ j (hj : j < ps.length), calls[callPos kind sched s.populationSize j]? = some ps[j].call := by
  unfold Sampler.sample at h
  rw [Outcome.bind_eq_ok] at h
  obtain ⟨⟨ys, r⟩, hres, h⟩ := h
  simp only at h
  have hlen : ys.length = s.populationSize := (resample_eq_ok hres).1
  cases kind with
  | seq =>
    simp only at h
    cases hev : evalSeq mean sigma ys s.obj with
    | mk er o =>
      obtain ⟨calls', hlog, hf, hs, -⟩ := evalSeq_spec hev
      rw [hev] at h
      cases er with
      | none => simp at h
      | some ps =>
        simp only [Outcome.ok.injEq, Prod.mk.injEq, Option.some.injEq] at h
        obtain ⟨h1, h2⟩ := h
        subst h1 h2
        obtain ⟨h1, h2, -⟩ := hs ps rfl
        have e : calls' = calls := List.append_cancel_left (hlog.symm.trans hl)
        subst e
        refine ⟨ys, ps, hres, by rw [← hlen, ← h2, List.length_map], rfl, h2, fun j hj => ?_⟩
        rw [h1]
        simp [callPos, hj]
  | par =>
    simp only at h
    cases hev : evalPar sched mean sigma ys s.obj with
    | mk er o =>
      obtain ⟨_, -, -, hs, -⟩ := evalPar_spec hev
      rw [hev] at h
      cases er with
      | none => simp at h
      | some ps =>
        obtain ⟨calls', hlog, hpl, hord⟩ := evalPar_order hev
        simp only [Outcome.ok.injEq, Prod.mk.injEq, Option.some.injEq] at h
        obtain ⟨h1, h2⟩ := h
        subst h1 h2
        obtain ⟨-, h2, -⟩ := hs ps rfl
        have e : calls' = calls := List.append_cancel_left (hlog.symm.trans hl)
        subst e
        refine ⟨ys, ps, hres, by rw [← hlen, hpl], rfl, h2, fun j hj => ?_⟩
        rw [← hord j hj, hlen]
        rfl

/-- The calls are numbered from zero. -/
theorem callPos_lt {kind : EvalKind} {sched : Sched} {lambda j : Nat} (hj : j < lambda) :
    callPos kind sched lambda j < lambda := by
  cases kind with
  | seq => exact hj
  | par =>
    have hp := sched.perm lambda
    have := List.idxOf_lt_length_iff.mpr (hp.mem_iff.mpr (List.mem_range.mpr hj))
    rwa [hp.length_eq, List.length_range] at this

end Cmaes
