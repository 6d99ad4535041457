import Verif.Lemmas.Simulation

/-!
# Sequential and parallel evaluation of an objective without state
-/

set_option linter.unusedSectionVars false

namespace Cmaes
variable {n : Nat} {F R : Type} [Flt F]

/-- The evaluation of one step by an objective without state. -/
def pureEval (f : List (Vec n F × F) → Vec n F → F) (mean : Vec n F) (sigma : F) (y : Vec n F) :
    Option (EvaluatedPoint n F) :=
  if Flt.isNaN (f [] (toPoint y mean sigma)) then none
  else some { point := toPoint y mean sigma, unscaledStep := y, value := f [] (toPoint y mean sigma) }

theorem new_pure {o : Obj n F} (hf : Stateless o.f) (y mean : Vec n F) (sigma : F) :
    (EvaluatedPoint.new y mean sigma o).1 = pureEval o.f mean sigma y ∧
    (EvaluatedPoint.new y mean sigma o).2.f = o.f := by
  obtain ⟨v, hv, h2, h1⟩ := new_spec y mean sigma o
  rw [hf] at hv
  subst hv
  exact ⟨h1, by rw [h2]⟩

theorem evalSeq_pure {o : Obj n F} (hf : Stateless o.f) (mean : Vec n F) (sigma : F)
    (ys : List (Vec n F)) :
    (evalSeq mean sigma ys o).1 = ys.mapM (pureEval o.f mean sigma) ∧
    (evalSeq mean sigma ys o).2.f = o.f := by
  induction ys generalizing o with
  | nil => exact ⟨rfl, rfl⟩
  | cons y ys ih =>
    obtain ⟨h1, h2⟩ := new_pure hf y mean sigma
    simp only [evalSeq, List.mapM_cons, Option.bind_eq_bind, Option.pure_def]
    cases hx : EvaluatedPoint.new y mean sigma o with
    | mk p o1 =>
      rw [hx] at h1 h2
      simp only at h1 h2
      rw [← h1]
      cases p with
      | none => exact ⟨rfl, h2⟩
      | some p =>
        obtain ⟨h3, h4⟩ := ih (o := o1) (by rw [h2]; exact hf)
        simp only [Option.bind_some]
        rw [h2] at h3 h4
        rw [← h3]
        cases hy : evalSeq mean sigma ys o1 with
        | mk q o2 =>
          rw [hy] at h4
          cases q with
          | none => exact ⟨rfl, h4⟩
          | some q => exact ⟨rfl, h4⟩

theorem evalOrder_pure {mean : Vec n F} {sigma : F} {ys : List (Vec n F)} {extra : Nat}
    {is : List Nat} {left : Option Nat} {o : Obj n F} (hf : Stateless o.f) :
    (∀ r ∈ (evalOrder mean sigma ys extra is left o).1,
      ∃ y, ys[r.1]? = some y ∧ r.2 = pureEval o.f mean sigma y) ∧
    (evalOrder mean sigma ys extra is left o).2.f = o.f := by
  induction is generalizing left o with
  | nil => exact ⟨by simp [evalOrder], rfl⟩
  | cons i is ih =>
    by_cases hl : left = some 0
    · subst hl
      exact ⟨by simp [evalOrder], by simp [evalOrder]⟩
    · cases hy : ys[i]? with
      | none =>
        have he : evalOrder mean sigma ys extra (i :: is) left o =
            evalOrder mean sigma ys extra is left o := by
          cases left with
          | none => simp only [evalOrder, hy]
          | some k =>
            cases k with
            | zero => exact absurd rfl hl
            | succ k => simp only [evalOrder, hy]
        rw [he]
        exact ih hf
      | some y =>
        rw [evalOrder_cons hl hy]
        obtain ⟨h1, h2⟩ := new_pure hf y mean sigma
        have := ih (left := leftAfter extra left (EvaluatedPoint.new y mean sigma o).1.isNone)
          (o := (EvaluatedPoint.new y mean sigma o).2) (by rw [h2]; exact hf)
        rw [h2] at this
        refine ⟨?_, this.2⟩
        intro r hr
        rcases List.mem_cons.mp hr with rfl | hr
        · exact ⟨y, hy, h1⟩
        · exact this.1 r hr

theorem evalPar_pure {o : Obj n F} (hf : Stateless o.f) (s : Sched) (mean : Vec n F) (sigma : F)
    (ys : List (Vec n F)) :
    (evalPar s mean sigma ys o).1 = ys.mapM (pureEval o.f mean sigma) ∧
    (evalPar s mean sigma ys o).2.f = o.f := by
  cases hrs : evalOrder mean sigma ys s.extra (s.order ys.length) none o with
  | mk rs o1 =>
    have hperm := s.perm ys.length
    obtain ⟨h1, h2⟩ := evalOrder_pure (mean := mean) (sigma := sigma) (ys := ys)
      (extra := s.extra) (is := s.order ys.length) (left := none) hf
    obtain ⟨_, _, _, _, _, h3⟩ := evalOrder_spec (fun i hi =>
      List.mem_range.mp (hperm.mem_iff.mp hi)) hrs
    rw [hrs] at h1 h2
    simp only at h1 h2
    simp only [evalPar, hrs]
    by_cases hany : (rs.any fun r => r.2.isNone) = true
    · rw [if_pos hany]
      refine ⟨?_, h2⟩
      obtain ⟨r, hr, hn⟩ := List.any_eq_true.mp hany
      obtain ⟨y, hy, hr2⟩ := h1 r hr
      have hmem := List.mem_of_getElem? hy
      cases hm : ys.mapM (pureEval o.f mean sigma) with
      | none => rfl
      | some ps =>
        rw [mapM_option_eq_some] at hm
        have : pureEval o.f mean sigma y ∈ ps.map some := by
          rw [← hm]; exact List.mem_map_of_mem hmem
        rw [← hr2] at this
        obtain ⟨p, _, hp⟩ := List.mem_map.mp this
        rw [← hp] at hn
        simp at hn
    · rw [if_neg hany]
      refine ⟨?_, h2⟩
      have hall : ∀ r ∈ rs, r.2.isSome := by
        intro r hr
        rw [List.any_eq_true] at hany
        by_contra hc
        exact hany ⟨r, hr, by simpa using hc⟩
      have hfst := h3 rfl hall
      have hnd : (rs.map Prod.fst).Nodup := by
        rw [hfst]; exact hperm.nodup_iff.mpr List.nodup_range
      have key : (List.range ys.length).map (fun i => (rs.lookup i).join) =
          ys.map (pureEval o.f mean sigma) := by
        apply List.ext_getElem?
        intro i
        by_cases hi : i < ys.length
        · have hm : i ∈ rs.map Prod.fst := by
            rw [hfst]; exact hperm.mem_iff.mpr (List.mem_range.mpr hi)
          obtain ⟨r, hr, rfl⟩ := List.mem_map.mp hm
          obtain ⟨y, hy, hr2⟩ := h1 r hr
          have hl := lookup_eq_some_of_mem hnd hr
          rw [List.getElem?_map, List.getElem?_map, hy, List.getElem?_range hi]
          simp only [Option.map_some, hl, Option.join_some, hr2]
        · simp [hi]
      have hsame : ∀ ps, (List.range ys.length).mapM (fun i => (rs.lookup i).join) = some ps ↔
          ys.mapM (pureEval o.f mean sigma) = some ps := by
        intro ps
        rw [mapM_option_eq_some, mapM_option_eq_some, key]
      exact Option.ext hsame

end Cmaes
