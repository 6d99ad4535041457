import Verif.Lemmas.Order

/-!
# Lemmas about sampling
-/

set_option linter.unusedSectionVars false

namespace Cmaes
variable {n : Nat} {F R : Type} [Flt F]

/-- The objective call that produced a point. -/
def EvaluatedPoint.call (p : EvaluatedPoint n F) : Vec n F × F := (p.point, p.value)

theorem drawNormals_length (rng : RngOps R F) (k : Nat) (r : R) :
    (drawNormals rng k r).1.length = k := by
  induction k generalizing r with
  | zero => rfl
  | succ k ih => simp [drawNormals, ih]

theorem drawVecs_length (rng : RngOps R F) (m : Nat) (r : R) :
    (drawVecs (n := n) rng m r).1.length = m := by
  induction m generalizing r with
  | zero => rfl
  | succ m ih => simp [drawVecs, ih]

theorem filterOk_eq_ok {p : Vec n F → Outcome Bool} {ys zs : List (Vec n F)}
    (h : filterOk p ys = .ok zs) :
    (∀ y ∈ ys, ∃ b, p y = .ok b) ∧ zs = ys.filter (fun y => p y = .ok true) := by
  induction ys generalizing zs with
  | nil => simp [filterOk] at h; subst h; simp
  | cons y ys ih =>
    simp only [filterOk, Outcome.bind_eq_ok] at h
    obtain ⟨b, hb, rest, hr, h⟩ := h
    obtain ⟨h1, h2⟩ := ih hr
    injection h with h
    constructor
    · intro z hz
      rcases List.mem_cons.mp hz with rfl | hz
      · exact ⟨b, hb⟩
      · exact h1 z hz
    · subst h2
      cases b <;> simp [hb, ← h]

theorem filterOk_total {p : Vec n F → Outcome Bool} {ys : List (Vec n F)}
    (h : ∀ y ∈ ys, ∃ b, p y = .ok b) : ∃ zs, filterOk p ys = .ok zs := by
  induction ys with
  | nil => exact ⟨_, rfl⟩
  | cons y ys ih =>
    obtain ⟨b, hb⟩ := h y (by simp)
    obtain ⟨zs, hz⟩ := ih fun z hz => h z (by simp [hz])
    exact ⟨if b then y :: zs else zs, by simp [filterOk, hb, hz]⟩

theorem filterOk_ok_true (ys : List (Vec n F)) : filterOk (fun _ => .ok true) ys = .ok ys := by
  induction ys with
  | nil => rfl
  | cons y ys ih => simp [filterOk, ih]

theorem sampleRound_length {rng : RngOps R F} {T : Mat n F} {mean : Vec n F} {sigma : F}
    {cs : Option (Constraint F)} {m : Nat} {r r' : R} {ys : List (Vec n F)}
    (h : sampleRound rng T mean sigma cs m r = .ok (ys, r')) : ys.length ≤ m := by
  simp only [sampleRound, Outcome.bind_eq_ok] at h
  obtain ⟨zs, hz, h⟩ := h
  injection h with h
  injection h with h1 _
  subst h1
  rw [(filterOk_eq_ok hz).2]
  refine (List.length_filter_le _ _).trans ?_
  simp [drawVecs_length]

theorem sampleRound_none {rng : RngOps R F} {T : Mat n F} {mean : Vec n F} {sigma : F}
    {m : Nat} {r : R} :
    sampleRound rng T mean sigma none m r =
      .ok ((drawVecs rng m r).1.map T.mulVec, (drawVecs (n := n) rng m r).2) := by
  simp [sampleRound, filterOk_ok_true]

/-- The constraint applied to the point of a step. -/
def meetsAt (mean : Vec n F) (sigma : F) (cs : Option (Constraint F)) (y : Vec n F) :
    Outcome Bool :=
  match cs with
  | some c => c (List.ofFn (toPoint y mean sigma))
  | none => .ok true

theorem sampleRound_eq_ok {rng : RngOps R F} {T : Mat n F} {mean : Vec n F} {sigma : F}
    {cs : Option (Constraint F)} {m : Nat} {r r' : R} {ys : List (Vec n F)}
    (h : sampleRound rng T mean sigma cs m r = .ok (ys, r')) :
    r' = (drawVecs (n := n) rng m r).2 ∧
    (∀ y ∈ (drawVecs rng m r).1.map T.mulVec, ∃ b, meetsAt mean sigma cs y = .ok b) ∧
    ys = ((drawVecs rng m r).1.map T.mulVec).filter
      (fun y => meetsAt mean sigma cs y = .ok true) := by
  simp only [sampleRound, Outcome.bind_eq_ok] at h
  obtain ⟨zs, hz, h⟩ := h
  injection h with h
  injection h with h1 h2
  subst h1
  exact ⟨h2.symm, filterOk_eq_ok hz⟩

/-- The resampling loop delivers exactly `populationSize` steps and keeps those it was given. -/
theorem resample_eq_ok {rng : RngOps R F} {T : Mat n F} {mean : Vec n F} {sigma : F}
    {cs : Option (Constraint F)} {mx : Option Nat} {pop fuel i : Nat} {y ys : List (Vec n F)}
    {r r' : R} (h : resample rng T mean sigma cs mx pop fuel i y r = .ok (ys, r')) :
    ys.length = pop ∧ ∃ new, ys = y ++ new := by
  induction fuel generalizing i y r with
  | zero => simp [resample] at h
  | succ fuel ih =>
    simp only [resample] at h
    split at h
    · simp at h
    · split at h
      · rename_i h1 h2
        injection h with h
        injection h with h3 _
        subst h3
        exact ⟨by omega, [], by simp⟩
      · simp only [Outcome.bind_eq_ok] at h
        obtain ⟨⟨new, r1⟩, hs, h⟩ := h
        obtain ⟨h1, new2, h2⟩ := ih h
        exact ⟨h1, new ++ new2, by simp [h2]⟩

/-- Evaluation keeps the function and appends to the log. -/
theorem new_spec (y mean : Vec n F) (sigma : F) (o : Obj n F) :
    ∃ v, v = o.f o.log (toPoint y mean sigma) ∧
    (EvaluatedPoint.new y mean sigma o).2 =
      { o with log := o.log ++ [(toPoint y mean sigma, v)] } ∧
    (EvaluatedPoint.new y mean sigma o).1 =
      if Flt.isNaN v then none
      else some { point := toPoint y mean sigma, unscaledStep := y, value := v } := by
  refine ⟨_, rfl, ?_⟩
  unfold EvaluatedPoint.new Obj.call
  cases h : Flt.isNaN (o.f o.log (toPoint y mean sigma)) <;> simp [h]

theorem evalSeq_spec {mean : Vec n F} {sigma : F} {ys : List (Vec n F)} {o o' : Obj n F}
    {res : Option (List (EvaluatedPoint n F))} (h : evalSeq mean sigma ys o = (res, o')) :
    ∃ calls, o'.log = o.log ++ calls ∧ o'.f = o.f ∧
      (∀ ps, res = some ps → calls = ps.map EvaluatedPoint.call ∧
        ps.map (fun p => p.unscaledStep) = ys ∧
        (∀ p ∈ ps, p.point = toPoint p.unscaledStep mean sigma ∧ Flt.isNaN p.value = false)) ∧
      (res = none → ∃ pre x v, calls = pre ++ [(x, v)] ∧ Flt.isNaN v = true ∧
        (∀ e ∈ pre, Flt.isNaN e.2 = false) ∧ calls.length ≤ ys.length) := by
  induction ys generalizing o o' res with
  | nil =>
    simp only [evalSeq, Prod.mk.injEq] at h
    obtain ⟨h1, h2⟩ := h
    subst h1 h2
    exact ⟨[], by simp, rfl, by simp, by simp⟩
  | cons y ys ih =>
    obtain ⟨v, hv, h2, h1⟩ := new_spec y mean sigma o
    simp only [evalSeq] at h
    cases hnew : EvaluatedPoint.new y mean sigma o with
    | mk p o1 =>
      rw [hnew] at h h1 h2
      simp only at h1 h2
      subst h1 h2
      cases hn : Flt.isNaN v with
      | true =>
        rw [hn] at h
        simp only [if_true, Prod.mk.injEq] at h
        obtain ⟨h1, h2⟩ := h
        subst h1 h2
        exact ⟨[(toPoint y mean sigma, v)], rfl, rfl, by simp,
          fun _ => ⟨[], _, _, rfl, hn, by simp, by simp⟩⟩
      | false =>
        rw [hn] at h
        simp only [Bool.false_eq_true, if_false] at h
        cases hrest : evalSeq mean sigma ys { o with log := o.log ++ [(toPoint y mean sigma, v)] }
          with
        | mk res1 o2 =>
          rw [hrest] at h
          obtain ⟨calls, hl, hf, hs, hn'⟩ := ih hrest
          refine ⟨(toPoint y mean sigma, v) :: calls, ?_, ?_, ?_, ?_⟩
          · cases res1 <;> simp only [Prod.mk.injEq] at h <;> rw [← h.2, hl] <;> simp
          · cases res1 <;> simp only [Prod.mk.injEq] at h <;> rw [← h.2, hf]
          · intro ps hps
            cases res1 with
            | none => simp only [Prod.mk.injEq] at h; rw [hps] at h; simp at h
            | some ps1 =>
              simp only [Prod.mk.injEq] at h
              rw [hps] at h
              have := Option.some.inj h.1
              subst this
              obtain ⟨a, b, c⟩ := hs ps1 rfl
              refine ⟨by simp [a, EvaluatedPoint.call], by simp [b], ?_⟩
              intro p hp
              rcases List.mem_cons.mp hp with rfl | hp
              · exact ⟨rfl, hn⟩
              · exact c p hp
          · intro hres
            cases res1 with
            | some ps1 => simp only [Prod.mk.injEq] at h; rw [hres] at h; simp at h
            | none =>
              obtain ⟨pre, x, w, h1, h2, h3, h4⟩ := hn' rfl
              refine ⟨(toPoint y mean sigma, v) :: pre, x, w, by simp [h1], h2, ?_,
                by simpa using h4⟩
              intro e he
              rcases List.mem_cons.mp he with rfl | he
              · exact hn
              · exact h3 e he

/-- What `evalOrder` returns for an item, given the call made for it. -/
def OrderItem (mean : Vec n F) (sigma : F) (ys : List (Vec n F))
    (r : Nat × Option (EvaluatedPoint n F)) (c : Vec n F × F) : Prop :=
  ∃ y, ys[r.1]? = some y ∧ c.1 = toPoint y mean sigma ∧
    r.2 = if Flt.isNaN c.2 then none else some { point := c.1, unscaledStep := y, value := c.2 }

theorem evalOrder_spec {mean : Vec n F} {sigma : F} {ys : List (Vec n F)} {extra : Nat}
    {is : List Nat} {left : Option Nat} {o o' : Obj n F}
    {rs : List (Nat × Option (EvaluatedPoint n F))} (hi : ∀ i ∈ is, i < ys.length)
    (h : evalOrder mean sigma ys extra is left o = (rs, o')) :
    ∃ calls, o'.log = o.log ++ calls ∧ o'.f = o.f ∧
      List.Forall₂ (OrderItem mean sigma ys) rs calls ∧ rs.map Prod.fst <+: is ∧
      (left = none → (∀ r ∈ rs, r.2.isSome) → rs.map Prod.fst = is) := by
  induction is generalizing left o rs with
  | nil =>
    simp only [evalOrder, Prod.mk.injEq] at h
    obtain ⟨h1, h2⟩ := h
    subst h1 h2
    exact ⟨[], by simp, rfl, .nil, by simp, by simp⟩
  | cons i is ih =>
    by_cases h0 : left = some 0
    · subst h0
      simp only [evalOrder, Prod.mk.injEq] at h
      obtain ⟨h1, h2⟩ := h
      subst h1 h2
      exact ⟨[], by simp, rfl, .nil, by simp, by simp⟩
    · have hlt : i < ys.length := hi i (by simp)
      have hy : ys[i]? = some ys[i] := List.getElem?_eq_getElem hlt
      obtain ⟨v, hv, h2, h1⟩ := new_spec ys[i] mean sigma o
      have key : ∃ left', evalOrder mean sigma ys extra (i :: is) left o =
          ((i, (EvaluatedPoint.new ys[i] mean sigma o).1) ::
            (evalOrder mean sigma ys extra is left' (EvaluatedPoint.new ys[i] mean sigma o).2).1,
           (evalOrder mean sigma ys extra is left' (EvaluatedPoint.new ys[i] mean sigma o).2).2) ∧
          (left = none → (EvaluatedPoint.new ys[i] mean sigma o).1.isSome → left' = none) := by
        cases left with
        | none =>
          refine ⟨_, by rw [evalOrder]; · simp only [hy]; rfl
                        · simp, ?_⟩
          intro _ hs
          rw [if_neg]
          rw [Option.isNone_iff_eq_none]
          exact Option.isSome_iff_ne_none.mp hs
        | some k =>
          refine ⟨some (k - 1), ?_, by simp⟩
          rw [evalOrder]
          · simp only [hy]
          · exact fun hk => h0 hk
      obtain ⟨left', hk, hl'⟩ := key
      rw [hk] at h
      simp only [Prod.mk.injEq] at h
      obtain ⟨h3, h4⟩ := h
      obtain ⟨calls, hlog, hf, hall, hpre, hfull⟩ := ih (left := left')
        (o := (EvaluatedPoint.new ys[i] mean sigma o).2) (fun j hj => hi j (by simp [hj]))
        (Prod.ext rfl h4)
      subst h3
      refine ⟨(toPoint ys[i] mean sigma, v) :: calls, ?_, ?_, ?_, ?_, ?_⟩
      · rw [hlog, h2]; simp
      · rw [hf, h2]
      · exact .cons ⟨ys[i], hy, rfl, h1⟩ hall
      · simpa using hpre
      · intro hl hs
        have hs1 := hs (i, (EvaluatedPoint.new ys[i] mean sigma o).1) (by simp)
        rw [List.map_cons, hfull (hl' hl hs1) (fun r hr => hs r (by simp [hr]))]

theorem lookup_eq_some_of_mem {β : Type} {l : List (Nat × β)} (hnd : (l.map Prod.fst).Nodup)
    {e : Nat × β} (he : e ∈ l) : l.lookup e.1 = some e.2 := by
  induction l with
  | nil => simp at he
  | cons a l ih =>
    simp only [List.map_cons, List.nodup_cons] at hnd
    rcases List.mem_cons.mp he with rfl | he
    · simp [List.lookup]
    · have : e.1 ≠ a.1 := by
        intro heq
        exact hnd.1 (heq ▸ List.mem_map_of_mem he)
      have hb : (e.1 == a.1) = false := by simpa using this
      rw [List.lookup, hb]
      exact ih hnd.2 he

theorem mapM_option_eq_some {α β : Type} {f : α → Option β} {l : List α} {l' : List β} :
    l.mapM f = some l' ↔ l.map f = l'.map some := by
  induction l generalizing l' with
  | nil => cases l' <;> simp
  | cons a l ih =>
    simp only [List.mapM_cons, List.map_cons, Option.bind_eq_bind, Option.pure_def]
    cases ha : f a with
    | none => cases l' <;> simp
    | some b =>
      cases l' with
      | nil =>
        simp only [Option.bind_some, List.map_nil]
        cases hm : l.mapM f <;> simp
      | cons b' l' =>
        simp only [Option.bind_some, List.map_cons, List.cons.injEq, Option.some.injEq]
        cases hm : l.mapM f with
        | none =>
          simp only [Option.bind_none, reduceCtorEq, false_iff, not_and]
          intro _ h
          have := ih.mpr h
          rw [hm] at this
          simp at this
        | some l'' =>
          simp only [Option.bind_some, Option.some.injEq, List.cons.injEq]
          constructor
          · rintro ⟨h1, h2⟩
            subst h2
            exact ⟨h1, ih.mp hm⟩
          · rintro ⟨h1, h2⟩
            have := ih.mpr h2
            rw [hm] at this
            exact ⟨h1, Option.some.inj this⟩

theorem evalPar_spec {s : Sched} {mean : Vec n F} {sigma : F} {ys : List (Vec n F)}
    {o o' : Obj n F} {res : Option (List (EvaluatedPoint n F))}
    (h : evalPar s mean sigma ys o = (res, o')) :
    ∃ calls, o'.log = o.log ++ calls ∧ o'.f = o.f ∧
      (∀ ps, res = some ps → calls.Perm (ps.map EvaluatedPoint.call) ∧
        ps.map (fun p => p.unscaledStep) = ys ∧
        (∀ p ∈ ps, p.point = toPoint p.unscaledStep mean sigma ∧ Flt.isNaN p.value = false)) ∧
      (res = none → ∃ e ∈ calls, Flt.isNaN e.2 = true) ∧ calls.length ≤ ys.length := by
  cases hrs : evalOrder mean sigma ys s.extra (s.order ys.length) none o with
  | mk rs o1 =>
    have hperm := s.perm ys.length
    have hi : ∀ i ∈ s.order ys.length, i < ys.length := fun i hi =>
      List.mem_range.mp (hperm.mem_iff.mp hi)
    obtain ⟨calls, hlog, hf, hall, hpre, hfull⟩ := evalOrder_spec hi hrs
    simp only [evalPar, hrs] at h
    have hlen : calls.length ≤ ys.length := by
      rw [← hall.length_eq, ← List.length_map (f := Prod.fst) (as := rs)]
      refine hpre.length_le.trans ?_
      rw [hperm.length_eq, List.length_range]
    by_cases hany : rs.any (fun r => r.2.isNone) = true
    · rw [if_pos hany] at h
      simp only [Prod.mk.injEq] at h
      obtain ⟨h1, h2⟩ := h
      subst h1 h2
      refine ⟨calls, hlog, hf, by simp, fun _ => ?_, hlen⟩
      rw [List.any_eq_true] at hany
      obtain ⟨r, hr, hrn⟩ := hany
      obtain ⟨k, hk, hk'⟩ := List.getElem_of_mem hr
      have hk2 : k < calls.length := hall.length_eq ▸ hk
      have hit := hall.get hk hk2
      refine ⟨calls[k], List.getElem_mem hk2, ?_⟩
      obtain ⟨y, hy, hc, hr2⟩ := hit
      simp only [List.get_eq_getElem] at hr2
      rw [hk'] at hr2
      by_contra hnan
      rw [Bool.not_eq_true] at hnan
      rw [hnan] at hr2
      rw [hr2] at hrn
      simp at hrn
    · rw [if_neg hany] at h
      have hsome : ∀ r ∈ rs, r.2.isSome := by
        intro r hr
        by_contra hns
        apply hany
        rw [List.any_eq_true]
        exact ⟨r, hr, by simpa using hns⟩
      have hfst : rs.map Prod.fst = s.order ys.length := hfull rfl hsome
      have hnd : (rs.map Prod.fst).Nodup := by
        rw [hfst]; exact hperm.nodup_iff.mpr List.nodup_range
      simp only [Prod.mk.injEq] at h
      obtain ⟨h1, h2⟩ := h
      subst h2
      -- the list of results in index order
      let g : Nat → Option (EvaluatedPoint n F) := fun i => (rs.lookup i).join
      have hg : ∀ r ∈ rs, g r.1 = r.2 := fun r hr => by
        simp only [g, lookup_eq_some_of_mem hnd hr, Option.join_some]
      have hrng : (List.range ys.length).map g = (List.range ys.length).map g := rfl
      have hpm : (rs.map Prod.snd).Perm ((List.range ys.length).map g) := by
        have e : rs.map Prod.snd = (rs.map Prod.fst).map g := by
          rw [List.map_map]
          apply List.map_congr_left
          intro r hr
          exact (hg r hr).symm
        rw [e, hfst]
        exact hperm.map g
      have hgs : ∀ i < ys.length, (g i).isSome := by
        intro i hi
        have : g i ∈ (List.range ys.length).map g :=
          List.mem_map_of_mem (List.mem_range.mpr hi)
        have := hpm.mem_iff.mpr this
        obtain ⟨r, hr, he⟩ := List.mem_map.mp this
        rw [← he]
        exact hsome r hr
      -- each result comes from its own item
      have hitem : ∀ r ∈ rs, ∃ y p, ys[r.1]? = some y ∧ r.2 = some p ∧ p.unscaledStep = y ∧
          p.point = toPoint y mean sigma ∧ Flt.isNaN p.value = false := by
        intro r hr
        obtain ⟨k, hk, hk'⟩ := List.getElem_of_mem hr
        have hk2 : k < calls.length := hall.length_eq ▸ hk
        obtain ⟨y, hy, hc, hr2⟩ := hall.get hk hk2
        simp only [List.get_eq_getElem] at hy hc hr2
        rw [hk'] at hy hr2
        have := hsome r hr
        rw [hr2] at this
        by_cases hnan : Flt.isNaN (calls[k]).2 = true
        · rw [hnan] at this; simp at this
        · rw [Bool.not_eq_true] at hnan
          rw [hnan] at hr2
          exact ⟨y, _, hy, hr2, rfl, hc, hnan⟩
      have hitem' : ∀ i < ys.length, ∃ p, g i = some p ∧ ys[i]? = some p.unscaledStep ∧
          p.point = toPoint p.unscaledStep mean sigma ∧ Flt.isNaN p.value = false := by
        intro i hi
        have : i ∈ rs.map Prod.fst := by
          rw [hfst]; exact hperm.mem_iff.mpr (List.mem_range.mpr hi)
        obtain ⟨r, hr, he⟩ := List.mem_map.mp this
        obtain ⟨y, p, h3, h4, h5, h6, h7⟩ := hitem r hr
        subst he
        exact ⟨p, by rw [hg r hr, h4], by rw [h3, h5], by rw [h6, h5], h7⟩
      cases res with
      | none =>
        exfalso
        have hm : ∃ ps : List (EvaluatedPoint n F),
            (List.range ys.length).map g = ps.map some := by
          refine ⟨(List.range ys.length).pmap (fun i hi => (g i).get (hgs i hi))
            (fun i hi => List.mem_range.mp hi), ?_⟩
          rw [List.map_pmap]
          simp only [Option.some_get]
          rw [List.pmap_eq_map]
        obtain ⟨ps, hps⟩ := hm
        rw [mapM_option_eq_some.mpr hps] at h1
        simp at h1
      | some ps =>
        have hm := mapM_option_eq_some.mp h1
        refine ⟨calls, hlog, hf, ?_, by simp, hlen⟩
        intro ps' hps'
        have := Option.some.inj hps'
        subst this
        have hl : ps.length = ys.length := by
          have := congrArg List.length hm
          simpa using this.symm
        have hget : ∀ i (hi : i < ps.length), g i = some ps[i] := by
          intro i hi
          have := congrArg (fun l => l[i]?) hm
          simp only [List.getElem?_map] at this
          rw [List.getElem?_range (by omega), List.getElem?_eq_getElem hi] at this
          simpa using this
        refine ⟨?_, ?_, ?_⟩
        · -- permutation
          have hcalls : calls.map some = (rs.map Prod.snd).map (Option.map EvaluatedPoint.call) := by
            apply List.ext_getElem
            · simp [hall.length_eq]
            · intro k hk1 hk2
              simp only [List.length_map] at hk1 hk2
              obtain ⟨y, hy, hc, hr2⟩ := hall.get hk2 hk1
              simp only [List.get_eq_getElem] at hy hc hr2
              have := hsome rs[k] (List.getElem_mem hk2)
              simp only [List.getElem_map]
              rw [hr2] at this ⊢
              by_cases hnan : Flt.isNaN (calls[k]).2 = true
              · rw [hnan] at this; simp at this
              · rw [Bool.not_eq_true] at hnan
                rw [hnan]
                simp [EvaluatedPoint.call]
          have h3 : (calls.map some).Perm ((ps.map EvaluatedPoint.call).map some) := by
            rw [hcalls]
            have h4 := hpm.map (Option.map EvaluatedPoint.call)
            have e : ((List.range ys.length).map g).map (Option.map EvaluatedPoint.call) =
                (ps.map EvaluatedPoint.call).map some := by
              have hm' : (List.range ys.length).map g = ps.map some := hm
              rw [hm']; simp
            rw [e] at h4
            exact h4
          have h5 := h3.filterMap id
          simpa using h5
        · apply List.ext_getElem
          · simp [hl]
          · intro i hi1 hi2
            obtain ⟨p, hp1, hp2, _⟩ := hitem' i hi2
            rw [hget i (by omega)] at hp1
            have := Option.some.inj hp1
            subst this
            rw [List.getElem?_eq_getElem hi2] at hp2
            simpa using (Option.some.inj hp2).symm
        · intro p hp
          obtain ⟨i, hi, he⟩ := List.getElem_of_mem hp
          obtain ⟨q, hq1, _, hq3, hq4⟩ := hitem' i (by omega)
          rw [hget i hi, he] at hq1
          have := Option.some.inj hq1
          subst this
          exact ⟨hq3, hq4⟩

end Cmaes
