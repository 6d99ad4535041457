import Verif.Spec.TwoMethods
import Verif.Lemmas.TwoMethods
import Verif.Props.Best
import Verif.Witness
import Mathlib.Data.List.GetD

/-!
# C99: objectives whose `evaluate` and `evaluate_parallel` differ
-/

namespace Cmaes
variable {n : Nat} {F R : Type} [Flt F] {env : Env n F R} {g : Methods n F} {o : Options n F}
  {t : List (NextCall n F)} {s : Search2 n F R}

/-- One function that does what the methods do if the calls are of the methods `ms` and then all of
the method `kind`. -/
def Methods.single (g : Methods n F) (ms : List EvalKind) (kind : EvalKind) :
    List (Vec n F × F) → Vec n F → F :=
  fun log x => g (ms.getD log.length kind)
    ((ms ++ List.replicate (log.length - ms.length) kind).zip log) x

theorem zip_append_short {α β : Type} (as as' : List α) (bs : List β) (h : bs.length ≤ as.length) :
    (as ++ as').zip bs = as.zip bs := by
  induction bs generalizing as with
  | nil => simp
  | cons b bs ih =>
    cases as with
    | nil => simp at h
    | cons a as => simp only [List.cons_append, List.zip_cons_cons, ih as (by simpa using h)]

theorem single_during (g : Methods n F) (ms : List EvalKind) (kind : EvalKind) (b : Nat) :
    AgreeOn (g.single ms kind) (g.during kind ms) ms.length b := by
  intro log x h _
  unfold Methods.single Methods.during
  rw [List.getD_eq_default _ _ h]

theorem single_append_lt (g : Methods n F) (ms ms' : List EvalKind) (kind kind' : EvalKind) :
    AgreeOn (g.single (ms ++ ms') kind') (g.single ms kind) 0 ms.length := by
  intro log x _ h
  unfold Methods.single
  have e : (ms ++ ms').getD log.length kind' = ms.getD log.length kind := by
    rw [List.getD_append _ _ _ _ h, List.getD_eq_getElem _ _ h, List.getD_eq_getElem _ _ h]
  rw [e, List.append_assoc, zip_append_short _ _ _ h.le, zip_append_short _ _ _ h.le]

theorem single_append_ge (g : Methods n F) (ms : List EvalKind) (k : Nat) (kind kind' : EvalKind) :
    AgreeOn (g.single (ms ++ List.replicate k kind) kind') (g.during kind ms) ms.length
      (ms.length + k) := by
  intro log x h h'
  unfold Methods.single Methods.during
  have e : (ms ++ List.replicate k kind).getD log.length kind' = kind := by
    rw [List.getD_eq_getElem _ _ (by simpa using h'), List.getElem_append_right h,
      List.getElem_replicate]
  obtain ⟨j, rfl⟩ : ∃ j, k = (log.length - ms.length) + j :=
    ⟨k - (log.length - ms.length), by omega⟩
  rw [e, List.replicate_add, ← List.append_assoc, List.append_assoc _ (List.replicate j kind),
    zip_append_short _ _ log (by simp; omega)]

/-- Appending to the methods does not change the values of calls of the last one. -/
theorem during_append (g : Methods n F) (ms : List EvalKind) (k : Nat) (kind : EvalKind) (b : Nat) :
    AgreeOn (g.during kind (ms ++ List.replicate k kind)) (g.during kind ms) (ms.length + k) b := by
  intro log x h _
  unfold Methods.during
  rw [List.append_assoc, ← List.replicate_add]
  congr 4
  simp
  omega

omit [Flt F] in
theorem AgreeOn.trans' {f g h : List (Vec n F × F) → Vec n F → F} {a b : Nat}
    (h1 : AgreeOn f g a b) (h2 : AgreeOn g h a b) : AgreeOn f h a b :=
  fun log x ha hb => (h1 log x ha hb).trans (h2 log x ha hb)

theorem next2_eq_ok {s s' : Search2 n F R} {kind : EvalKind} {r : Option (TerminationData n F)}
    (h : s.next env g kind = .ok (s', r)) :
    (s.search.withF (g.during kind s.methods)).next env kind = .ok (s'.search, r) ∧
      s'.methods = s.methods ++ List.replicate
        (s'.search.sampler.obj.log.length - s.search.sampler.obj.log.length) kind := by
  unfold Search2.next at h
  simp only [Outcome.bind_eq_ok, Outcome.ok.injEq, Prod.mk.injEq] at h
  obtain ⟨⟨c, r'⟩, h1, rfl, rfl⟩ := h
  exact ⟨h1, rfl⟩

theorem quiet2_eq_ok {s s' : Search2 n F R} {op : Op} {r : Option (TerminationData n F)}
    (hq : op.Quiet) (h : s.apply env g op = .ok (s', r)) :
    s.search.apply env op = .ok (s'.search, r) ∧ s'.methods = s.methods := by
  unfold Search2.apply at h
  split at h
  · exact hq.elim
  · exact hq.elim
  · simp only [Outcome.bind_eq_ok, Outcome.ok.injEq, Prod.mk.injEq] at h
    obtain ⟨⟨c, r'⟩, h1, rfl, rfl⟩ := h
    exact ⟨h1, rfl⟩

theorem new2_eq_ok {w : World n F} {s0 : Search2 n F R} (h : Search2.new env w g o = .ok s0) :
    CMAES.new env w { f := g.during .seq [], log := [] } o = .ok s0.search ∧ s0.methods = [] := by
  unfold Search2.new at h
  split at h
  · simp at h
  · injection h with h
    subst h
    exact ⟨by assumption, rfl⟩

variable [FltLaws F]

theorem new_log {w : World n F} {obj : Obj n F} {c : CMAES n F R}
    (h : CMAES.new env w obj o = .ok c) : c.sampler.obj = obj := by
  obtain ⟨_, rfl⟩ := new_eq_ok h
  rw [(create_search env w obj o).1]
  rfl

/-- What an execution records. -/
theorem exec2_methods {s0 : Search2 n F R} (h : Exec2 env g s0 t s)
    (h0 : s0.methods.length = s0.search.sampler.obj.log.length) :
    s.methods = s0.methods ++ methodsUsed t ∧
      s.search.sampler.obj.log = s0.search.sampler.obj.log ++ allCalls t ∧
      s.methods.length = s.search.sampler.obj.log.length := by
  induction h with
  | refl => exact ⟨by simp [methodsUsed], by simp [allCalls], h0⟩
  | quiet _ hq ha ih =>
    obtain ⟨h1, h2⟩ := quiet2_eq_ok hq ha
    have e := (quiet_sameSearch hq h1).1.sampler
    rw [h2, e]
    exact ih
  | next _ hn hl ih =>
    obtain ⟨i1, i2, i3⟩ := ih
    obtain ⟨h1, h2⟩ := next2_eq_ok hn
    rw [hl] at h2
    simp only [List.length_append, Nat.add_sub_cancel_left] at h2
    refine ⟨?_, ?_, ?_⟩
    · rw [h2, i1]; simp [methodsUsed]
    · rw [hl, i2]; simp [allCalls]
    · rw [h2, hl]; simp [i3]

/-- An execution with two methods is an execution with any one function that returns the same
values for the calls made. -/
theorem exec2_exec {s0 : Search2 n F R} (h : Exec2 env g s0 t s)
    (h0 : s0.methods = []) (hl0 : s0.search.sampler.obj.log = []) (kind : EvalKind)
    (f : List (Vec n F × F) → Vec n F → F)
    (hf : AgreeOn f (g.single s.methods kind) 0 s.methods.length) :
    Exec env (s0.search.withF f) t (s.search.withF f) := by
  have hlen0 : s0.methods.length = s0.search.sampler.obj.log.length := by simp [h0, hl0]
  induction h with
  | refl => exact .refl _
  | @quiet s s' t op r hs hq ha ih =>
    obtain ⟨h1, h2⟩ := quiet2_eq_ok hq ha
    rw [h2] at hf
    refine .quiet (ih hf) hq (op := op) (r := r) ?_
    rw [quiet_withF hq, h1]
    rfl
  | @next s1 s2 t k calls r hs hn hl ih =>
    obtain ⟨_, _, i3⟩ := exec2_methods hs hlen0
    obtain ⟨h1, h2⟩ := next2_eq_ok hn
    rw [hl] at h2
    simp only [List.length_append, Nat.add_sub_cancel_left] at h2
    rw [h2] at hf
    simp only [List.length_append, List.length_replicate] at hf
    have h3 := ih ((hf.mono le_rfl (by omega)).trans' (single_append_lt g _ _ kind kind))
    refine .next h3 ?_ hl
    have h4 := next_withF_ok (f := f) h1 (by
      show AgreeOn f (g.during k s1.methods) s1.search.sampler.obj.log.length
        s2.search.sampler.obj.log.length
      rw [hl, List.length_append, ← i3]
      exact (hf.mono (Nat.zero_le _) le_rfl).trans' (single_append_ge g _ _ k kind))
    exact h4

theorem exec2_history (h : History2.Of env g o t s) (kind : EvalKind)
    (f : List (Vec n F × F) → Vec n F → F)
    (hf : AgreeOn f (g.single s.methods kind) 0 s.methods.length) :
    History.Of env { f, log := [] } o t (s.search.withF f) := by
  obtain ⟨w, s0, h0, h⟩ := h
  obtain ⟨h1, h2⟩ := new2_eq_ok h0
  have h3 := new_log h1
  exact ⟨w, s0.search.withF f, newCmaes_withF (f := f) h1, exec2_exec h h2 (by rw [h3]) kind f hf⟩

theorem history2_methods (h : History2.Of env g o t s) :
    s.methods = methodsUsed t ∧ s.search.sampler.obj.log = allCalls t ∧
      s.methods.length = s.search.sampler.obj.log.length := by
  obtain ⟨w, s0, h0, h⟩ := h
  obtain ⟨h1, h2⟩ := new2_eq_ok h0
  have h3 := new_log h1
  have := exec2_methods h (by rw [h2, h3]; rfl)
  rw [h2, h3] at this
  simpa using this

omit [Flt F] [FltLaws F] in
theorem callsWithMethods_zip (t : List (NextCall n F)) :
    callsWithMethods t = (methodsUsed t).zip (allCalls t) := by
  induction t with
  | nil => rfl
  | cons s t ih =>
    have e : ∀ (k : EvalKind) (l : List (Vec n F × F)),
        l.map (fun e => (k, e)) = (List.replicate l.length k).zip l := by
      intro k l
      induction l with
      | nil => rfl
      | cons a l ih => simp [List.replicate_succ, ih]
    simp only [callsWithMethods, methodsUsed, allCalls, List.flatMap_cons] at ih ⊢
    rw [List.zip_append (by simp), ih, e]

omit [FltLaws F] in
theorem Faithful.get {f : List (Vec n F × F) → Vec n F → F} {log calls : List (Vec n F × F)}
    (h : Faithful f log calls) {j : Nat} (hj : j < calls.length) :
    calls[j].2 = f (log ++ calls.take j) calls[j].1 := by
  induction calls generalizing log j with
  | nil => simp at hj
  | cons e calls ih =>
    obtain ⟨x, v⟩ := e
    cases j with
    | zero => simpa using h.1
    | succ j =>
      have := ih h.2 (j := j) (by simpa using hj)
      simpa using this

/-- **C99, the values.** For a type whose two methods compute different things, and may share
state: every value that the search sees was returned by `evaluate` if `next` or `run` asked for it
and by `evaluate_parallel` if `next_parallel` or `run_parallel` did, after exactly the calls of both
methods that were made before. -/
theorem c99_values (h : History2.Of env g o t s) : Faithful2 g (callsWithMethods t) := by
  obtain ⟨h1, h2, h3⟩ := history2_methods h
  obtain ⟨gs, i, _⟩ := fresh_inv (exec2_history h .seq (g.single s.methods .seq)
    (fun _ _ _ _ => rfl))
  have hfa := i.faithful
  rw [h1] at hfa
  rw [h1, h2] at h3
  rw [callsWithMethods_zip]
  intro j hj
  rw [List.length_zip, h3, min_self] at hj
  have hj' : j < (methodsUsed t).length := by omega
  have := hfa.get hj
  simp only [List.getElem_zip]
  rw [this]
  show g.single (methodsUsed t) .seq ([] ++ (allCalls t).take j) _ = _
  unfold Methods.single
  have e : ([] ++ (allCalls t).take j).length = j := by simp; omega
  rw [e, List.getD_eq_getElem _ _ hj', Nat.sub_eq_zero_of_le hj'.le]
  simp only [List.replicate_zero, List.append_nil, List.nil_append]
  congr 1
  have e3 : ((methodsUsed t).zip (allCalls t)).take j =
      ((methodsUsed t).take j).zip ((allCalls t).take j) := List.take_zipWith
  rw [e3]
  have e2 := zip_append_short ((methodsUsed t).take j) ((methodsUsed t).drop j)
    ((allCalls t).take j) (by simp; omega)
  rw [List.take_append_drop] at e2
  exact e2

theorem runLoop2_withF (f : List (Vec n F × F) → Vec n F → F) (kind : EvalKind) (fuel : Nat)
    (s : Search2 n F R) (hl : s.methods.length = s.search.sampler.obj.log.length)
    (hf : ∀ b, AgreeOn f (g.during kind s.methods) s.methods.length b) :
    (s.search.withF f).runLoop env kind fuel =
      s.runLoop env g kind fuel >>= fun q => .ok (q.1.search.withF f, q.2) := by
  induction fuel generalizing s with
  | zero => rfl
  | succ fuel ih =>
    have := next_withF (f := f) env kind (s.search.withF (g.during kind s.methods)) (by
      intro res s' _
      show AgreeOn _ (g.during kind s.methods) s.search.sampler.obj.log.length _
      rw [← hl]
      exact hf _)
    rw [withF_withF] at this
    unfold CMAES.runLoop Search2.runLoop
    rw [this]
    unfold Search2.next
    cases hn : (s.search.withF (g.during kind s.methods)).next env kind with
    | panic p => rfl
    | diverge => rfl
    | ok q =>
      obtain ⟨c, r⟩ := q
      simp only [Outcome.ok_bind]
      cases r with
      | some d => rfl
      | none =>
        obtain ⟨calls, hc⟩ := next_log hn
        have hc : c.sampler.obj.log = s.search.sampler.obj.log ++ calls := hc
        refine ih { search := c, methods := _ } ?_ ?_
        · simp [hc, hl]
        · intro b
          simp only [hc, List.length_append, Nat.add_sub_cancel_left, List.length_replicate]
          exact ((hf b).mono (by omega) le_rfl).trans'
            fun log x h1 h2 => (during_append g s.methods calls.length kind b log x h1 h2).symm

/-- **C99, one function suffices.** Whatever the user did so far, there is an objective with a
single method with which the same calls lead to the same `CMAES`, and with which the next call has
the same outcome, be it a result, a panic or no end. So what holds for all objectives with one
method holds for those with two. -/
theorem c99_one_method (h : History2.Of env g o t s) (kind : EvalKind) :
    ∃ f, History.Of env { f, log := [] } o t (s.search.withF f) ∧
      (s.search.withF f).next env kind =
        (s.next env g kind >>= fun q => .ok (q.1.search.withF f, q.2)) ∧
      (s.search.withF f).run env kind =
        (s.run env g kind >>= fun q => .ok (q.1.search.withF f, q.2)) := by
  have h3 := (history2_methods h).2.2
  refine ⟨g.single s.methods kind, exec2_history h kind _ (fun _ _ _ _ => rfl), ?_, ?_⟩
  · have := next_withF (f := g.single s.methods kind) env kind
      (s.search.withF (g.during kind s.methods)) (by
        intro res s' _
        show AgreeOn _ (g.during kind s.methods) s.search.sampler.obj.log.length _
        rw [← h3]
        exact single_during g _ _ _)
    rw [withF_withF] at this
    rw [this]
    unfold Search2.next
    simp only [bind_assoc]
    rfl
  · unfold CMAES.run Search2.run
    rw [runLoop2_withF (g := g) _ kind _ s h3 (fun b => single_during g _ _ b)]
    simp only [bind_assoc]
    congr 1
    funext ⟨s', d⟩
    simp only [Outcome.ok_bind, runInternal_withF]

/-- **C99, one kind of calls.** A search that was only run with `next` and `run` is a search with
`evaluate` alone, whatever `evaluate_parallel` would compute; one that was only run with
`next_parallel` and `run_parallel` is a search with `evaluate_parallel` alone. -/
theorem c99_one_kind (h : History2.Of env g o t s) (kind : EvalKind)
    (hk : ∀ call ∈ t, call.kind = kind) :
    letI f := fun log x => g kind (log.map fun e => (kind, e)) x
    History.Of env { f, log := [] } o t (s.search.withF f) := by
  obtain ⟨h1, h2, h3⟩ := history2_methods h
  have hm : ∀ m ∈ s.methods, m = kind := by
    rw [h1]
    intro m hm
    obtain ⟨call, hc, hm⟩ := List.mem_flatMap.mp hm
    rw [List.eq_of_mem_replicate hm]
    exact hk call hc
  rw [List.eq_replicate_of_mem hm] at h3
  refine exec2_history h kind _ ?_
  intro log x _ hlog
  unfold Methods.single
  rw [List.eq_replicate_of_mem hm]
  have e : (List.replicate s.methods.length kind).getD log.length kind = kind := by
    rw [List.getD_eq_getElem _ _ (by simpa using hlog), List.getElem_replicate]
  rw [e, zip_append_short _ _ _ (by simpa using hlog.le)]
  have key : ∀ (l : List (Vec n F × F)) m, l.length ≤ m →
      l.map (fun e => (kind, e)) = (List.replicate m kind).zip l := by
    intro l
    induction l with
    | nil => simp
    | cons a l ih =>
      intro m hm
      cases m with
      | zero => simp at hm
      | succ m => simp only [List.map_cons, List.replicate_succ, List.zip_cons_cons,
          ih m (by simpa using hm)]
  show g kind _ x = _
  rw [key log _ hlog.le]

/-- **C99, methods that agree.** Conversely a search for an objective with one method is one for a
type whose two methods both call it, as for closures. -/
theorem c99_agree {f : List (Vec n F × F) → Vec n F → F} {c : CMAES n F R}
    (h : History.Of env { f, log := [] } o t c) :
    ∃ s, History2.Of env (fun _ log x => f (log.map Prod.snd) x) o t s ∧
      s.search.withF f = c := by
  obtain ⟨w, c0, h0, h⟩ := h
  have hl0 := new_log h0
  let g : Methods n F := fun _ log x => f (log.map Prod.snd) x
  have hd : ∀ kind ms a b, ms.length ≤ a → AgreeOn (g.during kind ms) f a b := by
    intro kind ms a b ha log x h1 _
    show f _ x = f _ x
    rw [List.map_snd_zip (by simp; omega)]
  have key : ∃ s, Exec2 env g ⟨c0.withF (g.during .seq []), []⟩ t s ∧ s.search.withF f = c ∧
      s.methods.length = s.search.sampler.obj.log.length ∧ c.sampler.obj.f = f := by
    induction h with
    | refl =>
      refine ⟨_, .refl _, ?_, ?_, by rw [hl0]⟩
      · show c0.withF f = c0
        have e : f = c0.sampler.obj.f := by rw [hl0]
        rw [e, withF_self]
      · show 0 = c0.sampler.obj.log.length
        rw [hl0]; rfl
    | @quiet c1 c2 t op r hs hq ha ih =>
      obtain ⟨s, h1, h2, h3, h4⟩ := ih
      have e := (quiet_sameSearch hq ha).1.sampler
      have hq2 := quiet_withF (f := s.search.sampler.obj.f) (env := env) hq c1
      rw [ha, ← h2, withF_withF, withF_self] at hq2
      refine ⟨⟨c2.withF s.search.sampler.obj.f, s.methods⟩,
        .quiet h1 hq (op := op) (r := r) ?_, ?_, ?_, by rw [e, h4]⟩
      · have : s.apply env g op = (s.search.apply env op >>= fun q =>
            .ok ({ s with search := q.1 }, q.2)) := by
          cases op <;> first | exact hq.elim | rfl
        rw [this, hq2]
        rfl
      · rw [withF_withF]
        have e : f = c2.sampler.obj.f := by rw [e, h4]
        rw [e, withF_self]
      · show _ = c2.sampler.obj.log.length
        rw [e, ← h2, h3]; rfl
    | @next c1 c2 t k calls r hs hn hl ih =>
      obtain ⟨s, h1, h2, h3, h4⟩ := ih
      have e : c2.sampler.obj.f = f := by
        obtain ⟨gs, i⟩ := exec_inv (Exec.next (Exec.refl c1) hn hl)
        rw [i.config.f, h4]
      have el : c1.sampler.obj.log = s.search.sampler.obj.log := by rw [← h2]; rfl
      have hn2 := next_withF_ok (f := g.during k s.methods) hn (by
        rw [h4]; exact hd k _ _ _ (by rw [h3, el]))
      rw [← h2, withF_withF] at hn2
      have hl2 : c2.sampler.obj.log = s.search.sampler.obj.log ++ calls := by rw [hl, el]
      refine ⟨⟨c2.withF (g.during k s.methods), s.methods ++ List.replicate
        (c2.sampler.obj.log.length - s.search.sampler.obj.log.length) k⟩, .next h1 ?_ hl2, ?_, ?_, e⟩
      · unfold Search2.next
        rw [hn2]
        rfl
      · rw [withF_withF]
        rw [← e, withF_self]
      · show _ = c2.sampler.obj.log.length
        simp [hl2, h3]
  obtain ⟨s, h1, h2, _⟩ := key
  refine ⟨s, ⟨w, _, ?_, h1⟩, h2⟩
  unfold Search2.new
  have := newCmaes_withF (f := g.during .seq []) h0
  have e : CMAES.new env w (Obj.mk (Methods.during g .seq []) []) o = _ := this
  rw [e]

theorem Exec2.trans {a b c : Search2 n F R} {t u : List (NextCall n F)}
    (h : Exec2 env g a t b) (h' : Exec2 env g b u c) : Exec2 env g a (t ++ u) c := by
  induction h' with
  | refl => simpa using h
  | next _ hn hl ih => rw [← List.append_assoc]; exact .next ih hn hl
  | quiet _ hq ha ih => exact .quiet ih hq ha

theorem next2_exec {s s' : Search2 n F R} {kind : EvalKind} {r : Option (TerminationData n F)}
    (h : s.next env g kind = .ok (s', r)) :
    ∃ calls, Exec2 env g s [{ kind, calls, result := r }] s' := by
  obtain ⟨calls, hl⟩ := next_log (next2_eq_ok h).1
  exact ⟨calls, .next (.refl s) h hl⟩

theorem runLoop2_exec {kind : EvalKind} {fuel : Nat} {s s' : Search2 n F R}
    {d : TerminationData n F} (h : s.runLoop env g kind fuel = .ok (s', d)) :
    ∃ t, Exec2 env g s t s' ∧ ∀ call ∈ t, call.kind = kind := by
  induction fuel generalizing s with
  | zero => simp [Search2.runLoop] at h
  | succ fuel ih =>
    simp only [Search2.runLoop, Outcome.bind_eq_ok] at h
    obtain ⟨⟨s1, r⟩, hn, h⟩ := h
    obtain ⟨calls, h1⟩ := next2_exec hn
    cases r with
    | some d' =>
      simp only [Outcome.ok.injEq, Prod.mk.injEq] at h
      obtain ⟨rfl, rfl⟩ := h
      exact ⟨_, h1, by simp⟩
    | none =>
      obtain ⟨t, h2, h3⟩ := ih h
      refine ⟨_, h1.trans h2, ?_⟩
      intro call hc
      rcases List.mem_append.mp hc with hc | hc
      · simp only [List.mem_singleton] at hc; rw [hc]
      · exact h3 call hc

/-- **C99, the calls.** Every sequence of calls of the API on a `CMAES` for an objective with two
methods is such an execution, and the `next` calls it makes are of the kinds the user asked for:
`run` calls only `evaluate` and `run_parallel` only `evaluate_parallel`. -/
theorem c99_calls {ops : List Op} {s s' : Search2 n F R}
    {rs : List (Option (TerminationData n F))} (h : s.applyAll env g ops = .ok (s', rs)) :
    ∃ t, Exec2 env g s t s' ∧
      ∀ call ∈ t, Op.next call.kind ∈ ops ∨ Op.run call.kind ∈ ops := by
  induction ops generalizing s rs with
  | nil =>
    simp only [Search2.applyAll, Outcome.ok.injEq, Prod.mk.injEq] at h
    obtain ⟨rfl, rfl⟩ := h
    exact ⟨[], .refl _, by simp⟩
  | cons op ops ih =>
    simp only [Search2.applyAll, Outcome.bind_eq_ok] at h
    obtain ⟨⟨s1, r⟩, h1, ⟨s2, rs'⟩, h2, h3⟩ := h
    simp only [Outcome.ok.injEq, Prod.mk.injEq] at h3
    obtain ⟨rfl, rfl⟩ := h3
    obtain ⟨u, hu, hu'⟩ := ih h2
    have key : ∃ t, Exec2 env g s t s1 ∧
        ∀ call ∈ t, op = .next call.kind ∨ op = .run call.kind := by
      by_cases hq : op.Quiet
      · exact ⟨[], .quiet (.refl s) hq h1, by simp⟩
      · cases op with
        | next kind =>
          obtain ⟨calls, h⟩ := next2_exec h1
          exact ⟨_, h, by simp⟩
        | run kind =>
          simp only [Search2.apply, Search2.run, Outcome.bind_eq_ok, Outcome.ok.injEq,
            Prod.mk.injEq] at h1
          obtain ⟨⟨s3, d⟩, ⟨⟨s4, d'⟩, h4, h5⟩, rfl, rfl⟩ := h1
          simp only [Prod.mk.injEq] at h5
          obtain ⟨rfl, rfl⟩ := h5
          obtain ⟨t, ht, hk⟩ := runLoop2_exec h4
          have hp : Exec2 env g s t { s4 with search := s4.search.addPlotPoint } :=
            .quiet (op := .addPlotPoint) ht trivial rfl
          refine ⟨t, ?_, fun call hc => .inr (by rw [hk call hc])⟩
          unfold CMAES.runInternal
          simp only
          split
          · exact .quiet (op := .printFinalInfo d'.reasons) hp trivial rfl
          · exact hp
        | _ => exact absurd trivial hq
    obtain ⟨t, ht, ht'⟩ := key
    refine ⟨t ++ u, ht.trans hu, ?_⟩
    intro call hc
    rcases List.mem_append.mp hc with hc | hc
    · rcases ht' call hc with e | e
      · exact .inl (by rw [e]; simp)
      · exact .inr (by rw [e]; simp)
    · rcases hu' call hc with e | e
      · exact .inl (List.mem_cons_of_mem _ e)
      · exact .inr (List.mem_cons_of_mem _ e)

/-! ### Witnesses -/

open Witness in
/-- A type whose methods differ and share state: `evaluate` is the sphere, `evaluate_parallel` is
another function plus the number of earlier calls of `evaluate`. -/
def twoMethods : Methods 2 F64 := fun kind log x =>
  match kind with
  | .seq => x 0 * x 0 + x 1 * x 1
  | .par => x 0 * x 0 + 3 * (x 1 * x 1) +
      Flt.ofNat (log.filter fun e => decide (e.1 = .seq)).length

open Witness in
/-- C99: three generations, the second evaluated in parallel. The parallel values are those of
`evaluate_parallel`, which saw the calls of `evaluate`, and they are not those of `evaluate`. -/
example : ∃ t s, History2.Of (wenv 2) twoMethods opts t s ∧ s.search.generation = 3 ∧
    s.methods.length = 3 * opts.populationSize ∧
    (callsWithMethods t).any (fun e => decide (e.1 = .par ∧
      Flt.lt (twoMethods .seq [] e.2.1) e.2.2 = true)) = true := by
  obtain ⟨⟨s, rs⟩, h, hp⟩ := Outcome.of_check
    (x := Search2.applyAll (wenv 2) twoMethods [.next .seq, .printInfo, .next .par, .next .seq]
      ⟨CMAES.create (wenv 2) World.init ⟨twoMethods.during .seq [], []⟩ opts, []⟩)
    (p := fun q => decide (q.1.search.generation = 3 ∧
      q.1.methods.length = 3 * opts.populationSize ∧
      (q.1.methods.zip q.1.search.sampler.obj.log).any (fun e => decide (e.1 = .par ∧
        Flt.lt (twoMethods .seq [] e.2.1) e.2.2 = true)) = true)) (by decide +kernel)
  obtain ⟨t, ht, _⟩ := c99_calls h
  have hh : History2.Of (wenv 2) twoMethods opts t s := by
    refine ⟨World.init, _, ?_, ht⟩
    unfold Search2.new CMAES.new
    rw [opts_valid]
  obtain ⟨h1, h2, h3⟩ := of_decide_eq_true hp
  refine ⟨t, s, hh, h1, h2, ?_⟩
  obtain ⟨e1, e2, _⟩ := history2_methods hh
  rw [callsWithMethods_zip, ← e1, ← e2]
  exact h3

open Witness in
/-- C99: two parallel generations only (`c99_one_kind`). -/
example : ∃ t s, History2.Of (wenv 2) twoMethods opts t s ∧ s.search.generation = 2 ∧
    ∀ call ∈ t, call.kind = .par := by
  obtain ⟨⟨s, rs⟩, h, hp⟩ := Outcome.of_check
    (x := Search2.applyAll (wenv 2) twoMethods [.next .par, .next .par]
      ⟨CMAES.create (wenv 2) World.init ⟨twoMethods.during .seq [], []⟩ opts, []⟩)
    (p := fun q => decide (q.1.search.generation = 2)) (by decide +kernel)
  obtain ⟨t, ht, hk⟩ := c99_calls h
  refine ⟨t, s, ⟨World.init, _, ?_, ht⟩, of_decide_eq_true hp, ?_⟩
  · unfold Search2.new CMAES.new
    rw [opts_valid]
  · intro call hc
    simpa using hk call hc

end Cmaes
