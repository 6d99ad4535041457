import Verif.Props.Parallel
import Verif.Props.Reproduce

/-!
# A restarter with sequential and with parallel evaluation
-/

set_option linter.unusedSectionVars false

namespace Cmaes
variable {n : Nat} {F R : Type} [Flt F] [FltLaws F]

/-- Running to the end. -/
theorem run_par {env : Env n F R} {sched : Nat → Sched} {kind kind' : EvalKind}
    {c c' : CMAES n F R} (hf : Stateless c.sampler.obj.f) (h : LogSim c c') :
    Outcome.Rel (fun a b => LogSim a.1 b.1 ∧ a.1.sampler.obj.f = c.sampler.obj.f ∧ b.2 = a.2)
      (c.run env kind) (c'.run { env with sched } kind') := by
  unfold CMAES.run
  refine Outcome.Rel.bind (runLoop_par _ hf h) ?_
  rintro ⟨a, d⟩ ⟨b, d'⟩ ⟨h1, h2, h3⟩
  simp only at h1 h2 h3
  subst h3
  refine .ok ⟨runInternal_par _ h1, ?_, rfl⟩
  have e2 : (a.runInternal d').sampler = a.sampler := by
    unfold CMAES.runInternal
    simp only
    split
    · exact (sameSearch_printFinalInfo a.addPlotPoint d'.reasons).sampler
    · rfl
  show (a.runInternal d').sampler.obj.f = _
  rw [e2]; exact h2

/-- Freshly built. -/
theorem create_par {env : Env n F R} {sched : Nat → Sched} {w : World n F} {obj obj' : Obj n F}
    {o : Options n F} (hf : obj'.f = obj.f)
    (hl : (∀ x, Flt.isNaN (obj.f [] x) = false) → obj'.log.Perm obj.log) :
    LogSim (CMAES.create env w obj o) (CMAES.create { env with sched } w obj' o) := by
  have ho : obj' = { obj with log := obj'.log } := by
    cases obj; cases obj'; simp only at hf; subst hf; rfl
  have e : CMAES.create { env with sched } w obj' o =
      (CMAES.create env w obj o).withLog obj'.log := by
    conv_lhs => rw [ho]
    unfold CMAES.create
    cases o.printGapEvals <;> rfl
  rw [e]
  refine .intro' ?_
  rw [(create_search env w obj o).1]
  exact hl

/-- The comparison of two restarters that evaluate in different ways. -/
def parSim (env : Env n F R) (sched : Nat → Sched) (kind kind' : EvalKind)
    (ro : RestartOptions n F) : RestartSim env { env with sched } kind kind' ro ro where
  T := .same
  WRel := Eq
  ORel obj obj' := Stateless obj.f ∧ obj'.f = obj.f ∧
    ((∀ x, Flt.isNaN (obj.f [] x) = false) → obj'.log.Perm obj.log)
  LRel _ _ := True
  φ := id
  ψ := Individual.mapValue id
  μ := id
  OptRel o o' := o' = o
  RunRel c d c' d' := LogSim c c' ∧ Stateless c.sampler.obj.f ∧ d' = d
  restartRng := rfl
  restartFuel := rfl
  ψ_value _ := rfl
  mean _ := Relator.same.of_eq rfl fun _ _ => rfl
  maxFunctionEvals := rfl
  maxTime := rfl
  configure _ _ _ _ := Relator.same.of_eq rfl fun _ _ => ⟨rfl, rfl⟩
  now := by rintro w _ rfl; exact ⟨rfl, .inr rfl⟩
  print_run := by
    rintro w _ k b l e rfl
    rw [Option.map_id]
    rfl
  print_results := by
    rintro w _ e r b rfl
    have : b.map (Individual.mapValue id) = b := by cases b <;> rfl
    rw [this]
  run := by
    rintro w _ obj obj' _ o k rfl ⟨h1, h2, h3⟩ rfl
    simp only [buildRun, CMAES.new]
    cases CMAES.validate o with
    | some e => exact Relator.same.panic _
    | none =>
      have hc := create_par (env := env) (sched := sched) (w := w) (o := o) h2 h3
      have hobj : (CMAES.create env w obj o).sampler.obj = obj := by
        rw [(create_search env w obj o).1]; rfl
      have key : ∀ {c c' : CMAES n F R}, LogSim c c' → c.sampler.obj = obj →
          Relator.same.rel (fun x y => LogSim x.1 y.1 ∧ Stateless x.1.sampler.obj.f ∧ y.2 = x.2)
            (c.run env kind) (c'.run { env with sched } kind') := by
        intro c c' hcc ho
        refine Outcome.Rel.mono (run_par (by rw [ho]; exact h1) hcc) ?_
        rintro a b ⟨g1, g2, g3⟩
        refine ⟨g1, ?_, g3⟩
        rw [g2, ho]
        exact h1
      simp only
      cases ro.enablePrinting with
      | false => exact key hc hobj
      | true =>
        refine key ?_ hobj
        have hl := hc.perm
        rw [hc.eq_with]
        exact .intro' hl
  run_world h := by rw [h.1.eq_with]
  run_obj h := by
    refine ⟨h.2.1, ?_, h.1.perm⟩
    rw [h.1.eq_with]
    rfl
  run_log _ := trivial
  run_evals h := by rw [h.1.eq_with]; rfl
  run_best h := by
    have : ∀ b : Option (Individual n F), b.map (Individual.mapValue id) = b := by
      intro b; cases b <;> rfl
    rw [h.1.eq_with, this]
    rfl
  run_reasons h := by rw [h.2.2]
  better _ _ := rfl

/-- **C75.** For objective functions without state: a restarter that evaluates sequentially and one
that evaluates in parallel, under any schedules, have the same outcome: the same results, the same
runs (options, returned data and final `CMAES`) and the same output, or the same panic. If no value
is NaN, the objective function of every run is also called on the same points equally often. -/
theorem c75_parallel {env : Env n F R} {sched : Nat → Sched} {o : RestartOptions n F}
    {r : Restarter n F R} (h : Restarter.new env o = .ok r) {src : ObjSource n F}
    (hsrc : src.Stateless) (reuse : Bool) (kind kind' : EvalKind) :
    Outcome.Rel (fun x y => y.1 = x.1 ∧
        y.2.records.map RunRecord.eraseLog = x.2.records.map RunRecord.eraseLog ∧
        y.2.world = x.2.world ∧
        List.Forall₂ (fun a b =>
          (∀ p, Flt.isNaN (a.final.intoObjectiveFunction.f [] p) = false) →
          b.final.intoObjectiveFunction.log.Perm a.final.intoObjectiveFunction.log)
          x.2.records y.2.records)
      (r.runInternal env kind src reuse) (r.runInternal { env with sched } kind' src reuse) := by
  have hr := restarter_new' h
  let S := parSim env sched kind kind' o
  have hstart : S.StateRel (r.start env src) (r.start { env with sched } src) := by
    subst hr
    refine ⟨rfl, rfl, rfl, rfl, rfl, .inr rfl, rfl, rfl, rfl, ?_, rfl, .none, .nil⟩
    cases hsrc with
    | factory g hg =>
      refine .factory fun l l' hl => ?_
      rw [hl.length_eq]
      exact ⟨hg _, rfl, fun _ => .refl _⟩
    | once f hf => exact .once (.some ⟨hf, rfl, fun _ => .refl _⟩)
  refine (RestartSim.runInternal (S := S) hstart : Outcome.Rel _ _ _).mono ?_
  rintro x y ⟨h2, h3⟩
  refine ⟨h2.trans (mapResults_id _), ?_, h3.world.symm, ?_⟩
  · have hrec := h3.records
    generalize x.2.records = l at hrec
    generalize y.2.records = l' at hrec
    induction hrec with
    | nil => rfl
    | cons hxy _ ih =>
      rename_i a b _ _ _
      simp only [List.map_cons, ih]
      congr 1
      obtain ⟨⟨-, e1, -⟩, e2, e3, -, e4⟩ := hxy
      obtain ⟨a1, a2, a3, a4⟩ := a
      obtain ⟨b1, b2, b3, b4⟩ := b
      simp only [RunRecord.eraseLog] at e1 e2 e3 e4 ⊢
      have e2 : b2 = a2 := e2
      rw [e3.erase, e1, e2, e4]
  · exact h3.records.imp fun a b hab => hab.run.1.perm

section Examples
open Witness

/-- Three runs with a reused function, in parallel and sequentially. -/
example : ∃ r res s res' s',
    Restarter.new (wenv 2) (restartOpts (localStrategy 3)) = .ok r ∧
    (ObjSource.once (some sphere)).Stateless ∧
    r.runInternal (wenv 2) .par (.once (some sphere)) true = .ok (res, s) ∧
    r.runInternal (wenv 2) .seq (.once (some sphere)) true = .ok (res', s') ∧
    res' = res ∧ res.runs = 3 ∧ res.functionEvals = 24 := by
  obtain ⟨r, res, s, h0, h, hp⟩ := of_tryRestart (env := wenv 2) (kind := .par)
    (src := .once (some sphere)) (reuse := true) (o := restartOpts (localStrategy 3))
    (p := fun res _ => decide (res.runs = 3 ∧ res.functionEvals = 24)) (by decide +kernel)
  have hs : (ObjSource.once (some sphere)).Stateless := .once _ fun _ _ => rfl
  have hrel := c75_parallel (sched := (wenv 2).sched) h0 hs true .par .seq
  rw [h] at hrel
  generalize hy : r.runInternal _ .seq _ true = y at hrel
  cases hrel with
  | ok hrel => exact ⟨r, res, s, _, _, h0, hs, h, hy, hrel.1, of_decide_eq_true hp⟩

end Examples

end Cmaes
