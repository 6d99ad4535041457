import Verif.Lemmas.Plot
import Verif.Spec.Simulation
import Verif.Lemmas.Simulation
import Verif.Float.XRLemmas
import Verif.Witness

/-!
# C35 and C42: the covariance matrix
-/

set_option linter.unusedSectionVars false

namespace Cmaes
variable {n : Nat} {F R : Type} [Flt F]

/-! ### C35 -/

theorem fillLower_symm (A : Mat n F) (i j : Fin n) : A.fillLower i j = A.fillLower j i := by
  unfold Mat.fillLower
  rcases lt_trichotomy i j with h | h | h
  · simp [h, not_lt.mpr h.le]
  · simp [h]
  · simp [h, not_lt.mpr h.le]

/-- The covariance matrix after an update is the mirrored upper triangle of some matrix. -/
theorem update_cov {eigen : Mat n F → Option (Mat n F × Vec n F)} {tree : SplitTree}
    {evals : Nat} {p : Parameters F} {inds : List (EvaluatedPoint n F)} {s s' : State n F} {b : Bool}
    (h : s.update eigen tree evals p inds = .ok (s', b)) :
    ∃ new : Mat n F, s'.cov.cov = new.fillLower := by
  unfold State.update at h
  simp only [Outcome.bind_eq_ok] at h
  obtain ⟨yw, _, hs, _, rm, _, h⟩ := h
  refine ⟨newCov p s.cov.cov hs (newPathC p s hs yw) rm, ?_⟩
  generalize newCov p s.cov.cov hs (newPathC p s hs yw) rm = new at h ⊢
  generalize decide (s.lastEigenUpdateEvals + evalsPerEigenUpdate p ≤ evals) = de at h
  have key : (s.cov.setCov eigen new de).1.cov = new.fillLower := by
    unfold CovMat.setCov
    simp only
    split
    · split
      · rename_i c hc
        unfold CovMat.updateEigen at hc
        split at hc
        · simp at hc
        · simp only at hc
          split at hc
          · simp at hc
          · injection hc with hc
            rw [← hc]
      · rfl
    · rfl
  rcases hsc : s.cov.setCov eigen new de with ⟨cov, ok⟩
  rw [hsc] at h key
  cases ok with
  | false =>
    simp only [Bool.false_eq_true, if_false, Outcome.ok.injEq, Prod.mk.injEq] at h
    rw [← h.1]; exact key
  | true =>
    simp only [if_true, Outcome.ok.injEq, Prod.mk.injEq] at h
    rw [← h.1]; exact key

/-- **C35.** The covariance matrix is symmetric after every sequence of calls, exactly, whatever
the arithmetic. -/
theorem c35_symmetric [FltLaws F] {env : Env n F R} {obj : Obj n F} {o : Options n F}
    {t : List (NextCall n F)} {c : CMAES n F R} (h : History.Of env obj o t c) (i j : Fin n) :
    c.covarianceMatrix i j = c.covarianceMatrix j i := by
  obtain ⟨w, c0, h0, he⟩ := h
  induction he with
  | refl =>
    obtain ⟨_, rfl⟩ := new_eq_ok h0
    unfold CMAES.covarianceMatrix
    rw [(create_search env w obj o).2.2.1]
    show Mat.one i j = Mat.one j i
    unfold Mat.one
    simp [eq_comm]
  | quiet _ hq ha ih =>
    unfold CMAES.covarianceMatrix at ih ⊢
    rw [(quiet_sameSearch hq ha).1.state]
    exact ih
  | next _ hn hl ih =>
    obtain ⟨calls', _, _, _, ys, _, hc⟩ := next_cases hn
    rcases hc with hf | ⟨ps, inds, hcomp, _⟩
    · unfold CMAES.covarianceMatrix at ih ⊢
      rw [hf.state]; exact ih
    · obtain ⟨success, hu, _⟩ := hcomp.update
      obtain ⟨new, hnew⟩ := update_cov hu
      unfold CMAES.covarianceMatrix
      rw [hnew]
      exact fillLower_symm new i j

open Witness in
/-- A run after which the covariance matrix is symmetric but not diagonal. -/
example : ∃ t c, History.Of (wenv 2) sphere opts t c ∧ c.generation = 3 ∧
    c.covarianceMatrix 0 1 ≠ 0 := by
  obtain ⟨t, c, h, hp⟩ := exists_history (env := wenv 2) (obj := sphere) (o := opts)
    [.seq, .par, .seq] (fun c _ => decide (c.generation = 3 ∧ c.covarianceMatrix 0 1 ≠ 0))
    opts_valid (by decide +kernel)
  exact ⟨t, c, h, of_decide_eq_true hp⟩

/-! ### C42 -/

/-- With an associative operation and a neutral element the way the work is split does not
matter. -/
theorem treeReduce_eq {α : Type} {e : α} {op : α → α → α}
    (assoc : ∀ a b c, op (op a b) c = op a (op b c)) (left : ∀ a, op e a = a)
    (right : ∀ a, op a e = a) (tree : SplitTree) (l : List α) :
    treeReduce e op tree l = l.foldl op e := by
  induction tree generalizing l with
  | leaf => rfl
  | node k a b iha ihb =>
    have key : ∀ (m : List α) (x : α), op x (m.foldl op e) = m.foldl op x := by
      intro m
      induction m with
      | nil => intro x; exact right x
      | cons y m ih =>
        intro x
        rw [List.foldl_cons, List.foldl_cons, left, ← ih y, ← assoc, ih]
    rw [treeReduce, iha, ihb, key, ← List.foldl_append, List.take_append_drop]

theorem sumNonempty_eq {α : Type} {e : α} {op : α → α → α} (left : ∀ a, op e a = a)
    {l : List α} (hl : l ≠ []) : sumNonempty op l = .ok (l.foldl op e) := by
  cases l with
  | nil => exact absurd rfl hl
  | cons a l => simp [sumNonempty, left]

/-- Exact addition: associative, with a neutral zero. -/
class ExactAdd (F : Type) [Flt F] : Prop where
  assoc : ∀ a b c : F, a + b + c = a + (b + c)
  zero_add : ∀ a : F, 0 + a = a
  add_zero : ∀ a : F, a + 0 = a

instance : ExactAdd XR where
  assoc a b c := by
    cases a <;> cases b <;> cases c <;> try rfl
    rename_i a b c
    show Ext.fin (a + b + c) = Ext.fin (a + (b + c))
    rw [_root_.add_assoc]
  zero_add a := by
    cases a <;> try rfl
    rename_i a
    show Ext.fin (((0 : ℕ) : ℚ) + a : ℝ) = Ext.fin a
    simp
  add_zero a := by
    cases a <;> try rfl
    rename_i a
    show Ext.fin (a + ((0 : ℕ) : ℚ) : ℝ) = Ext.fin a
    simp

theorem mapM_length {α β : Type} {f : α → Outcome β} {l : List α} {r : List β}
    (h : l.mapM f = .ok r) : r.length = l.length := by
  induction l generalizing r with
  | nil => simp only [List.mapM_nil] at h; injection h with h; simp [← h]
  | cons a l ih =>
    rw [List.mapM_cons] at h
    simp only [Outcome.bind_eq_ok] at h
    obtain ⟨b, _, bs, h2, h3⟩ := h
    injection h3 with h3
    rw [← h3]
    simp [ih h2]

theorem update_parallel [ExactAdd F] {eigen : Mat n F → Option (Mat n F × Vec n F)}
    {tree tree' : SplitTree} {evals : Nat} {p : Parameters F} (hw : p.weights ≠ [])
    {inds : List (EvaluatedPoint n F)} {s : State n F} (b : Bool) :
    s.update eigen tree' evals { p with parallelUpdate := b } inds =
      s.update eigen tree evals p inds := by
  have h2 : rankMuUpdate { p with parallelUpdate := b } tree' s.cov.sqrtInv inds =
      rankMuUpdate p tree s.cov.sqrtInv inds := by
    unfold rankMuUpdate
    have ht : (p.weights.zipIdx.mapM fun (w, i) =>
        rankMuTerm { p with parallelUpdate := b } s.cov.sqrtInv inds i w) =
        p.weights.zipIdx.mapM fun (w, i) => rankMuTerm p s.cov.sqrtInv inds i w := rfl
    simp only [ht]
    cases hm : (p.weights.zipIdx.mapM fun (w, i) => rankMuTerm p s.cov.sqrtInv inds i w) with
    | panic q => rfl
    | diverge => rfl
    | ok terms =>
      have hne : terms ≠ [] := by
        rintro rfl
        have := mapM_length hm
        simp at this
        exact hw (List.length_eq_zero_iff.mp this.symm)
      have a1 : ∀ A B C : Mat n F, (A.add B).add C = A.add (B.add C) := by
        intro A B C; funext i j; exact ExactAdd.assoc _ _ _
      have a2 : ∀ A : Mat n F, Mat.zero.add A = A := by
        intro A; funext i j; exact ExactAdd.zero_add _
      have a3 : ∀ A : Mat n F, A.add Mat.zero = A := by
        intro A; funext i j; exact ExactAdd.add_zero _
      simp only [Outcome.ok_bind]
      rw [sumNonempty_eq a2 hne, treeReduce_eq a1 a2 a3, treeReduce_eq a1 a2 a3]
      cases b <;> cases p.parallelUpdate <;> rfl
  have h1 : weightedStep { p with parallelUpdate := b } inds = weightedStep p inds := rfl
  simp only [State.update, h1, h2]
  rfl

/-- `c` with `parallel_update` set to `b`. -/
def CMAES.withParallelUpdate (b : Bool) (c : CMAES n F R) : CMAES n F R :=
  { c with parameters := { c.parameters with parallelUpdate := b } }

/-- The environment with another way of splitting the parallel sums. -/
def Env.withRedTree (env : Env n F R) (tree : Nat → SplitTree) : Env n F R :=
  { env with redTree := tree }

/-- The same result but for the setting of `parallel_update`. -/
def SameButParallel (b : Bool) {α : Type} (x y : CMAES n F R × α) : Prop :=
  y.1 = x.1.withParallelUpdate b ∧ y.2 = x.2

theorem rel_map {α β : Type} (f : α → β) (x : Outcome α) :
    Outcome.Rel (fun a b => b = f a) x (x >>= fun a => .ok (f a)) := by
  cases x with
  | ok a => exact .ok rfl
  | panic p => exact .panic p
  | diverge => exact .diverge

theorem autoPlot_parallel (b : Bool) (c : CMAES n F R) :
    Outcome.Rel (fun a a' => a' = CMAES.withParallelUpdate b a) c.autoPlot
      (c.withParallelUpdate b).autoPlot := by
  unfold CMAES.autoPlot
  have e : (c.withParallelUpdate b).plot = c.plot := rfl
  rw [e]
  cases hp : c.plot with
  | none => exact .ok rfl
  | some p =>
    simp only
    have e : (c.withParallelUpdate b).state.generation = c.state.generation := rfl
    rw [e]
    by_cases hg : c.state.generation ≤ 1
    · rw [if_pos hg, if_pos hg]; exact .ok rfl
    · rw [if_neg hg, if_neg hg]
      refine Outcome.Rel.bind (Outcome.Rel.refl_eq _) ?_
      rintro a _ rfl
      have e : (c.withParallelUpdate b).sampler.functionEvals = c.sampler.functionEvals := rfl
      rw [e]
      by_cases hle : a ≤ c.sampler.functionEvals
      · rw [if_pos hle, if_pos hle]; exact .ok rfl
      · rw [if_neg hle, if_neg hle]; exact .ok rfl

theorem autoPrint_parallel (b : Bool) (c : CMAES n F R) :
    Outcome.Rel (fun a a' => a' = CMAES.withParallelUpdate b a) c.autoPrint
      (c.withParallelUpdate b).autoPrint := by
  unfold CMAES.autoPrint
  have e : (c.withParallelUpdate b).printGapEvals = c.printGapEvals := rfl
  rw [e]
  cases hp : c.printGapEvals with
  | none => exact .ok rfl
  | some gap =>
    simp only
    refine Outcome.Rel.bind (Outcome.Rel.refl_eq _) ?_
    rintro a _ rfl
    have e : (c.withParallelUpdate b).sampler.functionEvals = c.sampler.functionEvals := rfl
    have e' : (c.withParallelUpdate b).state.generation = c.state.generation := rfl
    rw [e, e']
    by_cases hle : a ≤ c.sampler.functionEvals
    · rw [if_pos hle, if_pos hle]; exact .ok rfl
    · rw [if_neg hle, if_neg hle]
      by_cases hg : c.state.generation < 4
      · rw [if_pos hg, if_pos hg]; exact .ok rfl
      · rw [if_neg hg, if_neg hg]; exact .ok rfl

theorem checkTermination_parallel (b : Bool) (env : Env n F R) (tree : Nat → SplitTree)
    (inds : List (EvaluatedPoint n F)) (c : CMAES n F R) :
    Outcome.Rel (SameButParallel b) (c.checkTermination env inds)
      ((c.withParallelUpdate b).checkTermination (env.withRedTree tree) inds) := by
  unfold CMAES.checkTermination
  have e : (c.withParallelUpdate b).parameters.termination = c.parameters.termination := rfl
  rw [e]
  by_cases hm : c.parameters.termination.maxTime.isSome = true
  · simp only [hm, if_true]
    refine Outcome.Rel.bind (Outcome.Rel.refl_eq _) ?_
    rintro a _ rfl
    refine .ok ⟨rfl, ?_⟩
    cases a.isEmpty <;> rfl
  · simp only [hm]
    refine Outcome.Rel.bind (Outcome.Rel.refl_eq _) ?_
    rintro a _ rfl
    refine .ok ⟨rfl, ?_⟩
    cases a.isEmpty <;> rfl

theorem next_parallel_update [ExactAdd F] (b : Bool) (env : Env n F R) (tree : Nat → SplitTree)
    (kind : EvalKind) (c : CMAES n F R) (hw : c.parameters.weights ≠ []) :
    Outcome.Rel (SameButParallel b) (c.next env kind)
      ((c.withParallelUpdate b).next (env.withRedTree tree) kind) := by
  unfold CMAES.next
  refine Outcome.Rel.bind (Outcome.Rel.refl_eq _) ?_
  rintro ⟨res, sampler⟩ _ rfl
  cases res with
  | none => exact .ok ⟨rfl, rfl⟩
  | some inds =>
    refine Outcome.Rel.bind (Outcome.Rel.refl_eq _) ?_
    rintro hist _ rfl
    unfold CMAES.nextInternal
    refine Outcome.Rel.bind (Outcome.Rel.of_eq (update_parallel hw b).symm) ?_
    rintro ⟨st, success⟩ _ rfl
    cases success with
    | false => exact .ok ⟨rfl, rfl⟩
    | true =>
      simp only [if_true]
      refine Outcome.Rel.bind (autoPlot_parallel b _) ?_
      rintro c1 _ rfl
      refine Outcome.Rel.bind (autoPrint_parallel b _) ?_
      rintro c2 _ rfl
      exact checkTermination_parallel b env tree inds c2

theorem runLoop_parallel_update [ExactAdd F] [FltLaws F] (b : Bool) (env : Env n F R)
    (tree : Nat → SplitTree) (kind : EvalKind) (fuel : Nat) (c : CMAES n F R)
    (hw : c.parameters.weights ≠ []) :
    Outcome.Rel (SameButParallel b) (c.runLoop env kind fuel)
      ((c.withParallelUpdate b).runLoop (env.withRedTree tree) kind fuel) := by
  induction fuel generalizing c with
  | zero => exact .diverge
  | succ fuel ih =>
    unfold CMAES.runLoop
    cases hn : c.next env kind with
    | panic p =>
      have := next_parallel_update b env tree kind c hw
      rw [hn] at this
      cases h' : (c.withParallelUpdate b).next (env.withRedTree tree) kind <;> rw [h'] at this <;>
        cases this
      exact .panic p
    | diverge =>
      have := next_parallel_update b env tree kind c hw
      rw [hn] at this
      cases h' : (c.withParallelUpdate b).next (env.withRedTree tree) kind <;> rw [h'] at this <;>
        cases this
      exact .diverge
    | ok x =>
      have := next_parallel_update b env tree kind c hw
      rw [hn] at this
      obtain ⟨y, hy, h1, h2⟩ := this.ok_left
      rw [hy]
      obtain ⟨c1, r⟩ := x
      obtain ⟨c1', r'⟩ := y
      simp only at h1 h2
      subst h1 h2
      simp only [Outcome.ok_bind]
      cases r' with
      | some d => exact .ok ⟨rfl, rfl⟩
      | none =>
        refine ih c1 ?_
        obtain ⟨_, hcfg, _⟩ := next_cases hn
        rw [hcfg.parameters]
        exact hw

theorem runInternal_parallel (b : Bool) (c : CMAES n F R) (d : TerminationData n F) :
    (c.withParallelUpdate b).runInternal d = (c.runInternal d).withParallelUpdate b := by
  unfold CMAES.runInternal
  simp only [CMAES.addPlotPoint, CMAES.withParallelUpdate]
  by_cases hg : c.printGapEvals.isSome = true
  · simp only [hg, if_true]
    unfold CMAES.printFinalInfo
    by_cases hh : c.sampler.functionEvals = c.lastPrintEvals
    · simp only [hh, ne_eq, not_true_eq_false, if_false]; rfl
    · simp only [hh, ne_eq, not_false_eq_true, if_true]; rfl
  · simp only [hg]
    rfl

theorem apply_parallel_update [ExactAdd F] [FltLaws F] (b : Bool) (env : Env n F R) (tree : Nat → SplitTree)
    (op : Op) (c : CMAES n F R) (hw : c.parameters.weights ≠ []) :
    Outcome.Rel (SameButParallel b) (c.apply env op)
      ((c.withParallelUpdate b).apply (env.withRedTree tree) op) := by
  cases op with
  | next kind => exact next_parallel_update b env tree kind c hw
  | run kind =>
    unfold CMAES.apply CMAES.run
    refine Outcome.Rel.bind (Q := SameButParallel b) (P := SameButParallel b) ?_ ?_
    · refine Outcome.Rel.bind (runLoop_parallel_update b env tree kind _ c hw) ?_
      rintro ⟨a, d⟩ ⟨a', d'⟩ ⟨h1, h2⟩
      simp only at h1 h2
      subst h1 h2
      exact .ok ⟨runInternal_parallel b a d', rfl⟩
    · rintro ⟨a, d⟩ ⟨a', d'⟩ ⟨h1, h2⟩
      simp only at h1 h2
      subst h1 h2
      exact .ok ⟨rfl, rfl⟩
  | addPlotPoint => exact .ok ⟨rfl, rfl⟩
  | clearPlot =>
    unfold CMAES.apply CMAES.clearPlot
    have e : (c.withParallelUpdate b).plot = c.plot := rfl
    simp only [e]
    cases c.plot with
    | none => exact .ok ⟨rfl, rfl⟩
    | some p =>
      simp only
      refine Outcome.Rel.bind (P := fun a a' => a' = CMAES.withParallelUpdate b a) ?_ ?_
      · refine Outcome.Rel.bind (Outcome.Rel.refl_eq _) ?_
        rintro q _ rfl
        exact .ok rfl
      · rintro a _ rfl
        exact .ok ⟨rfl, rfl⟩
  | printInitialInfo => exact .ok ⟨rfl, rfl⟩
  | printInfo => exact .ok ⟨rfl, rfl⟩
  | printRunInfo k => exact .ok ⟨rfl, rfl⟩
  | printFinalInfo rs =>
    refine .ok ⟨?_, rfl⟩
    show (c.withParallelUpdate b).printFinalInfo rs = (c.printFinalInfo rs).withParallelUpdate b
    unfold CMAES.printFinalInfo
    simp only [CMAES.withParallelUpdate]
    by_cases hh : c.sampler.functionEvals = c.lastPrintEvals
    · simp only [hh, ne_eq, not_true_eq_false, if_false]; rfl
    · simp only [hh, ne_eq, not_false_eq_true, if_true]; rfl

theorem applyAll_parallel_update [ExactAdd F] [FltLaws F] (b : Bool) (env : Env n F R)
    (tree : Nat → SplitTree) (ops : List Op) (c : CMAES n F R) (hw : c.parameters.weights ≠ []) :
    Outcome.Rel (SameButParallel b) (c.applyAll env ops)
      ((c.withParallelUpdate b).applyAll (env.withRedTree tree) ops) := by
  induction ops generalizing c with
  | nil => exact .ok ⟨rfl, rfl⟩
  | cons op ops ih =>
    unfold CMAES.applyAll
    cases hn : c.apply env op with
    | panic p =>
      have := apply_parallel_update b env tree op c hw
      rw [hn] at this
      cases h' : (c.withParallelUpdate b).apply (env.withRedTree tree) op <;> rw [h'] at this <;>
        cases this
      exact .panic p
    | diverge =>
      have := apply_parallel_update b env tree op c hw
      rw [hn] at this
      cases h' : (c.withParallelUpdate b).apply (env.withRedTree tree) op <;> rw [h'] at this <;>
        cases this
      exact .diverge
    | ok x =>
      have := apply_parallel_update b env tree op c hw
      rw [hn] at this
      obtain ⟨y, hy, h1, h2⟩ := this.ok_left
      rw [hy]
      obtain ⟨c1, r⟩ := x
      obtain ⟨c1', r'⟩ := y
      simp only at h1 h2
      subst h1 h2
      simp only [Outcome.ok_bind]
      have hw1 : c1.parameters.weights ≠ [] := by
        obtain ⟨t, ht, -⟩ := apply_exec hn
        obtain ⟨gs, i⟩ := exec_inv ht
        rw [i.config.parameters]
        exact hw
      refine Outcome.Rel.bind (ih c1 hw1) ?_
      rintro ⟨a, rs⟩ ⟨a', rs'⟩ ⟨h1, h2⟩
      simp only at h1 h2
      subst h1 h2
      exact .ok ⟨rfl, rfl⟩

theorem length_normalizePos (ws : List F) : (normalizePos ws).length = ws.length := by
  simp [normalizePos]

theorem length_weights (o : Options n F) (seed : Nat) :
    (Parameters.fromOptions o seed).weights.length =
      match o.weights with
      | .negative => o.populationSize
      | _ => o.populationSize / 2 := by
  unfold Parameters.fromOptions InitialWeights.finalize
  simp only
  have : (InitialWeights.new (F := F) o.populationSize o.weights).weights.length =
      match o.weights with
      | .negative => o.populationSize
      | _ => o.populationSize / 2 := by
    unfold InitialWeights.new
    cases o.weights <;> simp
  split
  · simp [normalizeNeg, length_normalizePos, this]
  · simp [length_normalizePos, this]

theorem weights_ne_nil [FltLaws F] {o : Options n F} (h : CMAES.validate o = none) (seed : Nat) :
    (Parameters.fromOptions o seed).weights ≠ [] := by
  intro hw
  have := length_weights o seed
  rw [hw] at this
  have h2 := two_le_population h
  cases hs : o.weights <;> rw [hs] at this <;> simp at this <;> omega

/-- **C42.** In exact arithmetic `parallel_update` and the way the work is split among threads
change nothing: two optimizers built with options that differ in `parallel_update` only, with sums
split in arbitrary ways, behave alike under every sequence of calls. Both return the same data and
reach the same state (the setting itself aside), or both panic in the same way, or neither ends. -/
theorem c42_exact (env : Env n XR R) (tree : Nat → SplitTree) (w : World n XR) (obj : Obj n XR)
    (o : Options n XR) (b : Bool) {c0 c0' : CMAES n XR R} (h0 : CMAES.new env w obj o = .ok c0)
    (h0' : CMAES.new (env.withRedTree tree) w obj { o with parallelUpdate := b } = .ok c0')
    (ops : List Op) :
    Outcome.Rel (SameButParallel b) (c0.applyAll env ops)
      (c0'.applyAll (env.withRedTree tree) ops) := by
  obtain ⟨hv, rfl⟩ := new_eq_ok h0
  obtain ⟨_, rfl⟩ := new_eq_ok h0'
  have e : CMAES.create (env.withRedTree tree) w obj { o with parallelUpdate := b } =
      (CMAES.create env w obj o).withParallelUpdate b := by
    unfold CMAES.create
    by_cases hg : o.printGapEvals.isSome = true
    · simp only [CMAES.addPlotPoint, hg, if_true]; rfl
    · simp only [CMAES.addPlotPoint, hg]; rfl
  rw [e]
  refine applyAll_parallel_update b env tree ops _ ?_
  rw [(create_search env w obj o).2.1]
  exact weights_ne_nil hv _

/-- An environment in exact arithmetic in which every draw is 1. -/
noncomputable def exactEnv : Env 2 XR Nat where
  rng := ⟨fun s => s, fun r => (1, r + 1), fun r => (0, r + 1), fun r => (r, r + 1),
    fun lo _ r => (lo, r + 1)⟩
  restartRng := ⟨fun s => s, fun r => (1, r + 1), fun r => (0, r + 1), fun r => (r, r + 1),
    fun lo _ r => (lo, r + 1)⟩
  eigen m := some (Mat.one, m.diag)
  clock k := k
  sched _ := Witness.reverseSched
  redTree _ := .leaf
  medianNaN _ := .ok Flt.nan
  randomSeed := 5
  resampleFuel := 20
  runFuel := 20
  restartFuel := 20

/-- Options in exact arithmetic. -/
noncomputable def exactOpts : Options 2 XR :=
  { (Options.new (fun i => if i = 0 then 1 else 2) 1 : Options 2 XR) with populationSize := 4, seed := some 1, cm := 1 }

theorem exactOpts_valid (b : Bool) :
    CMAES.validate { exactOpts with parallelUpdate := b } = none := by
  have h1 : Flt.isNormal (1 : XR) = true := by
    rw [XR.one_eq, XR.isNormal_fin]; simp
  have h2 : Flt.lt (0 : XR) 1 = true := by
    rw [XR.one_eq, XR.zero_eq, XR.lt_fin]; simp
  have h3 : Flt.le (1 : XR) 0 = false := by
    rw [XR.one_eq, XR.zero_eq, XR.le_fin]; simp
  have h4 : Flt.lt (1 : XR) 1 = false := by
    rw [XR.one_eq, XR.lt_fin]; simp
  have e1 : exactOpts.initialStepSize = 1 := rfl
  have e2 : exactOpts.cm = 1 := rfl
  have e3 : exactOpts.populationSize = 4 := rfl
  simp only [CMAES.validate, isInitialStepSizeValid, e1, e2, e3, h1, h2, h3, h4]
  rfl

/-- The hypotheses of `c42_exact` are met. -/
example : ∃ (c0 c0' : CMAES 2 XR Nat) (obj : Obj 2 XR),
    CMAES.new exactEnv World.init obj { exactOpts with parallelUpdate := false } = .ok c0 ∧
    CMAES.new (exactEnv.withRedTree fun _ => .node 2 .leaf .leaf) World.init obj
      { exactOpts with parallelUpdate := true } = .ok c0' := by
  refine ⟨CMAES.create exactEnv World.init { f := fun _ x => x 0 * x 0 + x 1, log := [] }
      { exactOpts with parallelUpdate := false },
    CMAES.create (exactEnv.withRedTree fun _ => .node 2 .leaf .leaf) World.init
      { f := fun _ x => x 0 * x 0 + x 1, log := [] } { exactOpts with parallelUpdate := true },
    { f := fun _ x => x 0 * x 0 + x 1, log := [] }, ?_, ?_⟩
  · simp only [CMAES.new, exactOpts_valid]
  · simp only [CMAES.new, exactOpts_valid]

open Witness in
/-- Options with `parallel_update`. -/
def parOpts : Options 2 F64 :=
  { (Options.new (fun i => if i = 0 then 1 else 2) 1 : Options 2 F64) with populationSize := 6, seed := some 1, parallelUpdate := true }

open Witness in
/-- **C42.** With rounding the way the work is split can matter: the same optimizer with the same
seed and the same call of `next` gives different covariance matrices under two ways of splitting
the sum. -/
theorem c42_rounding : ∃ (tree : Nat → SplitTree) (x y : NextCall 2 F64)
    (c c' : CMAES 2 F64 Nat),
    History.Of (wenv 2) sphere parOpts [x] c ∧
    History.Of ((wenv 2).withRedTree tree) sphere parOpts [y] c' ∧
    x.kind = y.kind ∧ x.calls = y.calls ∧
    c.covarianceMatrix 0 1 ≠ c'.covarianceMatrix 0 1 := by
  have h : ((CMAES.create (wenv 2) World.init sphere parOpts).nexts (wenv 2) [.seq]).check
      (fun x => ((CMAES.create ((wenv 2).withRedTree fun _ => .node 1 .leaf .leaf)
        World.init sphere parOpts).nexts
        ((wenv 2).withRedTree fun _ => .node 1 .leaf .leaf) [.seq]).check
        fun y => decide (x.2.length = 1 ∧ y.2.length = 1 ∧ x.2.map (·.kind) = y.2.map (·.kind) ∧
          x.2.map (·.calls) = y.2.map (·.calls) ∧
          x.1.covarianceMatrix 0 1 ≠ y.1.covarianceMatrix 0 1)) = true := by
    decide +kernel
  obtain ⟨⟨c, t⟩, h1, h⟩ := Outcome.of_check h
  obtain ⟨⟨c', t'⟩, h2, h⟩ := Outcome.of_check h
  obtain ⟨l1, l2, hk, hc, hne⟩ := of_decide_eq_true h
  have hv : CMAES.validate parOpts = none := by decide +kernel
  obtain ⟨x, rfl⟩ := List.length_eq_one_iff.mp l1
  obtain ⟨y, rfl⟩ := List.length_eq_one_iff.mp l2
  refine ⟨fun _ => .node 1 .leaf .leaf, x, y, c, c',
    ⟨World.init, _, by simp only [CMAES.new, hv], nexts_exec h1⟩,
    ⟨World.init, _, by simp only [CMAES.new, hv], nexts_exec h2⟩, ?_, ?_, hne⟩
  · simpa using hk
  · simpa using hc

end Cmaes
