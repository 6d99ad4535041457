import Verif.Model.PlotMemory
import Verif.Props.Plot

/-!
# C96: clearing a plot bounds its memory
-/

set_option linter.unusedSectionVars false

namespace Cmaes
variable {n : Nat} {F R : Type} [Flt F]

/-! ### Specification -/

/-- The operation is a call of `clear`. -/
def PlotOp.isClear : PlotOp n F → Bool
  | .clear => true
  | .add .. => false

/-- The number of calls of `next`, `next_parallel` and `add_plot_point` since the plot was last
cleared, or since the beginning. -/
def callsSinceClear (ops : List Op) : Nat :=
  ((ops.reverse.takeWhile (· ≠ .clearPlot)).filter fun op =>
    match op with
    | .next _ => true
    | .addPlotPoint => true
    | _ => false).length

/-- What an API call may do to the plot. -/
def Op.Offers : Op → List (PlotOp n F) → Prop
  | .next _, l => l = [] ∨ ∃ evals s h, l = [.add evals s h]
  | .run _, l => ∀ op ∈ l, op.isClear = false
  | .addPlotPoint, l => ∃ evals s h, l = [.add evals s h]
  | .clearPlot, l => l = [.clear]
  | _, l => l = []

/-! ### Proofs -/

variable {grow : Nat → Nat}

/-- The capacity after `j` pushes into a new vector. -/
def vecCapacity (grow : Nat → Nat) : Nat → Nat
  | 0 => 0
  | j + 1 => if j < vecCapacity grow j then vecCapacity grow j else grow (vecCapacity grow j)

theorem le_vecCapacity (hg : ∀ c, c < grow c) (j : Nat) : j ≤ vecCapacity grow j := by
  induction j with
  | zero => exact Nat.zero_le _
  | succ j ih =>
    unfold vecCapacity
    split
    · omega
    · have := hg (vecCapacity grow j); omega

theorem vecCapacity_mono (hg : ∀ c, c < grow c) : Monotone (vecCapacity grow) := by
  refine monotone_nat_of_le_succ fun j => ?_
  rw [show vecCapacity grow (j + 1) = if j < vecCapacity grow j then vecCapacity grow j
    else grow (vecCapacity grow j) from rfl]
  split
  · exact le_rfl
  · exact (hg _).le

theorem len_addDataPoint (p : Plot n F) (evals : Nat) (s : State n F) (h : History n F) :
    (p.addDataPoint evals s h).data.len = p.data.len ∨
      (p.addDataPoint evals s h).data.len = p.data.len + 1 := by
  unfold Plot.addDataPoint
  simp only
  split
  · split
    · exact .inl rfl
    · right; simp [PlotData.addDataPoint, PlotData.len]
  · right; simp [PlotData.addDataPoint, PlotData.len]

theorem len_clear {p p' : Plot n F} (h : p.clear = .ok p') : p'.data.len = 1 ∧ 1 ≤ p.data.len := by
  simp only [Plot.clear, PlotData.clear, Outcome.bind_eq_ok, Outcome.ok.injEq] at h
  obtain ⟨d, ⟨l, hl, _, _, _, _, _, _, _, _, _, _, _, _, _, _, rfl⟩, rfl⟩ := h
  unfold clearSeries at hl
  unfold PlotData.len
  split at hl
  · simp at hl
  · rename_i a l' hl'
    injection hl with hl
    constructor
    · show l.length = 1
      rw [← hl]; simp
    · rw [hl']; simp

/-- The memory is that of a vector that has held `j` elements at some time, and never more. -/
structure MemInv (grow : Nat → Nat) (m : MemPlot n F) (j : Nat) : Prop where
  capacity : m.capacity = vecCapacity grow j
  len : m.plot.data.len ≤ j

theorem MemInv.new (po : PlotOptions) (mode : Mode) :
    MemInv grow (MemPlot.new (n := n) (F := F) po mode) 0 :=
  ⟨rfl, le_rfl⟩

theorem MemInv.clear {m m' : MemPlot n F} {j : Nat} (i : MemInv grow m j) (h : m.clear = .ok m') :
    MemInv grow m' j ∧ m'.plot.data.len = 1 := by
  simp only [MemPlot.clear, Outcome.bind_eq_ok, Outcome.ok.injEq] at h
  obtain ⟨p, hc, rfl⟩ := h
  obtain ⟨l1, l2⟩ := len_clear hc
  have := i.len
  exact ⟨⟨i.capacity, by show p.data.len ≤ j; omega⟩, l1⟩

theorem MemInv.add (hg : ∀ c, c < grow c) {m : MemPlot n F} {j : Nat} (i : MemInv grow m j)
    (evals : Nat) (s : State n F) (h : History n F) :
    ∃ j', MemInv grow (m.add grow evals s h) j' ∧
      (j' = j ∨ j' = (m.add grow evals s h).plot.data.len) ∧
      (m.plot.data.len = j → (m.add grow evals s h).plot.data.len = j') := by
  have hlen := i.len
  have hjA := le_vecCapacity hg j
  have e : (m.add grow evals s h).plot = m.plot.addDataPoint evals s h := rfl
  rcases len_addDataPoint m.plot evals s h with hl | hl
  · refine ⟨j, ⟨?_, ?_⟩, .inl rfl, ?_⟩
    · simp only [MemPlot.add, hl, if_true]; exact i.capacity
    · rw [e, hl]; exact hlen
    · rw [e, hl]; exact id
  · have hcap : (m.add grow evals s h).capacity =
        if m.plot.data.len < m.capacity then m.capacity else grow m.capacity := by
      simp only [MemPlot.add, hl]
      rw [if_neg (by omega)]
    by_cases hlj : m.plot.data.len = j
    · refine ⟨j + 1, ⟨?_, ?_⟩, .inr ?_, fun _ => ?_⟩
      · rw [hcap, i.capacity, hlj]; rfl
      · rw [e]; omega
      · rw [e]; omega
      · rw [e]; omega
    · refine ⟨j, ⟨?_, ?_⟩, .inl rfl, fun h => absurd h hlj⟩
      · rw [hcap, i.capacity, if_pos (by omega)]
      · rw [e]; omega

theorem applyAll_append (ops ops' : List (PlotOp n F)) (m : MemPlot n F) :
    MemPlot.applyAll grow (ops ++ ops') m =
      MemPlot.applyAll grow ops m >>= MemPlot.applyAll grow ops' := by
  induction ops generalizing m with
  | nil => rfl
  | cons op ops ih =>
    show (m.apply grow op >>= fun m => MemPlot.applyAll grow (ops ++ ops') m) =
      (m.apply grow op >>= fun m => MemPlot.applyAll grow ops m) >>= _
    cases m.apply grow op with
    | ok m' => exact ih m'
    | panic _ => rfl
    | diverge => rfl

theorem applyAll_snoc {ops : List (PlotOp n F)} {op : PlotOp n F} {m m' : MemPlot n F} :
    MemPlot.applyAll grow (ops ++ [op]) m = .ok m' ↔
      ∃ m1, MemPlot.applyAll grow ops m = .ok m1 ∧ m1.apply grow op = .ok m' := by
  rw [applyAll_append, Outcome.bind_eq_ok]
  constructor
  · rintro ⟨m1, h1, h2⟩
    refine ⟨m1, h1, ?_⟩
    simp only [MemPlot.applyAll, Outcome.bind_eq_ok, Outcome.ok.injEq] at h2
    obtain ⟨m2, h2, rfl⟩ := h2
    exact h2
  · rintro ⟨m1, h1, h2⟩
    exact ⟨m1, h1, by simp only [MemPlot.applyAll, h2]; rfl⟩

/-- The invariant along any sequence of operations. -/
theorem memInv (hg : ∀ c, c < grow c) {po : PlotOptions} {mode : Mode} {k : Nat}
    {ops : List (PlotOp n F)} {m : MemPlot n F}
    (hk : ∀ pre, pre <+: ops → ∀ m1, MemPlot.applyAll grow pre (.new po mode) = .ok m1 →
      m1.plot.data.len ≤ k)
    (h : MemPlot.applyAll grow ops (.new po mode) = .ok m) :
    ∃ j ≤ k, MemInv grow m j ∧ ((∀ op ∈ ops, op.isClear = false) → m.plot.data.len = j) := by
  induction ops using List.reverseRecOn generalizing m with
  | nil =>
    injection h with h
    subst h
    exact ⟨0, Nat.zero_le _, .new po mode, fun _ => rfl⟩
  | append_singleton ops op ih =>
    have hm := hk _ (List.prefix_refl _) m h
    obtain ⟨m1, h1, h2⟩ := applyAll_snoc.mp h
    obtain ⟨j, hj, i, hn⟩ := ih (fun pre hp => hk pre (hp.trans (List.prefix_append _ _))) h1
    cases op with
    | clear =>
      exact ⟨j, hj, (i.clear h2).1, fun hn => Bool.noConfusion (hn .clear (by simp))⟩
    | add evals s hist =>
      injection h2 with h2
      subst h2
      obtain ⟨j', i', hj', hl⟩ := i.add hg evals s hist
      refine ⟨j', ?_, i', fun hc => hl (hn fun op hop => hc op (by simp [hop]))⟩
      rcases hj' with rfl | rfl
      · exact hj
      · exact hm

theorem len_le_length {po : PlotOptions} {mode : Mode} {ops : List (PlotOp n F)} {m : MemPlot n F}
    (h : MemPlot.applyAll grow ops (.new po mode) = .ok m) : m.plot.data.len ≤ ops.length := by
  induction ops using List.reverseRecOn generalizing m with
  | nil => injection h with h; subst h; exact le_rfl
  | append_singleton ops op ih =>
    obtain ⟨m1, h1, h2⟩ := applyAll_snoc.mp h
    have := ih h1
    rw [List.length_append, List.length_singleton]
    cases op with
    | clear =>
      simp only [MemPlot.apply, MemPlot.clear, Outcome.bind_eq_ok, Outcome.ok.injEq] at h2
      obtain ⟨p, hc, rfl⟩ := h2
      have := (len_clear hc).1
      show p.data.len ≤ _
      omega
    | add evals s hist =>
      injection h2 with h2
      subst h2
      show (m1.plot.addDataPoint evals s hist).data.len ≤ _
      rcases len_addDataPoint m1.plot evals s hist with hl | hl <;> omega

/-! ### C96 -/

/-- **C96, room.** The data points never exceed `capacity()`. -/
theorem c96_room (hg : ∀ c, c < grow c) {po : PlotOptions} {mode : Mode} {ops : List (PlotOp n F)}
    {m : MemPlot n F} (h : MemPlot.applyAll grow ops (.new po mode) = .ok m) :
    m.plot.data.len ≤ m.capacity := by
  obtain ⟨j, _, i, _⟩ := memInv hg (k := ops.length)
    (fun pre hp m1 h1 => (len_le_length h1).trans hp.length_le) h
  rw [i.capacity]
  exact i.len.trans (le_vecCapacity hg j)

/-- **C96, memory is kept.** Nothing makes `capacity()` smaller, and clearing does not change
it. -/
theorem c96_kept (hg : ∀ c, c < grow c) {ops : List (PlotOp n F)} {m m' : MemPlot n F}
    (h : MemPlot.applyAll grow ops m = .ok m') :
    m.capacity ≤ m'.capacity ∧ ∀ m'', m'.clear = .ok m'' → m''.capacity = m'.capacity := by
  constructor
  · induction ops generalizing m with
    | nil => injection h with h; rw [h]
    | cons op ops ih =>
      simp only [MemPlot.applyAll, Outcome.bind_eq_ok] at h
      obtain ⟨m1, h1, h⟩ := h
      refine le_trans ?_ (ih h)
      cases op with
      | clear =>
        simp only [MemPlot.apply, MemPlot.clear, Outcome.bind_eq_ok, Outcome.ok.injEq] at h1
        obtain ⟨p, _, rfl⟩ := h1
        exact le_rfl
      | add evals s hist =>
        simp only [MemPlot.apply, Outcome.ok.injEq] at h1
        subst h1
        unfold MemPlot.add
        simp only
        split
        · exact le_rfl
        · split
          · exact le_rfl
          · exact (hg _).le
  · intro m'' h2
    simp only [MemPlot.clear, Outcome.bind_eq_ok, Outcome.ok.injEq] at h2
    obtain ⟨p, _, rfl⟩ := h2
    rfl

/-- **C96, memory follows the longest plot.** If the plot never holds more than `k` data points,
then however many pass through it `capacity()` never exceeds that of a plot with at least `k` data
points that was never cleared. -/
theorem c96_bounded (hg : ∀ c, c < grow c) {po po' : PlotOptions} {mode mode' : Mode} {k : Nat}
    {ops ops' : List (PlotOp n F)} {m m' : MemPlot n F}
    (hk : ∀ pre, pre <+: ops → ∀ m1, MemPlot.applyAll grow pre (.new po mode) = .ok m1 →
      m1.plot.data.len ≤ k)
    (h : MemPlot.applyAll grow ops (.new po mode) = .ok m)
    (h' : MemPlot.applyAll grow ops' (.new po' mode') = .ok m')
    (hn : ∀ op ∈ ops', op.isClear = false) (hl : k ≤ m'.plot.data.len) :
    m.capacity ≤ m'.capacity := by
  obtain ⟨j, hj, i, _⟩ := memInv hg hk h
  obtain ⟨j', _, i', hc⟩ := memInv hg (k := ops'.length)
    (fun pre hp m1 h1 => (len_le_length h1).trans hp.length_le) h'
  rw [i.capacity, i'.capacity]
  exact vecCapacity_mono hg (hj.trans (hl.trans (hc hn).le))

section calls
variable [FltLaws F] {env : Env n F R} {obj : Obj n F} {o : Options n F}

/-- A `next` call offers at most one data point to the plot. -/
theorem next_plotOp {kind : EvalKind} {c c' : CMAES n F R}
    {r : Option (TerminationData n F)} (hn : c.next env kind = .ok (c', r)) :
    c'.plot = c.plot ∨ ∃ e s h, c'.plot = c.plot.map fun p => p.addDataPoint e s h := by
  obtain ⟨calls', hcfg, hlog, _, ys, _, hc⟩ := next_cases hn
  rcases hc with hf | ⟨ps, inds, hcomp, _⟩
  · exact .inl hf.plot
  · obtain ⟨success, hu, hfail, hok⟩ := hcomp.update
    cases success with
    | false => exact .inl (hfail rfl).1
    | true =>
      obtain ⟨ca, cb, ha, hb, hd⟩ := hok rfl
      rw [(checkTermination_eq_ok hd).2.1]
      have e1 : cb.plot = ca.plot := by
        unfold CMAES.autoPrint at hb
        split at hb
        · injection hb with hb; rw [hb]
        · simp only [Outcome.bind_eq_ok, Outcome.ok.injEq] at hb
          obtain ⟨_, _, hb⟩ := hb
          rw [← hb]
          split
          · rfl
          · split <;> rfl
      rw [e1]
      unfold CMAES.autoPlot at ha
      split at ha
      · injection ha with ha; rw [← ha]; exact .inl rfl
      · split at ha
        · injection ha with ha; rw [← ha]; exact .inr ⟨_, _, _, rfl⟩
        · simp only [Outcome.bind_eq_ok, Outcome.ok.injEq] at ha
          obtain ⟨_, _, ha⟩ := ha
          rw [← ha]
          split
          · exact .inr ⟨_, _, _, rfl⟩
          · exact .inl rfl

/-- The operations that `c` and `c'` differ by. -/
def Between (grow : Nat → Nat) (l : List (PlotOp n F)) (c c' : CMAES n F R) : Prop :=
  ∀ m : MemPlot n F, c.plot = some m.plot →
    ∃ m', MemPlot.applyAll grow l m = .ok m' ∧ c'.plot = some m'.plot

theorem Between.same {c c' : CMAES n F R} (h : c'.plot = c.plot) : Between grow [] c c' :=
  fun m hm => ⟨m, rfl, by rw [h, hm]⟩

theorem Between.added {c c' : CMAES n F R} {e : Nat} {s : State n F} {h : History n F}
    (hp : c'.plot = c.plot.map fun p => p.addDataPoint e s h) :
    Between grow [.add e s h] c c' :=
  fun m hm => ⟨m.add grow e s h, rfl, by rw [hp, hm]; rfl⟩

theorem Between.trans {c c' c'' : CMAES n F R} {l l' : List (PlotOp n F)}
    (h : Between grow l c c') (h' : Between grow l' c' c'') : Between grow (l ++ l') c c'' := by
  intro m hm
  obtain ⟨m1, h1, e1⟩ := h m hm
  obtain ⟨m2, h2, e2⟩ := h' m1 e1
  exact ⟨m2, by rw [applyAll_append, h1]; exact h2, e2⟩

theorem runLoop_between {kind : EvalKind} {fuel : Nat} {c c' : CMAES n F R}
    {d : TerminationData n F} (h : c.runLoop env kind fuel = .ok (c', d)) :
    ∃ l : List (PlotOp n F), (∀ op ∈ l, op.isClear = false) ∧ Between grow l c c' := by
  induction fuel generalizing c with
  | zero => exact absurd h (by simp [CMAES.runLoop])
  | succ fuel ih =>
    simp only [CMAES.runLoop, Outcome.bind_eq_ok] at h
    obtain ⟨⟨c1, r⟩, hn, h⟩ := h
    have h1 : ∃ l : List (PlotOp n F), (∀ op ∈ l, op.isClear = false) ∧ Between grow l c c1 := by
      rcases next_plotOp hn with he | ⟨e, s, hi, he⟩
      · exact ⟨[], by simp, .same he⟩
      · exact ⟨_, by simp [PlotOp.isClear], .added he⟩
    cases r with
    | some d' =>
      simp only [Outcome.ok.injEq, Prod.mk.injEq] at h
      rw [← h.1]
      exact h1
    | none =>
      obtain ⟨l, a1, a2⟩ := h1
      obtain ⟨l', b1, b2⟩ := ih h
      exact ⟨l ++ l', by simpa using fun op hop => hop.elim (a1 op) (b1 op), a2.trans b2⟩

/-- One API call. -/
theorem apply_between {op : Op} {c c' : CMAES n F R} {r : Option (TerminationData n F)}
    (h : c.apply env op = .ok (c', r)) (hp : c.plot ≠ none) :
    ∃ l : List (PlotOp n F), op.Offers l ∧ Between grow l c c' := by
  cases op with
  | next kind =>
    rcases next_plotOp h with he | ⟨e, s, hi, he⟩
    · exact ⟨[], .inl rfl, .same he⟩
    · exact ⟨_, .inr ⟨e, s, hi, rfl⟩, .added he⟩
  | run kind =>
    simp only [CMAES.apply, CMAES.run, Outcome.bind_eq_ok, Outcome.ok.injEq, Prod.mk.injEq] at h
    obtain ⟨_, ⟨⟨c1, d1⟩, h1, rfl⟩, h4, h5⟩ := h
    obtain ⟨l, a1, a2⟩ := runLoop_between (grow := grow) h1
    refine ⟨l ++ [.add c1.sampler.functionEvals c1.state c1.history], ?_, a2.trans (.added ?_)⟩
    · intro op hop
      rcases List.mem_append.mp hop with hop | hop
      · exact a1 op hop
      · rw [List.mem_singleton.mp hop]; rfl
    · rw [← h4]
      unfold CMAES.runInternal CMAES.printFinalInfo
      simp only [CMAES.print, CMAES.printInfo]
      split
      · split <;> rfl
      · rfl
  | addPlotPoint =>
    simp only [CMAES.apply, Outcome.ok.injEq, Prod.mk.injEq] at h
    rw [← h.1]
    exact ⟨_, ⟨_, _, _, rfl⟩, .added rfl⟩
  | clearPlot =>
    simp only [CMAES.apply, CMAES.clearPlot, Outcome.bind_eq_ok, Outcome.ok.injEq,
      Prod.mk.injEq] at h
    obtain ⟨c1, h1, rfl, rfl⟩ := h
    split at h1
    · rename_i hn; exact absurd hn hp
    · rename_i p hp
      simp only [Outcome.bind_eq_ok, Outcome.ok.injEq] at h1
      obtain ⟨q, hq, rfl⟩ := h1
      refine ⟨[.clear], rfl, fun m hm => ⟨{ m with plot := q }, ?_, rfl⟩⟩
      rw [hp, Option.some.injEq] at hm
      subst hm
      simp only [MemPlot.applyAll, MemPlot.apply, MemPlot.clear, hq]
      rfl
  | printInitialInfo =>
    simp only [CMAES.apply, Outcome.ok.injEq, Prod.mk.injEq] at h
    rw [← h.1]
    exact ⟨[], rfl, .same rfl⟩
  | printInfo =>
    simp only [CMAES.apply, Outcome.ok.injEq, Prod.mk.injEq] at h
    rw [← h.1]
    exact ⟨[], rfl, .same rfl⟩
  | printRunInfo k =>
    simp only [CMAES.apply, Outcome.ok.injEq, Prod.mk.injEq] at h
    rw [← h.1]
    exact ⟨[], rfl, .same rfl⟩
  | printFinalInfo rs =>
    simp only [CMAES.apply, Outcome.ok.injEq, Prod.mk.injEq] at h
    rw [← h.1]
    refine ⟨[], rfl, .same ?_⟩
    unfold CMAES.printFinalInfo
    simp only [CMAES.print, CMAES.printInfo]
    split <;> rfl

theorem cmaes_applyAll_snoc {ops : List Op} {op : Op} {c c' : CMAES n F R}
    {rs : List (Option (TerminationData n F))}
    (h : c.applyAll env (ops ++ [op]) = .ok (c', rs)) :
    ∃ c1 rs1 r, c.applyAll env ops = .ok (c1, rs1) ∧ c1.apply env op = .ok (c', r) := by
  induction ops generalizing c rs with
  | nil =>
    simp only [List.nil_append, CMAES.applyAll, Outcome.bind_eq_ok, Outcome.ok.injEq,
      Prod.mk.injEq] at h
    obtain ⟨⟨c1, r⟩, h1, ⟨c2, rs2⟩, e1, e3, e4⟩ := h
    obtain ⟨rfl, -⟩ := e1
    obtain rfl := e3
    exact ⟨c, [], r, rfl, h1⟩
  | cons a ops ih =>
    simp only [List.cons_append, CMAES.applyAll, Outcome.bind_eq_ok, Outcome.ok.injEq,
      Prod.mk.injEq] at h
    obtain ⟨⟨c1, r⟩, h1, ⟨c2, rs2⟩, h2, e3, e4⟩ := h
    simp only at h2 e3
    subst e3
    obtain ⟨c3, rs3, r3, h3, h4⟩ := ih h2
    refine ⟨c3, r :: rs3, r3, ?_, h4⟩
    simp only [CMAES.applyAll, Outcome.bind_eq_ok, Outcome.ok.injEq, Prod.mk.injEq]
    exact ⟨(c1, r), h1, (c3, rs3), h3, rfl, rfl⟩

theorem callsSinceClear_snoc (ops : List Op) (op : Op) :
    callsSinceClear (ops ++ [op]) = match op with
      | .next _ => callsSinceClear ops + 1
      | .addPlotPoint => callsSinceClear ops + 1
      | .clearPlot => 0
      | _ => callsSinceClear ops := by
  unfold callsSinceClear
  rw [List.reverse_append, List.reverse_singleton, List.singleton_append, List.takeWhile_cons]
  cases op <;> simp

/-- Everything about the plot of a `CMAES` in one induction. -/
theorem reaches_mem (hg : ∀ c, c < grow c) {ops : List Op} {c : CMAES n F R}
    {rs : List (Option (TerminationData n F))} (hr : Reaches env obj o ops c rs)
    {po : PlotOptions} (hpo : o.plotOptions = some po) :
    ∃ (e : Nat) (s : State n F) (h : History n F) (ls : List (List (PlotOp n F)))
      (m : MemPlot n F), List.Forall₂ Op.Offers ops ls ∧
      MemPlot.applyAll grow (.add e s h :: ls.flatten) (.new po o.mode) = .ok m ∧
      c.plot = some m.plot ∧
      ∀ k, (∀ kind, .run kind ∉ ops) → (∀ pre, pre <+: ops → callsSinceClear pre ≤ k) →
        m.plot.data.len ≤ callsSinceClear ops + 1 ∧ ∃ j ≤ k + 1, MemInv grow m j := by
  obtain ⟨w, c0, h0, h⟩ := hr
  induction ops using List.reverseRecOn generalizing c rs with
  | nil =>
    simp only [CMAES.applyAll, Outcome.ok.injEq, Prod.mk.injEq] at h
    obtain ⟨rfl, rfl⟩ := h
    obtain ⟨hv, rfl⟩ := new_eq_ok h0
    refine ⟨0, State.new o.initialMean o.initialStepSize, History.new, [], _, .nil, rfl, ?_, ?_⟩
    · rw [create_plot, hpo]; rfl
    · intro k _ hk
      obtain ⟨j', i', hj', hl⟩ := (MemInv.new (grow := grow) (n := n) (F := F) po o.mode).add hg 0
        (State.new o.initialMean o.initialStepSize) History.new
      have e1 : ((MemPlot.new (n := n) (F := F) po o.mode).add grow 0
        (State.new o.initialMean o.initialStepSize) History.new).plot.data.len = 1 := rfl
      refine ⟨by rw [e1]; exact Nat.le_add_left _ _, j', ?_, i'⟩
      rw [e1] at hj'
      omega
  | append_singleton ops op ih =>
    obtain ⟨c1, rs1, r, h1, h2⟩ := cmaes_applyAll_snoc h
    obtain ⟨e, s, hi, ls, m, f, hm, hp, hb⟩ := ih h1
    obtain ⟨l, ho, hbt⟩ := apply_between (grow := grow) h2 (by rw [hp]; simp)
    obtain ⟨m', hm', hp'⟩ := hbt m hp
    refine ⟨e, s, hi, ls ++ [l], m', List.rel_append f (.cons ho .nil), ?_, hp', ?_⟩
    · rw [List.flatten_append, List.flatten_singleton, ← List.cons_append, applyAll_append, hm]
      exact hm'
    · intro k hnr hk
      obtain ⟨hl, j, hj, i⟩ := hb k (fun kind hh => hnr kind (by simp [hh]))
        fun pre hpre => hk pre (hpre.trans (List.prefix_append _ _))
      have hlast := hk _ (List.prefix_refl _)
      have hadd : ∀ e s h, l = [.add e s h] →
          callsSinceClear (ops ++ [op]) = callsSinceClear ops + 1 →
          m'.plot.data.len ≤ callsSinceClear (ops ++ [op]) + 1 ∧ ∃ j ≤ k + 1, MemInv grow m' j := by
        intro e s h hle hcs
        subst hle
        injection hm' with hm'
        subst hm'
        obtain ⟨j', i', hj', _⟩ := i.add hg e s h
        have : (m.add grow e s h).plot.data.len ≤ callsSinceClear (ops ++ [op]) + 1 := by
          rw [hcs]
          show (m.plot.addDataPoint e s h).data.len ≤ _
          rcases len_addDataPoint m.plot e s h with hh | hh <;> omega
        refine ⟨this, j', ?_, i'⟩
        rcases hj' with rfl | rfl
        · exact hj
        · omega
      have hnil : l = [] → callsSinceClear ops ≤ callsSinceClear (ops ++ [op]) →
          m'.plot.data.len ≤ callsSinceClear (ops ++ [op]) + 1 ∧ ∃ j ≤ k + 1, MemInv grow m' j := by
        intro hle hcs
        subst hle
        injection hm' with hm'
        subst hm'
        exact ⟨by omega, j, hj, i⟩
      have hcs := callsSinceClear_snoc ops op
      cases op with
      | next kind =>
        rcases ho with ho | ⟨e, s, h, ho⟩
        · exact hnil ho (by rw [hcs]; exact Nat.le_succ _)
        · exact hadd e s h ho hcs
      | run kind => exact absurd (by simp) (hnr kind)
      | addPlotPoint =>
        obtain ⟨e, s, h, ho⟩ := ho
        exact hadd e s h ho hcs
      | clearPlot =>
        have ho : l = [.clear] := ho
        subst ho
        simp only [MemPlot.applyAll, MemPlot.apply, Outcome.bind_eq_ok, Outcome.ok.injEq] at hm'
        obtain ⟨m2, hm2, rfl⟩ := hm'
        obtain ⟨i', e1⟩ := i.clear hm2
        exact ⟨by omega, j, hj, i'⟩
      | printInitialInfo => exact hnil ho hcs.ge
      | printInfo => exact hnil ho hcs.ge
      | printRunInfo k => exact hnil ho hcs.ge
      | printFinalInfo rs => exact hnil ho hcs.ge

/-- **C96, for the calls of a user.** Whatever is called, the plot of a `CMAES` is the result of
the point recorded by `build` and of the operations that the calls stand for. If the user makes at
most `k` calls of `next`, `next_parallel` or `add_plot_point` between two calls of `clear`, it never
takes more memory than a plot with `k + 1` data points that was never cleared. -/
theorem c96_calls (hg : ∀ c, c < grow c) {ops : List Op} {c : CMAES n F R}
    {rs : List (Option (TerminationData n F))} (hr : Reaches env obj o ops c rs)
    {po : PlotOptions} (hpo : o.plotOptions = some po) :
    ∃ (e : Nat) (s : State n F) (h : History n F) (ls : List (List (PlotOp n F)))
      (m : MemPlot n F), List.Forall₂ Op.Offers ops ls ∧
      MemPlot.applyAll grow (.add e s h :: ls.flatten) (.new po o.mode) = .ok m ∧
      c.plot = some m.plot ∧
      ∀ k, (∀ kind, .run kind ∉ ops) → (∀ pre, pre <+: ops → callsSinceClear pre ≤ k) →
        m.plot.data.len ≤ k + 1 ∧
        ∀ (po' : PlotOptions) (mode' : Mode) (ops' : List (PlotOp n F)) (m' : MemPlot n F),
          MemPlot.applyAll grow ops' (.new po' mode') = .ok m' →
          (∀ op ∈ ops', op.isClear = false) → k + 1 ≤ m'.plot.data.len →
          m.capacity ≤ m'.capacity := by
  obtain ⟨e, s, h, ls, m, h1, h2, h3, h4⟩ := reaches_mem hg hr hpo
  refine ⟨e, s, h, ls, m, h1, h2, h3, fun k hnr hk => ?_⟩
  obtain ⟨a1, j, hj, i⟩ := h4 k hnr hk
  refine ⟨a1.trans (Nat.succ_le_succ (hk _ (List.prefix_refl _))), ?_⟩
  intro po' mode' ops' m' h' hn hl
  obtain ⟨j', _, i', hc⟩ := memInv hg (k := ops'.length)
    (fun pre hp m1 h1 => (len_le_length h1).trans hp.length_le) h'
  rw [i.capacity, i'.capacity]
  exact vecCapacity_mono hg (hj.trans (hl.trans (hc hn).le))

end calls

open Witness in
/-- The hypotheses of `c96_calls` and of the other theorems are met by a `CMAES` whose plot is
cleared after every two generations: it then holds two points. -/
example : (∀ c, c < 2 * c + 1) ∧
    ∃ c rs, Reaches (wenv 2) sphere { opts with plotOptions := some ⟨1, false⟩ }
      [.next .seq, .next .seq, .clearPlot, .next .par, .next .seq, .clearPlot, .next .seq] c rs ∧
    c.plot.map (fun p => p.data.len) = some 2 := by
  refine ⟨fun c => by omega, ?_⟩
  obtain ⟨⟨c, rs⟩, h1, h2⟩ := Outcome.of_check
    (x := (CMAES.create (wenv 2) World.init sphere
      { opts with plotOptions := some ⟨1, false⟩ }).applyAll (wenv 2)
      [.next .seq, .next .seq, .clearPlot, .next .par, .next .seq, .clearPlot, .next .seq])
    (p := fun x => decide (x.1.plot.map (fun p => p.data.len) = some 2)) (by decide +kernel)
  refine ⟨c, rs, ⟨World.init, _, ?_, h1⟩, of_decide_eq_true h2⟩
  have hv : CMAES.validate (n := 2) (F := F64) { opts with plotOptions := some ⟨1, false⟩ } =
      none := by decide +kernel
  simp only [CMAES.new, hv]

open Witness in
/-- With vectors that start with room for four and double, eight data points take the memory of
eight if the plot is never cleared, and that of four if it is cleared after every three. -/
example :
    let grow := fun c => if c = 0 then 4 else 2 * c
    let point := fun g => PlotOp.add g
      { State.new (F := F64) (n := 2) opts.initialMean opts.initialStepSize with generation := g }
      History.new
    let end_ := fun ops => MemPlot.applyAll grow ops (.new (n := 2) (F := F64) ⟨1, false⟩ .minimize)
    (∀ c, c < grow c) ∧
    (end_ ((List.range 8).map point)).check (fun m => m.capacity == 8 && m.plot.data.len == 8) ∧
    (end_ [point 0, point 1, point 2, .clear, point 3, point 4, point 5, .clear, point 6, point 7,
      point 8]).check (fun m => m.capacity == 4 && m.plot.data.len == 4) := by
  refine ⟨fun c => ?_, by decide +kernel, by decide +kernel⟩
  dsimp only
  split <;> omega

end Cmaes
