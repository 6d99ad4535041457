import Verif.Model.Plot

/-!
# The memory of a plot: `Plot::capacity`

All series of a plot grow and shrink together (C43), so the capacity of `function_evals` stands for
the memory of the plot.
-/

namespace Cmaes
variable {n : Nat} {F : Type} [Flt F]

/-- A plot together with the capacity of its vector `function_evals`
(`/repo/src/plotting/data.rs:12, 45-47`, `/repo/src/plotting/mod.rs:172-174`). -/
structure MemPlot (n : Nat) (F : Type) where
  plot : Plot n F
  capacity : Nat

/-- `Plot::new`, `/repo/src/plotting/mod.rs:88-96`: `Vec::new` does not allocate. -/
def MemPlot.new (options : PlotOptions) (mode : Mode) : MemPlot n F :=
  { plot := Plot.new options mode, capacity := 0 }

/-- `Plot::add_data_point`, `/repo/src/plotting/mod.rs:107-123`: if a point is added,
`function_evals.push` (`/repo/src/plotting/data.rs:106`) keeps the allocation while there is room,
and otherwise replaces it by one whose capacity is chosen by the allocation strategy `grow` of
`Vec`. -/
def MemPlot.add (grow : Nat → Nat) (m : MemPlot n F) (evals : Nat) (s : State n F)
    (h : History n F) : MemPlot n F :=
  let plot := m.plot.addDataPoint evals s h
  { plot
    capacity :=
      if plot.data.len = m.plot.data.len then m.capacity
      else if m.plot.data.len < m.capacity then m.capacity else grow m.capacity }

/-- `Plot::clear`, `/repo/src/plotting/mod.rs:184-186`: `swap` and `truncate`
(`/repo/src/plotting/data.rs:143-145`) keep the allocation. -/
def MemPlot.clear (m : MemPlot n F) : Outcome (MemPlot n F) := do
  let plot ← m.plot.clear
  .ok { m with plot }

/-- What happens to a plot: the `CMAES` offers a data point, or the user clears it. They are
/repo/src/plotting/mod.rs:107-124 and 184-186. -/
inductive PlotOp (n : Nat) (F : Type) where
  | add (evals : Nat) (s : State n F) (h : History n F)
  | clear

/-- One operation. They are /repo/src/plotting/mod.rs:107-124 and 184-186. -/
def MemPlot.apply (grow : Nat → Nat) (m : MemPlot n F) : PlotOp n F → Outcome (MemPlot n F)
  | .add evals s h => .ok (m.add grow evals s h)
  | .clear => m.clear

/-- A sequence of operations. They are /repo/src/plotting/mod.rs:107-124 and 184-186. -/
def MemPlot.applyAll (grow : Nat → Nat) : List (PlotOp n F) → MemPlot n F → Outcome (MemPlot n F)
  | [], m => .ok m
  | op :: ops, m => do
    let m ← m.apply grow op
    MemPlot.applyAll grow ops m

end Cmaes
