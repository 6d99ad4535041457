import Verif.Model.Draw

/-!
# `Plot::save_to_file`, `plotting/mod.rs:125-170`

The file system and the `plotters` library answer the requests that the crate makes; a request may
fail. What they do with a request is not modelled, nor is what dropping an unfinished image does.
Simplification: `plotters` is handed a whole chart at once, after it has been computed.
-/

namespace Cmaes
variable {n : Nat} {F Path E : Type} [Flt F]

/-- What the crate asks the file system or `plotters` to do. They are made at
/repo/src/plotting/mod.rs:127-164. -/
inductive SaveRequest (Path F : Type) where
  /-- `DirBuilder::new().recursive(true).create(..)` -/
  | createDirs (dir : Path)
  /-- `fill(&colors::WHITE)` of the image that belongs to the path -/
  | fill (path : Path)
  /-- what a function of `draw.rs` passes to `plotters` -/
  | chart (c : Chart F)
  /-- `present()` -/
  | present

/-- `PlotError`, `/repo/src/plotting/mod.rs:191-194`. -/
inductive PlotError (E : Type) where
  | drawingError (e : E)
  | ioError (e : E)

/-- The outside world: `Path::parent`, and the answer to a request after the earlier ones, `none` if
it succeeds. Used at /repo/src/plotting/mod.rs:127-164. -/
structure FileEnv (Path F E : Type) where
  parent : Path → Option Path
  answer : List (SaveRequest Path F) → SaveRequest Path F → Option E

/-- The requests made so far, and whether to go on. In /repo/src/plotting/mod.rs:127-164 every
request is followed by `?`. -/
abbrev Saving (Path F E : Type) := Except (PlotError E) Unit × List (SaveRequest Path F)

/-- A request followed by `?`; `From<io::Error>` and `From<DrawingError>`,
`/repo/src/plotting/mod.rs:214-224`, make it an error of `save_to_file`. Nothing happens after an
earlier error. -/
def Saving.request (env : FileEnv Path F E) (error : E → PlotError E) (s : Saving Path F E)
    (r : SaveRequest Path F) : Saving Path F E :=
  match s.1 with
  | .error e => (.error e, s.2)
  | .ok () =>
    match env.answer s.2 r with
    | none => (.ok (), s.2 ++ [r])
    | some e => (.error (error e), s.2 ++ [r])

/-- A function of `draw.rs` followed by `?`; it is not called after an earlier error. The calls are
at /repo/src/plotting/mod.rs:158-161. -/
def Saving.draw (env : FileEnv Path F E) (s : Saving Path F E) (chart : Outcome (Chart F)) :
    Outcome (Saving Path F E) :=
  match s.1 with
  | .error e => .ok (.error e, s.2)
  | .ok () => do
    let c ← chart
    .ok (s.request env .drawingError (.chart c))

/-- The directories, `/repo/src/plotting/mod.rs:132-137`. -/
def Saving.start (env : FileEnv Path F E) (path : Path) (createDirs : Bool) : Saving Path F E :=
  let s : Saving Path F E := (.ok (), [])
  if createDirs then
    match env.parent path with
    | some parent => s.request env .ioError (.createDirs parent)
    | none => s
  else s

/-- `Plot::save_to_file` and `Plot::build_plot`, `/repo/src/plotting/mod.rs:127-170`. -/
def Plot.saveToFile [DrawMath F] (env : FileEnv Path F E) (p : Plot n F) (path : Path)
    (createDirs : Bool) : Outcome (Saving Path F E) := do
  let s := Saving.start env path createDirs
  let s := s.request env .drawingError (.fill path)
  let s ← s.draw env (drawSingleDimensioned p.mode p.data)
  let s ← s.draw env (drawMean p.data p.options)
  let s ← s.draw env (drawSqrtEigenvalues p.data)
  let s ← s.draw env (drawCoordAxisScales p.data)
  .ok (s.request env .drawingError .present)

end Cmaes
