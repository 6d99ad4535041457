import Verif.Model.SavePlot
import Verif.Props.Draw

/-!
# C97: `save_to_file` does what was asked for and reports the first failure
-/

set_option linter.unusedSectionVars false

namespace Cmaes
variable {n : Nat} {F R Path E : Type} [Flt F]

/-! ### Specification -/

/-- All requests that saving the drawing `D` to `path` takes, in order. -/
def saveRequests (env : FileEnv Path F E) (D : Drawing F) (path : Path) (createDirs : Bool) :
    List (SaveRequest Path F) :=
  (if createDirs then (env.parent path).toList.map .createDirs else []) ++
    [.fill path, .chart D.single, .chart D.mean, .chart D.sqrtEigenvalues, .chart D.coordAxisScales,
      .present]

/-- The error that a failed request is reported as: an `IoError` if directories could not be created,
a `DrawingError` otherwise. -/
def SaveRequest.error : SaveRequest Path F → E → PlotError E
  | .createDirs _, e => .ioError e
  | _, e => .drawingError e

/-- All of these requests succeed one after the other. -/
def Succeed (env : FileEnv Path F E) (rs : List (SaveRequest Path F)) : Prop :=
  ∀ pre r, pre ++ [r] <+: rs → env.answer pre r = none

/-- `done` are the requests made in order to complete `all`, with the result `res`: either all of
them were made and succeeded, or they were made up to the first that failed, and its error is the
result. -/
def Completes (env : FileEnv Path F E) (all done : List (SaveRequest Path F))
    (res : Except (PlotError E) Unit) : Prop :=
  (res = .ok () ∧ done = all ∧ Succeed env all) ∨
  ∃ pre r e, done = pre ++ [r] ∧ done <+: all ∧ Succeed env pre ∧ env.answer pre r = some e ∧
    res = .error (r.error e)

/-! ### Proofs -/

variable {env : FileEnv Path F E}

theorem succeed_nil : Succeed env ([] : List (SaveRequest Path F)) := by
  intro pre r h
  have := h.length_le
  simp at this

theorem Succeed.snoc {rs : List (SaveRequest Path F)} {r : SaveRequest Path F} (h : Succeed env rs)
    (hr : env.answer rs r = none) : Succeed env (rs ++ [r]) := by
  intro pre r' hp
  rcases List.prefix_concat_iff.mp hp with e | hp
  · obtain ⟨rfl, e'⟩ := List.append_inj' e rfl
    injection e' with e'
    subst e'
    exact hr
  · exact h pre r' hp

theorem Completes.request {all : List (SaveRequest Path F)} {s : Saving Path F E}
    (h : Completes env all s.2 s.1) (r : SaveRequest Path F) {error : E → PlotError E}
    (he : ∀ e, error e = r.error e) :
    Completes env (all ++ [r]) (s.request env error r).2 (s.request env error r).1 := by
  rcases h with ⟨h1, h2, h3⟩ | ⟨pre, r', e, h1, h2, h3, h4, h5⟩
  · unfold Saving.request
    rw [h1]
    simp only
    split
    · rename_i ha
      rw [h2] at ha ⊢
      exact .inl ⟨rfl, rfl, h3.snoc ha⟩
    · rename_i e ha
      rw [h2] at ha ⊢
      exact .inr ⟨all, r, e, rfl, List.prefix_refl _, h3, ha, by rw [he]⟩
  · unfold Saving.request
    rw [h5]
    exact .inr ⟨pre, r', e, h1, h2.trans (List.prefix_append _ _), h3, h4, rfl⟩

theorem Completes.draw {all : List (SaveRequest Path F)} {s : Saving Path F E}
    (h : Completes env all s.2 s.1) {chart : Outcome (Chart F)} {c : Chart F}
    (hc : chart = .ok c) :
    ∃ s', s.draw env chart = .ok s' ∧ Completes env (all ++ [.chart c]) s'.2 s'.1 := by
  have := h.request (.chart c) (error := .drawingError) fun _ => rfl
  refine ⟨s.request env .drawingError (.chart c), ?_, this⟩
  unfold Saving.draw
  split
  · rename_i e he
    unfold Saving.request
    rw [he]
  · rw [hc]; rfl

variable [FltLaws F] [DrawMath F] {cenv : Env n F R} {obj : Obj n F} {o : Options n F}
  {t : List (NextCall n F)} {c : CMAES n F R} {p : Plot n F}

/-- **C97.** `save_to_file` on the plot of any `CMAES` returns. It creates the directory that
contains the path if it was asked to, then hands the four charts to the drawing library, then lets
the image be written. It stops at the first of these that fails and returns this error, as `IoError`
if it came from creating directories and as `DrawingError` otherwise; it returns `Ok` if and only if
everything was done and nothing failed. -/
theorem c97_save (h : History.Of cenv obj o t c) (hp : c.plot = some p) (env : FileEnv Path F E)
    (path : Path) (createDirs : Bool) :
    ∃ D res done, p.draw = .ok D ∧ p.saveToFile env path createDirs = .ok (res, done) ∧
      Completes env (saveRequests env D path createDirs) done res := by
  obtain ⟨D, hd⟩ := c68_returns h hp
  obtain ⟨h1, h2, h3, h4⟩ := draw_parts hd
  have h0 : Completes env
      (if createDirs then (env.parent path).toList.map SaveRequest.createDirs else [])
      (Saving.start env path createDirs).2 (Saving.start env path createDirs).1 := by
    have hnil : Completes env ([] : List (SaveRequest Path F)) [] (.ok ()) :=
      .inl ⟨rfl, rfl, succeed_nil⟩
    unfold Saving.start
    dsimp only
    split
    · cases env.parent path with
      | none => exact hnil
      | some d => exact Completes.request (s := (.ok (), [])) hnil (.createDirs d) fun _ => rfl
    · exact hnil
  have a1 := h0.request (.fill path) (error := .drawingError) fun _ => rfl
  obtain ⟨s2, e2, a2⟩ := a1.draw h1
  obtain ⟨s3, e3, a3⟩ := a2.draw h2
  obtain ⟨s4, e4, a4⟩ := a3.draw h3
  obtain ⟨s5, e5, a5⟩ := a4.draw h4
  have a6 := a5.request .present (error := .drawingError) fun _ => rfl
  refine ⟨D, (s5.request env .drawingError .present).1, (s5.request env .drawingError .present).2, hd,
    ?_, ?_⟩
  · unfold Plot.saveToFile
    dsimp only
    rw [e2, Outcome.ok_bind, e3, Outcome.ok_bind, e4, Outcome.ok_bind, e5, Outcome.ok_bind]
  · simpa [saveRequests] using a6

/-- **C97, consequences.** Nothing is drawn or written before the directories exist, no directory is
created unless asked for, and if the image is written all charts have been drawn before. -/
theorem c97_order (h : History.Of cenv obj o t c) (hp : c.plot = some p) {env : FileEnv Path F E}
    {path : Path} {createDirs : Bool} {res : Except (PlotError E) Unit}
    {done : List (SaveRequest Path F)} (hs : p.saveToFile env path createDirs = .ok (res, done)) :
    (∀ d, .createDirs d ∈ done → createDirs = true ∧ env.parent path = some d ∧
      done.head? = some (.createDirs d) ∧ (env.answer [] (.createDirs d) ≠ none → done.length = 1)) ∧
    (.present ∈ done → ∃ D, p.draw = .ok D ∧ ∀ c ∈ [D.single, D.mean, D.sqrtEigenvalues, D.coordAxisScales],
      .chart c ∈ done) ∧
    (res = .ok () → .present ∈ done) := by
  obtain ⟨D, res', done', hd, hs', hc⟩ := c97_save h hp env path createDirs
  rw [hs'] at hs
  injection hs with hs
  injection hs with e1 e2
  subst e1 e2
  have hpre : done' <+: saveRequests env D path createDirs := by
    rcases hc with ⟨_, h2, _⟩ | ⟨_, _, _, _, h2, _⟩
    · rw [h2]
    · exact h2
  refine ⟨?_, ?_, ?_⟩
  · intro d hmem
    have hm := hpre.subset hmem
    unfold saveRequests at hm hpre
    cases createDirs with
    | false => simp at hm
    | true =>
      cases hpar : env.parent path with
      | none => simp [hpar] at hm
      | some d' =>
        simp only [hpar, if_true, Option.toList_some, List.map_cons, List.map_nil, List.cons_append,
          List.nil_append] at hm hpre
        have hdd : d = d' := by simpa using hm
        subst hdd
        obtain ⟨a, l, rfl⟩ := List.exists_cons_of_ne_nil (List.ne_nil_of_mem hmem)
        obtain ⟨rfl, hl⟩ := List.cons_prefix_cons.mp hpre
        refine ⟨rfl, rfl, rfl, fun hne => ?_⟩
        rcases hc with ⟨_, h2, h3⟩ | ⟨pre, r, e, h1, h2, h3, h4, h5⟩
        · exact absurd (h3 [] (.createDirs d) (by rw [← h2]; simp)) hne
        · cases pre with
          | nil => rw [h1]; rfl
          | cons b pre =>
            injection h1 with h1 h1'
            subst h1
            exact absurd (h3 [] _ (by simp)) hne
  · intro hmem
    have hall : done' = saveRequests env D path createDirs := by
      obtain ⟨suf, hsuf⟩ := hpre
      have hl : saveRequests env D path createDirs =
          ((if createDirs then (env.parent path).toList.map .createDirs else []) ++
            [.fill path, .chart D.single, .chart D.mean, .chart D.sqrtEigenvalues,
              .chart D.coordAxisScales]) ++ [.present] := by simp [saveRequests]
      by_cases hne : suf = []
      · rw [← hsuf, hne, List.append_nil]
      · have hpre' : done' <+: (if createDirs then (env.parent path).toList.map .createDirs else []) ++
            [.fill path, .chart D.single, .chart D.mean, .chart D.sqrtEigenvalues,
              .chart D.coordAxisScales] := by
          rw [hl] at hsuf
          have : done' <+: (((if createDirs then (env.parent path).toList.map .createDirs else []) ++
            [.fill path, .chart D.single, .chart D.mean, .chart D.sqrtEigenvalues,
              .chart D.coordAxisScales]) ++ [.present]) := ⟨suf, hsuf⟩
          rcases List.prefix_concat_iff.mp this with e | hp
          · rw [e] at hsuf
            exact absurd (by simpa using hsuf) hne
          · exact hp
        have := hpre'.subset hmem
        cases createDirs <;> simp at this
    refine ⟨D, hd, fun c hcm => ?_⟩
    rw [hall]
    unfold saveRequests
    simp only [List.mem_cons, List.not_mem_nil, or_false] at hcm
    rcases hcm with rfl | rfl | rfl | rfl <;> simp
  · intro hr
    rcases hc with ⟨_, h2, _⟩ | ⟨_, _, _, _, _, _, _, h5⟩
    · rw [h2]; simp [saveRequests]
    · rw [h5] at hr; exact absurd hr (by simp)

/-- **C97, success.** `save_to_file` returns `Ok` if no request fails. -/
theorem c97_ok (h : History.Of cenv obj o t c) (hp : c.plot = some p) {env : FileEnv Path F E}
    (henv : ∀ pre r, env.answer pre r = none) (path : Path) (createDirs : Bool) :
    ∃ done, p.saveToFile env path createDirs = .ok (.ok (), done) := by
  obtain ⟨D, res, done, -, hs, hc⟩ := c97_save h hp env path createDirs
  rcases hc with ⟨h1, _⟩ | ⟨pre, r, e, _, _, _, h4, _⟩
  · exact ⟨done, by rw [hs, h1]⟩
  · rw [henv] at h4
    exact absurd h4 (by simp)

open Witness in
/-- The hypotheses are met: the plot of a run of three generations is saved to `plots/run.png`; the
third chart cannot be drawn. -/
example : ∃ t c p, History.Of (wenv 2) sphere { opts with plotOptions := some ⟨1, false⟩ } t c ∧
    c.plot = some p ∧
    (p.saveToFile (Path := List String) (E := String)
      { parent := fun l => l.dropLast
        answer := fun pre _ => if pre.length = 4 then some "out of memory" else none }
      ["plots", "run.png"] true).check fun x =>
      (match x.1 with | .error (.drawingError e) => e == "out of memory" | _ => false) &&
      x.2.length == 5 := by
  obtain ⟨t, c, h, hp⟩ := exists_history (env := wenv 2) (obj := sphere)
    (o := { opts with plotOptions := some ⟨1, false⟩ }) [.seq, .par, .seq]
    (fun c _ => c.plot.any fun p =>
      (p.saveToFile (Path := List String) (E := String)
      { parent := fun l => l.dropLast
        answer := fun pre _ => if pre.length = 4 then some "out of memory" else none }
      ["plots", "run.png"] true).check fun x =>
      (match x.1 with | .error (.drawingError e) => e == "out of memory" | _ => false) &&
      x.2.length == 5) (by decide +kernel) (by decide +kernel)
  rw [Option.any_eq_true] at hp
  obtain ⟨p, h1, h2⟩ := hp
  exact ⟨t, c, p, h, h1, h2⟩

end Cmaes
