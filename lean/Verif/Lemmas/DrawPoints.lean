import Verif.Lemmas.Draw

/-!
# What is drawn, given the recorded points
-/

set_option linter.unusedSectionVars false

namespace Cmaes
open FltLaws
variable {n : Nat} {F : Type} [Flt F]

/-- The recorded evaluation counts are strictly increasing. -/
abbrev Ordered (pts : List (PlotPoint n F)) : Prop := pts.Pairwise fun a b => a.evals < b.evals

theorem map_getElem {α β : Type} {f : α → β} {l l' : List α} (h : l.map f = l'.map f) {i : Nat}
    (hi : i < l.length) (hi' : i < l'.length) : f l[i] = f l'[i] := by
  have := congrArg (·[i]?) h
  simpa [hi, hi'] using this

/-- The series determine the points. -/
theorem PlotData.Shows.unique {d : PlotData n F} {pts pts' : List (PlotPoint n F)}
    (h : d.Shows pts) (h' : d.Shows pts') : pts = pts' := by
  have hl : pts.length = pts'.length := by
    have := congrArg List.length (h.functionEvals.symm.trans h'.functionEvals)
    simpa using this
  refine List.ext_getElem hl fun i hi hi' => ?_
  have e1 := map_getElem (h.functionEvals.symm.trans h'.functionEvals) hi hi'
  have e2 := map_getElem (h.bestFunctionValue.symm.trans h'.bestFunctionValue) hi hi'
  have e3 := map_getElem (h.medianFunctionValue.symm.trans h'.medianFunctionValue) hi hi'
  have e4 := map_getElem (h.sigma.symm.trans h'.sigma) hi hi'
  have e5 := map_getElem (h.axisRatio.symm.trans h'.axisRatio) hi hi'
  have e6 := fun k => map_getElem ((h.meanDimensions k).symm.trans (h'.meanDimensions k)) hi hi'
  have e7 := fun k => map_getElem ((h.sqrtEigenvalues k).symm.trans (h'.sqrtEigenvalues k)) hi hi'
  have e8 := fun k => map_getElem ((h.coordAxisScales k).symm.trans (h'.coordAxisScales k)) hi hi'
  generalize pts[i] = a at *
  generalize pts'[i] = b at *
  cases a
  cases b
  simp only [PlotPoint.mk.injEq]
  exact ⟨e1, e2, e3, e4, e5, funext e6, funext e7, funext e8⟩

theorem getPoints_map (pts : List (PlotPoint n F)) (y : PlotPoint n F → F) :
    getPoints (pts.map PlotPoint.evals) (pts.map y) =
      (pts.filter fun pt => !Flt.isNaN (y pt)).map fun pt => (pt.evals, y pt) := by
  unfold getPoints
  induction pts with
  | nil => rfl
  | cons a pts ih =>
    simp only [List.map_cons, List.zip_cons_cons, List.filter_cons]
    rw [ih]
    split <;> rfl

theorem getPoints_curve {pts sub : List (PlotPoint n F)} {P : PlotPoint n F → Prop}
    (ho : Ordered sub) (hm : ∀ pt, pt ∈ sub ↔ pt ∈ pts ∧ P pt) (y : PlotPoint n F → F) :
    Curve pts P y (getPoints (sub.map PlotPoint.evals) (sub.map y)) := by
  rw [getPoints_map]
  constructor
  · intro p
    simp only [List.mem_map, List.mem_filter, Bool.not_eq_true', hm]
    constructor
    · rintro ⟨pt, ⟨⟨h1, h2⟩, h3⟩, rfl⟩
      exact ⟨pt, h1, h2, h3, rfl⟩
    · rintro ⟨pt, h1, h2, h3, rfl⟩
      exact ⟨pt, ⟨⟨h1, h2⟩, h3⟩, rfl⟩
  · rw [List.pairwise_map]
    exact ho.filter _

theorem Ordered.mem_split {A B : List (PlotPoint n F)} {b : PlotPoint n F}
    (ho : Ordered (A ++ b :: B)) : (∀ pt ∈ A, pt.evals < b.evals) ∧ ∀ pt ∈ B, b.evals < pt.evals := by
  rw [Ordered, List.pairwise_append, List.pairwise_cons] at ho
  exact ⟨fun pt h => ho.2.2 pt h b (by simp), fun pt h => ho.2.1.1 pt h⟩

/-! ### The first minimum -/

theorem iterMinBy_spec {α : Type} {K : Type} [LinearOrder K] {cmp : α → α → Ordering} {key : α → K}
    {l : List α} (hc : ∀ x ∈ l, ∀ y ∈ l, cmp x y = .gt ↔ key y < key x) (h0 : l ≠ []) :
    ∃ l1 r l2, l = l1 ++ r :: l2 ∧ iterMinBy cmp l = some r ∧ (∀ z ∈ l1, key r < key z) ∧
      ∀ z ∈ l2, key r ≤ key z := by
  match l, h0 with
  | a :: l, _ =>
    simp only [iterMinBy]
    clear h0
    induction l generalizing a with
    | nil => exact ⟨[], a, [], rfl, rfl, by simp, by simp⟩
    | cons y l ih =>
      simp only [List.foldl_cons]
      by_cases h : key y < key a
      · rw [if_pos ((hc a (by simp) y (by simp)).mpr h)]
        obtain ⟨l1, r, l2, e, hr, h1, h2⟩ := ih y (by simp) fun x hx z hz =>
          hc x (List.mem_cons_of_mem _ hx) z (List.mem_cons_of_mem _ hz)
        refine ⟨a :: l1, r, l2, by rw [e]; rfl, hr, ?_, h2⟩
        intro z hz
        rcases List.mem_cons.mp hz with rfl | hz
        · have hy : y ∈ l1 ++ r :: l2 := by rw [← e]; simp
          refine lt_of_le_of_lt ?_ h
          rw [List.mem_append, List.mem_cons] at hy
          rcases hy with hy | rfl | hy
          · exact (h1 y hy).le
          · exact le_rfl
          · exact h2 y hy
        · exact h1 z hz
      · rw [if_neg (fun hh => h ((hc a (by simp) y (by simp)).mp hh))]
        have hsub : ∀ x ∈ a :: l, x ∈ a :: y :: l := by
          intro x hx
          rcases List.mem_cons.mp hx with rfl | hx
          · simp
          · simp [hx]
        obtain ⟨l1, r, l2, e, hr, h1, h2⟩ := ih a (by simp) fun x hx z hz => hc x (hsub x hx) z (hsub z hz)
        have hay := not_lt.mp h
        cases l1 with
        | nil =>
          injection e with e1 e2
          subst e1 e2
          refine ⟨[], a, y :: l, rfl, hr, by simp, ?_⟩
          intro z hz
          rcases List.mem_cons.mp hz with rfl | hz
          · exact hay
          · exact h2 z hz
        | cons x l1 =>
          injection e with e1 e2
          subst e1 e2
          refine ⟨a :: y :: l1, r, l2, rfl, hr, ?_, h2⟩
          intro z hz
          have hra := h1 a (by simp)
          rcases List.mem_cons.mp hz with rfl | hz
          · exact hra
          · rcases List.mem_cons.mp hz with rfl | hz
            · exact hra.trans_le hay
            · exact h1 z (by simp [hz])

variable [FltLaws F]

theorem Mode.sortCmp_gt {m : Mode} {a b : F} (ha : Flt.isNaN a = false)
    (hb : Flt.isNaN b = false) : m.sortCmp a b = .gt ↔ m.key b < m.key a := by
  have h := Mode.sortCmp_ne_gt (m := m) ha hb
  rw [Bool.eq_iff_iff, decide_eq_true_eq, bne_iff_ne, ne_eq, ← not_lt, not_iff_not] at h
  exact h

/-- The indices and values `bestRecorded` chooses from. -/
def candidates (pts : List (PlotPoint n F)) : List (Nat × F) :=
  (((pts.map PlotPoint.best).zipIdx).map fun p => (p.2, p.1)).filter fun p => !Flt.isNaN p.2

theorem mem_candidates {pts : List (PlotPoint n F)} {i : Nat} {v : F} :
    (i, v) ∈ candidates pts ↔ ∃ pt, pts[i]? = some pt ∧ v = pt.best ∧ Flt.isNaN v = false := by
  unfold candidates
  simp only [List.mem_filter, List.mem_map, Prod.mk.injEq, Bool.not_eq_true']
  constructor
  · rintro ⟨⟨⟨x, k⟩, hm, rfl, rfl⟩, hn⟩
    rw [List.mem_zipIdx_iff_getElem?, List.getElem?_map, Option.map_eq_some_iff] at hm
    obtain ⟨pt, h1, h2⟩ := hm
    exact ⟨pt, h1, h2.symm, hn⟩
  · rintro ⟨pt, h1, rfl, hn⟩
    exact ⟨⟨(pt.best, i), by
      rw [List.mem_zipIdx_iff_getElem?, List.getElem?_map, h1]; rfl, rfl, rfl⟩, hn⟩

theorem candidates_sorted (pts : List (PlotPoint n F)) :
    (candidates pts).Pairwise fun a b => a.1 < b.1 := by
  unfold candidates
  refine List.Pairwise.filter _ ?_
  rw [List.pairwise_map, List.pairwise_iff_getElem]
  intro i j hi hj hij
  simpa using hij

/-- The point that `bestRecorded` selects. -/
theorem bestRecorded_spec (mode : Mode) {d : PlotData n F} {pts : List (PlotPoint n F)}
    (hs : d.Shows pts) (ho : Ordered pts) :
    (bestRecorded mode d = none ∧ ∀ pt ∈ pts, Flt.isNaN pt.best = true) ∨
    ∃ A b B, pts = A ++ b :: B ∧ bestRecorded mode d = some (A.length, b.best) ∧
      FirstBest mode pts b := by
  have e : bestRecorded mode d =
      iterMinBy (fun a b => mode.sortCmp a.2 b.2) (candidates pts) := by
    unfold bestRecorded candidates
    rw [hs.bestFunctionValue]
  rw [e]
  by_cases h0 : candidates pts = []
  · refine .inl ⟨by rw [h0]; rfl, fun pt hpt => ?_⟩
    by_contra hne
    obtain ⟨i, hi, rfl⟩ := List.getElem_of_mem hpt
    have : (i, pts[i].best) ∈ candidates pts :=
      mem_candidates.mpr ⟨pts[i], List.getElem?_eq_getElem hi, rfl, by simpa using hne⟩
    rw [h0] at this
    simp at this
  · right
    obtain ⟨l1, r, l2, hl, hr, h1, h2⟩ := iterMinBy_spec
      (cmp := fun a b => mode.sortCmp a.2 b.2) (key := fun p : Nat × F => mode.key p.2)
      (l := candidates pts) (fun x hx y hy => by
        obtain ⟨_, _, _, hx'⟩ := mem_candidates.mp (show (x.1, x.2) ∈ _ from hx)
        obtain ⟨_, _, _, hy'⟩ := mem_candidates.mp (show (y.1, y.2) ∈ _ from hy)
        exact Mode.sortCmp_gt hx' hy') h0
    obtain ⟨i, v⟩ := r
    have hmem : (i, v) ∈ candidates pts := by rw [hl]; simp
    obtain ⟨b, hb, rfl, hn⟩ := mem_candidates.mp hmem
    obtain ⟨hi, hbi⟩ := List.getElem?_eq_some_iff.mp hb
    have hsplit : pts = pts.take i ++ b :: pts.drop (i + 1) := by
      rw [← hbi, List.getElem_cons_drop, List.take_append_drop]
    refine ⟨pts.take i, b, pts.drop (i + 1), hsplit, ?_, ?_⟩
    · rw [hr, List.length_take, min_eq_left hi.le]
    · have key : ∀ pt ∈ pts, Flt.isNaN pt.best = false → mode.key b.best ≤ mode.key pt.best ∧
          (mode.key b.best = mode.key pt.best → b.evals ≤ pt.evals) := by
        intro pt hpt hpn
        obtain ⟨j, hj, rfl⟩ := List.getElem_of_mem hpt
        have hm : (j, pts[j].best) ∈ candidates pts :=
          mem_candidates.mpr ⟨pts[j], List.getElem?_eq_getElem hj, rfl, hpn⟩
        have hsort := candidates_sorted pts
        rw [hl] at hm hsort
        rw [List.mem_append, List.mem_cons] at hm
        rcases hm with hm | hm | hm
        · have := h1 _ hm
          exact ⟨this.le, fun hh => absurd hh this.ne⟩
        · injection hm with hm1 hm2
          subst hm1
          exact ⟨by rw [hbi], fun _ => by rw [hbi]⟩
        · refine ⟨h2 _ hm, fun _ => ?_⟩
          have hij : i < j := (List.pairwise_cons.mp (List.pairwise_append.mp hsort).2.1).1 _ hm
          have := List.pairwise_iff_getElem.mp ho i j hi hj hij
          rw [hbi] at this
          exact this.le
      refine ⟨List.mem_of_getElem? hb, hn, fun pt hpt => ?_, fun pt hpt heq => ?_⟩
      · rw [better_iff]
        rintro ⟨h3, _, h4⟩
        exact absurd h4 (not_lt.mpr (key pt hpt h3).1)
      · obtain ⟨h3, _, h4⟩ := feq_iff.mp heq
        exact (key pt hpt h3).2 (by cases mode <;> simp [Mode.key, h4])

/-- The best value appears more than once exactly if another point has it. -/
theorem bestCount_spec {d : PlotData n F} {A B : List (PlotPoint n F)} {b : PlotPoint n F}
    (hs : d.Shows (A ++ b :: B)) (ho : Ordered (A ++ b :: B)) (hn : Flt.isNaN b.best = false) :
    1 < bestCount d b.best ↔ Repeated (A ++ b :: B) b := by
  obtain ⟨hA, hB⟩ := ho.mem_split
  have hbb : Flt.feq b.best b.best = true := feq_iff.mpr ⟨hn, hn, rfl⟩
  have hlen : bestCount d b.best = (A.filter fun pt => Flt.feq pt.best b.best).length + 1 +
      (B.filter fun pt => Flt.feq pt.best b.best).length := by
    unfold bestCount
    rw [hs.bestFunctionValue, List.filter_map, List.length_map, List.filter_append,
      List.length_append, List.filter_cons_of_pos (by simpa using hbb), List.length_cons]
    simp only [Function.comp_def]
    omega
  rw [hlen]
  have hpos : ∀ L : List (PlotPoint n F),
      0 < (L.filter fun pt => Flt.feq pt.best b.best).length ↔ ∃ pt ∈ L, Flt.feq pt.best b.best = true := by
    intro L
    rw [List.length_pos_iff_exists_mem]
    simp only [List.mem_filter]
  unfold Repeated
  constructor
  · intro h
    have : (∃ pt ∈ A, Flt.feq pt.best b.best = true) ∨
        ∃ pt ∈ B, Flt.feq pt.best b.best = true := by
      rw [← hpos, ← hpos]; omega
    rcases this with ⟨pt, h1, h2⟩ | ⟨pt, h1, h2⟩
    · exact ⟨pt, by simp [h1], (hA pt h1).ne, h2⟩
    · exact ⟨pt, by simp [h1], (hB pt h1).ne', h2⟩
  · rintro ⟨pt, h1, h2, h3⟩
    rw [List.mem_append, List.mem_cons] at h1
    rcases h1 with h1 | rfl | h1
    · have := (hpos A).mpr ⟨pt, h1, h3⟩
      omega
    · exact absurd rfl h2
    · have := (hpos B).mpr ⟨pt, h1, h3⟩
      omega

theorem iterMinBy_isSome {α : Type} (cmp : α → α → Ordering) {l : List α} (h : l ≠ []) :
    ∃ x, iterMinBy cmp l = some x := by
  cases l with
  | nil => exact absurd rfl h
  | cons a l => exact ⟨_, rfl⟩

theorem iterMaxBy_isSome {α : Type} (cmp : α → α → Ordering) {l : List α} (h : l ≠ []) :
    ∃ x, iterMaxBy cmp l = some x := by
  cases l with
  | nil => exact absurd rfl h
  | cons a l => exact ⟨_, rfl⟩

theorem getLogYAxis_ok [DrawMath F] {ys : List F} (h : ys ≠ []) : ∃ a, getLogYAxis ys = .ok a := by
  obtain ⟨x, hx⟩ := iterMinBy_isSome partialCmp h
  obtain ⟨y, hy⟩ := iterMaxBy_isSome partialCmp h
  unfold getLogYAxis
  simp only [hx, hy, Outcome.unwrap_some, Outcome.ok_bind]
  exact ⟨_, rfl⟩

theorem getLinearYAxis_ok {ys : List F} (h : ys ≠ []) (b : Bool) :
    ∃ a, getLinearYAxis ys b = .ok a := by
  obtain ⟨x, hx⟩ := iterMinBy_isSome partialCmp h
  obtain ⟨y, hy⟩ := iterMaxBy_isSome partialCmp h
  unfold getLinearYAxis
  simp only [hx, hy, Outcome.unwrap_some, Outcome.ok_bind]
  exact ⟨_, rfl⟩

end Cmaes
