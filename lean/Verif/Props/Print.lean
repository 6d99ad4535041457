import Verif.Props.Plot

/-!
# C47: what is printed
-/

set_option linter.unusedSectionVars false

namespace Cmaes
open FltLaws
variable {n : Nat} {F R : Type} [Flt F] [FltLaws F] {env : Env n F R} {obj : Obj n F}
  {o : Options n F} {t : List (NextCall n F)} {c c' : CMAES n F R}

/-! ### Rows -/

theorem foldl_min (l : List F) (a : F) (ha : Flt.isNaN a = false)
    (hl : ∀ x ∈ l, Flt.isNaN x = false) :
    let m := l.foldl (fun a b => if Flt.le a b then a else b) a
    m ∈ a :: l ∧ ∀ x ∈ a :: l, Flt.le m x = true := by
  induction l generalizing a with
  | nil => simpa using le_iff.mpr ⟨ha, ha, le_rfl⟩
  | cons b l ih =>
    have hb := hl b (by simp)
    rw [List.foldl_cons]
    by_cases h : Flt.le a b = true
    · rw [if_pos h]
      obtain ⟨h1, h2⟩ := ih a ha fun x hx => hl x (by simp [hx])
      refine ⟨?_, ?_⟩
      · rcases List.mem_cons.mp h1 with h1 | h1
        · rw [h1]; simp
        · exact List.mem_cons_of_mem _ (List.mem_cons_of_mem _ h1)
      · intro x hx
        simp only [List.mem_cons] at hx
        rcases hx with rfl | rfl | hx
        · exact h2 _ (by simp)
        · have e1 := le_iff.mp (h2 a (by simp))
          have e2 := le_iff.mp h
          exact le_iff.mpr ⟨e1.1, e2.2.1, e1.2.2.trans e2.2.2⟩
        · exact h2 x (by simp [hx])
    · rw [if_neg h]
      obtain ⟨h1, h2⟩ := ih b hb fun x hx => hl x (by simp [hx])
      refine ⟨List.mem_cons_of_mem _ h1, ?_⟩
      intro x hx
      rcases List.mem_cons.mp hx with rfl | hx
      · have e1 := le_iff.mp (h2 b (by simp))
        have e2 : val b ≤ val x := by
          by_contra hc
          exact h (le_iff.mpr ⟨ha, hb, (not_le.mp hc).le⟩)
        exact le_iff.mpr ⟨e1.1, ha, e1.2.2.trans e2⟩
      · exact h2 x hx

theorem foldl_max (l : List F) (a : F) (ha : Flt.isNaN a = false)
    (hl : ∀ x ∈ l, Flt.isNaN x = false) :
    let m := l.foldl (fun a b => if Flt.le b a then a else b) a
    m ∈ a :: l ∧ ∀ x ∈ a :: l, Flt.le x m = true := by
  induction l generalizing a with
  | nil => simpa using le_iff.mpr ⟨ha, ha, le_rfl⟩
  | cons b l ih =>
    have hb := hl b (by simp)
    rw [List.foldl_cons]
    by_cases h : Flt.le b a = true
    · rw [if_pos h]
      obtain ⟨h1, h2⟩ := ih a ha fun x hx => hl x (by simp [hx])
      refine ⟨?_, ?_⟩
      · rcases List.mem_cons.mp h1 with h1 | h1
        · rw [h1]; simp
        · exact List.mem_cons_of_mem _ (List.mem_cons_of_mem _ h1)
      · intro x hx
        simp only [List.mem_cons] at hx
        rcases hx with rfl | rfl | hx
        · exact h2 _ (by simp)
        · have e1 := le_iff.mp (h2 a (by simp))
          have e2 := le_iff.mp h
          exact le_iff.mpr ⟨e2.1, e1.2.1, e2.2.2.trans e1.2.2⟩
        · exact h2 x (by simp [hx])
    · rw [if_neg h]
      obtain ⟨h1, h2⟩ := ih b hb fun x hx => hl x (by simp [hx])
      refine ⟨List.mem_cons_of_mem _ h1, ?_⟩
      intro x hx
      rcases List.mem_cons.mp hx with rfl | hx
      · have e1 := le_iff.mp (h2 b (by simp))
        have e2 : val x ≤ val b := by
          by_contra hc
          exact h (le_iff.mpr ⟨hb, ha, (not_le.mp hc).le⟩)
        exact le_iff.mpr ⟨ha, e1.2.1, e2.trans e1.2.2⟩
      · exact h2 x hx

theorem isMinOf_min (v : Vec n F) (hn : 0 < n) : IsMinOf v v.min := by
  intro hv
  unfold Vec.min
  have hv' : ∀ x ∈ List.ofFn v, Flt.isNaN x = false := by
    intro x hx
    obtain ⟨i, rfl⟩ := List.mem_ofFn.mp hx
    exact hv i
  cases hl : List.ofFn v with
  | nil => simp at hl; omega
  | cons a l =>
    rw [hl] at hv'
    obtain ⟨h1, h2⟩ := foldl_min l a (hv' a (by simp)) fun x hx => hv' x (by simp [hx])
    rw [← hl] at h1 h2
    exact ⟨List.mem_ofFn.mp h1, fun i => h2 _ (List.mem_ofFn.mpr ⟨i, rfl⟩)⟩

theorem isMaxOf_max (v : Vec n F) (hn : 0 < n) : IsMaxOf v v.max := by
  intro hv
  unfold Vec.max
  have hv' : ∀ x ∈ List.ofFn v, Flt.isNaN x = false := by
    intro x hx
    obtain ⟨i, rfl⟩ := List.mem_ofFn.mp hx
    exact hv i
  cases hl : List.ofFn v with
  | nil => simp at hl; omega
  | cons a l =>
    rw [hl] at hv'
    obtain ⟨h1, h2⟩ := foldl_max l a (hv' a (by simp)) fun x hx => hv' x (by simp [hx])
    rw [← hl] at h1 h2
    exact ⟨List.mem_ofFn.mp h1, fun i => h2 _ (List.mem_ofFn.mpr ⟨i, rfl⟩)⟩

theorem infoRow_isRowOf (c : CMAES n F R) (hn : 0 < n) : c.infoRow.IsRowOf c :=
  ⟨_, _, isMinOf_min _ hn, isMaxOf_max _ hn, rfl⟩

theorem infoRow_congr (h : SameSearch c c') : c'.infoRow = c.infoRow := by
  unfold CMAES.infoRow
  rw [h.state, h.sampler, h.history]

theorem dim_pos {o : Options n F} (h : CMAES.validate o = none) : 0 < n := by
  by_contra hlt
  unfold CMAES.validate at h
  simp [show n = 0 by omega] at h

/-! ### The schedule -/

theorem quiet_lastPrint {op : Op} {r : Option (TerminationData n F)} (hq : op.Quiet)
    (ha : c.apply env op = .ok (c', r)) : c'.lastPrintEvals = c.lastPrintEvals := by
  cases op with
  | next _ => exact hq.elim
  | run _ => exact hq.elim
  | addPlotPoint =>
    simp only [CMAES.apply, Outcome.ok.injEq, Prod.mk.injEq] at ha
    obtain ⟨rfl, rfl⟩ := ha
    rfl
  | clearPlot =>
    simp only [CMAES.apply, CMAES.clearPlot, Outcome.bind_eq_ok, Outcome.ok.injEq,
      Prod.mk.injEq] at ha
    obtain ⟨c1, h1, rfl, rfl⟩ := ha
    split at h1
    · injection h1 with h1; subst h1; rfl
    · simp only [Outcome.bind_eq_ok, Outcome.ok.injEq] at h1
      obtain ⟨p, _, rfl⟩ := h1
      rfl
  | printInitialInfo =>
    simp only [CMAES.apply, Outcome.ok.injEq, Prod.mk.injEq] at ha
    obtain ⟨rfl, rfl⟩ := ha
    rfl
  | printInfo =>
    simp only [CMAES.apply, Outcome.ok.injEq, Prod.mk.injEq] at ha
    obtain ⟨rfl, rfl⟩ := ha
    rfl
  | printRunInfo k =>
    simp only [CMAES.apply, Outcome.ok.injEq, Prod.mk.injEq] at ha
    obtain ⟨rfl, rfl⟩ := ha
    rfl
  | printFinalInfo rs =>
    simp only [CMAES.apply, Outcome.ok.injEq, Prod.mk.injEq] at ha
    obtain ⟨rfl, rfl⟩ := ha
    unfold CMAES.printFinalInfo
    simp only [CMAES.print, CMAES.printInfo]
    split <;> rfl

theorem out_autoPlot (h : c.autoPlot = .ok c') :
    c'.world = c.world ∧ c'.lastPrintEvals = c.lastPrintEvals := by
  unfold CMAES.autoPlot at h
  split at h
  · injection h with h; subst h; exact ⟨rfl, rfl⟩
  · split at h
    · injection h with h; subst h; exact ⟨rfl, rfl⟩
    · simp only [Outcome.bind_eq_ok] at h
      obtain ⟨a, _, h⟩ := h
      injection h with h
      subst h
      split <;> exact ⟨rfl, rfl⟩

/-- What a `next` call prints, in terms of the state before it. -/
theorem next_print {kind : EvalKind} {calls : List (Vec n F × F)}
    {r : Option (TerminationData n F)} (hn : c.next env kind = .ok (c', r))
    (hl : c'.sampler.obj.log = c.sampler.obj.log ++ calls) :
    (¬ NextCall.Checked ⟨kind, calls, r⟩ → c'.world.out = c.world.out ∧
      c'.lastPrintEvals = c.lastPrintEvals) ∧
    (NextCall.Checked ⟨kind, calls, r⟩ →
      match c.printGapEvals with
      | none => c'.world.out = c.world.out ∧ c'.lastPrintEvals = c.lastPrintEvals
      | some gap =>
        if c.lastPrintEvals + gap ≤ c'.sampler.functionEvals then
          c'.world.out = c.world.out ++ [c'.infoRow] ∧
            c'.lastPrintEvals = c'.sampler.functionEvals
        else c'.lastPrintEvals = c.lastPrintEvals ∧ c'.world.out = c.world.out ++
          if c'.state.generation ≤ 3 then [c'.infoRow] else []) := by
  obtain ⟨calls', hcfg, hlog, _, ys, _, hc⟩ := next_cases hn
  have ec : calls' = calls := List.append_cancel_left (hlog.symm.trans hl)
  subst ec
  rcases hc with hf | ⟨ps, inds, hcomp, _⟩
  · exact ⟨fun _ => ⟨hf.out, hf.lastPrintEvals⟩, fun hh => absurd hf.failed hh.1⟩
  · obtain ⟨success, hu, hfail, hok⟩ := hcomp.update
    have hp := hcomp.posDef_iff
    rw [hu] at hp
    cases success with
    | false =>
      obtain ⟨_, h2, h3, _⟩ := hfail rfl
      exact ⟨fun _ => ⟨h3, h2⟩, fun hh => absurd (hp.mpr (by simp)) hh.2⟩
    | true =>
      obtain ⟨c1, c2, ha, hb, hd⟩ := hok rfl
      refine ⟨fun hh => absurd ⟨hcomp.not_failed, fun hq => by simpa using hp.mp hq⟩ hh,
        fun _ => ?_⟩
      obtain ⟨o1, l1⟩ := out_autoPlot ha
      have s1 := sameSearch_autoPlot ha
      have s2 := sameSearch_autoPrint hb
      obtain ⟨s3, _, l3, o3, _⟩ := checkTermination_eq_ok hd
      have r1 : c1.infoRow = c'.infoRow := (infoRow_congr (s2.trans s3)).symm
      have g1 : c1.printGapEvals = c.printGapEvals := s1.printGapEvals
      have e1 : c1.sampler.functionEvals = c'.sampler.functionEvals := by rw [s1.sampler]
      have n1 : c1.state.generation = c'.state.generation := by rw [s1.state]
      have o1' : c1.world.out = c.world.out := by rw [o1]
      have l1' : c1.lastPrintEvals = c.lastPrintEvals := l1
      unfold CMAES.autoPrint at hb
      rw [g1] at hb
      cases hg : c.printGapEvals with
      | none =>
        rw [hg] at hb
        simp only [Outcome.ok.injEq] at hb
        subst hb
        exact ⟨o3.trans o1', l3.trans l1'⟩
      | some gap =>
        rw [hg] at hb
        simp only [usizeAdd] at hb
        split at hb
        · simp at hb
        · simp only [Outcome.ok_bind, Outcome.ok.injEq] at hb
          rw [l1', e1] at hb
          by_cases hle : c.lastPrintEvals + gap ≤ c'.sampler.functionEvals
          · rw [if_pos hle] at hb
            simp only [hle, ↓reduceIte]
            rw [o3, l3, ← hb, ← r1, ← o1']
            exact ⟨rfl, rfl⟩
          · rw [if_neg hle] at hb
            simp only [hle, ↓reduceIte]
            by_cases hgen : c'.state.generation ≤ 3
            · rw [if_pos (by rw [n1]; omega)] at hb
              rw [o3, l3, ← hb, ← r1, ← o1', ← l1', if_pos hgen]
              exact ⟨rfl, rfl⟩
            · rw [if_neg (by rw [n1]; omega)] at hb
              rw [o3, l3, ← hb, ← o1', ← l1', if_neg hgen]
              exact ⟨rfl, by simp⟩

/-- The schedule of the specification is the one that is implemented. -/
theorem print_inv (h : History.Of env obj o t c) {gap : Nat} (hg : o.printGapEvals = some gap) :
    printSchedule o.populationSize gap t = (c.sampler.functionEvals, c.lastPrintEvals) := by
  obtain ⟨w, c0, h0, he⟩ := h
  induction he with
  | refl =>
    obtain ⟨hv, rfl⟩ := new_eq_ok h0
    obtain ⟨a1, -, -, -, -, -, -, -, a9⟩ := create_search env w obj o
    rw [a9, a1]
    rfl
  | quiet he' hq ha ih =>
    rw [ih, quiet_lastPrint hq ha, (quiet_sameSearch hq ha).1.sampler]
  | next he' hn hl ih =>
    rename_i c1 c2 t1 kind calls r
    obtain ⟨gs, fi, _⟩ := fresh_inv ⟨w, c0, h0, he'⟩
    have hgap : c1.printGapEvals = some gap := fi.printGapEvals.trans hg
    have hpop := fi.populationSize
    obtain ⟨p1, p2⟩ := next_print hn hl
    rw [hgap] at p2
    simp only at p2
    unfold printSchedule at ih ⊢
    rw [List.foldl_append, ih]
    simp only [List.foldl_cons, List.foldl_nil]
    obtain ⟨calls', hcfg, hlog, _, ys, _, hc⟩ := next_cases hn
    have ec : calls' = calls := List.append_cancel_left (hlog.symm.trans hl)
    subst ec
    rcases hc with hf | ⟨ps, inds, hcomp, _⟩
    · simp [hf.failed, hf.evals, hf.lastPrintEvals]
    · have hnf := hcomp.not_failed
      have hev := hcomp.evals
      rw [hpop] at hev
      by_cases hpd : NextCall.ReportsPosDef ⟨kind, calls', r⟩
      · obtain ⟨_, q2⟩ := p1 fun hh => hh.2 hpd
        simp [hnf, hpd, hev, q2]
      · have := p2 ⟨hnf, hpd⟩
        rw [hev] at this
        simp only [hnf, hpd, ↓reduceIte, hev]
        split at this
        · rename_i hle
          rw [if_pos hle, this.2]
        · rename_i hle
          rw [if_neg hle, this.1]

/-! ### The theorems -/

/-- **C47.** Building prints the initial information if printing is enabled, and nothing
otherwise. -/
theorem c47_build {w : World n F} (h : CMAES.new env w obj o = .ok c) :
    c.world.out = w.out ++ if o.printGapEvals.isSome
      then [.initial o.weights n o.populationSize (o.seed.getD env.randomSeed)] else [] := by
  obtain ⟨hv, rfl⟩ := new_eq_ok h
  cases hg : o.printGapEvals <;>
    simp [CMAES.create, World.now, CMAES.addPlotPoint, CMAES.printInitialInfo, CMAES.print,
      World.print, hg, Parameters.fromOptions]

/-- **C47.** If printing is enabled, a `next` call prints one row, describing the new state, exactly
if it completed a generation and this is one of the first three or at least `gap` evaluations were
made since the last scheduled print; otherwise it prints nothing. -/
theorem c47_next (h : History.Of env obj o t c) {gap : Nat} (hg : o.printGapEvals = some gap)
    {kind : EvalKind} {calls : List (Vec n F × F)} {r : Option (TerminationData n F)}
    (hn : c.next env kind = .ok (c', r))
    (hl : c'.sampler.obj.log = c.sampler.obj.log ++ calls) :
    if NextCall.Checked ⟨kind, calls, r⟩ ∧ (c'.generation ≤ 3 ∨
        (printSchedule o.populationSize gap t).2 + gap ≤
          (printSchedule o.populationSize gap t).1 + o.populationSize)
    then ∃ e : PrintEvent n F, e.IsRowOf c' ∧ c'.world.out = c.world.out ++ [e]
    else c'.world.out = c.world.out := by
  obtain ⟨gs, fi, _⟩ := fresh_inv h
  have hgap : c.printGapEvals = some gap := fi.printGapEvals.trans hg
  have hrow := infoRow_isRowOf c' (dim_pos fi.valid)
  obtain ⟨p1, p2⟩ := next_print hn hl
  rw [hgap] at p2
  simp only at p2
  rw [print_inv h hg]
  by_cases hc : NextCall.Checked ⟨kind, calls, r⟩
  · have hev : c'.sampler.functionEvals = c.sampler.functionEvals + o.populationSize := by
      obtain ⟨calls', hcfg, hlog, _, ys, _, hcs⟩ := next_cases hn
      have ec : calls' = calls := List.append_cancel_left (hlog.symm.trans hl)
      subst ec
      rcases hcs with hf | ⟨ps, inds, hcomp, _⟩
      · exact absurd hf.failed hc.1
      · rw [hcomp.evals, fi.populationSize]
    have := p2 hc
    rw [hev] at this
    split at this
    · rename_i hle
      rw [if_pos ⟨hc, .inr hle⟩]
      exact ⟨_, hrow, this.1⟩
    · rename_i hle
      by_cases h3 : c'.generation ≤ 3
      · rw [if_pos ⟨hc, .inl h3⟩]
        refine ⟨_, hrow, ?_⟩
        rw [this.2, if_pos (show c'.state.generation ≤ 3 from h3)]
      · rw [if_neg (by rintro ⟨_, hh | hh⟩ <;> contradiction), this.2,
          if_neg (show ¬ c'.state.generation ≤ 3 from h3)]
        simp
  · rw [if_neg fun hh => hc hh.1]
    exact (p1 hc).1

/-- **C47.** If printing is not enabled, neither `next` nor `run` prints anything. -/
theorem c47_silent (h : History.Of env obj o t c) (hg : o.printGapEvals = none) {kind : EvalKind} :
    (∀ c' r, c.next env kind = .ok (c', r) → c'.world.out = c.world.out) ∧
    (∀ c' d, c.run env kind = .ok (c', d) → c'.world.out = c.world.out) := by
  have key : ∀ {t : List (NextCall n F)} {c c' : CMAES n F R} {r},
      History.Of env obj o t c → c.next env kind = .ok (c', r) → c'.world.out = c.world.out := by
    intro t c c' r h hn
    obtain ⟨calls, hl⟩ := next_log hn
    obtain ⟨gs, fi, _⟩ := fresh_inv h
    obtain ⟨p1, p2⟩ := next_print hn hl
    rw [fi.printGapEvals.trans hg] at p2
    by_cases hc : NextCall.Checked ⟨kind, calls, r⟩
    · exact (p2 hc).1
    · exact (p1 hc).1
  refine ⟨fun c' r hn => key h hn, ?_⟩
  have loop : ∀ (fuel : Nat) (t : List (NextCall n F)) (c c' : CMAES n F R) (d),
      History.Of env obj o t c → c.runLoop env kind fuel = .ok (c', d) →
      c'.world.out = c.world.out ∧ c'.printGapEvals = none := by
    intro fuel
    induction fuel with
    | zero => intro t c c' d _ hr; simp [CMAES.runLoop] at hr
    | succ fuel ih =>
      intro t c c' d h hr
      simp only [CMAES.runLoop, Outcome.bind_eq_ok] at hr
      obtain ⟨⟨c1, r⟩, hn, hr⟩ := hr
      obtain ⟨calls, hl⟩ := next_log hn
      have h1 := h.trans (Exec.next (.refl c) hn hl)
      cases r with
      | some d1 =>
        simp only [Outcome.ok.injEq, Prod.mk.injEq] at hr
        obtain ⟨rfl, rfl⟩ := hr
        obtain ⟨gs, fi, _⟩ := fresh_inv h1
        exact ⟨key h hn, fi.printGapEvals.trans hg⟩
      | none =>
        obtain ⟨e1, e2⟩ := ih _ _ _ _ h1 hr
        exact ⟨e1.trans (key h hn), e2⟩
  intro c' d hr
  simp only [CMAES.run, Outcome.bind_eq_ok, Outcome.ok.injEq, Prod.mk.injEq] at hr
  obtain ⟨⟨c1, d1⟩, h1, rfl, rfl⟩ := hr
  obtain ⟨e1, e2⟩ := loop _ _ _ _ _ h h1
  rw [← e1]
  simp [CMAES.runInternal, CMAES.addPlotPoint, e2]

/-- **C47.** `print_final_info` prints a row describing the state unless the last scheduled print was
at the current evaluation count, and then the final information. -/
theorem c47_final (h : History.Of env obj o t c) {gap : Nat} (hg : o.printGapEvals = some gap)
    (reasons : List TerminationReason) :
    ∃ (c' : CMAES n F R) (row fin : PrintEvent n F),
      c.apply env (.printFinalInfo reasons) = .ok (c', none) ∧
      row.IsRowOf c ∧ fin.IsFinalOf reasons c ∧
      c'.world.out = c.world.out ++
        (if (printSchedule o.populationSize gap t).2 = c.functionEvals then [] else [row]) ++
        [fin] := by
  obtain ⟨gs, fi, _⟩ := fresh_inv h
  refine ⟨c.printFinalInfo reasons, c.infoRow, _, rfl, infoRow_isRowOf c (dim_pos fi.valid), rfl,
    ?_⟩
  rw [out_printFinalInfo, print_inv h hg]
  by_cases hh : c.sampler.functionEvals = c.lastPrintEvals
  · have hh' : c.lastPrintEvals = c.functionEvals := hh.symm
    simp only [hh', ne_eq, hh, not_true_eq_false, ↓reduceIte]
    rfl
  · have hh' : ¬ c.lastPrintEvals = c.functionEvals := fun e => hh e.symm
    simp only [hh', ne_eq, hh, not_false_eq_true, ↓reduceIte]
    rfl

/-- **C47.** `print_info` prints a row describing the state. -/
theorem c47_info (h : History.Of env obj o t c) :
    ∃ (c' : CMAES n F R) (row : PrintEvent n F), c.apply env .printInfo = .ok (c', none) ∧
      row.IsRowOf c ∧ c'.world.out = c.world.out ++ [row] := by
  obtain ⟨gs, fi, _⟩ := fresh_inv h
  exact ⟨c.printInfo, c.infoRow, rfl, infoRow_isRowOf c (dim_pos fi.valid), rfl⟩

/-! ### Concrete cases -/

/-- The generations of the rows that were printed. -/
def printedRows (out : List (PrintEvent n F)) : List Nat :=
  out.filterMap fun e => match e with
    | .info g .. => some g
    | _ => none

open Witness in
/-- With a gap of 13 evaluations and four evaluations per generation, the first three generations are
printed, and then the fourth (16 evaluations after the start), but not the fifth. -/
example : ∃ t c, History.Of (wenv 2) sphere { opts with printGapEvals := some 13 } t c ∧
    printedRows c.world.out = [1, 2, 3, 4] ∧ c.generation = 5 := by
  obtain ⟨t, c, h, hp⟩ := exists_history (env := wenv 2) (obj := sphere)
    (o := { opts with printGapEvals := some 13 }) [.seq, .seq, .seq, .seq, .seq]
    (fun c t => decide (printedRows c.world.out = [1, 2, 3, 4] ∧ c.generation = 5))
    (by decide +kernel) (by decide +kernel)
  exact ⟨t, c, h, of_decide_eq_true hp⟩

open Witness in
/-- **C47.** A run that ends in one of the first generations prints the row of its last generation
twice. -/
theorem c47_repeats : ∃ c c' d, History.Of (wenv 2) sphere
      { opts with maxGenerations := some 2, printGapEvals := some 200 } [] c ∧
    c.run (wenv 2) .seq = .ok (c', d) ∧ d.reasons = [.maxGenerations] ∧
    printedRows c'.world.out = [1, 2, 2] := by
  obtain ⟨⟨c', d⟩, h1, h2⟩ := Outcome.of_check (x := (CMAES.create (wenv 2) World.init sphere
      { opts with maxGenerations := some 2, printGapEvals := some 200 }).run (wenv 2) .seq)
    (p := fun x => decide (x.2.reasons = [.maxGenerations] ∧
      printedRows x.1.world.out = [1, 2, 2])) (by decide +kernel)
  obtain ⟨a, b⟩ := of_decide_eq_true h2
  refine ⟨_, c', d, ⟨World.init, CMAES.create (wenv 2) World.init sphere _, ?_, .refl _⟩, h1, a, b⟩
  have hv : CMAES.validate { opts with maxGenerations := some 2, printGapEvals := some 200 } =
      none := by decide +kernel
  simp only [CMAES.new, hv]

end Cmaes
