import Verif.Model.PrintText
import Verif.Spec.PrintText
import Verif.Props.Format
import Verif.Witness

/-!
# C73: the printed text
-/

namespace Cmaes
open Printed Format
variable {n : Nat}

/-! ### Single cells -/

theorem blank_replicate (k : Nat) : Blank (List.replicate k ' ') := fun _ hc =>
  List.eq_of_mem_replicate hc

theorem blank_append {a b : List Char} (ha : Blank a) (hb : Blank b) : Blank (a ++ b) := by
  intro c hc
  rcases List.mem_append.mp hc with h | h
  · exact ha c h
  · exact hb c h

theorem no_bar_blank {a : List Char} (ha : Blank a) : '|' ∉ a := fun h => by
  have := ha _ h
  revert this
  decide

theorem no_bar_digits {a : List Char} (ha : ∀ d ∈ a, IsDigit d) : '|' ∉ a := fun h => by
  have := ha _ h
  revert this
  unfold IsDigit
  decide

theorem no_bar_reads {p : Nat} {text : List Char} {v : ℚ} {e : Int} (h : Reads p text v e) :
    '|' ∉ text := by
  obtain ⟨s, c, cs, t, es, rfl, h2, h3, -, h5, h6, -⟩ := h.shape
  have a1 : '|' ∉ c :: cs := no_bar_digits h3
  have a2 : '|' ∉ es := no_bar_digits h6
  simp only [List.mem_cons, not_or] at a1
  simp only [List.cons_append, List.mem_cons, List.mem_append, not_or]
  refine ⟨?_, a1.1, by decide, a1.2, by decide, ?_, a2⟩
  · rcases h2 with rfl | rfl <;> decide
  · rcases h5 with rfl | rfl <;> decide

theorem no_bar_numberText {p : Nat} {text : List Char} {x : F64} (h : NumberText p text x) :
    '|' ∉ text := by
  cases x with
  | nan => rw [show text = _ from h]; decide
  | pinf => rw [show text = _ from h]; decide
  | ninf => rw [show text = _ from h]; decide
  | fin a =>
    obtain ⟨v, e, h, -⟩ := h
    exact no_bar_reads h

theorem no_bar_number {p : Nat} {cell : List Char} {x : F64} (h : ShowsNumber p cell x) :
    '|' ∉ cell := by
  obtain ⟨l, text, r, rfl, h1, h2, h3⟩ := h
  simp only [List.mem_append, not_or]
  exact ⟨⟨no_bar_blank h1, no_bar_numberText h3⟩, no_bar_blank h2⟩

theorem no_bar_count {cell : List Char} {k : Nat} (h : ShowsCount cell k) : '|' ∉ cell := by
  obtain ⟨l, text, r, rfl, h1, h2, -, h3, -⟩ := h
  simp only [List.mem_append, not_or]
  exact ⟨⟨no_bar_blank h1, no_bar_digits h3⟩, no_bar_blank h2⟩

theorem padLeft_count (w k : Nat) : ShowsCount (padLeft w (natText k)) k :=
  ⟨_, _, [], by rw [List.append_nil]; rfl, blank_replicate _, fun _ h => by simp at h,
    natText_ne_nil k, natText_digits k, number_natText k⟩

theorem padLeft_count_length {w k : Nat} (hw : 1 ≤ w) (h : k < 10 ^ w) :
    (padLeft w (natText k)).length = w := by
  have := natText_length_le hw h
  simp only [padLeft, List.length_append, List.length_replicate]
  omega

theorem Printed.ShowsNumber.pad {p : Nat} {cell a b : List Char} {x : F64} (h : ShowsNumber p cell x)
    (ha : Blank a) (hb : Blank b) : ShowsNumber p (a ++ cell ++ b) x := by
  obtain ⟨l, text, r, rfl, h1, h2, h3⟩ := h
  exact ⟨a ++ l, text, r ++ b, by simp, blank_append ha h1, blank_append h2 hb, h3⟩

theorem Printed.ShowsCount.pad {cell a b : List Char} {k : Nat} (h : ShowsCount cell k)
    (ha : Blank a) (hb : Blank b) : ShowsCount (a ++ cell ++ b) k := by
  obtain ⟨l, text, r, rfl, h1, h2, h3⟩ := h
  exact ⟨a ++ l, text, r ++ b, by simp, blank_append ha h1, blank_append h2 hb, h3⟩

/-- What `format_num` prints. -/
theorem formatNum_shows (x : F64) {w : Nat} (hw : 8 ≤ w) :
    ∃ text, formatNum x w = .ok text ∧ ShowsNumber (w - 7) text x ∧
      (Short x → text.length = w) := by
  obtain ⟨⟨k1, a1, b1⟩, ⟨k2, a2, b2⟩, ⟨k3, a3, b3⟩⟩ := c63_names w
  have hnil : Blank [] := fun _ h => by simp at h
  cases x with
  | nan =>
    refine ⟨_, a1, ⟨_, _, [], (List.append_nil _).symm, blank_replicate _, hnil, rfl⟩, fun _ => ?_⟩
    simp
    omega
  | pinf =>
    refine ⟨_, a2, ⟨_, _, [], (List.append_nil _).symm, blank_replicate _, hnil, rfl⟩, fun _ => ?_⟩
    simp
    omega
  | ninf =>
    refine ⟨_, a3, ⟨_, _, [], (List.append_nil _).symm, blank_replicate _, hnil, rfl⟩, fun _ => ?_⟩
    simp
    omega
  | fin a =>
    obtain ⟨text, v, e, h1, h2, -, h4, -⟩ := c63_format a w
    obtain ⟨text', h1', h5, -⟩ := c63_width a w
    obtain rfl : text = text' := by rw [h1] at h1'; injection h1'
    rw [show max w 8 = w by omega] at h2 h4 h5
    exact ⟨text, h1, ⟨[], text, [], by simp, hnil, hnil, v, e, h2, h4⟩, h5⟩

/-! ### The table -/

/-- The cells of a row and its parts. -/
theorem row_parts (generation evals : Nat) (best : Option F64)
    (axisRatio sigma minStd maxStd : F64) :
    ∃ b a s mn mx, (match best with
        | none => b = List.replicate 19 ' '
        | some x => ShowsNumber 12 b x ∧ (Short x → b.length = 19)) ∧
      (ShowsNumber 4 a axisRatio ∧ (Short axisRatio → a.length = 11)) ∧
      (ShowsNumber 4 s sigma ∧ (Short sigma → s.length = 11)) ∧
      (ShowsNumber 4 mn minStd ∧ (Short minStd → mn.length = 11)) ∧
      (ShowsNumber 4 mx maxStd ∧ (Short maxStd → mx.length = 11)) ∧
      rowText generation evals best axisRatio sigma minStd maxStd = .ok
        (padLeft 7 (natText generation) ++ " | ".toList ++ padLeft 7 (natText evals) ++
          " | ".toList ++ b ++ " |".toList ++ a ++ " |".toList ++ s ++ " |".toList ++
          mn ++ " |".toList ++ mx) := by
  obtain ⟨a, a1, a2⟩ := formatNum_shows axisRatio (w := 11) (by omega)
  obtain ⟨s, s1, s2⟩ := formatNum_shows sigma (w := 11) (by omega)
  obtain ⟨mn, m1, m2⟩ := formatNum_shows minStd (w := 11) (by omega)
  obtain ⟨mx, x1, x2⟩ := formatNum_shows maxStd (w := 11) (by omega)
  cases best with
  | none =>
    refine ⟨_, a, s, mn, mx, rfl, a2, s2, m2, x2, ?_⟩
    simp only [rowText, a1, s1, m1, x1, Outcome.ok_bind]
    rfl
  | some x =>
    obtain ⟨b, b1, b2⟩ := formatNum_shows x (w := 19) (by omega)
    refine ⟨b, a, s, mn, mx, b2, a2, s2, m2, x2, ?_⟩
    simp only [rowText, a1, b1, s1, m1, x1, Outcome.ok_bind]

/-- **C73, contents.** A row never panics. Split at the separators, it has seven cells. They show the
generation, the evaluations, the best value of the generation with twelve decimals (nothing if there is
none), the axis ratio, the step size and the two standard deviations with four decimals. -/
theorem c73_row (generation evals : Nat) (best : Option F64)
    (axisRatio sigma minStd maxStd : F64) :
    ∃ text c0 c1 c2 c3 c4 c5 c6,
      rowText generation evals best axisRatio sigma minStd maxStd = .ok text ∧
      text.splitOn '|' = [c0, c1, c2, c3, c4, c5, c6] ∧
      ShowsCount c0 generation ∧ ShowsCount c1 evals ∧
      ShowsOptional 12 c2 best ∧
      ShowsNumber 4 c3 axisRatio ∧ ShowsNumber 4 c4 sigma ∧ ShowsNumber 4 c5 minStd ∧
      ShowsNumber 4 c6 maxStd := by
  obtain ⟨b, a, s, mn, mx, hb, ⟨ha, -⟩, ⟨hs, -⟩, ⟨hmn, -⟩, ⟨hmx, -⟩, heq⟩ :=
    row_parts generation evals best axisRatio sigma minStd maxStd
  have h0 : Blank [] := fun _ h => by simp at h
  have h1 : Blank [' '] := blank_replicate 1
  have k0 := (padLeft_count 7 generation).pad h0 h1
  have k1 := (padLeft_count 7 evals).pad h1 h1
  have k3 := ha.pad h0 h1
  have k4 := hs.pad h0 h1
  have k5 := hmn.pad h0 h1
  have k2 : ShowsOptional 12 ([' '] ++ b ++ [' ']) best ∧ '|' ∉ [' '] ++ b ++ [' '] := by
    cases best with
    | none =>
      have hb : b = List.replicate 19 ' ' := hb
      subst hb
      have := blank_append (blank_append h1 (blank_replicate 19)) h1
      exact ⟨this, no_bar_blank this⟩
    | some x =>
      have hb : ShowsNumber 12 b x ∧ _ := hb
      have := hb.1.pad h1 h1
      exact ⟨this, no_bar_number this⟩
  have hsplit := List.splitOn_intercalate (ls := [[] ++ padLeft 7 (natText generation) ++ [' '],
    [' '] ++ padLeft 7 (natText evals) ++ [' '], [' '] ++ b ++ [' '], [] ++ a ++ [' '],
    [] ++ s ++ [' '], [] ++ mn ++ [' '], mx]) '|' (by
      intro l hl
      simp only [List.mem_cons, List.not_mem_nil, or_false] at hl
      rcases hl with rfl | rfl | rfl | rfl | rfl | rfl | rfl
      · exact no_bar_count k0
      · exact no_bar_count k1
      · exact k2.2
      · exact no_bar_number k3
      · exact no_bar_number k4
      · exact no_bar_number k5
      · exact no_bar_number hmx) (by simp)
  refine ⟨_, _, _, _, _, _, _, _, heq, ?_, k0, k1, k2.1, k3, k4, k5, hmx⟩
  refine Eq.trans (congrArg _ ?_) hsplit
  simp [List.intercalate]

theorem Printed.LinedUp.refl (a : List Char) : LinedUp a a := ⟨rfl, fun _ => Iff.rfl⟩

theorem Printed.LinedUp.append {a a' b b' : List Char} (h : LinedUp a a') (h' : LinedUp b b') :
    LinedUp (a ++ b) (a' ++ b') := by
  refine ⟨by simp [h.1, h'.1], fun i => ?_⟩
  by_cases hi : i < a.length
  · rw [List.getElem?_append_left hi, List.getElem?_append_left (h.1 ▸ hi)]
    exact h.2 i
  · rw [List.getElem?_append_right (by omega), List.getElem?_append_right (by rw [← h.1]; omega),
      h.1]
    exact h'.2 _

theorem Printed.LinedUp.cells {a a' : List Char} (h : a.length = a'.length) (h1 : '|' ∉ a)
    (h2 : '|' ∉ a') : LinedUp a a' := by
  refine ⟨h, fun i => iff_of_false ?_ ?_⟩
  · exact fun hh => h1 (List.mem_of_getElem? hh)
  · exact fun hh => h2 (List.mem_of_getElem? hh)

/-- **C73, layout.** If the counts have at most seven digits and the numbers are short, the row has the
length of the heading and of the line below it, and its column separators are exactly below those of
the heading. -/
theorem c73_aligned {generation evals : Nat} {best : Option F64}
    {axisRatio sigma minStd maxStd : F64} (hg : generation < 10 ^ 7) (he : evals < 10 ^ 7)
    (hx : ∀ x ∈ best.toList ++ [axisRatio, sigma, minStd, maxStd], Short x)
    (setting : Weights) (dim lambda seed : Nat) :
    ∃ row settings heading rule,
      rowText generation evals best axisRatio sigma minStd maxStd = .ok row ∧
      initialText setting dim lambda seed = [settings, heading, rule] ∧
      LinedUp row heading ∧ rule.length = heading.length ∧ ∀ c ∈ rule, c = '-' := by
  obtain ⟨b, a, s, mn, mx, hb, ⟨ha, ha'⟩, ⟨hs, hs'⟩, ⟨hmn, hmn'⟩, ⟨hmx, hmx'⟩, heq⟩ :=
    row_parts generation evals best axisRatio sigma minStd maxStd
  refine ⟨_, _, _, _, heq, rfl, ?_, by simp, fun c hc => List.eq_of_mem_replicate hc⟩
  have hb' : b.length = 19 ∧ '|' ∉ b := by
    cases best with
    | none =>
      have hb : b = List.replicate 19 ' ' := hb
      subst hb
      exact ⟨rfl, no_bar_blank (blank_replicate 19)⟩
    | some x =>
      have hb : ShowsNumber 12 b x ∧ (Short x → b.length = 19) := hb
      exact ⟨hb.2 (hx x (by simp)), no_bar_number hb.1⟩
  have ht : titleString = " Gen # ".toList ++ " | ".toList ++ "f evals".toList ++
      " | ".toList ++ "Best function value".toList ++ " |".toList ++ " Axis Ratio".toList ++
      " |".toList ++ "   Sigma   ".toList ++ " |".toList ++ "  Min std  ".toList ++
      " |".toList ++ "  Max std  ".toList := by decide
  rw [ht]
  refine .append (.append (.append (.append (.append (.append (.append (.append (.append (.append
    (.append (.append ?_ (.refl _)) ?_) (.refl _)) ?_) (.refl _)) ?_) (.refl _)) ?_) (.refl _)) ?_)
    (.refl _)) ?_
  · exact .cells (by rw [padLeft_count_length (by omega) hg]; rfl)
      (no_bar_count (padLeft_count _ _)) (by decide)
  · exact .cells (by rw [padLeft_count_length (by omega) he]; rfl)
      (no_bar_count (padLeft_count _ _)) (by decide)
  · exact .cells (by rw [hb'.1]; rfl) hb'.2 (by decide)
  · exact .cells (by rw [ha' (hx _ (by simp))]; rfl) (no_bar_number ha) (by decide)
  · exact .cells (by rw [hs' (hx _ (by simp))]; rfl) (no_bar_number hs) (by decide)
  · exact .cells (by rw [hmn' (hx _ (by simp))]; rfl) (no_bar_number hmn) (by decide)
  · exact .cells (by rw [hmx' (hx _ (by simp))]; rfl) (no_bar_number hmx) (by decide)

/-! ### The reasons -/

theorem name_inj : ∀ r r' : TerminationReason, r.name = r'.name → r = r' := by
  intro r r' h
  cases r <;> cases r' <;> first | rfl | exact absurd h (by decide)

theorem name_no_tick : ∀ r : TerminationReason, '`' ∉ r.name := by
  intro r
  cases r <;> decide

theorem ticks_inj {a a' b b' : List Char} (h : '`' :: a ++ '`' :: b = '`' :: a' ++ '`' :: b')
    (ha : '`' ∉ a) (ha' : '`' ∉ a') : a = a' ∧ b = b' := by
  simp only [List.cons_append, List.cons.injEq, true_and] at h
  have tw : ∀ (l r : List Char), '`' ∉ l → (l ++ '`' :: r).takeWhile (· != '`') = l := by
    intro l r hl
    rw [List.takeWhile_append_of_pos]
    · simp
    · intro x hx
      simp only [bne_iff_ne, ne_eq]
      rintro rfl
      exact hl hx
  have hs := congrArg (fun l => l.takeWhile (· != '`')) h
  simp only [tw _ _ ha, tw _ _ ha'] at hs
  subst hs
  simpa using h

/-- **C73, reasons.** The printed list of termination reasons tells which reasons there were and in
which order: different lists print differently. -/
theorem c73_reasons {l l' : List TerminationReason} (h : reasonsText l = reasonsText l') :
    l = l' := by
  unfold reasonsText at h
  induction l generalizing l' with
  | nil =>
    rcases l' with _ | ⟨r, _ | ⟨r', l'⟩⟩
    · rfl
    · simp [joined] at h
    · simp [joined] at h
  | cons r l ih =>
    rcases l' with _ | ⟨r', l'⟩
    · rcases l with _ | ⟨r', l⟩ <;> simp [joined] at h
    · have key : ∀ (x : TerminationReason) (xs : List TerminationReason),
          joined ", ".toList ((x :: xs).map fun r => '`' :: r.name ++ ['`']) =
            '`' :: x.name ++ '`' :: (if xs = [] then [] else ", ".toList ++
              joined ", ".toList (xs.map fun r => '`' :: r.name ++ ['`'])) := by
        intro x xs
        cases xs <;> simp [joined]
      rw [key, key] at h
      obtain ⟨h1, h2⟩ := ticks_inj h (name_no_tick _) (name_no_tick _)
      rw [name_inj _ _ h1]
      congr 1
      by_cases e : l = [] <;> by_cases e' : l' = []
      · rw [e, e']
      · rw [if_pos e, if_neg e'] at h2; simp at h2
      · rw [if_neg e, if_pos e'] at h2; simp at h2
      · rw [if_neg e, if_neg e'] at h2
        exact ih (List.append_cancel_left h2)

/-- **C73, reasons.** The same for the single reason of a restarter. -/
theorem c73_reason {r r' : RestartTerminationReason} (h : r.name = r'.name) : r = r' := by
  cases r <;> cases r' <;> first | rfl | exact absurd h (by decide)

/-- **C73, no panic.** Whatever is printed, formatting it does not panic. -/
theorem c73_returns (d : Display n) (es : List (PrintEvent n F64)) :
    ∃ lines, printedText d es = .ok lines := by
  have key : ∀ e : PrintEvent n F64, ∃ lines, e.text d = .ok lines := by
    intro e
    cases e with
    | info g k best a s mn mx =>
      obtain ⟨text, -, -, -, -, -, -, -, h, -⟩ := c73_row g k best a s mn mx
      exact ⟨[text], by simp [PrintEvent.text, h]⟩
    | runInfo run lambda sigma0 seed =>
      obtain ⟨text, h, -⟩ := formatNum_shows sigma0 (w := 12) (by omega)
      exact ⟨_, by simp only [PrintEvent.text, runInfoText, h, Outcome.ok_bind]; rfl⟩
    | runResults run best reasons evals =>
      cases best with
      | none => exact ⟨_, rfl⟩
      | some x =>
        obtain ⟨text, h, -⟩ := formatNum_shows x (w := 19) (by omega)
        exact ⟨_, by simp only [PrintEvent.text, runResultsText, h, Outcome.ok_bind]; rfl⟩
    | initial => exact ⟨_, rfl⟩
    | final => exact ⟨_, rfl⟩
    | restartInitial => exact ⟨_, rfl⟩
    | restartResults => exact ⟨_, rfl⟩
  induction es with
  | nil => exact ⟨_, rfl⟩
  | cons e es ih =>
    obtain ⟨l, hl⟩ := key e
    obtain ⟨l', hl'⟩ := ih
    exact ⟨l ++ l', by simp [printedText, hl, hl']⟩

theorem natText_count (k : Nat) : ShowsCount (natText k) k :=
  ⟨[], _, [], by simp, fun _ h => by simp at h, fun _ h => by simp at h,
    natText_ne_nil k, natText_digits k, number_natText k⟩

/-- **C73, other lines.** The first line of a run names the variant and shows dimension, population size
and seed. -/
theorem c73_initial (setting : Weights) (dim lambda seed : Nat) :
    ∃ v a b c rest, initialText setting dim lambda seed = (v ++ " with dimension=".toList ++ a ++
        ", lambda=".toList ++ b ++ ", seed=".toList ++ c) :: rest ∧
      v = (if setting = .negative then "aCMA-ES".toList else "CMA-ES".toList) ∧
      ShowsCount a dim ∧ ShowsCount b lambda ∧ ShowsCount c seed :=
  ⟨_, _, _, _, _, rfl, by cases setting <;> rfl, natText_count _, natText_count _,
    natText_count _⟩

/-- **C73, other lines.** The line before a run of a restarter shows the number of the run, population
size, initial step size with five decimals, and seed. -/
theorem c73_runInfo (run lambda : Nat) (sigma0 : F64) (seed : Nat) :
    ∃ a b x c, runInfoText run lambda sigma0 seed = .ok ("Run ".toList ++ a ++
        " parameters: lambda=".toList ++ b ++ ", sigma0=".toList ++ x ++ ", seed=".toList ++ c) ∧
      ShowsCount a run ∧ ShowsCount b lambda ∧ ShowsNumber 5 x sigma0 ∧ ShowsCount c seed := by
  obtain ⟨x, h, hx, -⟩ := formatNum_shows sigma0 (w := 12) (by omega)
  refine ⟨_, _, x, _, ?_, natText_count _, natText_count _, hx, natText_count _⟩
  simp only [runInfoText, h, Outcome.ok_bind]

/-- **C73, other lines.** The line after a run of a restarter shows the number of the run, the best value
with twelve decimals or `None`, the reasons and the number of evaluations. -/
theorem c73_runResults (run : Nat) (best : Option F64) (reasons : List TerminationReason)
    (evals : Nat) :
    ∃ a b c, runResultsText run best reasons evals = .ok ("Run ".toList ++ a ++
        " results: best f-val=".toList ++ b ++ ", termination_reasons=[".toList ++
        reasonsText reasons ++ "], f-evals=".toList ++ c) ∧
      ShowsCount a run ∧ ShowsCount c evals ∧ (best = none → b = "None".toList) ∧
      ∀ x, best = some x → ShowsNumber 12 b x := by
  cases best with
  | none => exact ⟨_, _, _, rfl, natText_count _, natText_count _, fun _ => rfl, by simp⟩
  | some x =>
    obtain ⟨b, h, hb, -⟩ := formatNum_shows x (w := 19) (by omega)
    refine ⟨_, b, _, ?_, natText_count _, natText_count _, by simp, ?_⟩
    · simp only [runResultsText, h, Outcome.ok_bind]
    · rintro _ ⟨⟩
      exact hb

/-! ### Concrete cases -/

/-- The row is the given text. -/
def rowIs (generation evals : Nat) (best : Option F64) (axisRatio sigma minStd maxStd : F64)
    (s : String) : Bool :=
  match rowText generation evals best axisRatio sigma minStd maxStd with
  | .ok t => t == s.toList
  | _ => false

example : titleString =
    " Gen #  | f evals | Best function value | Axis Ratio |   Sigma    |  Min std   |  Max std  ".toList
      := by decide

/-- A row as it is printed. -/
example : rowIs 12 120 (some (Bin64.rnd (-1 / 3))) (Bin64.rnd 1) (Bin64.rnd (1 / 2)) .nan .pinf
    "     12 |     120 | -3.333333333333e-01 | 1.0000e+00 | 5.0000e-01 |        NaN |        inf"
      = true := by decide +kernel

/-- The row before the first generation. -/
example : rowIs 0 0 none (Bin64.rnd 1) (Bin64.rnd (1 / 2)) (Bin64.rnd (1 / 2)) (Bin64.rnd (1 / 2))
    "      0 |       0 |                     | 1.0000e+00 | 5.0000e-01 | 5.0000e-01 | 5.0000e-01"
      = true := by decide +kernel

/-- The hypotheses of `c73_aligned` are met by the row of the first example. -/
example : (12 : Nat) < 10 ^ 7 ∧ (120 : Nat) < 10 ^ 7 ∧
    ∀ x ∈ (some (Bin64.rnd (-1 / 3))).toList ++ [Bin64.rnd 1, Bin64.rnd (1 / 2), .nan, .pinf],
      Short x := by
  decide +kernel

/-- **C73, limit.** A number of more than a hundred digits takes one more column: the separators after
it are no longer below those of the heading. -/
theorem c73_wide : ∃ row, rowText 12 120 (some (Bin64.rnd (10 ^ 150))) (Bin64.rnd 1)
    (Bin64.rnd (1 / 2)) (Bin64.rnd 1) (Bin64.rnd 1) = .ok row ∧ ¬ LinedUp row titleString := by
  obtain ⟨row, h, hr⟩ := Outcome.of_check (p := fun row => decide (row.length = 92))
    (x := rowText 12 120 (some (Bin64.rnd (10 ^ 150))) (Bin64.rnd 1)
    (Bin64.rnd (1 / 2)) (Bin64.rnd 1) (Bin64.rnd 1)) (by decide +kernel)
  refine ⟨row, h, fun hl => ?_⟩
  have := of_decide_eq_true hr
  have := hl.1
  revert this
  rw [of_decide_eq_true hr]
  decide

example : reasonsText [.funTarget, .tolX] = "`FunTarget`, `TolX`".toList := by decide

end Cmaes
