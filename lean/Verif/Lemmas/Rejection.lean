import Mathlib.Probability.ConditionalProbability
import Mathlib.MeasureTheory.Constructions.Pi
import Mathlib.MeasureTheory.Measure.Real
import Mathlib.Topology.Algebra.Order.LiminfLimsup

/-!
# Rejection sampling

Of `K` independent values the first `m` that lie in a set `A`, given that there are that many, are
independent and have the law of a single value given that it lies in `A`.
-/

namespace Cmaes.Rejection
open MeasureTheory ProbabilityTheory Filter
variable {α : Type} [MeasurableSpace α]

open Classical in
/-- The values in `A`, in order. -/
noncomputable def hits (A : Set α) {K : ℕ} (z : Fin K → α) : List α :=
  (List.ofFn z).filter fun x => decide (x ∈ A)

theorem hits_cons_mem {A : Set α} {K : ℕ} {z : Fin (K + 1) → α} (h : z 0 ∈ A) :
    hits A z = z 0 :: hits A (fun i => z i.succ) := by
  unfold hits
  rw [List.ofFn_succ, List.filter_cons_of_pos (by simpa using h)]

theorem hits_cons_not {A : Set α} {K : ℕ} {z : Fin (K + 1) → α} (h : z 0 ∉ A) :
    hits A z = hits A (fun i => z i.succ) := by
  unfold hits
  rw [List.ofFn_succ, List.filter_cons_of_neg (by simpa using h)]

/-- The first elements of `l` lie in the sets `S`. -/
def Starts : List (Set α) → List α → Prop
  | [], _ => True
  | _ :: _, [] => False
  | S :: Ss, x :: l => x ∈ S ∧ Starts Ss l

/-- The event that the first hits lie in the sets `S`. -/
def event (A : Set α) (K : ℕ) (S : List (Set α)) : Set (Fin K → α) := {z | Starts S (hits A z)}

theorem event_nil (A : Set α) (K : ℕ) : event A K [] = Set.univ := by
  ext z
  simp [event, Starts]

theorem event_zero (A S : Set α) (Ss : List (Set α)) : event A 0 (S :: Ss) = ∅ := by
  ext z
  simp [event, Starts, hits]

theorem event_succ (A S : Set α) (Ss : List (Set α)) (K : ℕ) :
    event A (K + 1) (S :: Ss) = (MeasurableEquiv.piFinSuccAbove (fun _ => α) 0) ⁻¹'
      ((A ∩ S) ×ˢ event A K Ss ∪ Aᶜ ×ˢ event A K (S :: Ss)) := by
  ext z
  have e : (MeasurableEquiv.piFinSuccAbove (fun _ => α) 0) z = (z 0, fun i => z i.succ) := rfl
  rw [Set.mem_preimage, e]
  by_cases h : z 0 ∈ A
  · simp [event, hits_cons_mem h, Starts, h]
  · simp [event, hits_cons_not h, h]

theorem measurable_event {A : Set α} (hA : MeasurableSet A) (K : ℕ) :
    ∀ S : List (Set α), (∀ s ∈ S, MeasurableSet s) → MeasurableSet (event A K S) := by
  induction K with
  | zero =>
    intro S _
    cases S with
    | nil => rw [event_nil]; exact .univ
    | cons S Ss => rw [event_zero]; exact .empty
  | succ K ih =>
    intro S hS
    cases S with
    | nil => rw [event_nil]; exact .univ
    | cons S Ss =>
      rw [event_succ]
      refine (MeasurableEquiv.measurable _) (.union (.prod (hA.inter (hS S (by simp))) ?_)
        (.prod hA.compl (ih _ hS)))
      exact ih _ fun s hs => hS s (by simp [hs])

variable (μ : Measure α) [IsProbabilityMeasure μ]

theorem measure_event_succ {A : Set α} (hA : MeasurableSet A) (K : ℕ) (S : Set α)
    (Ss : List (Set α)) (hS : ∀ s ∈ S :: Ss, MeasurableSet s) :
    Measure.pi (fun _ : Fin (K + 1) => μ) (event A (K + 1) (S :: Ss)) =
      μ (A ∩ S) * Measure.pi (fun _ : Fin K => μ) (event A K Ss) +
      μ Aᶜ * Measure.pi (fun _ : Fin K => μ) (event A K (S :: Ss)) := by
  have h1 := measurable_event hA K Ss fun s hs => hS s (by simp [hs])
  have h2 := measurable_event hA K _ hS
  have hm1 : MeasurableSet (A ∩ S) := hA.inter (hS S (by simp))
  rw [event_succ, (measurePreserving_piFinSuccAbove (fun _ => μ) 0).measure_preimage
    ((hm1.prod h1).union (hA.compl.prod h2)).nullMeasurableSet, measure_union _ (hA.compl.prod h2),
    Measure.prod_prod, Measure.prod_prod]
  rw [Set.disjoint_left]
  rintro ⟨a, z⟩ ⟨ha, _⟩ ⟨hb, _⟩
  exact hb ha.1

/-- The event that there are `m` hits. -/
abbrev enough (A : Set α) (K m : ℕ) : Set (Fin K → α) := event A K (List.replicate m Set.univ)

theorem measure_enough_succ {A : Set α} (hA : MeasurableSet A) (K m : ℕ) :
    Measure.pi (fun _ : Fin (K + 1) => μ) (enough A (K + 1) (m + 1)) =
      μ A * Measure.pi (fun _ : Fin K => μ) (enough A K m) +
      μ Aᶜ * Measure.pi (fun _ : Fin K => μ) (enough A K (m + 1)) := by
  rw [enough, List.replicate_succ, measure_event_succ μ hA K Set.univ _ (by simp +contextual),
    Set.inter_univ, ← List.replicate_succ]

theorem measure_event {A : Set α} (hA : MeasurableSet A) (h0 : μ A ≠ 0) (K : ℕ) :
    ∀ S : List (Set α), (∀ s ∈ S, MeasurableSet s) →
    Measure.pi (fun _ : Fin K => μ) (event A K S) =
      Measure.pi (fun _ : Fin K => μ) (enough A K S.length) * (S.map fun s => μ[s | A]).prod := by
  induction K with
  | zero =>
    intro S _
    cases S with
    | nil => simp [enough, event_nil]
    | cons S Ss => simp [enough, event_zero, List.replicate_succ]
  | succ K ih =>
    intro S hS
    cases S with
    | nil => simp [enough, event_nil]
    | cons S Ss =>
      rw [measure_event_succ μ hA K S Ss hS, ih _ hS, ih Ss fun s hs => hS s (by simp [hs])]
      rw [List.length_cons, measure_enough_succ μ hA, List.map_cons, List.prod_cons, cond_apply hA]
      have : μ (A ∩ S) = μ A * ((μ A)⁻¹ * μ (A ∩ S)) := by
        rw [← mul_assoc, ENNReal.mul_inv_cancel h0 (measure_ne_top _ _), one_mul]
      generalize (μ A)⁻¹ * μ (A ∩ S) = q at this ⊢
      rw [this]
      ring

theorem measure_enough_ne_zero {A : Set α} (hA : MeasurableSet A) (h0 : μ A ≠ 0) {K : ℕ} :
    ∀ {m : ℕ}, m ≤ K → Measure.pi (fun _ : Fin K => μ) (enough A K m) ≠ 0 := by
  induction K with
  | zero =>
    intro m hm
    obtain rfl : m = 0 := by omega
    simp [enough, event_nil]
  | succ K ih =>
    intro m hm
    cases m with
    | zero => simp [enough, event_nil]
    | succ m =>
      rw [measure_enough_succ μ hA]
      intro h
      exact mul_ne_zero h0 (ih (m := m) (by omega)) (add_eq_zero.mp h).1

theorem starts_iff (S : List (Set α)) (l : List α) :
    Starts S l ↔ ∀ i : Fin S.length, ∃ x, l[i.val]? = some x ∧ x ∈ S[i.val] := by
  induction S generalizing l with
  | nil => simp [Starts]
  | cons s S ih =>
    cases l with
    | nil =>
      simp only [Starts, List.getElem?_nil, false_iff, not_forall]
      exact ⟨⟨0, by simp⟩, by simp⟩
    | cons x l =>
      simp only [Starts, ih, List.length_cons, Fin.forall_fin_succ, Fin.val_zero, Fin.val_succ,
        List.getElem?_cons_zero, List.getElem_cons_zero, List.getElem?_cons_succ,
        List.getElem_cons_succ, Option.some.injEq, exists_eq_left']

theorem starts_univ (m : ℕ) (l : List α) : Starts (List.replicate m Set.univ) l ↔ m ≤ l.length := by
  induction m generalizing l with
  | zero => simp [Starts]
  | succ m ih =>
    cases l with
    | nil => simp [Starts, List.replicate_succ]
    | cons x l => simp [Starts, List.replicate_succ, ih]

theorem starts_append_single (m : ℕ) (s : Set α) (l : List α) :
    Starts (List.replicate m Set.univ ++ [s]) l ↔ ∃ x, l[m]? = some x ∧ x ∈ s := by
  induction m generalizing l with
  | zero => cases l <;> simp [Starts]
  | succ m ih =>
    cases l with
    | nil => simp [Starts, List.replicate_succ]
    | cons x l => simp [Starts, List.replicate_succ, ih]

/-- There are enough hits if the hits are that many. -/
theorem mem_enough {A : Set α} {K m : ℕ} {z : Fin K → α} :
    z ∈ enough A K m ↔ m ≤ (hits A z).length := starts_univ _ _

/-- The first `m` hits. -/
noncomputable def first [Inhabited α] (A : Set α) {K : ℕ} (m : ℕ) (z : Fin K → α) : Fin m → α :=
  fun i => (hits A z).getD i default

variable [Inhabited α]

theorem measurable_first {A : Set α} (hA : MeasurableSet A) (K m : ℕ) :
    Measurable (first (K := K) A m) := by
  refine measurable_pi_iff.mpr fun i => fun s hs => ?_
  have e : (fun z : Fin K → α => first A m z i) ⁻¹' s =
      event A K (List.replicate i Set.univ ++ [s]) ∪
        ((enough A K (i + 1))ᶜ ∩ {_z | default ∈ s}) := by
    ext z
    have h1 : z ∈ event A K (List.replicate i Set.univ ++ [s]) ↔
        ∃ x, (hits A z)[i.val]? = some x ∧ x ∈ s := starts_append_single _ _ _
    rw [Set.mem_union, h1]
    simp only [Set.mem_preimage, first, List.getD, Set.mem_inter_iff, Set.mem_compl_iff, mem_enough,
      Set.mem_setOf_eq, not_le]
    cases h : (hits A z)[i.val]? with
    | none =>
      rw [List.getElem?_eq_none_iff] at h
      simp only [Option.getD_none, reduceCtorEq, false_and, exists_false, false_or]
      exact ⟨fun h' => ⟨by omega, h'⟩, fun h' => h'.2⟩
    | some x =>
      have := (List.getElem?_eq_some_iff.mp h).1
      simp only [Option.getD_some, Option.some.injEq, exists_eq_left']
      exact ⟨fun h' => .inl h', fun h' => h'.elim id fun h'' => by omega⟩
  rw [e]
  refine (measurable_event hA K _ ?_).union (.inter (measurable_event hA K _ ?_).compl (.const _))
  · intro s' hs'
    rcases List.mem_append.mp hs' with h | h
    · rw [List.eq_of_mem_replicate h]; exact .univ
    · rw [List.mem_singleton.mp h]; exact hs
  · simp +contextual

/-- The law of the first hits. -/
theorem map_first {A : Set α} (hA : MeasurableSet A) (h0 : μ A ≠ 0) {K m : ℕ} (hm : m ≤ K) :
    ((Measure.pi fun _ : Fin K => μ)[|enough A K m]).map (first A m) =
      Measure.pi fun _ => μ[|A] := by
  have : IsProbabilityMeasure μ[|A] := cond_isProbabilityMeasure h0
  have hE := measurable_event hA K (List.replicate m Set.univ) (by simp +contextual)
  refine (Measure.pi_eq fun s hs => ?_).symm
  rw [Measure.map_apply (measurable_first hA K m) (.univ_pi hs), cond_apply hE]
  have e : enough A K m ∩ first A m ⁻¹' (Set.univ.pi s) = event A K (List.ofFn s) := by
    ext z
    have h1 : z ∈ event A K (List.ofFn s) ↔ ∀ i : Fin m, ∃ x, (hits A z)[i.val]? = some x ∧ x ∈ s i := by
      show Starts _ _ ↔ _
      rw [starts_iff]
      constructor
      · intro h i
        simpa using h ⟨i, by simp⟩
      · intro h i
        simpa using h ⟨i, by simpa using i.isLt⟩
    rw [h1, Set.mem_inter_iff, mem_enough]
    simp only [Set.mem_preimage, Set.mem_pi, Set.mem_univ, true_implies, first]
    constructor
    · rintro ⟨h2, h3⟩ i
      have hi : i.val < (hits A z).length := by omega
      refine ⟨(hits A z)[i.val], List.getElem?_eq_getElem hi, ?_⟩
      have := h3 i
      rwa [List.getD, List.getElem?_eq_getElem hi] at this
    · intro h
      refine ⟨?_, fun i => ?_⟩
      · by_contra hlt
        obtain ⟨x, hx, _⟩ := h ⟨(hits A z).length, by omega⟩
        simp at hx
      · obtain ⟨x, hx, hs⟩ := h i
        rw [List.getD, hx]
        exact hs
  rw [e, measure_event μ hA h0 K (List.ofFn s) (by simpa [List.mem_ofFn'] using hs), List.length_ofFn,
    ← mul_assoc, ENNReal.inv_mul_cancel (measure_enough_ne_zero μ hA h0 hm) (measure_ne_top _ _),
    one_mul, List.map_ofFn, List.prod_ofFn]
  rfl

/-- If hits are possible, there will be enough. -/
theorem tendsto_enough {A : Set α} (hA : MeasurableSet A) (h0 : μ A ≠ 0) (m : ℕ) :
    Tendsto (fun K => Measure.pi (fun _ : Fin K => μ) (enough A K m)) atTop (nhds 1) := by
  set e : ℕ → ℕ → ℝ := fun m K => (Measure.pi (fun _ : Fin K => μ)).real (enough A K m) with he
  have hp : 0 < μ.real A := ENNReal.toReal_pos h0 (measure_ne_top _ _)
  have hq : μ.real Aᶜ = 1 - μ.real A := probReal_compl_eq_one_sub hA
  have hrec : ∀ m K, e (m + 1) (K + 1) = μ.real A * e m K + (1 - μ.real A) * e (m + 1) K := by
    intro m K
    rw [← hq]
    simp only [he, Measure.real]
    rw [measure_enough_succ μ hA, ENNReal.toReal_add (by finiteness) (by finiteness),
      ENNReal.toReal_mul, ENNReal.toReal_mul]
  have anti : ∀ m K, e (m + 1) K ≤ e m K := by
    intro m K
    refine measureReal_mono (fun z hz => ?_)
    rw [mem_enough] at hz ⊢
    omega
  have key : ∀ m, Tendsto (e m) atTop (nhds 1) := by
    intro m
    induction m with
    | zero =>
      have : e 0 = fun _ => 1 := by
        funext K
        simp [he, enough, event_nil]
      rw [this]
      exact tendsto_const_nhds
    | succ m ih =>
      have mono : Monotone (e (m + 1)) := monotone_nat_of_le_succ fun K => by
        rw [hrec]
        nlinarith [anti m K]
      have bdd : BddAbove (Set.range (e (m + 1))) := ⟨1, by
        rintro _ ⟨K, rfl⟩
        exact measureReal_le_one⟩
      have hL := tendsto_atTop_ciSup mono bdd
      generalize (⨆ K, e (m + 1) K) = L at hL
      have h1 := hL.comp (tendsto_add_atTop_nat 1)
      have h2 : Tendsto (e (m + 1) ∘ fun K => K + 1) atTop
          (nhds (μ.real A * 1 + (1 - μ.real A) * L)) := by
        have : (e (m + 1) ∘ fun K => K + 1) =
            fun K => μ.real A * e m K + (1 - μ.real A) * e (m + 1) K := by
          funext K
          exact hrec m K
        rw [this]
        exact (ih.const_mul _).add (hL.const_mul _)
      have h3 := tendsto_nhds_unique h1 h2
      have : L = 1 := by nlinarith
      rwa [this] at hL
  have := (ENNReal.tendsto_toReal_iff (f := fun K => Measure.pi (fun _ : Fin K => μ) (enough A K m))
    (fun _ => measure_ne_top _ _) ENNReal.one_ne_top).mp (by rw [ENNReal.toReal_one]; exact key m)
  exact this

end Cmaes.Rejection
