import Verif.Lemmas.AccuracyDamp

/-!
# Rounding errors of the positive weights
-/

namespace Cmaes
variable [Libm F64]

/-- A positive number is positive. -/
theorem Near.lt_zero {k B : ℕ} {x : F64} {r : ℝ} (h : Near k B x r) :
    Flt.lt 0 x = true ∧ Flt.lt x 0 = false := by
  have h' := h
  obtain ⟨a, ha, _⟩ := h
  have h0 := Near.real_pos ha h'
  refine ⟨(isReal_zero.lt_iff ha).mpr h0, ?_⟩
  rw [Bool.eq_false_iff]
  intro hlt
  have := (ha.lt_iff isReal_zero).mp hlt
  linarith

/-- The other weights are not positive. -/
theorem drop_nonpos (hl : AccurateLibm) {lambda : ℕ} (h2 : 2 ≤ lambda) (h : lambda ≤ 2 ^ 20)
    (s : Weights) (x : F64)
    (hx : x ∈ (InitialWeights.new lambda s : InitialWeights F64).weights.drop (lambda / 2)) :
    ∃ a : ℝ, IsReal x a ∧ a ≤ 0 := by
  cases s with
  | uniform =>
    have e : (InitialWeights.new lambda .uniform : InitialWeights F64).weights.drop (lambda / 2) = [] := by
      show (List.replicate (lambda / 2) _).drop _ = []
      simp
    rw [e] at hx
    exact absurd hx List.not_mem_nil
  | positive =>
    have e : (InitialWeights.new lambda .positive : InitialWeights F64).weights.drop (lambda / 2) = [] := by
      show ((List.range (lambda / 2)).map _).drop _ = []
      simp
    rw [e] at hx
    exact absurd hx List.not_mem_nil
  | negative =>
    have hx' : x ∈ ((List.range lambda).map fun i => (rawWeight lambda (i + 1) : F64)).drop
        (lambda / 2) := hx
    rw [← List.map_drop, List.mem_map] at hx'
    obtain ⟨i, hi, rfl⟩ := hx'
    rw [List.range_eq_range', List.drop_range', List.mem_range'_1] at hi
    rcases raw_near_neg hl h2 h (i := i + 1) (by omega) (by omega) with ⟨h1, _⟩ | h1
    · exact ⟨0, h1, le_rfl⟩
    · have h1' := h1
      obtain ⟨a, ha, _⟩ := h1
      have h0 := Near.real_pos ha h1'
      refine ⟨-a, ?_, by linarith⟩
      have := ha.neg'
      have e2 : Ext.neg (Ext.neg (rawWeight lambda (i + 1) : F64)) =
          rawWeight lambda (i + 1) := by
        obtain ⟨c, hc, _⟩ := raw_real hl h2 h (i := i + 1) (by omega) (by omega)
        obtain ⟨u, hu, _⟩ := hc
        rw [hu]
        show Ext.fin (Fmt.neg (Fmt.neg u)) = Ext.fin u
        congr 1
        apply Subtype.ext
        exact neg_neg u.1
      rwa [e2] at this

/-- The positive weights after both normalisations. -/
theorem finalize_take (hl : AccurateLibm) {lambda : ℕ} (h2 : 2 ≤ lambda) (h : lambda ≤ 2 ^ 20)
    (s : Weights) (n : ℕ) (c1 cmu : F64) :
    List.Forall₂ (Near (265 * lambda + 1) 62)
      (((InitialWeights.new lambda s : InitialWeights F64).finalize n c1 cmu).take (lambda / 2))
      (realPos lambda s) := by
  have hn := take_near hl h2 h s
  have hlen := length_take lambda s
  have hd := drop_nonpos hl h2 h s
  set W : List F64 := (InitialWeights.new lambda s : InitialWeights F64).weights with hW
  have hsplit : W = W.take (lambda / 2) ++ W.drop (lambda / 2) := (List.take_append_drop _ _).symm
  set P := W.take (lambda / 2)
  set D := W.drop (lambda / 2)
  have hPpos : ∀ x ∈ P, Flt.lt 0 x = true ∧ Flt.lt x 0 = false := by
    intro x hx
    obtain ⟨i, hi, rfl⟩ := List.mem_iff_getElem.mp hx
    exact (List.Forall₂.get hn hi (hn.length_eq ▸ hi)).lt_zero
  have hDneg : ∀ x ∈ D, Flt.lt 0 x = false := by
    intro x hx
    obtain ⟨a, ha, h0⟩ := hd x hx
    rw [Bool.eq_false_iff]
    intro hlt
    have := (isReal_zero.lt_iff ha).mp hlt
    linarith
  have hf : W.filter (fun w => Flt.lt 0 w) = P := by
    rw [hsplit, List.filter_append, List.filter_eq_self.mpr fun x hx => (hPpos x hx).1,
      List.filter_eq_nil_iff.mpr fun x hx => by rw [hDneg x hx]; simp, List.append_nil]
  have hne : P ≠ [] := by
    intro e
    rw [e] at hlen
    simp only [List.length_nil] at hlen
    omega
  have hsum := fsum_near hn hne (by rw [hlen]; omega) (by omega) (by omega)
  rw [hlen] at hsum
  have hpos1 : (normalizePos W).take (lambda / 2) = P.map fun w => w / fsum P := by
    unfold normalizePos
    simp only [hf]
    rw [← List.map_take]
    refine List.map_congr_left fun x hx => ?_
    rw [if_pos (hPpos x hx).1]
  have hq : List.Forall₂ (Near (265 * lambda + 1) 62) (P.map fun w => w / fsum P) (realPos lambda s) := by
    unfold realPos
    rw [List.forall₂_map_left_iff, List.forall₂_map_right_iff]
    refine hn.imp fun x r hx => ?_
    exact (hx.div hsum (by omega) (by omega)).mono (by omega) (by omega)
  have hneg : ∀ a : F64, (normalizeNeg a (normalizePos W)).take (lambda / 2) =
      (normalizePos W).take (lambda / 2) := by
    intro a
    unfold normalizeNeg
    simp only
    rw [← List.map_take, hpos1]
    conv_rhs => rw [← List.map_id' (P.map fun w => w / fsum P)]
    refine List.map_congr_left fun x hx => ?_
    obtain ⟨i, hi, rfl⟩ := List.mem_iff_getElem.mp hx
    have h3 := (List.Forall₂.get hq hi (hq.length_eq ▸ hi)).lt_zero.2
    rw [List.get_eq_getElem] at h3
    rw [if_neg (by rw [h3]; simp)]
  unfold InitialWeights.finalize
  simp only
  split
  · rw [← hW, hneg, hpos1]
    exact hq
  · rw [← hW, hpos1]
    exact hq

/-- Sums of weights near real numbers, whatever the order of the additions of the exact values. -/
theorem sum_near {k B : ℕ} {xs : List F64} {rs : List ℝ} (h : List.Forall₂ (Near k B) xs rs) :
    ∃ as : List ℝ, List.Forall₂ IsReal xs as ∧ as.sum ≤ rho ^ k * rs.sum ∧ rs.sum ≤ rho ^ k * as.sum := by
  induction h with
  | nil => exact ⟨[], .nil, by simp, by simp⟩
  | cons hx _ ih =>
    obtain ⟨as, h1, h2, h3⟩ := ih
    obtain ⟨a, ha, _, _, h4, h5⟩ := hx
    refine ⟨a :: as, .cons ha h1, ?_, ?_⟩ <;> rw [List.sum_cons, List.sum_cons, mul_add] <;> linarith

end Cmaes
