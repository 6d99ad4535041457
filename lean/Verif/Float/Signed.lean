import Verif.Float.ExtLaws
import Verif.Float.Bin64

/-!
# IEEE-754 binary64 with both zeros

`F64` identifies the two zeros. `S64` distinguishes them; it is proved lawful, so the theorems about
every `F` with `FltLaws F` hold for IEEE-754 binary64 with signed zeros.
-/

namespace Cmaes

/-- Binary64 with `-0` as a value of its own; `num 0` is `+0`. One NaN. -/
inductive S64 where
  | num (x : F64)
  | negZero
deriving DecidableEq, Repr

namespace S64

/-- The zero of `F64`. -/
def zero : F64 := Fmt.rnd (0 : ℚ)

/-- The value with the sign of zero forgotten. -/
def erase : S64 → F64
  | num x => x
  | negZero => zero

/-- The sign bit (of NaN: clear). -/
def sign : S64 → Bool
  | num x => Ext.lt x zero
  | negZero => true

/-- A result with the given sign: matters for zero only. -/
def withSign (s : Bool) (x : F64) : S64 := if s = true ∧ x = zero then negZero else num x

/-- IEEE negation. -/
def neg (a : S64) : S64 := withSign (!a.sign) (Ext.neg a.erase)

/-- IEEE addition: an exact zero is `+0`, unless both summands are `-0` (rounding to nearest). -/
def add : S64 → S64 → S64
  | negZero, negZero => negZero
  | a, b => num (Ext.add a.erase b.erase)

/-- IEEE multiplication: the sign of a zero is that of the exact product. -/
def mul (a b : S64) : S64 := withSign (a.sign != b.sign) (Ext.mul a.erase b.erase)

/-- IEEE division: the sign of a zero or infinity is that of the exact quotient. -/
def div (a : S64) : S64 → S64
  | negZero => num (Ext.neg (Ext.div a.erase zero))
  | b => withSign (a.sign != b.sign) (Ext.div a.erase b.erase)

instance instFlt [Libm S64] : Flt S64 where
  add := add
  sub a b := add a (neg b)
  mul := mul
  div := div
  neg := neg
  nan := num .nan
  inf := num .pinf
  ofRat q := withSign (decide (q < 0)) (Fmt.rnd q)
  isNaN a := Ext.isNaN a.erase
  isInf a := Ext.isInf a.erase
  isNormal a := Ext.isNormal a.erase
  lt a b := Ext.lt a.erase b.erase
  le a b := Ext.le a.erase b.erase
  feq a b := Ext.feq a.erase b.erase
  abs a := num (Ext.abs a.erase)
  floor a := withSign a.sign (Ext.floor a.erase)
  ceil a := withSign a.sign (Ext.ceil a.erase)
  toUsize a := Ext.toUsize a.erase
  sqrt := Libm.sqrt
  exp := Libm.exp
  ln := Libm.ln
  powf := Libm.powf

/-! ### The laws -/

section
variable {a b : S64} {x y : F64} {s s' : Bool}

/-- The laws of `F64` do not mention the mathematical library, so any will do. -/
local instance someLibm : Libm F64 := ⟨id, id, id, fun x _ => x⟩

theorem zero_eq : zero = (0 : F64) := by
  show Fmt.rnd (0 : ℚ) = Fmt.rnd ((((0 : ℕ) : ℚ)) : ℚ)
  simp

theorem val_zero : Ext.val zero = 0 := by
  have := FltLaws.val_ofNat (F := F64) 0 (by norm_num)
  rw [zero_eq]
  refine this.trans ?_
  simp

theorem isNaN_zero : Ext.isNaN zero = false := by
  rw [zero_eq]; exact FltLaws.isNaN_ofRat (F := F64) _

theorem eq_zero (hn : Ext.isNaN x = false) (hv : Ext.val x = 0) : x = zero :=
  OneZero.val_inj (F := F64) hn isNaN_zero (hv.trans val_zero.symm)

theorem lt_zero_zero : Ext.lt zero zero = false := by
  rw [← Bool.not_eq_true]
  exact fun h => lt_irrefl _ (FltLaws.lt_iff (F := F64).mp h).2.2

theorem neg_zero' : Ext.neg zero = zero := by
  refine eq_zero ?_ ?_
  · exact (FltLaws.isNaN_neg (F := F64) zero).trans isNaN_zero
  · have := FltLaws.val_neg (F := F64) zero
    have h : Ext.val (Ext.neg zero) = -Ext.val zero := this
    rw [h, val_zero, neg_zero]

theorem neg_ne_zero (h : x ≠ zero) : Ext.neg x ≠ zero := by
  intro e
  apply h
  have := FltLaws.neg_neg (F := F64) x
  have h2 : Ext.neg (Ext.neg x) = x := this
  rw [← h2, e, neg_zero']

theorem add_zero_zero : Ext.add zero zero = zero := by
  have h1 : Ext.isNaN (Ext.add zero zero) = false := by
    rw [← Bool.not_eq_true]
    intro h
    have h : Flt.isNaN (zero + zero : F64) = true := h
    rcases FltLaws.isNaN_add.mp h with h | h | h | h
    · exact Bool.noConfusion (isNaN_zero.symm.trans h)
    · exact Bool.noConfusion (isNaN_zero.symm.trans h)
    · exact EReal.zero_ne_top (val_zero.symm.trans h.1)
    · exact EReal.zero_ne_bot (val_zero.symm.trans h.1)
  refine eq_zero h1 ?_
  have := FltLaws.zero_add (F := F64) (a := zero) isNaN_zero
  rw [← zero_eq] at this
  exact this.trans val_zero

@[simp] theorem erase_num : (num x).erase = x := rfl
@[simp] theorem erase_negZero : negZero.erase = zero := rfl

@[simp] theorem erase_withSign : (withSign s x).erase = x := by
  unfold withSign
  split
  · rename_i h; rw [h.2]; rfl
  · rfl

theorem withSign_false : withSign false x = num x := by simp [withSign]

theorem withSign_ne (h : x ≠ zero) : withSign s x = num x := by simp [withSign, h]

theorem withSign_congr (h : x = zero → s = s') : withSign s x = withSign s' x := by
  by_cases hx : x = zero
  · rw [h hx]
  · rw [withSign_ne hx, withSign_ne hx]

theorem withSign_self (a : S64) : withSign a.sign a.erase = a := by
  cases a with
  | negZero => simp [withSign, sign]
  | num x =>
    show withSign (Ext.lt x zero) x = num x
    by_cases hx : x = zero
    · rw [hx, lt_zero_zero, withSign_false]
    · exact withSign_ne hx

theorem erase_neg (a : S64) : (neg a).erase = Ext.neg a.erase := erase_withSign
theorem erase_add (a b : S64) : (add a b).erase = Ext.add a.erase b.erase := by
  cases a <;> cases b <;> try rfl
  exact add_zero_zero.symm
theorem erase_mul (a b : S64) : (mul a b).erase = Ext.mul a.erase b.erase := erase_withSign
theorem erase_div (a : S64) (x : F64) : (div a (num x)).erase = Ext.div a.erase x := erase_withSign

theorem neg_withSign : neg (withSign s x) = withSign (!s) (Ext.neg x) := by
  by_cases hx : x = zero
  · subst hx
    rw [neg_zero']
    cases s
    · show withSign (!(withSign false zero).sign) (Ext.neg (withSign false zero).erase) = _
      rw [erase_withSign, neg_zero', withSign_false]
      show withSign (!(Ext.lt zero zero)) zero = _
      rw [lt_zero_zero]
    · show withSign (!(withSign true zero).sign) (Ext.neg (withSign true zero).erase) = _
      rw [erase_withSign, neg_zero']
      have : withSign true zero = negZero := by simp [withSign]
      rw [this]
      rfl
  · unfold neg
    rw [erase_withSign, withSign_ne (neg_ne_zero hx), withSign_ne (neg_ne_zero hx)]

theorem neg_sign (h : Ext.isNaN a.erase = false) : (neg a).sign = !a.sign := by
  cases a with
  | negZero =>
    show (withSign false (Ext.neg zero)).sign = false
    rw [neg_zero', withSign_false]
    exact lt_zero_zero
  | num x =>
    by_cases hx : x = zero
    · subst hx
      show (withSign (!(Ext.lt zero zero)) (Ext.neg zero)).sign = !(Ext.lt zero zero)
      rw [lt_zero_zero, neg_zero']
      simp [withSign, sign]
    · show (withSign (!(Ext.lt x zero)) (Ext.neg x)).sign = !(Ext.lt x zero)
      rw [withSign_ne (neg_ne_zero hx)]
      show Ext.lt (Ext.neg x) zero = _
      have h : Ext.isNaN x = false := h
      have hn : Ext.isNaN (Ext.neg x) = false := (FltLaws.isNaN_neg (F := F64) x).trans h
      have hv : Ext.val (Ext.neg x) = -Ext.val x := FltLaws.val_neg (F := F64) x
      have hne : Ext.val x ≠ 0 := fun h0 => hx (eq_zero h h0)
      have e1 : Ext.lt (Ext.neg x) zero = true ↔ 0 < Ext.val x := by
        have := FltLaws.lt_iff (F := F64) (a := Ext.neg x) (b := zero)
        refine this.trans ⟨fun ⟨_, _, h⟩ => ?_, fun h' => ⟨hn, isNaN_zero, ?_⟩⟩
        · have h : Ext.val (Ext.neg x) < Ext.val zero := h
          rw [hv, val_zero] at h
          exact EReal.neg_lt_zero.mp h
        · show Ext.val (Ext.neg x) < Ext.val zero
          rw [hv, val_zero]
          exact EReal.neg_lt_zero.mpr h'
      have e2 : Ext.lt x zero = true ↔ Ext.val x < 0 := by
        have := FltLaws.lt_iff (F := F64) (a := x) (b := zero)
        refine this.trans ⟨fun ⟨_, _, h⟩ => ?_, fun h' => ⟨h, isNaN_zero, ?_⟩⟩
        · exact val_zero ▸ h
        · show Ext.val x < Ext.val zero
          rw [val_zero]; exact h'
      rw [Bool.eq_iff_iff, e1, Bool.not_eq_true', ← Bool.not_eq_true, e2, not_lt]
      exact ⟨le_of_lt, fun h' => lt_of_le_of_ne h' hne.symm⟩

theorem div_zero_ne (x : F64) : Ext.div x zero ≠ zero := by
  obtain ⟨t, ht⟩ := LawfulFmt.exact_nat (α := Bin64) (K := ℚ) 0 (by norm_num)
  have hz : zero = .fin t := by
    show Fmt.rnd (0 : ℚ) = _
    rw [← LawfulFmt.rnd_toK t, ht]; simp
  have ht' : (Fmt.toK t : ℚ) = 0 := by rw [ht]; simp
  rw [hz]
  cases x with
  | nan => simp [Ext.div]
  | pinf => simp [Ext.div, ht', Ext.sinf]
  | ninf => simp [Ext.div, ht', Ext.sinf]
  | fin u =>
    simp only [Ext.div, ht', if_true]
    split
    · simp
    · unfold Ext.sinf; split <;> simp

theorem erase_ofRat [Libm S64] (q : ℚ) : (Flt.ofRat q : S64).erase = Fmt.rnd q := erase_withSign

theorem ofNat_eq [Libm S64] (k : ℕ) : (Flt.ofRat (k : ℚ) : S64) = num (Fmt.rnd (k : ℚ)) := by
  show withSign (decide ((k : ℚ) < 0)) _ = _
  rw [decide_eq_false (not_lt.mpr (Nat.cast_nonneg k)), withSign_false]

theorem nonneg_nat (k : ℕ) : Ext.lt (Fmt.rnd (k : ℚ)) zero = false := by
  rw [← Bool.not_eq_true]
  intro h
  have h1 := (FltLaws.lt_iff (F := F64).mp h).2.2
  have h2 : Ext.val zero ≤ Ext.val (Fmt.rnd (k : ℚ) : F64) := by
    have := FltLaws.val_ofRat_mono (F := F64) (p := ((0 : ℕ) : ℚ)) (q := (k : ℚ)) (by simp)
    rw [zero_eq]
    exact this
  exact absurd h1 (not_lt.mpr h2)

end

noncomputable instance instLaws [Libm S64] : FltLaws S64 :=
  letI : Libm F64 := someLibm
  { val := fun a => Ext.val a.erase
    val_inj_ne := fun {a b} ha hb h h0 => by
      have e := OneZero.val_inj (F := F64) ha hb h
      cases a with
      | negZero => exact absurd val_zero h0
      | num x =>
        cases b with
        | negZero => exact absurd (h.trans val_zero) h0
        | num y => exact congrArg num e
    isNaN_eq := fun {a} h => by
      have e := FltLaws.isNaN_eq (F := F64) h
      cases a with
      | negZero => exact Bool.noConfusion (isNaN_zero.symm.trans h)
      | num x => exact congrArg num e
    isNaN_nan := rfl
    isNaN_inf := rfl
    val_inf := rfl
    lt_iff := fun {a b} => FltLaws.lt_iff (F := F64) (a := a.erase) (b := b.erase)
    le_iff := fun {a b} => FltLaws.le_iff (F := F64) (a := a.erase) (b := b.erase)
    feq_iff := fun {a b} => FltLaws.feq_iff (F := F64) (a := a.erase) (b := b.erase)
    isNaN_ofRat := fun q => by
      show Ext.isNaN (withSign _ _).erase = false
      rw [erase_withSign]; exact FltLaws.isNaN_ofRat (F := F64) q
    val_ofRat_mono := fun {p q} h => by
      show Ext.val (withSign _ _).erase ≤ Ext.val (withSign _ _).erase
      rw [erase_withSign, erase_withSign]; exact FltLaws.val_ofRat_mono (F := F64) h
    val_ofNat := fun n hn => by
      show Ext.val (withSign _ _).erase = _
      rw [erase_withSign]; exact FltLaws.val_ofNat (F := F64) n hn
    isNaN_neg := fun a => by
      show Ext.isNaN (neg a).erase = _
      rw [erase_neg]; exact FltLaws.isNaN_neg (F := F64) _
    val_neg := fun a => by
      show Ext.val (neg a).erase = _
      rw [erase_neg]; exact FltLaws.val_neg (F := F64) _
    sub_def := fun _ _ => rfl
    val_neg_add := fun a b => by
      show Ext.val (add (neg a) (neg b)).erase = -Ext.val (add a b).erase
      rw [erase_add, erase_add, erase_neg, erase_neg]
      exact FltLaws.val_neg_add (F := F64) _ _
    neg_neg := fun a => by
      show neg (withSign (!a.sign) (Ext.neg a.erase)) = a
      have e : Ext.neg (Ext.neg a.erase) = a.erase := FltLaws.neg_neg (F := F64) a.erase
      rw [neg_withSign, Bool.not_not, e, withSign_self]
    abs_neg := fun a => by
      show num (Ext.abs (neg a).erase) = num (Ext.abs a.erase)
      rw [erase_neg]; exact congrArg num (FltLaws.abs_neg (F := F64) a.erase)
    abs_zero := fun {a} h1 h2 => by
      show num (Ext.abs a.erase) = Flt.ofRat ((0 : ℕ) : ℚ)
      rw [ofNat_eq]
      exact congrArg num (FltLaws.abs_zero (F := F64) h1 h2)
    half_zero := fun {a} h1 h2 => by
      show Ext.val (div a (Flt.ofRat ((2 : ℕ) : ℚ))).erase = 0
      rw [ofNat_eq, erase_div]
      exact FltLaws.half_zero (F := F64) h1 h2
    mul_zeros := fun {a b b'} hb hb' h h' => by
      show Ext.isNaN (mul a b).erase = Ext.isNaN (mul a b').erase ∧
        Ext.val (mul a b).erase = Ext.val (mul a b').erase
      rw [erase_mul, erase_mul, eq_zero hb h, eq_zero hb' h']
      exact ⟨rfl, rfl⟩
    div_zeros := fun {a b b'} hb hb' h h' => by
      have e : (div b a).erase = (div b' a).erase := by
        cases a with
        | negZero =>
          show Ext.neg (Ext.div b.erase zero) = Ext.neg (Ext.div b'.erase zero)
          rw [eq_zero hb h, eq_zero hb' h']
        | num x => rw [erase_div, erase_div, eq_zero hb h, eq_zero hb' h']
      exact ⟨congrArg Ext.isNaN e, congrArg Ext.val e⟩
    neg_div := fun a b => by
      show div (neg a) b = neg (div a b)
      have e : ∀ y, Ext.div (Ext.neg a.erase) y = Ext.neg (Ext.div a.erase y) := fun y =>
        FltLaws.neg_div (F := F64) a.erase y
      cases b with
      | negZero =>
        show num (Ext.neg (Ext.div (neg a).erase zero)) = neg (num (Ext.neg (Ext.div a.erase zero)))
        rw [← withSign_ne (s := true) (neg_ne_zero (div_zero_ne _)), ← withSign_ne (s := false)
          (neg_ne_zero (div_zero_ne _)), neg_withSign, erase_neg, e]
        rfl
      | num y =>
        show withSign ((neg a).sign != (num y).sign) (Ext.div (neg a).erase y) =
          neg (withSign (a.sign != (num y).sign) (Ext.div a.erase y))
        rw [neg_withSign, erase_neg, e]
        refine withSign_congr fun h0 => ?_
        cases hn : Ext.isNaN a.erase with
        | false => rw [neg_sign hn]; cases a.sign <;> cases (num y).sign <;> rfl
        | true =>
          have ha : a.erase = .nan := FltLaws.isNaN_eq (F := F64) hn
          rw [ha] at h0
          exact absurd h0 (by
            show Ext.neg (Ext.div .nan y) ≠ zero
            intro h
            have := congrArg Ext.isNaN h
            rw [isNaN_zero] at this
            cases y <;> exact Bool.noConfusion this)
    add_comm := fun a b => by
      show add a b = add b a
      cases a <;> cases b <;> first | rfl | exact congrArg num (FltLaws.add_comm (F := F64) _ _)
    isNaN_abs := fun a => FltLaws.isNaN_abs (F := F64) a.erase
    val_abs := fun {a} h => FltLaws.val_abs (F := F64) h
    isNaN_add_left := fun {a b} h => by
      show Ext.isNaN (add a b).erase = true
      rw [erase_add]; exact FltLaws.isNaN_add_left (F := F64) h
    isNaN_add := fun {a b} => by
      show Ext.isNaN (add a b).erase = true ↔ _
      rw [erase_add]; exact FltLaws.isNaN_add (F := F64)
    div_one := fun a => by
      show div a (Flt.ofRat ((1 : ℕ) : ℚ)) = a
      rw [ofNat_eq]
      show withSign (a.sign != Ext.lt _ zero) (Ext.div a.erase _) = a
      have e : Ext.div a.erase (Fmt.rnd ((1 : ℕ) : ℚ)) = a.erase := FltLaws.div_one (F := F64) a.erase
      rw [erase_num, e, nonneg_nat, Bool.bne_false, withSign_self]
    isNaN_half := fun a => by
      show Ext.isNaN (div a (Flt.ofRat ((2 : ℕ) : ℚ))).erase = _
      rw [ofNat_eq, erase_div]
      exact FltLaws.isNaN_half (F := F64) a.erase
    add_top := fun {a b} h1 h2 h3 => by
      have h3 : Ext.isNaN (add a b).erase = false := h3
      show Ext.val (add a b).erase = ⊤
      rw [erase_add] at h3 ⊢; exact FltLaws.add_top (F := F64) h1 h2 h3
    add_le_add_right := fun {a b c} h1 h2 h3 => by
      have h1 : Ext.isNaN (add a c).erase = false := h1
      have h2 : Ext.isNaN (add b c).erase = false := h2
      show Ext.val (add a c).erase ≤ Ext.val (add b c).erase
      rw [erase_add] at h1 h2 ⊢
      rw [erase_add]; exact FltLaws.add_le_add_right (F := F64) h1 h2 h3
    add_neg_self := fun {a} h => by
      have h : Ext.isNaN (add a (neg a)).erase = false := h
      show Ext.val (add a (neg a)).erase = 0
      rw [erase_add, erase_neg] at h ⊢; exact FltLaws.add_neg_self (F := F64) h
    mul_ofNat := fun a b ha hb hab => by
      show mul (Flt.ofRat (a : ℚ)) (Flt.ofRat (b : ℚ)) = _
      rw [ofNat_eq, ofNat_eq, ofNat_eq]
      show withSign (Ext.lt _ zero != Ext.lt _ zero) _ = _
      rw [nonneg_nat, nonneg_nat]
      show withSign false _ = _
      rw [withSign_false]
      exact congrArg num (FltLaws.mul_ofNat (F := F64) a b ha hb hab)
    toUsize_ceil_div := fun a b ha hb hb' => by
      show Ext.toUsize (withSign _ (Ext.ceil (div (Flt.ofRat (a : ℚ)) (Flt.ofRat (b : ℚ))).erase)).erase = _
      rw [ofNat_eq, ofNat_eq, erase_withSign, erase_div]
      exact FltLaws.toUsize_ceil_div (F := F64) a b ha hb hb'
    three_tenths := fun g hg => by
      show Ext.toUsize (mul (Flt.ofRat (g : ℚ)) (Flt.ofRat (3 / 10 : ℚ))).erase = _
      rw [erase_mul, erase_ofRat, erase_ofRat]
      exact FltLaws.three_tenths (F := F64) g hg
    five_percent := fun e he => by
      show e ≤ Ext.toUsize (mul (Flt.ofRat (e : ℚ)) (Flt.ofRat (105 / 100 : ℚ))).erase
      rw [erase_mul, erase_ofRat, erase_ofRat]
      exact FltLaws.five_percent (F := F64) e he
    zero_add := fun {a} h => by
      show Ext.val (add (Flt.ofRat ((0 : ℕ) : ℚ)) a).erase = _
      rw [erase_add, erase_ofRat]
      exact FltLaws.zero_add (F := F64) h
    zero_mul := fun {a} h => by
      have h : Ext.isNaN (mul (Flt.ofRat ((0 : ℕ) : ℚ)) a).erase = false := h
      show Ext.val (mul (Flt.ofRat ((0 : ℕ) : ℚ)) a).erase = _
      rw [erase_mul, erase_ofRat] at h ⊢
      exact FltLaws.zero_mul (F := F64) h
    mean_between := fun {a b} h1 h2 h3 h4 h5 => by
      have h4 : Ext.isNaN (add a b).erase = false := h4
      have h5 : Ext.isInf (add a b).erase = false := h5
      show Ext.val a.erase ≤ Ext.val (div (add a b) (Flt.ofRat ((2 : ℕ) : ℚ))).erase ∧
        Ext.val (div (add a b) (Flt.ofRat ((2 : ℕ) : ℚ))).erase ≤ Ext.val b.erase
      rw [ofNat_eq, erase_div]
      rw [erase_add] at h4 h5 ⊢
      exact FltLaws.mean_between (F := F64) h1 h2 h3 h4 h5
    isInf_iff := fun {a} => FltLaws.isInf_iff (F := F64) (a := a.erase)
    isNormal_imp := fun {a} h => FltLaws.isNormal_imp (F := F64) h }

/-- `-0 == 0`, but `1 / -0` is minus infinity and `1 / 0` plus infinity; `-0 + 0` is `+0`, `-0 + -0`
is `-0`, `0 * -1` is `-0`. -/
example : letI : Libm S64 := ⟨id, id, id, fun x _ => x⟩
    Flt.feq (-(0 : S64)) 0 = true ∧ (-(0 : S64)) ≠ 0 ∧
    (1 : S64) / -0 = num .ninf ∧ (1 : S64) / 0 = num .pinf ∧ (-0 : S64) + 0 = 0 ∧
    (-0 : S64) + -0 = -0 ∧ (0 : S64) * -1 = -0 := by
  decide +kernel

end S64
end Cmaes
