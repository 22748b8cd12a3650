import Mathlib.Data.Real.Basic
import Mathlib.Analysis.SpecialFunctions.Pow.Real
import Mathlib.Algebra.BigOperators.Group.Finset.Basic

/-!
# `F`: the numbers of the model

Models a numpy / JAX floating point scalar: an exact real number, or one of the special values
`+inf`, `-inf`, `nan`.  Arithmetic follows IEEE-754 / numpy rules for the special values.

Simplifications (stated in DESIGN.md): no rounding, no overflow or underflow of finite results, one zero
(no signed zero, so `x / 0 = +inf` for `x > 0` and `-inf` for `x < 0`).
-/

/-- A model float. -/
inductive F where
  | fin (x : ℝ)
  | pinf
  | ninf
  | nan

namespace F

noncomputable section
open Classical

instance : Coe ℝ F := ⟨fin⟩
instance : Inhabited F := ⟨fin 0⟩
instance : Zero F := ⟨fin 0⟩
instance : One F := ⟨fin 1⟩
instance {n : ℕ} [n.AtLeastTwo] : OfNat F n := ⟨fin (OfNat.ofNat n)⟩

@[simp] theorem zero_def : (0 : F) = fin 0 := rfl
@[simp] theorem one_def : (1 : F) = fin 1 := rfl
@[simp] theorem ofNat_def (n : ℕ) [n.AtLeastTwo] : (OfNat.ofNat n : F) = fin (OfNat.ofNat n) := rfl

/-- IEEE negation. -/
def neg : F → F
  | fin x => fin (-x)
  | pinf => ninf
  | ninf => pinf
  | nan => nan

/-- IEEE addition: `inf + (-inf) = nan`, nan absorbs. -/
def add : F → F → F
  | nan, _ => nan
  | _, nan => nan
  | fin x, fin y => fin (x + y)
  | pinf, ninf => nan
  | ninf, pinf => nan
  | pinf, _ => pinf
  | ninf, _ => ninf
  | fin _, pinf => pinf
  | fin _, ninf => ninf

/-- the infinity with the sign of `x`, nan at zero: `x * (+inf)`. -/
def infOfSign (x : ℝ) : F := if 0 < x then pinf else if x < 0 then ninf else nan

/-- IEEE multiplication: `0 * inf = nan`, nan absorbs. -/
def mul : F → F → F
  | nan, _ => nan
  | _, nan => nan
  | fin x, fin y => fin (x * y)
  | fin x, pinf => infOfSign x
  | pinf, fin x => infOfSign x
  | fin x, ninf => infOfSign (-x)
  | ninf, fin x => infOfSign (-x)
  | pinf, pinf => pinf
  | ninf, ninf => pinf
  | pinf, ninf => ninf
  | ninf, pinf => ninf

/-- IEEE division: `x/0 = ±inf`, `0/0 = nan`, `x/inf = 0`, `inf/inf = nan`. -/
def div : F → F → F
  | nan, _ => nan
  | _, nan => nan
  | fin x, fin y => if y = 0 then infOfSign x else fin (x / y)
  | fin _, pinf => fin 0
  | fin _, ninf => fin 0
  | pinf, fin y => if y < 0 then ninf else pinf
  | ninf, fin y => if y < 0 then pinf else ninf
  | pinf, pinf => nan
  | pinf, ninf => nan
  | ninf, pinf => nan
  | ninf, ninf => nan

instance : Neg F := ⟨neg⟩
instance : Add F := ⟨add⟩
instance : Mul F := ⟨mul⟩
instance : Div F := ⟨div⟩
instance : Sub F := ⟨fun a b => add a (neg b)⟩

/-- `jnp.less`: false if either side is nan. -/
def lt : F → F → Prop
  | nan, _ => False
  | _, nan => False
  | fin x, fin y => x < y
  | ninf, fin _ => True
  | ninf, pinf => True
  | fin _, pinf => True
  | _, _ => False

/-- `jnp.less_equal`: false if either side is nan. -/
def le : F → F → Prop
  | nan, _ => False
  | _, nan => False
  | fin x, fin y => x ≤ y
  | ninf, _ => True
  | _, pinf => True
  | _, _ => False

/-- `jnp.greater` -/
def gt (a b : F) : Prop := lt b a
/-- `jnp.greater_equal` -/
def ge (a b : F) : Prop := le b a
/-- `==` on floats: false on nan. -/
def feq (a b : F) : Prop := a = b ∧ a ≠ nan

/-- `jnp.isnan` -/
def isnan (a : F) : Prop := a = nan
/-- `jnp.isinf` -/
def isinf (a : F) : Prop := a = pinf ∨ a = ninf
/-- the value is an ordinary finite number -/
def isfinite (a : F) : Prop := ∃ x : ℝ, a = fin x

/-- `jnp.exp` -/
def exp : F → F
  | fin x => fin (Real.exp x)
  | pinf => pinf
  | ninf => fin 0
  | nan => nan

/-- `jnp.log`: `log 0 = -inf`, `log` of a negative is nan. -/
def log : F → F
  | fin x => if 0 < x then fin (Real.log x) else if x = 0 then ninf else nan
  | pinf => pinf
  | ninf => nan
  | nan => nan

/-- `jnp.power` on two finite numbers. -/
def powFin (x y : ℝ) : F :=
  if y = 0 then fin 1
  else if 0 < x then fin (x ^ y)
  else if x = 0 then (if 0 < y then fin 0 else pinf)
  else if h : ∃ n : ℤ, y = n then fin (x ^ (Classical.choose h)) else nan

/-- `jnp.power` / `**`, with the C99 special cases. -/
def pow : F → F → F
  | fin x, fin y => powFin x y
  | nan, y => if y = fin 0 then fin 1 else nan
  | x, nan => if x = fin 1 then fin 1 else nan
  | fin x, pinf => if |x| < 1 then fin 0 else if |x| = 1 then fin 1 else pinf
  | fin x, ninf => if |x| < 1 then pinf else if |x| = 1 then fin 1 else fin 0
  | pinf, fin y => if y = 0 then fin 1 else if 0 < y then pinf else fin 0
  | ninf, fin y =>
      if y = 0 then fin 1
      else if 0 < y then (if ∃ n : ℤ, Odd n ∧ y = n then ninf else pinf) else fin 0
  | pinf, pinf => pinf
  | ninf, pinf => pinf
  | pinf, ninf => fin 0
  | ninf, ninf => fin 0

/-- `x**2` -/
def sq (a : F) : F := a * a

/-- `jnp.abs` -/
def abs : F → F
  | fin x => fin |x|
  | pinf => pinf
  | ninf => pinf
  | nan => nan

/-- largest finite (float32) number, the value `nan_to_num` substitutes for `+inf` -/
def BIG : ℝ := 2 ^ 128 - 2 ^ 104

theorem BIG_pos : 0 < BIG := by norm_num [BIG]

/-- `jnp.nan_to_num(x)` with default arguments: nan ↦ 0, ±inf ↦ ±BIG. -/
def nanToNum : F → F
  | fin x => fin x
  | pinf => fin BIG
  | ninf => fin (-BIG)
  | nan => fin 0

/-- `jnp.nan_to_num(-jnp.inf)`: "the large negative constant". -/
def NEGBIG : F := nanToNum ninf

@[simp] theorem NEGBIG_def : NEGBIG = fin (-BIG) := rfl

/-- `jnp.minimum` (nan propagates) -/
protected def min (a b : F) : F := if a = nan ∨ b = nan then nan else if le a b then a else b
/-- `jnp.maximum` (nan propagates) -/
protected def max (a b : F) : F := if a = nan ∨ b = nan then nan else if le a b then b else a

/-! ### simp lemmas -/

@[simp] theorem add_fin (x y : ℝ) : (fin x + fin y : F) = fin (x + y) := rfl
@[simp] theorem mul_fin (x y : ℝ) : (fin x * fin y : F) = fin (x * y) := rfl
@[simp] theorem neg_fin (x : ℝ) : (-fin x : F) = fin (-x) := rfl
@[simp] theorem sub_fin (x y : ℝ) : (fin x - fin y : F) = fin (x - y) := by
  change fin (x + -y) = _; rw [sub_eq_add_neg]
@[simp] theorem nan_add (a : F) : nan + a = nan := by cases a <;> rfl
@[simp] theorem add_nan (a : F) : a + nan = nan := by cases a <;> rfl
@[simp] theorem nan_mul (a : F) : nan * a = nan := by cases a <;> rfl
@[simp] theorem mul_nan (a : F) : a * nan = nan := by cases a <;> rfl
@[simp] theorem nan_div (a : F) : nan / a = nan := by cases a <;> rfl
@[simp] theorem div_nan (a : F) : a / nan = nan := by cases a <;> rfl
@[simp] theorem neg_nan : -nan = nan := rfl
@[simp] theorem neg_pinf : -pinf = ninf := rfl
@[simp] theorem neg_ninf : -ninf = pinf := rfl
theorem sub_eq (a b : F) : a - b = a + -b := rfl
@[simp] theorem nan_sub (a : F) : nan - a = nan := by cases a <;> rfl
@[simp] theorem sub_nan (a : F) : a - nan = nan := by cases a <;> rfl
@[simp] theorem fin_add_pinf (x : ℝ) : fin x + pinf = pinf := rfl
@[simp] theorem fin_add_ninf (x : ℝ) : fin x + ninf = ninf := rfl
@[simp] theorem pinf_add_fin (x : ℝ) : pinf + fin x = pinf := rfl
@[simp] theorem ninf_add_fin (x : ℝ) : ninf + fin x = ninf := rfl
@[simp] theorem pinf_add_pinf : pinf + pinf = pinf := rfl
@[simp] theorem ninf_add_ninf : ninf + ninf = ninf := rfl
@[simp] theorem pinf_add_ninf : pinf + ninf = nan := rfl
@[simp] theorem ninf_add_pinf : ninf + pinf = nan := rfl
@[simp] theorem fin_sub_pinf (x : ℝ) : fin x - pinf = ninf := rfl
@[simp] theorem fin_sub_ninf (x : ℝ) : fin x - ninf = pinf := rfl
@[simp] theorem pinf_sub_fin (x : ℝ) : pinf - fin x = pinf := rfl
@[simp] theorem ninf_sub_fin (x : ℝ) : ninf - fin x = ninf := rfl
@[simp] theorem pinf_sub_pinf : pinf - pinf = nan := rfl
@[simp] theorem ninf_sub_ninf : ninf - ninf = nan := rfl
@[simp] theorem pinf_sub_ninf : pinf - ninf = pinf := rfl
@[simp] theorem ninf_sub_pinf : ninf - pinf = ninf := rfl
@[simp] theorem pinf_mul_pinf : pinf * pinf = pinf := rfl
@[simp] theorem ninf_mul_ninf : ninf * ninf = pinf := rfl
@[simp] theorem pinf_mul_ninf : pinf * ninf = ninf := rfl
@[simp] theorem ninf_mul_pinf : ninf * pinf = ninf := rfl
theorem fin_mul_pinf (x : ℝ) : fin x * pinf = infOfSign x := rfl
theorem fin_mul_ninf (x : ℝ) : fin x * ninf = infOfSign (-x) := rfl
theorem pinf_mul_fin (x : ℝ) : pinf * fin x = infOfSign x := rfl
theorem ninf_mul_fin (x : ℝ) : ninf * fin x = infOfSign (-x) := rfl
theorem infOfSign_pos {x : ℝ} (h : 0 < x) : infOfSign x = pinf := by simp [infOfSign, h]
theorem infOfSign_neg {x : ℝ} (h : x < 0) : infOfSign x = ninf := by
  simp [infOfSign, h, not_lt.2 h.le]
@[simp] theorem infOfSign_zero : infOfSign 0 = nan := by simp [infOfSign]
theorem div_fin {x y : ℝ} (h : y ≠ 0) : (fin x / fin y : F) = fin (x / y) := by
  change (if y = 0 then infOfSign x else fin (x / y)) = _; rw [if_neg h]
theorem div_fin_zero (x : ℝ) : (fin x / fin 0 : F) = infOfSign x := by
  change (if (0:ℝ) = 0 then infOfSign x else fin (x / 0)) = _; rw [if_pos rfl]
@[simp] theorem fin_div_pinf (x : ℝ) : fin x / pinf = fin 0 := rfl
@[simp] theorem fin_div_ninf (x : ℝ) : fin x / ninf = fin 0 := rfl
theorem pinf_div_fin {y : ℝ} (h : 0 ≤ y) : pinf / fin y = pinf := by
  change (if y < 0 then ninf else pinf) = _; rw [if_neg (not_lt.2 h)]
theorem pinf_div_fin_neg {y : ℝ} (h : y < 0) : pinf / fin y = ninf := by
  change (if y < 0 then ninf else pinf) = _; rw [if_pos h]
theorem ninf_div_fin {y : ℝ} (h : 0 ≤ y) : ninf / fin y = ninf := by
  change (if y < 0 then pinf else ninf) = _; rw [if_neg (not_lt.2 h)]
theorem ninf_div_fin_neg {y : ℝ} (h : y < 0) : ninf / fin y = pinf := by
  change (if y < 0 then pinf else ninf) = _; rw [if_pos h]
@[simp] theorem pinf_div_pinf : pinf / pinf = nan := rfl
@[simp] theorem ninf_div_pinf : ninf / pinf = nan := rfl
@[simp] theorem pinf_div_ninf : pinf / ninf = nan := rfl
@[simp] theorem ninf_div_ninf : ninf / ninf = nan := rfl

@[simp] theorem lt_fin (x y : ℝ) : lt (fin x) (fin y) ↔ x < y := Iff.rfl
@[simp] theorem le_fin (x y : ℝ) : le (fin x) (fin y) ↔ x ≤ y := Iff.rfl
@[simp] theorem gt_fin (x y : ℝ) : gt (fin x) (fin y) ↔ y < x := Iff.rfl
@[simp] theorem ge_fin (x y : ℝ) : ge (fin x) (fin y) ↔ y ≤ x := Iff.rfl
@[simp] theorem lt_nan_left (a : F) : lt nan a ↔ False := by cases a <;> exact Iff.rfl
@[simp] theorem lt_nan_right (a : F) : lt a nan ↔ False := by cases a <;> exact Iff.rfl
@[simp] theorem le_nan_left (a : F) : le nan a ↔ False := by cases a <;> exact Iff.rfl
@[simp] theorem le_nan_right (a : F) : le a nan ↔ False := by cases a <;> exact Iff.rfl
@[simp] theorem lt_fin_pinf (x : ℝ) : lt (fin x) pinf ↔ True := Iff.rfl
@[simp] theorem lt_ninf_fin (x : ℝ) : lt ninf (fin x) ↔ True := Iff.rfl
@[simp] theorem lt_pinf (a : F) : lt pinf a ↔ False := by cases a <;> exact Iff.rfl
@[simp] theorem lt_to_ninf (a : F) : lt a ninf ↔ False := by cases a <;> exact Iff.rfl
@[simp] theorem lt_ninf_pinf : lt ninf pinf ↔ True := Iff.rfl
@[simp] theorem le_fin_pinf (x : ℝ) : le (fin x) pinf ↔ True := Iff.rfl
@[simp] theorem le_ninf_fin (x : ℝ) : le ninf (fin x) ↔ True := Iff.rfl
@[simp] theorem le_pinf_fin (x : ℝ) : le pinf (fin x) ↔ False := Iff.rfl
@[simp] theorem le_fin_ninf (x : ℝ) : le (fin x) ninf ↔ False := Iff.rfl
@[simp] theorem le_ninf_ninf : le ninf ninf ↔ True := Iff.rfl
@[simp] theorem le_pinf_pinf : le pinf pinf ↔ True := Iff.rfl
@[simp] theorem le_ninf_pinf : le ninf pinf ↔ True := Iff.rfl
@[simp] theorem le_pinf_ninf : le pinf ninf ↔ False := Iff.rfl

@[simp] theorem fin_inj (x y : ℝ) : fin x = fin y ↔ x = y :=
  ⟨fun h => by cases h; rfl, fun h => by rw [h]⟩
@[simp] theorem feq_fin (x y : ℝ) : feq (fin x) (fin y) ↔ x = y := by simp [feq]
@[simp] theorem isnan_fin (x : ℝ) : isnan (fin x) ↔ False := by simp [isnan]
@[simp] theorem isnan_nan : isnan nan ↔ True := by simp [isnan]
@[simp] theorem isnan_pinf : isnan pinf ↔ False := by simp [isnan]
@[simp] theorem isnan_ninf : isnan ninf ↔ False := by simp [isnan]
@[simp] theorem isinf_fin (x : ℝ) : isinf (fin x) ↔ False := by simp [isinf]
@[simp] theorem isinf_nan : isinf nan ↔ False := by simp [isinf]
@[simp] theorem isinf_pinf : isinf pinf ↔ True := by simp [isinf]
@[simp] theorem isinf_ninf : isinf ninf ↔ True := by simp [isinf]
@[simp] theorem isfinite_fin (x : ℝ) : isfinite (fin x) := ⟨x, rfl⟩
@[simp] theorem not_isfinite_nan : ¬ isfinite nan := by rintro ⟨x, h⟩; cases h
@[simp] theorem not_isfinite_pinf : ¬ isfinite pinf := by rintro ⟨x, h⟩; cases h
@[simp] theorem not_isfinite_ninf : ¬ isfinite ninf := by rintro ⟨x, h⟩; cases h

@[simp] theorem exp_fin (x : ℝ) : exp (fin x) = fin (Real.exp x) := rfl
@[simp] theorem exp_pinf : exp pinf = pinf := rfl
@[simp] theorem exp_ninf : exp ninf = fin 0 := rfl
@[simp] theorem exp_nan : exp nan = nan := rfl
theorem log_fin {x : ℝ} (h : 0 < x) : log (fin x) = fin (Real.log x) := by simp [log, h]
@[simp] theorem log_zero : log (fin 0) = ninf := by simp [log]
theorem log_fin_neg {x : ℝ} (h : x < 0) : log (fin x) = nan := by
  simp [log, not_lt.2 h.le, h.ne]
@[simp] theorem log_pinf : log pinf = pinf := rfl
@[simp] theorem log_ninf : log ninf = nan := rfl
@[simp] theorem log_nan : log nan = nan := rfl
@[simp] theorem nanToNum_fin (x : ℝ) : nanToNum (fin x) = fin x := rfl
@[simp] theorem nanToNum_pinf : nanToNum pinf = fin BIG := rfl
@[simp] theorem nanToNum_ninf : nanToNum ninf = fin (-BIG) := rfl
@[simp] theorem nanToNum_nan : nanToNum nan = fin 0 := rfl
@[simp] theorem abs_fin (x : ℝ) : abs (fin x) = fin |x| := rfl
@[simp] theorem sq_fin (x : ℝ) : sq (fin x) = fin (x * x) := rfl

theorem nanToNum_isfinite (a : F) : isfinite (nanToNum a) := by
  cases a <;> simp

theorem pow_fin_pos {x : ℝ} (h : 0 < x) (y : ℝ) : pow (fin x) (fin y) = fin (x ^ y) := by
  change powFin x y = _
  unfold powFin
  by_cases hy : y = 0
  · simp [hy]
  · simp [hy, h]

theorem pow_zero_pos {y : ℝ} (h : 0 < y) : pow (fin 0) (fin y) = fin 0 := by
  change powFin 0 y = _
  simp [powFin, h.ne', h]

theorem pow_zero_neg {y : ℝ} (h : y < 0) : pow (fin 0) (fin y) = pinf := by
  change powFin 0 y = _
  simp [powFin, h.ne, not_lt.2 h.le]

@[simp] theorem pow_fin_zero (x : ℝ) : pow (fin x) (fin 0) = fin 1 := by
  change powFin x 0 = _
  simp [powFin]

theorem pow_neg_int {x : ℝ} (h : x < 0) {y : ℝ} (n : ℤ) (hn : y = n) :
    pow (fin x) (fin y) = fin (x ^ n) := by
  change powFin x y = _
  have hex : ∃ n : ℤ, y = n := ⟨n, hn⟩
  have hch : Classical.choose hex = n := by
    have := Classical.choose_spec hex
    exact_mod_cast this.symm.trans hn
  unfold powFin
  by_cases hy : y = 0
  · have : n = 0 := by rw [hy] at hn; exact_mod_cast hn.symm
    simp [hy, this]
  · rw [if_neg hy, if_neg (not_lt.2 h.le), if_neg h.ne, dif_pos hex, hch]

/-- `jnp.power(x, 2)` is the square, for every real `x`. -/
theorem pow_two_fin (x : ℝ) : pow (fin x) (fin 2) = fin (x * x) := by
  rcases lt_trichotomy x 0 with h | h | h
  · rw [pow_neg_int h 2 (by norm_num)]; norm_num; exact pow_two x
  · subst h; rw [pow_zero_pos (by norm_num)]; simp
  · rw [pow_fin_pos h]; norm_num; exact pow_two x

/-- `x ** 0.5` is the square root for `x ≥ 0`. -/
theorem pow_half_fin {x : ℝ} (h : 0 ≤ x) : pow (fin x) (fin (1/2)) = fin (Real.sqrt x) := by
  rcases h.eq_or_lt with h | h
  · subst h; rw [pow_zero_pos (by norm_num)]; simp
  · rw [pow_fin_pos h, Real.sqrt_eq_rpow]

/-! ### Addition is a commutative monoid, so `∑` makes sense on arrays of model floats. -/

theorem add_comm' (a b : F) : a + b = b + a := by
  cases a <;> cases b <;> simp [add_comm]

theorem add_assoc' (a b c : F) : a + b + c = a + (b + c) := by
  cases a <;> cases b <;> cases c <;> simp [add_assoc]

theorem zero_add' (a : F) : fin 0 + a = a := by cases a <;> simp

instance : AddCommMonoid F where
  add_assoc := add_assoc'
  zero_add := zero_add'
  add_zero a := by rw [add_comm']; exact zero_add' a
  add_comm := add_comm'
  nsmul := nsmulRec

theorem mul_comm' (a b : F) : a * b = b * a := by
  cases a <;> cases b <;> simp [mul_comm, fin_mul_pinf, fin_mul_ninf, pinf_mul_fin, ninf_mul_fin]

open Finset in
/-- sums of finite numbers are finite sums -/
@[simp] theorem sum_fin {ι : Type*} (s : Finset ι) (f : ι → ℝ) :
    ∑ i ∈ s, fin (f i) = fin (∑ i ∈ s, f i) := by
  induction s using Finset.induction_on with
  | empty => simp
  | insert a s ha ih => rw [Finset.sum_insert ha, Finset.sum_insert ha, ih]; rfl

theorem list_sum_fin (l : List ℝ) : (l.map fin).sum = fin l.sum := by
  induction l with
  | nil => rfl
  | cons a l ih => simp [ih]

/-- real part of a model float: junk value 0 on special values; only used under finiteness. -/
def toReal : F → ℝ
  | fin x => x
  | _ => 0

@[simp] theorem toReal_fin (x : ℝ) : toReal (fin x) = x := rfl

end

end F
