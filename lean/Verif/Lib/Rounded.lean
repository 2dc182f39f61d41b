import Verif.Spec.Rounded
import Verif.Lib.EllLemmas
import Mathlib.Algebra.Order.Round
import Mathlib.Data.Int.Log
import Mathlib.Tactic.Linarith
import Mathlib.Tactic.Ring
import Mathlib.Tactic.Positivity
import Mathlib.Tactic.NormNum

/-! # Lemmas on rounded arithmetic -/

namespace Ellalgo
variable {u : ℝ} {R : Rounding u}

section FlSimp
variable (a b : Fl R)
@[simp] theorem Fl.add_val : (a + b).val = R.rnd (a.val + b.val) := rfl
@[simp] theorem Fl.sub_val : (a - b).val = R.rnd (a.val - b.val) := rfl
@[simp] theorem Fl.mul_val : (a * b).val = R.rnd (a.val * b.val) := rfl
@[simp] theorem Fl.div_val : (a / b).val = R.rnd (a.val / b.val) := rfl
@[simp] theorem Fl.zero_val : (0 : Fl R).val = 0 := rfl
@[simp] theorem Fl.one_val : (1 : Fl R).val = 1 := rfl
@[simp] theorem Fl.natCast_val (k : Nat) : ((k : Nat) : Fl R).val = R.rnd (k : ℝ) := rfl
@[simp] theorem Fl.lt_eq : Scalar.lt a b = decide (a.val < b.val) := rfl
@[simp] theorem Fl.le_eq : Scalar.le a b = decide (a.val ≤ b.val) := rfl
@[simp] theorem Fl.beq_eq : Scalar.beq a b = decide (a.val = b.val) := rfl
@[simp] theorem Fl.sqrt_val : (Scalar.sqrt a).val = R.rnd (Real.sqrt a.val) := rfl
end FlSimp

namespace Rounding
variable (R)

theorem zero : R.rnd 0 = 0 := by
  have := R.err 0
  simpa using this

theorem two : R.rnd 2 = 2 := by
  have := R.double 1
  rw [R.one] at this
  simpa using this

theorem half (x : ℝ) : R.rnd (x / 2) = R.rnd x / 2 := by
  have := R.double (x / 2)
  rw [show 2 * (x / 2) = x by ring] at this
  linarith

theorem nonneg {x : ℝ} (h : 0 ≤ x) : 0 ≤ R.rnd x := by
  rw [← R.zero]; exact R.mono _ _ h

theorem abs_le (x : ℝ) : |R.rnd x| ≤ (1 + u) * |x| := by
  have h1 := R.err x
  have h2 : |R.rnd x| ≤ |R.rnd x - x| + |x| := by
    have := abs_add_le (R.rnd x - x) x
    simpa using this
  linarith

include R in
/-- the unit roundoff is not negative -/
theorem unit_nonneg : 0 ≤ u := by
  have := R.err 1
  have h0 := abs_nonneg (R.rnd 1 - 1)
  simp only [abs_one, mul_one] at this
  linarith

/-- a positive number stays positive when `u < 1` -/
theorem pos (hu : u < 1) {x : ℝ} (h : 0 < x) : 0 < R.rnd x := by
  have h1 := R.err x
  rw [abs_of_pos h] at h1
  have h2 := (_root_.abs_le.1 h1).1
  nlinarith

end Rounding

/-- running error bound for a sum of rounded products -/
theorem sumTo_fl_err (n : Nat) (x y : Nat → Fl R) :
    |(sumTo n fun i => x i * y i).val - ∑ i ∈ Finset.range n, (x i).val * (y i).val| ≤
      ((1 + u) ^ (n + 1) - 1) * ∑ i ∈ Finset.range n, |(x i).val| * |(y i).val| := by
  have hu := R.unit_nonneg
  induction n with
  | zero => simp [sumTo]
  | succ k ih =>
    simp only [sumTo, Fl.add_val, Fl.mul_val, Finset.sum_range_succ]
    set S := (sumTo k fun i => x i * y i).val with hS
    set s := ∑ i ∈ Finset.range k, (x i).val * (y i).val
    set A := ∑ i ∈ Finset.range k, |(x i).val| * |(y i).val|
    set p := (x k).val * (y k).val
    have hp : |(x k).val| * |(y k).val| = |p| := (abs_mul _ _).symm
    rw [hp]
    have hsA : |s| ≤ A := by
      refine (Finset.abs_sum_le_sum_abs _ _).trans (le_of_eq ?_)
      exact Finset.sum_congr rfl fun i _ => abs_mul _ _
    have e1 := R.err (S + R.rnd p)
    have e2 := R.err p
    have e3 := R.abs_le p
    have hSb : |S| ≤ (1 + u) ^ (k + 1) * A := by
      have : |S| ≤ |S - s| + |s| := by
        have := abs_add_le (S - s) s
        simpa using this
      linarith
    have hsum : |S + R.rnd p| ≤ (1 + u) ^ (k + 1) * A + (1 + u) * |p| :=
      (abs_add_le _ _).trans (add_le_add hSb e3)
    have htri : |R.rnd (S + R.rnd p) - (s + p)| ≤
        |R.rnd (S + R.rnd p) - (S + R.rnd p)| + |S - s| + |R.rnd p - p| := by
      have h1 := abs_add_le (R.rnd (S + R.rnd p) - (S + R.rnd p) + (S - s)) (R.rnd p - p)
      have h2 := abs_add_le (R.rnd (S + R.rnd p) - (S + R.rnd p)) (S - s)
      have h3 : R.rnd (S + R.rnd p) - (S + R.rnd p) + (S - s) + (R.rnd p - p) =
        R.rnd (S + R.rnd p) - (s + p) := by ring
      rw [h3] at h1
      linarith
    have hum := mul_le_mul_of_nonneg_left hsum hu
    have hpow : (1 + u) ^ 2 ≤ (1 + u) ^ (k + 2) := pow_le_pow_right₀ (by linarith) (by omega)
    have hpp := mul_le_mul_of_nonneg_right hpow (abs_nonneg p)
    have hexp : (1 + u) ^ (k + 1 + 1) = (1 + u) ^ (k + 1) * (1 + u) := pow_succ _ _
    have hexp2 : (1 + u) ^ (k + 2) = (1 + u) ^ (k + 1) * (1 + u) := pow_succ _ _
    rw [hexp]
    rw [hexp2] at hpp
    nlinarith

end Ellalgo
