import Verif.Spec.Profit64
import Verif.Lib.Same64
import Verif.Lib.Lmi64
import Mathlib.Analysis.SpecialFunctions.Log.Basic
import Mathlib.Analysis.Complex.ExponentialBounds

/-! Exponential and logarithm in `f64`. -/

namespace Ellalgo

theorem rnd53_abs_pow {b : ℤ} {x : ℝ} (h : |x| ≤ (2 : ℝ) ^ b) : |rnd53 x| ≤ (2 : ℝ) ^ b := by
  obtain ⟨h1, h2⟩ := abs_le.1 h
  have h3 := rnd53_mono _ _ h1
  have h4 := rnd53_mono _ _ h2
  rw [rnd53_neg_pow] at h3
  rw [rnd53_pow] at h4
  exact abs_le.2 ⟨h3, h4⟩

theorem noOver_pow {b : ℤ} {x : ℝ} (h : |x| ≤ (2 : ℝ) ^ b) (hb : b < 1024) : NoOver x :=
  (rnd53_abs_pow h).trans_lt (zpow_lt_zpow_right₀ (by norm_num) hb)

theorem exp_le_pow {x : ℝ} (h : x ≤ 256) : Real.exp x ≤ (2 : ℝ) ^ (512 : ℤ) := by
  have h1 : Real.exp x ≤ Real.exp ((256 : ℕ) * 1) := Real.exp_le_exp.2 (by push_cast; linarith)
  rw [Real.exp_nat_mul] at h1
  have h2 : Real.exp 1 ≤ 4 := by have := Real.exp_one_lt_d9; linarith
  have h3 := pow_le_pow_left₀ (Real.exp_pos 1).le h2 256
  refine (h1.trans h3).trans (le_of_eq ?_)
  rw [show (4 : ℝ) = 2 ^ 2 by norm_num, ← pow_mul]
  exact (zpow_natCast (2 : ℝ) 512).symm

theorem pow_le_exp {x : ℝ} (h : -256 ≤ x) : (2 : ℝ) ^ (-512 : ℤ) ≤ Real.exp x := by
  have h1 := exp_le_pow (x := -x) (by linarith)
  rw [Real.exp_neg] at h1
  rw [zpow_neg]
  exact inv_le_of_inv_le₀ (Real.exp_pos x) h1

theorem B64.exp_eq {a : B64} (h : a.Finite) : Scalar.exp a = B64.ofReal false (Real.exp a.val) := by
  cases a with
  | nan => exact h.elim
  | inf s => exact h.elim
  | zero s => rfl
  | num s => rfl

theorem Same.exp {a : B64} {x : Fl bin53} (h : Same a x) (hx : |x.val| ≤ 256) : Same (Scalar.exp a) (Scalar.exp x) := by
  rw [B64.exp_eq h.1, h.2]
  obtain ⟨h1, h2⟩ := abs_le.1 hx
  refine Ellalgo.ofReal_normal (.inr ?_) (noOver_pow (b := 512) ?_ (by norm_num))
  · rw [abs_of_pos (Real.exp_pos _)]
    exact le_trans (zpow_le_zpow_right₀ (by norm_num) (by norm_num)) (pow_le_exp h1)
  · rw [abs_of_pos (Real.exp_pos _)]
    exact exp_le_pow h2

/-- a positive finite number that is not 1 is away from 1 -/
theorem rnd53_gap {x : ℝ} (h : rnd53 x = x) (h1 : 1 / 2 < x) (h2 : x < 2) (hne : x ≠ 1) : (2 : ℝ) ^ (-53 : ℤ) ≤ |x - 1| := by
  have key : ∃ m : ℤ, x = m * (2 : ℝ) ^ (-53 : ℤ) := by
    rcases lt_or_ge x 1 with hx | hx
    · have he : expo53 x = -1 - 52 := expo53_eq (by rw [abs_of_pos (by linarith)]; norm_num; linarith)
        (by rw [abs_of_pos (by linarith)]; norm_num; linarith)
      refine ⟨roundEven (x / (2 : ℝ) ^ expo53 x), ?_⟩
      conv_lhs => rw [← h]
      unfold rnd53
      rw [he]
      norm_num
    · have he : expo53 x = 0 - 52 := expo53_eq (by rw [abs_of_pos (by linarith)]; norm_num; linarith)
        (by rw [abs_of_pos (by linarith)]; norm_num; linarith)
      refine ⟨roundEven (x / (2 : ℝ) ^ expo53 x) * 2, ?_⟩
      conv_lhs => rw [← h]
      unfold rnd53
      rw [he]
      push_cast
      rw [mul_assoc]
      congr 1
      norm_num
  obtain ⟨m, hm⟩ := key
  have e : x - 1 = ((m - 2 ^ 53 : ℤ) : ℝ) * (2 : ℝ) ^ (-53 : ℤ) := by
    rw [hm]; push_cast; rw [sub_mul]; norm_num
  have hm0 : m - 2 ^ 53 ≠ 0 := by
    intro h0
    rw [h0] at e
    apply hne
    simp at e
    linarith
  rw [e, abs_mul, abs_of_pos (show (0 : ℝ) < (2 : ℝ) ^ (-53 : ℤ) by positivity)]
  have : (1 : ℝ) ≤ |((m - 2 ^ 53 : ℤ) : ℝ)| := by
    rw [← Int.cast_abs]; exact_mod_cast Int.one_le_abs hm0
  exact le_mul_of_one_le_left (by positivity) this

/-- the logarithm of a positive 53-bit number is 0 or not tiny -/
theorem log_noUnder {x : ℝ} (h : rnd53 x = x) (hx : 0 < x) : NoUnder (Real.log x) := by
  have small : (2 : ℝ) ^ (-1022 : ℤ) ≤ (2 : ℝ) ^ (-55 : ℤ) := zpow_le_zpow_right₀ (by norm_num) (by norm_num)
  have half : (2 : ℝ) ^ (-55 : ℤ) ≤ 1 / 2 := by norm_num
  by_cases hne : x = 1
  · left; rw [hne, Real.log_one]
  right
  refine small.trans ?_
  have up := Real.log_le_sub_one_of_pos hx
  have lo := Real.one_sub_inv_le_log_of_pos hx
  rcases le_or_gt x (1 / 2) with h1 | h1
  · rw [abs_of_nonpos (by linarith)]; exact half.trans (by linarith)
  rcases le_or_gt 2 x with h2 | h2
  · have : x⁻¹ ≤ 1 / 2 := by rw [inv_le_comm₀ hx (by norm_num)]; norm_num; exact h2
    rw [abs_of_nonneg (by linarith)]; exact half.trans (by linarith)
  have g := rnd53_gap h h1 h2 hne
  have p : (2 : ℝ) ^ (-53 : ℤ) = 4 * (2 : ℝ) ^ (-55 : ℤ) := by norm_num
  rw [p] at g
  generalize (2 : ℝ) ^ (-55 : ℤ) = t at *
  rcases lt_or_ge x 1 with h3 | h3
  · rw [abs_of_neg (by linarith)] at g
    rw [abs_of_nonpos (by linarith)]; linarith
  · rw [abs_of_nonneg (by linarith)] at g
    have e : 1 - x⁻¹ = (x - 1) * x⁻¹ := by field_simp
    have : (1 / 2 : ℝ) ≤ x⁻¹ := by rw [le_inv_comm₀ (by norm_num) hx]; norm_num; exact h2.le
    rw [abs_of_nonneg (by nlinarith)]
    nlinarith

theorem log_abs_le {b : ℕ} {x : ℝ} (h1 : (2 : ℝ) ^ (-(b : ℤ)) ≤ x) (h2 : x ≤ (2 : ℝ) ^ (b : ℤ)) : |Real.log x| ≤ b := by
  have hp : (0 : ℝ) < (2 : ℝ) ^ (-(b : ℤ)) := by positivity
  have hx := hp.trans_le h1
  have l1 := Real.log_le_log hp h1
  have l2 := Real.log_le_log hx h2
  rw [Real.log_zpow] at l1 l2
  push_cast at l1 l2
  have g1 : Real.log 2 ≤ 1 := by have := Real.log_two_lt_d9; linarith
  have g0 : 0 ≤ Real.log 2 := Real.log_nonneg (by norm_num)
  have hb : (0 : ℝ) ≤ b := Nat.cast_nonneg b
  rw [abs_le]
  constructor <;> nlinarith

/-- the logarithm of a positive finite `f64` number is the rounded one -/
theorem B64.ln_val {a : B64} (h : a.Finite) (hp : 0 < a.val) (hr : rnd53 a.val = a.val) (hl : |Real.log a.val| ≤ (2 : ℝ) ^ (1000 : ℤ)) :
    (Scalar.ln a).Finite ∧ (Scalar.ln a).val = rnd53 (Real.log a.val) := by
  cases a with
  | nan => exact h.elim
  | inf s => exact h.elim
  | zero s => exact absurd hp (lt_irrefl _)
  | num s =>
    have e : Scalar.ln (B64.num s) = B64.ofReal false (Real.log s.x) := if_neg (not_lt.2 (le_of_lt hp))
    rw [e]
    exact Ellalgo.ofReal_normal (log_noUnder hr hp) (noOver_pow hl (by norm_num))

end Ellalgo
