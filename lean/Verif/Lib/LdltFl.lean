import Verif.Lib.LdltGeneric
import Verif.Lib.LdltErr
import Verif.Lib.Rounded

/-! The stored values of the rounded LDLᵀ factorisation satisfy its equations up to relative errors. -/

namespace Ellalgo
open Finset
variable {u : ℝ} {R : Rounding u}

/-- error relative to the computed value -/
theorem Rounding.err_rev (hu : u < 1) (x : ℝ) : |R.rnd x - x| ≤ u / (1 - u) * |R.rnd x| := by
  have h1 := R.err x
  have h0 := R.unit_nonneg
  have h2 := abs_add_le (x - R.rnd x) (R.rnd x)
  rw [sub_add_cancel, abs_sub_comm] at h2
  have h3 : (1 - u) * |x| ≤ |R.rnd x| := by linarith
  rw [div_mul_eq_mul_div, le_div_iff₀ (by linarith)]
  nlinarith

/-- `(1+u)^n ≤ 1 / (1 - n u)` -/
theorem pow_one_add_le {u : ℝ} (hu : 0 ≤ u) {n : Nat} (h : n * u < 1) : (1 + u) ^ n - 1 ≤ n * u / (1 - n * u) := by
  rcases Nat.eq_zero_or_pos n with rfl | hn
  · simp
  have hn1 : (1 : ℝ) ≤ n := by exact_mod_cast hn
  have hu1 : u < 1 := by nlinarith
  have hb := one_add_mul_le_pow (show (-2 : ℝ) ≤ -u by linarith) n
  have hp : (1 + u) ^ n * (1 + -u) ^ n ≤ 1 := by
    rw [← mul_pow]
    exact pow_le_one₀ (by nlinarith) (by nlinarith)
  rw [le_div_iff₀ (by linarith)]
  have h1 : 0 ≤ (1 + u) ^ n := by positivity
  nlinarith [mul_le_mul_of_nonneg_left hb h1]

namespace LDLTMgr

theorem blkE_of_generic {A S : Nat → Nat → Fl R} {i n : Nat} (hin : i ≤ n) (hnu : n * u < 1) (h : BlkG A S i)
    (hp : ∀ a, a + 1 < i → 0 < (S a a).val) :
    BlkE (n * u / (1 - n * u)) (fun a b => (A a b).val) (fun a b => (S a b).val) i := by
  have hu := R.unit_nonneg
  have hden : 0 < 1 - n * u := by linarith
  have he0 : 0 ≤ n * u / (1 - n * u) := by positivity
  have hv : ∀ a, a < i → u < 1 ∧ u / (1 - u) ≤ n * u / (1 - n * u) := by
    intro a ha
    have hn1 : (1 : ℝ) ≤ n := by exact_mod_cast (by omega : 1 ≤ n)
    have hu1 : u < 1 := by nlinarith
    refine ⟨hu1, ?_⟩
    rw [div_le_div_iff₀ (by linarith) hden]
    nlinarith
  constructor
  · intro a ha b hb
    obtain ⟨hu1, hv1⟩ := hv a ha
    rw [(h a ha).1 b hb]
    unfold entryG
    split
    · next hb0 =>
      subst hb0
      simp only [range_zero, sum_empty, sub_zero, sub_self, abs_zero]
      positivity
    · next hb0 =>
      have h1 := sumTo_fl_err b (fun k => S a k) (fun k => S k b)
      simp only [Fl.sub_val]
      set s := (sumTo b fun k => S a k * S k b).val
      set T := ∑ k ∈ range b, |(S a k).val * (S k b).val|
      have hT : ∑ k ∈ range b, |(S a k).val| * |(S k b).val| = T := sum_congr rfl fun k _ => (abs_mul _ _).symm
      rw [hT] at h1
      have hT0 : 0 ≤ T := sum_nonneg fun _ _ => abs_nonneg _
      have h2 := Rounding.err_rev (R := R) hu1 ((A a b).val - s)
      set w := R.rnd ((A a b).val - s)
      have hpw : (1 + u) ^ (b + 1) - 1 ≤ n * u / (1 - n * u) := by
        have : (1 + u) ^ (b + 1) ≤ (1 + u) ^ n := pow_le_pow_right₀ (by linarith) (by omega)
        linarith [pow_one_add_le hu hnu]
      have h3 := mul_le_mul_of_nonneg_right hpw hT0
      have h4 := mul_le_mul_of_nonneg_right hv1 (abs_nonneg w)
      have h5 := abs_add_le (-(w - ((A a b).val - s))) (s - ∑ k ∈ range b, (S a k).val * (S k b).val)
      rw [abs_neg] at h5
      have h6 : -(w - ((A a b).val - s)) + (s - ∑ k ∈ range b, (S a k).val * (S k b).val)
        = (A a b).val - ∑ k ∈ range b, (S a k).val * (S k b).val - w := by ring
      rw [h6] at h5
      linarith
  · intro a ha b hb
    obtain ⟨hu1, hv1⟩ := hv a ha
    have hd := hp b (by omega)
    rw [(h a ha).2 b hb]
    simp only [Fl.div_val]
    have h2 := Rounding.err_rev (R := R) hu1 ((S b a).val / (S b b).val)
    set l := R.rnd ((S b a).val / (S b b).val)
    have h3 : (S b a).val - l * (S b b).val = -((l - (S b a).val / (S b b).val) * (S b b).val) := by
      field_simp; ring
    rw [h3, abs_neg, abs_mul, abs_mul]
    have h4 := mul_le_mul_of_nonneg_right hv1 (abs_nonneg l)
    have h5 := mul_le_mul_of_nonneg_right (h2.trans h4) (abs_nonneg (S b b).val)
    linarith

end LDLTMgr

/-- back substitution always succeeds over ℝ -/
theorem exists_backsubst (L : Nat → Nat → ℝ) (m : Nat) (hdiag : ∀ k, k ≤ m → L k k = 1) (hup : ∀ a k, a < k → L a k = 0) :
    ∃ v : Nat → ℝ, v m = 1 ∧ ∀ k, k < m → ∑ a ∈ range (m + 1), L a k * v a = 0 := by
  suffices H : ∀ j, j ≤ m → ∃ v : Nat → ℝ, v m = 1 ∧ ∀ k, m - j ≤ k → k < m →
      ∑ a ∈ range (m + 1), L a k * v a = 0 by
    obtain ⟨v, h1, h2⟩ := H m (le_refl _)
    exact ⟨v, h1, fun k hk => h2 k (by omega) hk⟩
  intro j
  induction j with
  | zero => exact fun _ => ⟨fun _ => 1, rfl, fun k h1 h2 => absurd h2 (by omega)⟩
  | succ j ih =>
    intro hj
    obtain ⟨v, h1, h2⟩ := ih (by omega)
    set q := m - (j + 1) with hq
    refine ⟨Function.update v q (v q - ∑ a ∈ range (m + 1), L a q * v a), ?_, ?_⟩
    · rw [Function.update_of_ne (by omega), h1]
    · intro k hk1 hk2
      have hsplit : ∀ (c : ℝ), ∑ a ∈ range (m + 1), L a k * Function.update v q (v q - c) a
          = ∑ a ∈ range (m + 1), L a k * v a - L q k * c := by
        intro c
        have : ∀ a ∈ range (m + 1), L a k * Function.update v q (v q - c) a =
            L a k * v a - (if a = q then L q k * c else 0) := by
          intro a _
          by_cases haq : a = q
          · subst haq; simp; ring
          · rw [Function.update_of_ne haq, if_neg haq, sub_zero]
        rw [sum_congr rfl this, sum_sub_distrib]
        simp only [sum_ite_eq', mem_range]
        rw [if_pos (by omega)]
      rw [hsplit]
      by_cases hkq : k = q
      · rw [hkq, hdiag q (by omega)]; ring
      · rw [hup q k (by omega), h2 k (by omega) hk2]; ring

end Ellalgo
