import Verif.Lib.Binary64

/-! C99: in the normal range binary64 arithmetic is the rounded arithmetic `Fl bin53` of the rounding theorems. -/

namespace Ellalgo
open B64

/-- binary64 numbers are multiples of `2⁻¹⁰⁷⁴` -/
theorem rnd64_grid (x : ℝ) : ∃ k : ℤ, rnd64 x = k * (2 : ℝ) ^ (-1074 : ℤ) := by
  rcases lt_or_ge |x| ((2 : ℝ) ^ (-1022 : ℤ)) with hx | hx
  · exact ⟨_, rnd64_sub hx⟩
  · rw [rnd64_normal hx]
    have hx0 : x ≠ 0 := by
      intro h
      rw [h, abs_zero] at hx
      exact absurd hx (not_le.2 (by positivity))
    have hb := (expo53_spec hx0).2
    have he : -1074 ≤ expo53 x := by
      have h1 : (2 : ℝ) ^ (-1022 : ℤ) < (2 : ℝ) ^ (expo53 x + 53) := lt_of_le_of_lt hx hb
      have := (zpow_lt_zpow_iff_right₀ (by norm_num : (1 : ℝ) < 2)).1 h1
      omega
    obtain ⟨d, hd⟩ := Int.eq_ofNat_of_zero_le (sub_nonneg.2 he)
    refine ⟨roundEven (x / (2 : ℝ) ^ expo53 x) * 2 ^ d, ?_⟩
    have e1 : (2 : ℝ) ^ expo53 x = (2 : ℝ) ^ d * (2 : ℝ) ^ (-1074 : ℤ) := by
      rw [show expo53 x = d + -1074 by omega, zpow_add₀ (by norm_num), zpow_natCast]
    show roundEven (x / (2 : ℝ) ^ expo53 x) * (2 : ℝ) ^ expo53 x = _
    rw [e1]
    push_cast
    ring

/-- sums of binary64 numbers do not underflow -/
theorem rnd64_add {x y : ℝ} (hx : rnd64 x = x) (hy : rnd64 y = y) : rnd64 (x + y) = rnd53 (x + y) := by
  rcases lt_or_ge |x + y| ((2 : ℝ) ^ (-1022 : ℤ)) with h | h
  · obtain ⟨j, hj⟩ := rnd64_grid x
    obtain ⟨k, hk⟩ := rnd64_grid y
    rw [hx] at hj
    rw [hy] at hk
    have e : x + y = ((j + k : ℤ) : ℝ) * (2 : ℝ) ^ (-1074 : ℤ) := by rw [hj, hk]; push_cast; ring
    have hp : (0 : ℝ) < (2 : ℝ) ^ (-1074 : ℤ) := by positivity
    have e2 : (2 : ℝ) ^ (-1022 : ℤ) = ((2 ^ 52 : ℤ) : ℝ) * (2 : ℝ) ^ (-1074 : ℤ) := by
      rw [show (-1022 : ℤ) = 52 + -1074 by norm_num, zpow_add₀ (by norm_num)]
      norm_num
    have hb : |j + k| ≤ 2 ^ 53 := by
      rw [e, abs_mul, abs_of_pos hp, e2] at h
      have h2 := lt_of_mul_lt_mul_right h hp.le
      have h3 : |j + k| < (2 ^ 52 : ℤ) := by exact_mod_cast h2
      exact h3.le.trans (by norm_num)
    rw [e, rnd64_rep _ _ hb le_rfl, rnd53_rep _ _ hb]
  · exact rnd64_normal h

/-- the result of an operation in the normal range -/
theorem ofReal_normal {s : Bool} {x : ℝ} (h1 : x = 0 ∨ (2 : ℝ) ^ (-1022 : ℤ) ≤ |x|) (h2 : |rnd53 x| < (2 : ℝ) ^ (1024 : ℤ)) :
    (ofReal s x).Finite ∧ (ofReal s x).val = rnd53 x := by
  have e : rnd64 x = rnd53 x := by
    rcases h1 with rfl | h1
    · rw [rnd64_zero, rnd53_zero]
    · exact rnd64_normal h1
  rw [← e] at h2 ⊢
  exact ofReal_val h2

theorem B64.rep_val {a : B64} (h : a.Finite) : rnd64 a.val = a.val := by
  cases a with
  | nan => exact h.elim
  | inf s => exact h.elim
  | zero s => exact rnd64_zero
  | num a => exact a.rep

/-- **C99** (the normal range)  For finite `f64` numbers: a sum whose rounded value does not overflow is the exact sum rounded to `53` bits
(sums never underflow); a product or quotient whose exact value is zero or at least `2⁻¹⁰²²`, and which does not overflow, is the exact one
rounded to `53` bits; the root of a number that is not negative is always the exact one rounded to `53` bits; comparisons are
those of the values.  So operation by operation `f64` is the arithmetic `Fl bin53` of C71, C82 and C90-C98, as long as no
product or quotient underflows and nothing overflows. -/
theorem C99_normal_range (a b : B64) (ha : a.Finite) (hb : b.Finite) :
    (|rnd53 (a.val + b.val)| < (2 : ℝ) ^ (1024 : ℤ) → (a + b).Finite ∧ (a + b).val = rnd53 (a.val + b.val)) ∧
    (|rnd53 (a.val - b.val)| < (2 : ℝ) ^ (1024 : ℤ) → (a - b).Finite ∧ (a - b).val = rnd53 (a.val - b.val)) ∧
    (a.val * b.val = 0 ∨ (2 : ℝ) ^ (-1022 : ℤ) ≤ |a.val * b.val| → |rnd53 (a.val * b.val)| < (2 : ℝ) ^ (1024 : ℤ) →
      (a * b).Finite ∧ (a * b).val = rnd53 (a.val * b.val)) ∧
    (b.val ≠ 0 → a.val = 0 ∨ (2 : ℝ) ^ (-1022 : ℤ) ≤ |a.val / b.val| → |rnd53 (a.val / b.val)| < (2 : ℝ) ^ (1024 : ℤ) →
      (a / b).Finite ∧ (a / b).val = rnd53 (a.val / b.val)) ∧
    (0 ≤ a.val → (Scalar.sqrt a).Finite ∧ (Scalar.sqrt a).val = rnd53 (Real.sqrt a.val)) ∧
    (Scalar.lt a b = true ↔ a.val < b.val) ∧ (Scalar.le a b = true ↔ a.val ≤ b.val) := by
  have hadd : ∀ b : B64, b.Finite → |rnd53 (a.val + b.val)| < (2 : ℝ) ^ (1024 : ℤ) →
      (a + b).Finite ∧ (a + b).val = rnd53 (a.val + b.val) := by
    intro b hb h
    rw [finite_add ha hb]
    rw [← rnd64_add (rep_val ha) (rep_val hb)] at h ⊢
    exact ofReal_val h
  have hneg : (B64.neg b).Finite ∧ (B64.neg b).val = -b.val := by
    cases b with
    | nan => exact hb.elim
    | inf s => exact hb.elim
    | zero s => exact ⟨trivial, by simp [B64.neg, val]⟩
    | num b => exact ⟨trivial, rfl⟩
  have hlt : Scalar.lt a b = true ↔ a.val < b.val := by
    cases a <;> cases b <;> first | exact ha.elim | exact hb.elim | exact decide_eq_true_iff
  have hbeq : Scalar.beq a b = true ↔ a.val = b.val := by
    cases a <;> cases b <;> first | exact ha.elim | exact hb.elim | exact decide_eq_true_iff
  refine ⟨hadd b hb, fun h => ?_, fun h1 h2 => ?_, fun h0 h1 h2 => ?_, fun h => ?_, hlt, ?_⟩
  · have := hadd (B64.neg b) hneg.1
    rw [hneg.2, ← sub_eq_add_neg] at this
    exact this h
  · rw [finite_mul ha hb]
    exact ofReal_normal h1 h2
  · have key : a / b = ofReal (a.sgn ^^ b.sgn) (a.val / b.val) := by
      cases b with
      | nan => exact hb.elim
      | inf s => exact hb.elim
      | zero s => exact absurd rfl h0
      | num b => cases a <;> first | exact ha.elim | rfl
    rw [key]
    exact ofReal_normal (h1.imp_left fun h => by rw [h, zero_div]) h2
  · cases a with
    | nan => exact ha.elim
    | inf s => exact ha.elim
    | zero s =>
      refine ⟨trivial, ?_⟩
      show (0 : ℝ) = _
      simp only [val, Real.sqrt_zero, rnd53_zero]
    | num a =>
      have h : 0 ≤ a.x := h
      have e : Scalar.sqrt (num a) = ofReal false (Real.sqrt a.x) := by
        show B64.sqrt (num a) = _
        simp only [B64.sqrt]
        rw [if_neg (not_lt.2 h)]
      rw [e]
      have hpos : 0 < a.x := lt_of_le_of_ne h a.ne.symm
      -- at least the least positive number, so the root is at least `2⁻⁵³⁷`
      have hmin : (2 : ℝ) ^ (-1074 : ℤ) ≤ a.x := by
        obtain ⟨k, hk⟩ := rnd64_grid a.x
        rw [a.rep] at hk
        have hp : (0 : ℝ) < (2 : ℝ) ^ (-1074 : ℤ) := by positivity
        have hk0 : 0 < k := by
          by_contra hc
          have : (k : ℝ) ≤ 0 := by exact_mod_cast not_lt.1 hc
          rw [hk] at hpos
          exact absurd hpos (not_lt.2 (mul_nonpos_of_nonpos_of_nonneg this hp.le))
        have hk1 : (1 : ℝ) ≤ k := by exact_mod_cast hk0
        rw [hk]
        exact le_mul_of_one_le_left hp.le hk1
      have hs1 : (2 : ℝ) ^ (-1022 : ℤ) ≤ Real.sqrt a.x := by
        refine Real.le_sqrt_of_sq_le (le_trans ?_ hmin)
        rw [← zpow_natCast, ← zpow_mul]
        exact zpow_le_zpow_right₀ (by norm_num) (by norm_num)
      have hs2 : Real.sqrt a.x ≤ (2 : ℝ) ^ (512 : ℤ) := by
        refine Real.sqrt_le_iff.2 ⟨by positivity, ?_⟩
        rw [← zpow_natCast, ← zpow_mul]
        have := a.lt
        rw [abs_of_pos hpos] at this
        exact this.le.trans (zpow_le_zpow_right₀ (by norm_num) (by norm_num))
      have hs0 : 0 ≤ Real.sqrt a.x := Real.sqrt_nonneg _
      refine ofReal_normal (Or.inr (by rw [abs_of_nonneg hs0]; exact hs1)) ?_
      rw [← rnd64_normal (by rw [abs_of_nonneg hs0]; exact hs1)]
      refine pow_lt_max (k := 512) (by norm_num) (rnd64_abs_le (by norm_num) ?_)
      rw [abs_of_nonneg hs0]
      exact hs2
  · show (B64.lt a b || B64.beq a b) = true ↔ _
    rw [Bool.or_eq_true, le_iff_lt_or_eq]
    exact or_congr hlt hbeq

end Ellalgo
