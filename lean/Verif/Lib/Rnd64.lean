import Verif.Lib.Bin53

/-! Rounding to binary64: subnormal numbers included, overflow not. -/

namespace Ellalgo

/-- rounding to binary64, before overflow: `53` significant bits, but no bit below `2⁻¹⁰⁷⁴` -/
noncomputable def rnd64 (x : ℝ) : ℝ := by
  classical exact if |x| < (2 : ℝ) ^ (-1022 : ℤ) then roundEven (x / (2 : ℝ) ^ (-1074 : ℤ)) * (2 : ℝ) ^ (-1074 : ℤ) else rnd53 x

theorem rnd64_sub {x : ℝ} (h : |x| < (2 : ℝ) ^ (-1022 : ℤ)) :
    rnd64 x = roundEven (x / (2 : ℝ) ^ (-1074 : ℤ)) * (2 : ℝ) ^ (-1074 : ℤ) := if_pos h
theorem rnd64_normal {x : ℝ} (h : (2 : ℝ) ^ (-1022 : ℤ) ≤ |x|) : rnd64 x = rnd53 x := if_neg (not_lt.2 h)

theorem rnd64_small {x : ℝ} (h : |x| ≤ (2 : ℝ) ^ (-1075 : ℤ)) : rnd64 x = 0 := by
  have hlt : (2 : ℝ) ^ (-1075 : ℤ) < (2 : ℝ) ^ (-1022 : ℤ) := zpow_lt_zpow_right₀ (by norm_num) (by norm_num)
  rw [rnd64_sub (lt_of_le_of_lt h hlt)]
  have e : (2 : ℝ) ^ (-1075 : ℤ) = 1 / 2 * (2 : ℝ) ^ (-1074 : ℤ) := by
    rw [show (-1075 : ℤ) = -1 + -1074 by norm_num, zpow_add₀ (by norm_num)]
    norm_num
  have hp : (0 : ℝ) < (2 : ℝ) ^ (-1074 : ℤ) := by positivity
  have h1 : |x / (2 : ℝ) ^ (-1074 : ℤ)| ≤ 1 / 2 := by
    rw [abs_div, abs_of_pos hp, div_le_iff₀ hp, ← e]
    exact h
  obtain ⟨h2, h3⟩ := abs_le.1 h1
  have h4 := roundEven_mono h2
  have h5 := roundEven_mono h3
  have e1 := roundEven_tie (y := (1 / 2 : ℝ)) (k := 0) (by norm_num)
  have e2 := roundEven_tie (y := (-(1 / 2) : ℝ)) (k := -1) (by norm_num)
  rw [if_pos (by decide)] at e1
  rw [if_neg (by decide)] at e2
  rw [e1] at h5
  rw [e2] at h4
  have : roundEven (x / (2 : ℝ) ^ (-1074 : ℤ)) = 0 := le_antisymm h5 (by simpa using h4)
  rw [this]
  simp

theorem rnd64_zero : rnd64 0 = 0 := rnd64_small (by rw [abs_zero]; positivity)

theorem rnd64_sub_abs {x : ℝ} (h : |x| < (2 : ℝ) ^ (-1022 : ℤ)) : |rnd64 x| ≤ (2 : ℝ) ^ (-1022 : ℤ) := by
  rw [rnd64_sub h]
  have hp : (0 : ℝ) < (2 : ℝ) ^ (-1074 : ℤ) := by positivity
  have e : (2 : ℝ) ^ (-1022 : ℤ) = ((2 ^ 52 : ℤ) : ℝ) * (2 : ℝ) ^ (-1074 : ℤ) := by
    rw [show (-1022 : ℤ) = 52 + -1074 by norm_num, zpow_add₀ (by norm_num)]
    norm_num
  rw [abs_mul, abs_of_pos hp, e]
  refine mul_le_mul_of_nonneg_right ?_ hp.le
  have h1 : |x / (2 : ℝ) ^ (-1074 : ℤ)| ≤ ((2 ^ 52 : ℤ) : ℝ) := by
    rw [abs_div, abs_of_pos hp, div_le_iff₀ hp, ← e]
    exact h.le
  obtain ⟨h2, h3⟩ := abs_le.1 h1
  have h4 := roundEven_mono h3
  have h5 := roundEven_mono h2
  rw [roundEven_int] at h4
  rw [show (-((2 ^ 52 : ℤ) : ℝ)) = ((-(2 ^ 52) : ℤ) : ℝ) by push_cast; ring, roundEven_int] at h5
  have h6 : |roundEven (x / (2 : ℝ) ^ (-1074 : ℤ))| ≤ (2 ^ 52 : ℤ) := abs_le.2 ⟨h5, h4⟩
  exact_mod_cast h6

theorem rnd64_mono {x y : ℝ} (h : x ≤ y) : rnd64 x ≤ rnd64 y := by
  rcases lt_or_ge |x| ((2 : ℝ) ^ (-1022 : ℤ)) with hx | hx
  · rcases lt_or_ge |y| ((2 : ℝ) ^ (-1022 : ℤ)) with hy | hy
    · rw [rnd64_sub hx, rnd64_sub hy]
      have hp : (0 : ℝ) < (2 : ℝ) ^ (-1074 : ℤ) := by positivity
      exact mul_le_mul_of_nonneg_right (by exact_mod_cast roundEven_mono (div_le_div_of_nonneg_right h hp.le)) hp.le
    · have hy' : (2 : ℝ) ^ (-1022 : ℤ) ≤ y := by
        rcases le_abs.1 hy with h1 | h1
        · exact h1
        · have := (abs_lt.1 hx).1; linarith
      have h1 := (abs_le.1 (rnd64_sub_abs hx)).2
      have h2 := rnd53_mono _ _ hy'
      rw [rnd53_pow] at h2
      rw [rnd64_normal hy]
      linarith
  · rcases lt_or_ge |y| ((2 : ℝ) ^ (-1022 : ℤ)) with hy | hy
    · have hx' : x ≤ -(2 : ℝ) ^ (-1022 : ℤ) := by
        rcases le_abs.1 hx with h1 | h1
        · have := (abs_lt.1 hy).2; linarith
        · linarith
      have h1 := (abs_le.1 (rnd64_sub_abs hy)).1
      have h2 := rnd53_mono _ _ hx'
      rw [rnd53_neg_pow] at h2
      rw [rnd64_normal hx]
      linarith
    · rw [rnd64_normal hx, rnd64_normal hy]
      exact rnd53_mono _ _ h

/-- integers of at most `53` bits times a power of two that is not too small -/
theorem rnd64_rep (m e : ℤ) (hm : |m| ≤ 2 ^ 53) (he : -1074 ≤ e) : rnd64 (m * (2 : ℝ) ^ e) = m * (2 : ℝ) ^ e := by
  rcases lt_or_ge |m * (2 : ℝ) ^ e| ((2 : ℝ) ^ (-1022 : ℤ)) with hx | hx
  · rw [rnd64_sub hx]
    obtain ⟨d, hd⟩ := Int.eq_ofNat_of_zero_le (sub_nonneg.2 he)
    have e1 : m * (2 : ℝ) ^ e / (2 : ℝ) ^ (-1074 : ℤ) = ((m * 2 ^ d : ℤ) : ℝ) := by
      rw [div_eq_iff (by positivity), show e = d + -1074 by omega, zpow_add₀ (by norm_num), zpow_natCast]
      push_cast
      ring
    rw [e1, roundEven_int, ← e1, div_mul_cancel₀ _ (by positivity)]
  · rw [rnd64_normal hx, rnd53_rep m e hm]

theorem rnd64_pow {k : ℤ} (hk : -1074 ≤ k) : rnd64 ((2 : ℝ) ^ k) = (2 : ℝ) ^ k := by
  simpa using rnd64_rep 1 k (by norm_num) hk
theorem rnd64_neg_pow {k : ℤ} (hk : -1074 ≤ k) : rnd64 (-(2 : ℝ) ^ k) = -(2 : ℝ) ^ k := by
  simpa using rnd64_rep (-1) k (by norm_num) hk

theorem rnd64_abs_le {x : ℝ} {k : ℤ} (hk : -1074 ≤ k) (h : |x| ≤ (2 : ℝ) ^ k) : |rnd64 x| ≤ (2 : ℝ) ^ k := by
  obtain ⟨h1, h2⟩ := abs_le.1 h
  have h3 := rnd64_mono h1
  have h4 := rnd64_mono h2
  rw [rnd64_neg_pow hk] at h3
  rw [rnd64_pow hk] at h4
  exact abs_le.2 ⟨h3, h4⟩

/-- adding a number that is small against a bound does not push a sum over the bound -/
theorem rnd64_stay {s y : ℝ} {t : ℤ} (ht : -1022 ≤ t) (hs : |s| ≤ (2 : ℝ) ^ (t + 54)) (hy : |y| ≤ (2 : ℝ) ^ t) :
    |rnd64 (s + y)| ≤ (2 : ℝ) ^ (t + 54) := by
  have hp : (0 : ℝ) < (2 : ℝ) ^ t := by positivity
  have e54 : (2 : ℝ) ^ (t + 54) = 2 ^ 54 * (2 : ℝ) ^ t := by
    rw [zpow_add₀ (by norm_num), mul_comm]; norm_num
  have e55 : (2 : ℝ) ^ (t + 54 + 1) = 2 ^ 55 * (2 : ℝ) ^ t := by
    rw [show t + 54 + 1 = t + 55 by ring, zpow_add₀ (by norm_num), mul_comm]; norm_num
  have e2 : (2 : ℝ) ^ (t + 54 - 52) = 4 * (2 : ℝ) ^ t := by
    rw [show t + 54 - 52 = t + 2 by ring, zpow_add₀ (by norm_num), mul_comm]; norm_num
  have hbig : (2 : ℝ) ^ (-1022 : ℤ) ≤ (2 : ℝ) ^ (t + 54) := zpow_le_zpow_right₀ (by norm_num) (by omega)
  have hsum := abs_add_le s y
  have hup : rnd64 ((2 : ℝ) ^ (t + 54) + (2 : ℝ) ^ t) = (2 : ℝ) ^ (t + 54) := by
    have habs : |(2 : ℝ) ^ (t + 54) + (2 : ℝ) ^ t| = (2 : ℝ) ^ (t + 54) + (2 : ℝ) ^ t := abs_of_pos (by positivity)
    rw [rnd64_normal (by rw [habs]; linarith)]
    rw [rnd53_eq (t + 54) (2 ^ 52) (by rw [habs]; linarith) (by rw [habs, e54, e55]; linarith) ?_]
    · rw [e2, e54]; push_cast; ring
    · rw [e2, e54]
      have : (2 ^ 54 * (2 : ℝ) ^ t + (2 : ℝ) ^ t) / (4 * (2 : ℝ) ^ t) - ((2 ^ 52 : ℤ) : ℝ) = 1 / 4 := by
        field_simp
        push_cast
        ring
      rw [this]
      norm_num
  have hdn : rnd64 (-((2 : ℝ) ^ (t + 54) + (2 : ℝ) ^ t)) = -(2 : ℝ) ^ (t + 54) := by
    have habs : |-((2 : ℝ) ^ (t + 54) + (2 : ℝ) ^ t)| = (2 : ℝ) ^ (t + 54) + (2 : ℝ) ^ t := by
      rw [abs_neg]; exact abs_of_pos (by positivity)
    rw [rnd64_normal (by rw [habs]; linarith)]
    rw [rnd53_eq (t + 54) (-(2 ^ 52)) (by rw [habs]; linarith) (by rw [habs, e54, e55]; linarith) ?_]
    · rw [e2, e54]; push_cast; ring
    · rw [e2, e54]
      have : -(2 ^ 54 * (2 : ℝ) ^ t + (2 : ℝ) ^ t) / (4 * (2 : ℝ) ^ t) - ((-(2 ^ 52) : ℤ) : ℝ) = -(1 / 4) := by
        field_simp
        push_cast
        ring
      rw [this]
      norm_num
  obtain ⟨h1, h2⟩ := abs_le.1 (hsum.trans (add_le_add hs hy))
  have h3 := rnd64_mono h1
  have h4 := rnd64_mono h2
  rw [hdn] at h3
  rw [hup] at h4
  exact abs_le.2 ⟨h3, h4⟩

theorem rnd64_idem (x : ℝ) : rnd64 (rnd64 x) = rnd64 x := by
  rcases lt_or_ge |x| ((2 : ℝ) ^ (-1022 : ℤ)) with hx | hx
  · have h1 := rnd64_sub_abs hx
    rw [rnd64_sub hx] at h1 ⊢
    refine rnd64_rep _ _ ?_ le_rfl
    have hp : (0 : ℝ) < (2 : ℝ) ^ (-1074 : ℤ) := by positivity
    have e : (2 : ℝ) ^ (-1022 : ℤ) = ((2 ^ 52 : ℤ) : ℝ) * (2 : ℝ) ^ (-1074 : ℤ) := by
      rw [show (-1022 : ℤ) = 52 + -1074 by norm_num, zpow_add₀ (by norm_num)]
      norm_num
    rw [abs_mul, abs_of_pos hp, e] at h1
    have h2 := le_of_mul_le_mul_right h1 hp
    have h3 : |roundEven (x / (2 : ℝ) ^ (-1074 : ℤ))| ≤ (2 ^ 52 : ℤ) := by exact_mod_cast h2
    exact h3.trans (by norm_num)
  · rw [rnd64_normal hx]
    have h1 : (2 : ℝ) ^ (-1022 : ℤ) ≤ |rnd53 x| := by
      rcases le_abs.1 hx with h | h
      · have := rnd53_mono _ _ h
        rw [rnd53_pow] at this
        exact this.trans (le_abs_self _)
      · have := rnd53_mono x (-(2 : ℝ) ^ (-1022 : ℤ)) (by linarith)
        rw [rnd53_neg_pow] at this
        exact le_abs.2 (Or.inr (by linarith))
    rw [rnd64_normal h1, rnd53_idem]

theorem roundEven_neg (y : ℝ) : roundEven (-y) = -roundEven y := by
  rcases lt_or_eq_of_le (roundEven_err y) with h | h
  · refine roundEven_eq ?_
    push_cast
    rw [show -y - -(roundEven y : ℝ) = roundEven y - y by ring]
    exact h
  · have key : ∃ k : ℤ, y = k + 1 / 2 := by
      rcases eq_or_eq_neg_of_abs_eq h with h | h
      · exact ⟨roundEven y - 1, by push_cast; linarith⟩
      · exact ⟨roundEven y, by linarith⟩
    obtain ⟨k, hk⟩ := key
    rw [roundEven_tie hk, roundEven_tie (y := -y) (k := -k - 1) (by rw [hk]; push_cast; ring)]
    by_cases hp : Even k
    · rw [if_pos hp, if_neg]
      · ring
      · rw [Int.not_even_iff_odd]
        obtain ⟨r, hr⟩ := hp
        exact ⟨-r - 1, by omega⟩
    · rw [if_neg hp, if_pos]
      · ring
      · obtain ⟨r, hr⟩ := Int.not_even_iff_odd.1 hp
        exact ⟨-r - 1, by omega⟩

theorem rnd53_neg (x : ℝ) : rnd53 (-x) = -rnd53 x := by
  unfold rnd53
  rw [show expo53 (-x) = expo53 x by unfold expo53; rw [abs_neg], neg_div, roundEven_neg]
  push_cast
  ring

theorem rnd64_neg (x : ℝ) : rnd64 (-x) = -rnd64 x := by
  rcases lt_or_ge |x| ((2 : ℝ) ^ (-1022 : ℤ)) with hx | hx
  · rw [rnd64_sub hx, rnd64_sub (by rwa [abs_neg]), neg_div, roundEven_neg]
    push_cast
    ring
  · rw [rnd64_normal hx, rnd64_normal (by rwa [abs_neg]), rnd53_neg]

theorem rnd64_one : rnd64 1 = 1 := by simpa using rnd64_pow (k := 0) (by norm_num)

end Ellalgo
