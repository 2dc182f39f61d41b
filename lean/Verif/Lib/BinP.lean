import Verif.Lib.Bin53

/-! Rounding to nearest, ties to even, with any number of significant bits and unbounded exponents (`Lib/Bin53` with 53 replaced by
`q + 1`): a `Rounding` whose unit is as small as one likes. -/

namespace Ellalgo
variable {q : Nat}

theorem zpow_q : (2 : ℝ) ^ ((q : ℤ) + 1) = 2 ^ (q + 1) := by exact_mod_cast zpow_natCast (2 : ℝ) (q + 1)

theorem one_le_two_q : (1 : ℤ) ≤ 2 ^ (q + 1) := one_le_pow₀ (by norm_num)

/-- the exponent of the last of `q + 1` significant bits -/
noncomputable def expoP (q : Nat) (x : ℝ) : ℤ := Int.log 2 |x| - q

/-- rounding to `q + 1` significant bits (to nearest, ties to even) without overflow or underflow -/
noncomputable def rndP (q : Nat) (x : ℝ) : ℝ := roundEven (x / (2 : ℝ) ^ expoP q x) * (2 : ℝ) ^ expoP q x

theorem rndP_zero : rndP q 0 = 0 := by
  unfold rndP; rw [zero_div]
  have := roundEven_int 0
  simp only [Int.cast_zero] at this
  rw [this]; simp

theorem expoP_eq {x : ℝ} {k : ℤ} (h1 : (2 : ℝ) ^ k ≤ |x|) (h2 : |x| < (2 : ℝ) ^ (k + 1)) :
    expoP q x = k - q := by
  have hx : 0 < |x| := lt_of_lt_of_le (by positivity) h1
  have ha : k ≤ Int.log 2 |x| := (Int.zpow_le_iff_le_log (by norm_num) hx).1 (by exact_mod_cast h1)
  have hb : Int.log 2 |x| < k + 1 := (Int.lt_zpow_iff_log_lt (by norm_num) hx).1 (by exact_mod_cast h2)
  unfold expoP; omega

theorem expoP_spec {x : ℝ} (hx : x ≠ 0) : (2 : ℝ) ^ (expoP q x + q) ≤ |x| ∧
    |x| < (2 : ℝ) ^ (expoP q x + (q + 1)) := by
  have h0 : 0 < |x| := abs_pos.2 hx
  constructor
  · have := Int.zpow_log_le_self (b := 2) (r := |x|) (by norm_num) h0
    unfold expoP; rw [sub_add_cancel]; exact_mod_cast this
  · have := Int.lt_zpow_succ_log_self (R := ℝ) (b := 2) (by norm_num) |x|
    unfold expoP
    rw [show Int.log 2 |x| - q + (q + 1) = Int.log 2 |x| + 1 by ring]
    exact_mod_cast this

/-- evaluating `rndP` at a given number: `2^k ≤ |x| < 2^(k+1)` and `m` the nearest significand -/
theorem rndP_eq {x : ℝ} (k m : ℤ) (h1 : (2 : ℝ) ^ k ≤ |x|) (h2 : |x| < (2 : ℝ) ^ (k + 1))
    (h3 : |x / (2 : ℝ) ^ (k - q) - m| < 1 / 2) : rndP q x = m * (2 : ℝ) ^ (k - q) := by
  unfold rndP
  rw [expoP_eq h1 h2, roundEven_eq h3]

theorem rndP_err (x : ℝ) : |rndP q x - x| ≤ (2 : ℝ) ^ (-((q : ℤ) + 1)) * |x| := by
  by_cases hx : x = 0
  · subst hx; simp [rndP_zero]
  have he := (expoP_spec (q := q) hx).1
  set e := expoP q x with hedef
  have hpos : (0 : ℝ) < (2 : ℝ) ^ e := by positivity
  have h1 := roundEven_err (x / (2 : ℝ) ^ e)
  have h2 : rndP q x - x = ((roundEven (x / (2 : ℝ) ^ e) : ℝ) - x / (2 : ℝ) ^ e) * (2 : ℝ) ^ e := by
    unfold rndP; rw [← hedef, sub_mul, div_mul_cancel₀ _ hpos.ne']
  rw [h2, abs_mul, abs_of_pos hpos]
  have h3 : (2 : ℝ) ^ (-((q : ℤ) + 1)) * (2 : ℝ) ^ (e + q) = 1 / 2 * (2 : ℝ) ^ e := by
    rw [← zpow_add₀ (by norm_num : (2 : ℝ) ≠ 0), show (-((q : ℤ) + 1)) + (e + q) = e + (-1) by ring,
      zpow_add₀ (by norm_num : (2 : ℝ) ≠ 0)]
    norm_num; ring
  have h4 := mul_le_mul_of_nonneg_left he (by positivity : (0 : ℝ) ≤ (2 : ℝ) ^ (-((q : ℤ) + 1)))
  have h5 := mul_le_mul_of_nonneg_right h1 hpos.le
  linarith

theorem rndP_double (x : ℝ) : rndP q (2 * x) = 2 * rndP q x := by
  by_cases hx : x = 0
  · subst hx; simp [rndP_zero]
  obtain ⟨ha, hb⟩ := expoP_spec (q := q) hx
  have he : expoP q (2 * x) = (expoP q x + (q + 1)) - q := by
    apply expoP_eq
    · rw [abs_mul, abs_two, show expoP q x + (q + 1) = 1 + (expoP q x + q) by ring,
        zpow_add₀ (by norm_num : (2 : ℝ) ≠ 0), zpow_one]
      linarith
    · rw [abs_mul, abs_two, show expoP q x + (q + 1) + 1 = 1 + (expoP q x + (q + 1)) by ring,
        zpow_add₀ (by norm_num : (2 : ℝ) ≠ 0), zpow_one]
      linarith
  unfold rndP
  rw [he, show expoP q x + (q + 1) - q = 1 + expoP q x by ring, zpow_add₀ (by norm_num : (2 : ℝ) ≠ 0), zpow_one,
    mul_div_mul_left _ _ (by norm_num : (2 : ℝ) ≠ 0)]
  ring

/-- integers below `2^(q+1)` in size, times a power of two, are floating-point numbers -/
theorem rndP_rep (m e : ℤ) (hm : |m| ≤ 2 ^ (q + 1)) : rndP q (m * (2 : ℝ) ^ e) = m * (2 : ℝ) ^ e := by
  by_cases hx : (m * (2 : ℝ) ^ e : ℝ) = 0
  · rw [hx, rndP_zero]
  set x : ℝ := m * (2 : ℝ) ^ e with hxd
  have hpe : (0 : ℝ) < (2 : ℝ) ^ e := by positivity
  obtain ⟨ha, hb⟩ := expoP_spec (q := q) hx
  have hxabs : |x| = |(m : ℝ)| * (2 : ℝ) ^ e := by rw [hxd, abs_mul, abs_of_pos hpe]
  have hmr : |(m : ℝ)| ≤ 2 ^ (q + 1) := by exact_mod_cast hm
  -- the exponent is at most `e`, or `m = ± 2^(q+1)` and it is `e + 1`
  by_cases hle : expoP q x ≤ e
  · obtain ⟨d, hd⟩ := Int.eq_ofNat_of_zero_le (sub_nonneg.2 hle)
    have hed : e = d + expoP q x := by omega
    have hq : x / (2 : ℝ) ^ expoP q x = ((m * 2 ^ d : ℤ) : ℝ) := by
      rw [hxd, ← hxd, hxd]
      conv_lhs => rw [hed]
      rw [← hed]
      push_cast
      rw [← hxd]
      rw [div_eq_iff (by positivity), hxd]
      conv_lhs => rw [hed, zpow_add₀ (by norm_num : (2 : ℝ) ≠ 0), zpow_natCast]
      ring
    unfold rndP
    rw [hq, roundEven_int]
    rw [← hq, div_mul_cancel₀ _ (by positivity)]
  · have hge : e + 1 ≤ expoP q x := by omega
    have hbig : (2 : ℝ) ^ (e + (q + 1)) ≤ |x| :=
      le_trans (zpow_le_zpow_right₀ (by norm_num) (by omega)) ha
    rw [hxabs, zpow_add₀ (by norm_num : (2 : ℝ) ≠ 0), mul_comm] at hbig
    have hmq : |(m : ℝ)| = 2 ^ (q + 1) := by
      have := le_of_mul_le_mul_right hbig hpe
      refine le_antisymm hmr ?_
      exact_mod_cast this
    have hx2 : |x| = (2 : ℝ) ^ (e + (q + 1)) := by
      rw [hxabs, hmq, zpow_add₀ (by norm_num : (2 : ℝ) ≠ 0), mul_comm]; simp [zpow_q]
    have hee : expoP q x = (e + (q + 1)) - q := by
      apply expoP_eq hx2.symm.le
      rw [hx2]; exact zpow_lt_zpow_right₀ (by norm_num) (by omega)
    have hmi : |m| = 2 ^ (q + 1) := by exact_mod_cast hmq
    have hq : x / (2 : ℝ) ^ expoP q x = ((m / 2 : ℤ) : ℝ) := by
      have h2 : (m : ℝ) = ((m / 2 : ℤ) : ℝ) * 2 := by
        have : m = (m / 2) * 2 := by
          rcases abs_cases m with ⟨h, _⟩ | ⟨h, _⟩ <;> omega
        exact_mod_cast this
      rw [div_eq_iff (by positivity), hee, hxd]
      conv_lhs => rw [h2]
      rw [show e + (q + 1) - q = 1 + e by ring, zpow_add₀ (by norm_num : (2 : ℝ) ≠ 0), zpow_one]
      ring
    unfold rndP
    rw [hq, roundEven_int, ← hq, div_mul_cancel₀ _ (by positivity)]

theorem rndP_idem (x : ℝ) : rndP q (rndP q x) = rndP q x := by
  by_cases hx : x = 0
  · subst hx; simp [rndP_zero]
  have hb := (expoP_spec (q := q) hx).2
  unfold rndP
  set e := expoP q x with he
  set m := roundEven (x / (2 : ℝ) ^ e) with hm
  have hpos : (0 : ℝ) < (2 : ℝ) ^ e := by positivity
  refine rndP_rep (q := q) m e ?_
  have h1 : |x / (2 : ℝ) ^ e| ≤ ((2 ^ (q + 1) : ℤ) : ℝ) := by
    rw [abs_div, abs_of_pos hpos, div_le_iff₀ hpos]
    rw [zpow_add₀ (by norm_num : (2 : ℝ) ≠ 0), mul_comm] at hb
    refine hb.le.trans (le_of_eq ?_)
    simp [zpow_q]
  obtain ⟨h2, h3⟩ := abs_le.1 h1
  have h4 := roundEven_mono h3
  have h5 := roundEven_mono h2
  rw [roundEven_int] at h4
  rw [show (-((2 ^ (q + 1) : ℤ) : ℝ)) = ((-(2 ^ (q + 1)) : ℤ) : ℝ) by push_cast; ring, roundEven_int] at h5
  exact abs_le.2 ⟨h5, h4⟩

/-- powers of two round to themselves -/
theorem rndP_pow (k : ℤ) : rndP q ((2 : ℝ) ^ k) = (2 : ℝ) ^ k := by
  have := rndP_rep (q := q) 1 k (by simpa using one_le_two_q)
  simpa using this

theorem rndP_neg_pow (k : ℤ) : rndP q (-(2 : ℝ) ^ k) = -(2 : ℝ) ^ k := by
  have := rndP_rep (q := q) (-1) k (by simpa using one_le_two_q)
  simpa using this

theorem rndP_mono_same {x y : ℝ} (h : x ≤ y) (he : expoP q x = expoP q y) : rndP q x ≤ rndP q y := by
  unfold rndP
  rw [he]
  have hpos : (0 : ℝ) < (2 : ℝ) ^ expoP q y := by positivity
  have := roundEven_mono (div_le_div_of_nonneg_right h hpos.le)
  exact mul_le_mul_of_nonneg_right (by exact_mod_cast this) hpos.le

theorem rndP_nonneg {x : ℝ} (h : 0 ≤ x) : 0 ≤ rndP q x := by
  unfold rndP
  have hpos : (0 : ℝ) < (2 : ℝ) ^ expoP q x := by positivity
  have := roundEven_mono (div_nonneg h hpos.le)
  have h0 := roundEven_int 0
  simp only [Int.cast_zero] at h0
  rw [h0] at this
  exact mul_nonneg (by exact_mod_cast this) hpos.le

theorem rndP_nonpos {x : ℝ} (h : x ≤ 0) : rndP q x ≤ 0 := by
  unfold rndP
  have hpos : (0 : ℝ) < (2 : ℝ) ^ expoP q x := by positivity
  have := roundEven_mono (div_nonpos_of_nonpos_of_nonneg h hpos.le)
  have h0 := roundEven_int 0
  simp only [Int.cast_zero] at h0
  rw [h0] at this
  exact mul_nonpos_of_nonpos_of_nonneg (by exact_mod_cast this) hpos.le

/-- a number in `[2^k, 2^(k+1))` rounds into `[2^k, 2^(k+1)]` -/
theorem rndP_range {x : ℝ} (hx : x ≠ 0) : (2 : ℝ) ^ (expoP q x + q) ≤ |rndP q x| ∧
    |rndP q x| ≤ (2 : ℝ) ^ (expoP q x + (q + 1)) := by
  obtain ⟨ha, hb⟩ := expoP_spec (q := q) hx
  set e := expoP q x with he
  have hpos : (0 : ℝ) < (2 : ℝ) ^ e := by positivity
  have hr : |rndP q x| = |((roundEven (x / (2 : ℝ) ^ e) : ℤ) : ℝ)| * (2 : ℝ) ^ e := by
    unfold rndP; rw [← he, abs_mul, abs_of_pos hpos]
  have hq : |x / (2 : ℝ) ^ e| = |x| / (2 : ℝ) ^ e := by rw [abs_div, abs_of_pos hpos]
  have h52 : (2 : ℝ) ^ (e + q) = 2 ^ q * (2 : ℝ) ^ e := by
    rw [zpow_add₀ (by norm_num : (2 : ℝ) ≠ 0), mul_comm]; simp [zpow_q]
  have h53 : (2 : ℝ) ^ (e + (q + 1)) = 2 ^ (q + 1) * (2 : ℝ) ^ e := by
    rw [zpow_add₀ (by norm_num : (2 : ℝ) ≠ 0), mul_comm]; simp [zpow_q]
  rw [hr, h52, h53]
  rw [h52, ← le_div_iff₀ hpos, ← hq] at ha
  rw [h53, ← div_lt_iff₀ hpos, ← hq] at hb
  set y := x / (2 : ℝ) ^ e
  have key : (2 ^ q : ℤ) ≤ |roundEven y| ∧ |roundEven y| ≤ (2 ^ (q + 1) : ℤ) := by
    rcases le_total 0 y with hy | hy
    · rw [abs_of_nonneg hy] at ha hb
      have h1 : ((2 ^ q : ℤ) : ℝ) ≤ y := by exact_mod_cast ha
      have h2 : y ≤ ((2 ^ (q + 1) : ℤ) : ℝ) := by exact_mod_cast hb.le
      have h3 := roundEven_mono h1
      have h4 := roundEven_mono h2
      rw [roundEven_int] at h3 h4
      rw [abs_of_nonneg (le_trans (by norm_num) h3)]
      exact ⟨h3, h4⟩
    · rw [abs_of_nonpos hy] at ha hb
      have h1 : y ≤ ((-(2 ^ q) : ℤ) : ℝ) := by push_cast; linarith
      have h2 : ((-(2 ^ (q + 1)) : ℤ) : ℝ) ≤ y := by push_cast; linarith
      have h3 := roundEven_mono h1
      have h4 := roundEven_mono h2
      rw [roundEven_int] at h3 h4
      rw [abs_of_nonpos (le_trans h3 (by norm_num))]
      constructor <;> omega
  have k1 : ((2 ^ q : ℤ) : ℝ) ≤ |((roundEven y : ℤ) : ℝ)| := by exact_mod_cast key.1
  have k2 : |((roundEven y : ℤ) : ℝ)| ≤ ((2 ^ (q + 1) : ℤ) : ℝ) := by exact_mod_cast key.2
  have k3 : (2 : ℝ) ^ q = ((2 ^ q : ℤ) : ℝ) := by norm_num
  have k4 : (2 : ℝ) ^ (q + 1) = ((2 ^ (q + 1) : ℤ) : ℝ) := by norm_num
  rw [k3, k4]
  exact ⟨mul_le_mul_of_nonneg_right k1 hpos.le, mul_le_mul_of_nonneg_right k2 hpos.le⟩

theorem expoP_mono {x y : ℝ} (hx : x ≠ 0) (h : |x| ≤ |y|) : expoP q x ≤ expoP q y := by
  unfold expoP
  have := Int.log_mono_right (b := 2) (abs_pos.2 hx) h
  omega

theorem rndP_mono (x y : ℝ) (h : x ≤ y) : rndP q x ≤ rndP q y := by
  rcases le_total x 0 with hx0 | hx0
  · rcases le_total 0 y with hy0 | hy0
    · exact (rndP_nonpos hx0).trans (rndP_nonneg hy0)
    · by_cases hyz : y = 0
      · rw [hyz, rndP_zero]; exact rndP_nonpos hx0
      have hxz : x ≠ 0 := by
        rintro rfl; exact hyz (le_antisymm hy0 h)
      have habs : |y| ≤ |x| := by rw [abs_of_nonpos hx0, abs_of_nonpos hy0]; linarith
      rcases lt_or_eq_of_le (expoP_mono (q := q) hyz habs) with hlt | heq
      · have h1 := (rndP_range (q := q) hxz).1
        have h2 := (rndP_range (q := q) hyz).2
        rw [abs_of_nonpos (rndP_nonpos hx0)] at h1
        rw [abs_of_nonpos (rndP_nonpos hy0)] at h2
        have h3 : (2 : ℝ) ^ (expoP q y + (q + 1)) ≤ (2 : ℝ) ^ (expoP q x + q) :=
          zpow_le_zpow_right₀ (by norm_num) (by omega)
        linarith
      · exact rndP_mono_same h heq.symm
  · have hy0 := hx0.trans h
    by_cases hxz : x = 0
    · rw [hxz, rndP_zero]; exact rndP_nonneg hy0
    have hyz : y ≠ 0 := by
      rintro rfl; exact hxz (le_antisymm h hx0)
    have habs : |x| ≤ |y| := by rw [abs_of_nonneg hx0, abs_of_nonneg hy0]; exact h
    rcases lt_or_eq_of_le (expoP_mono (q := q) hxz habs) with hlt | heq
    · have h1 := (rndP_range (q := q) hyz).1
      have h2 := (rndP_range (q := q) hxz).2
      rw [abs_of_nonneg (rndP_nonneg hx0)] at h2
      rw [abs_of_nonneg (rndP_nonneg hy0)] at h1
      have h3 : (2 : ℝ) ^ (expoP q x + (q + 1)) ≤ (2 : ℝ) ^ (expoP q y + q) :=
        zpow_le_zpow_right₀ (by norm_num) (by omega)
      linarith
    · exact rndP_mono_same h heq

/-- **rounding to `q + 1` bits is a `Rounding` with unit roundoff `2^(-(q+1))`.** -/
noncomputable def binP (q : Nat) : Rounding ((2 : ℝ) ^ (-((q : ℤ) + 1))) where
  rnd := rndP q
  err := rndP_err
  mono := rndP_mono
  idem := rndP_idem
  double := rndP_double
  one := by simpa using rndP_pow (q := q) 0

end Ellalgo
