import Verif.Lib.Rounded
import Mathlib.Algebra.Order.Floor.Ring
import Mathlib.Algebra.Group.Int.Even
import Mathlib.Tactic.FieldSimp

/-! # IEEE-754 binary64 rounding (round to nearest, ties to even) with unbounded exponent range -/

namespace Ellalgo

/-- nearest integer, ties to even -/
noncomputable def roundEven (y : ℝ) : ℤ :=
  if Int.fract y < 1 / 2 then ⌊y⌋
  else if 1 / 2 < Int.fract y then ⌊y⌋ + 1
  else if Even ⌊y⌋ then ⌊y⌋ else ⌊y⌋ + 1

theorem roundEven_cases (y : ℝ) : roundEven y = ⌊y⌋ ∧ Int.fract y ≤ 1 / 2 ∨
    roundEven y = ⌊y⌋ + 1 ∧ 1 / 2 ≤ Int.fract y := by
  unfold roundEven
  split_ifs with h1 h2 h3
  · exact .inl ⟨rfl, h1.le⟩
  · exact .inr ⟨rfl, h2.le⟩
  · exact .inl ⟨rfl, not_lt.1 h2⟩
  · exact .inr ⟨rfl, not_lt.1 h1⟩

theorem roundEven_err (y : ℝ) : |(roundEven y : ℝ) - y| ≤ 1 / 2 := by
  have hf : y = ⌊y⌋ + Int.fract y := (Int.floor_add_fract y).symm
  have h0 := Int.fract_nonneg y
  have h1 := Int.fract_lt_one y
  rw [abs_le]
  rcases roundEven_cases y with ⟨h, hc⟩ | ⟨h, hc⟩
  · rw [h]; constructor <;> linarith
  · rw [h]; push_cast; constructor <;> linarith

theorem roundEven_mono {x y : ℝ} (h : x ≤ y) : roundEven x ≤ roundEven y := by
  have hfl := Int.floor_mono h
  rcases lt_or_eq_of_le hfl with hlt | heq
  · have hx : roundEven x ≤ ⌊x⌋ + 1 := by
      rcases roundEven_cases x with ⟨h, _⟩ | ⟨h, _⟩ <;> omega
    have hy : ⌊y⌋ ≤ roundEven y := by
      rcases roundEven_cases y with ⟨h, _⟩ | ⟨h, _⟩ <;> omega
    omega
  · have hfr : Int.fract x ≤ Int.fract y := by
      have h1 := Int.floor_add_fract x
      have h2 := Int.floor_add_fract y
      have : (⌊x⌋ : ℝ) = ⌊y⌋ := by rw [heq]
      linarith
    unfold roundEven
    rw [heq]
    split_ifs <;> first | omega | (exfalso; linarith)

theorem roundEven_int (k : ℤ) : roundEven (k : ℝ) = k := by
  unfold roundEven; simp

theorem roundEven_eq {y : ℝ} {m : ℤ} (h : |y - m| < 1 / 2) : roundEven y = m := by
  have h1 := roundEven_err y
  have h2 : |((roundEven y - m : ℤ) : ℝ)| < 1 := by
    push_cast
    have := abs_add_le ((roundEven y : ℝ) - y) (y - m)
    rw [show (roundEven y : ℝ) - y + (y - m) = roundEven y - m by ring] at this
    linarith
  have h3 : |roundEven y - m| < 1 := by exact_mod_cast h2
  have := Int.abs_lt_one_iff.1 h3
  omega

theorem roundEven_tie {y : ℝ} {k : ℤ} (h : y = k + 1 / 2) :
    roundEven y = if Even k then k else k + 1 := by
  have hf : ⌊y⌋ = k := by
    rw [Int.floor_eq_iff]; constructor <;> linarith
  have hr : Int.fract y = 1 / 2 := by
    unfold Int.fract; rw [hf]; linarith
  unfold roundEven
  rw [hr, hf]; simp

/-- the exponent of the last of `53` significant bits -/
noncomputable def expo53 (x : ℝ) : ℤ := Int.log 2 |x| - 52

/-- `f64` rounding without overflow or underflow -/
noncomputable def rnd53 (x : ℝ) : ℝ := roundEven (x / (2 : ℝ) ^ expo53 x) * (2 : ℝ) ^ expo53 x

theorem rnd53_zero : rnd53 0 = 0 := by
  unfold rnd53; rw [zero_div]
  have := roundEven_int 0
  simp only [Int.cast_zero] at this
  rw [this]; simp

theorem expo53_eq {x : ℝ} {k : ℤ} (h1 : (2 : ℝ) ^ k ≤ |x|) (h2 : |x| < (2 : ℝ) ^ (k + 1)) :
    expo53 x = k - 52 := by
  have hx : 0 < |x| := lt_of_lt_of_le (by positivity) h1
  have ha : k ≤ Int.log 2 |x| := (Int.zpow_le_iff_le_log (by norm_num) hx).1 (by exact_mod_cast h1)
  have hb : Int.log 2 |x| < k + 1 := (Int.lt_zpow_iff_log_lt (by norm_num) hx).1 (by exact_mod_cast h2)
  unfold expo53; omega

theorem expo53_spec {x : ℝ} (hx : x ≠ 0) : (2 : ℝ) ^ (expo53 x + 52) ≤ |x| ∧
    |x| < (2 : ℝ) ^ (expo53 x + 53) := by
  have h0 : 0 < |x| := abs_pos.2 hx
  constructor
  · have := Int.zpow_log_le_self (b := 2) (r := |x|) (by norm_num) h0
    unfold expo53; rw [sub_add_cancel]; exact_mod_cast this
  · have := Int.lt_zpow_succ_log_self (R := ℝ) (b := 2) (by norm_num) |x|
    unfold expo53
    rw [show Int.log 2 |x| - 52 + 53 = Int.log 2 |x| + 1 by ring]
    exact_mod_cast this

/-- evaluating `rnd53` at a given number: `2^k ≤ |x| < 2^(k+1)` and `m` the nearest significand -/
theorem rnd53_eq {x : ℝ} (k m : ℤ) (h1 : (2 : ℝ) ^ k ≤ |x|) (h2 : |x| < (2 : ℝ) ^ (k + 1))
    (h3 : |x / (2 : ℝ) ^ (k - 52) - m| < 1 / 2) : rnd53 x = m * (2 : ℝ) ^ (k - 52) := by
  unfold rnd53
  rw [expo53_eq h1 h2, roundEven_eq h3]

theorem rnd53_err (x : ℝ) : |rnd53 x - x| ≤ (2 : ℝ) ^ (-53 : ℤ) * |x| := by
  by_cases hx : x = 0
  · subst hx; simp [rnd53_zero]
  have he := (expo53_spec hx).1
  set e := expo53 x with hedef
  have hpos : (0 : ℝ) < (2 : ℝ) ^ e := by positivity
  have h1 := roundEven_err (x / (2 : ℝ) ^ e)
  have h2 : rnd53 x - x = ((roundEven (x / (2 : ℝ) ^ e) : ℝ) - x / (2 : ℝ) ^ e) * (2 : ℝ) ^ e := by
    unfold rnd53; rw [← hedef, sub_mul, div_mul_cancel₀ _ hpos.ne']
  rw [h2, abs_mul, abs_of_pos hpos]
  have h3 : (2 : ℝ) ^ (-53 : ℤ) * (2 : ℝ) ^ (e + 52) = 1 / 2 * (2 : ℝ) ^ e := by
    rw [← zpow_add₀ (by norm_num : (2 : ℝ) ≠ 0), show (-53 : ℤ) + (e + 52) = e + (-1) by ring,
      zpow_add₀ (by norm_num : (2 : ℝ) ≠ 0)]
    norm_num; ring
  have h4 := mul_le_mul_of_nonneg_left he (by positivity : (0 : ℝ) ≤ (2 : ℝ) ^ (-53 : ℤ))
  have h5 := mul_le_mul_of_nonneg_right h1 hpos.le
  linarith

theorem rnd53_double (x : ℝ) : rnd53 (2 * x) = 2 * rnd53 x := by
  by_cases hx : x = 0
  · subst hx; simp [rnd53_zero]
  obtain ⟨ha, hb⟩ := expo53_spec hx
  have he : expo53 (2 * x) = (expo53 x + 53) - 52 := by
    apply expo53_eq
    · rw [abs_mul, abs_two, show expo53 x + 53 = 1 + (expo53 x + 52) by ring,
        zpow_add₀ (by norm_num : (2 : ℝ) ≠ 0), zpow_one]
      linarith
    · rw [abs_mul, abs_two, show expo53 x + 53 + 1 = 1 + (expo53 x + 53) by ring,
        zpow_add₀ (by norm_num : (2 : ℝ) ≠ 0), zpow_one]
      linarith
  unfold rnd53
  rw [he, show expo53 x + 53 - 52 = 1 + expo53 x by ring, zpow_add₀ (by norm_num : (2 : ℝ) ≠ 0), zpow_one,
    mul_div_mul_left _ _ (by norm_num : (2 : ℝ) ≠ 0)]
  ring

/-- integers below `2^53` in size, times a power of two, are floating-point numbers -/
theorem rnd53_rep (m e : ℤ) (hm : |m| ≤ 2 ^ 53) : rnd53 (m * (2 : ℝ) ^ e) = m * (2 : ℝ) ^ e := by
  by_cases hx : (m * (2 : ℝ) ^ e : ℝ) = 0
  · rw [hx, rnd53_zero]
  set x : ℝ := m * (2 : ℝ) ^ e with hxd
  have hpe : (0 : ℝ) < (2 : ℝ) ^ e := by positivity
  obtain ⟨ha, hb⟩ := expo53_spec hx
  have hxabs : |x| = |(m : ℝ)| * (2 : ℝ) ^ e := by rw [hxd, abs_mul, abs_of_pos hpe]
  have hmr : |(m : ℝ)| ≤ 2 ^ 53 := by exact_mod_cast hm
  -- the exponent is at most `e`, or `m = ± 2^53` and it is `e + 1`
  by_cases hle : expo53 x ≤ e
  · obtain ⟨d, hd⟩ := Int.eq_ofNat_of_zero_le (sub_nonneg.2 hle)
    have hed : e = d + expo53 x := by omega
    have hq : x / (2 : ℝ) ^ expo53 x = ((m * 2 ^ d : ℤ) : ℝ) := by
      rw [hxd, ← hxd, hxd]
      conv_lhs => rw [hed]
      rw [← hed]
      push_cast
      rw [← hxd]
      rw [div_eq_iff (by positivity), hxd]
      conv_lhs => rw [hed, zpow_add₀ (by norm_num : (2 : ℝ) ≠ 0), zpow_natCast]
      ring
    unfold rnd53
    rw [hq, roundEven_int]
    rw [← hq, div_mul_cancel₀ _ (by positivity)]
  · have hge : e + 1 ≤ expo53 x := by omega
    have hbig : (2 : ℝ) ^ (e + 53) ≤ |x| :=
      le_trans (zpow_le_zpow_right₀ (by norm_num) (by omega)) ha
    rw [hxabs, zpow_add₀ (by norm_num : (2 : ℝ) ≠ 0), mul_comm] at hbig
    have hm53 : |(m : ℝ)| = 2 ^ 53 := by
      have := le_of_mul_le_mul_right hbig hpe
      refine le_antisymm hmr ?_
      exact_mod_cast this
    have hx2 : |x| = (2 : ℝ) ^ (e + 53) := by
      rw [hxabs, hm53, zpow_add₀ (by norm_num : (2 : ℝ) ≠ 0), mul_comm]; norm_num
    have hee : expo53 x = (e + 53) - 52 := by
      apply expo53_eq hx2.symm.le
      rw [hx2]; exact zpow_lt_zpow_right₀ (by norm_num) (by omega)
    have hmi : |m| = 2 ^ 53 := by exact_mod_cast hm53
    have hq : x / (2 : ℝ) ^ expo53 x = ((m / 2 : ℤ) : ℝ) := by
      have h2 : (m : ℝ) = ((m / 2 : ℤ) : ℝ) * 2 := by
        have : m = (m / 2) * 2 := by
          rcases abs_cases m with ⟨h, _⟩ | ⟨h, _⟩ <;> omega
        exact_mod_cast this
      rw [div_eq_iff (by positivity), hee, hxd]
      conv_lhs => rw [h2]
      rw [show e + 53 - 52 = 1 + e by ring, zpow_add₀ (by norm_num : (2 : ℝ) ≠ 0), zpow_one]
      ring
    unfold rnd53
    rw [hq, roundEven_int, ← hq, div_mul_cancel₀ _ (by positivity)]

theorem rnd53_idem (x : ℝ) : rnd53 (rnd53 x) = rnd53 x := by
  by_cases hx : x = 0
  · subst hx; simp [rnd53_zero]
  have hb := (expo53_spec hx).2
  unfold rnd53
  set e := expo53 x with he
  set m := roundEven (x / (2 : ℝ) ^ e) with hm
  have hpos : (0 : ℝ) < (2 : ℝ) ^ e := by positivity
  refine rnd53_rep m e ?_
  have h1 : |x / (2 : ℝ) ^ e| ≤ ((2 ^ 53 : ℤ) : ℝ) := by
    rw [abs_div, abs_of_pos hpos, div_le_iff₀ hpos]
    rw [zpow_add₀ (by norm_num : (2 : ℝ) ≠ 0), mul_comm] at hb
    refine hb.le.trans (le_of_eq ?_)
    norm_num
  obtain ⟨h2, h3⟩ := abs_le.1 h1
  have h4 := roundEven_mono h3
  have h5 := roundEven_mono h2
  rw [roundEven_int] at h4
  rw [show (-((2 ^ 53 : ℤ) : ℝ)) = ((-(2 ^ 53) : ℤ) : ℝ) by push_cast; ring, roundEven_int] at h5
  exact abs_le.2 ⟨h5, h4⟩

/-- powers of two round to themselves -/
theorem rnd53_pow (k : ℤ) : rnd53 ((2 : ℝ) ^ k) = (2 : ℝ) ^ k := by
  have := rnd53_rep 1 k (by norm_num)
  simpa using this

theorem rnd53_neg_pow (k : ℤ) : rnd53 (-(2 : ℝ) ^ k) = -(2 : ℝ) ^ k := by
  have := rnd53_rep (-1) k (by norm_num)
  simpa using this

theorem rnd53_mono_same {x y : ℝ} (h : x ≤ y) (he : expo53 x = expo53 y) : rnd53 x ≤ rnd53 y := by
  unfold rnd53
  rw [he]
  have hpos : (0 : ℝ) < (2 : ℝ) ^ expo53 y := by positivity
  have := roundEven_mono (div_le_div_of_nonneg_right h hpos.le)
  exact mul_le_mul_of_nonneg_right (by exact_mod_cast this) hpos.le

theorem rnd53_nonneg {x : ℝ} (h : 0 ≤ x) : 0 ≤ rnd53 x := by
  unfold rnd53
  have hpos : (0 : ℝ) < (2 : ℝ) ^ expo53 x := by positivity
  have := roundEven_mono (div_nonneg h hpos.le)
  have h0 := roundEven_int 0
  simp only [Int.cast_zero] at h0
  rw [h0] at this
  exact mul_nonneg (by exact_mod_cast this) hpos.le

theorem rnd53_nonpos {x : ℝ} (h : x ≤ 0) : rnd53 x ≤ 0 := by
  unfold rnd53
  have hpos : (0 : ℝ) < (2 : ℝ) ^ expo53 x := by positivity
  have := roundEven_mono (div_nonpos_of_nonpos_of_nonneg h hpos.le)
  have h0 := roundEven_int 0
  simp only [Int.cast_zero] at h0
  rw [h0] at this
  exact mul_nonpos_of_nonpos_of_nonneg (by exact_mod_cast this) hpos.le

/-- a number in `[2^k, 2^(k+1))` rounds into `[2^k, 2^(k+1)]` -/
theorem rnd53_range {x : ℝ} (hx : x ≠ 0) : (2 : ℝ) ^ (expo53 x + 52) ≤ |rnd53 x| ∧
    |rnd53 x| ≤ (2 : ℝ) ^ (expo53 x + 53) := by
  obtain ⟨ha, hb⟩ := expo53_spec hx
  set e := expo53 x with he
  have hpos : (0 : ℝ) < (2 : ℝ) ^ e := by positivity
  have hr : |rnd53 x| = |((roundEven (x / (2 : ℝ) ^ e) : ℤ) : ℝ)| * (2 : ℝ) ^ e := by
    unfold rnd53; rw [← he, abs_mul, abs_of_pos hpos]
  have hq : |x / (2 : ℝ) ^ e| = |x| / (2 : ℝ) ^ e := by rw [abs_div, abs_of_pos hpos]
  have h52 : (2 : ℝ) ^ (e + 52) = 2 ^ 52 * (2 : ℝ) ^ e := by
    rw [zpow_add₀ (by norm_num : (2 : ℝ) ≠ 0), mul_comm]; norm_num
  have h53 : (2 : ℝ) ^ (e + 53) = 2 ^ 53 * (2 : ℝ) ^ e := by
    rw [zpow_add₀ (by norm_num : (2 : ℝ) ≠ 0), mul_comm]; norm_num
  rw [hr, h52, h53]
  rw [h52, ← le_div_iff₀ hpos, ← hq] at ha
  rw [h53, ← div_lt_iff₀ hpos, ← hq] at hb
  set y := x / (2 : ℝ) ^ e
  have key : (2 ^ 52 : ℤ) ≤ |roundEven y| ∧ |roundEven y| ≤ (2 ^ 53 : ℤ) := by
    rcases le_total 0 y with hy | hy
    · rw [abs_of_nonneg hy] at ha hb
      have h1 : ((2 ^ 52 : ℤ) : ℝ) ≤ y := by exact_mod_cast ha
      have h2 : y ≤ ((2 ^ 53 : ℤ) : ℝ) := by exact_mod_cast hb.le
      have h3 := roundEven_mono h1
      have h4 := roundEven_mono h2
      rw [roundEven_int] at h3 h4
      rw [abs_of_nonneg (le_trans (by norm_num) h3)]
      exact ⟨h3, h4⟩
    · rw [abs_of_nonpos hy] at ha hb
      have h1 : y ≤ ((-(2 ^ 52) : ℤ) : ℝ) := by push_cast; linarith
      have h2 : ((-(2 ^ 53) : ℤ) : ℝ) ≤ y := by push_cast; linarith
      have h3 := roundEven_mono h1
      have h4 := roundEven_mono h2
      rw [roundEven_int] at h3 h4
      rw [abs_of_nonpos (le_trans h3 (by norm_num))]
      constructor <;> omega
  have k1 : ((2 ^ 52 : ℤ) : ℝ) ≤ |((roundEven y : ℤ) : ℝ)| := by exact_mod_cast key.1
  have k2 : |((roundEven y : ℤ) : ℝ)| ≤ ((2 ^ 53 : ℤ) : ℝ) := by exact_mod_cast key.2
  have k3 : (2 : ℝ) ^ 52 = ((2 ^ 52 : ℤ) : ℝ) := by norm_num
  have k4 : (2 : ℝ) ^ 53 = ((2 ^ 53 : ℤ) : ℝ) := by norm_num
  rw [k3, k4]
  exact ⟨mul_le_mul_of_nonneg_right k1 hpos.le, mul_le_mul_of_nonneg_right k2 hpos.le⟩

theorem expo53_mono {x y : ℝ} (hx : x ≠ 0) (h : |x| ≤ |y|) : expo53 x ≤ expo53 y := by
  unfold expo53
  have := Int.log_mono_right (b := 2) (abs_pos.2 hx) h
  omega

theorem rnd53_mono (x y : ℝ) (h : x ≤ y) : rnd53 x ≤ rnd53 y := by
  rcases le_total x 0 with hx0 | hx0
  · rcases le_total 0 y with hy0 | hy0
    · exact (rnd53_nonpos hx0).trans (rnd53_nonneg hy0)
    · by_cases hyz : y = 0
      · rw [hyz, rnd53_zero]; exact rnd53_nonpos hx0
      have hxz : x ≠ 0 := by
        rintro rfl; exact hyz (le_antisymm hy0 h)
      have habs : |y| ≤ |x| := by rw [abs_of_nonpos hx0, abs_of_nonpos hy0]; linarith
      rcases lt_or_eq_of_le (expo53_mono hyz habs) with hlt | heq
      · have h1 := (rnd53_range hxz).1
        have h2 := (rnd53_range hyz).2
        rw [abs_of_nonpos (rnd53_nonpos hx0)] at h1
        rw [abs_of_nonpos (rnd53_nonpos hy0)] at h2
        have h3 : (2 : ℝ) ^ (expo53 y + 53) ≤ (2 : ℝ) ^ (expo53 x + 52) :=
          zpow_le_zpow_right₀ (by norm_num) (by omega)
        linarith
      · exact rnd53_mono_same h heq.symm
  · have hy0 := hx0.trans h
    by_cases hxz : x = 0
    · rw [hxz, rnd53_zero]; exact rnd53_nonneg hy0
    have hyz : y ≠ 0 := by
      rintro rfl; exact hxz (le_antisymm h hx0)
    have habs : |x| ≤ |y| := by rw [abs_of_nonneg hx0, abs_of_nonneg hy0]; exact h
    rcases lt_or_eq_of_le (expo53_mono hxz habs) with hlt | heq
    · have h1 := (rnd53_range hyz).1
      have h2 := (rnd53_range hxz).2
      rw [abs_of_nonneg (rnd53_nonneg hx0)] at h2
      rw [abs_of_nonneg (rnd53_nonneg hy0)] at h1
      have h3 : (2 : ℝ) ^ (expo53 x + 53) ≤ (2 : ℝ) ^ (expo53 y + 52) :=
        zpow_le_zpow_right₀ (by norm_num) (by omega)
      linarith
    · exact rnd53_mono_same h heq

/-- **binary64 rounding is a `Rounding` with unit roundoff `2⁻⁵³`.** -/
noncomputable def bin53 : Rounding ((2 : ℝ) ^ (-53 : ℤ)) where
  rnd := rnd53
  err := rnd53_err
  mono := rnd53_mono
  idem := rnd53_idem
  double := rnd53_double
  one := by simpa using rnd53_pow 0

end Ellalgo
