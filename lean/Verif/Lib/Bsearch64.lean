import Verif.Props.Binary64Range
import Verif.Props.Bsearch

/-! The midpoint of two `f64` numbers, as `bsearch` computes it. -/

namespace Ellalgo
open B64

theorem two53 : (0 : ℝ) < (2 : ℝ) ^ (-53 : ℤ) ∧ (2 : ℝ) ^ (-53 : ℤ) ≤ 1 / 8 := by
  refine ⟨by positivity, ?_⟩
  norm_num

theorem two1075 : (2 : ℝ) ^ (-1074 : ℤ) = 2 * (2 : ℝ) ^ (-1075 : ℤ) := by
  rw [show (-1074 : ℤ) = 1 + -1075 by norm_num, zpow_add₀ (by norm_num), zpow_one]

theorem two1021 : (2 : ℝ) ^ (-1021 : ℤ) = ((2 ^ 53 : ℤ) : ℝ) * (2 : ℝ) ^ (-1074 : ℤ) := by
  rw [show (-1021 : ℤ) = 53 + -1074 by norm_num, zpow_add₀ (by norm_num)]
  norm_num

/-- half of a difference of two `f64` numbers, as computed -/
theorem half_diff {L U : ℝ} (hL : rnd64 L = L) (hU : rnd64 U = U) (hLU : L ≤ U) :
    0 ≤ rnd64 (rnd64 (U - L) / 2) ∧ rnd64 (rnd64 (U - L) / 2) ≤ U - L ∧
    |rnd64 (rnd64 (U - L) / 2) - (U - L) / 2| ≤ (2 : ℝ) ^ (-53 : ℤ) * ((U - L) / 2) + (2 : ℝ) ^ (-1075 : ℤ) := by
  have hd0 : 0 ≤ U - L := sub_nonneg.2 hLU
  have hp : (0 : ℝ) < (2 : ℝ) ^ (-1074 : ℤ) := by positivity
  have hp5 : (0 : ℝ) < (2 : ℝ) ^ (-1075 : ℤ) := by positivity
  obtain ⟨h53, h8⟩ := two53
  have hnL : rnd64 (-L) = -L := by rw [rnd64_neg, hL]
  have hadd : rnd64 (U - L) = rnd53 (U - L) := by
    have := rnd64_add hU hnL
    rwa [← sub_eq_add_neg] at this
  have hmono0 : 0 ≤ rnd64 (U - L) := by
    have := rnd64_mono hd0
    rwa [rnd64_zero] at this
  have ht0 : 0 ≤ rnd64 (rnd64 (U - L) / 2) := by
    have := rnd64_mono (by linarith : (0 : ℝ) ≤ rnd64 (U - L) / 2)
    rwa [rnd64_zero] at this
  have hm := mul_nonneg h53.le hd0
  have hm8 := mul_le_mul_of_nonneg_right h8 hd0
  refine ⟨ht0, ?_⟩
  rcases lt_or_ge |rnd64 (U - L) / 2| ((2 : ℝ) ^ (-1022 : ℤ)) with hs | hs
  · -- the half is subnormal: then the difference was exact
    have hex : rnd64 (U - L) = U - L := by
      obtain ⟨j, hj⟩ := rnd64_grid U
      obtain ⟨k, hk⟩ := rnd64_grid L
      rw [hU] at hj
      rw [hL] at hk
      have e : U - L = ((j - k : ℤ) : ℝ) * (2 : ℝ) ^ (-1074 : ℤ) := by rw [hj, hk]; push_cast; ring
      have hlt : rnd64 (U - L) < (2 : ℝ) ^ (-1021 : ℤ) := by
        rw [abs_of_nonneg (by linarith)] at hs
        rw [show (-1021 : ℤ) = 1 + -1022 by norm_num, zpow_add₀ (by norm_num), zpow_one]
        linarith
      have hle : U - L ≤ (2 : ℝ) ^ (-1021 : ℤ) := by
        by_contra h
        have := rnd64_mono (not_le.1 h).le
        rw [rnd64_pow (by norm_num)] at this
        linarith
      have hb : |j - k| ≤ 2 ^ 53 := by
        rw [e, two1021] at hle
        have h2 := le_of_mul_le_mul_right hle hp
        have h3 : j - k ≤ (2 ^ 53 : ℤ) := by exact_mod_cast h2
        rw [e] at hd0
        have h4 : (0 : ℝ) ≤ ((j - k : ℤ) : ℝ) := nonneg_of_mul_nonneg_left hd0 hp
        have h5 : 0 ≤ j - k := by exact_mod_cast h4
        rwa [abs_of_nonneg h5]
      rw [e, rnd64_rep _ _ hb le_rfl]
    rw [hex] at hs ⊢
    constructor
    · have := rnd64_mono (by linarith : (U - L) / 2 ≤ U - L)
      rwa [hex] at this
    · rw [rnd64_sub hs]
      have h1 := roundEven_err ((U - L) / 2 / (2 : ℝ) ^ (-1074 : ℤ))
      have e2 : (roundEven ((U - L) / 2 / (2 : ℝ) ^ (-1074 : ℤ)) : ℝ) * (2 : ℝ) ^ (-1074 : ℤ) - (U - L) / 2 =
          ((roundEven ((U - L) / 2 / (2 : ℝ) ^ (-1074 : ℤ)) : ℝ) - (U - L) / 2 / (2 : ℝ) ^ (-1074 : ℤ)) * (2 : ℝ) ^ (-1074 : ℤ) := by
        rw [sub_mul, div_mul_cancel₀ _ hp.ne']
      rw [e2, abs_mul, abs_of_pos hp]
      have := mul_le_mul_of_nonneg_right h1 hp.le
      have e3 := two1075
      linarith
  · -- the half is exact
    have hhalf : rnd64 (rnd64 (U - L) / 2) = rnd64 (U - L) / 2 := by
      rw [rnd64_normal hs, hadd]
      have := rnd53_double (rnd53 (U - L) / 2)
      rw [mul_div_cancel₀ _ (by norm_num : (2 : ℝ) ≠ 0), rnd53_idem] at this
      linarith
    have e1 := rnd53_err (U - L)
    rw [abs_of_nonneg hd0, ← hadd, abs_le] at e1
    rw [hhalf]
    clear hs hp
    generalize (2 : ℝ) ^ (-53 : ℤ) = v at *
    generalize (2 : ℝ) ^ (-1075 : ℤ) = η at *
    refine ⟨by linarith [e1.2], ?_⟩
    rw [abs_le]
    constructor <;> linarith [e1.1, e1.2]

/-- the midpoint as computed: between the ends and close to the true midpoint -/
theorem mid64 {L U B : ℝ} (hL : rnd64 L = L) (hU : rnd64 U = U) (hLU : L ≤ U) (hLB : |L| ≤ B) (hUB : |U| ≤ B) :
    L ≤ rnd64 (L + rnd64 (rnd64 (U - L) / 2)) ∧ rnd64 (L + rnd64 (rnd64 (U - L) / 2)) ≤ U ∧
    |rnd64 (L + rnd64 (rnd64 (U - L) / 2)) - (L + U) / 2| ≤
      (2 : ℝ) ^ (-53 : ℤ) * ((U - L) / 2) + ((2 : ℝ) ^ (-53 : ℤ) * B + (2 : ℝ) ^ (-1075 : ℤ)) := by
  obtain ⟨t0, t1, t2⟩ := half_diff hL hU hLU
  have hrt : rnd64 (rnd64 (rnd64 (U - L) / 2)) = rnd64 (rnd64 (U - L) / 2) := rnd64_idem _
  obtain ⟨τ, hτ⟩ : ∃ τ, τ = rnd64 (rnd64 (U - L) / 2) := ⟨_, rfl⟩
  rw [← hτ] at t0 t1 t2 hrt ⊢
  refine ⟨?_, ?_, ?_⟩
  · have := rnd64_mono (by linarith : L ≤ L + τ)
    rwa [hL] at this
  · have := rnd64_mono (by linarith : L + τ ≤ U)
    rwa [hU] at this
  · rw [rnd64_add hL hrt]
    have e2 := rnd53_err (L + τ)
    have hB : |L + τ| ≤ B := by
      rw [abs_le] at *
      constructor <;> linarith [hLB.1, hUB.2]
    have e3 := e2.trans (mul_le_mul_of_nonneg_left hB two53.1.le)
    have : rnd53 (L + τ) - (L + U) / 2 = (rnd53 (L + τ) - (L + τ)) + (τ - (U - L) / 2) := by ring
    rw [this]
    clear this hτ hrt
    generalize (2 : ℝ) ^ (-53 : ℤ) = v at *
    generalize (2 : ℝ) ^ (-1075 : ℤ) = η at *
    linarith [abs_add_le (rnd53 (L + τ) - (L + τ)) (τ - (U - L) / 2)]

theorem nat_two64 : (nat 2 : B64).Finite ∧ (nat 2 : B64).val = 2 := by
  have e : rnd64 ((2 : ℕ) : ℝ) = 2 := by
    have := rnd64_pow (k := 1) (by norm_num)
    simpa using this
  have := ofReal_val (s := false) (x := ((2 : ℕ) : ℝ)) (by
    rw [e, abs_of_pos (by norm_num)]
    exact lt_of_le_of_lt (by norm_num : (2 : ℝ) ≤ (2 : ℝ) ^ (1 : ℤ)) (zpow_lt_zpow_right₀ (by norm_num) (by norm_num)))
  rw [e] at this
  exact this

theorem finite_lt {a b : B64} (ha : a.Finite) (hb : b.Finite) : Scalar.lt a b = true ↔ a.val < b.val :=
  (C99_normal_range a b ha hb).2.2.2.2.2.1
theorem finite_le {a b : B64} (ha : a.Finite) (hb : b.Finite) : Scalar.le a b = true ↔ a.val ≤ b.val :=
  (C99_normal_range a b ha hb).2.2.2.2.2.2

theorem finite_beq {a b : B64} (ha : a.Finite) (hb : b.Finite) : Scalar.beq a b = true ↔ a.val = b.val := by
  cases a <;> cases b <;> first | exact ha.elim | exact hb.elim | exact decide_eq_true_iff

theorem finite_bound {a : B64} (ha : a.Finite) : |a.val| < (2 : ℝ) ^ (1024 : ℤ) := by
  cases a with
  | nan => exact ha.elim
  | inf s => exact ha.elim
  | zero s => show |(0 : ℝ)| < _; rw [abs_zero]; positivity
  | num a => exact a.lt

theorem finite_sub_val {a b : B64} (ha : a.Finite) (hb : b.Finite) (h : |rnd64 (a.val - b.val)| < (2 : ℝ) ^ (1024 : ℤ)) :
    (a - b).Finite ∧ (a - b).val = rnd64 (a.val - b.val) := by
  have hn : rnd64 (-b.val) = -b.val := by rw [rnd64_neg, B64.rep_val hb]
  have e : rnd64 (a.val - b.val) = rnd53 (a.val - b.val) := by
    have := rnd64_add (B64.rep_val ha) hn
    rwa [← sub_eq_add_neg] at this
  rw [e] at h ⊢
  exact (C99_normal_range a b ha hb).2.1 h

theorem finite_add_val {a b : B64} (ha : a.Finite) (hb : b.Finite) (h : |rnd64 (a.val + b.val)| < (2 : ℝ) ^ (1024 : ℤ)) :
    (a + b).Finite ∧ (a + b).val = rnd64 (a.val + b.val) := by
  have e := rnd64_add (B64.rep_val ha) (B64.rep_val hb)
  rw [e] at h ⊢
  exact (C99_normal_range a b ha hb).1 h

theorem finite_half {a : B64} (ha : a.Finite) : (a / nat 2).Finite ∧ (a / nat 2).val = rnd64 (a.val / 2) := by
  obtain ⟨h1, h2⟩ := nat_two64
  have hb : |rnd64 (a.val / 2)| < (2 : ℝ) ^ (1024 : ℤ) := by
    refine lt_of_le_of_lt ?_ (finite_bound ha)
    have hr := B64.rep_val ha
    rcases le_total 0 a.val with h | h
    · have m1 := rnd64_mono (by linarith : 0 ≤ a.val / 2)
      have m2 := rnd64_mono (by linarith : a.val / 2 ≤ a.val)
      rw [rnd64_zero] at m1
      rw [hr] at m2
      rwa [abs_of_nonneg m1, abs_of_nonneg h]
    · have m1 := rnd64_mono (by linarith : a.val / 2 ≤ 0)
      have m2 := rnd64_mono (by linarith : a.val ≤ a.val / 2)
      rw [rnd64_zero] at m1
      rw [hr] at m2
      rw [abs_of_nonpos m1, abs_of_nonpos h]
      linarith
  cases h : (nat 2 : B64) with
  | nan => rw [h] at h1; exact h1.elim
  | inf t => rw [h] at h1; exact h1.elim
  | zero t => rw [h] at h2; simp [val] at h2
  | num b =>
    rw [h] at h2
    have h2 : b.x = 2 := h2
    cases a with
    | nan => exact ha.elim
    | inf s => exact ha.elim
    | zero s =>
      show (ofReal _ ((0 : ℝ) / b.x)).Finite ∧ (ofReal _ ((0 : ℝ) / b.x)).val = _
      rw [h2]
      exact ofReal_val hb
    | num a =>
      show (ofReal _ (a.x / b.x)).Finite ∧ (ofReal _ (a.x / b.x)).val = _
      rw [h2]
      exact ofReal_val hb

end Ellalgo
