import Verif.Lib.CutMath

/-! Volume factors of the cuts. -/

namespace Ellalgo

/-- `x y^(n-1) ≤ 1` when the weighted sum is at most `n` -/
theorem mul_pow_le_one {x y : ℝ} (k : ℕ) (hy : 0 ≤ y) (h : x + k * y ≤ k + 1) :
    x * y ^ k ≤ 1 := by
  have h1 : x ≤ Real.exp (x - 1) := by linarith [Real.add_one_le_exp (x - 1)]
  have h2 : y ≤ Real.exp (y - 1) := by linarith [Real.add_one_le_exp (y - 1)]
  calc x * y ^ k ≤ Real.exp (x - 1) * Real.exp (y - 1) ^ k :=
        mul_le_mul h1 (pow_le_pow_left₀ hy h2 k) (by positivity) (Real.exp_pos _).le
    _ = Real.exp (x - 1 + k * (y - 1)) := by rw [← Real.exp_nat_mul, ← Real.exp_add]
    _ ≤ Real.exp 0 := Real.exp_le_exp.mpr (by linarith)
    _ = 1 := Real.exp_zero

/-- volume factor of the central cut -/
theorem central_volume {k : ℕ} (hk : 1 ≤ k) {n : ℝ} (hn : n = (k : ℝ) + 1) :
    (n * n / (n * n - 1)) ^ (k + 1) * (1 - 2 * (1 / (n + 1))) ≤ Real.exp (-(1 / (n + 1))) := by
  have hk' : (1 : ℝ) ≤ k := by exact_mod_cast hk
  have hk0 : (0 : ℝ) < k := by linarith
  have hnn : n * n - 1 = k * (k + 2) := by rw [hn]; ring
  have hδ : n * n / (n * n - 1) = 1 + 1 / (k * (k + 2)) := by
    rw [hnn, hn]; field_simp; ring
  have hA : n * n / (n * n - 1) * (1 - 2 * (1 / (n + 1))) = (1 - 1 / (n + 1)) ^ 2 := by
    rw [hnn, hn]; field_simp; ring
  have h1 : n * n / (n * n - 1) ≤ Real.exp (1 / (k * (k + 2))) := by
    rw [hδ]; linarith [Real.add_one_le_exp (1 / ((k : ℝ) * (k + 2)))]
  have h2 : 1 - 1 / (n + 1) ≤ Real.exp (-(1 / (n + 1))) := by
    linarith [Real.add_one_le_exp (-(1 / (n + 1)))]
  have h3 : 0 ≤ 1 - 1 / (n + 1) := by
    rw [sub_nonneg, div_le_one (by rw [hn]; positivity)]; rw [hn]; linarith
  have h4 : 0 ≤ n * n / (n * n - 1) := by rw [hδ]; positivity
  calc (n * n / (n * n - 1)) ^ (k + 1) * (1 - 2 * (1 / (n + 1)))
      = (n * n / (n * n - 1)) ^ k * (1 - 1 / (n + 1)) ^ 2 := by rw [← hA]; ring
    _ ≤ Real.exp (1 / (k * (k + 2))) ^ k * Real.exp (-(1 / (n + 1))) ^ 2 :=
        mul_le_mul (pow_le_pow_left₀ h4 h1 k) (pow_le_pow_left₀ h3 h2 2) (by positivity) (by positivity)
    _ = Real.exp (k * (1 / (k * (k + 2))) + 2 * (-(1 / (n + 1)))) := by
        rw [← Real.exp_nat_mul, ← Real.exp_nat_mul, ← Real.exp_add]; norm_num
    _ = Real.exp (-(1 / (n + 1))) := by
        congr 1
        have : n + 1 = k + 2 := by rw [hn]; ring
        rw [this]
        field_simp
        ring

/-- A cut whose two contact rims carry the John weights has the least volume among ellipsoids containing
both rims; here compared with a reference ellipsoid `(A', B', c')`. -/
theorem john_le {k : ℕ} {A B A' B' ρ c b0 b1 z0 z1 : ℝ} (hA' : 0 < A') (hB' : 0 < B') (h01 : b0 < b1)
    (hr0 : b0 ≤ ρ) (hr1 : ρ ≤ b1) (hB0 : 0 ≤ B)
    (hA : (ρ - b0) * (b1 - ρ) * (k + 1) = A)
    (hB : ((b1 - ρ) * z0 + (ρ - b0) * z1) * (k + 1) = k * B * (b1 - b0))
    (hin0 : (b0 - c) ^ 2 / A' + z0 / B' ≤ 1) (hin1 : (b1 - c) ^ 2 / A' + z1 / B' ≤ 1) :
    A / A' * (B / B') ^ k ≤ 1 := by
  apply mul_pow_le_one k (by positivity)
  have hd : 0 < b1 - b0 := by linarith
  have h0 : (b1 - ρ) * ((b0 - c) ^ 2 / A' + z0 / B') + (ρ - b0) * ((b1 - c) ^ 2 / A' + z1 / B') ≤ b1 - b0 := by
    have e0 := mul_le_mul_of_nonneg_left hin0 (sub_nonneg.mpr hr1)
    have e1 := mul_le_mul_of_nonneg_left hin1 (sub_nonneg.mpr hr0)
    linarith
  have h1 : (b1 - ρ) * ((b0 - c) ^ 2 / A' + z0 / B') + (ρ - b0) * ((b1 - c) ^ 2 / A' + z1 / B') =
      (b1 - b0) * ((ρ - b0) * (b1 - ρ) + (ρ - c) ^ 2) / A' + ((b1 - ρ) * z0 + (ρ - b0) * z1) / B' := by
    field_simp; ring
  rw [h1] at h0
  have h2 : ((b1 - ρ) * z0 + (ρ - b0) * z1) = k * B * (b1 - b0) / (k + 1) := by
    rw [eq_div_iff (by positivity)]; exact hB
  have h3 : (ρ - b0) * (b1 - ρ) = A / (k + 1) := by
    rw [eq_div_iff (by positivity)]; exact hA
  rw [h2, h3] at h0
  have h4 : 0 ≤ (b1 - b0) * (ρ - c) ^ 2 / A' := by positivity
  have h5 : (b1 - b0) * (A / (k + 1)) / A' + k * B * (b1 - b0) / (k + 1) / B' ≤ b1 - b0 := by
    have : (b1 - b0) * (A / (k + 1) + (ρ - c) ^ 2) / A' =
        (b1 - b0) * (A / (k + 1)) / A' + (b1 - b0) * (ρ - c) ^ 2 / A' := by ring
    linarith
  have h6 : (b1 - b0) * (A / (k + 1)) / A' + k * B * (b1 - b0) / (k + 1) / B' =
      (b1 - b0) / (k + 1) * (A / A' + k * (B / B')) := by
    field_simp
  rw [h6, div_mul_eq_mul_div, div_le_iff₀ (by positivity)] at h5
  exact le_of_mul_le_mul_left h5 hd

/-- volume factor of a single cut with `0 ≤ β < τ` -/
theorem single_volume {k : ℕ} (hk : 1 ≤ k) {n τ β : ℝ} (hn : n = (k : ℝ) + 1) (hτ : 0 < τ) (hβ : 0 ≤ β)
    (hlt : β < τ) :
    (n * n / (n * n - 1) * (1 - β / τ * (β / τ))) ^ (k + 1) *
      (1 - 2 * ((τ + n * β) / (n + 1)) / (τ + β)) ≤ Real.exp (-(1 / (n + 1))) := by
  refine le_trans ?_ (central_volume hk hn)
  have hk' : (1 : ℝ) ≤ k := by exact_mod_cast hk
  have hnn : 0 < n * n - 1 := by rw [hn]; nlinarith
  have hδ : 0 ≤ n * n / (n * n - 1) := div_nonneg (mul_self_nonneg n) hnn.le
  have hα0 : 0 ≤ β / τ := by positivity
  have hα1 : β / τ < 1 := (div_lt_one hτ).mpr hlt
  have h1 : 0 ≤ 1 - β / τ * (β / τ) := by nlinarith
  have h2 : 1 - β / τ * (β / τ) ≤ 1 := by nlinarith
  have h3 : 1 - 2 * ((τ + n * β) / (n + 1)) / (τ + β) = (n - 1) * (τ - β) / ((n + 1) * (τ + β)) := by
    have : n + 1 ≠ 0 := by rw [hn]; positivity
    have : τ + β ≠ 0 := by positivity
    field_simp; ring
  have h4 : 1 - 2 * (1 / (n + 1)) = (n - 1) / (n + 1) := by
    have : 0 < n + 1 := by rw [hn]; positivity
    field_simp; ring
  rw [h3, h4]
  have hn1 : 0 ≤ n - 1 := by rw [hn]; linarith
  have hn2 : 0 < n + 1 := by rw [hn]; positivity
  have h6 : 0 ≤ τ - β := by linarith
  apply mul_le_mul
  · apply pow_le_pow_left₀ (mul_nonneg hδ h1)
    nlinarith
  · rw [div_le_div_iff₀ (by positivity) hn2]
    have : (n - 1) * (τ - β) ≤ (n - 1) * (τ + β) := mul_le_mul_of_nonneg_left (by linarith) hn1
    nlinarith
  · positivity
  · positivity

/-- rims `0 ≤ s ≤ τ` lie in the ellipsoid of the central cut -/
theorem central_rim {n τ s : ℝ} (hn : 1 < n) (hτ : 0 < τ) (h0 : 0 ≤ s) (h1 : s ≤ τ) :
    (s - τ / (n + 1)) ^ 2 / (τ * τ * (n * n) / ((n + 1) * (n + 1))) +
          (τ * τ - s * s) / (τ * τ * (n * n / (n * n - 1))) ≤ 1 := by
  have hnn : n * n - 1 ≠ 0 := by nlinarith
  have hn1 : n + 1 ≠ 0 := by linarith
  have hn0 : n ≠ 0 := by linarith
  have e : (s - τ / (n + 1)) ^ 2 / (τ * τ * (n * n) / ((n + 1) * (n + 1))) +
      (τ * τ - s * s) / (τ * τ * (n * n / (n * n - 1))) =
      1 - 2 * (n + 1) / (τ * τ * (n * n)) * (s * (τ - s)) := by
    field_simp; ring
  rw [e]
  have : 0 ≤ 2 * (n + 1) / (τ * τ * (n * n)) * (s * (τ - s)) := by
    apply mul_nonneg
    · have : 0 ≤ n + 1 := by linarith
      positivity
    · exact mul_nonneg h0 (by linarith)
  linarith

/-- the new centre lies beyond the near plane -/
theorem par_center_ge {n τ b0 b1 b σ : ℝ} (hn : 1 < n) (hτ : 0 < τ) (h0 : 0 ≤ b0) (h01 : b0 < b1)
    (h1 : b1 ≤ τ) (hbdef : b = (b0 + b1) / 2) (hs0' : 0 ≤ σ) (hs1 : σ < 1)
    (hq : (n + 1) * b ^ 2 * σ ^ 2 -
      2 * ((τ * τ + b0 * b1) / 2 + n * b ^ 2) * σ + (τ * τ + n * (b0 * b1)) = 0) : b0 ≤ σ * b := by
  have hb : 0 < b := by linarith
  by_contra hc
  push Not at hc
  -- q is negative on (σ, 1]
  have hs : σ * b < b0 := hc
  have e : (n + 1) * b0 ^ 2 - (τ * τ + b0 * b1 + 2 * n * b ^ 2) * (b0 / b) + (τ * τ + n * (b0 * b1)) =
      (τ * τ - b0 ^ 2) * (b - b0) / b := by
    have : b1 = 2 * b - b0 := by linarith
    rw [this]; field_simp; ring
  have e2 : (n + 1) * b0 ^ 2 - (τ * τ + b0 * b1 + 2 * n * b ^ 2) * (b0 / b) + (τ * τ + n * (b0 * b1)) =
      (b0 / b - σ) * ((n + 1) * b ^ 2 * (b0 / b + σ) - (τ * τ + b0 * b1 + 2 * n * b ^ 2)) := by
    have : (n + 1) * b0 ^ 2 = (n + 1) * b ^ 2 * (b0 / b) ^ 2 := by field_simp
    rw [this]
    linear_combination hq
  have h5 : 0 < b0 / b - σ := by
    rw [sub_pos, lt_div_iff₀ hb]; exact hs
  have h6 : b0 / b < 1 := by rw [div_lt_one hb]; linarith
  have hgap : (n + 1) * b ^ 2 + (τ * τ + n * (b0 * b1)) < τ * τ + b0 * b1 + 2 * n * b ^ 2 := by
    have : b0 * b1 = b ^ 2 - ((b1 - b0) / 2) ^ 2 := by rw [hbdef]; ring
    rw [this]
    have : 0 < (n - 1) * ((b1 - b0) / 2) ^ 2 := by
      have e1 : 0 < n - 1 := by linarith
      have e2 : 0 < (b1 - b0) / 2 := by linarith
      positivity
    nlinarith
  have h7 : (n + 1) * b ^ 2 * (b0 / b + σ) - (τ * τ + b0 * b1 + 2 * n * b ^ 2) < 0 := by
    -- B(x+σ) < B(1+σ) and B(1+σ) < 2h since 2h = Bσ + η/σ ...
    by_cases hs0 : σ = 0
    · have : (n + 1) * b ^ 2 * (b0 / b + σ) < (n + 1) * b ^ 2 * 1 := by
        apply mul_lt_mul_of_pos_left _ (by positivity)
        rw [hs0]; linarith
      have hηn : 0 ≤ τ * τ + n * (b0 * b1) := by
        have : 0 ≤ b0 * b1 := mul_nonneg h0 (by linarith)
        positivity
      linarith
    · have hspos : 0 < σ := lt_of_le_of_ne hs0' (Ne.symm hs0)
      -- (1-σ)(B - η/σ) = q(1) <0 with root product
      have h8 : (n + 1) * b ^ 2 * (1 + σ) < τ * τ + b0 * b1 + 2 * n * b ^ 2 := by
        have h9 : (1 - σ) * ((n + 1) * b ^ 2 * (1 + σ) - (τ * τ + b0 * b1 + 2 * n * b ^ 2)) < 0 := by
          have : (1 - σ) * ((n + 1) * b ^ 2 * (1 + σ) - (τ * τ + b0 * b1 + 2 * n * b ^ 2)) =
              (n + 1) * b ^ 2 + (τ * τ + n * (b0 * b1)) - (τ * τ + b0 * b1 + 2 * n * b ^ 2) := by
            linear_combination (-1) * hq
          rw [this]; linarith
        have h10 : 0 < 1 - σ := by linarith [hs1]
        nlinarith
      have : (n + 1) * b ^ 2 * (b0 / b + σ) ≤ (n + 1) * b ^ 2 * (1 + σ) := by
        apply mul_le_mul_of_nonneg_left _ (by positivity)
        linarith
      linarith
  have h11 : 0 ≤ (τ * τ - b0 ^ 2) * (b - b0) / b := by
    apply div_nonneg _ hb.le
    apply mul_nonneg
    · nlinarith
    · linarith
  have h12 := mul_neg_of_pos_of_neg h5 h7
  linarith

/-- volume factor of a parallel cut with `0 ≤ b0 < b1 < τ` -/
theorem parallel_volume {k : ℕ} (hk : 1 ≤ k) {n τ b0 b1 ρ σ δ : ℝ} (hn : n = (k : ℝ) + 1) (hτ : 0 < τ)
    (h0 : 0 ≤ b0) (h01 : b0 < b1) (h1 : b1 ≤ τ) (hg : GoodCut (τ * τ) b0 b1 ρ σ δ) (hδ0 : 0 ≤ δ)
    (hq : (n + 1) * ((b0 + b1) / 2) ^ 2 * σ ^ 2 -
      2 * ((τ * τ + b0 * b1) / 2 + n * ((b0 + b1) / 2) ^ 2) * σ + (τ * τ + n * (b0 * b1)) = 0) :
    δ ^ (k + 1) * (1 - σ) ≤ Real.exp (-(1 / (n + 1))) := by
  refine le_trans ?_ (central_volume hk hn)
  have hk' : (1 : ℝ) ≤ k := by exact_mod_cast hk
  have hn2 : 0 < n + 1 := by rw [hn]; positivity
  have hnn : 0 < n * n - 1 := by rw [hn]; nlinarith
  have hn0 : 0 < n := by rw [hn]; positivity
  have hne : (1 - σ) ≠ 0 := by linarith [hg.sig1]
  have hn1' : 1 < n := by rw [hn]; linarith
  have hb : 0 < (b0 + b1) / 2 := by linarith
  obtain ⟨b, hbdef⟩ : ∃ b, b = (b0 + b1) / 2 := ⟨_, rfl⟩
  rw [← hbdef] at hb hq
  have hdel : δ * (τ * τ) * (1 - σ) = τ * τ * (1 - σ) + σ * (σ * b ^ 2 - b0 * b1) := by
    rw [hg.del, add_mul]
    congr 1
    rw [← hbdef, div_mul_eq_mul_div, div_mul_cancel₀ _ hne]
  have hρ : ρ = σ * b := by rw [hbdef]; exact hg.rho
  have hsum : b0 + b1 = 2 * b := by rw [hbdef]; ring
  have hr1 : ρ ≤ b1 := by
    have : ρ ≤ 1 * b := by rw [hρ]; exact mul_le_mul_of_nonneg_right hg.sig1.le hb.le
    linarith
  have hr0 : b0 ≤ ρ := by rw [hρ]; exact par_center_ge hn1' hτ h0 h01 h1 hbdef hg.sig0 hg.sig1 hq
  have hAB : (δ * (τ * τ) * (1 - σ)) / (τ * τ * (n * n) / ((n + 1) * (n + 1))) *
      ((δ * (τ * τ)) / (τ * τ * (n * n / (n * n - 1)))) ^ k ≤ 1 := by
    apply john_le (ρ := ρ) (c := τ / (n + 1)) (b0 := b0) (b1 := b1) (z0 := τ * τ - b0 * b0)
      (z1 := τ * τ - b1 * b1) (by positivity)
      (by have : 0 < n * n / (n * n - 1) := by positivity
          positivity) h01 hr0 hr1 (by positivity)
    · rw [hdel, ← hn, hρ]
      have : b1 = 2 * b - b0 := by linarith
      rw [this] at hq ⊢
      linear_combination (-1) * hq
    · have h3 : ((b1 - ρ) * (τ * τ - b0 * b0) + (ρ - b0) * (τ * τ - b1 * b1)) * (k + 1) * (1 - σ) =
          k * (δ * (τ * τ)) * (b1 - b0) * (1 - σ) := by
        have : (k : ℝ) * (δ * (τ * τ)) * (b1 - b0) * (1 - σ) =
            (n - 1) * (b1 - b0) * (δ * (τ * τ) * (1 - σ)) := by rw [hn]; ring
        rw [this, hdel, ← hn, hρ]
        have : b1 = 2 * b - b0 := by linarith
        rw [this] at hq ⊢
        linear_combination (2 * b - b0 - b0) * hq
      exact mul_right_cancel₀ hne h3
    · exact central_rim hn1' hτ h0 (by linarith)
    · exact central_rim hn1' hτ (by linarith) h1
  have hA : (δ * (τ * τ) * (1 - σ)) / (τ * τ * (n * n) / ((n + 1) * (n + 1))) =
      δ * (1 - σ) / (n * n / (n * n - 1) * (1 - 2 * (1 / (n + 1)))) := by
    have e1 : n * n / (n * n - 1) * (1 - 2 * (1 / (n + 1))) = n * n / ((n + 1) * (n + 1)) := by
      have e2 : n * n - 1 = (n - 1) * (n + 1) := by ring
      have e3 : n - 1 ≠ 0 := by
        have : 0 < n - 1 := by rw [hn]; linarith
        exact this.ne'
      rw [e2]; field_simp; ring
    rw [e1]; field_simp
  have hB : (δ * (τ * τ)) / (τ * τ * (n * n / (n * n - 1))) = δ / (n * n / (n * n - 1)) := by
    field_simp
  rw [hA, hB] at hAB
  have hc1 : 0 < n * n / (n * n - 1) := by positivity
  have hc2 : 0 < 1 - 2 * (1 / (n + 1)) := by
    have : 1 - 2 * (1 / (n + 1)) = (n - 1) / (n + 1) := by field_simp; ring
    rw [this]; apply div_pos _ hn2; rw [hn]; linarith
  rw [div_pow, div_mul_div_comm, div_le_one (by positivity)] at hAB
  calc δ ^ (k + 1) * (1 - σ) = δ * (1 - σ) * δ ^ k := by ring
    _ ≤ _ := hAB
    _ = (n * n / (n * n - 1)) ^ (k + 1) * (1 - 2 * (1 / (n + 1))) := by ring

end Ellalgo
