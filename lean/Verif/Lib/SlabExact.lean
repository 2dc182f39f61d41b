import Verif.Lib.SlabFl

/-! Exact facts about the parameters of a parallel cut. -/

namespace Ellalgo
open Matrix
open scoped ComplexOrder
variable {n : Nat}

theorem slabXi_le {N T b0 b1 w : ℝ} (hN : 2 ≤ N) (hT : 0 < T) (hw0 : 0 < w) (hb0 : 0 ≤ b0) (hb : b0 + w * √T ≤ b1)
    (hb1 : b1 * b1 ≤ T) : slabXi N T b0 b1 ≤ N * T ∧ w * T / 2 ≤ slabXi N T b0 b1 := by
  obtain ⟨-, -, f3, f4⟩ := slab_radicand hN hT hw0 hb0 hb hb1
  unfold slabXi
  refine ⟨Real.sqrt_le_iff.2 ⟨by positivity, f4.trans ?_⟩, Real.le_sqrt_of_sq_le (le_trans ?_ f3)⟩
  · have : 0 ≤ N ^ 2 * T ^ 2 := by positivity
    rw [mul_pow]
    linarith
  · have : 0 ≤ (w * T) ^ 2 := by positivity
    rw [div_pow]
    linarith

theorem slabSigma_gap {N T b0 b1 w : ℝ} (hN : 2 ≤ N) (hT : 0 < T) (hw0 : 0 < w) (hw1 : w ≤ 1) (hb0 : 0 ≤ b0)
    (hb : b0 + w * √T ≤ b1) (hb1 : b1 * b1 ≤ T) : w ^ 2 / (12 * N) ≤ 1 - slabSigma N T b0 b1 := by
  obtain ⟨x1, x2⟩ := slabXi_le hN hT hw0 hb0 hb hb1
  obtain ⟨-, -, f3, f4⟩ := slab_radicand hN hT hw0 hb0 hb hb1
  have hsq : slabXi N T b0 b1 ^ 2 = (T - b0 * b0) * (T - b1 * b1) + N / 2 * (b1 * b1 - b0 * b0) * (N / 2 * (b1 * b1 - b0 * b0)) :=
    Real.sq_sqrt (le_trans (by positivity) f3)
  unfold slabSigma
  obtain ⟨ξ, hξ⟩ : ∃ ξ, ξ = slabXi N T b0 b1 := ⟨_, rfl⟩
  rw [← hξ] at x1 x2 hsq ⊢
  have hs := Real.sqrt_pos.2 hT
  have hss := Real.mul_self_sqrt hT.le
  have hws : 0 < w * √T := by positivity
  have hb1p : 0 ≤ b1 := by linarith
  have hb01 : 0 ≤ b0 * b1 := mul_nonneg hb0 hb1p
  have hwT : 0 < w * T := by positivity
  have hΔ : w ^ 2 * T ≤ (b1 - b0) ^ 2 := by
    have := pow_le_pow_left₀ hws.le (by linarith : w * √T ≤ b1 - b0) 2
    rw [mul_pow, Real.sq_sqrt hT.le] at this
    exact this
  have hb01T : b0 * b1 ≤ T := by
    have : b0 * b1 ≤ b1 * b1 := mul_le_mul_of_nonneg_right (by linarith) hb1p
    linarith
  obtain ⟨K, hK⟩ : ∃ K, K = T - b0 * b1 - N / 2 * (b1 - b0) ^ 2 := ⟨_, rfl⟩
  have hprod : (ξ - K) * (ξ + K) = (b1 - b0) ^ 2 * (N - 1) * (T + N * (b0 * b1)) := by
    rw [hK]
    linear_combination hsq
  have hξ0 : 0 < ξ := by linarith
  have hKT : K ≤ T := by
    rw [hK]
    have : 0 ≤ N / 2 * (b1 - b0) ^ 2 := by positivity
    linarith
  have hww : w ^ 2 ≤ w := by nlinarith
  have hgap : w ^ 2 * T / 3 ≤ ξ - K := by
    have hwwT := mul_le_mul_of_nonneg_right hww hT.le
    by_cases hc : K ≤ 0
    · linarith
    · push Not at hc
      have hpos : 0 < ξ + K := by linarith
      have hr : w ^ 2 * T * (N - 1) * T ≤ (b1 - b0) ^ 2 * (N - 1) * (T + N * (b0 * b1)) := by
        refine mul_le_mul (mul_le_mul_of_nonneg_right hΔ (by linarith)) ?_ hT.le (mul_nonneg (sq_nonneg _) (by linarith))
        have : 0 ≤ N * (b0 * b1) := mul_nonneg (by linarith) hb01
        linarith
      rw [← hprod] at hr
      have hl : 0 < w ^ 2 * T * (N - 1) * T := by
        have : 0 < N - 1 := by linarith
        positivity
      have hd : 0 < ξ - K := by
        by_contra hc2
        have := mul_nonpos_of_nonpos_of_nonneg (not_lt.1 hc2) hpos.le
        linarith
      have h1 : (ξ - K) * (ξ + K) ≤ (ξ - K) * ((N + 1) * T) := mul_le_mul_of_nonneg_left (by linarith) hd.le
      have h2 : w ^ 2 * (N - 1) * T ≤ (ξ - K) * (N + 1) := by
        have : w ^ 2 * (N - 1) * T * T ≤ (ξ - K) * (N + 1) * T := by linarith
        exact le_of_mul_le_mul_right this hT
      have h3 : w ^ 2 * T * ((N + 1) / 3) ≤ w ^ 2 * T * (N - 1) := mul_le_mul_of_nonneg_left (by linarith) (by positivity)
      have h4 : w ^ 2 * T / 3 * (N + 1) ≤ (ξ - K) * (N + 1) := by linarith
      exact le_of_mul_le_mul_right h4 (by linarith)
  obtain ⟨den, hden⟩ : ∃ d, d = T + b0 * b1 + N / 2 * ((b0 + b1) * (b0 + b1)) + ξ := ⟨_, rfl⟩
  rw [← hden]
  have hd0 : 0 < den := by rw [hden]; positivity
  have hd1 : den ≤ 4 * N * T := by
    have hb0T : b0 * b0 ≤ b1 * b1 := mul_self_le_mul_self hb0 (by linarith)
    have a : (b0 + b1) * (b0 + b1) ≤ 4 * T := by nlinarith [mul_self_nonneg (b1 - b0)]
    have b := mul_le_mul_of_nonneg_left a (by linarith : 0 ≤ N / 2)
    have c : 2 * T ≤ N * T := mul_le_mul_of_nonneg_right hN hT.le
    rw [hden]
    linarith
  have e : 1 - 2 * (T + N * (b0 * b1)) / den = (ξ - K) / den := by
    rw [eq_div_iff hd0.ne', sub_mul, div_mul_cancel₀ _ hd0.ne', one_mul]
    rw [hden, hK]; ring
  rw [e, div_le_div_iff₀ (by linarith) hd0]
  have a := mul_le_mul_of_nonneg_left hd1 (by positivity : 0 ≤ w ^ 2)
  have b := mul_le_mul_of_nonneg_right hgap (by linarith : 0 ≤ 12 * N)
  linarith

/-- the exact parameters make a good cut -/
theorem slab_good {T b0 b1 w : ℝ} (hn : 2 ≤ n) (hT : 0 < T) (hw0 : 0 < w) (hw1 : w ≤ 1) (hb0 : 0 ≤ b0) (hb : b0 + w * √T ≤ b1)
    (hb1 : b1 * b1 ≤ T) :
    GoodCut T b0 b1 (slabRho n T b0 b1) (slabSigma n T b0 b1) (slabDelta n T b0 b1) ∧
      w ^ 2 / (12 * n) ≤ 1 - slabSigma n T b0 b1 ∧ 0 ≤ slabRho n T b0 b1 ∧ slabRho n T b0 b1 ≤ √T ∧
      w / 2 ≤ slabDelta n T b0 b1 ∧ slabDelta n T b0 b1 ≤ 3 ∧
      slabDelta n T b0 b1 ^ n * (1 - slabSigma n T b0 b1) ≤ Real.exp (-(1 / ((n : ℝ) + 1))) := by
  have hn2 : (2 : ℝ) ≤ n := by exact_mod_cast hn
  have hs := Real.sqrt_pos.2 hT
  have hss := Real.mul_self_sqrt hT.le
  have hws : 0 < w * √T := by positivity
  have hb1p : 0 ≤ b1 := by linarith
  have hb01 : 0 ≤ b0 * b1 := mul_nonneg hb0 hb1p
  have h01 : b0 < b1 := by linarith
  have hη : 0 ≤ T + n * (b0 * b1) := by positivity
  have hb1s : b1 ≤ √T := Real.le_sqrt_of_sq_le (by linarith [pow_two b1])
  obtain ⟨f1, f2, f3, f4⟩ := slab_radicand hn2 hT hw0 hb0 hb hb1
  obtain ⟨x1, x2⟩ := slabXi_le hn2 hT hw0 hb0 hb hb1
  have hb00 : 0 ≤ b0 * b0 := mul_nonneg hb0 hb0
  have hgap := slabSigma_gap hn2 hT hw0 hw1 hb0 hb hb1
  obtain ⟨hg, hq⟩ := goodCut_parallel (by linarith : (1 : ℝ) < n) hT hη (parFacts (by linarith : (1 : ℝ) < n) h01 hη)
  have hg' : GoodCut T b0 b1 (slabRho n T b0 b1) (slabSigma n T b0 b1) (slabDelta n T b0 b1) := hg
  have hwT : 0 < w * T := by positivity
  have hnn : (0 : ℝ) < n * n - 1 := by nlinarith
  have hc1 : 1 ≤ (n : ℝ) * n / (n * n - 1) := by rw [le_div_iff₀ hnn]; linarith
  have hc2 : (n : ℝ) * n / (n * n - 1) ≤ 4 / 3 := by rw [div_le_iff₀ hnn]; nlinarith
  have hxn : slabXi n T b0 b1 / n ≤ T := by rw [div_le_iff₀ (by linarith)]; linarith
  have hxn0 : 0 ≤ slabXi n T b0 b1 / n := div_nonneg (by linarith) (by linarith)
  have hδ1 : w / 2 ≤ slabDelta n T b0 b1 := by
    unfold slabDelta
    rw [le_div_iff₀ hT]
    have a : w / 2 * T ≤ (T - b0 * b0 + (T - b1 * b1)) / 2 + slabXi n T b0 b1 / n := by linarith
    exact a.trans (le_mul_of_one_le_left (by linarith) hc1)
  refine ⟨hg', hgap, ?_, ?_, hδ1, ?_, ?_⟩
  · unfold slabRho
    have := hg'.sig0
    positivity
  · unfold slabRho
    have := mul_le_mul hg'.sig1.le (by linarith : b0 + b1 ≤ 2 * √T) (by linarith) zero_le_one
    linarith
  · unfold slabDelta
    rw [div_le_iff₀ hT]
    have a : (T - b0 * b0 + (T - b1 * b1)) / 2 + slabXi n T b0 b1 / n ≤ 2 * T := by
      have := mul_self_nonneg b1
      linarith
    have := mul_le_mul hc2 a (by linarith) (by norm_num)
    linarith
  · obtain ⟨k, rfl⟩ : ∃ k, n = k + 1 := ⟨n - 1, by omega⟩
    exact parallel_volume (k := k) (by omega) (n := ((k + 1 : ℕ) : ℝ)) (by push_cast; rfl) hs hb0 h01 hb1s (by rw [hss]; exact hg)
      (by linarith) (by rw [hss]; exact hq)

variable {M : Matrix (Fin n) (Fin n) ℝ}

/-- a parallel cut applied to an ellipsoid of any size around the same centre -/
theorem slab_exact (hM : M.PosDef) {g : Fin n → ℝ} {K κ b0 b1 ρ σ δ : ℝ} (hg : g ≠ 0)
    (hgood : GoodCut (κ * (g ⬝ᵥ (M *ᵥ g))) b0 b1 ρ σ δ) {x c : Fin n → ℝ} (hx : x ∈ ellipsoid M K c) (h0 : g ⬝ᵥ (x - c) + b0 ≤ 0)
    (h1 : 0 ≤ g ⬝ᵥ (x - c) + b1) :
    x ∈ ellipsoid (cutM M g σ) (K + (δ - 1) * κ) (c - (ρ / (g ⬝ᵥ (M *ᵥ g))) • (M *ᵥ g)) := by
  have hω := quad_pos hM hg
  show (x - _) ⬝ᵥ (_ *ᵥ (x - _)) ≤ _
  rw [cut_quad hM ρ hg hgood.sig1, hgood.identity]
  have hx' : (x - c) ⬝ᵥ (M⁻¹ *ᵥ (x - c)) ≤ K := hx
  have hmu := hgood.mu_nonneg
  set ω := g ⬝ᵥ (M *ᵥ g)
  set t := g ⬝ᵥ (x - c)
  have h3 : σ / (1 - σ) * ((t + b0) * (t + b1)) ≤ 0 :=
    mul_nonpos_of_nonneg_of_nonpos hmu (mul_nonpos_of_nonpos_of_nonneg h0 h1)
  have h4 : (σ / (1 - σ) * ((t + b0) * (t + b1)) + (δ - 1) * (κ * ω)) / ω ≤ (δ - 1) * κ := by
    rw [div_le_iff₀ hω]
    linarith
  linarith

end Ellalgo
