import Verif.Model.EllCalc
import Mathlib.Tactic.FieldSimp
import Mathlib.Tactic.LinearCombination
import Mathlib.Tactic.Positivity
import Mathlib.Tactic.NormNum
import Mathlib.Tactic.Linarith

/-! Real-number facts about the cut formulas of `ell_calc.rs`. -/

namespace Ellalgo

/-- Relation between a slab `-b1 ≤ t ≤ -b0` of an ellipsoid with `τ² = tsq` and the update parameters
that make the new ellipsoid contain it. -/
structure GoodCut (tsq b0 b1 ρ σ δ : ℝ) : Prop where
  sig0 : 0 ≤ σ
  sig1 : σ < 1
  rho : ρ = σ * ((b0 + b1) / 2)
  del : δ * tsq = tsq + σ / (1 - σ) * (σ * ((b0 + b1) / 2) ^ 2 - b0 * b1)

namespace GoodCut
variable {tsq b0 b1 ρ σ δ : ℝ}

/-- the key identity -/
theorem identity (h : GoodCut tsq b0 b1 ρ σ δ) (t : ℝ) :
    σ / (1 - σ) * (t + ρ) ^ 2 + 2 * ρ * t + ρ ^ 2 =
      σ / (1 - σ) * ((t + b0) * (t + b1)) + (δ - 1) * tsq := by
  have h1 : (1 - σ) ≠ 0 := by linarith [h.sig1]
  have e : (δ - 1) * tsq = σ / (1 - σ) * (σ * ((b0 + b1) / 2) ^ 2 - b0 * b1) := by
    linarith [h.del]
  rw [e, h.rho]
  field_simp
  ring

theorem mu_nonneg (h : GoodCut tsq b0 b1 ρ σ δ) : 0 ≤ σ / (1 - σ) :=
  div_nonneg h.sig0 (by linarith [h.sig1])

/-- points of the slab satisfy the inequality needed for containment -/
theorem contains (h : GoodCut tsq b0 b1 ρ σ δ) {t : ℝ} (h1 : t + b0 ≤ 0) (h2 : 0 ≤ t + b1) :
    σ / (1 - σ) * (t + ρ) ^ 2 + 2 * ρ * t + ρ ^ 2 ≤ (δ - 1) * tsq := by
  rw [h.identity t]
  have := mul_nonneg h.mu_nonneg (mul_nonneg (by linarith : 0 ≤ -(t + b0)) h2)
  nlinarith

/-- if the slab meets the open ellipsoid then `δ > 0` -/
theorem del_pos (h : GoodCut tsq b0 b1 ρ σ δ) (ht : 0 < tsq) {t : ℝ} (h1 : t + b0 ≤ 0)
    (h2 : 0 ≤ t + b1) (hin : t ^ 2 < tsq) : 0 < δ := by
  have hid := h.contains h1 h2
  have : 0 ≤ σ / (1 - σ) * (t + ρ) ^ 2 := mul_nonneg h.mu_nonneg (sq_nonneg _)
  have h3 : 0 < δ * tsq := by nlinarith [sq_nonneg (t + ρ)]
  exact (pos_iff_pos_of_mul_pos h3).mpr ht

end GoodCut

section single
variable {n τ β : ℝ}

/-- `calc_bias_cut(_q)` / `calc_bias_cut_fast` -/
theorem goodCut_single (hn : 1 < n) (hτ : 0 < τ) (h1 : 0 ≤ τ + n * β) (h2 : β < τ) :
    GoodCut (τ * τ) β τ ((τ + n * β) / (n + 1)) (2 * ((τ + n * β) / (n + 1)) / (τ + β))
      (n * n / (n * n - 1) * (1 - β / τ * (β / τ))) := by
  have hs : 0 < τ + β := by nlinarith
  have hn1 : 0 < n + 1 := by linarith
  have hnn : n * n - 1 ≠ 0 := by nlinarith
  have hn2 : n - 1 ≠ 0 := by linarith
  have hd : τ - β ≠ 0 := by linarith
  have e1 : 1 - 2 * ((τ + n * β) / (n + 1)) / (τ + β) = (n - 1) * (τ - β) / ((n + 1) * (τ + β)) := by
    field_simp; ring
  refine ⟨by positivity, ?_, ?_, ?_⟩
  · have : 0 < 1 - 2 * ((τ + n * β) / (n + 1)) / (τ + β) := by
      rw [e1]
      have := mul_pos (sub_pos.mpr hn) (sub_pos.mpr h2)
      positivity
    linarith
  · field_simp; ring
  · rw [e1]
    have : n * n - 1 = (n - 1) * (n + 1) := by ring
    rw [this]
    field_simp
    ring

theorem goodCut_central (hn : 1 < n) (hτ : 0 < τ) :
    GoodCut (τ * τ) 0 τ (τ / (n + 1)) (2 * (1 / (n + 1))) (n * n / (n * n - 1)) := by
  have := goodCut_single (β := 0) hn hτ (by linarith) hτ
  have e : 2 * ((τ + n * 0) / (n + 1)) / (τ + 0) = 2 * (1 / (n + 1)) := by
    have : n + 1 ≠ 0 := by linarith
    field_simp; ring
  rw [e] at this
  simpa using this

end single

section parallel
variable {n tsq b0 b1 : ℝ}

/-- discriminant identity: `ζ0 ζ1 + (n/2 (b1² - b0²))² = 4 (h² - (n+1) η b²)` -/
theorem xi_sq_eq : (tsq - b0 * b0) * (tsq - b1 * b1) + (n / 2 * (b1 * b1 - b0 * b0)) * (n / 2 * (b1 * b1 - b0 * b0)) =
    4 * (((tsq + b0 * b1) / 2 + n * ((b0 + b1) / 2) ^ 2) ^ 2 -
      (n + 1) * (tsq + n * (b0 * b1)) * ((b0 + b1) / 2) ^ 2) := by
  ring

/-- facts about the parallel-cut parameters, for `h`, `ξ` as in the code -/
structure ParFacts (n tsq b0 b1 ξ : ℝ) : Prop where
  xi0 : 0 < ξ
  xi_sq : ξ ^ 2 = 4 * (((tsq + b0 * b1) / 2 + n * ((b0 + b1) / 2) ^ 2) ^ 2 -
      (n + 1) * (tsq + n * (b0 * b1)) * ((b0 + b1) / 2) ^ 2)
  h0 : 0 < (tsq + b0 * b1) / 2 + n * ((b0 + b1) / 2) ^ 2
  gap : (n + 1) * ((b0 + b1) / 2) ^ 2 + (tsq + n * (b0 * b1)) <
    2 * ((tsq + b0 * b1) / 2 + n * ((b0 + b1) / 2) ^ 2)

theorem parFacts (hn : 1 < n) (h01 : b0 < b1) (hη : 0 ≤ tsq + n * (b0 * b1)) :
    ParFacts n tsq b0 b1 (Real.sqrt ((tsq - b0 * b0) * (tsq - b1 * b1) +
      (n / 2 * (b1 * b1 - b0 * b0)) * (n / 2 * (b1 * b1 - b0 * b0)))) := by
  have gap : (n + 1) * ((b0 + b1) / 2) ^ 2 + (tsq + n * (b0 * b1)) <
      2 * ((tsq + b0 * b1) / 2 + n * ((b0 + b1) / 2) ^ 2) := by
    have : 0 < (n - 1) * ((b1 - b0) / 2) ^ 2 := by
      have h1 : 0 < n - 1 := by linarith
      have h2 : 0 < (b1 - b0) / 2 := by linarith
      positivity
    nlinarith
  set h := (tsq + b0 * b1) / 2 + n * ((b0 + b1) / 2) ^ 2 with hh
  set B := (n + 1) * ((b0 + b1) / 2) ^ 2 with hB
  set η := tsq + n * (b0 * b1) with hη'
  have hB0 : 0 ≤ B := by
    have : 0 < n + 1 := by linarith
    positivity
  have h0 : 0 < h := by linarith
  have hD : 0 < h ^ 2 - B * η := by nlinarith [sq_nonneg (B - η)]
  have hx : (tsq - b0 * b0) * (tsq - b1 * b1) + (n / 2 * (b1 * b1 - b0 * b0)) * (n / 2 * (b1 * b1 - b0 * b0)) =
      4 * (h ^ 2 - B * η) := by
    rw [xi_sq_eq, hh, hB, hη']; ring
  refine ⟨?_, ?_, h0, gap⟩
  · rw [hx]; exact Real.sqrt_pos.mpr (by linarith)
  · rw [hx, Real.sq_sqrt (by linarith)]
    rw [hB]; ring

/-- `calc_parallel_bias_cut_fast` -/
theorem goodCut_parallel {ξ : ℝ} (hn : 1 < n) (ht : 0 < tsq)
    (hη : 0 ≤ tsq + n * (b0 * b1)) (hf : ParFacts n tsq b0 b1 ξ) :
    let σ := 2 * (tsq + n * (b0 * b1)) / (tsq + b0 * b1 + n / 2 * ((b0 + b1) * (b0 + b1)) + ξ)
    GoodCut tsq b0 b1 (σ * (b0 + b1) / 2) σ
      (n * n / (n * n - 1) * (((tsq - b0 * b0) + (tsq - b1 * b1)) / 2 + ξ / n) / tsq) ∧
    (n + 1) * ((b0 + b1) / 2) ^ 2 * σ ^ 2 - 2 * ((tsq + b0 * b1) / 2 + n * ((b0 + b1) / 2) ^ 2) * σ +
      (tsq + n * (b0 * b1)) = 0 := by
  intro σ
  obtain ⟨xi0, xi_sq, h0, gap⟩ := hf
  set h := (tsq + b0 * b1) / 2 + n * ((b0 + b1) / 2) ^ 2 with hh
  set η := tsq + n * (b0 * b1) with hη'
  have hden : tsq + b0 * b1 + n / 2 * ((b0 + b1) * (b0 + b1)) + ξ = 2 * h + ξ := by rw [hh]; ring
  have hk : 0 < 2 * h + ξ := by linarith
  have hσ : σ * (2 * h + ξ) = 2 * η := by
    show 2 * η / _ * _ = _
    rw [hden]; field_simp
  have hσ0 : 0 ≤ σ := by
    show 0 ≤ 2 * η / _
    rw [hden]; positivity
  clear_value σ
  -- the quadratic
  have hq : (n + 1) * ((b0 + b1) / 2) ^ 2 * σ ^ 2 - 2 * h * σ + η = 0 := by
    have h2 : σ = 2 * η / (2 * h + ξ) := by rw [eq_div_iff hk.ne']; exact hσ
    rw [h2]
    field_simp
    have : ((n + 1) * ((b0 + b1) / 2) ^ 2 * (2 * η) ^ 2 - 2 * h * (2 * η) * (2 * h + ξ) + η * (2 * h + ξ) ^ 2) = 0 := by
      linear_combination η * xi_sq
    linear_combination this
  have hσ1 : σ < 1 := by
    by_contra hc
    push Not at hc
    have h1 : ξ ≤ 2 * η - 2 * h := by
      have := mul_le_mul_of_nonneg_right hc hk.le
      linarith
    have hη0 : 0 < η := by linarith
    have h2 : ξ ^ 2 ≤ (2 * η - 2 * h) ^ 2 := pow_le_pow_left₀ xi0.le h1 2
    have h3 : 0 < η * (2 * h - η - (n + 1) * ((b0 + b1) / 2) ^ 2) := mul_pos hη0 (by linarith)
    rw [xi_sq] at h2
    linarith
  have hne : (1 - σ) ≠ 0 := by linarith
  refine ⟨⟨hσ0, hσ1, by ring, ?_⟩, hq⟩
  have hnn : n * n - 1 ≠ 0 := by nlinarith
  have hn0 : n ≠ 0 := by linarith
  have hxi : σ * ξ = 2 * η - 2 * h * σ := by linarith
  have goal2 : (1 - σ) * ((((tsq - b0 * b0) + (tsq - b1 * b1)) / 2 * n + ξ) * n) =
      (n * n - 1) * ((1 - σ) * tsq + σ * (σ * ((b0 + b1) / 2) ^ 2 - b0 * b1)) := by
    have hξ : (1 - σ) * ξ = 2 * h - 2 * (n + 1) * ((b0 + b1) / 2) ^ 2 * σ - 2 * η + 2 * h * σ := by
      by_cases hs : σ = 0
      · have : η = 0 := by rw [hs] at hσ; linarith
        have hx2 : ξ ^ 2 = (2 * h) ^ 2 := by rw [xi_sq, this]; ring
        have : ξ = 2 * h := by nlinarith
        rw [hs, this]; rw [‹η = 0›]; ring
      · have : ξ = 2 * h - 2 * (n + 1) * ((b0 + b1) / 2) ^ 2 * σ := by
          have : σ * ξ = σ * (2 * h - 2 * (n + 1) * ((b0 + b1) / 2) ^ 2 * σ) := by
            linear_combination hxi + 2 * hq
          exact mul_left_cancel₀ hs this
        linear_combination this - hxi
    have e : (1 - σ) * ((((tsq - b0 * b0) + (tsq - b1 * b1)) / 2 * n + ξ) * n) =
        (1 - σ) * (((tsq - b0 * b0) + (tsq - b1 * b1)) / 2) * n * n + n * ((1 - σ) * ξ) := by ring
    rw [e, hξ]
    rw [hh, hη'] at hq ⊢
    linear_combination (-(n - 1) - n*0) * hq
  have l : n * n / (n * n - 1) * (((tsq - b0 * b0) + (tsq - b1 * b1)) / 2 + ξ / n) / tsq * tsq =
      (((tsq - b0 * b0) + (tsq - b1 * b1)) / 2 * n + ξ) * n / (n * n - 1) := by
    rw [div_mul_cancel₀ _ ht.ne']
    field_simp
  have r : tsq + σ / (1 - σ) * (σ * ((b0 + b1) / 2) ^ 2 - b0 * b1) =
      ((1 - σ) * tsq + σ * (σ * ((b0 + b1) / 2) ^ 2 - b0 * b1)) / (1 - σ) := by
    field_simp
  rw [l, r, div_eq_div_iff hnn hne]
  linear_combination goal2

/-- `calc_parallel_central_cut` -/
theorem goodCut_parallel_central (hn : 1 < n) (ht : 0 < tsq) (h1 : 0 < b1) (hlt : b1 * b1 < tsq) :
    let r := n / 2 * (b1 * b1 / tsq) +
      Real.sqrt (1 - b1 * b1 / tsq + n / 2 * (b1 * b1 / tsq) * (n / 2 * (b1 * b1 / tsq)))
    1 < r ∧ r ^ 2 - n * (b1 * b1 / tsq) * r + b1 * b1 / tsq - 1 = 0 ∧
    GoodCut tsq 0 b1 (b1 / (r + 1)) (2 / (r + 1)) (r / (r - 1 / n)) := by
  intro r
  have ha0 : 0 < b1 * b1 / tsq := by positivity
  have ha1 : b1 * b1 / tsq < 1 := (div_lt_one ht).mpr hlt
  have hb : b1 * b1 = (b1 * b1 / tsq) * tsq := by field_simp
  set a := b1 * b1 / tsq with ha
  have hs0 : 0 ≤ 1 - a + n / 2 * a * (n / 2 * a) := by nlinarith [mul_self_nonneg (n / 2 * a)]
  have hsq := Real.sq_sqrt hs0
  have hsn := Real.sqrt_nonneg (1 - a + n / 2 * a * (n / 2 * a))
  have hr : r = n / 2 * a + Real.sqrt (1 - a + n / 2 * a * (n / 2 * a)) := rfl
  have hq : r ^ 2 - n * a * r + a - 1 = 0 := by
    rw [hr]; linear_combination hsq
  have hr1 : 1 < r := by
    by_contra hc
    push Not at hc
    have h2 : Real.sqrt (1 - a + n / 2 * a * (n / 2 * a)) ≤ 1 - n / 2 * a := by
      rw [hr] at hc; linarith
    have h3 := pow_le_pow_left₀ hsn h2 2
    rw [hsq] at h3
    nlinarith
  clear_value r
  have hn0 : 0 < n := by linarith
  have hnr : 0 < n * r - 1 := by nlinarith
  have e1 : (1 : ℝ) - 2 / (r + 1) = (r - 1) / (r + 1) := by field_simp; ring
  refine ⟨hr1, hq, ⟨by positivity, ?_, ?_, ?_⟩⟩
  · have : 0 < 1 - 2 / (r + 1) := by
      rw [e1]; apply div_pos <;> linarith
    linarith
  · field_simp; ring
  · rw [e1]
    have h3 : r - 1 ≠ 0 := by linarith
    have h4 : r + 1 ≠ 0 := by linarith
    have h5 : r - 1 / n ≠ 0 := by
      have : r - 1 / n = (n * r - 1) / n := by field_simp
      rw [this]; positivity
    have h6 : 2 / (r + 1) / ((r - 1) / (r + 1)) * (2 / (r + 1) * ((0 + b1) / 2) ^ 2 - 0 * b1) =
        b1 * b1 / ((r - 1) * (r + 1)) := by
      field_simp; ring
    rw [h6, hb]
    have h7 : r / (r - 1 / n) = n * r / (n * r - 1) := by
      rw [div_eq_div_iff h5 hnr.ne']; field_simp
    rw [h7]
    have h8 : n * r / (n * r - 1) = 1 + a / ((r - 1) * (r + 1)) := by
      have : (r - 1) * (r + 1) ≠ 0 := mul_ne_zero h3 h4
      field_simp
      linear_combination hq
    rw [h8]; ring

end parallel

end Ellalgo
