import Verif.Lib.DetMono
import Verif.Lib.Strategy
import Verif.Props.EllReal
import Mathlib.Analysis.Complex.ExponentialBounds

/-! The potential `det (κ M + c I)` falls by a fixed factor in every successful cut with a non-negative offset, degenerate
cuts included. -/

namespace Ellalgo
open Matrix
open scoped ComplexOrder

/-- what every successful strategy with non-negative offset delivers -/
structure StratShrink (n : Nat) (σ δ : ℝ) : Prop where
  s0 : 0 ≤ σ
  s1 : σ ≤ 1
  d0 : 0 ≤ δ
  d1 : δ ≤ n / (n - 1)
  vol : δ ^ n * (1 - σ) ≤ Real.exp (-(1 / ((n : ℝ) + 1)))

section
variable {n : Nat} {tsq ρ σ δ : ℝ}

theorem StratGood.shrink {S : ℝ → Prop} {lo : ℝ} (h : StratGood n tsq S lo ρ σ δ) (hlo : 0 ≤ lo) (hd : δ ≤ n / (n - 1)) :
    StratShrink n σ δ := by
  obtain ⟨b0, b1, hg, -⟩ := h.good
  exact ⟨hg.sig0, hg.sig1.le, h.del.le, hd, h.vol hlo⟩

theorem n_ratio (hn : 2 ≤ n) : (n : ℝ) * n / (n * n - 1) ≤ n / (n - 1) := by
  have hn' : (2 : ℝ) ≤ n := by exact_mod_cast hn
  rw [div_le_div_iff₀ (by nlinarith) (by linarith)]
  nlinarith

theorem shrink_single (hn : 2 ≤ n) (ht : 0 < tsq) {β : ℝ} (h0 : 0 ≤ β) (h2 : β ≤ √tsq)
    (h : (EllCalcCore.new (n : ℝ)).calcBiasCutFast β (√tsq) (√tsq + n * β) = (ρ, σ, δ)) : StratShrink n σ δ := by
  have hn' : (2 : ℝ) ≤ n := by exact_mod_cast hn
  have hτ : 0 < √tsq := Real.sqrt_pos.mpr ht
  rcases h2.lt_or_eq with h2 | rfl
  · refine (strat_single hn ht (by positivity) h2 (S := fun t => t + β ≤ 0) (fun t ht => ht) h).shrink h0 ?_
    rw [calcBiasCutFast_real] at h
    simp only [Prod.mk.injEq] at h
    obtain ⟨-, -, rfl⟩ := h
    have hnn : 0 < (n : ℝ) * n - 1 := by nlinarith
    have : 0 ≤ β / √tsq * (β / √tsq) := mul_self_nonneg _
    have h3 : 0 ≤ (n : ℝ) * n / (n * n - 1) := by positivity
    have := n_ratio hn
    nlinarith
  · rw [calcBiasCutFast_real] at h
    simp only [Prod.mk.injEq] at h
    obtain ⟨-, rfl, rfl⟩ := h
    have e1 : 2 * ((√tsq + n * √tsq) / ((n : ℝ) + 1)) / (√tsq + √tsq) = 1 := by
      have : (n : ℝ) + 1 ≠ 0 := by positivity
      field_simp
      ring
    have e2 : (n : ℝ) * n / (n * n - 1) * (1 - √tsq / √tsq * (√tsq / √tsq)) = 0 := by
      rw [div_self hτ.ne']; ring
    rw [e1, e2]
    exact ⟨zero_le_one, le_rfl, le_rfl, div_nonneg (by linarith) (by linarith), by
      rw [sub_self, mul_zero]; exact (Real.exp_pos _).le⟩

theorem shrink_central (hn : 2 ≤ n) (ht : 0 < tsq)
    (h : (EllCalcCore.new (n : ℝ)).calcCentralCut tsq = (ρ, σ, δ)) : StratShrink n σ δ := by
  refine (strat_central hn ht (S := fun t => t + 0 ≤ 0) (fun t ht => ht) h).shrink le_rfl ?_
  rw [calcCentralCut_real] at h
  simp only [Prod.mk.injEq] at h
  obtain ⟨-, -, rfl⟩ := h
  exact n_ratio hn

theorem shrink_parallel {b0 b1 : ℝ} (hn : 2 ≤ n) (ht : 0 < tsq) (h0 : 0 ≤ b0) (h01 : b0 ≤ b1) (h1 : b1 < √tsq)
    (h : (EllCalcCore.new (n : ℝ)).calcParallelBiasCutFast b0 b1 tsq (b0 * b1) (tsq + n * (b0 * b1)) = (ρ, σ, δ)) :
    StratShrink n σ δ := by
  have hn' : (2 : ℝ) ≤ n := by exact_mod_cast hn
  have hnn : 0 < (n : ℝ) * n - 1 := by nlinarith
  have hb1 : b1 * b1 < tsq := by
    have := mul_self_lt_mul_self (h0.trans h01) h1
    rwa [Real.mul_self_sqrt ht.le] at this
  have hb0 : b0 * b0 ≤ b1 * b1 := mul_self_le_mul_self h0 h01
  have hd : δ ≤ n / (n - 1) := by
    rw [calcParallelFast_real] at h
    dsimp only at h
    simp only [Prod.mk.injEq] at h
    obtain ⟨-, -, rfl⟩ := h
    have hξ : √((tsq - b0 * b0) * (tsq - b1 * b1) + (n / 2 * (b1 * b1 - b0 * b0)) * (n / 2 * (b1 * b1 - b0 * b0))) ≤
        tsq + n / 2 * (b1 * b1 + b0 * b0) := by
      have hq0 := mul_self_nonneg b0
      have hq1 := mul_self_nonneg b1
      have a1 : 0 ≤ (n : ℝ) / 2 * (b1 * b1 - b0 * b0) := mul_nonneg (by linarith) (by linarith)
      have a2 : (n : ℝ) / 2 * (b1 * b1 - b0 * b0) ≤ n / 2 * (b1 * b1 + b0 * b0) :=
        mul_le_mul_of_nonneg_left (by linarith) (by linarith)
      rw [Real.sqrt_le_left (by positivity)]
      have h3 : (tsq - b0 * b0) * (tsq - b1 * b1) ≤ tsq * tsq := by nlinarith
      have h4 := mul_self_le_mul_self a1 a2
      have h5 : 0 ≤ tsq * ((n : ℝ) / 2 * (b1 * b1 + b0 * b0)) := by positivity
      nlinarith
    generalize √((tsq - b0 * b0) * (tsq - b1 * b1) + (n / 2 * (b1 * b1 - b0 * b0)) * (n / 2 * (b1 * b1 - b0 * b0))) = ξ
      at hξ ⊢
    have hξ' : ξ / n ≤ tsq / n + (b1 * b1 + b0 * b0) / 2 := by
      rw [div_le_iff₀ (by linarith)]
      have : (tsq / n + (b1 * b1 + b0 * b0) / 2) * n = tsq + n / 2 * (b1 * b1 + b0 * b0) := by field_simp
      rw [this]; exact hξ
    have h6 : ((tsq - b0 * b0) + (tsq - b1 * b1)) / 2 + ξ / n ≤ tsq * ((n + 1) / n) := by
      have : tsq * (((n : ℝ) + 1) / n) = tsq + tsq / n := by field_simp
      rw [this]; linarith
    rw [div_le_iff₀ ht]
    have h7 : 0 ≤ (n : ℝ) * n / (n * n - 1) := by positivity
    refine (mul_le_mul_of_nonneg_left h6 h7).trans (le_of_eq ?_)
    have h8 : (n : ℝ) - 1 ≠ 0 := by linarith
    have h9 : (n : ℝ) * n - 1 = (n - 1) * (n + 1) := by ring
    rw [h9]
    field_simp
  rcases h01.lt_or_eq with h01 | rfl
  · exact (strat_parallel hn ht h01 h1 (by have := Real.sqrt_nonneg tsq; linarith)
      (by have := mul_nonneg h0 (h0.trans h01.le); positivity)
      (S := fun t => t + b0 ≤ 0 ∧ 0 ≤ t + b1) (fun t ht => ht) h).shrink h0 hd
  · rw [calcParallelFast_real] at h
    dsimp only at h
    have e0 : √((tsq - b0 * b0) * (tsq - b0 * b0) + (n / 2 * (b0 * b0 - b0 * b0)) * (n / 2 * (b0 * b0 - b0 * b0))) =
        tsq - b0 * b0 := by
      rw [sub_self, mul_zero, mul_zero, add_zero, Real.sqrt_mul_self (by linarith)]
    rw [e0] at h
    simp only [Prod.mk.injEq] at h
    obtain ⟨-, rfl, rfl⟩ := h
    have hp : 0 < tsq + n * (b0 * b0) := by have := mul_self_nonneg b0; positivity
    have e1 : 2 * (tsq + n * (b0 * b0)) / (tsq + b0 * b0 + n / 2 * ((b0 + b0) * (b0 + b0)) + (tsq - b0 * b0)) = 1 := by
      rw [div_eq_one_iff_eq]
      · ring
      · have : tsq + b0 * b0 + n / 2 * ((b0 + b0) * (b0 + b0)) + (tsq - b0 * b0) = 2 * (tsq + n * (b0 * b0)) := by ring
        rw [this]; positivity
    rw [e1]
    refine ⟨zero_le_one, le_rfl, ?_, hd, by rw [sub_self, mul_zero]; exact (Real.exp_pos _).le⟩
    have : 0 ≤ tsq - b0 * b0 := by linarith
    positivity

theorem shrink_parallel_central {b1 : ℝ} (hn : 2 ≤ n) (ht : 0 < tsq) (h0 : 0 ≤ b1) (h1 : b1 * b1 < tsq)
    (h : (EllCalcCore.new (n : ℝ)).calcParallelCentralCut b1 tsq = (ρ, σ, δ)) : StratShrink n σ δ := by
  have hn' : (2 : ℝ) ≤ n := by exact_mod_cast hn
  have hd : δ ≤ n / (n - 1) := by
    rw [calcParallelCentral_real] at h
    dsimp only at h
    simp only [Prod.mk.injEq] at h
    obtain ⟨-, -, rfl⟩ := h
    have hr : 1 ≤ (n : ℝ) / 2 * (b1 * b1 / tsq) +
        √(1 - b1 * b1 / tsq + n / 2 * (b1 * b1 / tsq) * (n / 2 * (b1 * b1 / tsq))) := by
      rcases h0.eq_or_lt with rfl | h0
      · simp
      · exact (goodCut_parallel_central (by linarith) ht h0 h1).1.le
    set r := (n : ℝ) / 2 * (b1 * b1 / tsq) +
        √(1 - b1 * b1 / tsq + n / 2 * (b1 * b1 / tsq) * (n / 2 * (b1 * b1 / tsq)))
    have h2 : (1 : ℝ) / n < 1 := by rw [div_lt_one (by linarith)]; linarith
    rw [div_le_div_iff₀ (by linarith) (by linarith)]
    have : (n : ℝ) * (r - 1 / n) = n * r - 1 := by field_simp
    rw [this]
    nlinarith
  rcases h0.eq_or_lt with rfl | h0
  · rw [calcParallelCentral_real] at h
    simp only [mul_zero, zero_div, sub_zero, add_zero, zero_add, Real.sqrt_one, Prod.mk.injEq] at h
    obtain ⟨-, rfl, rfl⟩ := h
    have e1 : (2 : ℝ) / (1 + 1) = 1 := by norm_num
    rw [e1]
    refine ⟨zero_le_one, le_rfl, ?_, hd, by rw [sub_self, mul_zero]; exact (Real.exp_pos _).le⟩
    have h2 : (1 : ℝ) / n < 1 := by rw [div_lt_one (by linarith)]; linarith
    exact div_nonneg zero_le_one (by linarith)
  · exact (strat_parallel_central hn ht h0 h1 (S := fun t => t + 0 ≤ 0 ∧ 0 ≤ t + b1) (fun t ht => ht) h).shrink le_rfl hd

theorem le_sqrt_of_sq {b : ℝ} (ht : 0 < tsq) (h : ¬ tsq < b * b) : b ≤ √tsq := by
  by_contra hc
  have hc := not_le.1 hc
  have := mul_self_lt_mul_self (Real.sqrt_nonneg tsq) hc
  rw [Real.mul_self_sqrt ht.le] at this
  exact h this

theorem shrink_none (hn : 2 ≤ n) (ht : 0 < tsq) (k : UpdateKind) (β : ℝ) (hlo : 0 ≤ k.lo β)
    (h : CutType.call k (⟨β, none⟩ : ParallelCut ℝ) (EllCalc.new n) tsq = (.success, ρ, σ, δ)) : StratShrink n σ δ := by
  cases k with
  | central =>
    have h : (EllCalc.new n).calcCentralCut tsq = _ := h
    rw [calcCentralS_real] at h
    simp only [Prod.mk.injEq, true_and] at h
    exact shrink_central hn ht h
  | bias =>
    have h : (EllCalc.new n).calcBiasCut β tsq = _ := h
    rw [calcBias_real] at h
    split at h
    · simp at h
    · rename_i h1
      simp only [Prod.mk.injEq, true_and] at h
      exact shrink_single hn ht (by simpa using hlo) (le_sqrt_of_sq ht h1) h
  | q =>
    have h : (EllCalc.new n).calcBiasCutQ β tsq = _ := h
    rw [calcBiasQ_real] at h
    split at h
    · simp at h
    · rename_i h1
      split at h
      · simp at h
      · simp only [Prod.mk.injEq, true_and] at h
        exact shrink_single hn ht (by simpa using hlo) (not_lt.1 h1) h

/-- every successful strategy with a non-negative offset -/
theorem strat_shrink {T : Type} [Cut T] (hn : 2 ≤ n) (ht : 0 < tsq) (k : UpdateKind) (c : T) (hlo : 0 ≤ k.lo (Cut.lo c))
    (h : CutType.call k c (EllCalc.new n) tsq = (.success, ρ, σ, δ)) : StratShrink n σ δ := by
  rw [Cut.call_eq] at h
  generalize Cut.lo c = β at *
  generalize Cut.hi c = hi at *
  cases hi with
  | none => exact shrink_none hn ht k β hlo h
  | some b1 =>
    cases k with
    | central =>
      have h : (EllCalc.new n).calcParallelCentralCut b1 tsq = _ := h
      rw [calcParallelCentralS_real] at h
      split at h
      · simp at h
      · rename_i h0
        split at h
        · rw [calcCentralS_real] at h
          simp only [Prod.mk.injEq, true_and] at h
          exact shrink_central hn ht h
        · rename_i h1
          simp only [Prod.mk.injEq, true_and] at h
          exact shrink_parallel_central hn ht (not_lt.1 h0) (not_le.mp h1) h
    | bias =>
      have h : (EllCalc.new n).calcParallelBiasCut β b1 tsq = _ := h
      simp only [UpdateKind.lo_bias] at hlo
      rw [calcParallelBias_real] at h
      split at h
      · simp at h
      · rename_i h0
        split at h
        · exact shrink_none hn ht .bias β (by simpa using hlo) h
        · rename_i h1
          rw [lt_sqrt_iff_sq ht] at h1
          simp only [Prod.mk.injEq, true_and] at h
          exact shrink_parallel hn ht hlo (not_lt.1 h0) (not_le.mp h1) h
    | q =>
      have h : (EllCalc.new n).calcParallelQ β b1 tsq = _ := h
      have hlo : 0 ≤ β := by simpa using hlo
      rw [calcParallelQ_real] at h
      split at h
      · simp at h
      · rename_i h0
        split at h
        · exact shrink_none hn ht .q β (by simpa using hlo) h
        · rename_i h1
          rw [lt_sqrt_iff_sq ht] at h1
          split at h
          · simp at h
          · simp only [Prod.mk.injEq, true_and] at h
            exact shrink_parallel hn ht hlo (not_lt.1 h0) (not_le.mp h1) h

/-- the resulting factor for `det (P + c I)`, with `θ = 1 / (32 n (n + 1))` -/
theorem shrink_factor (hn : 2 ≤ n) (h : StratShrink n σ δ) {θ : ℝ} (hθ : θ = 1 / (32 * n * (n + 1))) :
    (if 1 ≤ δ then δ ^ n * (1 - σ * (1 - θ)) else 1 - (1 - δ * (1 - σ)) * (1 - θ)) ≤
      Real.exp (-(1 / (4 * (n : ℝ) * (n + 1)))) := by
  have hn' : (2 : ℝ) ≤ n := by exact_mod_cast hn
  have hθ0 : 0 < θ := by rw [hθ]; positivity
  set y := 1 / ((n : ℝ) * (n + 1)) with hy
  have hy0 : 0 < y := by positivity
  have hθy : θ = y / 32 := by rw [hθ, hy]; field_simp
  have hy1 : y ≤ 1 / 6 := by
    rw [hy]; apply one_div_le_one_div_of_le (by norm_num); nlinarith
  have ht : 1 - y / 4 ≤ Real.exp (-(1 / (4 * (n : ℝ) * (n + 1)))) := by
    have := Real.add_one_le_exp (-(1 / (4 * (n : ℝ) * (n + 1))))
    have e : 1 / (4 * (n : ℝ) * (n + 1)) = y / 4 := by rw [hy]; field_simp
    rw [e] at this ⊢
    linarith
  have hexp : ∀ x : ℝ, 0 ≤ x → x ≤ 1 → Real.exp (-x) ≤ 1 - x / 2 := by
    intro x h0 h1
    have h2 : Real.exp (-x) * Real.exp x = 1 := by rw [← Real.exp_add]; simp
    have h3 := Real.add_one_le_exp x
    have h4 := Real.exp_pos (-x)
    have h5 : Real.exp (-x) * (1 + x) ≤ 1 := by nlinarith
    have h6 : Real.exp (-x) ≤ 1 / (1 + x) := by rw [le_div_iff₀ (by linarith)]; exact h5
    refine h6.trans ?_
    rw [div_le_iff₀ (by linarith)]
    nlinarith
  refine le_trans ?_ ht
  split
  · have hd8 : δ ^ n ≤ 8 := by
      have h1 : δ ≤ Real.exp (1 / (n - 1)) := by
        refine h.d1.trans ?_
        have := Real.add_one_le_exp (1 / ((n : ℝ) - 1))
        have e : (n : ℝ) / (n - 1) = 1 / (n - 1) + 1 := by
          have : (n : ℝ) - 1 ≠ 0 := by linarith
          field_simp; ring
        rw [e]; exact this
      calc δ ^ n ≤ Real.exp (1 / (n - 1)) ^ n := pow_le_pow_left₀ h.d0 h1 n
        _ = Real.exp (n * (1 / (n - 1))) := by rw [← Real.exp_nat_mul]
        _ ≤ Real.exp 2 := by
          apply Real.exp_le_exp.2
          rw [mul_one_div, div_le_iff₀ (by linarith)]
          linarith
        _ = Real.exp 1 * Real.exp 1 := by rw [← Real.exp_add]; norm_num
        _ ≤ 8 := by
          have := Real.exp_one_lt_d9
          have := Real.exp_pos 1
          nlinarith
    have e : δ ^ n * (1 - σ * (1 - θ)) = δ ^ n * (1 - σ) + δ ^ n * (σ * θ) := by ring
    have h2 : δ ^ n * (σ * θ) ≤ 8 * (1 * θ) := by
      apply mul_le_mul hd8 (mul_le_mul_of_nonneg_right h.s1 hθ0.le) (mul_nonneg h.s0 hθ0.le) (by norm_num)
    have h3 := hexp (1 / ((n : ℝ) + 1)) (by positivity) (by rw [div_le_one (by positivity)]; linarith)
    have h4 : 2 * y ≤ 1 / ((n : ℝ) + 1) := by
      rw [hy, mul_one_div, div_le_div_iff₀ (by positivity) (by positivity)]
      nlinarith
    have := h.vol
    rw [e]
    linarith
  · rename_i hlt
    have hlt := not_le.1 hlt
    have h1 : δ * (1 - σ) ≤ Real.exp (-y) := by
      have hb : 0 ≤ δ * (1 - σ) := mul_nonneg h.d0 (by linarith [h.s1])
      have h2 : (δ * (1 - σ)) ^ n ≤ Real.exp (-y) ^ n := by
        rw [mul_pow]
        have h3 : (1 - σ) ^ n ≤ 1 - σ := pow_le_of_le_one (by linarith [h.s1]) (by linarith [h.s0]) (by omega)
        calc δ ^ n * (1 - σ) ^ n ≤ δ ^ n * (1 - σ) := mul_le_mul_of_nonneg_left h3 (pow_nonneg h.d0 n)
          _ ≤ _ := h.vol
          _ = Real.exp (-y) ^ n := by
            rw [← Real.exp_nat_mul, hy]
            congr 1
            field_simp
      exact le_of_pow_le_pow_left₀ (by omega) (Real.exp_pos _).le h2
    have h2 := hexp y hy0.le (by linarith)
    have h3 : y / 2 * (1 - θ) ≤ (1 - δ * (1 - σ)) * (1 - θ) :=
      mul_le_mul_of_nonneg_right (by linarith) (by rw [hθy]; linarith)
    have h4 : y / 4 ≤ y / 2 * (1 - θ) := by rw [hθy]; nlinarith
    linarith


/-- the parameters of a successful single cut with non-negative offset are at least those of the central cut -/
theorem single_params (hn : 2 ≤ n) (ht : 0 < tsq) (k : UpdateKind) (β : ℝ) (hlo : 0 ≤ k.lo β)
    (h : CutType.call k (⟨β⟩ : SingleCut ℝ) (EllCalc.new n) tsq = (.success, ρ, σ, δ)) :
    2 / ((n : ℝ) + 1) ≤ σ ∧ δ ≤ n * n / (n * n - 1) := by
  have hn' : (2 : ℝ) ≤ n := by exact_mod_cast hn
  have hnn : 0 < (n : ℝ) * n - 1 := by nlinarith
  have hτ : 0 < √tsq := Real.sqrt_pos.mpr ht
  have key : 0 ≤ β → (EllCalcCore.new (n : ℝ)).calcBiasCutFast β (√tsq) (√tsq + n * β) = (ρ, σ, δ) →
      2 / ((n : ℝ) + 1) ≤ σ ∧ δ ≤ n * n / (n * n - 1) := by
    intro h0 h
    rw [calcBiasCutFast_real] at h
    simp only [Prod.mk.injEq] at h
    obtain ⟨-, rfl, rfl⟩ := h
    constructor
    · rw [le_div_iff₀ (by linarith), div_mul_eq_mul_div, mul_div_assoc']
      apply div_le_div_of_nonneg_right _ (by linarith)
      nlinarith
    · have : 0 ≤ β / √tsq * (β / √tsq) := mul_self_nonneg _
      have h3 : 0 ≤ (n : ℝ) * n / (n * n - 1) := by positivity
      nlinarith
  cases k with
  | central =>
    have h : (EllCalc.new n).calcCentralCut tsq = _ := h
    rw [calcCentralS_real, calcCentralCut_real] at h
    simp only [Prod.mk.injEq, true_and] at h
    obtain ⟨-, rfl, rfl⟩ := h
    exact ⟨by rw [mul_one_div], le_rfl⟩
  | bias =>
    have h : (EllCalc.new n).calcBiasCut β tsq = _ := h
    rw [calcBias_real] at h
    split at h
    · simp at h
    · simp only [Prod.mk.injEq, true_and] at h
      exact key (by simpa using hlo) h
  | q =>
    have h : (EllCalc.new n).calcBiasCutQ β tsq = _ := h
    rw [calcBiasQ_real] at h
    split at h
    · simp at h
    · split at h
      · simp at h
      · simp only [Prod.mk.injEq, true_and] at h
        exact key (by simpa using hlo) h

/-- the factor for single cuts, with `θ = (n - 1) / (4 (n + 1))` -/
theorem single_factor (hn : 2 ≤ n) (h : StratShrink n σ δ) (h1 : 2 / ((n : ℝ) + 1) ≤ σ) (h2 : δ ≤ n * n / (n * n - 1))
    {θ : ℝ} (hθ : θ = (n - 1) / (4 * (n + 1))) :
    (if 1 ≤ δ then δ ^ n * (1 - σ * (1 - θ)) else 1 - (1 - δ * (1 - σ)) * (1 - θ)) ≤
      Real.exp (-(1 / (2 * ((n : ℝ) + 1)))) := by
  have hn' : (2 : ℝ) ≤ n := by exact_mod_cast hn
  have hnn : 0 < (n : ℝ) * n - 1 := by nlinarith
  have hθ1 : θ ≤ 1 := by rw [hθ, div_le_one (by linarith)]; linarith
  have hδ0 : 1 ≤ (n : ℝ) * n / (n * n - 1) := by rw [le_div_iff₀ hnn]; linarith
  have hP1 : 1 ≤ ((n : ℝ) * n / (n * n - 1)) ^ n := one_le_pow₀ hδ0
  have hf : 1 - σ * (1 - θ) ≤ 1 - 2 / ((n : ℝ) + 1) * (1 - θ) := by
    have := mul_le_mul_of_nonneg_right h1 (by linarith : 0 ≤ 1 - θ)
    linarith
  have hfp : 0 ≤ 1 - 2 / ((n : ℝ) + 1) * (1 - θ) := by
    have a : 2 / ((n : ℝ) + 1) ≤ 1 := by rw [div_le_one (by linarith)]; linarith
    have b : 0 ≤ θ := by rw [hθ]; exact div_nonneg (by linarith) (by linarith)
    have c : 0 ≤ 2 / ((n : ℝ) + 1) := by positivity
    nlinarith
  have hmain : ((n : ℝ) * n / (n * n - 1)) ^ n * (1 - 2 / ((n : ℝ) + 1) * (1 - θ)) ≤ Real.exp (-(1 / (2 * ((n : ℝ) + 1)))) := by
    obtain ⟨k, rfl⟩ : ∃ k, n = k + 1 := ⟨n - 1, by omega⟩
    have hv := central_volume (k := k) (by omega) (n := ((k + 1 : ℕ) : ℝ)) (by push_cast; rfl)
    set N := ((k + 1 : ℕ) : ℝ) with hN
    have e : 1 - 2 / (N + 1) * (1 - θ) = (1 - 2 * (1 / (N + 1))) * (1 + 1 / (2 * (N + 1))) := by
      rw [hθ]
      field_simp
      ring
    have h3 : 1 + 1 / (2 * (N + 1)) ≤ Real.exp (1 / (2 * (N + 1))) := by
      have := Real.add_one_le_exp (1 / (2 * (N + 1)))
      linarith
    rw [e, ← mul_assoc]
    calc _ ≤ Real.exp (-(1 / (N + 1))) * Real.exp (1 / (2 * (N + 1))) :=
          mul_le_mul hv h3 (by positivity) (Real.exp_pos _).le
      _ = _ := by
        rw [← Real.exp_add]
        congr 1
        field_simp
        ring
  refine le_trans ?_ hmain
  split
  · exact mul_le_mul (pow_le_pow_left₀ h.d0 h2 n) hf (by nlinarith [h.s0, h.s1, hθ1, (by rw [hθ]; exact div_nonneg (by linarith) (by linarith) : 0 ≤ θ)]) (by positivity)
  · rename_i hlt
    have hlt := not_le.1 hlt
    have h3 : 1 - (1 - δ * (1 - σ)) * (1 - θ) ≤ 1 - σ * (1 - θ) := by
      have : σ ≤ 1 - δ * (1 - σ) := by nlinarith [h.s1, h.s0]
      have := mul_le_mul_of_nonneg_right this (by linarith : 0 ≤ 1 - θ)
      linarith
    nlinarith

end

/-- `T`-cuts lower `det (P + c I)` by the factor `exp (-y)` whenever `c ‖g‖² ≤ θ gᵀPg` -/
structure CutRate (T : Type) [Cut T] (n : Nat) (θ y : ℝ) : Prop where
  pos : 0 < θ
  ypos : 0 < y
  rate : ∀ (k : UpdateKind) (c : T) (tsq ρ σ δ : ℝ), 0 < tsq → 0 ≤ k.lo (Cut.lo c) →
    CutType.call k c (EllCalc.new n) tsq = (.success, ρ, σ, δ) → StratShrink n σ δ ∧
      (if 1 ≤ δ then δ ^ n * (1 - σ * (1 - θ)) else 1 - (1 - δ * (1 - σ)) * (1 - θ)) ≤ Real.exp (-y)

theorem cutRate_any {T : Type} [Cut T] {n : Nat} (hn : 2 ≤ n) :
    CutRate T n (1 / (32 * n * (n + 1))) (1 / (4 * n * (n + 1))) := by
  have hn' : (0 : ℝ) < n := by exact_mod_cast (by omega : 0 < n)
  refine ⟨by positivity, by positivity, fun k c tsq ρ σ δ ht hlo h => ?_⟩
  have hs := strat_shrink hn ht k c hlo h
  exact ⟨hs, shrink_factor hn hs rfl⟩

theorem cutRate_single {n : Nat} (hn : 2 ≤ n) :
    CutRate (SingleCut ℝ) n ((n - 1) / (4 * (n + 1))) (1 / (2 * (n + 1))) := by
  have hn' : (2 : ℝ) ≤ n := by exact_mod_cast hn
  refine ⟨div_pos (by linarith) (by linarith), by positivity, fun k c tsq ρ σ δ ht hlo h => ?_⟩
  have hs := strat_shrink hn ht k c hlo h
  obtain ⟨h1, h2⟩ := single_params hn ht k c.beta hlo h
  exact ⟨hs, single_factor hn hs h1 h2 rfl⟩

/-- an ellipsoid that may be degenerate -/
structure Ell.Weak (n : Nat) (e : Ell ℝ) : Prop where
  shaped : e.Shaped n
  dim : 2 ≤ n
  psd : (e.M n).PosSemidef
  kappa : 0 ≤ e.kappa
  helper : e.helper = EllCalc.new n

theorem Ell.Valid.weak {n : Nat} {e : Ell ℝ} (h : e.Valid n) : e.Weak n :=
  ⟨h.shaped, h.dim, h.posDef.posSemidef, h.kappa.le, h.helper⟩

/-- `det (κ M + c I)` -/
noncomputable def Ell.pot (n : Nat) (c : ℝ) (e : Ell ℝ) : ℝ :=
  (e.kappa • e.M n + c • (1 : Matrix (Fin n) (Fin n) ℝ)).det

theorem Ell.Weak.pot_ge {n : Nat} {e : Ell ℝ} (h : e.Weak n) {c : ℝ} (hc : 0 < c) : c ^ n ≤ e.pot n c :=
  pow_le_det_add (h.psd.smul h.kappa) hc

theorem psd_symm {n : Nat} {P : Matrix (Fin n) (Fin n) ℝ} (hP : P.PosSemidef) : P.IsSymm := by
  simpa [IsHermitian, IsSymm, conjTranspose_eq_transpose_of_trivial] using hP.isHermitian

/-- one cut: unless it stops the loop, the potential falls -/
theorem Ell.step_potential {T : Type} [Cut T] {n : Nat} {θ y : ℝ} (hr : CutRate T n θ y) {e : Ell ℝ} (he : e.Weak n)
    (k : UpdateKind) (cut : Arr ℝ × T) (hs : cut.1.IsVecShape n) (hlo : 0 ≤ k.lo (Cut.lo cut.2)) {L tol c : ℝ}
    (ht : 0 < tol) (hc : 0 < c) (hcL : c * L ^ 2 ≤ θ * tol) (hL : normSq (cut.1.toVec n) ≤ L ^ 2) :
    ∃ st e', Ell.space.update k e cut = .ok (st, e') ∧
      (st = .success → tol ≤ e'.tsq → e'.Weak n ∧ e'.pot n c ≤ Real.exp (-y) * e.pot n c) := by
  have hn0 : 0 < n := by have := he.dim; omega
  have hsym := psd_symm he.psd
  obtain ⟨e', h⟩ := Ell.update_exists he.shaped hsym hn0 k cut hs
  refine ⟨_, e', h, fun hst htsq => ?_⟩
  rw [hst] at h
  obtain ⟨ρ, σ, δ, hcall, h2⟩ := Ell.update_real he.shaped hsym hn0 k cut hs h
  rcases h2 with ⟨h2, _⟩ | ⟨_, ha⟩
  · exact absurd rfl h2
  set g := cut.1.toVec n with hg
  rw [ha.tsq] at htsq
  have htp : 0 < e.tsqOf n g := ht.trans_le htsq
  rw [he.helper] at hcall
  obtain ⟨hS, hf⟩ := hr.rate k cut.2 _ ρ σ δ htp hlo hcall
  set P := e.kappa • e.M n with hP
  have hPsd : P.PosSemidef := he.psd.smul he.kappa
  have hκ : 0 < e.kappa := by
    rcases he.kappa.eq_or_lt with h0 | h0
    · rw [Ell.tsqOf, ← h0, zero_mul] at htp; exact absurd htp (lt_irrefl _)
    · exact h0
  have hω : g ⬝ᵥ (P *ᵥ g) = e.tsqOf n g := by rw [hP, smul_mulVec, dotProduct_smul, smul_eq_mul]; rfl
  have hωM : 0 < g ⬝ᵥ (e.M n *ᵥ g) := by
    rw [Ell.tsqOf] at htp
    exact (mul_pos_iff_of_pos_left hκ).1 htp
  have hcut : cutM P g σ = e.kappa • cutM (e.M n) g σ := by
    rw [cutM, hω, cutM, hP, smul_mulVec, smul_sub, smul_vecMulVec, vecMulVec_smul, Ell.tsqOf]
    congr 1
    ext i j
    simp only [Matrix.smul_apply, smul_eq_mul]
    field_simp
  have hres : e'.kappa • e'.M n = δ • cutM P g σ := by
    rw [ha.M, ha.kappa, hcut, smul_smul]
    split
    · rw [one_smul, mul_comm]
    · rw [mul_comm]
  refine ⟨⟨ha.shaped, he.dim, ?_, ?_, ha.helper.trans he.helper⟩, ?_⟩
  · have h1 := cutM_psd he.psd hωM hS.s1
    rw [ha.M]
    split
    · exact h1.smul (mul_nonneg hκ.le hS.d0)
    · exact h1
  · rw [ha.kappa]
    split
    · exact zero_le_one
    · exact mul_nonneg hκ.le hS.d0
  · rw [Ell.pot, Ell.pot, hres, ← hP]
    refine (det_cut_scale hPsd (by rw [hω]; exact htp) hc hS.s0 hS.s1 hS.d0 (θ := θ) ?_).trans ?_
    · rw [hω]
      calc c * normSq g ≤ c * L ^ 2 := mul_le_mul_of_nonneg_left hL hc.le
        _ ≤ θ * tol := hcL
        _ ≤ _ := mul_le_mul_of_nonneg_left htsq hr.pos.le
    · exact mul_le_mul_of_nonneg_right hf (psd_add_pos hPsd hc).det_pos.le

end Ellalgo
