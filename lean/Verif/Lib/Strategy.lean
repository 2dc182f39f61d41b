import Verif.Spec.Cuts
import Verif.Lib.EllLemmas
import Verif.Lib.EllMath

/-! The cut strategies at `ℝ`. -/

namespace Ellalgo
open Matrix

section
variable {n : Nat} {tsq β : ℝ}

theorem calcBiasCutFast_real (n τ β η : ℝ) : (EllCalcCore.new n).calcBiasCutFast β τ η =
    (η / (n + 1), 2 * (η / (n + 1)) / (τ + β), n * n / (n * n - 1) * (1 - β / τ * (β / τ))) := by
  simp [EllCalcCore.calcBiasCutFast, EllCalcCore.new]

theorem calcCentralCut_real (n tsq : ℝ) : (EllCalcCore.new n).calcCentralCut tsq =
    (√tsq / (n + 1), 2 * (1 / (n + 1)), n * n / (n * n - 1)) := by
  simp [EllCalcCore.calcCentralCut, EllCalcCore.new]

theorem calcParallelFast_real (n b0 b1 tsq p η : ℝ) :
    (EllCalcCore.new n).calcParallelBiasCutFast b0 b1 tsq p η =
    (let ξ := √((tsq - b0 * b0) * (tsq - b1 * b1) +
        (n / 2 * (b1 * b1 - b0 * b0)) * (n / 2 * (b1 * b1 - b0 * b0)))
     let σ := 2 * η / (tsq + p + n / 2 * ((b0 + b1) * (b0 + b1)) + ξ)
     (σ * (b0 + b1) / 2, σ,
      n * n / (n * n - 1) * (((tsq - b0 * b0) + (tsq - b1 * b1)) / 2 + ξ / n) / tsq)) := by
  simp [EllCalcCore.calcParallelBiasCutFast, EllCalcCore.new]

theorem calcParallelCentral_real (n b1 tsq : ℝ) : (EllCalcCore.new n).calcParallelCentralCut b1 tsq =
    (let r := n / 2 * (b1 * b1 / tsq) +
      √(1 - b1 * b1 / tsq + n / 2 * (b1 * b1 / tsq) * (n / 2 * (b1 * b1 / tsq)))
     (b1 / (r + 1), 2 / (r + 1), r / (r - 1 / n))) := by
  simp [EllCalcCore.calcParallelCentralCut, EllCalcCore.new]
end

section
open Classical
variable (n : Nat) (b0 b1 tsq : ℝ)

theorem calcBias_real : (EllCalc.new n).calcBiasCut b0 tsq =
    if tsq < b0 * b0 then (.noSoln, 0, 0, 0)
    else (.success, (EllCalcCore.new (n : ℝ)).calcBiasCutFast b0 (√tsq) (√tsq + n * b0)) := by
  simp [EllCalc.calcBiasCut, EllCalc.new, EllCalcCore.calcBiasCut, EllCalcCore.new]

theorem calcBiasQ_real : (EllCalc.new n).calcBiasCutQ b0 tsq =
    if √tsq < b0 then (.noSoln, 0, 0, 0)
    else if √tsq + n * b0 < 0 then (.noEffect, 0, 0, 1)
    else (.success, (EllCalcCore.new (n : ℝ)).calcBiasCutFast b0 (√tsq) (√tsq + n * b0)) := by
  simp [EllCalc.calcBiasCutQ, EllCalc.new]

theorem calcParallelBias_real : (EllCalc.new n).calcParallelBiasCut b0 b1 tsq =
    if b1 < b0 then (.noSoln, 0, 0, 0)
    else if 0 < b1 ∧ tsq ≤ b1 * b1 then (EllCalc.new n).calcBiasCut b0 tsq
    else (.success, (EllCalcCore.new (n : ℝ)).calcParallelBiasCutFast b0 b1 tsq (b0 * b1)
      (tsq + n * (b0 * b1))) := by
  simp [EllCalc.calcParallelBiasCut, EllCalc.new, EllCalcCore.calcParallelBiasCut, EllCalcCore.new]

theorem calcParallelQ_real : (EllCalc.new n).calcParallelQ b0 b1 tsq =
    if b1 < b0 then (.noSoln, 0, 0, 0)
    else if 0 < b1 ∧ tsq ≤ b1 * b1 then (EllCalc.new n).calcBiasCutQ b0 tsq
    else if tsq + n * (b0 * b1) ≤ 0 then (.noEffect, 0, 0, 1)
    else (.success, (EllCalcCore.new (n : ℝ)).calcParallelBiasCutFast b0 b1 tsq (b0 * b1)
      (tsq + n * (b0 * b1))) := by
  simp [EllCalc.calcParallelQ, EllCalc.new]

theorem calcParallelCentralS_real : (EllCalc.new n).calcParallelCentralCut b1 tsq =
    if b1 < 0 then (.noSoln, 0, 0, 0)
    else if tsq ≤ b1 * b1 then (EllCalc.new n).calcCentralCut tsq
    else (.success, (EllCalcCore.new (n : ℝ)).calcParallelCentralCut b1 tsq) := by
  simp [EllCalc.calcParallelCentralCut, EllCalc.new]

theorem calcCentralS_real : (EllCalc.new n).calcCentralCut tsq =
    (.success, (EllCalcCore.new (n : ℝ)).calcCentralCut tsq) := by
  simp [EllCalc.calcCentralCut, EllCalc.new]

end

/-- what the strategies must deliver -/
structure StratGood (n : Nat) (tsq : ℝ) (S : ℝ → Prop) (lo ρ σ δ : ℝ) : Prop where
  good : ∃ b0 b1, GoodCut tsq b0 b1 ρ σ δ ∧
    ∀ t, t ^ 2 ≤ tsq → S t → t + b0 ≤ 0 ∧ 0 ≤ t + b1
  del : 0 < δ
  vol : 0 ≤ lo → δ ^ n * (1 - σ) ≤ Real.exp (-(1 / ((n : ℝ) + 1)))

theorem t_le_tau {t tsq : ℝ} (h : t ^ 2 ≤ tsq) : 0 ≤ t + √tsq := by
  have := Real.abs_le_sqrt h
  have := (abs_le.mp this).1
  linarith

section
variable {n : Nat} {tsq β ρ σ δ : ℝ}

theorem strat_single (hn : 2 ≤ n) (ht : 0 < tsq) (h1 : 0 ≤ √tsq + n * β) (h2 : β < √tsq)
    {S : ℝ → Prop} (hS : ∀ t, S t → t + β ≤ 0)
    (h : (EllCalcCore.new (n : ℝ)).calcBiasCutFast β (√tsq) (√tsq + n * β) = (ρ, σ, δ)) :
    StratGood n tsq S β ρ σ δ := by
  have hn' : (1 : ℝ) < n := by exact_mod_cast (by omega : 1 < n)
  have hτ : 0 < √tsq := Real.sqrt_pos.mpr ht
  rw [calcBiasCutFast_real] at h
  simp only [Prod.mk.injEq] at h
  obtain ⟨rfl, rfl, rfl⟩ := h
  have hg := goodCut_single hn' hτ h1 h2
  rw [Real.mul_self_sqrt ht.le] at hg
  refine ⟨⟨_, _, hg, fun t ht hSt => ⟨hS t hSt, t_le_tau ht⟩⟩, ?_, ?_⟩
  · have hnn : 0 < (n : ℝ) * n - 1 := by nlinarith
    have : 0 < 1 - β / √tsq * (β / √tsq) := by
      have e : 1 - β / √tsq * (β / √tsq) = (√tsq - β) * (√tsq + β) / (√tsq * √tsq) := by
        field_simp; ring
      rw [e]
      have : 0 < √tsq + β := by nlinarith
      have := mul_pos (sub_pos.mpr h2) this
      positivity
    positivity
  · intro hβ
    obtain ⟨k, rfl⟩ : ∃ k, n = k + 1 := ⟨n - 1, by omega⟩
    have := single_volume (k := k) (by omega) (n := ((k + 1 : ℕ) : ℝ)) (by push_cast; rfl) hτ hβ h2
    exact this

theorem strat_central (hn : 2 ≤ n) (ht : 0 < tsq)
    {S : ℝ → Prop} (hS : ∀ t, S t → t + 0 ≤ 0)
    (h : (EllCalcCore.new (n : ℝ)).calcCentralCut tsq = (ρ, σ, δ)) :
    StratGood n tsq S 0 ρ σ δ := by
  have hn' : (1 : ℝ) < n := by exact_mod_cast (by omega : 1 < n)
  have hτ : 0 < √tsq := Real.sqrt_pos.mpr ht
  rw [calcCentralCut_real] at h
  simp only [Prod.mk.injEq] at h
  obtain ⟨rfl, rfl, rfl⟩ := h
  have hg := goodCut_central hn' hτ
  rw [Real.mul_self_sqrt ht.le] at hg
  refine ⟨⟨_, _, hg, fun t ht hSt => ⟨hS t hSt, t_le_tau ht⟩⟩, ?_, ?_⟩
  · have hnn : 0 < (n : ℝ) * n - 1 := by nlinarith
    positivity
  · intro _
    obtain ⟨k, rfl⟩ : ∃ k, n = k + 1 := ⟨n - 1, by omega⟩
    exact central_volume (k := k) (by omega) (n := ((k + 1 : ℕ) : ℝ)) (by push_cast; rfl)

theorem strat_parallel {b0 b1 : ℝ} (hn : 2 ≤ n) (ht : 0 < tsq) (h01 : b0 < b1) (h1 : b1 < √tsq)
    (h2 : -√tsq < b1) (hη : 0 ≤ tsq + n * (b0 * b1)) {S : ℝ → Prop}
    (hS : ∀ t, S t → t + b0 ≤ 0 ∧ 0 ≤ t + b1)
    (h : (EllCalcCore.new (n : ℝ)).calcParallelBiasCutFast b0 b1 tsq (b0 * b1) (tsq + n * (b0 * b1)) =
      (ρ, σ, δ)) :
    StratGood n tsq S b0 ρ σ δ := by
  have hn' : (1 : ℝ) < n := by exact_mod_cast (by omega : 1 < n)
  have hτ : 0 < √tsq := Real.sqrt_pos.mpr ht
  rw [calcParallelFast_real] at h
  dsimp only at h
  simp only [Prod.mk.injEq] at h
  obtain ⟨rfl, rfl, rfl⟩ := h
  obtain ⟨hg, hq⟩ := goodCut_parallel hn' ht hη (parFacts hn' h01 hη)
  have hδ : 0 < (n * n / (n * n - 1) * (((tsq - b0 * b0) + (tsq - b1 * b1)) / 2 +
      √((tsq - b0 * b0) * (tsq - b1 * b1) +
        (n / 2 * (b1 * b1 - b0 * b0)) * (n / 2 * (b1 * b1 - b0 * b0))) / n) / tsq : ℝ) := by
    refine hg.del_pos ht (t := -b1) (by linarith) (by linarith) ?_
    have : |b1| < √tsq := abs_lt.mpr ⟨h2, h1⟩
    have := mul_self_lt_mul_self (abs_nonneg _) this
    rw [Real.mul_self_sqrt ht.le, abs_mul_abs_self] at this
    nlinarith
  refine ⟨⟨_, _, hg, fun t _ hSt => hS t hSt⟩, hδ, ?_⟩
  intro h0
  obtain ⟨k, rfl⟩ : ∃ k, n = k + 1 := ⟨n - 1, by omega⟩
  have e := Real.mul_self_sqrt ht.le
  have hv := parallel_volume (k := k) (by omega) (n := ((k + 1 : ℕ) : ℝ)) (by push_cast; rfl) hτ h0 h01
    h1.le (by rw [e]; exact hg) hδ.le (by rw [e]; exact hq)
  exact hv

theorem strat_parallel_central {b1 : ℝ} (hn : 2 ≤ n) (ht : 0 < tsq) (h0 : 0 < b1) (h1 : b1 * b1 < tsq)
    {S : ℝ → Prop} (hS : ∀ t, S t → t + 0 ≤ 0 ∧ 0 ≤ t + b1)
    (h : (EllCalcCore.new (n : ℝ)).calcParallelCentralCut b1 tsq = (ρ, σ, δ)) :
    StratGood n tsq S 0 ρ σ δ := by
  have hn' : (1 : ℝ) < n := by exact_mod_cast (by omega : 1 < n)
  have hτ : 0 < √tsq := Real.sqrt_pos.mpr ht
  rw [calcParallelCentral_real] at h
  dsimp only at h
  simp only [Prod.mk.injEq] at h
  obtain ⟨rfl, rfl, rfl⟩ := h
  obtain ⟨hr, hrq, hg⟩ := goodCut_parallel_central hn' ht h0 h1
  set r := (n : ℝ) / 2 * (b1 * b1 / tsq) +
      √(1 - b1 * b1 / tsq + n / 2 * (b1 * b1 / tsq) * (n / 2 * (b1 * b1 / tsq))) with hrd
  clear_value r
  have hδ : 0 < r / (r - 1 / n) := by
    have : (1 : ℝ) / n < 1 := by rw [div_lt_one (by linarith)]; exact hn'
    apply div_pos <;> linarith
  refine ⟨⟨_, _, hg, fun t _ hSt => hS t hSt⟩, hδ, ?_⟩
  intro _
  obtain ⟨k, rfl⟩ : ∃ k, n = k + 1 := ⟨n - 1, by omega⟩
  have e := Real.mul_self_sqrt ht.le
  have hq : (((k + 1 : ℕ) : ℝ) + 1) * ((0 + b1) / 2) ^ 2 * (2 / (r + 1)) ^ 2 -
      2 * ((tsq + 0 * b1) / 2 + ((k + 1 : ℕ) : ℝ) * ((0 + b1) / 2) ^ 2) * (2 / (r + 1)) +
        (tsq + ((k + 1 : ℕ) : ℝ) * (0 * b1)) = 0 := by
    have hr1 : r + 1 ≠ 0 := by linarith
    field_simp at hrq ⊢
    linear_combination hrq
  exact parallel_volume (k := k) (by omega) (n := ((k + 1 : ℕ) : ℝ)) (by push_cast; rfl) hτ le_rfl h0
    (by
      have := Real.lt_sqrt (y := tsq) h0.le |>.mpr (by nlinarith)
      exact this.le) (by rw [e]; exact hg) hδ.le (by rw [e]; exact hq)

end

theorem lt_sqrt_iff_sq {b tsq : ℝ} (ht : 0 < tsq) : (0 < b ∧ tsq ≤ b * b) ↔ √tsq ≤ b := by
  constructor
  · rintro ⟨h1, h2⟩
    rw [Real.sqrt_le_left h1.le]; nlinarith
  · intro h
    have h0 := Real.sqrt_pos.mpr ht
    refine ⟨by linarith, ?_⟩
    have := mul_self_le_mul_self h0.le h
    rwa [Real.mul_self_sqrt ht.le] at this

section
variable {n : Nat} {tsq : ℝ} {ρ σ δ : ℝ}

theorem strat_none (hn : 2 ≤ n) (ht : 0 < tsq) (k : UpdateKind) (β : ℝ) {S : ℝ → Prop}
    (hS : ∀ t, S t → t + k.lo β ≤ 0)
    (hadm : Cut.Adm.AdmSingle n k β tsq)
    (h : CutType.call k (⟨β, none⟩ : ParallelCut ℝ) (EllCalc.new n) tsq = (.success, ρ, σ, δ)) :
    StratGood n tsq S (k.lo β) ρ σ δ := by
  cases k with
  | central =>
    have h : (EllCalc.new n).calcCentralCut tsq = _ := h
    rw [calcCentralS_real] at h
    simp only [Prod.mk.injEq, true_and] at h
    exact strat_central hn ht hS h
  | bias =>
    have h : (EllCalc.new n).calcBiasCut β tsq = _ := h
    rw [calcBias_real] at h
    split at h
    · simp at h
    · simp only [Prod.mk.injEq, true_and] at h
      exact strat_single hn ht hadm.1 hadm.2 hS h
  | q =>
    have h : (EllCalc.new n).calcBiasCutQ β tsq = _ := h
    rw [calcBiasQ_real] at h
    split at h
    · simp at h
    · rename_i h1
      split at h
      · simp at h
      · rename_i h2
        simp only [Prod.mk.injEq, true_and] at h
        exact strat_single hn ht (not_lt.mp h2) (lt_of_le_of_ne (not_lt.mp h1) hadm) hS h

/-- **all strategies**: a successful admissible cut is a good cut -/
theorem strat_good {T : Type} [Cut T] (hn : 2 ≤ n) (ht : 0 < tsq) (k : UpdateKind) (c : T)
    (hadm : Cut.Adm n k c tsq)
    (h : CutType.call k c (EllCalc.new n) tsq = (.success, ρ, σ, δ)) :
    StratGood n tsq (Cut.Sat k c) (k.lo (Cut.lo c)) ρ σ δ := by
  rw [Cut.call_eq] at h
  unfold Cut.Sat
  unfold Cut.Adm at hadm
  generalize Cut.lo c = β at *
  generalize Cut.hi c = hi at *
  cases hi with
  | none => exact strat_none hn ht k β (fun t hs => hs.1) hadm h
  | some b1 =>
    simp only at hadm
    by_cases hk : k = .central
    · subst hk
      simp only [if_true] at hadm
      have h : (EllCalc.new n).calcParallelCentralCut b1 tsq = _ := h
      rw [calcParallelCentralS_real, if_neg (by linarith), calcCentralS_real] at h
      split at h
      · simp only [Prod.mk.injEq, true_and] at h
        exact strat_central hn ht (fun t hs => hs.1) h
      · rename_i h1
        simp only [Prod.mk.injEq, true_and] at h
        exact strat_parallel_central hn ht hadm (not_le.mp h1) (fun t hs => ⟨hs.1, hs.2 _ rfl⟩) h
    · rw [if_neg hk] at hadm
      obtain ⟨h01, hA, hB⟩ := hadm
      by_cases hfar : √tsq ≤ b1
      · have hfar' := (lt_sqrt_iff_sq ht).mpr hfar
        refine strat_none hn ht k β (fun t hs => hs.1) (hA hfar) ?_
        rw [← h]
        cases k with
        | central => exact absurd rfl hk
        | bias =>
          show _ = (EllCalc.new n).calcParallelBiasCut β b1 tsq
          rw [calcParallelBias_real, if_neg h01.le.not_gt, if_pos hfar']
          rfl
        | q =>
          show _ = (EllCalc.new n).calcParallelQ β b1 tsq
          rw [calcParallelQ_real, if_neg h01.le.not_gt, if_pos hfar']
          rfl
      · have hB := hB (not_le.mp hfar)
        have hfar' : ¬ (0 < b1 ∧ tsq ≤ b1 * b1) := fun hc => hfar ((lt_sqrt_iff_sq ht).mp hc)
        cases k with
        | central => exact absurd rfl hk
        | bias =>
          have h : (EllCalc.new n).calcParallelBiasCut β b1 tsq = _ := h
          rw [calcParallelBias_real, if_neg h01.le.not_gt, if_neg hfar'] at h
          simp only [Prod.mk.injEq, true_and] at h
          exact strat_parallel hn ht h01 (not_le.mp hfar) hB.1 (hB.2 rfl) (fun t hs => ⟨hs.1, hs.2 _ rfl⟩) h
        | q =>
          have h : (EllCalc.new n).calcParallelQ β b1 tsq = _ := h
          rw [calcParallelQ_real, if_neg h01.le.not_gt, if_neg hfar'] at h
          split at h
          · simp at h
          · rename_i hη
            simp only [Prod.mk.injEq, true_and] at h
            exact strat_parallel hn ht h01 (not_le.mp hfar) hB.1 (not_le.mp hη).le
              (fun t hs => ⟨hs.1, hs.2 _ rfl⟩) h

end
end Ellalgo
