import Verif.Lib.MinVolume

/-! The strategies are optimal for the slab they keep (helper lemmas of C66). -/

namespace Ellalgo
open Matrix
open scoped ComplexOrder

/-- parameters of a strategy that is optimal for the slab `-b1 ≤ t ≤ -b0` -/
structure StratOpt (n : Nat) (tsq : ℝ) (S : ℝ → Prop) (ρ σ δ b0 b1 : ℝ) : Prop where
  good : GoodCut tsq b0 b1 ρ σ δ
  del : 0 < δ
  quad : ((n : ℝ) + 1) * ((b0 + b1) / 2) ^ 2 * σ ^ 2 - 2 * ((tsq + b0 * b1) / 2 + n * ((b0 + b1) / 2) ^ 2) * σ +
    (tsq + n * (b0 * b1)) = 0
  lt : b0 < b1
  in0 : b0 ^ 2 ≤ tsq
  in1 : b1 ^ 2 ≤ tsq
  sat : ∀ t, t + b0 ≤ 0 → 0 ≤ t + b1 → S t

section
variable {n : Nat} {tsq β ρ σ δ : ℝ}

theorem opt_single (hn : 2 ≤ n) (ht : 0 < tsq) (h1 : 0 ≤ √tsq + n * β) (h2 : β < √tsq)
    {S : ℝ → Prop} (hS : ∀ t, t + β ≤ 0 → 0 ≤ t + √tsq → S t)
    (h : (EllCalcCore.new (n : ℝ)).calcBiasCutFast β (√tsq) (√tsq + n * β) = (ρ, σ, δ)) :
    StratOpt n tsq S ρ σ δ β (√tsq) := by
  have hgd := strat_single hn ht h1 h2 (S := fun t => t + β ≤ 0) (fun t h => h) h
  have hn' : (1 : ℝ) < n := by exact_mod_cast (by omega : 1 < n)
  have hτ : 0 < √tsq := Real.sqrt_pos.mpr ht
  have hττ := Real.mul_self_sqrt ht.le
  rw [calcBiasCutFast_real] at h
  simp only [Prod.mk.injEq] at h
  obtain ⟨rfl, rfl, rfl⟩ := h
  have hg := goodCut_single hn' hτ h1 h2
  rw [hττ] at hg
  have hs : 0 < √tsq + β := by nlinarith
  refine ⟨hg, hgd.del, ?_, h2, by nlinarith, by nlinarith, hS⟩
  set τ := √tsq
  rw [← hττ]
  have : (n : ℝ) + 1 ≠ 0 := by positivity
  have : τ + β ≠ 0 := hs.ne'
  have e : (β + τ) / 2 = (τ + β) / 2 := by ring
  rw [e]
  field_simp
  ring

theorem opt_central (hn : 2 ≤ n) (ht : 0 < tsq) {S : ℝ → Prop} (hS : ∀ t, t + 0 ≤ 0 → 0 ≤ t + √tsq → S t)
    (h : (EllCalcCore.new (n : ℝ)).calcCentralCut tsq = (ρ, σ, δ)) :
    StratOpt n tsq S ρ σ δ 0 (√tsq) := by
  have hτ : 0 < √tsq := Real.sqrt_pos.mpr ht
  refine opt_single hn ht (by simp) hτ hS ?_
  rw [← h, calcBiasCutFast_real, calcCentralCut_real]
  have : (n : ℝ) + 1 ≠ 0 := by positivity
  simp only [mul_zero, add_zero, zero_div, sub_zero, mul_one, Prod.mk.injEq, and_true, true_and]
  field_simp

theorem opt_parallel {b0 b1 : ℝ} (hn : 2 ≤ n) (ht : 0 < tsq) (h01 : b0 < b1) (h1 : b1 < √tsq)
    (h2 : -√tsq < b1) (h3 : -√tsq ≤ b0) (hη : 0 ≤ tsq + n * (b0 * b1)) {S : ℝ → Prop}
    (hS : ∀ t, t + b0 ≤ 0 → 0 ≤ t + b1 → S t)
    (h : (EllCalcCore.new (n : ℝ)).calcParallelBiasCutFast b0 b1 tsq (b0 * b1) (tsq + n * (b0 * b1)) =
      (ρ, σ, δ)) :
    StratOpt n tsq S ρ σ δ b0 b1 := by
  have hgd := strat_parallel hn ht h01 h1 h2 hη (S := fun t => t + b0 ≤ 0 ∧ 0 ≤ t + b1) (fun t h => h) h
  have hn' : (1 : ℝ) < n := by exact_mod_cast (by omega : 1 < n)
  have hττ := Real.mul_self_sqrt ht.le
  rw [calcParallelFast_real] at h
  dsimp only at h
  simp only [Prod.mk.injEq] at h
  obtain ⟨rfl, rfl, rfl⟩ := h
  obtain ⟨hg, hq⟩ := goodCut_parallel hn' ht hη (parFacts hn' h01 hη)
  exact ⟨hg, hgd.del, hq, h01, by nlinarith, by nlinarith, hS⟩

theorem opt_parallel_central {b1 : ℝ} (hn : 2 ≤ n) (ht : 0 < tsq) (h0 : 0 < b1) (h1 : b1 * b1 < tsq)
    {S : ℝ → Prop} (hS : ∀ t, t + 0 ≤ 0 → 0 ≤ t + b1 → S t)
    (h : (EllCalcCore.new (n : ℝ)).calcParallelCentralCut b1 tsq = (ρ, σ, δ)) :
    StratOpt n tsq S ρ σ δ 0 b1 := by
  have hgd := strat_parallel_central hn ht h0 h1 (S := fun t => t + 0 ≤ 0 ∧ 0 ≤ t + b1) (fun t h => h) h
  have hn' : (1 : ℝ) < n := by exact_mod_cast (by omega : 1 < n)
  rw [calcParallelCentral_real] at h
  dsimp only at h
  simp only [Prod.mk.injEq] at h
  obtain ⟨rfl, rfl, rfl⟩ := h
  obtain ⟨hr, hrq, hg⟩ := goodCut_parallel_central hn' ht h0 h1
  refine ⟨hg, hgd.del, ?_, h0, by nlinarith, by nlinarith, hS⟩
  set r := (n : ℝ) / 2 * (b1 * b1 / tsq) +
      √(1 - b1 * b1 / tsq + n / 2 * (b1 * b1 / tsq) * (n / 2 * (b1 * b1 / tsq))) with hrd
  clear_value r
  have hr1 : r + 1 ≠ 0 := by linarith
  field_simp at hrq ⊢
  linear_combination hrq

theorem opt_none (hn : 2 ≤ n) (ht : 0 < tsq) (k : UpdateKind) (β : ℝ) {S : ℝ → Prop}
    (hS : ∀ t, t + k.lo β ≤ 0 → 0 ≤ t + √tsq → S t)
    (hadm : Cut.Adm.AdmSingle n k β tsq)
    (h : CutType.call k (⟨β, none⟩ : ParallelCut ℝ) (EllCalc.new n) tsq = (.success, ρ, σ, δ)) :
    ∃ b0 b1, StratOpt n tsq S ρ σ δ b0 b1 := by
  cases k with
  | central =>
    have h : (EllCalc.new n).calcCentralCut tsq = _ := h
    rw [calcCentralS_real] at h
    simp only [Prod.mk.injEq, true_and] at h
    exact ⟨_, _, opt_central hn ht hS h⟩
  | bias =>
    have h : (EllCalc.new n).calcBiasCut β tsq = _ := h
    rw [calcBias_real] at h
    split at h
    · simp at h
    · simp only [Prod.mk.injEq, true_and] at h
      exact ⟨_, _, opt_single hn ht hadm.1 hadm.2 hS h⟩
  | q =>
    have h : (EllCalc.new n).calcBiasCutQ β tsq = _ := h
    rw [calcBiasQ_real] at h
    split at h
    · simp at h
    · rename_i h1
      split at h
      · simp at h
      · rename_i h2
        simp only [Prod.mk.injEq, true_and] at h
        exact ⟨_, _, opt_single hn ht (not_lt.mp h2) (lt_of_le_of_ne (not_lt.mp h1) hadm) hS h⟩

theorem strat_opt {T : Type} [Cut T] (hn : 2 ≤ n) (ht : 0 < tsq) (k : UpdateKind) (c : T)
    (hadm : Cut.Adm n k c tsq) (hlo : -√tsq ≤ k.lo (Cut.lo c))
    (h : CutType.call k c (EllCalc.new n) tsq = (.success, ρ, σ, δ)) :
    ∃ b0 b1, StratOpt n tsq (Cut.Sat k c) ρ σ δ b0 b1 := by
  rw [Cut.call_eq] at h
  unfold Cut.Sat
  unfold Cut.Adm at hadm
  generalize Cut.lo c = β at *
  generalize Cut.hi c = hi at *
  cases hi with
  | none => exact opt_none hn ht k β (fun t h1 _ => ⟨h1, by simp⟩) hadm h
  | some b1 =>
    simp only at hadm
    by_cases hk : k = .central
    · subst hk
      simp only [if_true] at hadm
      have h : (EllCalc.new n).calcParallelCentralCut b1 tsq = _ := h
      rw [calcParallelCentralS_real, if_neg (by linarith), calcCentralS_real] at h
      split at h
      · rename_i hb
        simp only [Prod.mk.injEq, true_and] at h
        have hfar := (lt_sqrt_iff_sq ht).mp ⟨hadm, hb⟩
        refine ⟨_, _, opt_central hn ht (fun t h1 h2 => ⟨h1, ?_⟩) h⟩
        intro b hb; cases hb; linarith
      · rename_i h1
        simp only [Prod.mk.injEq, true_and] at h
        refine ⟨_, _, opt_parallel_central hn ht hadm (not_le.mp h1) (fun t h1 h2 => ⟨h1, ?_⟩) h⟩
        intro b hb; cases hb; exact h2
    · rw [if_neg hk] at hadm
      obtain ⟨h01, hA, hB⟩ := hadm
      by_cases hfar : √tsq ≤ b1
      · have hfar' := (lt_sqrt_iff_sq ht).mpr hfar
        refine opt_none hn ht k β (fun t h1 h2 => ⟨h1, ?_⟩) (hA hfar) ?_
        · intro b hb; cases hb; linarith
        rw [← h]
        cases k with
        | central => exact absurd rfl hk
        | bias =>
          show _ = (EllCalc.new n).calcParallelBiasCut β b1 tsq
          rw [calcParallelBias_real, if_neg h01.le.not_gt, if_pos hfar']
          rfl
        | q =>
          show _ = (EllCalc.new n).calcParallelQ β b1 tsq
          rw [calcParallelQ_real, if_neg h01.le.not_gt, if_pos hfar']
          rfl
      · have hB := hB (not_le.mp hfar)
        have hfar' : ¬ (0 < b1 ∧ tsq ≤ b1 * b1) := fun hc => hfar ((lt_sqrt_iff_sq ht).mp hc)
        cases k with
        | central => exact absurd rfl hk
        | bias =>
          have h : (EllCalc.new n).calcParallelBiasCut β b1 tsq = _ := h
          rw [calcParallelBias_real, if_neg h01.le.not_gt, if_neg hfar'] at h
          simp only [Prod.mk.injEq, true_and] at h
          simp only [UpdateKind.lo_bias] at hlo ⊢
          refine ⟨_, _, opt_parallel hn ht h01 (not_le.mp hfar) hB.1 hlo (hB.2 rfl) (fun t h1 h2 => ⟨h1, ?_⟩) h⟩
          intro b hb; cases hb; exact h2
        | q =>
          have h : (EllCalc.new n).calcParallelQ β b1 tsq = _ := h
          rw [calcParallelQ_real, if_neg h01.le.not_gt, if_neg hfar'] at h
          split at h
          · simp at h
          · rename_i hη
            simp only [Prod.mk.injEq, true_and] at h
            simp only [UpdateKind.lo_q] at hlo ⊢
            refine ⟨_, _, opt_parallel hn ht h01 (not_le.mp hfar) hB.1 hlo (not_le.mp hη).le
              (fun t h1 h2 => ⟨h1, ?_⟩) h⟩
            intro b hb; cases hb; exact h2

end

end Ellalgo
