import Verif.Props.Converge
import Verif.Props.EllRealExamples

/-! Non-vacuity of C22-C25: half-plane oracles on the disc of radius 2 around (1,1). -/

namespace Ellalgo.ExR
open Matrix Ellalgo

/-- the gradient `(-1, 0)` -/
noncomputable def gm : Arr ℝ := ⟨[-1, 0], 2, 0⟩
theorem gm_shape : gm.IsVecShape 2 := ⟨rfl, rfl, rfl⟩
theorem gm_vec : gm.toVec 2 = ![-1, 0] := by
  ext i; fin_cases i <;> simp [Arr.toVec, Arr.vec, gm]
theorem gm_ne : gm.toVec 2 ≠ 0 := by
  rw [gm_vec]; intro h
  have := congrFun h 0
  norm_num at this
theorem gm_norm : normSq (gm.toVec 2) = 1 := by
  rw [gm_vec]; simp [normSq, dotProduct, Fin.sum_univ_two]
theorem gm_dot (v : Fin 2 → ℝ) : gm.toVec 2 ⬝ᵥ v = -v 0 := by
  rw [gm_vec]; simp [dotProduct, Fin.sum_univ_two]

open Classical in
/-- accepts `x` iff `a ≤ x₀` -/
noncomputable def half (a : ℝ) : OracleFeas Unit (Arr ℝ) (SingleCut ℝ) ℝ where
  assess _ x := if a ≤ x.toVec 2 0 then .ok (none, ()) else .ok (some (gm, ⟨a - x.toVec 2 0⟩), ())
  update w _ := .ok w

def halfK (a : ℝ) : Set (Fin 2 → ℝ) := {y | a ≤ y 0}

theorem half_honest (a : ℝ) {G : ℝ} (hG : G ^ 2 ≤ 1) : HonestFeas 2 (half a) (fun _ => True) (halfK a) G := by
  intro w x _ _
  by_cases h : a ≤ x.toVec 2 0
  · exact ⟨none, (), by simp [half, h], trivial, by simp⟩
  · refine ⟨some (gm, ⟨a - x.toVec 2 0⟩), (), by simp [half, h], trivial, ?_⟩
    intro g c hc
    simp only [Option.some.injEq, Prod.mk.injEq] at hc
    obtain ⟨rfl, rfl⟩ := hc
    push Not at h
    refine ⟨gm_shape, gm_ne, by rw [gm_norm]; exact hG, by simp; linarith, ?_⟩
    intro y hy
    refine ⟨?_, by intro b hb; cases hb⟩
    have hy : a ≤ y 0 := hy
    simp only [gm_dot, Cut.lo_single, UpdateKind.lo_bias, Pi.sub_apply]
    linarith

theorem half_complete (a : ℝ) : CompleteFeas 2 (half a) (fun _ => True) (halfK a) := by
  intro w x g c w' _ _ hq
  by_cases h : a ≤ x.toVec 2 0
  · simp [half, h] at hq
  · simp only [half, h, if_false, Res.ok.injEq, Prod.mk.injEq, Option.some.injEq] at hq
    obtain ⟨⟨rfl, rfl⟩, -⟩ := hq
    exact ⟨h, by simp⟩

theorem disc_c : disc.c 2 = ![1, 1] := by
  ext i; fin_cases i <;> simp [Ell.c, Arr.toVec, disc, Ell.newWithMatrix, Arr.vec]

/-- the ball of radius 1/2 around (2,1) lies in the disc and has `y₀ ≥ 3/2` -/
theorem ball_facts : ∀ y ∈ ball ![2, 1] (1/2 : ℝ), y ∈ disc.region 2 ∧ 3/2 ≤ y 0 := by
  intro y hy
  have hy : normSq (y - ![2, 1]) ≤ (1/2 : ℝ) ^ 2 := hy
  simp only [normSq, dotProduct, Fin.sum_univ_two, Pi.sub_apply, cons_val_zero, cons_val_one] at hy
  have h0 : 3/2 ≤ y 0 := by nlinarith [mul_self_nonneg (y 1 - 1)]
  have h1 : y 0 ≤ 5/2 := by nlinarith [mul_self_nonneg (y 1 - 1)]
  refine ⟨?_, h0⟩
  show (y - disc.c 2) ⬝ᵥ ((disc.M 2)⁻¹ *ᵥ (y - disc.c 2)) ≤ disc.kappa
  rw [disc_M, disc_c, inv_one, one_mulVec]
  simp only [dotProduct, Fin.sum_univ_two, Pi.sub_apply, cons_val_zero, cons_val_one]
  show _ ≤ (4 : ℝ)
  nlinarith [mul_self_nonneg (y 1 - 1)]

theorem disc_bound : (((2 : ℕ) : ℝ) + 1) * Real.log ((disc.kappa • disc.M 2).det / ((1/2 : ℝ) ^ 2) ^ 2) <
    (2000 : ℕ) := by
  rw [disc_M, det_smul, det_one]
  have h := Real.log_le_sub_one_of_pos (x := 256) (by norm_num)
  have e : disc.kappa ^ Fintype.card (Fin 2) * 1 / ((1/2 : ℝ) ^ 2) ^ 2 = 256 := by
    show (4 : ℝ) ^ Fintype.card (Fin 2) * 1 / ((1/2 : ℝ) ^ 2) ^ 2 = 256
    rw [Fintype.card_fin]; norm_num
  rw [e]
  push_cast
  linarith

/-- C22: all hypotheses hold for the half-plane `y₀ ≥ 3/2`, 2000 iterations, tolerance 1/10 -/
example : ∃ x k w1 w' e', cuttingPlaneFeas (half (3/2)) Ell.space () disc ⟨2000, 1/10⟩ =
    .ok ((some x, k), w', e') ∧ (half (3/2)).assess w1 x = .ok (none, w') := by
  obtain ⟨x, k, w1, w', e', h1, h2, -⟩ := C22_feas_converges (half (3/2)) _ _ 1 (1/2) ![2, 1] () disc
    ⟨2000, 1/10⟩ (half_honest _ (by norm_num)) trivial disc_valid (by norm_num)
    (fun y hy => (ball_facts y hy).2) (fun y hy => (ball_facts y hy).1) (by norm_num) disc_bound
  exact ⟨x, k, w1, w', e', h1, h2⟩

/-- C23: for `y₀ ≥ 10` the run stops at once with `None` -/
example : ∃ w' e', cuttingPlaneFeas (half 10) Ell.space () disc ⟨5, 0⟩ = .ok ((none, 0), w', e') := by
  have hx : disc.xc.toVec 2 0 = 1 := by have := congrFun disc_c 0; simpa [Ell.c] using this
  obtain ⟨e', h⟩ := Ell.update_exists disc_valid.shaped disc_valid.symm disc_valid.pos .bias
    ((gm, ⟨9⟩) : Arr ℝ × SingleCut ℝ) gm_shape
  have htsq : disc.tsqOf 2 (gm.toVec 2) = 4 := by
    rw [Ell.tsqOf, disc_M, one_mulVec]
    have := gm_norm
    rw [normSq] at this
    rw [this]; show (4 : ℝ) * 1 = 4; norm_num
  have hst : (CutType.call .bias (⟨9⟩ : SingleCut ℝ) disc.helper (disc.tsqOf 2 (gm.toVec 2))).1 = .noSoln := by
    show (EllCalc.calcBiasCut _ _ _).1 = _
    rw [disc_valid.helper, calcBias_real, htsq, if_pos (by norm_num)]
  rw [hst] at h
  have h' : Ell.space.updateBias disc ((gm, ⟨9⟩) : Arr ℝ × SingleCut ℝ) = .ok (.noSoln, e') := h
  have hq : (half 10).assess () disc.xc = .ok (some (gm, ⟨9⟩), ()) := by
    simp [half, hx]; norm_num
  refine ⟨(), e', ?_⟩
  have hq' : (half 10).assess () (Ell.space (T := SingleCut ℝ).xc disc) = .ok (some (gm, ⟨9⟩), ()) := hq
  simp [cuttingPlaneFeas, feasLoop, hq', h']

example : HonestFeas 2 (half 10) (fun _ => True) (halfK 10) 0 ∧
    CompleteFeas 2 (half 10) (fun _ => True) (halfK 10) :=
  ⟨half_honest _ (by norm_num), half_complete _⟩

open Classical in
/-- maximise `x₀` -/
noncomputable def maxX : OracleOptim Unit (Arr ℝ) (SingleCut ℝ) ℝ where
  assess _ x γ := if γ < x.toVec 2 0 then .ok (((gm, ⟨0⟩), true), x.toVec 2 0, ())
    else .ok (((gm, ⟨γ - x.toVec 2 0⟩), false), γ, ())

theorem maxX_honest {G : ℝ} (hG : G ^ 2 ≤ 1) :
    HonestOptim 2 maxX (fun _ _ => True) (fun γ => {x | x ∈ Set.univ ∧ γ < x 0}) G := by
  intro w x γ _ _
  by_cases h : γ < x.toVec 2 0
  · refine ⟨gm, ⟨0⟩, true, x.toVec 2 0, (), by simp [maxX, h], trivial, ?_, gm_shape, gm_ne,
      by rw [gm_norm]; exact hG, ?_, by simp⟩
    · exact fun y hy => ⟨trivial, h.trans hy.2⟩
    · intro _ y hy
      have hy : x.toVec 2 0 < y 0 := hy.2
      refine ⟨?_, by intro b hb; cases hb⟩
      simp only [gm_dot, UpdateKind.lo_central, Pi.sub_apply]
      linarith
  · refine ⟨gm, ⟨γ - x.toVec 2 0⟩, false, γ, (), by simp [maxX, h], trivial, le_rfl, gm_shape, gm_ne,
      by rw [gm_norm]; exact hG, by simp, ?_⟩
    intro _
    push Not at h
    refine ⟨by simp; linarith, ?_⟩
    intro y hy
    have hy : γ < y 0 := hy.2
    refine ⟨?_, by intro b hb; cases hb⟩
    simp only [gm_dot, Cut.lo_single, UpdateKind.lo_bias, Pi.sub_apply]
    linarith

theorem maxX_complete :
    CompleteOptim 2 maxX (fun _ _ => True) (fun γ => {x | x ∈ Set.univ ∧ γ < x 0}) := by
  intro w x γ g c sh γ' w' _ _ hq
  by_cases h : γ < x.toVec 2 0
  · simp only [maxX, h, if_true, Res.ok.injEq, Prod.mk.injEq] at hq
    obtain ⟨⟨⟨rfl, rfl⟩, rfl⟩, rfl, -⟩ := hq
    exact ⟨fun hx => lt_irrefl _ hx.2, by simp, by simp⟩
  · simp only [maxX, h, if_false, Res.ok.injEq, Prod.mk.injEq] at hq
    obtain ⟨⟨⟨rfl, rfl⟩, rfl⟩, rfl, -⟩ := hq
    exact ⟨fun hx => h hx.2, by simp, by simp⟩

/-- C24, C25: maximising `x₀` over the disc reaches the level 3/2 -/
example : ∃ xb k γ' w' e', cuttingPlaneOptim maxX Ell.space () disc (-7) ⟨2000, 1/10⟩ =
    .ok ((xb, k), γ', w', e') ∧ 3/2 ≤ γ' :=
  C25_optim_reaches_level maxX _ Set.univ (fun x => x 0) 1 (1/2) (3/2) ![2, 1] () disc (-7) ⟨2000, 1/10⟩
    (maxX_honest (by norm_num)) trivial disc_valid (by norm_num) (fun y hy => (ball_facts y hy).1)
    (fun y hy => ⟨trivial, (ball_facts y hy).2⟩) (by norm_num) disc_bound

end Ellalgo.ExR
