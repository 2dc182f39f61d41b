import Verif.Props.RoundedPrecision
import Verif.Lib.BinP
import Verif.Props.RoundedConvergeF64
import Mathlib.Analysis.SpecialFunctions.Log.Deriv
import Mathlib.Analysis.Complex.ExponentialBounds

/-! Cases that meet the hypotheses of C104. -/

namespace Ellalgo.ExConv
open Ellalgo Matrix
variable {u : ℝ} {R : Rounding u}

/-- the disc of radius 2 around `(1, 0)` -/
noncomputable def disc (nd : Bool) : Ell (Fl R) :=
  { noDeferTrick := nd, mq := ⟨[⟨1⟩, ⟨0⟩, ⟨0⟩, ⟨1⟩], 2, 2⟩, xc := ⟨[⟨1⟩, ⟨0⟩], 2, 0⟩, kappa := ⟨4⟩, helper := EllCalc.new 2, tsq := ⟨0⟩ }

open Classical in
/-- rejects `x` with `x₀ > 0`, by the deep cut through the boundary of the half plane -/
noncomputable def orc : OracleFeas Unit (Arr (Fl R)) (SingleCut (Fl R)) (Fl R) :=
  ⟨fun w x => .ok (if 0 < x.flVec 2 0 then some (⟨[⟨1⟩, ⟨0⟩], 2, 0⟩, ⟨⟨x.flVec 2 0⟩⟩) else none, w), fun w _ => .ok w⟩

theorem orc_honest (X : ℝ) : FlHonest 2 (orc (R := R)) (fun _ => True) {y | y 0 ≤ 0} 1 X := by
  intro w x _ _ _
  refine ⟨_, w, rfl, trivial, fun g β h => ?_⟩
  split_ifs at h with hx
  simp only [Option.some.injEq, Prod.mk.injEq, SingleCut.mk.injEq] at h
  obtain ⟨rfl, rfl⟩ := h
  have h0 : (Arr.mk [⟨1⟩, ⟨0⟩] 2 0 : Arr (Fl R)).flVec 2 0 = 1 := rfl
  have h1 : (Arr.mk [⟨1⟩, ⟨0⟩] 2 0 : Arr (Fl R)).flVec 2 1 = 0 := rfl
  refine ⟨⟨rfl, rfl, rfl⟩, fun h => ?_, ?_, hx.le, fun y hy => ?_⟩
  · have := congrFun h 0
    rw [h0] at this
    exact one_ne_zero this
  · rw [normSq, dotProduct, Fin.sum_univ_two, h0, h1]
    norm_num
  · have : y 0 ≤ 0 := hy
    rw [dotProduct, Fin.sum_univ_two, h0, h1]
    simp only [Pi.sub_apply]
    linarith

theorem disc_mat (nd : Bool) : (disc (R := R) nd).mq.flMat 2 = 1 := by
  ext i j
  fin_cases i <;> fin_cases j <;> rfl

/-- C104: the loop started with the disc finds a point of the half plane within 49 cuts, in every arithmetic of high enough precision, with and without
`no_defer_trick` -/
example : ∃ u0 > 0, ∀ u, u ≤ u0 → ∀ (R : Rounding u) (nd : Bool), ∃ x k w' e',
    cuttingPlaneFeas orc Ell.space () (disc (R := R) nd) ⟨50, ⟨1 / 32⟩⟩ = .ok ((some x, k), w', e') ∧ k < 50 ∧ x.flVec 2 0 ≤ 0 := by
  obtain ⟨u0, h0, h⟩ := C104_high_precision 2 50 1 4 (1 / 2) (norm2 ![(-1 / 2 : ℝ), 0]) le_rfl one_pos (by norm_num) (by norm_num)
  refine ⟨u0, h0, fun u hu R nd => ?_⟩
  have hlog : 2 * (((2 : ℕ) : ℝ) + 1) * Real.log (4 ^ 2 * ((4 : ℝ) • (disc (R := R) nd).mq.flMat 2).det / ((1 / 2) ^ 2) ^ 2) < (50 : ℕ) := by
    have e1 : (4 : ℝ) ^ 2 * ((4 : ℝ) • (disc (R := R) nd).mq.flMat 2).det / ((1 / 2) ^ 2) ^ 2 = 2 ^ 12 := by
      rw [disc_mat, det_smul, det_one]
      norm_num
    rw [e1, Real.log_pow]
    have := Real.log_two_lt_d9
    norm_num
    linarith
  have hball : ∀ y ∈ ball ![(-1 / 2 : ℝ), 0] (1 / 2), (y 0 + 1 / 2) ^ 2 + y 1 ^ 2 ≤ 1 / 4 := by
    intro y hy
    have h : normSq (y - ![(-1 / 2 : ℝ), 0]) ≤ (1 / 2) ^ 2 := hy
    rw [normSq, dotProduct, Fin.sum_univ_two] at h
    simp only [Pi.sub_apply, cons_val_zero, cons_val_one] at h
    linarith
  obtain ⟨x, k, w1, w', e', a, b, -, -, c⟩ := h u hu R Unit orc (fun _ => True) {y | y 0 ≤ 0} 1 ![(-1 / 2 : ℝ), 0] ()
    (disc (R := R) nd) ⟨50, ⟨1 / 32⟩⟩ ⟨⟨rfl, rfl, rfl⟩, ⟨rfl, rfl, rfl⟩⟩ rfl rfl
    (by rw [disc_mat]; exact PosDef.one) (by
      intro i j
      rw [disc_mat]
      fin_cases i <;> fin_cases j <;> simp) le_rfl (by
      intro y hy
      have := hball y hy
      show y 0 ≤ 0
      nlinarith [sq_nonneg (y 1)]) (by
      intro y hy
      have := hball y hy
      show (y - (disc (R := R) nd).xc.flVec 2) ⬝ᵥ (((disc (R := R) nd).mq.flMat 2)⁻¹ *ᵥ (y - (disc (R := R) nd).xc.flVec 2)) ≤ 4
      rw [disc_mat, inv_one, one_mulVec, dotProduct, Fin.sum_univ_two]
      have h0 : (disc (R := R) nd).xc.flVec 2 0 = 1 := rfl
      have h1 : (disc (R := R) nd).xc.flVec 2 1 = 0 := rfl
      simp only [Pi.sub_apply, h0, h1]
      nlinarith [sq_nonneg (y 1)]) trivial (orc_honest _) (by norm_num) hlog le_rfl
  refine ⟨x, k, w', e', a, ?_, ?_⟩
  · have := c.trans_lt hlog
    exact_mod_cast this
  · by_contra hx
    have hq : orc.assess w1 x = .ok (some (⟨[⟨1⟩, ⟨0⟩], 2, 0⟩, ⟨⟨x.flVec 2 0⟩⟩), w1) := by
      unfold orc
      simp only
      rw [if_pos (not_le.1 hx)]
    rw [hq] at b
    simp at b

/-- C104: such arithmetics exist, whatever the bound on the unit -/
example (u0 : ℝ) (h : 0 < u0) : ∃ u, u ≤ u0 ∧ Nonempty (Rounding u) := by
  obtain ⟨q, hq⟩ := exists_pow_lt_of_lt_one h (by norm_num : (1 / 2 : ℝ) < 1)
  refine ⟨_, ?_, ⟨binP q⟩⟩
  rw [_root_.zpow_neg, zpow_q, pow_succ, ← one_div]
  rw [_root_.one_div_pow] at hq
  refine le_trans ?_ hq.le
  exact one_div_le_one_div_of_le (by positivity) (by linarith [show (0 : ℝ) < 2 ^ q by positivity])

open Classical in
/-- rejects `x` with `x₀ > -1/4`, by a central cut -/
noncomputable def orcC : OracleFeas Unit (Arr (Fl R)) (SingleCut (Fl R)) (Fl R) :=
  ⟨fun w x => .ok (if -1 / 4 < x.flVec 2 0 then some (⟨[⟨1⟩, ⟨0⟩], 2, 0⟩, ⟨⟨0⟩⟩) else none, w), fun w _ => .ok w⟩

theorem orcC_honest (X : ℝ) : FlHonest 2 (orcC (R := R)) (fun _ => True) {y | y 0 ≤ -1 / 4} 1 X := by
  intro w x _ _ _
  refine ⟨_, w, rfl, trivial, fun g β h => ?_⟩
  split_ifs at h with hx
  simp only [Option.some.injEq, Prod.mk.injEq, SingleCut.mk.injEq] at h
  obtain ⟨rfl, rfl⟩ := h
  have h0 : (Arr.mk [⟨1⟩, ⟨0⟩] 2 0 : Arr (Fl R)).flVec 2 0 = 1 := rfl
  have h1 : (Arr.mk [⟨1⟩, ⟨0⟩] 2 0 : Arr (Fl R)).flVec 2 1 = 0 := rfl
  refine ⟨⟨rfl, rfl, rfl⟩, fun h => ?_, ?_, le_rfl, fun y hy => ?_⟩
  · have := congrFun h 0
    rw [h0] at this
    exact one_ne_zero this
  · rw [normSq, dotProduct, Fin.sum_univ_two, h0, h1]
    norm_num
  · have : y 0 ≤ -1 / 4 := hy
    rw [dotProduct, Fin.sum_univ_two, h0, h1]
    simp only [Pi.sub_apply]
    linarith

theorem orcC_central : OnlyCentral (orcC (R := R)) := by
  intro w x g β w' h
  unfold orcC at h
  simp only [Res.ok.injEq, Prod.mk.injEq] at h
  obtain ⟨h, -⟩ := h
  split_ifs at h
  simp only [Option.some.injEq, Prod.mk.injEq, SingleCut.mk.injEq] at h
  obtain ⟨-, rfl⟩ := h
  rfl

/-- C104 (`f64`): the loop started with the unit disc finds a point with `x₀ ≤ -1/4` within 16 cuts, with and without `no_defer_trick` -/
example (nd : Bool) : ∃ x k w' e', cuttingPlaneFeas orcC Ell.space () { ExFl.disc with noDeferTrick := nd } ⟨17, ⟨1 / 1000⟩⟩ = .ok ((some x, k), w', e') ∧ k < 17 ∧
    x.flVec 2 0 ≤ -1 / 4 := by
  obtain ⟨x, k, w1, w', e', a, b, -, -, c⟩ := C104_disc_f64 orcC (fun _ => True) {y | y 0 ≤ -1 / 4} 1 ![(-1 / 2 : ℝ), 0] ()
    { ExFl.disc with noDeferTrick := nd }
    ⟨17, ⟨1 / 1000⟩⟩ ExFl.disc_shaped rfl rfl ExFl.disc_mat (by ext i; fin_cases i <;> rfl) (by
      rw [norm2, Real.sqrt_le_iff]
      norm_num [dotProduct, Fin.sum_univ_two]) (by
      intro y hy
      have h : normSq (y - ![(-1 / 2 : ℝ), 0]) ≤ (1 / 4) ^ 2 := hy
      rw [normSq, dotProduct, Fin.sum_univ_two] at h
      simp only [Pi.sub_apply, cons_val_zero, cons_val_one] at h
      show y 0 ≤ -1 / 4
      nlinarith [sq_nonneg (y 1)]) trivial (orcC_honest _) orcC_central (by norm_num) le_rfl
  refine ⟨x, k, w', e', a, c, ?_⟩
  by_contra hx
  have hq : orcC.assess w1 x = .ok (some (⟨[⟨1⟩, ⟨0⟩], 2, 0⟩, ⟨⟨0⟩⟩), w1) := by
    unfold orcC
    simp only
    rw [if_pos (not_le.1 hx)]
  rw [hq] at b
  simp at b

/-- C103 (`no_defer_trick` on): the cut `x + y + 1/2 ≤ 0` of the disc is within the stated depth -/
example (kd : UpdateKind) (hkd : kd = .bias ∨ kd = .q) :
    ∃ e' c, 0 < c ∧ Ell.space.update kd { ExFl.disc with noDeferTrick := true } (ExFl.g, SingleCut.mk (⟨1 / 2⟩ : Fl bin53)) = .ok (.success, e') ∧
      1 / 4 ≤ c * e'.kappa.val := by
  have hg : ∀ i, ExFl.g.flVec 2 i = 1 := by intro i; fin_cases i <;> rfl
  have hl : 97 / 96 * deepLoss ((2 : ℝ) ^ (-53 : ℤ)) 2 1 1 (1 / 2) ≤ 1 / 2 := by
    unfold deepLoss quadErr
    norm_num
  obtain ⟨e', c, h1, hc, -, ⟨h2, -⟩, -⟩ := C103_step_any_flag (by norm_num) { ExFl.disc with noDeferTrick := true }
    ExFl.disc_conditioned ExFl.g ExFl.g_shape ExFl.g_ne kd ⟨1 / 2⟩ (1 / 2) (.inr ⟨hkd, rfl⟩) (by norm_num) (γ := 1 / 2) (by norm_num)
    (by norm_num) (by
      have hh : (1 : ℝ) ≤ √(ExFl.disc.kappa.val * (ExFl.g.flVec 2 ⬝ᵥ (ExFl.disc.mq.flMat 2 *ᵥ ExFl.g.flVec 2))) := by
        rw [ExFl.disc_mat, Matrix.one_mulVec, show ExFl.disc.kappa.val = 1 from rfl]
        apply Real.le_sqrt_of_sq_le
        simp [dotProduct, hg]
      show (1 / 2 : ℝ) ≤ (1 - 1 / 2) * √(ExFl.disc.kappa.val * (ExFl.g.flVec 2 ⬝ᵥ (ExFl.disc.mq.flMat 2 *ᵥ ExFl.g.flVec 2)))
      linarith) hl
  refine ⟨e', c, hc, h1, ?_⟩
  have : ({ ExFl.disc with noDeferTrick := true } : Ell (Fl bin53)).kappa.val = 1 := rfl
  linarith

end Ellalgo.ExConv
