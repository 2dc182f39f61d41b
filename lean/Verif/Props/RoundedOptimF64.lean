import Verif.Props.RoundedOptim
import Verif.Props.RoundedSolve
import Verif.Props.RoundedConvergeF64
import Verif.Lib.BinP

/-! C105 with the precision of `f64`, and cases that meet the hypotheses of C105. -/

namespace Ellalgo
open Matrix
open scoped ComplexOrder

/-- **C105**, in `f64`.  Start `cutting_plane_optim` with the unit disc, `max_iters ≥ 17` and a tolerance of at most `G²/40`, and with an
oracle that answers in central cuts with gradients of norm at least `G` and is honest for the sets `S γ`.  With the rounding of `f64` the
call returns, and no disc of radius `1/4` inside the unit disc consists of points better than the returned `γ'` only. -/
theorem C105_disc_f64 {Ω : Type} (orc : OracleOptim Ω (Arr (Fl bin53)) (SingleCut (Fl bin53)) (Fl bin53)) (I : Ω → Fl bin53 → Prop)
    (S : ℝ → Set (Fin 2 → ℝ)) (G : ℝ) (w : Ω) (e : Ell (Fl bin53)) (γ : Fl bin53) (opts : Options (Fl bin53))
    (he : e.Shaped 2) (hh : e.helper = EllCalc.new 2) (hκ : e.kappa.val = 1) (hM : e.mq.flMat 2 = 1)
    (hc : e.xc.flVec 2 = 0) (hw : I w γ) (hor : FlHonestOptim 2 orc I S G 27)
    (hcen : OnlyCentralOptim orc) (htol : opts.tolerance.val ≤ G ^ 2 / 40) (hit : 17 ≤ opts.maxIters) :
    ∃ xb k γ' w' e', cuttingPlaneOptim orc Ell.space w e γ opts = .ok ((xb, k), γ', w', e') ∧
      ∀ m, norm2 m ≤ 3 / 4 → ¬ ball m (1 / 4) ⊆ S γ'.val := by
  have hlog : Real.log ((planDisc.t ^ 2) ^ 2 * (e.kappa.val • e.mq.flMat 2).det / (planDisc.r ^ 2) ^ 2) < planDisc.N * planDisc.ρ := by
    have e1 : (planDisc.t ^ 2) ^ 2 * (e.kappa.val • e.mq.flMat 2).det / (planDisc.r ^ 2) ^ 2 = (51 / 50) ^ 4 * 2 ^ 8 := by
      rw [hM, hκ, one_smul, det_one]
      norm_num [planDisc]
    rw [e1, Real.log_mul (by norm_num) (by norm_num), Real.log_pow, Real.log_pow]
    have h1 := Real.log_two_lt_d9
    have h2 : Real.log (51 / 50) ≤ 51 / 50 - 1 := Real.log_le_sub_one_of_pos (by norm_num)
    norm_num [planDisc]
    norm_num at h2
    linarith
  have hfar : planDisc.far 2 ≤ 27 := by
    have h1 := planDisc.reach_le.2
    have e : planDisc.far 2 = 1 + 51 / 50 * planDisc.reach 2 := rfl
    rw [e]
    linarith
  have key : ∀ m : Fin 2 → ℝ, norm2 m ≤ 3 / 4 → ∃ xb k γ' w' e', cuttingPlaneOptim orc Ell.space w e γ opts = .ok ((xb, k), γ', w', e') ∧
      ¬ ball m (1 / 4) ⊆ S γ'.val := by
    intro m hm
    exact C105_optim_converges orc I S G m w e γ opts planDisc he le_rfl hh (by rw [hκ]; exact one_pos)
      (by rw [hM]; exact PosDef.one) (by
        intro i j
        rw [hM]
        fin_cases i <;> fin_cases j <;> simp [planDisc]) (by norm_num [planDisc]) (by
        intro y hy
        show (y - e.xc.flVec 2) ⬝ᵥ ((e.mq.flMat 2)⁻¹ *ᵥ (y - e.xc.flVec 2)) ≤ e.kappa.val
        rw [hM, hκ, hc, inv_one, one_mulVec, sub_zero, ← norm2_sq]
        have h1 : norm2 (y - m) ≤ 1 / 4 := by
          rw [norm2, Real.sqrt_le_iff]
          exact ⟨by norm_num, hy⟩
        have h2 := norm2_sub_le y m
        have h3 := norm2_nonneg y
        nlinarith) hw hκ.symm (hm.trans (by norm_num [planDisc])) (hor.anti hfar) (.inl hcen) (by
        refine htol.trans ?_
        have : 0 ≤ G ^ 2 := sq_nonneg G
        rw [show planDisc.r ^ 2 * G ^ 2 / (2 * planDisc.t ^ 2) = G ^ 2 * (1 / 32 / (51 / 50) ^ 2) by norm_num [planDisc]; ring]
        rw [div_eq_mul_inv]
        exact mul_le_mul_of_nonneg_left (by norm_num) this) hlog hit planDisc.enough
  obtain ⟨xb, k, γ', w', e', h1, -⟩ := key 0 (by rw [norm2, dotProduct_zero, Real.sqrt_zero]; norm_num)
  refine ⟨xb, k, γ', w', e', h1, fun m hm => ?_⟩
  obtain ⟨xb2, k2, γ2, w2, e2, h2, h3⟩ := key m hm
  rw [h1] at h2
  simp only [Res.ok.injEq, Prod.mk.injEq] at h2
  rw [h2.2.1]
  exact h3

namespace ExOptim

open Classical in
/-- maximises `-x₀` with central cuts -/
noncomputable def orc : OracleOptim Unit (Arr (Fl bin53)) (SingleCut (Fl bin53)) (Fl bin53) :=
  ⟨fun w x γ => if γ.val < -x.flVec 2 0 then .ok (((⟨[⟨1⟩, ⟨0⟩], 2, 0⟩, ⟨⟨0⟩⟩), true), ⟨-x.flVec 2 0⟩, w)
    else .ok (((⟨[⟨1⟩, ⟨0⟩], 2, 0⟩, ⟨⟨0⟩⟩), false), γ, w)⟩

theorem grad : let g : Arr (Fl bin53) := ⟨[⟨1⟩, ⟨0⟩], 2, 0⟩
    g.IsVecShape 2 ∧ g.flVec 2 ≠ 0 ∧ (1 : ℝ) ^ 2 ≤ normSq (g.flVec 2) ∧ ∀ v : Fin 2 → ℝ, g.flVec 2 ⬝ᵥ v = v 0 := by
  have h0 : (Arr.mk [⟨1⟩, ⟨0⟩] 2 0 : Arr (Fl bin53)).flVec 2 0 = 1 := rfl
  have h1 : (Arr.mk [⟨1⟩, ⟨0⟩] 2 0 : Arr (Fl bin53)).flVec 2 1 = 0 := rfl
  refine ⟨⟨rfl, rfl, rfl⟩, fun h => ?_, ?_, fun v => ?_⟩
  · have := congrFun h 0
    rw [h0] at this
    exact one_ne_zero this
  · rw [normSq, dotProduct, Fin.sum_univ_two, h0, h1]
    norm_num
  · rw [dotProduct, Fin.sum_univ_two, h0, h1]
    ring

theorem orc_honest (X : ℝ) : FlHonestOptim 2 orc (fun _ _ => True) (fun γ => {y | γ < -y 0}) 1 X := by
  intro w x γ _ _
  obtain ⟨g1, g2, g3, g4⟩ := grad
  by_cases h : γ.val < -x.flVec 2 0
  · refine ⟨_, _, _, _, _, if_pos h, trivial, fun y hy => ?_, g1, fun _ => ⟨g2, g3, fun _ y hy => ?_, fun h => by simp at h⟩⟩
    · have : -x.flVec 2 0 < -y 0 := hy
      exact h.trans this
    · have : -x.flVec 2 0 < -y 0 := hy
      rw [g4]
      simp only [Pi.sub_apply]
      linarith
  · refine ⟨_, _, _, _, _, if_neg h, trivial, le_rfl, g1, fun _ => ⟨g2, g3, fun h => by simp at h, fun _ => ⟨le_rfl, fun y hy => ?_⟩⟩⟩
    have : γ.val < -y 0 := hy
    rw [g4]
    simp only [Pi.sub_apply]
    linarith

theorem orc_central : OnlyCentralOptim orc := by
  intro w x γ g β γ' w' h
  unfold orc at h
  simp only at h
  split_ifs at h <;> simp only [Res.ok.injEq, Prod.mk.injEq, SingleCut.mk.injEq] at h <;> obtain ⟨⟨⟨-, rfl⟩, -⟩, -⟩ := h
  all_goals rfl

/-- C105 (`f64`): the loop started with the unit disc and value `-1` reaches a value of at least `1/4` -/
example : ∃ xb k γ' w' e', cuttingPlaneOptim orc Ell.space () ExFl.disc ⟨-1⟩ ⟨17, ⟨1 / 1000⟩⟩ = .ok ((xb, k), γ', w', e') ∧
    1 / 4 ≤ γ'.val := by
  obtain ⟨xb, k, γ', w', e', a, b⟩ := C105_disc_f64 orc (fun _ _ => True) (fun γ => {y | γ < -y 0}) 1 () ExFl.disc ⟨-1⟩
    ⟨17, ⟨1 / 1000⟩⟩ ExFl.disc_shaped rfl rfl ExFl.disc_mat (by ext i; fin_cases i <;> rfl) trivial (orc_honest _) orc_central
    (by norm_num) le_rfl
  refine ⟨xb, k, γ', w', e', a, ?_⟩
  by_contra hlt
  refine b ![(-1 / 2 : ℝ), 0] ?_ ?_
  · rw [norm2, Real.sqrt_le_iff]
    norm_num [dotProduct, Fin.sum_univ_two]
  · intro y hy
    have h := ball_coord (by norm_num) hy 0
    simp only [cons_val_zero] at h
    have := (abs_le.1 h).2
    show γ'.val < -y 0
    linarith

/-- C105: arithmetics in which `3` is a number exist, whatever the bound on the unit -/
theorem fine (u0 : ℝ) (h : 0 < u0) : ∃ u, u ≤ u0 ∧ ∃ R : Rounding u, R.Rep 3 := by
  obtain ⟨q, hq⟩ := exists_pow_lt_of_lt_one h (by norm_num : (1 / 2 : ℝ) < 1)
  refine ⟨_, ?_, binP (q + 1), ?_⟩
  · rw [_root_.zpow_neg, zpow_q, pow_succ, pow_succ, ← one_div]
    rw [_root_.one_div_pow] at hq
    refine le_trans ?_ hq.le
    exact one_div_le_one_div_of_le (by positivity) (by linarith [show (0 : ℝ) < 2 ^ q by positivity])
  · have := rndP_rep (q := q + 1) 3 0 (by
      rw [abs_of_nonneg (by norm_num), pow_succ, pow_succ]
      have : (1 : ℤ) ≤ 2 ^ q := one_le_pow₀ (by norm_num)
      linarith)
    norm_num at this
    exact this

/-- C105: example 1 reaches `2.9` in some arithmetic, from a start below any feasible value -/
example : ∃ (u : ℝ) (R : Rounding u) (N : Nat) (e : Ell (Fl R)) (x : Arr (Fl R)) (k : Nat) (γ' : Fl R) (e' : Ell (Fl R)),
    cuttingPlaneOptim ex1Oracle Ell.space () e ⟨-1000⟩ ⟨N, ⟨1 / 10 ^ 10⟩⟩ = .ok ((some x, k), γ', (), e') ∧ 29 / 10 ≤ γ'.val := by
  obtain ⟨u0, h0, N, h⟩ := C105_example1 (1 / 10) (by norm_num) (by norm_num)
  obtain ⟨u, hu, R, h3⟩ := fine u0 h0
  obtain ⟨e, he, -⟩ := disc_new_fl (R := R) ⟨10⟩
  obtain ⟨xb, k, γ', e', a1, a2, a3, -⟩ := h u hu R e ⟨-1000⟩ ⟨N, ⟨1 / 10 ^ 10⟩⟩ h3 he le_rfl (by norm_num)
  cases xb with
  | none => exact absurd rfl (a3 (by norm_num))
  | some x => exact ⟨u, R, N, e, x, k, γ', e', a1, by linarith⟩

/-- C105: example 2 finds a point in some arithmetic -/
example : ∃ (u : ℝ) (R : Rounding u) (N : Nat) (e : Ell (Fl R)) (x : Arr (Fl R)) (k : Nat) (w' : Int) (e' : Ell (Fl R)),
    cuttingPlaneFeas ex2Oracle Ell.space (-1) e ⟨N, ⟨1 / 10 ^ 20⟩⟩ = .ok ((some x, k), w', e') ∧ k < N := by
  obtain ⟨u0, h0, N, h⟩ := C105_example2 16 le_rfl
  obtain ⟨u, hu, R, h3⟩ := fine u0 h0
  obtain ⟨e, he, -⟩ := disc_new_fl (R := R) ⟨16⟩
  obtain ⟨x, k, w', e', a1, a2, -⟩ := h u hu R e (-1) ⟨N, ⟨1 / 10 ^ 20⟩⟩ h3 he (by norm_num) (by norm_num) le_rfl (by norm_num)
  exact ⟨u, R, N, e, x, k, w', e', a1, a2⟩

end ExOptim
end Ellalgo
