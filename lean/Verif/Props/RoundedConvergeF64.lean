import Verif.Props.RoundedPrecision
import Verif.Props.RoundedCutExamples
import Mathlib.Analysis.Complex.ExponentialBounds

/-! C104 with the precision of `f64`: 53 bits are enough for 17 central cuts of the unit disc. -/

namespace Ellalgo
open Matrix
open scoped ComplexOrder

/-- a run of 17 central cuts of the unit disc, for a set with a ball of radius `1/4` -/
noncomputable def planDisc : Plan :=
  { N := 17, B := 1, κ := 1, r := 1 / 4, P := 1, z := 67 / 50, γ := 1, t := 51 / 50, ρ := 1 / 3 - 1 / 1000 }

namespace planDisc

theorem low_eq : planDisc.low = (1 / 4) ^ 2 / ((51 / 50) ^ 2 * ((67 / 50) ^ 17 * 1)) := rfl

theorem ratio : ((2 : ℕ) : ℝ) * (2 * 1 / planDisc.low) ≤ 9700 := by
  rw [low_eq]
  norm_num

theorem low_ge : 1 / 2500 ≤ planDisc.low := by
  rw [low_eq]
  norm_num

theorem unit6 : (1 + (2 : ℝ) ^ (-53 : ℤ)) ^ (2 * 2 + 2) - 1 ≤ 67 / 100 / 10 ^ 15 := by norm_num

theorem err_le : 0 ≤ planDisc.err 2 ((2 : ℝ) ^ (-53 : ℤ)) ∧ planDisc.err 2 ((2 : ℝ) ^ (-53 : ℤ)) ≤ 65 / 10 ^ 13 := by
  have hl : 0 < planDisc.low := lt_of_lt_of_le (by norm_num) low_ge
  have h1 : 0 ≤ (1 + (2 : ℝ) ^ (-53 : ℤ)) ^ (2 * 2 + 2) - 1 := by norm_num
  have h2 : 0 ≤ ((2 : ℕ) : ℝ) * (2 * 1 / planDisc.low) := by positivity
  refine ⟨mul_nonneg h1 h2, (mul_le_mul unit6 ratio h2 (by norm_num)).trans (by norm_num)⟩

theorem loss_le : 0 ≤ planDisc.loss 2 ((2 : ℝ) ^ (-53 : ℤ)) ∧ planDisc.loss 2 ((2 : ℝ) ^ (-53 : ℤ)) ≤ 123 / 10 ^ 7 := by
  have hl : 0 < planDisc.low := lt_of_lt_of_le (by norm_num) low_ge
  have h2 : 0 ≤ ((2 : ℕ) : ℝ) * (2 * 1 / planDisc.low) := by positivity
  obtain ⟨h3, h4⟩ := err_le
  have e : planDisc.loss 2 ((2 : ℝ) ^ (-53 : ℤ)) = 97 / 96 * (192 * planDisc.err 2 ((2 : ℝ) ^ (-53 : ℤ)) * (((2 : ℕ) : ℝ) * (2 * 1 / planDisc.low)) / 1) := rfl
  rw [e, div_one]
  have h5 : 0 ≤ 192 * planDisc.err 2 ((2 : ℝ) ^ (-53 : ℤ)) := by linarith
  refine ⟨mul_nonneg (by norm_num) (mul_nonneg h5 h2), ?_⟩
  have h6 := mul_le_mul (by linarith : 192 * planDisc.err 2 ((2 : ℝ) ^ (-53 : ℤ)) ≤ 192 * (65 / 10 ^ 13)) ratio h2 (by norm_num)
  exact (mul_le_mul_of_nonneg_left h6 (by norm_num)).trans (by norm_num)

theorem reach_le : 0 ≤ planDisc.reach 2 ∧ planDisc.reach 2 ≤ 25 := by
  refine ⟨Real.sqrt_nonneg _, ?_⟩
  have e : planDisc.reach 2 = √((67 / 50) ^ 17 * 1 * (((2 : ℕ) : ℝ) * (2 * 1))) := rfl
  rw [e, Real.sqrt_le_iff]
  norm_num

theorem drift_le : 0 ≤ planDisc.drift 2 ((2 : ℝ) ^ (-53 : ℤ)) ∧ planDisc.drift 2 ((2 : ℝ) ^ (-53 : ℤ)) ≤ 1 / 10 ^ 7 := by
  have hl : 0 < planDisc.low := lt_of_lt_of_le (by norm_num) low_ge
  obtain ⟨h3, h4⟩ := err_le
  obtain ⟨h1, h2⟩ := reach_le
  have e : planDisc.drift 2 ((2 : ℝ) ^ (-53 : ℤ)) = 6 / 1 ^ 2 * ((2 : ℝ) ^ (-53 : ℤ) * (1 + 51 / 50 * planDisc.reach 2) /
    √((1 / 2) ^ 17 * 1 * planDisc.low) + 16 * planDisc.err 2 ((2 : ℝ) ^ (-53 : ℤ)) * √(((2 : ℕ) : ℝ) * (2 * 1 / planDisc.low))) := rfl
  have h5 : √(((2 : ℕ) : ℝ) * (2 * 1 / planDisc.low)) ≤ 99 := by
    rw [Real.sqrt_le_iff]
    exact ⟨by norm_num, ratio.trans (by norm_num)⟩
  have h6 : (1 / 20000 : ℝ) ≤ √((1 / 2) ^ 17 * 1 * planDisc.low) := by
    apply Real.le_sqrt_of_sq_le
    have := low_ge
    linarith
  have h7 : (2 : ℝ) ^ (-53 : ℤ) * (1 + 51 / 50 * planDisc.reach 2) / √((1 / 2) ^ 17 * 1 * planDisc.low) ≤ 1 / 10 ^ 10 := by
    rw [div_le_iff₀ (lt_of_lt_of_le (by norm_num) h6)]
    have : (2 : ℝ) ^ (-53 : ℤ) * (1 + 51 / 50 * planDisc.reach 2) ≤ (2 : ℝ) ^ (-53 : ℤ) * 27 :=
      mul_le_mul_of_nonneg_left (by linarith) (by positivity)
    have h8 : (2 : ℝ) ^ (-53 : ℤ) * 27 ≤ 1 / 10 ^ 10 * (1 / 20000) := by norm_num
    linarith
  have h9 : 16 * planDisc.err 2 ((2 : ℝ) ^ (-53 : ℤ)) * √(((2 : ℕ) : ℝ) * (2 * 1 / planDisc.low)) ≤ 16 * (65 / 10 ^ 13) * 99 :=
    mul_le_mul (by linarith) h5 (Real.sqrt_nonneg _) (by norm_num)
  have h10 : 0 ≤ (2 : ℝ) ^ (-53 : ℤ) * (1 + 51 / 50 * planDisc.reach 2) / √((1 / 2) ^ 17 * 1 * planDisc.low) := by positivity
  have h11 : 0 ≤ 16 * planDisc.err 2 ((2 : ℝ) ^ (-53 : ℤ)) * √(((2 : ℕ) : ℝ) * (2 * 1 / planDisc.low)) := by positivity
  rw [e]
  constructor
  · linarith
  · linarith

theorem inflated_le (i : Nat) : 1 ≤ planDisc.inflated 2 ((2 : ℝ) ^ (-53 : ℤ)) i ∧
    planDisc.inflated 2 ((2 : ℝ) ^ (-53 : ℤ)) i ≤ 1 + 2 * (66 / 10 ^ 7) * ((150001 / 100000) ^ i - 1) := by
  obtain ⟨a1, a2⟩ := err_le
  obtain ⟨b1, b2⟩ := loss_le
  obtain ⟨c1, c2⟩ := drift_le
  obtain ⟨E, hE⟩ : ∃ E, E = planDisc.err 2 ((2 : ℝ) ^ (-53 : ℤ)) := ⟨_, rfl⟩
  obtain ⟨L, hL⟩ : ∃ L, L = planDisc.loss 2 ((2 : ℝ) ^ (-53 : ℤ)) := ⟨_, rfl⟩
  obtain ⟨V, hV⟩ : ∃ V, V = planDisc.drift 2 ((2 : ℝ) ^ (-53 : ℤ)) := ⟨_, rfl⟩
  rw [← hE] at a1 a2
  rw [← hL] at b1 b2
  rw [← hV] at c1 c2
  obtain ⟨q, hq⟩ : ∃ q : ℝ, q = (1 - (2 : ℝ) ^ (-53 : ℤ)) ^ 13 := ⟨_, rfl⟩
  have hq0 : 1 - 1 / 10 ^ 12 ≤ q := by rw [hq]; norm_num
  have hq1 : q ≤ 1 := by rw [hq]; norm_num
  obtain ⟨Dn, hD⟩ : ∃ D, D = √((1 - L) * ((1 - 3 * E / 1) * q)) := ⟨_, rfl⟩
  have hx1 : (1 - 3 * E / 1) * q ≤ 1 := by nlinarith
  have hx0 : 1 - 1 / 10 ^ 9 ≤ (1 - 3 * E / 1) * q := by nlinarith
  have hD1 : Dn ≤ 1 := by
    rw [hD, Real.sqrt_le_iff]
    refine ⟨zero_le_one, ?_⟩
    nlinarith
  have hD0 : 1 - 62 / 10 ^ 7 ≤ Dn := by
    rw [hD]
    apply Real.le_sqrt_of_sq_le
    nlinarith
  have hDp : 0 < Dn := by linarith
  induction i with
  | zero => exact ⟨le_rfl, by simp [Plan.inflated]⟩
  | succ i ih =>
    obtain ⟨i1, i2⟩ := ih
    have hs : planDisc.inflated 2 ((2 : ℝ) ^ (-53 : ℤ)) (i + 1) =
        (1 + (1 + 1 / ((2 : ℕ) : ℝ)) / 1 ^ 2 * (planDisc.inflated 2 ((2 : ℝ) ^ (-53 : ℤ)) i - 1) + V) / Dn := by
      rw [Plan.inflated_succ, hD, hE, hL, hV, hq]
      rfl
    rw [hs]
    obtain ⟨T, hT⟩ : ∃ T, T = planDisc.inflated 2 ((2 : ℝ) ^ (-53 : ℤ)) i := ⟨_, rfl⟩
    rw [← hT] at i1 i2 ⊢
    obtain ⟨A, hA⟩ : ∃ A : ℝ, A = (150001 / 100000) ^ i := ⟨_, rfl⟩
    have hA1 : 1 ≤ A := hA ▸ one_le_pow₀ (by norm_num)
    rw [pow_succ (150001 / 100000 : ℝ) i, ← hA]
    rw [← hA] at i2
    have hc : (1 + 1 / ((2 : ℕ) : ℝ)) / 1 ^ 2 = 3 / 2 := by norm_num
    rw [hc]
    constructor
    · rw [le_div_iff₀ hDp]
      linarith
    · rw [div_le_iff₀ hDp]
      have h0 : (0 : ℝ) ≤ 1 + 2 * (66 / 10 ^ 7) * (A * (150001 / 100000) - 1) := by nlinarith
      have h1 := mul_le_mul_of_nonneg_left hD0 h0
      refine le_trans ?_ h1
      nlinarith

theorem enough : planDisc.EnoughPrecision 2 ((2 : ℝ) ^ (-53 : ℤ)) := by
  obtain ⟨a1, a2⟩ := err_le
  obtain ⟨b1, b2⟩ := loss_le
  refine ⟨one_pos, le_rfl, by norm_num [planDisc], by norm_num [planDisc], by norm_num, b2.trans (by norm_num), ?_, ?_, ?_, ?_⟩
  · refine (pow_le_pow_left₀ (by linarith) (by linarith : _ ≤ (1 : ℝ) + 1 / 10 ^ 6) 17).trans (by norm_num)
  · intro i hi
    refine (inflated_le i).2.trans ?_
    have : ((150001 : ℝ) / 100000) ^ i ≤ (150001 / 100000) ^ 17 := pow_le_pow_right₀ (by norm_num) hi
    have h2 : (1 : ℝ) + 2 * (66 / 10 ^ 7) * ((150001 / 100000) ^ 17 - 1) ≤ 51 / 50 := by norm_num
    have h3 : planDisc.t = 51 / 50 := rfl
    rw [h3]
    linarith
  · have h3 : planDisc.z = 67 / 50 := rfl
    have h4 : planDisc.γ = 1 := rfl
    rw [h3, h4]
    have h5 : (1 : ℝ) - 1 / 10 ^ 12 ≤ (1 - (2 : ℝ) ^ (-53 : ℤ)) ^ 13 := by norm_num
    norm_num
    norm_num at h5
    linarith
  · have h4 : planDisc.γ = 1 := rfl
    have h5 : planDisc.ρ = 1 / 3 - 1 / 1000 := rfl
    rw [h4, h5]
    have h6 : (1 : ℝ) + 1 / 1000 ≤ Real.exp (1 / (((2 : ℕ) : ℝ) + 1) - (1 / 3 - 1 / 1000)) := by
      have := Real.add_one_le_exp (1 / 1000 : ℝ)
      have e : (1 : ℝ) / (((2 : ℕ) : ℝ) + 1) - (1 / 3 - 1 / 1000) = 1 / 1000 := by norm_num
      rw [e]
      linarith
    have h7 : (1 : ℝ) - 1 / 10 ^ 12 ≤ (1 - (2 : ℝ) ^ (-53 : ℤ)) ^ (13 * 2) := by norm_num
    have h8 := mul_le_mul h7 h6 (by norm_num) (by positivity)
    refine le_trans ?_ h8
    have h9 : (1 + 3 * planDisc.err 2 ((2 : ℝ) ^ (-53 : ℤ)) / 1) * (1 + planDisc.loss 2 ((2 : ℝ) ^ (-53 : ℤ))) ≤
        (1 + 1 / 10 ^ 9) * (1 + 2 / 10 ^ 5) := mul_le_mul (by linarith) (by linarith) (by linarith) (by norm_num)
    refine (pow_le_pow_left₀ (by positivity) h9 2).trans (by norm_num)

end planDisc

/-- **C104**, in `f64`.  Start `cutting_plane_feas` with the unit disc, `max_iters ≥ 17` and a tolerance of at most `G²/40`, and with an oracle that
answers in central cuts with gradients of norm at least `G` and is honest for a set that contains a disc of radius `1/4` inside the unit
disc.  With the rounding of `f64` the call returns a point the oracle accepted, after at most 16 cuts. -/
theorem C104_disc_f64 {Ω : Type} (orc : OracleFeas Ω (Arr (Fl bin53)) (SingleCut (Fl bin53)) (Fl bin53)) (I : Ω → Prop)
    (K : Set (Fin 2 → ℝ)) (G : ℝ) (m : Fin 2 → ℝ) (w : Ω) (e : Ell (Fl bin53)) (opts : Options (Fl bin53))
    (he : e.Shaped 2) (hh : e.helper = EllCalc.new 2) (hκ : e.kappa.val = 1) (hM : e.mq.flMat 2 = 1)
    (hc : e.xc.flVec 2 = 0) (hm : norm2 m ≤ 3 / 4) (hK : ball m (1 / 4) ⊆ K) (hw : I w) (hor : FlHonest 2 orc I K G 27)
    (hcen : OnlyCentral orc) (htol : opts.tolerance.val ≤ G ^ 2 / 40) (hit : 17 ≤ opts.maxIters) :
    ∃ x k w1 w' e', cuttingPlaneFeas orc Ell.space w e opts = .ok ((some x, k), w', e') ∧
      orc.assess w1 x = .ok (none, w') ∧ I w1 ∧ x.IsVecShape 2 ∧ k < 17 := by
  have hlog : Real.log ((planDisc.t ^ 2) ^ 2 * (e.kappa.val • e.mq.flMat 2).det / (planDisc.r ^ 2) ^ 2) < planDisc.N * planDisc.ρ := by
    have e1 : (planDisc.t ^ 2) ^ 2 * (e.kappa.val • e.mq.flMat 2).det / (planDisc.r ^ 2) ^ 2 = (51 / 50) ^ 4 * 2 ^ 8 := by
      rw [hM, hκ, one_smul, det_one]
      norm_num [planDisc]
    rw [e1, Real.log_mul (by norm_num) (by norm_num), Real.log_pow, Real.log_pow]
    have h1 := Real.log_two_lt_d9
    have h2 : Real.log (51 / 50) ≤ 51 / 50 - 1 := Real.log_le_sub_one_of_pos (by norm_num)
    norm_num [planDisc]
    norm_num at h2
    linarith
  have hfar : planDisc.far 2 ≤ 27 := by
    have h1 := planDisc.reach_le.2
    have e : planDisc.far 2 = 1 + 51 / 50 * planDisc.reach 2 := rfl
    rw [e]
    linarith
  obtain ⟨x, k, w1, w', e', a1, a2, a3, a4, a5⟩ := C104_feas_converges orc I K G m w e opts planDisc he le_rfl hh (by rw [hκ]; exact one_pos)
    (by rw [hM]; exact PosDef.one) (by
      intro i j
      rw [hM]
      fin_cases i <;> fin_cases j <;> simp [planDisc]) (by norm_num [planDisc]) hK (by
      intro y hy
      show (y - e.xc.flVec 2) ⬝ᵥ ((e.mq.flMat 2)⁻¹ *ᵥ (y - e.xc.flVec 2)) ≤ e.kappa.val
      rw [hM, hκ, hc, inv_one, one_mulVec, sub_zero, ← norm2_sq]
      have h1 : norm2 (y - m) ≤ 1 / 4 := by
        rw [norm2, Real.sqrt_le_iff]
        exact ⟨by norm_num, hy⟩
      have h2 := norm2_sub_le y m
      have h3 := norm2_nonneg y
      nlinarith) hw hκ.symm (hm.trans (by norm_num [planDisc])) (fun w x hI hx hX => hor w x hI hx (hX.trans hfar)) (.inl hcen) (by
      refine htol.trans ?_
      have : 0 ≤ G ^ 2 := sq_nonneg G
      rw [show planDisc.r ^ 2 * G ^ 2 / (2 * planDisc.t ^ 2) = G ^ 2 * (1 / 32 / (51 / 50) ^ 2) by norm_num [planDisc]; ring]
      rw [div_eq_mul_inv]
      exact mul_le_mul_of_nonneg_left (by norm_num) this) hlog hit planDisc.enough
  refine ⟨x, k, w1, w', e', a1, a2, a3, a4, ?_⟩
  have h1 : (k : ℝ) * planDisc.ρ < (17 : ℕ) * planDisc.ρ := lt_of_le_of_lt a5 hlog
  have h2 : (0 : ℝ) < planDisc.ρ := by norm_num [planDisc]
  exact_mod_cast lt_of_mul_lt_mul_right h1 h2.le

end Ellalgo
