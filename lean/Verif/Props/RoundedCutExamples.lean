import Verif.Props.RoundedDeepCut
import Verif.Props.RoundedExamples

/-! Cases that meet the hypotheses of C103, in `f64` rounding (`bin53`). -/

namespace Ellalgo.ExFl
open Ellalgo Matrix

theorem disc_conditioned : disc.Conditioned 2 1 1 where
  shaped := disc_shaped
  dim := le_rfl
  helper := rfl
  noDefer := rfl
  kappa := one_pos
  symm := by rw [disc_mat]; exact Matrix.isSymm_one
  lam_pos := one_pos
  lower v := by rw [disc_mat, Matrix.one_mulVec, one_mul]
  entries i j := by
    rw [disc_mat]
    fin_cases i <;> fin_cases j <;> simp

theorem g_ne : g.flVec 2 ≠ 0 := by
  intro h
  have := congrFun h 0
  have h1 : g.flVec 2 0 = 1 := rfl
  rw [h1] at this
  exact one_ne_zero this

theorem disc_loss : cutLoss ((2 : ℝ) ^ (-53 : ℤ)) 2 1 1 ≤ 1 / 2 ∧ deepLoss ((2 : ℝ) ^ (-53 : ℤ)) 2 1 1 (1 / 2) ≤ 1 / 2 := by
  unfold cutLoss deepLoss quadErr
  norm_num

/-- C103 (one central cut): a point of the half disc is in the new `f64` ellipsoid inflated by less than `1 + 2⁻⁴⁰` -/
example (c : SingleCut (Fl bin53)) : ∃ e', Ell.space.update .central disc (g, c) = .ok (.success, e') ∧
    ∀ x ∈ ellipsoid (1 : Matrix (Fin 2) (Fin 2) ℝ) 1 (disc.xc.flVec 2), g.flVec 2 ⬝ᵥ (x - disc.xc.flVec 2) ≤ 0 →
      x ∈ ellipsoid (e'.mq.flMat 2) ((1 + 2 ^ (-40 : ℤ)) ^ 2 * e'.kappa.val) (e'.xc.flVec 2) := by
  obtain ⟨e', h1, h2, -, -, -, h3⟩ := C103_central_step (by norm_num) disc disc_conditioned g g_shape g_ne c disc_loss.1
  refine ⟨e', h1, fun x hx hc => ?_⟩
  have := h3 1 le_rfl x (by rw [disc_mat]; simpa [disc] using hx) hc
  refine le_trans (show (x - _) ⬝ᵥ (_ *ᵥ (x - _)) ≤ _ from this) (mul_le_mul_of_nonneg_right ?_ h2.kappa.le)
  have hxc : norm2 (disc.xc.flVec 2) = 0 := by
    have : disc.xc.flVec 2 = 0 := by ext i; fin_cases i <;> rfl
    rw [this]
    simp [norm2]
  rw [hxc]
  unfold inflation cutDrift
  have hs : √((2 : ℕ) * ((1 : ℝ) / 1)) ≤ 2 := by
    rw [Real.sqrt_le_iff]; norm_num
  have hs0 : 0 ≤ √((2 : ℕ) * ((1 : ℝ) / 1)) := Real.sqrt_nonneg _
  have he0 : 0 ≤ quadErr ((2 : ℝ) ^ (-53 : ℤ)) 2 1 1 := by unfold quadErr; norm_num
  have he1 : quadErr ((2 : ℝ) ^ (-53 : ℤ)) 2 1 1 ≤ 2 ^ (-49 : ℤ) := by unfold quadErr; norm_num
  have hd : 1 - (2 : ℝ) ^ (-42 : ℤ) ≤ √((1 - cutLoss ((2 : ℝ) ^ (-53 : ℤ)) 2 1 1) * (1 - (2 : ℝ) ^ (-53 : ℤ)) ^ 11) := by
    apply Real.le_sqrt_of_sq_le
    unfold cutLoss quadErr
    norm_num
  have hd0 : (0 : ℝ) < 1 - (2 : ℝ) ^ (-42 : ℤ) := by norm_num
  have hnum : 1 + (1 - 1) / ((2 : ℕ) : ℝ) + (2 * ((2 : ℝ) ^ (-53 : ℤ) * 0 / √(disc.kappa.val * 1)) +
      8 * quadErr ((2 : ℝ) ^ (-53 : ℤ)) 2 1 1 * √((2 : ℕ) * ((1 : ℝ) / 1))) ≤ 1 + 2 ^ (-45 : ℤ) := by
    have : 8 * quadErr ((2 : ℝ) ^ (-53 : ℤ)) 2 1 1 * √((2 : ℕ) * ((1 : ℝ) / 1)) ≤ 8 * 2 ^ (-49 : ℤ) * 2 :=
      mul_le_mul (by linarith) hs hs0 (by norm_num)
    have e : (8 : ℝ) * 2 ^ (-49 : ℤ) * 2 = 2 ^ (-45 : ℤ) := by norm_num
    rw [e] at this
    simpa using this
  refine pow_le_pow_left₀ ?_ ?_ 2
  · refine div_nonneg ?_ (Real.sqrt_nonneg _)
    have : 0 ≤ 8 * quadErr ((2 : ℝ) ^ (-53 : ℤ)) 2 1 1 * √((2 : ℕ) * ((1 : ℝ) / 1)) := by positivity
    simp only [mul_zero, zero_div, sub_self, add_zero, zero_add]
    linarith
  · rw [div_le_iff₀ (lt_of_lt_of_le hd0 hd)]
    refine hnum.trans (le_trans ?_ (mul_le_mul_of_nonneg_left hd (by norm_num)))
    norm_num

/-- C103 (one deep cut): the cut `x + y + 1/2 ≤ 0` of the disc is within the stated depth -/
example (kd : UpdateKind) (hkd : kd = .bias ∨ kd = .q) :
    ∃ β : Fl bin53, β.val = 1 / 2 ∧ ∃ e', Ell.space.update kd disc (g, SingleCut.mk β) = .ok (.success, e') ∧
      e'.Conditioned 2 (1 / 24) 2 := by
  refine ⟨⟨1 / 2⟩, rfl, ?_⟩
  have hg : ∀ i, g.flVec 2 i = 1 := by intro i; fin_cases i <;> rfl
  obtain ⟨e', h1, h2, -⟩ := C103_deep_step (by norm_num) disc disc_conditioned g g_shape g_ne kd hkd ⟨1 / 2⟩
    (by norm_num) (γ := 1 / 2) (by norm_num) (by norm_num) (by
      have hk : disc.kappa.val = 1 := rfl
      have hh : (1 : ℝ) ≤ √(disc.kappa.val * (g.flVec 2 ⬝ᵥ (disc.mq.flMat 2 *ᵥ g.flVec 2))) := by
        rw [disc_mat, Matrix.one_mulVec, hk]
        apply Real.le_sqrt_of_sq_le
        simp [dotProduct, hg]
      show (1 / 2 : ℝ) ≤ _
      linarith) disc_loss.2
  refine ⟨e', h1, h2.mono (by norm_num) ?_ ?_⟩
  · have := disc_loss.2
    linarith
  · unfold quadErr
    norm_num

/-- C103 (first cuts, run): two central cuts of the disc; the bound `X` is the norm of the first new centre, at least one -/
example : ∃ X, Ell.Along (fun e g => norm2 (e.xc.flVec 2) ≤ X ∧ g.IsVecShape 2 ∧ g.flVec 2 ≠ 0) disc
      [(g, SingleCut.mk 0), (g, SingleCut.mk 0)] ∧
    cutLoss ((2 : ℝ) ^ (-53 : ℤ)) 2 ((13 / 12) ^ 2 * 1) ((1 / 6) ^ 2 * 1) ≤ 1 / 2 := by
  obtain ⟨e', h1, -⟩ := C103_central_step (by norm_num) disc disc_conditioned g g_shape g_ne (SingleCut.mk 0) disc_loss.1
  have hxc : norm2 (disc.xc.flVec 2) = 0 := by
    have : disc.xc.flVec 2 = 0 := by ext i; fin_cases i <;> rfl
    rw [this]
    simp [norm2]
  refine ⟨max 1 (norm2 (e'.xc.flVec 2)), ⟨⟨by rw [hxc]; positivity, g_shape, g_ne⟩, ?_⟩, ?_⟩
  · intro st e1 h
    rw [h1] at h
    obtain ⟨rfl, rfl⟩ : CutStatus.success = st ∧ e' = e1 := by simpa using h
    exact ⟨⟨le_max_right _ _, g_shape, g_ne⟩, fun _ _ _ => trivial⟩
  · unfold cutLoss quadErr
    norm_num

/-- C103: without rounding nothing is inflated -/
example (n : Nat) : inflation 0 n 0 0 1 = 1 ∧ deepInflation 0 n 0 0 0 (1 / 2) 1 = 1 := by
  constructor <;> simp [inflation, deepInflation]

end Ellalgo.ExFl
