import Verif.Props.RoundedDeepCut

/-! Central cuts in rounded arithmetic satisfy the bounds stated for deep cuts. -/

namespace Ellalgo
open Matrix
open scoped ComplexOrder
variable {u : ℝ} {R : Rounding u} {n : Nat}

/-- the constants of central cuts are below those of deep cuts -/
theorem cut_le_deep {lam B γ κ X : ℝ} (h0 : 0 ≤ u) (hu : u ≤ 1 / 64) (hn : 2 ≤ n) (hl : 0 < lam) (hlB : lam ≤ B) (hγ0 : 0 < γ)
    (hγ1 : γ ≤ 1) (hX : 0 ≤ X) (hη : deepLoss u n B lam γ ≤ 1 / 2) :
    0 ≤ cutLoss u n B lam ∧ cutLoss u n B lam ≤ deepLoss u n B lam γ ∧ 0 ≤ cutDrift u n B lam κ X ∧
      cutDrift u n B lam κ X ≤ deepDrift u n B lam κ X γ := by
  obtain ⟨hθ0, h12, hθ, hη0⟩ := deepLoss_small h0 hn hl hlB hγ0 hη
  have hB0 : 0 < B := by linarith
  refine ⟨?_, ?_, ?_, ?_⟩
  · unfold cutLoss; positivity
  · unfold cutLoss deepLoss
    rw [le_div_iff₀ hγ0]
    have a : 0 ≤ quadErr u n B lam * (n * (B / lam)) := by positivity
    nlinarith
  · unfold cutDrift; positivity
  · unfold cutDrift deepDrift
    have a : 0 ≤ u * X / √(κ * lam) := by positivity
    have b : 0 ≤ quadErr u n B lam * √(n * (B / lam)) := by positivity
    have c : 6 ≤ 6 / γ ^ 2 := by
      rw [le_div_iff₀ (by positivity)]
      nlinarith
    have := mul_le_mul_of_nonneg_right c (by linarith : 0 ≤ u * X / √(κ * lam) + 16 * quadErr u n B lam * √(n * (B / lam)))
    nlinarith

theorem inflation_le_deep {γ θ η η' ν ν' t : ℝ} (h0 : 0 ≤ u) (hu1 : u < 1) (hγ0 : 0 < γ) (hγ1 : γ ≤ 1) (hθ0 : 0 ≤ θ)
    (hθ : 96 * θ ≤ γ) (hηη : η' ≤ η) (hη : η ≤ 1 / 2) (hν : 0 ≤ ν') (hνν : ν' ≤ ν) (ht : 1 ≤ t) :
    0 ≤ inflation u n η' ν' t ∧ inflation u n η' ν' t ≤ deepInflation u n θ η ν γ t := by
  have hp : 0 < (1 - u) ^ 13 := pow_sub_nonneg hu1 13
  have hp2 : (1 - u) ^ 13 ≤ (1 - u) ^ 11 := pow_le_pow_of_le_one (by linarith) (by linarith) (by norm_num)
  have hq : 3 * θ / γ ≤ 1 / 32 := by rw [div_le_iff₀ hγ0]; linarith
  have hq0 : 0 ≤ 3 * θ / γ := by positivity
  have hn0 : 0 ≤ 1 / (n : ℝ) := by positivity
  have hden : √((1 - η) * ((1 - 3 * θ / γ) * (1 - u) ^ 13)) ≤ √((1 - η') * (1 - u) ^ 11) := by
    refine Real.sqrt_le_sqrt (mul_le_mul (by linarith) ?_ ?_ (by linarith))
    · nlinarith
    · exact mul_nonneg (by linarith) hp.le
  have hden0 : 0 < √((1 - η) * ((1 - 3 * θ / γ) * (1 - u) ^ 13)) :=
    Real.sqrt_pos.2 (mul_pos (by linarith) (mul_pos (by linarith) hp))
  have hc : 1 ≤ 1 / γ ^ 2 := by
    rw [le_div_iff₀ (by positivity)]
    nlinarith
  have hnum : t + (t - 1) / n + ν' ≤ 1 + (1 + 1 / (n : ℝ)) / γ ^ 2 * (t - 1) + ν := by
    have a : (1 + 1 / (n : ℝ)) * 1 ≤ (1 + 1 / (n : ℝ)) * (1 / γ ^ 2) := mul_le_mul_of_nonneg_left hc (by linarith)
    have b := mul_le_mul_of_nonneg_right a (by linarith : 0 ≤ t - 1)
    have e1 : (1 + 1 / (n : ℝ)) * 1 * (t - 1) = t - 1 + (t - 1) / n := by ring
    have e2 : (1 + 1 / (n : ℝ)) * (1 / γ ^ 2) * (t - 1) = (1 + 1 / (n : ℝ)) / γ ^ 2 * (t - 1) := by ring
    linarith
  have hnn : 0 ≤ t + (t - 1) / n + ν' := by
    have : 0 ≤ (t - 1) / (n : ℝ) := div_nonneg (by linarith) (by positivity)
    linarith
  refine ⟨div_nonneg hnn (Real.sqrt_nonneg _), ?_⟩
  exact div_le_div₀ (hnn.trans hnum) hnum hden0 hden

theorem central_kappa_range {κ κ' θ γ : ℝ} (h0 : 0 ≤ u) (hu : u ≤ 1 / 64) (hn : 2 ≤ n) (hκ : 0 < κ) (hγ0 : 0 < γ) (hγ1 : γ ≤ 1)
    (hθ0 : 0 ≤ θ) (h : Near u 11 κ' (κ * ((n : ℝ) * n / (n * n - 1)))) :
    γ / 2 * κ ≤ κ' ∧ κ' ≤ 2 * κ ∧ (1 - u) ^ 13 * κ' ≤ (1 + 3 * θ / γ) * (κ * ((n : ℝ) * n / (n * n - 1))) := by
  have hn2 : (2 : ℝ) ≤ n := by exact_mod_cast hn
  have hnn : (0 : ℝ) < n * n - 1 := by nlinarith
  have hδ1 : 1 ≤ (n : ℝ) * n / (n * n - 1) := by rw [le_div_iff₀ hnn]; linarith
  have hδ2 : (n : ℝ) * n / (n * n - 1) ≤ 4 / 3 := by rw [div_le_iff₀ hnn]; nlinarith
  have hδκ : 0 < κ * ((n : ℝ) * n / (n * n - 1)) := by positivity
  have hκ' : 0 < κ' := h.pos (by linarith) hδκ
  have h11 : (2 : ℝ) / 3 ≤ (1 - u) ^ 11 := by
    have := one_add_mul_le_pow (by linarith : (-2 : ℝ) ≤ -u) 11
    have e : 1 + -u = 1 - u := by ring
    rw [e] at this
    push_cast at this
    linarith
  have hp2 : (1 - u) ^ 13 ≤ (1 - u) ^ 11 := pow_le_pow_of_le_one (by linarith) (by linarith) (by norm_num)
  obtain ⟨a, b⟩ := h
  have hκδ : κ ≤ κ * ((n : ℝ) * n / (n * n - 1)) := le_mul_of_one_le_right hκ.le hδ1
  refine ⟨?_, ?_, ?_⟩
  · have := mul_le_mul h11 hκδ hκ.le (by linarith)
    nlinarith
  · have c := mul_le_mul_of_nonneg_right h11 hκ'.le
    have d := mul_le_mul_of_nonneg_left hδ2 hκ.le
    linarith
  · have c := mul_le_mul_of_nonneg_right hp2 hκ'.le
    have : 0 ≤ 3 * θ / γ := by positivity
    nlinarith

/-- one cut of any kind and depth `b` (`b = 0` for a central cut) -/
theorem Ell.any_step {lam B γ : ℝ} (hu : u ≤ 1 / 64) (e : Ell (Fl R)) (he : e.Conditioned n lam B) (g : Arr (Fl R))
    (hg : g.IsVecShape n) (hne : g.flVec n ≠ 0) (kd : UpdateKind) (β : Fl R) (b : ℝ)
    (hkd : kd = .central ∧ b = 0 ∨ (kd = .bias ∨ kd = .q) ∧ b = β.val) (hβ : 0 ≤ b)
    (hγ0 : 0 < γ) (hγ1 : γ ≤ 1)
    (hdeep : b ≤ (1 - γ) * √(e.kappa.val * (g.flVec n ⬝ᵥ (e.mq.flMat n *ᵥ g.flVec n))))
    (hη : deepLoss u n B lam γ ≤ 1 / 2) :
    ∃ e', Ell.space.update kd e (g, SingleCut.mk β) = .ok (.success, e') ∧
      e'.Conditioned n ((1 - deepLoss u n B lam γ) * (γ / 6) * lam) ((1 + 32 * quadErr u n B lam) * B) ∧
      (γ / 2 * e.kappa.val ≤ e'.kappa.val ∧ e'.kappa.val ≤ 2 * e.kappa.val ∧
        (1 - u) ^ 13 * e'.kappa.val ≤ (1 + 3 * quadErr u n B lam / γ) * (e.kappa.val * ((n : ℝ) * n / (n * n - 1)))) ∧
      (1 - u) ^ (13 * n) * (e'.kappa.val • e'.mq.flMat n).det ≤ ((1 + 3 * quadErr u n B lam / γ) * (1 + deepLoss u n B lam γ)) ^ n *
        (Real.exp (-(1 / ((n : ℝ) + 1))) * (e.kappa.val • e.mq.flMat n).det) ∧
      e.kappa.val * (g.flVec n ⬝ᵥ (e.mq.flMat n *ᵥ g.flVec n)) / 2 ≤ e'.tsq.val ∧
      ∀ t, 1 ≤ t → ∀ x ∈ ellipsoid (e.mq.flMat n) (t ^ 2 * e.kappa.val) (e.xc.flVec n),
        g.flVec n ⬝ᵥ (x - e.xc.flVec n) + b ≤ 0 →
        x ∈ ellipsoid (e'.mq.flMat n)
          (deepInflation u n (quadErr u n B lam) (deepLoss u n B lam γ)
            (deepDrift u n B lam e.kappa.val (norm2 (e.xc.flVec n)) γ) γ t ^ 2 * e'.kappa.val)
          (e'.xc.flVec n) := by
  rcases hkd with ⟨rfl, rfl⟩ | ⟨hkd, rfl⟩
  swap
  · exact C103_deep_step hu e he g hg hne kd hkd β hβ hγ0 hγ1 hdeep hη
  have h0 := R.unit_nonneg
  have hu1 : u < 1 := by linarith
  have hn := he.dim
  have hn2 : (2 : ℝ) ≤ n := by exact_mod_cast hn
  have hl := he.lam_pos
  have hκ := he.kappa
  have hlB : lam ≤ B := lam_le_entry he.lower he.entries ⟨0, by omega⟩
  have hB0 : 0 < B := by linarith
  have hX0 := norm2_nonneg (e.xc.flVec n)
  obtain ⟨hθ0, h12, hθ, hη0⟩ := deepLoss_small h0 hn hl hlB hγ0 hη
  obtain ⟨c0, c1, c2, c3⟩ := cut_le_deep (κ := e.kappa.val) h0 hu hn hl hlB hγ0 hγ1 hX0 hη
  obtain ⟨e', h1, h2, h3, h4, h5, h6⟩ := C103_central_step hu e he g hg hne (SingleCut.mk β) (c1.trans hη)
  have hq0 : 0 ≤ 3 * quadErr u n B lam / γ := by positivity
  have hdet0 : 0 < (e.kappa.val • e.mq.flMat n).det := ((posDef_of_lower he.symm hl he.lower).smul hκ).det_pos
  have hdet1 : 0 < (e'.kappa.val • e'.mq.flMat n).det := ((posDef_of_lower h2.symm h2.lam_pos h2.lower).smul h2.kappa).det_pos
  have hk := central_kappa_range h0 hu hn hκ hγ0 hγ1 hθ0 h3
  have hs3 : 1 / 3 ≤ ((n : ℝ) - 1) / (n + 1) := by
    rw [div_le_div_iff₀ (by norm_num) (by linarith)]; linarith
  have hlam' : (1 - deepLoss u n B lam γ) * (γ / 6) * lam ≤ (1 - cutLoss u n B lam) * ((n - 1) / (n + 1)) * lam := by
    refine mul_le_mul_of_nonneg_right (mul_le_mul (by linarith) (by linarith) (by linarith) (by linarith)) hl.le
  refine ⟨e', h1, ⟨h2.shaped, h2.dim, h2.helper, h2.noDefer, h2.kappa, h2.symm, ?_, ?_, ?_⟩, hk, ?_, h5, ?_⟩
  · have : 0 < 1 - deepLoss u n B lam γ := by linarith
    positivity
  · intro v
    exact le_trans (mul_le_mul_of_nonneg_right hlam' (dot_self_nonneg' v)) (h2.lower v)
  · intro i j
    refine (h2.entries i j).trans (mul_le_mul_of_nonneg_right ?_ hB0.le)
    linarith
  · have hpow : (1 - u) ^ (13 * n) ≤ (1 - u) ^ (11 * n) :=
      pow_le_pow_of_le_one (by linarith) (by linarith) (by omega)
    refine (mul_le_mul_of_nonneg_right hpow hdet1.le).trans (h4.trans ?_)
    refine mul_le_mul_of_nonneg_right (pow_le_pow_left₀ (by linarith) ?_ n) (mul_pos (Real.exp_pos _) hdet0).le
    nlinarith
  · intro t ht x hx hcut
    obtain ⟨i0, i1⟩ := inflation_le_deep (n := n) (t := t) h0 hu1 hγ0 hγ1 hθ0 hθ c1 hη c2 c3 ht
    have a := h6 t ht x hx (by linarith)
    exact le_trans a (mul_le_mul_of_nonneg_right (pow_le_pow_left₀ i0 i1 2) h2.kappa.le)

end Ellalgo
