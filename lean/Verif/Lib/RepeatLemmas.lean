import Verif.Spec.Repeat
import Verif.Props.EllReal

/-! One more time the same cut. -/

namespace Ellalgo
open Matrix

variable {n : Nat} {T : Type} [Cut T] {e : Ell ℝ} {g : Arr ℝ} {c : T} {k : UpdateKind}

theorem reach_zero (n : Nat) (τ β : ℝ) : reach n τ β 0 = τ := by simp [reach]

theorem reach_succ (n : Nat) (τ β : ℝ) (k : Nat) :
    reach n τ β (k + 1) = (n : ℝ) / (n + 1) * (reach n τ β k - β) := by
  have : (n : ℝ) + 1 ≠ 0 := by positivity
  simp only [reach, pow_succ]
  field_simp
  ring

theorem reach_shift (n : Nat) (τ β : ℝ) (k : Nat) :
    reach n ((n : ℝ) / (n + 1) * (τ - β)) β k = reach n τ β (k + 1) := by
  have : (n : ℝ) + 1 ≠ 0 := by positivity
  simp only [reach, pow_succ]
  field_simp
  ring

/-- what is needed of the ellipsoid: it may be degenerate -/
structure Ell.Reaching (n : Nat) (e : Ell ℝ) (g : Fin n → ℝ) : Prop where
  shaped : e.Shaped n
  symm : (e.M n).IsSymm
  helper : e.helper = EllCalc.new n
  nonneg : 0 ≤ e.tsqOf n g

theorem Ell.Valid.reaching (he : e.Valid n) (g : Fin n → ℝ) : e.Reaching n g :=
  ⟨he.shaped, he.symm, he.helper, mul_nonneg he.kappa.le (quad_nonneg he.posDef g)⟩

theorem Ell.Reaching.tau_sq {g : Fin n → ℝ} (h : e.Reaching n g) : e.tau n g ^ 2 = e.tsqOf n g := Real.sq_sqrt h.nonneg

theorem Ell.repeat_call (hk : k = .bias ∨ k = .q) (hhi : Cut.hi c = none) (hlo : 0 ≤ Cut.lo c) {tsq : ℝ} (ht : 0 ≤ tsq) :
    CutType.call k c (EllCalc.new n) tsq =
      if √tsq < Cut.lo c then (.noSoln, 0, 0, 0)
      else (.success, (EllCalcCore.new (n : ℝ)).calcBiasCutFast (Cut.lo c) (√tsq) (√tsq + n * Cut.lo c)) := by
  have hs := Real.sqrt_nonneg tsq
  have h1 : (tsq < Cut.lo c * Cut.lo c) ↔ √tsq < Cut.lo c := by
    rw [← sq, Real.sqrt_lt ht hlo]
  have h2 : ¬ √tsq + n * Cut.lo c < 0 := by
    have : 0 ≤ (n : ℝ) * Cut.lo c := by positivity
    linarith
  rw [Cut.call_eq, hhi]
  rcases hk with rfl | rfl
  · show (EllCalc.new n).calcBiasCut (Cut.lo c) tsq = _
    rw [calcBias_real]
    simp only [h1]
  · show (EllCalc.new n).calcBiasCutQ (Cut.lo c) tsq = _
    rw [calcBiasQ_real, if_neg h2]

theorem Ell.repeat_step (hn : 2 ≤ n) (hk : k = .bias ∨ k = .q) (hhi : Cut.hi c = none) (hlo : 0 ≤ Cut.lo c)
    (hg : g.IsVecShape n) (he : e.Reaching n (g.toVec n)) (hpos : 0 < Cut.lo c ∨ 0 < e.tau n (g.toVec n)) :
    (e.tau n (g.toVec n) < Cut.lo c → Ell.space.update k e (g, c) = .ok (.noSoln, { e with tsq := e.tsqOf n (g.toVec n) })) ∧
    (Cut.lo c ≤ e.tau n (g.toVec n) → ∃ e', Ell.space.update k e (g, c) = .ok (.success, e') ∧
      e'.Reaching n (g.toVec n) ∧ e'.tsq = e.tau n (g.toVec n) ^ 2 ∧
      e'.tau n (g.toVec n) = (n : ℝ) / (n + 1) * (e.tau n (g.toVec n) - Cut.lo c)) := by
  have hn0 : 0 < n := by omega
  have hn1 : (1 : ℝ) < n := by exact_mod_cast (by omega : 1 < n)
  obtain ⟨e', hu⟩ := Ell.update_exists he.shaped he.symm hn0 k (g, c) hg
  obtain ⟨ρ, σ, δ, hc, h2⟩ := Ell.update_real he.shaped he.symm hn0 k (g, c) hg hu
  have hcall := Ell.repeat_call (n := n) hk hhi hlo he.nonneg
  have hτ : √(e.tsqOf n (g.toVec n)) = e.tau n (g.toVec n) := rfl
  rw [hτ] at hcall
  refine ⟨fun hlt => ?_, fun hle => ?_⟩
  · rw [if_pos hlt] at hcall
    have hst : (CutType.call k c e.helper (e.tsqOf n (g.toVec n))).1 = .noSoln := by rw [he.helper, hcall]
    simp only [hst] at h2 hu
    rcases h2 with ⟨-, rfl⟩ | ⟨h, -⟩
    · exact hu
    · simp at h
  · rw [if_neg (not_lt.mpr hle)] at hcall
    have hst : (CutType.call k c e.helper (e.tsqOf n (g.toVec n))).1 = .success := by rw [he.helper, hcall]
    simp only [hst] at h2 hu hc
    rcases h2 with ⟨h, -⟩ | ⟨-, ha⟩
    · simp at h
    have hτ0 : 0 < e.tau n (g.toVec n) := by
      rcases hpos with h | h <;> linarith
    have hτ2 := he.tau_sq
    rw [he.helper, hcall, calcBiasCutFast_real] at hc
    simp only [Prod.mk.injEq, true_and] at hc
    obtain ⟨-, rfl, rfl⟩ := hc
    generalize hτe : e.tau n (g.toVec n) = τ at *
    generalize hβe : Cut.lo c = β at *
    have hω : g.toVec n ⬝ᵥ (e.M n *ᵥ g.toVec n) ≠ 0 := by
      intro h0
      rw [Ell.tsqOf, h0, mul_zero] at hτ2
      nlinarith
    have hq : ∀ s : ℝ, g.toVec n ⬝ᵥ (cutM (e.M n) (g.toVec n) s *ᵥ g.toVec n) =
        (1 - s) * (g.toVec n ⬝ᵥ (e.M n *ᵥ g.toVec n)) := by
      intro s
      rw [cutM_quad]
      field_simp
    have hts : e'.tsqOf n (g.toVec n) = ((n : ℝ) / (n + 1) * (τ - β)) ^ 2 := by
      have h1 : e'.tsqOf n (g.toVec n) = n * n / (n * n - 1) * (1 - β / τ * (β / τ)) *
          (1 - 2 * ((τ + n * β) / (n + 1)) / (τ + β)) * e.tsqOf n (g.toVec n) := by
        rw [Ell.tsqOf, ha.M, ha.kappa, Ell.tsqOf]
        split
        · rw [smul_mulVec, dotProduct_smul, hq, smul_eq_mul]; ring
        · rw [hq]; ring
      rw [h1, ← hτ2]
      have a1 : τ + β ≠ 0 := by linarith
      have a2 : (n : ℝ) + 1 ≠ 0 := by linarith
      have a3 : (n : ℝ) * n - 1 ≠ 0 := by nlinarith
      have a4 : (n : ℝ) - 1 ≠ 0 := by linarith
      have e3 : (n : ℝ) * n - 1 = (n - 1) * (n + 1) := by ring
      rw [e3]
      field_simp
      ring
    refine ⟨e', hu, ⟨ha.shaped, ?_, ha.helper.trans he.helper, ?_⟩, ?_, ?_⟩
    · rw [ha.M]
      split
      · exact (cutM_symm he.symm _ _).smul _
      · exact cutM_symm he.symm _ _
    · rw [hts]; positivity
    · rw [ha.tsq]; exact hτ2.symm
    · rw [Ell.tau, hts, Real.sqrt_sq]
      have : 0 ≤ τ - β := by linarith
      positivity

end Ellalgo
