import Verif.Props.RoundedProps

/-! Cases that meet the hypotheses of C71, in `f64` rounding (`bin53`). -/

namespace Ellalgo.ExFl
open Ellalgo Matrix
open scoped ComplexOrder

/-- the unit disc in `f64` -/
noncomputable def disc : Ell (Fl bin53) :=
  { noDeferTrick := false, mq := ⟨[1, 0, 0, 1], 2, 2⟩, xc := ⟨[0, 0], 2, 0⟩, kappa := 1, helper := EllCalc.new 2, tsq := 0 }
/-- gradient `(1, 1)` -/
noncomputable def g : Arr (Fl bin53) := ⟨[1, 1], 2, 0⟩

theorem disc_shaped : disc.Shaped 2 := ⟨⟨rfl, rfl, rfl⟩, ⟨rfl, rfl, rfl⟩⟩
theorem g_shape : g.IsVecShape 2 := ⟨rfl, rfl, rfl⟩

theorem disc_mat : disc.mq.flMat 2 = 1 := by
  ext i j
  fin_cases i <;> fin_cases j <;> rfl

theorem disc_posDef : (disc.mq.flMat 2).PosDef := by
  rw [disc_mat]; exact Matrix.PosDef.one

/-- C71: `u < 1` for `f64` -/
example : (2 : ℝ) ^ (-53 : ℤ) < 1 := by norm_num

/-- C71 (tsq, central run): the hypotheses hold -/
example : disc.Shaped 2 ∧ 0 < disc.kappa.val ∧ bin53.Rep disc.kappa.val ∧ disc.helper = EllCalc.new 2 ∧
    disc.noDeferTrick = false ∧ g.IsVecShape 2 :=
  ⟨disc_shaped, one_pos, bin53.one, rfl, rfl, g_shape⟩

/-- C71 (tsq): here the bound is tiny: `tsq` is within `2^-49` of `2` -/
example (e' : Ell (Fl bin53)) (c : SingleCut (Fl bin53)) (st : CutStatus)
    (h : Ell.space.update .bias disc (g, c) = .ok (st, e')) : |e'.tsq.val - 2| ≤ (2 : ℝ) ^ (-49 : ℤ) := by
  have := C71_tsq_error .bias disc e' disc_shaped (by norm_num) one_pos.le g g_shape c st h
  have hg : ∀ i, g.flVec 2 i = 1 := by intro i; fin_cases i <;> rfl
  have hq : g.flVec 2 ⬝ᵥ (disc.mq.flMat 2 *ᵥ g.flVec 2) = 2 := by
    rw [disc_mat, Matrix.one_mulVec]; simp [dotProduct, hg]
  have ha : absQuad (disc.mq.flMat 2) (g.flVec 2) = 2 := by
    unfold absQuad
    simp only [disc_mat, hg, Fin.sum_univ_two]
    simp
    norm_num
  rw [hq, ha] at this
  have hk : disc.kappa.val = 1 := rfl
  rw [hk] at this
  simp only [one_mul] at this
  refine (show |e'.tsq.val - 2| ≤ _ from this).trans ?_
  norm_num

/-- C71 (verdict): an infeasible cut on the disc -/
example : ∃ e', Ell.space.update .bias disc (g, SingleCut.mk (nat 4 : Fl bin53)) = .ok (.noSoln, e') := by
  obtain ⟨st, e', h, -⟩ := Ell.update_shape (by norm_num) .bias disc (g, SingleCut.mk (nat 4 : Fl bin53)) disc_shaped g_shape
  refine ⟨e', ?_⟩
  rw [h]
  have h2 : ((1 : ℝ) + 1) = 2 := by norm_num
  have h4 : bin53.rnd 4 = 4 := by
    have := bin53.double 2
    rw [bin53.two] at this
    norm_num at this
    exact this
  have h16 : bin53.rnd 16 = 16 := by
    have h8 := bin53.double 4
    have := bin53.double 8
    rw [h4] at h8
    norm_num at h8 this
    rw [this, h8]; norm_num
  have hlt : Scalar.lt (disc.kappa * Ell.om 2 disc.mq.mat g.vec) ((nat 4 : Fl bin53) * nat 4) = true := by
    simp only [Fl.lt_eq, decide_eq_true_eq, Fl.mul_val, Fl.natCast_val]
    have ho : (Ell.om 2 disc.mq.mat g.vec).val = 2 := by
      simp [Ell.om, Ell.gt, sumTo, g, disc, Arr.mat, Arr.vec, bin53.one, bin53.two, bin53.zero, h2]
    have hk : disc.kappa.val = 1 := rfl
    rw [ho, hk, one_mul, bin53.two]
    norm_num [h4, h16]
  have hupd := h
  rw [Ell.update_eq] at hupd
  rcases Ell.updateCore_spec disc_shaped.1.isMat disc_shaped.2.isVec g_shape.isVec (by norm_num)
    (CutType.call .bias (SingleCut.mk (nat 4 : Fl bin53)) disc.helper) (st := .noSoln) (ρ := 0) (σ := 0) (δ := 0)
    (by show EllCalc.calcBiasCut _ _ _ = _; unfold EllCalc.calcBiasCut; exact if_pos hlt) with ⟨_, h1⟩ | ⟨h1, _⟩
  · rw [h1] at hupd
    simp only [Res.ok.injEq, Prod.mk.injEq] at hupd
    rw [hupd.1]
  · cases h1

open Classical in
/-- accepts everything from `3/10` on -/
noncomputable def orc : OracleBS Unit (Fl bin53) := ⟨fun w g => .ok (decide (3 / 10 ≤ g.val), w)⟩

/-- C71 (bsearch): the hypotheses hold for the threshold `3/10` on `[0, 1]`, and runs exist -/
example : (∀ w g b w', orc.assess w g = .ok (b, w') → (b = true ↔ (3 / 10 : ℝ) ≤ g.val)) ∧
    bin53.Rep (0 : Fl bin53).val ∧ bin53.Rep (1 : Fl bin53).val ∧ ¬ (3 / 10 : ℝ) ≤ (0 : Fl bin53).val ∧
    (3 / 10 : ℝ) ≤ (1 : Fl bin53).val ∧
    ∃ flag w' ps I', bsearch orc.record ((), []) (0, 1) ⟨1, 0⟩ = .ok ((flag, 1), (w', ps), I') := by
  refine ⟨?_, bin53.zero, bin53.one, ?_, ?_, ?_⟩
  · intro w g b w' h
    simp only [orc, Res.ok.injEq, Prod.mk.injEq] at h
    rw [← h.1]; simp
  · simp only [Fl.zero_val]; norm_num
  · simp only [Fl.one_val]; norm_num
  · have hle : Scalar.le (0 : Fl bin53) 1 = true := by simp
    have hlt : Scalar.lt (((1 : Fl bin53) - 0) / nat 2) (0 : Fl bin53) = false := by
      simp only [Fl.lt_eq, decide_eq_false_iff_not, not_lt]
      exact bin53.nonneg (div_nonneg (bin53.nonneg (by simp)) (bin53.nonneg (by positivity)))
    unfold bsearch
    simp only [hle, Res.assert_true, Res.ok_bind, bsearchLoop, hlt, Bool.false_eq_true, if_false, OracleBS.record, orc]
    split <;> exact ⟨_, _, _, _, rfl⟩

/-- C71 (bsearch stops): with tolerance `2^-20`, at most `20` probes on `[0,1]` -/
example : (1 + (2 : ℝ) ^ (-53 : ℤ)) * (((1 : ℝ) - 0) / 2 ^ 20 + 4 * (2 : ℝ) ^ (-53 : ℤ) * max |(0 : ℝ)| |(1 : ℝ)|) <
    2 * (2 : ℝ) ^ (-20 : ℤ) := by norm_num

end Ellalgo.ExFl
